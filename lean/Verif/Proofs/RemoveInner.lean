import Verif.Proofs.Pair

/-!
# Fixing an inner node that is too small
-/

namespace Bpt
variable {K V A : Type}

/-! ## Statistics -/

/-- Leaf-level fixes counted. -/
def Statistic.leafFixes (s : Statistic) : Nat :=
  s.rotateRightLeaf + s.rotateLeftLeaf + s.mergeWithLeftLeaf + s.mergeWithRightLeaf

/-- Inner-level fixes counted. -/
def Statistic.innerFixes (s : Statistic) : Nat :=
  s.rotateRightInner + s.rotateLeftInner + s.mergeWithLeftInner + s.mergeWithRightInner

/-- Merges of inner nodes counted. -/
def Statistic.innerMerges (s : Statistic) : Nat := s.mergeWithLeftInner + s.mergeWithRightInner

/-- Merges of leaves counted. -/
def Statistic.leafMerges (s : Statistic) : Nat := s.mergeWithLeftLeaf + s.mergeWithRightLeaf

/-- No counter decreased. -/
def Statistic.LE (a b : Statistic) : Prop :=
  a.rotateRightInner ≤ b.rotateRightInner ∧ a.rotateLeftInner ≤ b.rotateLeftInner ∧
  a.mergeWithLeftInner ≤ b.mergeWithLeftInner ∧ a.mergeWithRightInner ≤ b.mergeWithRightInner ∧
  a.rotateRightLeaf ≤ b.rotateRightLeaf ∧ a.rotateLeftLeaf ≤ b.rotateLeftLeaf ∧
  a.mergeWithLeftLeaf ≤ b.mergeWithLeftLeaf ∧ a.mergeWithRightLeaf ≤ b.mergeWithRightLeaf

theorem Statistic.LE.refl {a : Statistic} : a.LE a := by simp [Statistic.LE]
theorem Statistic.LE.trans {a b c : Statistic} (h1 : a.LE b) (h2 : b.LE c) : a.LE c := by
  simp only [Statistic.LE] at *; omega

/-! ## Memory -/

theorem IMem.upd {m : List (Option (Inner K A))} {L : List (Nat × Inner K A)} {i : Nat}
    {n n' : Inner K A} (hm : IMem m ((i, n) :: L)) (hn : (((i, n) :: L).map (·.1)).Nodup) :
    IMem (m.set i (some n')) ((i, n') :: L) := by
  have := IMem.update (P := []) (n' := n') hm hn
  exact this

theorem IMem.rem {m : List (Option (Inner K A))} {L : List (Nat × Inner K A)} {i : Nat}
    {n : Inner K A} (hm : IMem m ((i, n) :: L)) (hn : (((i, n) :: L).map (·.1)).Nodup) :
    IMem (m.set i none) L := by
  rw [List.map_cons, List.nodup_cons] at hn
  exact (IMem.cons.1 hm).2.set hn.1

/-- Three updates. -/
theorem IMem.upd3 {m : List (Option (Inner K A))} {L : List (Nat × Inner K A)} {p x y : Nat}
    {n1 n2 n3 n1' n2' n3' : Inner K A} (hm : IMem m ((p, n1) :: (x, n2) :: (y, n3) :: L))
    (hn : (((p, n1) :: (x, n2) :: (y, n3) :: L).map (·.1)).Nodup) :
    IMem (((m.set x (some n2')).set y (some n3')).set p (some n1'))
      ((p, n1') :: (x, n2') :: (y, n3') :: L) := by
  have h1 : ((p, n1) :: (x, n2) :: (y, n3) :: L).Perm ((x, n2) :: (y, n3) :: (p, n1) :: L) := by
    perm
  have a1 := IMem.upd (n' := n2') (hm.perm h1) ((List.Perm.ids h1).1 hn)
  have h2 : ((x, n2') :: (y, n3) :: (p, n1) :: L).Perm ((y, n3) :: (p, n1) :: (x, n2') :: L) := by
    perm
  have b1 : (((x, n2') :: (y, n3) :: (p, n1) :: L).map (·.1)).Nodup := by
    simpa using (List.Perm.ids h1).1 hn
  have a2 := IMem.upd (n' := n3') (a1.perm h2) ((List.Perm.ids h2).1 b1)
  have h3 : ((y, n3') :: (p, n1) :: (x, n2') :: L).Perm ((p, n1) :: (x, n2') :: (y, n3') :: L) := by
    perm
  have b2 : (((y, n3') :: (p, n1) :: (x, n2') :: L).map (·.1)).Nodup := by
    simpa using (List.Perm.ids h2).1 b1
  exact IMem.upd (n' := n1') (a2.perm h3) ((List.Perm.ids h3).1 b2)

theorem countP_set_none {m : List (Option (Inner K A))} {i : Nat} {n : Inner K A}
    (h : m[i]? = some (some n)) :
    (m.set i none).countP (·.isSome) + 1 = m.countP (·.isSome) := by
  induction m generalizing i with
  | nil => simp at h
  | cons a m ih =>
    cases i with
    | zero =>
      obtain rfl : a = some n := by simpa using h
      simp
    | succ i =>
      rw [List.set_cons_succ, List.countP_cons, List.countP_cons, ← ih (by simpa using h)]
      omega

theorem countP_upd3 {m : List (Option (Inner K A))} {p x y : Nat}
    {n1 n2 n3 n1' n2' n3' : Inner K A} (hx : m[x]? = some (some n2)) (hy : m[y]? = some (some n3))
    (hp : m[p]? = some (some n1)) (h1 : x ≠ y) (h2 : x ≠ p) (h3 : y ≠ p) :
    (((m.set x (some n2')).set y (some n3')).set p (some n1')).countP (·.isSome) + 0
      = m.countP (·.isSome) := by
  rw [countP_set_some (n := n1), countP_set_some (n := n3), countP_set_some hx]; rfl
  · rw [List.getElem?_set_ne h1]; exact hy
  · rw [List.getElem?_set_ne h3, List.getElem?_set_ne h2]; exact hp

theorem nodup3 {L : List (Nat × Inner K A)} {p x y : Nat}
    {n1 n2 n3 n1' n2' n3' : Inner K A}
    (hn : (((p, n1) :: (x, n2) :: (y, n3) :: L).map (·.1)).Nodup) :
    (((p, n1') :: (x, n2') :: (y, n3') :: L).map (·.1)).Nodup := by simpa using hn

/-! ## Shapes -/

theorem merge_shape {μ ml mr : Nat} {r : Bool} {h : Nat} {y x : GNode K A (T K V A h)} {i : Nat}
    {k : K} (hy : T.ShapeTop μ (h := h + 1) ml false y) (hx : T.ShapeTop μ (h := h + 1) mr r x)
    (h64 : y.keys.length + x.keys.length + 1 ≤ 64) {m : Nat}
    (hm : m ≤ y.keys.length + x.keys.length + 1) :
    T.ShapeTop μ (h := h + 1) m r
      (⟨i, y.keys ++ k :: x.keys, y.kids ++ x.kids, y.augs ++ x.augs⟩ : GNode K A (T K V A h)) := by
  obtain ⟨_, _, y3, y4, y5⟩ := hy
  obtain ⟨_, _, x3, x4, x5⟩ := hx
  rw [mnAt_false, SpineL_same] at y5
  refine ⟨?_, ?_, ?_, ?_, ?_⟩
  · simp only [List.length_append, List.length_cons]; omega
  · simp only [List.length_append, List.length_cons]; omega
  · simp only [List.length_append, List.length_cons]; omega
  · simp only [List.length_append, List.length_cons]; omega
  · simp only
    rw [SpineL_append (by intro h0; rw [h0] at x3; simp at x3)]
    exact ⟨y5, x5⟩

theorem merge_inorder {h : Nat} {y x : GNode K A (T K V A h)} {i : Nat} {k : K}
    (hy : y.kids.length = y.keys.length + 1) (hx : x.kids.length = x.keys.length + 1) :
    T.inorder (h := h + 1)
      (⟨i, y.keys ++ k :: x.keys, y.kids ++ x.kids, y.augs ++ x.augs⟩ : GNode K A (T K V A h))
      = T.inorder (h := h + 1) y ++ E.sep k :: T.inorder (h := h + 1) x := by
  simp only [T.inorder, List.map_append]
  rw [inter_append (by simpa using hy) (by simpa using hx)]

/-- What is known of an inner node that was reported too small. -/
def Under (μ m : Nat) (r : Bool) : {h : Nat} → T K V A h → Prop
  | 0, _ => False
  | _ + 1, x => T.ShapeTop μ (m - 1) r x ∧ (GNode.keys x).length < 16 ∧
      ((GNode.keys x).length = 0 → ∀ c ∈ GNode.kids x, T.ShapeTop μ 16 r c)

/-- The tree below and the result handed up. -/
def Out (μ m : Nat) (r : Bool) {h : Nat} (x : T K V A h) (kv : K × V) (d : DeleteResult K V) : Prop :=
  (d = .done kv ∧ T.ShapeTop μ m r x) ∨ (d = .innerUnderSize kv ∧ Under μ m r x)

section
variable [Augmentation K V A]

/-! ## The three operations on a pair of inner children -/

/-- Effect of a rotation or merge on a pair of children; `g` is the new parent. -/
structure PairFix {h : Nat} (p : Pair K A (T K V A (h + 1))) (y : T K V A (h + 1)) (a : A) (k : K)
    (x : T K V A (h + 1)) (b : A) (Lc : List (Nat × Inner K A))
    (inners0 inners : List (Option (Inner K A))) (pn : Inner K A) (g : GNode K A (T K V A (h + 1)))
    (n : Nat) : Prop where
  id : g.id = p.id
  node : g.inner = pn
  imem : IMem (inners.set p.id (some pn)) (T.nodes (h := h + 2) g ++ Lc)
  nodup : ((T.nodes (h := h + 2) g ++ Lc).map (·.1)).Nodup
  inorder : T.inorder (h := h + 2) g = T.inorder (h := h + 2) (p.fill y a k x b)
  leaves : T.leaves (h := h + 2) g = T.leaves (h := h + 2) (p.fill y a k x b)
  aug : p.AugOK → T.AugOK y → T.AugOK x → T.AugOK (h := h + 2) g
  count : (T.nodes (h := h + 2) g).length + n = (T.nodes (h := h + 2) (p.fill y a k x b)).length
  alloc : (inners.set p.id (some pn)).countP (·.isSome) + n = inners0.countP (·.isSome)

variable {h : Nat} {s : Store K V A} {p : Pair K A (T K V A (h + 1))} {y x : GNode K A (T K V A h)}
  {a b : A} {k : K} {Lc : List (Nat × Inner K A)}

theorem PairFix.by_stat {y' x' : T K V A (h + 1)} {inners0 inners pn g} {n n' : Nat}
    (hf : PairFix p y' a k x' b Lc inners0 inners pn g n) (e : n = n') :
    PairFix p y' a k x' b Lc inners0 inners pn g n' := e ▸ hf

/-- The memory of a pair of inner children. -/
def PairMem (s : Store K V A) (p : Pair K A (T K V A (h + 1))) (y : GNode K A (T K V A h)) (a : A)
    (k : K) (x : GNode K A (T K V A h)) (b : A) (Lc : List (Nat × Inner K A)) : Prop :=
  IMem s.inners ((p.id, p.inner (.inner y.id) a k (.inner x.id) b) :: (y.id, y.inner) ::
    (x.id, x.inner) :: (y.kids.flatMap T.nodes ++ x.kids.flatMap T.nodes ++ p.side ++ Lc)) ∧
  (((p.id, p.inner (.inner y.id) a k (.inner x.id) b) :: (y.id, y.inner) ::
    (x.id, x.inner) :: (y.kids.flatMap T.nodes ++ x.kids.flatMap T.nodes ++ p.side ++ Lc)).map
      (·.1)).Nodup

theorem pairMem_iff : PairMem s p y a k x b Lc ↔
    IMem s.inners (T.nodes (h := h + 2) (p.fill y a k x b) ++ Lc) ∧
    ((T.nodes (h := h + 2) (p.fill y a k x b) ++ Lc).map (·.1)).Nodup := by
  have hp : (T.nodes (h := h + 2) (p.fill y a k x b) ++ Lc).Perm
      ((p.id, p.inner (.inner y.id) a k (.inner x.id) b) :: (y.id, y.inner) ::
    (x.id, x.inner) :: (y.kids.flatMap T.nodes ++ x.kids.flatMap T.nodes ++ p.side ++ Lc)) := by
    refine (Pair.nodes_fill.append_right Lc).trans ?_
    simp only [T.nodes, T.nid_succ]
    perm
  rw [List.Perm.ids hp]
  exact ⟨fun h => ⟨h.1.perm hp.symm, h.2⟩, fun h => ⟨h.1.perm hp, h.2⟩⟩

theorem rotRight_no (hM : PairMem s p y a k x b Lc) (hy : ¬ 16 < y.keys.length) :
    tryRotateRightInner s (p.inner (.inner y.id) a k (.inner x.id) b) p.kidsL.length = .ok none := by
  have gy : s.getInner y.id = .ok y.inner := hM.1.get (p := (y.id, y.inner)) (by simp)
  have hl : y.inner.ableToLend = false := decide_eq_false hy
  have hcl := Pair.childId_left (p := p) (i := .inner y.id) (j := .inner x.id) (a := a) (b := b) (k := k)
  have hcr := Pair.childId_right (p := p) (i := .inner y.id) (j := .inner x.id) (a := a) (b := b) (k := k)
  simp only [tryRotateRightInner, hcl, hcr, ok_bind,
    NodeId.innerIdUnchecked, gy, hl, Bool.false_eq_true, if_false, pure_ok]

theorem rotLeft_no (hM : PairMem s p y a k x b Lc) (hx : ¬ 16 < x.keys.length) :
    tryRotateLeftInner s (p.inner (.inner y.id) a k (.inner x.id) b) p.kidsL.length = .ok none := by
  have gx : s.getInner x.id = .ok x.inner := hM.1.get (p := (x.id, x.inner)) (by simp)
  have hl : x.inner.ableToLend = false := decide_eq_false hx
  have hcl := Pair.childId_left (p := p) (i := .inner y.id) (j := .inner x.id) (a := a) (b := b) (k := k)
  have hcr := Pair.childId_right (p := p) (i := .inner y.id) (j := .inner x.id) (a := a) (b := b) (k := k)
  simp only [tryRotateLeftInner, hcl, hcr, ok_bind,
    NodeId.innerIdUnchecked, gx, hl, Bool.false_eq_true, if_false, pure_ok]

theorem PairMem.ne (hM : PairMem s p y a k x b Lc) : y.id ≠ x.id ∧ p.id ≠ y.id ∧ p.id ≠ x.id := by
  have := hM.2
  simp only [List.map_cons, List.nodup_cons, List.mem_cons, not_or] at this
  exact ⟨this.2.1.1, this.1.1, this.1.2.1⟩

theorem rotRight_yes {μ ml mr : Nat} {r : Bool} (hp : p.LenOK) (hM : PairMem s p y a k x b Lc)
    (hy : T.ShapeTop μ (h := h + 1) ml false y) (hx : T.ShapeTop μ (h := h + 1) mr r x)
    (hy16 : 16 < y.keys.length) (hx16 : x.keys.length < 16) :
    ∃ inners pn k' y' x', tryRotateRightInner s (p.inner (.inner y.id) a k (.inner x.id) b)
        p.kidsL.length = .ok (some ({ s with inners := inners }, pn)) ∧
      PairFix p y a k x b Lc s.inners inners pn (p.fill y' y'.topAug k' x' x'.topAug) 0 ∧
      T.ShapeTop μ (h := h + 1) 16 false y' ∧ T.ShapeTop μ (h := h + 1) (mr + 1) r x' := by
  obtain ⟨yi, yk, yc, ya⟩ := y
  obtain ⟨xi, xk, xc, xa⟩ := x
  obtain ⟨y1, y2, y3, y4, y5⟩ := hy
  obtain ⟨x1, x2, x3, x4, x5⟩ := hx
  simp only at y1 y2 y3 y4 y5 x1 x2 x3 x4 x5 hy16 hx16
  rcases List.eq_nil_or_concat yk with rfl | ⟨yk, k1, rfl⟩
  · simp at hy16
  rcases List.eq_nil_or_concat yc with rfl | ⟨yc, c1, rfl⟩
  · simp at y3
  rcases List.eq_nil_or_concat ya with rfl | ⟨ya, a1, rfl⟩
  · simp at y4
  simp only [List.concat_eq_append, List.length_append, List.length_singleton,
    Nat.add_right_cancel_iff] at *
  have gy : s.getInner yi = .ok ⟨yk ++ [k1], yc.map T.nid ++ [c1.nid], ya ++ [a1]⟩ := by
    have := hM.1.get (p := (yi, _)) (.tail _ (.head _))
    simpa [GNode.inner] using this
  obtain ⟨hne, hpy, hpx⟩ := hM.ne
  simp only at hne hpy hpx
  have hcl := Pair.childId_left (p := p) (i := .inner yi) (j := .inner xi) (a := a) (b := b) (k := k)
  have hcr := Pair.childId_right (p := p) (i := .inner yi) (j := .inner xi) (a := a) (b := b) (k := k)
  have hl : (⟨yk ++ [k1], yc.map T.nid ++ [c1.nid], ya ++ [a1]⟩ : Inner K A).ableToLend = true := by
    simp [Inner.ableToLend, Inner.len, minN, innerN]; omega
  have hpop : (⟨yk ++ [k1], yc.map T.nid ++ [c1.nid], ya ++ [a1]⟩ : Inner K A).pop
      = .ok ((k1, c1.nid, a1), ⟨yk, yc.map T.nid, ya⟩) := by
    have e1 : (yk ++ [k1])[yk.length]? = some k1 := by simp
    have e2 : (yc.map T.nid ++ [c1.nid])[yk.length + 1]? = some c1.nid := by
      rw [show yk.length + 1 = (yc.map T.nid).length by simp; omega]; simp
    have e3 : (ya ++ [a1])[yk.length + 1]? = some a1 := by
      rw [show yk.length + 1 = ya.length by omega]; simp
    have t1 : (yk ++ [k1]).take yk.length = yk := by simp
    have t2 : (yc.map T.nid ++ [c1.nid]).take (yk.length + 1) = yc.map T.nid := by
      rw [show yk.length + 1 = (yc.map T.nid).length by simp; omega]; simp
    have t3 : (ya ++ [a1]).take (yk.length + 1) = ya := by
      rw [show yk.length + 1 = ya.length by omega]; simp
    simp only [Inner.pop, Inner.len, List.length_append, List.length_singleton,
      Nat.add_one_sub_one, readAt, e1, e2, e3, ok_bind, pure_ok, t1, t2, t3]
    simp
  have gx : (s.setInner yi ⟨yk, yc.map T.nid, ya⟩).getInner xi = .ok ⟨xk, xc.map T.nid, xa⟩ := by
    have h1 : s.getInner xi = .ok ⟨xk, xc.map T.nid, xa⟩ :=
      hM.1.get (p := (xi, _)) (.tail _ (.tail _ (.head _)))
    simp only [Store.getInner, Store.setInner] at h1 ⊢
    rw [List.getElem?_set_ne hne]; exact h1
  have hpush : (⟨xk, xc.map T.nid, xa⟩ : Inner K A).pushFront k c1.nid a1
      = .ok ⟨k :: xk, c1.nid :: xc.map T.nid, a1 :: xa⟩ := by
    rw [Inner.pushFront, if_pos (by simp only [Inner.len, innerN]; omega)]
  let y' : GNode K A (T K V A h) := ⟨yi, yk, yc, ya⟩
  let x' : GNode K A (T K V A h) := ⟨xi, k :: xk, c1 :: xc, a1 :: xa⟩
  let pn := p.inner (.inner yi) (T.topAug (h := h + 1) y') k1 (.inner xi) (T.topAug (h := h + 1) x')
  refine ⟨(s.inners.set yi (some y'.inner)).set xi (some x'.inner), pn, k1, y', x', ?_, ?_, ?_, ?_⟩
  · simp only [tryRotateRightInner, hcl, hcr, ok_bind,
      NodeId.innerIdUnchecked, gy, hl, if_true, hpop, Pair.setKey_ok hp, gx, hpush,
      Pair.setAug_left hp, Pair.setAug_right hp, pure_ok]
    rfl
  · have hperm : (T.nodes (h := h + 2) (p.fill y' (T.topAug (h := h + 1) y') k1 x'
        (T.topAug (h := h + 1) x')) ++ Lc).Perm
        ((p.id, pn) :: (yi, y'.inner) :: (xi, x'.inner) ::
          ((yc ++ [c1]).flatMap T.nodes ++ xc.flatMap T.nodes ++ p.side ++ Lc)) := by
      refine (Pair.nodes_fill.append_right Lc).trans ?_
      simp only [T.nodes, T.nid_succ, x', y', pn]
      perm
    refine ⟨rfl, Pair.inner_fill, ?_, ?_, ?_, ?_, ?_, ?_, ?_⟩
    · exact (IMem.upd3 hM.1 hM.2).perm hperm.symm
    · exact (List.Perm.ids hperm).2 (nodup3 hM.2)
    · rw [Pair.inorder_fill hp, Pair.inorder_fill hp]
      congr 2
      have e1 : T.inorder (h := h + 1) (⟨yi, yk ++ [k1], yc ++ [c1], ya ++ [a1]⟩ :
          GNode K A (T K V A h)) = T.inorder (h := h + 1) y' ++ E.sep k1 :: c1.inorder := by
        simp only [T.inorder, y', List.map_append, List.map_cons, List.map_nil]
        rw [inter_append (by simp; omega) (by simp)]
        simp [inter]
      have e2 : T.inorder (h := h + 1) x' = c1.inorder ++ E.sep k ::
          T.inorder (h := h + 1) (⟨xi, xk, xc, xa⟩ : GNode K A (T K V A h)) := by
        simp only [T.inorder, x', List.map_cons]
        rcases xc with _ | ⟨d, xc⟩
        · simp at x3
        · simp [inter]
      rw [e1, e2]
      simp
    · rw [Pair.leaves_fill, Pair.leaves_fill]
      simp [T.leaves, x', y']
    · intro h1 h2 h3
      have e2 : ya ++ [a1] = (yc ++ [c1]).map T.topAug := h2.1
      have e3 : xa = xc.map T.topAug := h3.1
      simp only [List.map_append, List.map_cons, List.map_nil] at e2
      obtain ⟨e4, e5⟩ := List.append_inj' e2 (by simp)
      simp only [List.cons.injEq, and_true] at e5
      refine Pair.augOK_fill h1 ⟨e4, fun c hc => h2.2 c (List.mem_append_left _ hc)⟩
        ⟨?_, ?_⟩
      · simp [x', e5, e3]
      · intro c hc
        simp only [x', List.mem_cons] at hc
        rcases hc with rfl | hc
        · exact h2.2 c (List.mem_append_right _ (List.mem_singleton_self _))
        · exact h3.2 c hc
    · rw [Pair.nodes_fill.length_eq, Pair.nodes_fill.length_eq]
      simp only [T.nodes, x', y', List.length_append, List.length_cons, List.flatMap_append,
        List.flatMap_cons, List.flatMap_nil, List.length_nil]
      omega
    · exact countP_upd3 (hM.1 _ (.tail _ (.head _))) (hM.1 _ (.tail _ (.tail _ (.head _))))
        (hM.1 _ (.head _)) hne (Ne.symm hpy) (Ne.symm hpx)
  · rw [mnAt_false, SpineL_same] at y5
    refine ⟨by simp only [y']; omega, by simp only [y']; omega, by simp only [y']; omega,
      by simp only [y']; omega, ?_⟩
    rw [mnAt_false, SpineL_same]
    exact fun c hc => y5 c (List.mem_append_left _ hc)
  · rw [mnAt_false, SpineL_same] at y5
    refine ⟨by simp only [x', List.length_cons]; omega, by simp only [x', List.length_cons]; omega,
      by simp only [x', List.length_cons]; omega, by simp only [x', List.length_cons]; omega, ?_⟩
    simp only [x']
    rw [SpineL_cons]
    refine ⟨?_, x5⟩
    rw [if_neg (by rintro rfl; simp at x3)]
    exact y5 c1 (List.mem_append_right _ (List.mem_singleton_self _))

theorem rotLeft_yes {μ ml mr : Nat} {r : Bool} (hp : p.LenOK) (hM : PairMem s p y a k x b Lc)
    (hy : T.ShapeTop μ (h := h + 1) ml false y) (hx : T.ShapeTop μ (h := h + 1) mr r x)
    (hx16 : 16 < x.keys.length) (hy16 : y.keys.length < 16) :
    ∃ inners pn k' y' x', tryRotateLeftInner s (p.inner (.inner y.id) a k (.inner x.id) b)
        p.kidsL.length = .ok (some ({ s with inners := inners }, pn)) ∧
      PairFix p y a k x b Lc s.inners inners pn (p.fill y' y'.topAug k' x' x'.topAug) 0 ∧
      T.ShapeTop μ (h := h + 1) (ml + 1) false y' ∧ T.ShapeTop μ (h := h + 1) 16 r x' := by
  obtain ⟨yi, yk, yc, ya⟩ := y
  obtain ⟨xi, xk, xc, xa⟩ := x
  obtain ⟨y1, y2, y3, y4, y5⟩ := hy
  obtain ⟨x1, x2, x3, x4, x5⟩ := hx
  simp only at y1 y2 y3 y4 y5 x1 x2 x3 x4 x5 hy16 hx16
  rcases xk with _ | ⟨k1, xk⟩
  · simp at hx16
  rcases xc with _ | ⟨c1, xc⟩
  · simp at x3
  rcases xa with _ | ⟨a1, xa⟩
  · simp at x4
  simp only [List.length_cons, Nat.add_right_cancel_iff] at x1 x2 x3 x4 hx16
  have gx : s.getInner xi = .ok ⟨k1 :: xk, c1.nid :: xc.map T.nid, a1 :: xa⟩ := by
    have := hM.1.get (p := (xi, _)) (.tail _ (.tail _ (.head _)))
    simpa [GNode.inner] using this
  obtain ⟨hne, hpy, hpx⟩ := hM.ne
  simp only at hne hpy hpx
  have hcl := Pair.childId_left (p := p) (i := .inner yi) (j := .inner xi) (a := a) (b := b) (k := k)
  have hcr := Pair.childId_right (p := p) (i := .inner yi) (j := .inner xi) (a := a) (b := b) (k := k)
  have hl : (⟨k1 :: xk, c1.nid :: xc.map T.nid, a1 :: xa⟩ : Inner K A).ableToLend = true :=
    decide_eq_true (show 16 < (k1 :: xk).length by simp only [List.length_cons]; omega)
  have hpop : (⟨k1 :: xk, c1.nid :: xc.map T.nid, a1 :: xa⟩ : Inner K A).popFront
      = .ok ((k1, c1.nid, a1), ⟨xk, xc.map T.nid, xa⟩) := by
    simp [Inner.popFront, sliceRemove]
  have gy : (s.setInner xi ⟨xk, xc.map T.nid, xa⟩).getInner yi = .ok ⟨yk, yc.map T.nid, ya⟩ := by
    have h1 : s.getInner yi = .ok ⟨yk, yc.map T.nid, ya⟩ :=
      hM.1.get (p := (yi, _)) (.tail _ (.head _))
    simp only [Store.getInner, Store.setInner] at h1 ⊢
    rw [List.getElem?_set_ne (Ne.symm hne)]; exact h1
  have hpush : (⟨yk, yc.map T.nid, ya⟩ : Inner K A).push k c1.nid a1
      = .ok ⟨yk ++ [k], yc.map T.nid ++ [c1.nid], ya ++ [a1]⟩ := by
    rw [Inner.push, if_pos (by simp only [Inner.len, innerN]; omega)]
  let y' : GNode K A (T K V A h) := ⟨yi, yk ++ [k], yc ++ [c1], ya ++ [a1]⟩
  let x' : GNode K A (T K V A h) := ⟨xi, xk, xc, xa⟩
  have hy'i : y'.inner = ⟨yk ++ [k], yc.map T.nid ++ [c1.nid], ya ++ [a1]⟩ := by
    simp [y', GNode.inner]
  let pn := p.inner (.inner yi) (T.topAug (h := h + 1) y') k1 (.inner xi) (T.topAug (h := h + 1) x')
  refine ⟨(s.inners.set xi (some x'.inner)).set yi (some y'.inner), pn, k1, y', x', ?_, ?_, ?_, ?_⟩
  · simp only [tryRotateLeftInner, hcl, hcr, ok_bind,
      NodeId.innerIdUnchecked, gx, hl, if_true, hpop, Pair.setKey_ok hp, gy, hpush,
      Pair.setAug_left hp, Pair.setAug_right hp, pure_ok]
    rw [hy'i]; rfl
  · have hperm0 : ((p.id, p.inner (.inner yi) a k (.inner xi) b) ::
        (yi, (⟨yi, yk, yc, ya⟩ : GNode K A (T K V A h)).inner) ::
        (xi, (⟨xi, k1 :: xk, c1 :: xc, a1 :: xa⟩ : GNode K A (T K V A h)).inner) ::
        (yc.flatMap T.nodes ++ (c1 :: xc).flatMap T.nodes ++ p.side ++ Lc)).Perm
        ((p.id, p.inner (.inner yi) a k (.inner xi) b) ::
        (xi, (⟨xi, k1 :: xk, c1 :: xc, a1 :: xa⟩ : GNode K A (T K V A h)).inner) ::
        (yi, (⟨yi, yk, yc, ya⟩ : GNode K A (T K V A h)).inner) ::
        (yc.flatMap T.nodes ++ (c1 :: xc).flatMap T.nodes ++ p.side ++ Lc)) :=
      List.Perm.cons _ (List.Perm.swap _ _ _)
    have hperm : (T.nodes (h := h + 2) (p.fill y' (T.topAug (h := h + 1) y') k1 x'
        (T.topAug (h := h + 1) x')) ++ Lc).Perm
        ((p.id, pn) :: (xi, x'.inner) :: (yi, y'.inner) ::
          (yc.flatMap T.nodes ++ (c1 :: xc).flatMap T.nodes ++ p.side ++ Lc)) := by
      refine (Pair.nodes_fill.append_right Lc).trans ?_
      simp only [T.nodes, T.nid_succ, x', y', pn]
      perm
    have hM1 := hM.1.perm hperm0
    have hM2 := (List.Perm.ids hperm0).1 hM.2
    refine ⟨rfl, Pair.inner_fill, ?_, ?_, ?_, ?_, ?_, ?_, ?_⟩
    · exact (IMem.upd3 hM1 hM2).perm hperm.symm
    · exact (List.Perm.ids hperm).2 (nodup3 hM2)
    · rw [Pair.inorder_fill hp, Pair.inorder_fill hp]
      congr 2
      have e1 : T.inorder (h := h + 1) y' = T.inorder (h := h + 1) (⟨yi, yk, yc, ya⟩ :
          GNode K A (T K V A h)) ++ E.sep k :: c1.inorder := by
        simp only [T.inorder, y', List.map_append, List.map_cons, List.map_nil]
        rw [inter_append (by simp; omega) (by simp)]
        simp [inter]
      have e2 : T.inorder (h := h + 1) (⟨xi, k1 :: xk, c1 :: xc, a1 :: xa⟩ :
          GNode K A (T K V A h)) = c1.inorder ++ E.sep k1 :: T.inorder (h := h + 1) x' := by
        simp only [T.inorder, x', List.map_cons]
        rcases xc with _ | ⟨d, xc⟩
        · simp at x3
        · simp [inter]
      rw [e1, e2]
      simp
    · rw [Pair.leaves_fill, Pair.leaves_fill]
      simp [T.leaves, x', y']
    · intro h1 h2 h3
      have e2 : ya = yc.map T.topAug := h2.1
      have e3 : a1 :: xa = (c1 :: xc).map T.topAug := h3.1
      simp only [List.map_cons, List.cons.injEq] at e3
      refine Pair.augOK_fill h1 ⟨?_, ?_⟩ ⟨e3.2, fun c hc => h3.2 c (List.mem_cons_of_mem _ hc)⟩
      · simp [y', e2, e3.1]
      · intro c hc
        simp only [y', List.mem_append, List.mem_singleton] at hc
        rcases hc with hc | rfl
        · exact h2.2 c hc
        · exact h3.2 c List.mem_cons_self
    · rw [Pair.nodes_fill.length_eq, Pair.nodes_fill.length_eq]
      simp only [T.nodes, x', y', List.length_append, List.length_cons, List.flatMap_append,
        List.flatMap_cons, List.flatMap_nil, List.length_nil]
      omega
    · exact countP_upd3 (hM.1 _ (.tail _ (.tail _ (.head _)))) (hM.1 _ (.tail _ (.head _)))
        (hM.1 _ (.head _)) (Ne.symm hne) (Ne.symm hpx) (Ne.symm hpy)
  · rw [mnAt_false, SpineL_same] at y5
    have hc1 : T.ShapeTop μ 16 false c1 := by
      rw [SpineL_cons, if_neg (by rintro rfl; simp at x3)] at x5
      exact x5.1
    refine ⟨by simp only [y', List.length_append, List.length_singleton]; omega,
      by simp only [y', List.length_append, List.length_singleton]; omega,
      by simp only [y', List.length_append, List.length_singleton]; omega,
      by simp only [y', List.length_append, List.length_singleton]; omega, ?_⟩
    rw [mnAt_false, SpineL_same]
    intro c hc
    simp only [y', List.mem_append, List.mem_singleton] at hc
    rcases hc with hc | rfl
    · exact y5 c hc
    · exact hc1
  · refine ⟨by simp only [x']; omega, by simp only [x']; omega,
      by simp only [x']; omega, by simp only [x']; omega, ?_⟩
    rw [SpineL_cons] at x5
    exact x5.2

theorem mergeInner_ok {μ ml mr : Nat} {r : Bool} (hp : p.LenOK) (hM : PairMem s p y a k x b Lc)
    (hy : T.ShapeTop μ (h := h + 1) ml false y) (hx : T.ShapeTop μ (h := h + 1) mr r x)
    (hle : y.keys.length + x.keys.length + 1 ≤ 64) (h16 : 16 ≤ y.keys.length + x.keys.length + 1) :
    ∃ inners pn z, mergeInnerNode s (p.inner (.inner y.id) a k (.inner x.id) b)
        p.kidsL.length = .ok (decide (16 ≤ p.len), { s with inners := inners }, pn) ∧
      PairFix p y a k x b Lc s.inners inners pn ((p.one z.topAug).fill z) 1 ∧
      T.ShapeTop μ (h := h + 1) 16 r z := by
  obtain ⟨hne, hpy, hpx⟩ := hM.ne
  have hcl := Pair.childId_left (p := p) (i := .inner y.id) (j := .inner x.id) (a := a) (b := b) (k := k)
  have hcr := Pair.childId_right (p := p) (i := .inner y.id) (j := .inner x.id) (a := a) (b := b) (k := k)
  let z : GNode K A (T K V A h) := ⟨y.id, y.keys ++ k :: x.keys, y.kids ++ x.kids, y.augs ++ x.augs⟩
  have gx : s.inners[x.id]? = some (some x.inner) :=
    hM.1 (x.id, x.inner) (.tail _ (.tail _ (.head _)))
  have gy : s.inners[y.id]? = some (some y.inner) := hM.1 (y.id, y.inner) (.tail _ (.head _))
  have hlen : p.kidsL.length < (p.inner (.inner y.id) a k (.inner x.id) b).len := by
    have := hp.1
    simp only [Inner.len, Pair.inner, List.length_append, List.length_cons]; omega
  have htake : s.takeInner x.id = .ok (x.inner, { s with inners := s.inners.set x.id none }) := by
    simp [Store.takeInner, gx]
  have gy' : ({ s with inners := s.inners.set x.id none } : Store K V A).getInner y.id
      = .ok y.inner := by
    simp only [Store.getInner]
    rw [List.getElem?_set_ne (Ne.symm hne), gy]
  have hmerge : y.inner.mergeNext k x.inner = .ok z.inner := by
    rw [Inner.mergeNext, if_neg (by simp only [Inner.len, GNode.inner, innerN]; omega),
      if_neg (by simp only [Inner.len, GNode.inner, innerN]; omega)]
    simp [z, GNode.inner]
  have hset : ((p.one a).inner (.inner y.id)).setAugmentation p.kidsL.length (innerAug V z.inner)
      = .ok ((p.one (T.topAug (h := h + 1) z)).inner (.inner y.id)) := by
    exact setAug_inner (f := p.one a) hp.one
  refine ⟨(s.inners.set x.id none).set y.id (some z.inner),
    (p.one (T.topAug (h := h + 1) z)).inner (.inner y.id), z, ?_, ?_, ?_⟩
  · simp only [mergeInnerNode, hlen, not_true_eq_false, if_false, hcl,
      hcr, ok_bind, NodeId.innerIdUnchecked, Pair.removeSlot_ok hp, htake, gy',
      hmerge, hset, pure_ok, Store.setInner]
  · have hperm : (T.nodes (h := h + 2) ((p.one (T.topAug (h := h + 1) z)).fill z) ++ Lc).Perm
        ((p.id, (p.one (T.topAug (h := h + 1) z)).inner (.inner y.id)) :: (y.id, z.inner) ::
          (y.kids.flatMap T.nodes ++ x.kids.flatMap T.nodes ++ p.side ++ Lc)) := by
      refine (Pair.nodes_one.append_right Lc).trans ?_
      simp only [T.nodes, T.nid_succ, z]
      perm
    have h1 : ((p.id, p.inner (.inner y.id) a k (.inner x.id) b) :: (y.id, y.inner) ::
        (x.id, x.inner) :: (y.kids.flatMap T.nodes ++ x.kids.flatMap T.nodes ++ p.side ++ Lc)).Perm
        ((x.id, x.inner) :: (y.id, y.inner) ::
        (p.id, p.inner (.inner y.id) a k (.inner x.id) b) ::
          (y.kids.flatMap T.nodes ++ x.kids.flatMap T.nodes ++ p.side ++ Lc)) := by perm
    have n1 := (List.Perm.ids h1).1 hM.2
    have a1 := IMem.rem (hM.1.perm h1) n1
    have n2 := n1
    rw [List.map_cons, List.nodup_cons] at n2
    have a2 := IMem.upd (n' := z.inner) a1 n2.2
    have h2 : ((y.id, z.inner) ::
        (p.id, p.inner (.inner y.id) a k (.inner x.id) b) ::
          (y.kids.flatMap T.nodes ++ x.kids.flatMap T.nodes ++ p.side ++ Lc)).Perm
        ((p.id, p.inner (.inner y.id) a k (.inner x.id) b) :: (y.id, z.inner) ::
          (y.kids.flatMap T.nodes ++ x.kids.flatMap T.nodes ++ p.side ++ Lc)) := by perm
    have n3 : (((y.id, z.inner) ::
        (p.id, p.inner (.inner y.id) a k (.inner x.id) b) ::
          (y.kids.flatMap T.nodes ++ x.kids.flatMap T.nodes ++ p.side ++ Lc)).map (·.1)).Nodup := by
      simpa using n2.2
    have n4 := (List.Perm.ids h2).1 n3
    have a3 := IMem.upd (n' := (p.one (T.topAug (h := h + 1) z)).inner (.inner y.id)) (a2.perm h2) n4
    refine ⟨rfl, GNode.inner_fill, a3.perm hperm.symm, (List.Perm.ids hperm).2 ?_, ?_, ?_, ?_, ?_, ?_⟩
    · simpa using n4
    · rw [Pair.inorder_one hp, Pair.inorder_fill hp, merge_inorder hy.lens.1 hx.lens.1]
    · rw [Pair.leaves_one, Pair.leaves_fill]
      simp [T.leaves, z]
    · intro h1 h2 h3
      refine Pair.augOK_one h1 ⟨?_, ?_⟩
      · have e1 : y.augs = y.kids.map T.topAug := h2.1
        have e2 : x.augs = x.kids.map T.topAug := h3.1
        simp [z, e1, e2]
      · intro c hc
        simp only [z, List.mem_append] at hc
        rcases hc with hc | hc
        · exact h2.2 c hc
        · exact h3.2 c hc
    · rw [Pair.nodes_one.length_eq, Pair.nodes_fill.length_eq]
      simp only [T.nodes, z, List.length_append, List.length_cons, List.flatMap_append]
      omega
    · have gp := hM.1 _ (.head _)
      simp only at gp
      rw [countP_set_some (n := p.inner (.inner y.id) a k (.inner x.id) b), countP_set_some (n := y.inner)]
      · exact countP_set_none gx
      · rw [List.getElem?_set_ne (Ne.symm hne)]; exact gy
      · rw [List.getElem?_set_ne (Ne.symm hpy), List.getElem?_set_ne (Ne.symm hpx)]; exact gp
  · exact merge_shape hy hx hle h16

end
end Bpt
