import Verif.Proofs.RemoveAscend
import Verif.Proofs.Insert

/-!
# Fixing a leaf that is too small
-/

namespace Bpt
variable {K V A : Type}

/-! ## Lists of leaves -/

theorem Seg.update2 {m : List (Option (Leaf K V))} {LA LB : List (Nat × List (K × V))} {i j : Nat}
    {d d' e e' : List (K × V)} {p n : Option Nat}
    (hs : Seg m p (LA ++ (i, d) :: (j, e) :: LB) n)
    (hn : ((LA ++ (i, d) :: (j, e) :: LB).map (·.1)).Nodup) :
    Seg ((m.set i (some ⟨d', lstId p LA, some j⟩)).set j (some ⟨e', some i, hdId LB n⟩)) p
      (LA ++ (i, d') :: (j, e') :: LB) n := by
  have h1 := Seg.update (d' := d') hs hn
  rw [show LA ++ (i, d') :: (j, e) :: LB = (LA ++ [(i, d')]) ++ (j, e) :: LB by simp] at h1
  have h2 := Seg.update (d' := e') h1 (by simpa using hn)
  simpa using h2

/-- Liveness through an update of a live leaf. -/
theorem live_set {m : List (Option (Leaf K V))} {I : List Nat} {i : Nat} {l : Leaf K V}
    (hl : ∀ j l, m[j]? = some (some l) → j ∈ I) (hi : i ∈ I) :
    ∀ j l', (m.set i (some l))[j]? = some (some l') → j ∈ I := by
  intro j l' hj
  by_cases h : i = j
  · exact h ▸ hi
  · rw [List.getElem?_set_ne h] at hj; exact hl j l' hj

/-- Liveness through freeing a leaf. -/
theorem live_free {m : List (Option (Leaf K V))} {I I' : List Nat} {i : Nat}
    (hl : ∀ j l, m[j]? = some (some l) → j ∈ I) (hI : ∀ j ∈ I, j ≠ i → j ∈ I') :
    ∀ j l', (m.set i none)[j]? = some (some l') → j ∈ I' := by
  intro j l' hj
  by_cases h : i = j
  · subst h
    rw [List.getElem?_set] at hj
    split at hj
    · split at hj <;> simp at hj
    · exact absurd rfl ‹_›
  · rw [List.getElem?_set_ne h] at hj; exact hI j (hl j l' hj) (Ne.symm h)

/-- The relinking after a merge of two leaves. -/
theorem relink_ok {s : Store K V A} {LA LB : List (Nat × List (K × V))} {i j : Nat}
    {d d' e : List (K × V)}
    (hs : Seg s.leaves none (LA ++ (i, d) :: (j, e) :: LB) none)
    (hn : ((LA ++ (i, d) :: (j, e) :: LB).map (·.1)).Nodup)
    (hl : ∀ q l, s.leaves[q]? = some (some l) → q ∈ (LA ++ (i, d) :: (j, e) :: LB).map (·.1)) :
    ∃ m2, relinkNext ({ s with leaves := ((s.leaves.set j none).set i (some ⟨d', lstId none LA, hdId LB none⟩)) } : Store K V A)
        ⟨d', lstId none LA, hdId LB none⟩ i
        = .ok { s with leaves := m2 } ∧
      Seg m2 none (LA ++ (i, d') :: LB) none ∧
      ((LA ++ (i, d') :: LB).map (·.1)).Nodup ∧
      ∀ q l, m2[q]? = some (some l) → q ∈ (LA ++ (i, d') :: LB).map (·.1) := by
  have hi : i < s.leaves.length := hs.lt (by simp)
  have hnd : ((LA ++ (i, d') :: LB).map (·.1)).Nodup := by
    simp only [List.map_append, List.map_cons, List.nodup_append, List.nodup_cons,
      List.mem_cons, not_or] at hn ⊢
    refine ⟨hn.1, ⟨hn.2.1.1.2, hn.2.1.2.2⟩, ?_⟩
    intro a ha b hb
    refine hn.2.2 a ha b ?_
    rcases hb with hb | hb
    · exact .inl hb
    · exact .inr (.inr hb)
  have hlive : ∀ q l, ((s.leaves.set j none).set i
      (some ⟨d', lstId none LA, hdId LB none⟩))[q]? = some (some l) →
      q ∈ (LA ++ (i, d') :: LB).map (·.1) := by
    refine live_set (live_free hl ?_) (by simp)
    intro q hq hqj
    simp only [List.map_append, List.map_cons, List.mem_append, List.mem_cons] at hq ⊢
    rcases hq with hq | hq | hq | hq
    · exact .inl hq
    · exact .inr (.inl hq)
    · exact absurd hq hqj
    · exact .inr (.inr hq)
  have hn0 := hn
  simp only [List.map_append, List.map_cons, List.nodup_append, List.nodup_cons,
      List.mem_cons, not_or] at hn
  have hA : Seg ((s.leaves.set j none).set i (some ⟨d', lstId none LA, hdId LB none⟩)) none LA
      (some i) := by
    rw [Seg.append] at hs
    refine Seg.set (fun h => hn.2.2 i h i (.inl rfl) rfl)
      (Seg.set (fun h => hn.2.2 j h j (.inr (.inl rfl)) rfl) ?_)
    simpa using hs.1
  have hi' : ((s.leaves.set j none).set i (some ⟨d', lstId none LA, hdId LB none⟩))[i]?
      = some (some ⟨d', lstId none LA, hdId LB none⟩) := by
    simp [List.getElem?_set_self, hi]
  cases LB with
  | nil =>
    refine ⟨_, rfl, ?_, hnd, hlive⟩
    rw [Seg.append]
    exact ⟨by simpa using hA, hi', trivial⟩
  | cons z LB =>
    have hz := (Seg.get (L := LA ++ [(i, d), (j, e)]) (x := z) (L' := LB) (by simpa using hs))
    simp only [lstId_append, lstId_cons, lstId_nil] at hz
    have hzl : z.1 < s.leaves.length := hs.lt (by simp)
    simp only [List.map_cons, List.nodup_cons, List.mem_cons, not_or] at hn
    obtain ⟨hn1, ⟨⟨hij, hiz, hiB⟩, ⟨hjz, hjB⟩, hzB, hB⟩, hdis⟩ := hn
    have hgz : ({ s with leaves := ((s.leaves.set j none).set i (some ⟨d', lstId none LA, hdId (z :: LB) none⟩)) } : Store K V A).getLeaf z.1
        = .ok ⟨z.2, some j, hdId LB none⟩ := by
      simp only [Store.getLeaf]
      rw [List.getElem?_set_ne hiz, List.getElem?_set_ne hjz, hz]
    refine ⟨((s.leaves.set j none).set i (some ⟨d', lstId none LA, hdId (z :: LB) none⟩)).set z.1
      (some ⟨z.2, some i, hdId LB none⟩), ?_, ?_, hnd, live_set hlive (by simp)⟩
    · simp only [hdId_cons, relinkNext] at hgz ⊢
      rw [hgz]
      rfl
    · rw [Seg.append]
      refine ⟨Seg.set (fun h => hdis z.1 h z.1 (.inr (.inr (.inl rfl))) rfl) (by simpa using hA),
        ?_, ?_, ?_⟩
      · rw [List.getElem?_set_ne (Ne.symm hiz)]; exact hi'
      · simp [List.getElem?_set_self, hzl]
      · have h1 := (Seg.append (L := LA ++ [(i, d), (j, e), z])).1 (by simpa using hs)
        have h2 := h1.2
        simp only [lstId_append, lstId_cons, lstId_nil] at h2
        exact Seg.set hzB (Seg.set hiB (Seg.set hjB h2))

section
variable [Augmentation K V A]

/-! ## The four operations on a pair of leaves -/

/-- The leaves of the store before: `LA`, then `y`, `x`, then `LB`. -/
structure LMem (s : Store K V A) (LA : List (Nat × List (K × V))) (y x : GLeaf K V)
    (LB : List (Nat × List (K × V))) : Prop where
  seg : Seg s.leaves none (LA ++ (y.id, y.data) :: (x.id, x.data) :: LB) none
  nodup : ((LA ++ (y.id, y.data) :: (x.id, x.data) :: LB).map (·.1)).Nodup
  live : ∀ q l, s.leaves[q]? = some (some l) →
    q ∈ (LA ++ (y.id, y.data) :: (x.id, x.data) :: LB).map (·.1)

namespace LMem
variable {s : Store K V A} {LA LB : List (Nat × List (K × V))} {y x : GLeaf K V}

theorem ne (hm : LMem s LA y x LB) : y.id ≠ x.id := by
  have := hm.nodup
  simp only [List.map_append, List.map_cons, List.nodup_append, List.nodup_cons,
      List.mem_cons, not_or] at this
  exact this.2.1.1.1

theorem getL (hm : LMem s LA y x LB) : s.leaves[y.id]? = some (some ⟨y.data, lstId none LA, some x.id⟩) := by
  have := hm.seg.get
  simpa using this

theorem getR (hm : LMem s LA y x LB) : s.leaves[x.id]? = some (some ⟨x.data, some y.id, hdId LB none⟩) := by
  have := Seg.get (L := LA ++ [(y.id, y.data)]) (x := (x.id, x.data)) (L' := LB)
    (by simpa using hm.seg)
  simpa using this

end LMem

variable {s : Store K V A} {p : Pair K A (T K V A 0)} {LA LB : List (Nat × List (K × V))}
  {a b : A} {k : K}

/-- The store has the same inner nodes and holds the given leaves. -/
structure LOut (s s' : Store K V A) (L : List (Nat × List (K × V))) : Prop where
  inners : s'.inners = s.inners
  seg : Seg s'.leaves none L none
  nodup : (L.map (·.1)).Nodup
  live : ∀ q l, s'.leaves[q]? = some (some l) → q ∈ L.map (·.1)

theorem LMem.rotated {y x : GLeaf K V} (hm : LMem s LA y x LB) {d' e' : List (K × V)} :
    Seg ((s.leaves.set y.id (some ⟨d', lstId none LA, some x.id⟩)).set x.id
      (some ⟨e', some y.id, hdId LB none⟩)) none (LA ++ [(y.id, d'), (x.id, e')] ++ LB) none ∧
    ((LA ++ [(y.id, d'), (x.id, e')] ++ LB).map (·.1)).Nodup ∧
    ∀ q l, ((s.leaves.set y.id (some ⟨d', lstId none LA, some x.id⟩)).set x.id
      (some ⟨e', some y.id, hdId LB none⟩))[q]? = some (some l) →
      q ∈ (LA ++ [(y.id, d'), (x.id, e')] ++ LB).map (·.1) := by
  have h1 := Seg.update2 (d' := d') (e' := e') hm.seg hm.nodup
  refine ⟨by simpa using h1, by simpa using hm.nodup, ?_⟩
  have h2 := hm.live
  intro q l hq
  have := live_set (live_set h2 (by simp)) (by simp) q l hq
  simpa using this

theorem rotRightLeaf_ok {yi xi : Nat} {yd d1 d2 : List (K × V)} {e kv : K × V} (hp : p.LenOK)
    (hm : LMem s LA ⟨yi, yd ++ [e]⟩ ⟨xi, d1 ++ kv :: d2⟩ LB) (hy : 16 ≤ yd.length)
    (hx : d1.length < 64) :
    ∃ s', rotateRightForLeaf s (p.inner (.leaf yi) a k (.leaf xi) b) p.kidsL.length d1.length
      = .ok (kv, s', p.inner (.leaf yi) (T.topAug (A := A) (h := 0) ⟨yi, yd⟩) e.1 (.leaf xi)
          (T.topAug (A := A) (h := 0) ⟨xi, e :: (d1 ++ d2)⟩)) ∧
      LOut s s' (LA ++ [(yi, yd), (xi, e :: (d1 ++ d2))] ++ LB) := by
  have hcl := Pair.childId_left (p := p) (i := .leaf yi) (j := .leaf xi) (a := a) (b := b) (k := k)
  have hcr := Pair.childId_right (p := p) (i := .leaf yi) (j := .leaf xi) (a := a) (b := b) (k := k)
  have hne : yi ≠ xi := hm.ne
  have gy := hm.getL
  have gx := hm.getR
  simp only at gy gx
  have gy' : s.getLeaf yi = .ok ⟨yd ++ [e], lstId none LA, some xi⟩ := by
    simp [Store.getLeaf, gy]
  have gx' : (s.setLeaf yi ⟨yd, lstId none LA, some xi⟩).getLeaf xi
      = .ok ⟨d1 ++ kv :: d2, some yi, hdId LB none⟩ := by
    simp only [Store.getLeaf, Store.setLeaf]
    rw [List.getElem?_set_ne hne, gx]
  have hl : (⟨yd ++ [e], lstId none LA, some xi⟩ : Leaf K V).ableToLend = true :=
    decide_eq_true (show 16 < (yd ++ [e]).length by simp; omega)
  have hpop : (⟨yd ++ [e], lstId none LA, some xi⟩ : Leaf K V).pop
      = .ok (e, ⟨yd, lstId none LA, some xi⟩) := by
    have : sliceRemove (yd ++ [e]) ((yd ++ [e]).length - 1) = .ok (e, yd ++ []) :=
      sliceRemove_ok (by simp)
    simp only [Leaf.pop, hl, Bool.not_true, Bool.false_eq_true, if_false, Leaf.len, this, ok_bind,
      pure_ok, List.append_nil]
  have hdel : (⟨d1 ++ kv :: d2, some yi, hdId LB none⟩ : Leaf K V).deleteWithPushFront d1.length e
      = .ok (kv, ⟨e :: (d1 ++ d2), some yi, hdId LB none⟩) := by
    have h1 : ¬ leafN ≤ d1.length := by simp only [leafN]; omega
    have h2 : (d1 ++ kv :: d2).drop (d1.length + 1) = d2 := by
      rw [List.drop_append, List.drop_eq_nil_of_le (by omega)]; simp
    simp [Leaf.deleteWithPushFront, readAt, h2]
    omega
  obtain ⟨h1, h2, h3⟩ := hm.rotated (d' := yd) (e' := e :: (d1 ++ d2))
  refine ⟨{ s with leaves := ((s.leaves.set yi (some ⟨yd, lstId none LA, some xi⟩)).set xi (some ⟨e :: (d1 ++ d2), some yi, hdId LB none⟩)), cached := some xi },
    ?_, ⟨rfl, h1, h2, h3⟩⟩
  · simp only [Store.setLeaf] at gx'
    simp only [rotateRightForLeaf, hcl, hcr, ok_bind, NodeId.leafIdUnchecked, gy', hl,
      Bool.not_true, Bool.false_eq_true, if_false, hpop, Pair.setAug_left hp, gx', hdel,
      Pair.setAug_right hp, Pair.setKey_ok hp, pure_ok, Store.cacheLeaf, Store.setLeaf]
    rfl

theorem rotLeftLeaf_ok {yi xi : Nat} {d1 d2 xd : List (K × V)} {e e2 kv : K × V} (hp : p.LenOK)
    (hm : LMem s LA ⟨yi, d1 ++ kv :: d2⟩ ⟨xi, e :: e2 :: xd⟩ LB) (hx : 15 ≤ xd.length) :
    ∃ s', rotateLeftForLeaf s (p.inner (.leaf yi) a k (.leaf xi) b) p.kidsL.length d1.length
      = .ok (kv, s', p.inner (.leaf yi) (T.topAug (A := A) (h := 0) ⟨yi, d1 ++ d2 ++ [e]⟩) e2.1
          (.leaf xi) (T.topAug (A := A) (h := 0) ⟨xi, e2 :: xd⟩)) ∧
      LOut s s' (LA ++ [(yi, d1 ++ d2 ++ [e]), (xi, e2 :: xd)] ++ LB) := by
  have hcl := Pair.childId_left (p := p) (i := .leaf yi) (j := .leaf xi) (a := a) (b := b) (k := k)
  have hcr := Pair.childId_right (p := p) (i := .leaf yi) (j := .leaf xi) (a := a) (b := b) (k := k)
  have hne : yi ≠ xi := hm.ne
  have gy := hm.getL
  have gx := hm.getR
  simp only at gy gx
  have gx' : s.getLeaf xi = .ok ⟨e :: e2 :: xd, some yi, hdId LB none⟩ := by
    simp [Store.getLeaf, gx]
  have gy' : (s.setLeaf xi ⟨e2 :: xd, some yi, hdId LB none⟩).getLeaf yi
      = .ok ⟨d1 ++ kv :: d2, lstId none LA, some xi⟩ := by
    simp only [Store.getLeaf, Store.setLeaf]
    rw [List.getElem?_set_ne (Ne.symm hne), gy]
  have hl : (⟨e :: e2 :: xd, some yi, hdId LB none⟩ : Leaf K V).ableToLend = true :=
    decide_eq_true (show 16 < (e :: e2 :: xd).length by simp; omega)
  have hpop : (⟨e :: e2 :: xd, some yi, hdId LB none⟩ : Leaf K V).popFront
      = .ok (e, ⟨e2 :: xd, some yi, hdId LB none⟩) := by
    simp [Leaf.popFront, hl, sliceRemove]
  have hfirst : (⟨e2 :: xd, some yi, hdId LB none⟩ : Leaf K V).dataAt 0 = .ok e2 := by
    simp [Leaf.dataAt, readAt]
  have hdel : (⟨d1 ++ kv :: d2, lstId none LA, some xi⟩ : Leaf K V).deleteWithPush d1.length e
      = .ok (kv, ⟨d1 ++ d2 ++ [e], lstId none LA, some xi⟩) := by
    simp only [Leaf.deleteWithPush, sliceRemove_ok rfl, ok_bind, pure_ok]
  obtain ⟨h1, h2, h3⟩ := hm.rotated (d' := d1 ++ d2 ++ [e]) (e' := e2 :: xd)
  have hcomm : (s.leaves.set xi (some ⟨e2 :: xd, some yi, hdId LB none⟩)).set yi
      (some ⟨d1 ++ d2 ++ [e], lstId none LA, some xi⟩) =
      (s.leaves.set yi (some ⟨d1 ++ d2 ++ [e], lstId none LA, some xi⟩)).set xi
      (some ⟨e2 :: xd, some yi, hdId LB none⟩) := List.set_comm _ _ (Ne.symm hne)
  refine ⟨{ s with leaves := ((s.leaves.set yi (some ⟨d1 ++ d2 ++ [e], lstId none LA, some xi⟩)).set xi (some ⟨e2 :: xd, some yi, hdId LB none⟩)), cached := some yi },
    ?_, ⟨rfl, h1, h2, h3⟩⟩
  · simp only [Store.setLeaf] at gy'
    simp only [rotateLeftForLeaf, hcl, hcr, ok_bind, NodeId.leafIdUnchecked, gx', hl,
      Bool.not_true, Bool.false_eq_true, if_false, hpop, Pair.setAug_left hp, gy', hdel, hfirst,
      Pair.setAug_right hp, Pair.setKey_ok hp, pure_ok, Store.cacheLeaf, Store.setLeaf, hcomm]
    rfl

theorem mergeLeftLeaf_ok {yi xi : Nat} {yd d1 d2 : List (K × V)} {kv : K × V} (hp : p.LenOK)
    (hm : LMem s LA ⟨yi, yd⟩ ⟨xi, d1 ++ kv :: d2⟩ LB)
    (hle : yd.length + d1.length + d2.length ≤ 64) :
    ∃ s', mergeLeafNodeLeft s (p.inner (.leaf yi) a k (.leaf xi) b) p.kidsL.length d1.length
      = .ok (if decide (16 ≤ p.len) = true then .done kv else .innerUnderSize kv, s',
          (p.one (T.topAug (A := A) (h := 0) ⟨yi, yd ++ (d1 ++ d2)⟩)).inner (.leaf yi)) ∧
      LOut s s' (LA ++ [(yi, yd ++ (d1 ++ d2))] ++ LB) := by
  have hcl := Pair.childId_left (p := p) (i := .leaf yi) (j := .leaf xi) (a := a) (b := b) (k := k)
  have hcr := Pair.childId_right (p := p) (i := .leaf yi) (j := .leaf xi) (a := a) (b := b) (k := k)
  have hne : yi ≠ xi := hm.ne
  have gy := hm.getL
  have gx := hm.getR
  simp only at gy gx
  obtain ⟨m2, hrel, h1, h2, h3⟩ := relink_ok (d' := yd ++ (d1 ++ d2)) hm.seg hm.nodup hm.live
  simp only at hrel
  have htake : s.takeLeaf xi = .ok (⟨d1 ++ kv :: d2, some yi, hdId LB none⟩,
      { s with leaves := s.leaves.set xi none }) := by
    simp [Store.takeLeaf, gx]
  have gy' : ({ s with leaves := s.leaves.set xi none } : Store K V A).getLeaf yi
      = .ok ⟨yd, lstId none LA, some xi⟩ := by
    simp only [Store.getLeaf]
    rw [List.getElem?_set_ne (Ne.symm hne), gy]
  have hmerge : (⟨yd, lstId none LA, some xi⟩ : Leaf K V).mergeRightDeleteFirst d1.length
      ⟨d1 ++ kv :: d2, some yi, hdId LB none⟩
      = .ok (kv, ⟨yd ++ (d1 ++ d2), lstId none LA, hdId LB none⟩) := by
    have e2 : (d1 ++ kv :: d2).drop (d1.length + 1) = d2 := by
      rw [List.drop_append, List.drop_eq_nil_of_le (by omega)]; simp
    have c1 : yd.length + d1.length ≤ leafN := by simp only [leafN]; omega
    have c2 : (yd ++ d1).length + d2.length ≤ leafN := by
      simp only [leafN, List.length_append]; omega
    simp only [Leaf.mergeRightDeleteFirst, readAt, List.getElem?_append_right, Nat.le_refl,
      Nat.sub_self, List.getElem?_cons_zero, ok_bind, List.take_left, e2, Leaf.extend, Leaf.len,
      c1, if_true, c2, pure_ok, List.append_assoc]
  refine ⟨{ s with leaves := m2, cached := some yi }, ?_, ⟨rfl, by simpa using h1,
    by simpa using h2, by simpa using h3⟩⟩
  simp only [mergeLeafNodeLeft, hcl, hcr, ok_bind, NodeId.leafIdUnchecked, htake, gy', hmerge,
    Pair.setAug_left hp, Store.setLeaf]
  rw [hrel]
  simp only [ok_bind, Pair.removeSlot_ok hp, pure_ok, Store.cacheLeaf]
  rfl

theorem mergeRightLeaf_ok {yi xi : Nat} {xd d1 d2 : List (K × V)} {kv : K × V} (hp : p.LenOK)
    (hm : LMem s LA ⟨yi, d1 ++ kv :: d2⟩ ⟨xi, xd⟩ LB)
    (hle : d1.length + d2.length + xd.length ≤ 64) :
    ∃ s', mergeLeafNodeWithRight s (p.inner (.leaf yi) a k (.leaf xi) b) p.kidsL.length d1.length
      = .ok (if decide (16 ≤ p.len) = true then .done kv else .innerUnderSize kv, s',
          (p.one (T.topAug (A := A) (h := 0) ⟨yi, d1 ++ d2 ++ xd⟩)).inner (.leaf yi)) ∧
      LOut s s' (LA ++ [(yi, d1 ++ d2 ++ xd)] ++ LB) := by
  have hcl := Pair.childId_left (p := p) (i := .leaf yi) (j := .leaf xi) (a := a) (b := b) (k := k)
  have hcr := Pair.childId_right (p := p) (i := .leaf yi) (j := .leaf xi) (a := a) (b := b) (k := k)
  have hne : yi ≠ xi := hm.ne
  have gy := hm.getL
  have gx := hm.getR
  simp only at gy gx
  obtain ⟨m2, hrel, h1, h2, h3⟩ := relink_ok (d' := d1 ++ d2 ++ xd) hm.seg hm.nodup hm.live
  simp only at hrel
  have htake : s.takeLeaf xi = .ok (⟨xd, some yi, hdId LB none⟩,
      { s with leaves := s.leaves.set xi none }) := by
    simp [Store.takeLeaf, gx]
  have gy' : ({ s with leaves := s.leaves.set xi none } : Store K V A).getLeaf yi
      = .ok ⟨d1 ++ kv :: d2, lstId none LA, some xi⟩ := by
    simp only [Store.getLeaf]
    rw [List.getElem?_set_ne (Ne.symm hne), gy]
  have hdel : (⟨d1 ++ kv :: d2, lstId none LA, some xi⟩ : Leaf K V).deleteAt d1.length
      = .ok (kv, ⟨d1 ++ d2, lstId none LA, some xi⟩) := by
    simp only [Leaf.deleteAt, sliceRemove_ok rfl, ok_bind, pure_ok]
  have hmerge : (⟨d1 ++ d2, lstId none LA, some xi⟩ : Leaf K V).mergeRight
      ⟨xd, some yi, hdId LB none⟩
      = .ok ⟨d1 ++ d2 ++ xd, lstId none LA, hdId LB none⟩ := by
    have c2 : (d1 ++ d2).length + xd.length ≤ leafN := by
      simp only [leafN, List.length_append]; omega
    simp only [Leaf.mergeRight, Leaf.extend, Leaf.len, c2, if_true, ok_bind, pure_ok]
  refine ⟨{ s with leaves := m2, cached := some yi }, ?_, ⟨rfl, by simpa using h1,
    by simpa using h2, by simpa using h3⟩⟩
  simp only [mergeLeafNodeWithRight, hcl, hcr, ok_bind, NodeId.leafIdUnchecked, htake, gy', hdel,
    hmerge, Pair.setAug_left hp, Store.setLeaf]
  rw [hrel]
  simp only [ok_bind, Pair.removeSlot_ok hp, pure_ok, Store.cacheLeaf]
  rfl

end
end Bpt
