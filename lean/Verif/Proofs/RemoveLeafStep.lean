import Verif.Proofs.RemoveLeaf

/-!
# The leaf step of the ascending phase of a removal
-/

namespace Bpt
variable {K V A : Type}

section order
variable [LinearOrder K]

abbrev ek (d : List (K × V)) : List (E K) := d.map (fun kv => E.key kv.1)

theorem ord_rotRight {P Q : List (E K)} {yd d1 d2 : List (K × V)} {e kv : K × V} {k : K}
    (hy : yd ≠ [])
    (h : (P ++ (ek (yd ++ [e]) ++ E.sep k :: ek (d1 ++ kv :: d2)) ++ Q).Pairwise E.R) :
    (P ++ (ek yd ++ E.sep e.1 :: ek (e :: (d1 ++ d2))) ++ Q).Pairwise E.R := by
  have h1 : (P ++ ((yd.map (·.1)).map E.key ++ E.key e.1 :: (ek (d1 ++ d2) ++ Q))).Pairwise E.R := by
    refine h.sublist ?_
    simp only [ek, List.map_append, List.map_cons, List.map_map, Function.comp_def, List.append_assoc,
      List.map_nil, List.cons_append, List.nil_append]
    refine List.Sublist.append_left (List.Sublist.append_left (List.Sublist.cons_cons _
      (List.Sublist.cons _ (List.Sublist.append_left (List.Sublist.cons _ (List.Sublist.refl _)) _)))
        _) _
  have h2 := pairwise_split (by simpa using hy) h1
  simpa [ek, Function.comp_def] using h2

theorem ord_rotLeft {P Q : List (E K)} {xd d1 d2 : List (K × V)} {e e2 kv : K × V} {k : K}
    (h : (P ++ (ek (d1 ++ kv :: d2) ++ E.sep k :: ek (e :: e2 :: xd)) ++ Q).Pairwise E.R) :
    (P ++ (ek (d1 ++ d2 ++ [e]) ++ E.sep e2.1 :: ek (e2 :: xd)) ++ Q).Pairwise E.R := by
  have h1 : (P ++ (((d1 ++ d2 ++ [e]).map (·.1)).map E.key ++ E.key e2.1 :: (ek xd ++ Q))).Pairwise
      E.R := by
    refine h.sublist ?_
    simp only [ek, List.map_append, List.map_cons, List.map_map, Function.comp_def, List.append_assoc,
      List.map_nil, List.cons_append, List.nil_append]
    refine List.Sublist.append_left (List.Sublist.append_left (List.Sublist.cons _
      (List.Sublist.append_left (List.Sublist.cons _ (List.Sublist.refl _)) _)) _) _
  have h2 := pairwise_split (by simp) h1
  simpa [ek, Function.comp_def] using h2

theorem ord_mergeLeft {P Q : List (E K)} {yd d1 d2 : List (K × V)} {kv : K × V} {k : K}
    (h : (P ++ (ek yd ++ E.sep k :: ek (d1 ++ kv :: d2)) ++ Q).Pairwise E.R) :
    (P ++ ek (yd ++ (d1 ++ d2)) ++ Q).Pairwise E.R := by
  refine h.sublist ?_
  simp only [ek, List.map_append, List.map_cons, List.append_assoc, List.cons_append]
  exact List.Sublist.append_left (List.Sublist.append_left (List.Sublist.cons _
      (List.Sublist.append_left (List.Sublist.cons _ (List.Sublist.refl _)) _)) _) _

theorem ord_mergeRight {P Q : List (E K)} {xd d1 d2 : List (K × V)} {kv : K × V} {k : K}
    (h : (P ++ (ek (d1 ++ kv :: d2) ++ E.sep k :: ek xd) ++ Q).Pairwise E.R) :
    (P ++ ek (d1 ++ d2 ++ xd) ++ Q).Pairwise E.R := by
  refine h.sublist ?_
  simp only [ek, List.map_append, List.map_cons, List.append_assoc, List.cons_append]
  exact List.Sublist.append_left (List.Sublist.append_left (List.Sublist.cons _
      (List.Sublist.append_left (List.Sublist.cons _ (List.Sublist.refl _)) _)) _) _

end order

section
variable [LinearOrder K] [Augmentation K V A]

/-- What the leaf step of the ascending loop does. -/
structure LeafStep (μ m : Nat) (rr : Bool) (s : Store K V A) (st : Statistic)
    (f : Frame K A (T K V A 0)) (x : GLeaf K V) (Lc : List (Nat × Inner K A))
    (LA LB : List (Nat × List (K × V))) (d1 : List (K × V)) (kv : K × V) (d2 : List (K × V))
    (g : T K V A 1) (d : DeleteResult K V) (s1 : Store K V A) (st1 : Statistic) : Prop where
  run : ∀ stk, removeAscend s st ((f.id, f.kidsL.length, .leaf x.id) :: stk)
    (.leafUnderSize d1.length) = removeAscend s1 st1 stk d
  nid : g.nid = .inner f.id
  out : Out μ m rr g kv d
  imem : IMem s1.inners (g.nodes ++ Lc)
  nodup : ((g.nodes ++ Lc).map (·.1)).Nodup
  seg : Seg s1.leaves none (LA ++ g.leaves ++ LB) none
  lnodup : ((LA ++ g.leaves ++ LB).map (·.1)).Nodup
  live : ∀ q l, s1.leaves[q]? = some (some l) → q ∈ (LA ++ g.leaves ++ LB).map (·.1)
  ord : ∀ P Q, (P ++ (f.inL ++ ek x.data ++ f.inR) ++ Q).Pairwise E.R →
    (P ++ g.inorder ++ Q).Pairwise E.R
  content : g.leaves.flatMap (·.2) = f.lvL.flatMap (·.2) ++ (d1 ++ d2) ++ f.lvR.flatMap (·.2)
  aug : f.AugOK → g.AugOK
  stat : st.LE st1 ∧ st1.leafFixes = st.leafFixes + 1 ∧ st1.innerFixes = st.innerFixes
  size : d = .done kv → (GNode.keys g).length = f.len ∨ 16 ≤ (GNode.keys g).length
  alloc : s1.inners.countP (·.isSome) = s.inners.countP (·.isSome)
  count : g.leaves.length + st1.leafMerges = f.lvL.length + 1 + f.lvR.length + st.leafMerges

theorem side0 {X : List (T K V A 0)} : X.flatMap (fun c => T.nodes c) = [] := by
  induction X with
  | nil => rfl
  | cons a l ih => simp [List.flatMap_cons, ih, T.nodes]

variable {μ m : Nat} {rr : Bool} {s : Store K V A} {st : Statistic}
  {Lc : List (Nat × Inner K A)} {LA LB : List (Nat × List (K × V))} {kv : K × V}

theorem leaf_step (hμ : μ ≤ 16) (hm16 : m ≤ 16) {f : Frame K A (T K V A 0)} {i : Nat}
    {d1 d2 : List (K × V)} (hf : f.LenOK) (h64 : f.len ≤ 64)
    (hS : f.Sides μ rr) (hm : m ≤ f.len) (h1 : 1 ≤ f.len)
    (hmem : IMem s.inners (f.nodes (.leaf i) ++ Lc))
    (hn : ((f.nodes (.leaf i) ++ Lc).map (·.1)).Nodup)
    (hseg : Seg s.leaves none (LA ++ (f.lvL ++ (i, d1 ++ kv :: d2) :: f.lvR) ++ LB) none)
    (hlnd : ((LA ++ (f.lvL ++ (i, d1 ++ kv :: d2) :: f.lvR) ++ LB).map (·.1)).Nodup)
    (hlive : ∀ q l, s.leaves[q]? = some (some l) →
      q ∈ (LA ++ (f.lvL ++ (i, d1 ++ kv :: d2) :: f.lvR) ++ LB).map (·.1))
    (hxS : mnAt μ 0 (f.holeFlag rr) ≤ (d1 ++ kv :: d2).length)
    (hx16 : (d1 ++ kv :: d2).length ≤ 16) :
    ∃ g d s1 st1, LeafStep μ m rr s st f ⟨i, d1 ++ kv :: d2⟩ Lc LA LB d1 kv d2 g d s1 st1 := by
  have hxl : (d1 ++ kv :: d2).length = d1.length + d2.length + 1 := by simp; omega
  have hget : s.getInner f.id = .ok (f.inner (.leaf i)) :=
    hmem.get (p := (f.id, f.inner (.leaf i))) (by simp [Frame.nodes])
  have hnode : f.nodes (.leaf i) = [(f.id, f.inner (.leaf i))] := by
    simp only [Frame.nodes, Frame.side]
    rw [side0, side0]; rfl
  rw [hnode] at hmem hn
  have hsz : f.len = (f.inner (.leaf i)).len := by simp [Frame.inner, Inner.len, Frame.len]
  have himem : ∀ (s' : Store K V A) (pn : Inner K A) (g : GNode K A (T K V A 0)), g.id = f.id →
      g.inner = pn → s'.inners = s.inners →
      (IMem (s'.setInner f.id pn).inners (T.nodes (h := 1) g ++ Lc) ∧
      ((T.nodes (h := 1) g ++ Lc).map (·.1)).Nodup) ∧
      (s'.setInner f.id pn).inners.countP (·.isSome) = s.inners.countP (·.isSome) := by
    intro s' pn g h1 h2 h3
    have : T.nodes (h := 1) g = [(f.id, pn)] := by
      rw [← h1, ← h2]
      exact congrArg _ side0
    rw [this]
    simp only [Store.setInner, h3]
    exact ⟨⟨IMem.upd hmem hn, by simpa using hn⟩, countP_set_some (hmem _ (.head _))⟩
  have run : ∀ (d : DeleteResult K V) (s' : Store K V A) (st1 : Statistic) (pn : Inner K A),
      handleLeafUnderSize s st (f.inner (.leaf i)) f.kidsL.length d1.length = .ok (d, s', st1, pn) →
      ∀ stk, removeAscend s st ((f.id, f.kidsL.length, .leaf i) :: stk) (.leafUnderSize d1.length)
        = removeAscend (s'.setInner f.id pn) st1 stk d := by
    intro d s' st1 pn hh stk
    simp only [removeAscend, hget, ok_bind, hh]
  have hR : 0 < f.kidsR.length → f.kidsL.length < (f.inner (.leaf i)).len := by
    intro h
    have := hf.1; have := hf.2.2.1
    rw [← hsz]; simp only [Frame.len]; omega
  have hnR : ¬ 0 < f.kidsR.length → ¬ f.kidsL.length < (f.inner (.leaf i)).len := by
    intro h
    have := hf.1; have := hf.2.2.1
    rw [← hsz]; simp only [Frame.len]; omega
  -- facts on the left pair
  have left : 0 < f.kidsL.length → ∃ (p : Pair K A (T K V A 0)) (y : GLeaf K V) (a : A) (k : K)
      (LA' : List (Nat × List (K × V))) (p1 n1 : Option Nat), p.LenOK ∧ p.Sides μ rr ∧ p.kidsL.length + 1 = f.kidsL.length ∧
      p.len + 1 = f.len ∧ 16 ≤ y.data.length ∧ y.data.length ≤ 64 ∧
      p.holeFlag rr = f.holeFlag rr ∧ p.id = f.id ∧
      f.inner (.leaf i) = p.inner (.leaf y.id) a k (.leaf i) f.aug ∧
      LA' = LA ++ p.lvL ∧ LMem s LA' y ⟨i, d1 ++ kv :: d2⟩ (p.lvR ++ LB) ∧
      f.inL = p.inL ++ (ek y.data ++ [E.sep k]) ∧ f.inR = p.inR ∧
      f.lvL = p.lvL ++ [(y.id, y.data)] ∧ f.lvR = p.lvR ∧ (f.AugOK → p.AugOK) ∧
      (∃ id, (f.inner (.leaf i)).childId (f.kidsL.length - 1) = .ok (.leaf id) ∧
        s.getLeaf id = .ok ⟨y.data, p1, n1⟩) := by
    intro hL
    obtain ⟨p, y, a, k, hfp, hp, hpl, hplen⟩ := Frame.pair_left hf hL
    have hS' := hS
    rw [hfp] at hS'
    obtain ⟨hpS, hyS⟩ := hS'.right
    have hlvL : f.lvL = p.lvL ++ [(GLeaf.id y, GLeaf.data y)] := by
      rw [hfp]; simp [Frame.lvL, Pair.right, Pair.lvL, T.leaves]
    have hlvR : f.lvR = p.lvR := by rw [hfp]; rfl
    have hinn : f.inner (.leaf i) = p.inner (.leaf (GLeaf.id y)) a k (.leaf i) f.aug := by
      conv => lhs; rw [hfp]
      simp [Frame.inner, Pair.right, Pair.inner]
    have hM : LMem s (LA ++ p.lvL) y ⟨i, d1 ++ kv :: d2⟩ (p.lvR ++ LB) := by
      rw [hlvL, hlvR] at hseg hlnd hlive
      exact ⟨by simpa using hseg, by simpa using hlnd, by simpa using hlive⟩
    have hg := hM.getL
    refine ⟨p, y, a, k, LA ++ p.lvL, lstId none (LA ++ p.lvL), some i, hp, hpS, hpl, hplen, hyS.1, hyS.2, by rw [hfp]; rfl,
      by rw [hfp]; rfl, hinn, rfl, hM, ?_, by rw [hfp]; rfl, hlvL, hlvR, ?_, GLeaf.id y, ?_, ?_⟩
    rotate_right 2
    · rw [hinn, show f.kidsL.length - 1 = p.kidsL.length by omega]
      exact Pair.childId_left
    · simp only [Store.getLeaf, hg]
    · rw [hfp]
      simp only [Frame.inL, Pair.right, List.map_append, List.map_cons, List.map_nil]
      rw [interL_append (by simp [hp.1])]
      simp [Pair.inL, T.inorder, ek]
    · intro h; rw [hfp] at h; exact (h.right hp).1
  have right : 0 < f.kidsR.length → ∃ (p : Pair K A (T K V A 0)) (y : GLeaf K V) (b : A) (k : K)
      (LB' : List (Nat × List (K × V))) (p1 n1 : Option Nat),
      p.LenOK ∧ p.Sides μ rr ∧ p.kidsL.length = f.kidsL.length ∧
      p.len + 1 = f.len ∧ mnAt μ 0 (p.holeFlag rr) ≤ y.data.length ∧ y.data.length ≤ 64 ∧
      f.holeFlag rr = false ∧ p.id = f.id ∧
      f.inner (.leaf i) = p.inner (.leaf i) f.aug k (.leaf y.id) b ∧
      LB' = p.lvR ++ LB ∧ LMem s (LA ++ p.lvL) ⟨i, d1 ++ kv :: d2⟩ y LB' ∧
      f.inL = p.inL ∧ f.inR = (E.sep k :: ek y.data) ++ p.inR ∧
      f.lvL = p.lvL ∧ f.lvR = (y.id, y.data) :: p.lvR ∧ (f.AugOK → p.AugOK) ∧
      (∃ id, (f.inner (.leaf i)).childId (f.kidsL.length + 1) = .ok (.leaf id) ∧
        s.getLeaf id = .ok ⟨y.data, p1, n1⟩) := by
    intro hL
    obtain ⟨p, y, b, k, hfp, hp, hpl, hplen⟩ := Frame.pair_right hf hL
    have hS' := hS
    rw [hfp] at hS'
    obtain ⟨hpS, hyS⟩ := hS'.left
    have hlvR : f.lvR = (GLeaf.id y, GLeaf.data y) :: p.lvR := by
      rw [hfp]; simp [Frame.lvR, Pair.left, Pair.lvR, T.leaves]
    have hlvL : f.lvL = p.lvL := by rw [hfp]; rfl
    have hinn : f.inner (.leaf i) = p.inner (.leaf i) f.aug k (.leaf (GLeaf.id y)) b := by
      conv => lhs; rw [hfp]
      simp [Frame.inner, Pair.left, Pair.inner]
    have hM : LMem s (LA ++ p.lvL) ⟨i, d1 ++ kv :: d2⟩ y (p.lvR ++ LB) := by
      rw [hlvL, hlvR] at hseg hlnd hlive
      exact ⟨by simpa using hseg, by simpa using hlnd, by simpa using hlive⟩
    have hg := hM.getR
    refine ⟨p, y, b, k, p.lvR ++ LB, some i, hdId (p.lvR ++ LB) none, hp, hpS, hpl, hplen, hyS.1, hyS.2,
      by rw [hfp]; exact holeFlag_false,
      by rw [hfp]; rfl, hinn, rfl, hM, by rw [hfp]; rfl, ?_, hlvL, hlvR, ?_, GLeaf.id y, ?_, ?_⟩
    rotate_right 2
    · rw [hinn, show f.kidsL.length = p.kidsL.length by omega]
      exact Pair.childId_right
    · simp only [Store.getLeaf, hg]
    · rw [hfp]
      simp [Frame.inR, Pair.left, Pair.inR, T.inorder, ek]
    · intro h; rw [hfp] at h; exact h.left.1
  -- the four finishing cases
  have rotR : ∀ (p1 n1 : Option Nat) (yd : List (K × V)), 16 < yd.length →
      0 < f.kidsL.length →
      (∀ id, (f.inner (.leaf i)).childId (f.kidsL.length - 1) = .ok (.leaf id) →
        s.getLeaf id = .ok ⟨yd, p1, n1⟩) →
      handleLeafUnderSize s st (f.inner (.leaf i)) f.kidsL.length d1.length = (do
        let (deleted, s, node) ← rotateRightForLeaf s (f.inner (.leaf i)) (f.kidsL.length - 1) d1.length
        return (.done deleted, s, { st with rotateRightLeaf := st.rotateRightLeaf + 1 }, node)) →
      ∃ g d s1 st1, LeafStep μ m rr s st f ⟨i, d1 ++ kv :: d2⟩ Lc LA LB d1 kv d2 g d s1 st1 := by
    intro p1 n1 yd0 hyd0 hL hyd hh
    obtain ⟨p, y, a, k, LA', q1, q2, hp, hpS, hpl, hplen, hy16, hy64, hflag, hid, hinn, rfl, hM, hinL,
      hinR, hlvL, hlvR, haug, id, hc, hg⟩ := left hL
    obtain ⟨yi, yd⟩ := y
    have := hyd id hc
    rw [hg] at this
    simp only [Except.ok.injEq, Leaf.mk.injEq] at this
    obtain ⟨rfl, -, -⟩ := this
    simp only at *
    rcases List.eq_nil_or_concat yd with rfl | ⟨yd, e, rfl⟩
    · simp at hyd0
    simp only [List.concat_eq_append, List.length_append, List.length_singleton] at *
    obtain ⟨s', hrun, ho⟩ := rotRightLeaf_ok (a := a) (k := k) (b := f.aug) hp hM (by omega) (by omega)
    rw [hinn, show f.kidsL.length - 1 = p.kidsL.length by omega, hrun] at hh
    let y' : GLeaf K V := ⟨yi, yd⟩
    let x' : GLeaf K V := ⟨i, e :: (d1 ++ d2)⟩
    let g := p.fill (y' : T K V A 0) (T.topAug (A := A) (h := 0) y') e.1 x'
      (T.topAug (A := A) (h := 0) x')
    have hlv : T.leaves (h := 1) g = p.lvL ++ [(yi, yd), (i, e :: (d1 ++ d2))] ++ p.lvR := by
      rw [Pair.leaves_fill]; rfl
    obtain ⟨⟨hi1, hi2⟩, hi3⟩ := himem s' _ g hid Pair.inner_fill ho.inners
    refine ⟨g, _, _, _, run _ _ _ _ (hinn ▸ hh), by rw [T.nid_succ]; exact congrArg _ hid,
      .inl ⟨rfl, ?_⟩, hi1, hi2, ?_, ?_, ?_, ?_, ?_, fun h => Pair.augOK_fill (haug h) trivial trivial, ?_,
      fun _ => .inl (by simp only [g, Pair.fill, Pair.len, List.length_append, List.length_cons] at hplen ⊢; omega), hi3, ?_⟩
    · refine Pair.shape_fill hp hpS (by omega) (by omega) ?_ ?_
      · exact ⟨by simp only [y']; omega, by simp only [y']; omega⟩
      · rw [hflag]
        exact ⟨by simp only [x', List.length_cons, List.length_append]; omega,
          by simp only [x', List.length_cons, List.length_append]; omega⟩
    · rw [hlv]; simpa [Store.setInner] using ho.seg
    · rw [hlv]; simpa using ho.nodup
    · rw [hlv]; simpa [Store.setInner] using ho.live
    · intro P Q hPQ
      rw [Pair.inorder_fill hp]
      rw [hinL, hinR] at hPQ
      have := ord_rotRight (P := P ++ p.inL) (Q := p.inR ++ Q) (yd := yd) (d1 := d1) (d2 := d2)
        (e := e) (kv := kv) (k := k) (by rintro rfl; simp at hyd0)
        (by simpa using hPQ)
      simpa [T.inorder, ek, x', y'] using this
    · rw [hlv, hlvL, hlvR]; simp
    · simp [Statistic.LE, Statistic.leafFixes, Statistic.innerFixes]; omega
    · rw [hlv, hlvL, hlvR]
      simp only [List.length_append, List.length_cons, List.length_nil, Statistic.leafMerges] <;> omega
  have rotL : ∀ (p1 n1 : Option Nat) (xd : List (K × V)), 16 < xd.length → 0 < f.kidsR.length →
      (∀ id, (f.inner (.leaf i)).childId (f.kidsL.length + 1) = .ok (.leaf id) →
        s.getLeaf id = .ok ⟨xd, p1, n1⟩) →
      handleLeafUnderSize s st (f.inner (.leaf i)) f.kidsL.length d1.length = (do
        let (deleted, s, node) ← rotateLeftForLeaf s (f.inner (.leaf i)) f.kidsL.length d1.length
        return (.done deleted, s, { st with rotateLeftLeaf := st.rotateLeftLeaf + 1 }, node)) →
      ∃ g d s1 st1, LeafStep μ m rr s st f ⟨i, d1 ++ kv :: d2⟩ Lc LA LB d1 kv d2 g d s1 st1 := by
    intro p1 n1 xd0 hxd0 hL hxd hh
    obtain ⟨p, z, b, k, LB', q1, q2, hp, hpS, hpl, hplen, hz1, hz64, hflag, hid, hinn, rfl, hM, hinL,
      hinR, hlvL, hlvR, haug, id, hc, hg⟩ := right hL
    obtain ⟨zi, zd⟩ := z
    have := hxd id hc
    rw [hg] at this
    simp only [Except.ok.injEq, Leaf.mk.injEq] at this
    obtain ⟨rfl, -, -⟩ := this
    simp only at *
    rcases zd with _ | ⟨e, _ | ⟨e2, xd⟩⟩
    · simp at hxd0
    · simp at hxd0
    rw [hflag, mnAt_false] at hxS
    simp only [List.length_cons] at *
    obtain ⟨s', hrun, ho⟩ := rotLeftLeaf_ok (a := f.aug) (k := k) (b := b) hp hM (by omega)
    rw [hinn, show f.kidsL.length = p.kidsL.length by omega, hrun] at hh
    let y' : GLeaf K V := ⟨i, d1 ++ d2 ++ [e]⟩
    let x' : GLeaf K V := ⟨zi, e2 :: xd⟩
    let g := p.fill (y' : T K V A 0) (T.topAug (A := A) (h := 0) y') e2.1 x'
      (T.topAug (A := A) (h := 0) x')
    have hlv : T.leaves (h := 1) g = p.lvL ++ [(i, d1 ++ d2 ++ [e]), (zi, e2 :: xd)] ++ p.lvR := by
      rw [Pair.leaves_fill]; rfl
    obtain ⟨⟨hi1, hi2⟩, hi3⟩ := himem s' _ g hid Pair.inner_fill ho.inners
    refine ⟨g, _, _, _, run _ _ _ _ (hinn ▸ hpl ▸ hh), by rw [T.nid_succ]; exact congrArg _ hid,
      .inl ⟨rfl, ?_⟩, hi1, hi2, ?_, ?_, ?_, ?_, ?_, fun h => Pair.augOK_fill (haug h) trivial trivial, ?_,
      fun _ => .inl (by simp only [g, Pair.fill, Pair.len, List.length_append, List.length_cons] at hplen ⊢; omega), hi3, ?_⟩
    · have := mnAt_le (μ := μ) (h := 0) (r := p.holeFlag rr) hμ
      refine Pair.shape_fill hp hpS (by omega) (by omega) ?_ ?_
      · exact ⟨by simp only [y', List.length_cons, List.length_append, List.length_nil]; omega,
          by simp only [y', List.length_cons, List.length_append, List.length_nil]; omega⟩
      · exact ⟨by simp only [x', List.length_cons]; omega, by simp only [x', List.length_cons]; omega⟩
    · rw [hlv]; simpa [Store.setInner] using ho.seg
    · rw [hlv]; simpa using ho.nodup
    · rw [hlv]; simpa [Store.setInner] using ho.live
    · intro P Q hPQ
      rw [Pair.inorder_fill hp]
      rw [hinL, hinR] at hPQ
      have := ord_rotLeft (P := P ++ p.inL) (Q := p.inR ++ Q) (xd := xd) (d1 := d1) (d2 := d2)
        (e := e) (e2 := e2) (kv := kv) (k := k)
        (by simpa using hPQ)
      simpa [T.inorder, ek, x', y'] using this
    · rw [hlv, hlvL, hlvR]; simp
    · simp [Statistic.LE, Statistic.leafFixes, Statistic.innerFixes]; omega
    · rw [hlv, hlvL, hlvR]
      simp only [List.length_append, List.length_cons, List.length_nil, Statistic.leafMerges] <;> omega
  have mrgL : ∀ (p1 n1 : Option Nat) (yd : List (K × V)), ¬ 16 < yd.length → 0 < f.kidsL.length →
      (∀ id, (f.inner (.leaf i)).childId (f.kidsL.length - 1) = .ok (.leaf id) →
        s.getLeaf id = .ok ⟨yd, p1, n1⟩) →
      handleLeafUnderSize s st (f.inner (.leaf i)) f.kidsL.length d1.length = (do
        let (r, s, node) ← mergeLeafNodeLeft s (f.inner (.leaf i)) (f.kidsL.length - 1) d1.length
        return (r, s, { st with mergeWithLeftLeaf := st.mergeWithLeftLeaf + 1 }, node)) →
      ∃ g d s1 st1, LeafStep μ m rr s st f ⟨i, d1 ++ kv :: d2⟩ Lc LA LB d1 kv d2 g d s1 st1 := by
    intro p1 n1 yd0 hyd0 hL hyd hh
    obtain ⟨p, y, a, k, LA', q1, q2, hp, hpS, hpl, hplen, hy16, hy64, hflag, hid, hinn, rfl, hM, hinL,
      hinR, hlvL, hlvR, haug, id, hc, hg⟩ := left hL
    obtain ⟨yi, yd⟩ := y
    have := hyd id hc
    rw [hg] at this
    simp only [Except.ok.injEq, Leaf.mk.injEq] at this
    obtain ⟨rfl, -, -⟩ := this
    simp only at *
    obtain ⟨s', hrun, ho⟩ := mergeLeftLeaf_ok (a := a) (k := k) (b := f.aug) hp hM (by omega)
    rw [hinn, show f.kidsL.length - 1 = p.kidsL.length by omega, hrun] at hh
    let z : GLeaf K V := ⟨yi, yd ++ (d1 ++ d2)⟩
    let g := (p.one (T.topAug (A := A) (h := 0) z)).fill (z : T K V A 0)
    have hlv : T.leaves (h := 1) g = p.lvL ++ [(yi, yd ++ (d1 ++ d2))] ++ p.lvR := by
      rw [Pair.leaves_one]; rfl
    obtain ⟨⟨hi1, hi2⟩, hi3⟩ := himem s' _ g hid GNode.inner_fill ho.inners
    refine ⟨g, _, _, _, run _ _ _ _ (hinn ▸ hh), by rw [T.nid_succ]; exact congrArg _ hid,
      Out.merged hp hpS hm16 (by omega) (by omega) hμ ?_, hi1, hi2, ?_, ?_, ?_, ?_, ?_,
      fun h => Pair.augOK_one (haug h) trivial, ?_, fun hd => .inr (by
        have h16 : 16 ≤ p.len := by
          by_contra h16
          rw [if_neg (by simpa using h16)] at hd
          cases hd
        simpa [g, Frame.fill, Pair.one, Pair.len] using h16), hi3, ?_⟩
    · exact ⟨by simp only [z, List.length_append]; omega, by simp only [z, List.length_append]; omega⟩
    · rw [hlv]; simpa [Store.setInner] using ho.seg
    · rw [hlv]; simpa using ho.nodup
    · rw [hlv]; simpa [Store.setInner] using ho.live
    · intro P Q hPQ
      rw [Pair.inorder_one hp]
      rw [hinL, hinR] at hPQ
      have := ord_mergeLeft (P := P ++ p.inL) (Q := p.inR ++ Q) (yd := yd) (d1 := d1) (d2 := d2)
        (kv := kv) (k := k) (by simpa using hPQ)
      simpa [T.inorder, ek, z] using this
    · rw [hlv, hlvL, hlvR]; simp
    · simp [Statistic.LE, Statistic.leafFixes, Statistic.innerFixes]; omega
    · rw [hlv, hlvL, hlvR]
      simp only [List.length_append, List.length_cons, List.length_nil, Statistic.leafMerges] <;> omega
  have mrgR : ∀ (p1 n1 : Option Nat) (xd : List (K × V)), ¬ 16 < xd.length → 0 < f.kidsR.length →
      (∀ id, (f.inner (.leaf i)).childId (f.kidsL.length + 1) = .ok (.leaf id) →
        s.getLeaf id = .ok ⟨xd, p1, n1⟩) →
      handleLeafUnderSize s st (f.inner (.leaf i)) f.kidsL.length d1.length = (do
        let (r, s, node) ← mergeLeafNodeWithRight s (f.inner (.leaf i)) f.kidsL.length d1.length
        return (r, s, { st with mergeWithRightLeaf := st.mergeWithRightLeaf + 1 }, node)) →
      ∃ g d s1 st1, LeafStep μ m rr s st f ⟨i, d1 ++ kv :: d2⟩ Lc LA LB d1 kv d2 g d s1 st1 := by
    intro p1 n1 xd0 hxd0 hL hxd hh
    obtain ⟨p, z, b, k, LB', q1, q2, hp, hpS, hpl, hplen, hz1, hz64, hflag, hid, hinn, rfl, hM, hinL,
      hinR, hlvL, hlvR, haug, id, hc, hg⟩ := right hL
    obtain ⟨zi, xd⟩ := z
    have := hxd id hc
    rw [hg] at this
    simp only [Except.ok.injEq, Leaf.mk.injEq] at this
    obtain ⟨rfl, -, -⟩ := this
    simp only at *
    rw [hflag, mnAt_false] at hxS
    have hx1 : 1 ≤ xd.length := by
      cases hb : p.holeFlag rr with
      | false => rw [hb, mnAt_false] at hz1; omega
      | true => rw [hb] at hz1; simp only [mnAt] at hz1; omega
    obtain ⟨s', hrun, ho⟩ := mergeRightLeaf_ok (a := f.aug) (k := k) (b := b) hp hM (by omega)
    rw [hinn, show f.kidsL.length = p.kidsL.length by omega, hrun] at hh
    let w : GLeaf K V := ⟨i, d1 ++ d2 ++ xd⟩
    let g := (p.one (T.topAug (A := A) (h := 0) w)).fill (w : T K V A 0)
    have hlv : T.leaves (h := 1) g = p.lvL ++ [(i, d1 ++ d2 ++ xd)] ++ p.lvR := by
      rw [Pair.leaves_one]; rfl
    obtain ⟨⟨hi1, hi2⟩, hi3⟩ := himem s' _ g hid GNode.inner_fill ho.inners
    refine ⟨g, _, _, _, run _ _ _ _ (hinn ▸ hpl ▸ hh), by rw [T.nid_succ]; exact congrArg _ hid,
      Out.merged hp hpS hm16 (by omega) (by omega) hμ ?_, hi1, hi2, ?_, ?_, ?_, ?_, ?_,
      fun h => Pair.augOK_one (haug h) trivial, ?_, fun hd => .inr (by
        have h16 : 16 ≤ p.len := by
          by_contra h16
          rw [if_neg (by simpa using h16)] at hd
          cases hd
        simpa [g, Frame.fill, Pair.one, Pair.len] using h16), hi3, ?_⟩
    · exact ⟨by simp only [w, List.length_append]; omega, by simp only [w, List.length_append]; omega⟩
    · rw [hlv]; simpa [Store.setInner] using ho.seg
    · rw [hlv]; simpa using ho.nodup
    · rw [hlv]; simpa [Store.setInner] using ho.live
    · intro P Q hPQ
      rw [Pair.inorder_one hp]
      rw [hinL, hinR] at hPQ
      have := ord_mergeRight (P := P ++ p.inL) (Q := p.inR ++ Q) (xd := xd) (d1 := d1) (d2 := d2)
        (kv := kv) (k := k) (by simpa using hPQ)
      simpa [T.inorder, ek, w] using this
    · rw [hlv, hlvL, hlvR]; simp
    · simp [Statistic.LE, Statistic.leafFixes, Statistic.innerFixes]; omega
    · rw [hlv, hlvL, hlvR]
      simp only [List.length_append, List.length_cons, List.length_nil, Statistic.leafMerges] <;> omega
  have hlend : ∀ (d : List (K × V)) (p n : Option Nat), (⟨d, p, n⟩ : Leaf K V).ableToLend
      = decide (16 < d.length) := fun _ _ _ => rfl
  by_cases hL : 0 < f.kidsL.length
  · obtain ⟨p, y, a, k, LA', q1, q2, -, -, -, -, -, -, -, -, -, -, -, -, -, -, -, -, id, hc, hg⟩ :=
      left hL
    have hg' : ∀ id, (f.inner (.leaf i)).childId (f.kidsL.length - 1) = .ok (.leaf id) →
        s.getLeaf id = .ok ⟨y.data, q1, q2⟩ := by
      intro id' h'
      rw [hc] at h'
      cases h'
      exact hg
    by_cases hR' : 0 < f.kidsR.length
    · obtain ⟨p', z, a', k', LB', q1', q2', -, -, -, -, -, -, -, -, -, -, -, -, -, -, -, -, id', hc',
        hz⟩ := right hR'
      have hz' : ∀ id, (f.inner (.leaf i)).childId (f.kidsL.length + 1) = .ok (.leaf id) →
          s.getLeaf id = .ok ⟨z.data, q1', q2'⟩ := by
        intro id' h'
        rw [hc'] at h'
        cases h'
        exact hz
      by_cases hy : 16 < y.data.length
      · by_cases hzz : 16 < z.data.length
        · by_cases hlt : z.data.length < y.data.length
          · refine rotR _ _ _ hy hL hg' ?_
            simp only [handleLeafUnderSize, hL, if_true, hc, ok_bind, NodeId.leafIdUnchecked, hg,
              pure_ok, hR hR', hc', hz, chooseFix, hlend, hy, hzz, decide_true, Leaf.len, hlt]
          · refine rotL _ _ _ hzz hR' hz' ?_
            simp only [handleLeafUnderSize, hL, if_true, hc, ok_bind, NodeId.leafIdUnchecked, hg,
              pure_ok, hR hR', hc', hz, chooseFix, hlend, hy, hzz, decide_true, Leaf.len, hlt,
              if_false]
        · refine rotR _ _ _ hy hL hg' ?_
          simp only [handleLeafUnderSize, hL, if_true, hc, ok_bind, NodeId.leafIdUnchecked, hg,
            pure_ok, hR hR', hc', hz, chooseFix, hlend, hy, hzz, decide_true, decide_false,
            Bool.false_eq_true, if_false]
      · by_cases hzz : 16 < z.data.length
        · refine rotL _ _ _ hzz hR' hz' ?_
          simp only [handleLeafUnderSize, hL, if_true, hc, ok_bind, NodeId.leafIdUnchecked, hg,
            pure_ok, hR hR', hc', hz, chooseFix, hlend, hy, hzz, decide_true, decide_false,
            Bool.false_eq_true, if_false]
        · refine mrgL _ _ _ hy hL hg' ?_
          simp only [handleLeafUnderSize, hL, if_true, hc, ok_bind, NodeId.leafIdUnchecked, hg,
            pure_ok, hR hR', hc', hz, chooseFix, hlend, hy, hzz, decide_false,
            Bool.false_eq_true, if_false]
    · by_cases hy : 16 < y.data.length
      · refine rotR _ _ _ hy hL hg' ?_
        simp only [handleLeafUnderSize, hL, if_true, hc, ok_bind, NodeId.leafIdUnchecked, hg,
          pure_ok, hnR hR', chooseFix, hlend, hy, decide_true, if_false]
      · refine mrgL _ _ _ hy hL hg' ?_
        simp only [handleLeafUnderSize, hL, if_true, hc, ok_bind, NodeId.leafIdUnchecked, hg,
          pure_ok, hnR hR', chooseFix, hlend, hy, decide_false, if_false, Bool.false_eq_true]
  · have hR' : 0 < f.kidsR.length := by
      have := hf.1; have := hf.2.2.1
      simp only [Frame.len] at h1; omega
    obtain ⟨p', z, a', k', LB', q1', q2', -, -, -, -, -, -, -, -, -, -, -, -, -, -, -, -, id', hc',
      hz⟩ := right hR'
    have hz' : ∀ id, (f.inner (.leaf i)).childId (f.kidsL.length + 1) = .ok (.leaf id) →
        s.getLeaf id = .ok ⟨z.data, q1', q2'⟩ := by
      intro id' h'
      rw [hc'] at h'
      cases h'
      exact hz
    by_cases hzz : 16 < z.data.length
    · refine rotL _ _ _ hzz hR' hz' ?_
      simp only [handleLeafUnderSize, hL, if_true, ok_bind, NodeId.leafIdUnchecked,
        pure_ok, hR hR', hc', hz, chooseFix, hlend, hzz, decide_true, if_false]
    · refine mrgR _ _ _ hzz hR' hz' ?_
      simp only [handleLeafUnderSize, hL, if_true, ok_bind, NodeId.leafIdUnchecked,
        pure_ok, hR hR', hc', hz, chooseFix, hlend, hzz, decide_false, if_false,
        Bool.false_eq_true]

/-- With a parent that has a single child, a leaf that is too small cannot be fixed. -/
theorem leaf_step_panic {f : Frame K A (T K V A 0)} {i idx : Nat} (hf : f.LenOK) (h0 : f.len = 0)
    (hmem : IMem s.inners (f.nodes (.leaf i) ++ Lc)) {stk : List StackEntry} :
    removeAscend s st ((f.id, f.kidsL.length, .leaf i) :: stk) (.leafUnderSize idx)
      = .error .panic := by
  have hget : s.getInner f.id = .ok (f.inner (.leaf i)) :=
    hmem.get (p := (f.id, f.inner (.leaf i))) (by simp [Frame.nodes])
  have hsz : f.len = (f.inner (.leaf i)).len := by simp [Frame.inner, Inner.len, Frame.len]
  have hL : ¬ 0 < f.kidsL.length := by have := hf.1; simp only [Frame.len] at h0; omega
  have hlt : ¬ f.kidsL.length < (f.inner (.leaf i)).len := by omega
  simp only [removeAscend, hget, ok_bind, handleLeafUnderSize, hL, if_false, pure_ok, hlt, chooseFix,
    error_bind]

/-- The same in a release build. -/
theorem leaf_stepR_panic {f : Frame K A (T K V A 0)} {i idx : Nat} (hf : f.LenOK) (h0 : f.len = 0)
    (hmem : IMem s.inners (f.nodes (.leaf i) ++ Lc)) {stk : List StackEntry} :
    removeAscendR s st ((f.id, f.kidsL.length, .leaf i) :: stk) (.leafUnderSize idx)
      = .error .panic := by
  have hget : s.getInner f.id = .ok (f.inner (.leaf i)) :=
    hmem.get (p := (f.id, f.inner (.leaf i))) (by simp [Frame.nodes])
  have hsz : f.len = (f.inner (.leaf i)).len := by simp [Frame.inner, Inner.len, Frame.len]
  have hL : ¬ 0 < f.kidsL.length := by have := hf.1; simp only [Frame.len] at h0; omega
  have hlt : ¬ f.kidsL.length < (f.inner (.leaf i)).len := by omega
  simp only [removeAscendR, hget, ok_bind, handleLeafUnderSizeR, hL, if_false, pure_ok, hlt, chooseFix,
    error_bind]

end
end Bpt
