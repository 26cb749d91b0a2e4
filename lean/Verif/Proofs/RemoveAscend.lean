import Verif.Proofs.RemoveInner
import Verif.Proofs.Lone
import Verif.Proofs.Release

/-!
# The ascending phase of a removal, inner levels
-/

namespace Bpt
variable {K V A : Type}

theorem Frame.Sides.right {μ : Nat} {r : Bool} {h : Nat} {p : Pair K A (T K V A h)} {y : T K V A h}
    {a b : A} {k : K} (hs : (p.right y a k b).Sides μ r) :
    p.Sides μ r ∧ T.ShapeTop μ 16 false y :=
  ⟨⟨fun c hc => hs.1 c (List.mem_append_left _ hc), hs.2⟩,
    hs.1 y (List.mem_append_right _ (List.mem_singleton_self _))⟩

theorem Frame.Sides.left {μ : Nat} {r : Bool} {h : Nat} {p : Pair K A (T K V A h)} {y : T K V A h}
    {a b : A} {k : K} (hs : (p.left a k y b).Sides μ r) :
    p.Sides μ r ∧ T.ShapeTop μ (mnAt μ h (p.holeFlag r)) (p.holeFlag r) y := by
  obtain ⟨h1, h2⟩ := hs
  simp only [Pair.left] at h1 h2
  rw [SpineL_cons] at h2
  refine ⟨⟨h1, h2.2⟩, ?_⟩
  have h3 := h2.1
  simp only [Pair.holeFlag]
  split at h3
  · next h => simpa [h] using h3
  · next h =>
    have : p.kidsR.isEmpty = false := by simpa using h
    simpa [this, mnAt_false] using h3

section
variable [Augmentation K V A]

theorem Frame.AugOK.right {h : Nat} {p : Pair K A (T K V A h)} {y : T K V A h}
    {a b : A} {k : K} (hs : (p.right y a k b).AugOK) (hp : p.LenOK) : p.AugOK ∧ y.AugOK := by
  obtain ⟨h1, h2, h3, h4⟩ := hs
  simp only [Pair.right, List.map_append] at h1 h2 h3 h4
  have := List.append_inj h1 (by simp [hp.2.1])
  exact ⟨⟨this.1, h2, fun c hc => h3 c (List.mem_append_left _ hc), h4⟩,
    h3 y (List.mem_append_right _ (List.mem_singleton_self _))⟩

theorem Frame.AugOK.left {h : Nat} {p : Pair K A (T K V A h)} {y : T K V A h}
    {a b : A} {k : K} (hs : (p.left a k y b).AugOK) : p.AugOK ∧ y.AugOK := by
  obtain ⟨h1, h2, h3, h4⟩ := hs
  simp only [Pair.left, List.map_cons, List.cons.injEq] at h1 h2 h3 h4
  exact ⟨⟨h1, h2.2, h3, fun c hc => h4 c (List.mem_cons_of_mem _ hc)⟩, h4 y List.mem_cons_self⟩

/-- What one step of the ascending loop does above the leaf level. -/
structure RemStep {h : Nat} (μ m : Nat) (rr : Bool) (s : Store K V A) (st : Statistic)
    (f : Frame K A (T K V A h)) (x : T K V A h) (Lc : List (Nat × Inner K A))
    (d : DeleteResult K V) (kv : K × V)
    (g : T K V A (h + 1)) (d1 : DeleteResult K V) (inners : List (Option (Inner K A)))
    (st1 : Statistic) : Prop where
  run : ∀ stk, removeAscend s st ((f.id, f.kidsL.length, x.nid) :: stk) d
    = removeAscend { s with inners := inners } st1 stk d1
  nid : g.nid = .inner f.id
  out : Out μ m rr g kv d1
  imem : IMem inners (g.nodes ++ Lc)
  nodup : ((g.nodes ++ Lc).map (·.1)).Nodup
  inorder : g.inorder = f.inL ++ x.inorder ++ f.inR
  leaves : g.leaves = f.lvL ++ x.leaves ++ f.lvR
  aug : f.AugOK → x.AugOK → g.AugOK
  stat : st.LE st1 ∧ st1.leafFixes = st.leafFixes
  lone : d = .done kv → f.kidsR = [] → f.len = 0 ∨ x.LoneR → d1 = .done kv ∧ g.LoneR
  done : d = .done kv → d1 = .done kv
  spine : d = .done kv → f.kidsR = [] → g.spine = f.len :: x.spine
  count : g.nodes.length + st1.innerMerges = x.nodes.length + (f.nodes x.nid).length + st.innerMerges
  alloc : inners.countP (·.isSome) + st1.innerMerges = s.inners.countP (·.isSome) + st.innerMerges

variable {μ m : Nat} {rr : Bool} {h : Nat} {s : Store K V A} {st : Statistic}
  {Lc : List (Nat × Inner K A)} {kv : K × V}

theorem done_step {f : Frame K A (T K V A h)} {x : T K V A h} (hf : f.LenOK) (h64 : f.len ≤ 64)
    (hS : f.Sides μ rr) (hm : m ≤ f.len)
    (hlv : ∀ y ∈ x.leaves, ∃ p n, s.leaves[y.1]? = some (some ⟨y.2, p, n⟩))
    (hmem : IMem s.inners (x.nodes ++ f.nodes x.nid ++ Lc))
    (hn : ((x.nodes ++ f.nodes x.nid ++ Lc).map (·.1)).Nodup)
    (hx : T.ShapeTop μ (mnAt μ h (f.holeFlag rr)) (f.holeFlag rr) x) :
    ∃ g d1 inners st1, RemStep μ m rr s st f x Lc (.done kv) kv g d1 inners st1 := by
  have hget : s.getInner f.id = .ok (f.inner x.nid) :=
    hmem.get (p := (f.id, f.inner x.nid)) (by simp [Frame.nodes])
  have ha : newAugmentationForId s x.nid = .ok x.topAug :=
    newAug_ok ⟨(IMem.append.1 (IMem.append.1 hmem).1).1, hlv⟩
  have hp : (x.nodes ++ f.nodes x.nid ++ Lc).Perm
      ((f.id, f.inner x.nid) :: (x.nodes ++ f.side ++ Lc)) := by
    simp only [Frame.nodes]; perm
  have hn' := (List.Perm.ids hp).1 hn
  have hm' := IMem.upd (n' := (f.setAug x.topAug).inner x.nid) (hmem.perm hp) hn'
  have hp2 : (T.nodes (h := h + 1) ((f.setAug x.topAug).fill x) ++ Lc).Perm
      ((f.id, (f.setAug x.topAug).inner x.nid) :: (x.nodes ++ f.side ++ Lc)) := by
    refine (T.nodes_fill.append_right Lc).trans ?_
    simp only [Frame.nodes, Frame.side, Frame.setAug]
    perm
  refine ⟨(f.setAug x.topAug).fill x, .done kv,
    s.inners.set f.id (some ((f.setAug x.topAug).inner x.nid)), st, ?_, rfl, ?_, hm'.perm hp2.symm,
    (List.Perm.ids hp2).2 (by simpa using hn'), ?_, ?_, ?_, ⟨Statistic.LE.refl, rfl⟩,
    fun _ hr hl => ⟨rfl, (T.loneR_fill (f := f.setAug x.topAug) hr).2 hl⟩, fun _ => rfl,
    fun _ hr => T.spine_fill (f := f.setAug x.topAug) hr, by
      rw [T.nodes_fill.length_eq, List.length_append]; rfl, by
      rw [countP_set_some (hmem (f.id, f.inner x.nid) (by simp [Frame.nodes]))]⟩
  · intro stk
    simp only [removeAscend, ha, ok_bind, hget, setAug_inner hf, Store.setInner]
  · exact .inl ⟨rfl, (T.shape_fill (f := f.setAug x.topAug).2 ⟨⟨hS, hm, h64, hf⟩, hx⟩).1⟩
  · rw [T.inorder_fill (f := f.setAug x.topAug) hf]; rfl
  · rw [T.leaves_fill]; rfl
  · intro h1 h2
    exact (T.augOK_fill (f := f.setAug x.topAug) hf).2 ⟨h1, rfl, h2⟩

theorem Out.merged {p : Pair K A (T K V A h)} {z : T K V A h} {a : A} (hp : p.LenOK)
    (hS : p.Sides μ rr) (hm16 : m ≤ 16) (hm : m ≤ p.len + 1) (h64 : p.len ≤ 64) (hμ : μ ≤ 16)
    (hz : T.ShapeTop μ 16 (p.holeFlag rr) z) :
    Out μ m rr (h := h + 1) ((p.one a).fill z) kv
      (if (decide (16 ≤ p.len)) = true then .done kv else .innerUnderSize kv) := by
  have hz' := hz.mono (mnAt_le (h := h) (r := p.holeFlag rr) hμ)
  by_cases h16 : 16 ≤ p.len
  · rw [if_pos (by simpa using h16)]
    exact .inl ⟨rfl, Pair.shape_one hp hS (by omega) h64 hz'⟩
  · rw [if_neg (by simpa using h16)]
    refine .inr ⟨rfl, Pair.shape_one hp hS (by omega) h64 hz', ?_, ?_⟩
    · simp only [Frame.fill, Pair.one, List.length_append]
      simp only [Pair.len] at h16; omega
    · intro h0
      simp only [Frame.fill, Pair.one, List.length_append] at h0
      have h1 : p.kidsL = [] := List.length_eq_zero_iff.1 (by have := hp.1; omega)
      have h2 : p.kidsR = [] := List.length_eq_zero_iff.1 (by have := hp.2.2.1; omega)
      intro c hc
      simp only [Frame.fill, Pair.one, h1, h2, List.nil_append, List.mem_singleton] at hc
      subst hc
      simpa [Pair.holeFlag, h2] using hz

theorem holeFlag_false {X : Type} {p : Pair K A X} {y : X} {a b : A} {k : K} :
    (p.left a k y b).holeFlag rr = false := by simp [Frame.holeFlag, Pair.left]

theorem handleInner_eq {node : Inner K A} {i : Nat} :
    handleInnerUnderSize s st node i kv = (do
      let rotR ← (if 0 < i then tryRotateRightInner s node (i - 1) else return none :
        Res (Option (Store K V A × Inner K A)))
      match rotR with
      | some (s, node) =>
        return (.done kv, s, { st with rotateRightInner := st.rotateRightInner + 1 }, node)
      | none =>
      let rotL ← (if i < node.len then tryRotateLeftInner s node i else return none :
        Res (Option (Store K V A × Inner K A)))
      match rotL with
      | some (s, node) =>
        return (.done kv, s, { st with rotateLeftInner := st.rotateLeftInner + 1 }, node)
      | none =>
      let (ok, s', node) ← mergeInnerNode s node (if 0 < i then i - 1 else i)
      return (if ok = true then .done kv else .innerUnderSize kv, s',
        if 0 < i then { st with mergeWithLeftInner := st.mergeWithLeftInner + 1 }
        else { st with mergeWithRightInner := st.mergeWithRightInner + 1 }, node)) := by
  unfold handleInnerUnderSize
  congr 1; funext rotR
  cases rotR with
  | some q => rfl
  | none =>
    dsimp only
    congr 1; funext rotL
    cases rotL with
    | some q => rfl
    | none =>
      dsimp only
      by_cases h : 0 < i
      · simp only [h, if_true]
        congr 1; funext q
        obtain ⟨b, q⟩ := q
        cases b <;> rfl
      · simp only [h, if_false]
        congr 1; funext q
        obtain ⟨b, q⟩ := q
        cases b <;> rfl

theorem inner_step (hμ : μ ≤ 16) (hm16 : m ≤ 16) {f : Frame K A (T K V A (h + 1))}
    {x : T K V A (h + 1)} (hf : f.LenOK) (h64 : f.len ≤ 64)
    (hS : f.Sides μ rr) (hm : m ≤ f.len) (h1 : 1 ≤ f.len)
    (hmem : IMem s.inners (x.nodes ++ f.nodes x.nid ++ Lc))
    (hn : ((x.nodes ++ f.nodes x.nid ++ Lc).map (·.1)).Nodup)
    (hx : Under μ (mnAt μ (h + 1) (f.holeFlag rr)) (f.holeFlag rr) x) :
    ∃ g d1 inners st1, RemStep μ m rr s st f x Lc (.innerUnderSize kv) kv g d1 inners st1 := by
  have hget : s.getInner f.id = .ok (f.inner x.nid) :=
    hmem.get (p := (f.id, f.inner x.nid)) (by simp [Frame.nodes])
  have hperm : (T.nodes (h := h + 2) (f.fill x) ++ Lc).Perm (x.nodes ++ f.nodes x.nid ++ Lc) :=
    T.nodes_fill.append_right Lc
  have hmem' := hmem.perm hperm.symm
  have hn' := (List.Perm.ids hperm).2 hn
  obtain ⟨hxS, hx16, -⟩ := hx
  have hsz : f.len = (f.inner x.nid).len := by simp [Frame.inner, Inner.len, Frame.len]
  have hio0 := T.inorder_fill (x := x) hf
  have hlv0 := T.leaves_fill (f := f) (x := x)
  -- the generic conclusion from an effect on a pair
  have fin : ∀ (p : Pair K A (T K V A (h + 1))) (y z : T K V A (h + 1)) (a b : A) (k : K)
      (inners : List (Option (Inner K A))) (pn : Inner K A) (g : GNode K A (T K V A (h + 1)))
      (d1 : DeleteResult K V) (st1 : Statistic),
      f.fill x = p.fill y a k z b →
      PairFix p y a k z b Lc s.inners inners pn g (st1.innerMerges - st.innerMerges) →
      handleInnerUnderSize s st (f.inner x.nid) f.kidsL.length kv
        = .ok (d1, { s with inners := inners }, st1, pn) →
      Out μ m rr (h := h + 2) g kv d1 → (f.AugOK → x.AugOK → p.AugOK ∧ y.AugOK ∧ z.AugOK) →
      st.LE st1 ∧ st1.leafFixes = st.leafFixes →
      RemStep μ m rr s st f x Lc (.innerUnderSize kv) kv g d1 (inners.set f.id (some pn)) st1 := by
    intro p y z a b k inners pn g d1 st1 hfill hpf hh hout haug hst
    have hid : f.id = p.id := congrArg GNode.id hfill
    refine ⟨?_, ?_, hout, ?_, hpf.nodup, ?_, ?_, ?_, hst, (fun h => by cases h),
      (fun h => by cases h), (fun h => by cases h), ?_, ?_⟩
    · intro stk
      simp only [removeAscend, hget, ok_bind, hh, Store.setInner]
    · rw [T.nid_succ, hpf.id, hid]
    · rw [hid]; exact hpf.imem
    · rw [hpf.inorder, ← hfill, hio0]
    · rw [hpf.leaves, ← hfill, hlv0]
    · intro h1 h2
      obtain ⟨h3, h4, h5⟩ := haug h1 h2
      exact hpf.aug h3 h4 h5
    · have h1 := hpf.count
      rw [← hfill, T.nodes_fill.length_eq, List.length_append] at h1
      have h2 := hst.1
      simp only [Statistic.innerMerges, Statistic.LE] at h1 h2 ⊢
      omega
    · have h1 := hpf.alloc
      have h2 := hst.1
      rw [hid]
      simp only [Statistic.innerMerges, Statistic.LE] at h1 h2 ⊢
      omega
  by_cases hL : 0 < f.kidsL.length
  · obtain ⟨p, y, a, k, hfp, hp, hpl, hplen⟩ := Frame.pair_left hf hL
    have hfill : f.fill x = p.fill y a k x f.aug := by rw [hfp, Pair.fill_right]; rfl
    have hinner : f.inner x.nid = p.inner y.nid a k x.nid f.aug := by
      rw [← GNode.inner_fill, hfill, Pair.inner_fill]
    have hM : PairMem s p y a k x f.aug Lc := by
      rw [hfill] at hmem' hn'; exact pairMem_iff.2 ⟨hmem', hn'⟩
    have hS' := hS
    rw [hfp] at hS'
    obtain ⟨hpS, hyS⟩ := hS'.right
    have hflag : p.holeFlag rr = f.holeFlag rr := by rw [hfp]; rfl
    have haug : f.AugOK → x.AugOK → p.AugOK ∧ y.AugOK ∧ x.AugOK := by
      intro h1 h2
      rw [hfp] at h1
      obtain ⟨h3, h4⟩ := h1.right hp
      exact ⟨h3, h4, h2⟩
    have hslot : f.kidsL.length - 1 = p.kidsL.length := by omega
    by_cases hy16 : 16 < (GNode.keys y).length
    · -- rotate right
      obtain ⟨inners, pn, k', y', x', hrun, hpf, hy', hx'⟩ := rotRight_yes hp hM hyS hxS hy16 hx16
      refine ⟨_, _, _, _, fin p y x a f.aug k inners pn _ (.done kv)
        { st with rotateRightInner := st.rotateRightInner + 1 } hfill (hpf.by_stat (by simp [Statistic.innerMerges]; try omega)) ?_ ?_ haug ?_⟩
      · rw [handleInner_eq, if_pos hL, hslot, hinner]
        erw [hrun]
        rfl
      · refine .inl ⟨rfl, Pair.shape_fill hp hpS (by omega) (by omega) hy' ?_⟩
        rw [hflag]
        exact hx'.mono (by omega)
      · simp [Statistic.LE, Statistic.leafFixes]
    · have hno := rotRight_no hM hy16
      by_cases hR : 0 < f.kidsR.length
      · obtain ⟨q, z, b, k2, hfq, hq, hql, hqlen⟩ := Frame.pair_right hf hR
        have hfill2 : f.fill x = q.fill x f.aug k2 z b := by rw [hfq, Pair.fill_left]; rfl
        have hinner2 : f.inner x.nid = q.inner x.nid f.aug k2 z.nid b := by
          rw [← GNode.inner_fill, hfill2, Pair.inner_fill]
        have hM2 : PairMem s q x f.aug k2 z b Lc := by
          rw [hfill2] at hmem' hn'; exact pairMem_iff.2 ⟨hmem', hn'⟩
        have hS2 := hS
        rw [hfq] at hS2
        obtain ⟨hqS, hzS⟩ := hS2.left
        have hfalse : f.holeFlag rr = false := by rw [hfq]; exact holeFlag_false
        rw [hfalse, mnAt_false] at hxS
        have hlt : f.kidsL.length < (f.inner x.nid).len := by
          have := hf.1; have := hf.2.2.1
          rw [← hsz]; simp only [Frame.len]; omega
        by_cases hz16 : 16 < (GNode.keys z).length
        · obtain ⟨inners, pn, k', y', x', hrun, hpf, hy', hx'⟩ :=
            rotLeft_yes hq hM2 hxS hzS hz16 hx16
          refine ⟨_, _, _, _, fin q x z f.aug b k2 inners pn _ (.done kv)
            { st with rotateLeftInner := st.rotateLeftInner + 1 } hfill2 (hpf.by_stat (by simp [Statistic.innerMerges]; try omega)) ?_ ?_ ?_ ?_⟩
          · rw [handleInner_eq, if_pos hL, if_pos hlt, hslot]
            rw [hinner]
            erw [hno]
            simp only [ok_bind]
            rw [← hinner, hinner2, ← hql]
            erw [hrun]
            rfl
          · refine .inl ⟨rfl, Pair.shape_fill hq hqS (by omega) (by omega) hy' ?_⟩
            exact hx'.mono (mnAt_le hμ)
          · intro h1 h2
            rw [hfq] at h1
            obtain ⟨h3, h4⟩ := h1.left
            exact ⟨h3, h2, h4⟩
          · simp [Statistic.LE, Statistic.leafFixes]
        · -- merge left
          have hno2 := rotLeft_no hM2 hz16
          obtain ⟨inners, pn, w, hrun, hpf, hw⟩ := mergeInner_ok hp hM hyS
            (hfalse ▸ hxS : T.ShapeTop μ (h := h + 1) _ (f.holeFlag rr) x) (by omega)
            (by have := hyS.1; omega)
          refine ⟨_, _, _, _, fin p y x a f.aug k inners pn _ _
            { st with mergeWithLeftInner := st.mergeWithLeftInner + 1 } hfill (hpf.by_stat (by simp [Statistic.innerMerges]; try omega)) ?_
            (Out.merged hp hpS hm16 (by omega) (by omega) hμ (hflag ▸ hw)) haug ?_⟩
          · rw [handleInner_eq, if_pos hL, if_pos hlt, if_pos hL, if_pos hL, hslot]
            rw [hinner]
            erw [hno]
            simp only [ok_bind]
            rw [← hinner, hinner2, ← hql]
            erw [hno2]
            simp only [ok_bind]
            rw [← hinner2, hinner]
            erw [hrun]
            rfl
          · simp [Statistic.LE, Statistic.leafFixes]
      · have hge : ¬ f.kidsL.length < (f.inner x.nid).len := by
          have := hf.1; have := hf.2.2.1
          rw [← hsz]; simp only [Frame.len]; omega
        obtain ⟨inners, pn, w, hrun, hpf, hw⟩ := mergeInner_ok hp hM hyS hxS (by omega)
            (by have := hyS.1; omega)
        refine ⟨_, _, _, _, fin p y x a f.aug k inners pn _ _
            { st with mergeWithLeftInner := st.mergeWithLeftInner + 1 } hfill (hpf.by_stat (by simp [Statistic.innerMerges]; try omega)) ?_
            (Out.merged hp hpS hm16 (by omega) (by omega) hμ (hflag ▸ hw)) haug ?_⟩
        · rw [handleInner_eq, if_pos hL, if_neg hge, if_pos hL, if_pos hL, hslot]
          rw [hinner]
          erw [hno]
          simp only [ok_bind, pure_ok]
          erw [hrun]
          rfl
        · simp [Statistic.LE, Statistic.leafFixes]
  · have hR : 0 < f.kidsR.length := by
      have := hf.1; have := hf.2.2.1
      simp only [Frame.len] at h1; omega
    obtain ⟨q, z, b, k2, hfq, hq, hql, hqlen⟩ := Frame.pair_right hf hR
    have hfill2 : f.fill x = q.fill x f.aug k2 z b := by rw [hfq, Pair.fill_left]; rfl
    have hinner2 : f.inner x.nid = q.inner x.nid f.aug k2 z.nid b := by
      rw [← GNode.inner_fill, hfill2, Pair.inner_fill]
    have hM2 : PairMem s q x f.aug k2 z b Lc := by
      rw [hfill2] at hmem' hn'; exact pairMem_iff.2 ⟨hmem', hn'⟩
    have hS2 := hS
    rw [hfq] at hS2
    obtain ⟨hqS, hzS⟩ := hS2.left
    have hfalse : f.holeFlag rr = false := by rw [hfq]; exact holeFlag_false
    rw [hfalse, mnAt_false] at hxS
    have hlt : f.kidsL.length < (f.inner x.nid).len := by
      have := hf.1; have := hf.2.2.1
      rw [← hsz]; simp only [Frame.len]; omega
    have haug : f.AugOK → x.AugOK → q.AugOK ∧ x.AugOK ∧ z.AugOK := by
      intro h1 h2
      rw [hfq] at h1
      obtain ⟨h3, h4⟩ := h1.left
      exact ⟨h3, h2, h4⟩
    by_cases hz16 : 16 < (GNode.keys z).length
    · obtain ⟨inners, pn, k', y', x', hrun, hpf, hy', hx'⟩ :=
        rotLeft_yes hq hM2 hxS hzS hz16 hx16
      refine ⟨_, _, _, _, fin q x z f.aug b k2 inners pn _ (.done kv)
        { st with rotateLeftInner := st.rotateLeftInner + 1 } hfill2 (hpf.by_stat (by simp [Statistic.innerMerges]; try omega)) ?_ ?_ haug ?_⟩
      · rw [handleInner_eq, if_neg hL, if_pos hlt]
        simp only [ok_bind, pure_ok]
        rw [hinner2, ← hql]
        erw [hrun]
        rfl
      · refine .inl ⟨rfl, Pair.shape_fill hq hqS (by omega) (by omega) hy' ?_⟩
        exact hx'.mono (mnAt_le hμ)
      · simp [Statistic.LE, Statistic.leafFixes]
    · have hno2 := rotLeft_no hM2 hz16
      obtain ⟨inners, pn, w, hrun, hpf, hw⟩ := mergeInner_ok hq hM2 hxS hzS (by omega)
        (by have := hxS.1; omega)
      refine ⟨_, _, _, _, fin q x z f.aug b k2 inners pn _ _
        { st with mergeWithRightInner := st.mergeWithRightInner + 1 } hfill2 (hpf.by_stat (by simp [Statistic.innerMerges]; try omega)) ?_
        (Out.merged hq hqS hm16 (by omega) (by omega) hμ hw) haug ?_⟩
      · rw [handleInner_eq, if_neg hL, if_pos hlt, if_neg hL, if_neg hL]
        simp only [ok_bind, pure_ok]
        rw [hinner2, ← hql]
        erw [hno2]
        simp only [ok_bind]
        erw [hrun]
        rfl
      · simp [Statistic.LE, Statistic.leafFixes]

/-- With a parent that has a single child, an inner node that is too small cannot be fixed. -/
theorem inner_step_panic {f : Frame K A (T K V A (h + 1))}
    {x : T K V A (h + 1)} (hf : f.LenOK) (h0 : f.len = 0)
    (hmem : IMem s.inners (x.nodes ++ f.nodes x.nid ++ Lc)) {stk : List StackEntry} :
    removeAscend s st ((f.id, f.kidsL.length, x.nid) :: stk) (.innerUnderSize kv) = .error .panic := by
  have hget : s.getInner f.id = .ok (f.inner x.nid) :=
    hmem.get (p := (f.id, f.inner x.nid)) (by simp [Frame.nodes])
  have hsz : f.len = (f.inner x.nid).len := by simp [Frame.inner, Inner.len, Frame.len]
  have hL : ¬ 0 < f.kidsL.length := by have := hf.1; simp only [Frame.len] at h0; omega
  have hlt : ¬ f.kidsL.length < (f.inner x.nid).len := by omega
  have hh : handleInnerUnderSize s st (f.inner x.nid) f.kidsL.length kv = .error .panic := by
    rw [handleInner_eq, if_neg hL, if_neg hlt, if_neg hL, if_neg hL]
    simp only [ok_bind, pure_ok, mergeInnerNode, hlt, not_false_eq_true, if_true, error_bind]
  simp only [removeAscend, hget, ok_bind, hh, error_bind]

/-- In a release build the same case reads a child that is not there. -/
theorem inner_stepR_ub {f : Frame K A (T K V A (h + 1))}
    {x : T K V A (h + 1)} (hf : f.LenOK) (h0 : f.len = 0)
    (hmem : IMem s.inners (x.nodes ++ f.nodes x.nid ++ Lc)) {stk : List StackEntry} :
    removeAscendR s st ((f.id, f.kidsL.length, x.nid) :: stk) (.innerUnderSize kv) = .error .ub := by
  have hget : s.getInner f.id = .ok (f.inner x.nid) :=
    hmem.get (p := (f.id, f.inner x.nid)) (by simp [Frame.nodes])
  have hsz : f.len = (f.inner x.nid).len := by simp [Frame.inner, Inner.len, Frame.len]
  have hL : f.kidsL = [] := List.length_eq_zero_iff.1 (by have := hf.1; simp only [Frame.len] at h0; omega)
  have hR : f.kidsR = [] := List.length_eq_zero_iff.1 (by have := hf.2.2.1; simp only [Frame.len] at h0; omega)
  have hlt : ¬ 0 < (f.inner x.nid).len := by omega
  have hc : (f.inner x.nid).childs = [x.nid] := by simp [Frame.inner, hL, hR]
  have hc : ∃ j, (f.inner x.nid).childs = [.inner j] := ⟨_, hc⟩
  have hh : handleInnerUnderSizeR s st (f.inner x.nid) 0 kv = .error .ub := by
    generalize f.inner x.nid = n at hc hlt
    obtain ⟨j, hc⟩ := hc
    simp only [handleInnerUnderSizeR, Nat.lt_irrefl, if_false, pure_ok, ok_bind, hlt, mergeInnerNodeR,
      Inner.childId, hc, readAt, List.getElem?_cons_zero, NodeId.innerIdUnchecked,
      Nat.zero_add, List.getElem?_cons_succ, List.getElem?_nil, error_bind]
  simp only [removeAscendR, hget, ok_bind, hL, List.length_nil, hh, error_bind]

/-- The first step of the loop in a release build, when the debug build gets through it. -/
theorem removeAscendR_step {e : StackEntry} {d d1 : DeleteResult K V} {s1 : Store K V A}
    {st1 : Statistic} (hrun : ∀ stk, removeAscend s st (e :: stk) d = removeAscend s1 st1 stk d1)
    (stk : List StackEntry) : removeAscendR s st (e :: stk) d = removeAscendR s1 st1 stk d1 := by
  have h1 : removeAscend s st [e] d = .ok (d1, s1, st1) := hrun []
  have h2 : removeAscendR s st [e] d = .ok (d1, s1, st1) := by
    rw [(removeAscend_agree s st [e] d).eq (by rw [h1]; simp), h1]
  obtain ⟨p, i, n⟩ := e
  cases d with
  | done kv =>
    simp only [removeAscendR] at h2 ⊢
    obtain ⟨a, ha, h2⟩ := bind_ok h2
    obtain ⟨b, hb, h2⟩ := bind_ok h2
    obtain ⟨c, hc, h2⟩ := bind_ok h2
    simp only [pure_ok, Except.ok.injEq, Prod.mk.injEq] at h2
    obtain ⟨rfl, rfl, rfl⟩ := h2
    simp only [ha, hb, hc, ok_bind]
  | innerUnderSize kv =>
    simp only [removeAscendR] at h2 ⊢
    obtain ⟨a, ha, h2⟩ := bind_ok h2
    obtain ⟨⟨b1, b2, b3, b4⟩, hb, h2⟩ := bind_ok h2
    simp only [pure_ok, Except.ok.injEq, Prod.mk.injEq] at h2
    obtain ⟨rfl, rfl, rfl⟩ := h2
    simp only [ha, hb, ok_bind]
  | leafUnderSize j =>
    simp only [removeAscendR] at h2 ⊢
    obtain ⟨a, ha, h2⟩ := bind_ok h2
    obtain ⟨⟨b1, b2, b3, b4⟩, hb, h2⟩ := bind_ok h2
    simp only [pure_ok, Except.ok.injEq, Prod.mk.injEq] at h2
    obtain ⟨rfl, rfl, rfl⟩ := h2
    simp only [ha, hb, ok_bind]

end
end Bpt
