import Verif.Proofs.RemoveLeafStep

/-!
# Removal
-/

namespace Bpt
variable {K V A : Type}

theorem Ctx.min_le {μ : Nat} (hμ : μ ≤ 16) {h H : Nat} {c : Ctx K V A h H} : c.min μ ≤ 16 := by
  cases c with
  | nil => cases h <;> simp [Ctx.min, rootMin]
  | cons f c => exact mnAt_le hμ

theorem Ctx.min_zero {μ : Nat} {h H : Nat} {c : Ctx K V A (h + 1) H} (h0 : c.min μ = 0) : μ = 0 := by
  cases c with
  | nil => simp [Ctx.min, rootMin] at h0
  | cons f c =>
    simp only [Ctx.min] at h0
    cases hb : f.holeFlag c.flag with
    | false => rw [hb, mnAt_false] at h0; omega
    | true => rw [hb] at h0; simpa [mnAt] using h0

section
variable [Augmentation K V A]

/-- The ascending loop above the leaf level. -/
theorem remAscend_ok {μ : Nat} (hμ : μ ≤ 16) {h H : Nat} {c : Ctx K V A h H} {s : Store K V A}
    {st : Statistic} {x x0 : T K V A h} {kv : K × V} {d : DeleteResult K V} (hid : x.nid = x0.nid)
    (hc : c.Shape μ) (ho : Out μ (c.min μ) c.flag x kv d)
    (hlv : ∀ y ∈ c.lvL ++ x.leaves ++ c.lvR, ∃ p n, s.leaves[y.1]? = some (some ⟨y.2, p, n⟩))
    (hm : IMem s.inners (x.nodes ++ c.nodes x.nid))
    (hn : ((x.nodes ++ c.nodes x.nid).map (·.1)).Nodup) :
    (∃ (g : T K V A H) (d' : DeleteResult K V) (inners : List (Option (Inner K A)))
      (st' : Statistic),
      removeAscend s st (c.stack x.nid) d = .ok (d', { s with inners := inners }, st') ∧
      Out μ (rootMin H) true g kv d' ∧ g.nid = (c.plug x0).nid ∧
      IMem inners g.nodes ∧ (g.nodes.map (·.1)).Nodup ∧
      g.inorder = c.inL ++ x.inorder ++ c.inR ∧ g.leaves = c.lvL ++ x.leaves ++ c.lvR ∧
      (c.AugOK → x.AugOK → g.AugOK) ∧ st.LE st' ∧ st'.leafFixes = st.leafFixes ∧
      (c.Right → c.Lone ∨ (d = .done kv ∧ x.LoneR) → d' = .done kv ∧ g.LoneR) ∧
      (d = .done kv → d' = .done kv) ∧ (c.Right → d = .done kv → g.spine = c.spine ++ x.spine) ∧
      (c.spine.getLast? = some 0 → d = .done kv) ∧
      g.nodes.length + st'.innerMerges
        = x.nodes.length + (c.nodes x.nid).length + st.innerMerges ∧
      inners.countP (·.isSome) + st'.innerMerges
        = s.inners.countP (·.isSome) + st.innerMerges) ∨
    (μ = 0 ∧ removeAscend s st (c.stack x.nid) d = .error .panic ∧
      removeAscendR s st (c.stack x.nid) d = .error .ub ∧ d ≠ .done kv) := by
  induction c generalizing s st d with
  | nil =>
    refine .inl ⟨x, d, s.inners, st, rfl, ho, hid, ?_, ?_, ?_, ?_, fun _ h => h,
      Statistic.LE.refl, rfl, fun _ h => h.elim (fun h => h.elim) id, fun h => h,
      fun _ _ => by simp [Ctx.spine], fun h => by simp [Ctx.spine] at h, by simp [Ctx.nodes], rfl⟩
    · simpa [Ctx.nodes] using hm
    · simpa [Ctx.nodes] using hn
    · simp [Ctx.inL, Ctx.inR]
    · simp [Ctx.lvL, Ctx.lvR]
  | @cons h H f c ih =>
    obtain ⟨hS, hmin, h64, hf, hcs⟩ := hc
    simp only [Ctx.nodes, ← List.append_assoc] at hm hn
    have hxl : ∀ y ∈ x.leaves, ∃ p n, s.leaves[y.1]? = some (some ⟨y.2, p, n⟩) :=
      fun y hy => hlv y (List.mem_append_left _ (List.mem_append_right _ hy))
    have hstep : (∃ g d1 inners st1,
        RemStep μ (c.min μ) c.flag s st f x (c.nodes (.inner f.id)) d kv g d1 inners st1 ∧
        (d = .done kv ∨ 1 ≤ f.len)) ∨
        (μ = 0 ∧ removeAscend s st (Ctx.stack (.cons f c) x.nid) d = .error .panic ∧
          removeAscendR s st (Ctx.stack (.cons f c) x.nid) d = .error .ub ∧ d ≠ .done kv) := by
      rcases ho with ⟨rfl, ho⟩ | ⟨rfl, ho⟩
      · obtain ⟨g, d1, inners, st1, h⟩ := done_step (s := s) (st := st) hf h64 hS hmin hxl hm hn ho
        exact .inl ⟨g, d1, inners, st1, h, .inl rfl⟩
      · cases h with
        | zero => exact ho.elim
        | succ h =>
          by_cases h1 : 1 ≤ f.len
          · obtain ⟨g, d1, inners, st1, h⟩ :=
              inner_step (s := s) (st := st) hμ (Ctx.min_le hμ) hf h64 hS hmin h1 hm hn ho
            exact .inl ⟨g, d1, inners, st1, h, .inr h1⟩
          · exact .inr ⟨Ctx.min_zero (c := c) (by omega), inner_step_panic hf (by omega) hm,
              inner_stepR_ub hf (by omega) hm, fun h => by cases h⟩
    rcases hstep with ⟨g, d1, inners, st1, hs, hd1⟩ | hpanic
    · have := ih (s := { s with inners := inners }) (st := st1) (d := d1) (x := g)
        (x0 := f.fill x0) hs.nid hcs hs.out
        (by
          intro y hy
          apply hlv y
          rw [hs.leaves] at hy
          simpa [Ctx.lvL, Ctx.lvR] using hy)
        (by rw [hs.nid]; exact hs.imem) (by rw [hs.nid]; exact hs.nodup)
      rcases this with ⟨g', d', inners', st', h1, h2, h3, h4, h5, h6, h7, h8, h9, h10, h11, h12, h13, h14, h15, h16⟩ |
        ⟨h0, h1, h1', h2⟩
      · refine .inl ⟨g', d', inners', st', ?_, h2, h3, h4, h5, ?_, ?_, ?_, hs.stat.1.trans h9,
          h10.trans hs.stat.2, ?_, fun hd => h12 (hs.done hd), ?_, ?_, ?_, ?_⟩
        · simp only [Ctx.stack]
          rw [hs.run, ← hs.nid]; exact h1
        · rw [h6, hs.inorder]; simp [Ctx.inL, Ctx.inR]
        · rw [h7, hs.leaves]; simp [Ctx.lvL, Ctx.lvR]
        · rintro ⟨ha, hb⟩ hx
          exact h8 hb (hs.aug ha hx)
        · rintro ⟨hr, hrc⟩ hl
          refine h11 hrc ?_
          rcases hl with (hl | hl) | ⟨hd, hl⟩
          · rcases hd1 with hd1 | hd1
            · exact .inr (hs.lone hd1 hr (.inl hl))
            · omega
          · exact .inl hl
          · exact .inr (hs.lone hd hr (.inr hl))
        · rintro ⟨hr, hrc⟩ hd
          rw [h13 hrc (hs.done hd), hs.spine hd hr]
          simp [Ctx.spine]
        · intro h0
          rcases hd1 with hd1 | hd1
          · exact hd1
          · simp only [Ctx.spine, List.getLast?_concat, Option.some.injEq] at h0
            omega
        · rw [hs.nid] at h15
          have := hs.count
          simp only [Ctx.nodes, List.length_append]
          omega
        · have := hs.alloc
          simp only at h16
          omega
      · refine .inr ⟨h0, ?_, ?_, fun hd => h2 (hs.done hd)⟩
        · simp only [Ctx.stack]
          rw [hs.run, ← hs.nid]; exact h1
        · simp only [Ctx.stack]
          rw [removeAscendR_step hs.run, ← hs.nid]; exact h1'
    · exact .inr hpanic

/-- Processing of the root. -/
theorem removeRoot_ok {μ : Nat} {H : Nat} {s : Store K V A} {g : T K V A H} {kv : K × V}
    {d : DeleteResult K V} (ho : Out μ (rootMin H) true g kv d) (hm : IMem s.inners g.nodes)
    (hn : (g.nodes.map (·.1)).Nodup)
    (hlv : ∀ y ∈ g.leaves, ∃ p n, s.leaves[y.1]? = some (some ⟨y.2, p, n⟩)) :
    ∃ (root : NodeId) (H' : Nat) (g' : T K V A H'), removeRoot s g.nid d = .ok (kv, s, root) ∧
      root = g'.nid ∧ newAugmentationForId s root = .ok g'.topAug ∧ IMem s.inners g'.nodes ∧
      (g'.nodes.map (·.1)).Nodup ∧ g'.leaves = g.leaves ∧ g'.inorder = g.inorder ∧
      T.ShapeTop μ (rootMin H') true g' ∧ (g.AugOK → g'.AugOK) ∧
      (d = .done kv → g.LoneR → g'.LoneR) ∧ (d = .done kv → g'.spine = g.spine) ∧
      H' ≤ H ∧ g'.nodes.length + (H - H') = g.nodes.length := by
  rcases ho with ⟨rfl, ho⟩ | ⟨rfl, ho⟩
  · exact ⟨g.nid, H, g, rfl, rfl, newAug_ok ⟨hm, hlv⟩, hm, hn, rfl, rfl, ho, fun h => h,
      fun _ h => h, fun _ => rfl, Nat.le_refl _, by simp⟩
  · cases H with
    | zero => exact ho.elim
    | succ H =>
      obtain ⟨h1, h2, h3⟩ := ho
      obtain ⟨i, ks, cs, as⟩ := g
      have hget : s.getInner i = .ok (GNode.inner ⟨i, ks, cs, as⟩) := hm.get nodes_head
      by_cases h0 : ks.length = 0
      · have hk : ks = [] := List.length_eq_zero_iff.1 h0
        subst hk
        have hl := h1.2.2.1
        simp only [List.length_nil] at hl
        obtain ⟨c, rfl⟩ := List.length_eq_one_iff.1 hl
        have hcS := h3 h0 c (List.mem_singleton_self _)
        have hnodes : T.nodes (h := H + 1) (⟨i, [], [c], as⟩ : GNode K A (T K V A H))
            = (i, GNode.inner ⟨i, [], [c], as⟩) :: c.nodes := by simp [T.nodes]
        rw [hnodes] at hm hn
        have hleaves : T.leaves (h := H + 1) (⟨i, [], [c], as⟩ : GNode K A (T K V A H))
            = c.leaves := by simp [T.leaves]
        rw [hleaves] at hlv
        refine ⟨c.nid, H, c, ?_, rfl, newAug_ok ⟨(IMem.cons.1 hm).2, hlv⟩, (IMem.cons.1 hm).2, ?_,
          hleaves.symm, ?_, hcS.mono ?_, fun h => h.2 c (List.mem_singleton_self _),
          (fun h => by cases h), (fun h => by cases h), Nat.le_succ _, ?_⟩
        · simp only [removeRoot, T.nid_succ, NodeId.innerIdUnchecked, ok_bind, hget]
          simp [Inner.isEmpty, Inner.len, GNode.inner, Inner.childId, readAt]
        · rw [List.map_cons, List.nodup_cons] at hn; exact hn.2
        · simp [T.inorder, inter]
        · cases H <;> simp [rootMin]
        · rw [hnodes, List.length_cons]; omega
      · refine ⟨.inner i, H + 1, ⟨i, ks, cs, as⟩, ?_, rfl, newAug_ok (h := H + 1) (x := (⟨i, ks, cs, as⟩ : GNode K A (T K V A H))) ⟨hm, hlv⟩, hm, hn, rfl, rfl,
          ⟨by simp only [rootMin]; omega, h1.2⟩, fun h => h, fun _ h => h, fun _ => rfl, Nat.le_refl _, by simp⟩
        simp only [removeRoot, T.nid_succ, NodeId.innerIdUnchecked, ok_bind, hget]
        simp [Inner.isEmpty, Inner.len, GNode.inner, h0]

end

theorem set_same {α : Type} {l : List α} {i : Nat} {a : α} (h : l[i]? = some a) : l.set i a = l := by
  apply List.ext_getElem?
  intro j
  by_cases hj : i = j
  · subst hj
    rw [List.getElem?_set_self (List.getElem?_eq_some_iff.1 h).1, h]
  · rw [List.getElem?_set_ne hj]

section
variable [LinearOrder K] [Augmentation K V A]

/-- The account of nodes of a removal: merges free a node each, and every level the tree loses is one
node that is no longer in the tree and stays allocated. -/
structure RemAccount {H H' : Nat} (t : Tree K V A) (g : T K V A H) (t' : Tree K V A)
    (g' : T K V A H') : Prop where
  low : H' ≤ H
  nodes : g'.nodes.length + (H - H') + t'.st.innerMerges = g.nodes.length + t.st.innerMerges
  alloc : t'.store.allocatedInners + t'.st.innerMerges
    = t.store.allocatedInners + t.st.innerMerges
  leaves : g'.leaves.length + t'.st.leafMerges = g.leaves.length + t.st.leafMerges

omit [LinearOrder K] [Augmentation K V A] in
theorem RemAccount.refl {H : Nat} {t : Tree K V A} {g : T K V A H} : RemAccount t g t g :=
  ⟨Nat.le_refl _, by omega, rfl, rfl⟩

/-- Removal of the entry at a given position of a well-formed tree. The second case, a panic, is
only possible when inner nodes on the right spine may have a single child (`μ = 0`), which bulk
loading can produce. -/
theorem removeByRef_ok0 {μ : Nat} (hμ : μ ≤ 16) {t : Tree K V A} {H : Nat} {g : T K V A H}
    (w : WF0 μ t g) {c : Ctx K V A 0 H} {i : Nat} {d1 d2 : List (K × V)} {kv : K × V}
    (hp : c.plug ⟨i, d1 ++ kv :: d2⟩ = g) (hlen : c.LenOK) :
    (∃ (t' : Tree K V A) (H' : Nat) (g' : T K V A H'),
      t.removeByRef ⟨c.stack (.leaf i), i, d1.length⟩ = .ok (kv, t') ∧ WF0 μ t' g' ∧
      (g.inorder.Pairwise E.R → g'.inorder.Pairwise E.R) ∧
      g'.toL = c.lvL.flatMap (·.2) ++ (d1 ++ d2) ++ c.lvR.flatMap (·.2) ∧
      (AugWF t g → AugWF t' g') ∧ t.st.LE t'.st ∧ t.st.leafFixes ≤ t'.st.leafFixes ∧
      t'.st.leafFixes ≤ t.st.leafFixes + 1 ∧ (c.Right → c.Lone → g'.LoneR) ∧
      (c.Right → ∀ rest n, c.spine = rest ++ [0, n] → 1 ≤ n →
        ∃ n', 1 ≤ n' ∧ g'.spine = rest ++ [0, n']) ∧
      RemAccount t g t' g') ∨
    (μ = 0 ∧ t.removeByRef ⟨c.stack (.leaf i), i, d1.length⟩ = .error .panic ∧
      t.removeByRefR ⟨c.stack (.leaf i), i, d1.length⟩
        = if c.spine.getLast? = some 0 then .error .panic else .error .ub) := by
  obtain ⟨hcS, hxS⟩ := Ctx.shape_plug.1 ⟨hp ▸ w.shape, hlen⟩
  have hleaves : g.leaves = c.lvL ++ (i, d1 ++ kv :: d2) :: c.lvR := by
    rw [← hp, Ctx.leaves_plug]; simp [T.leaves]
  have hin : g.inorder = c.inL ++ ek (d1 ++ kv :: d2) ++ c.inR := by
    rw [← hp, Ctx.inorder_plug hlen]; rfl
  have htoL : g.toL = c.lvL.flatMap (·.2) ++ (d1 ++ kv :: d2) ++ c.lvR.flatMap (·.2) := by
    simp [T.toL, hleaves]
  have hseg := w.seg
  have hlnd := w.lnodup
  have hlive := w.live
  rw [hleaves] at hseg hlnd hlive
  have hg : g.nodes.Perm (c.nodes (.leaf i)) := by
    rw [← hp]; exact Ctx.nodes_plug
  have hm := w.imem.perm hg
  have hn := (List.Perm.ids hg).1 w.inodup
  have hroot : t.root = (c.plug ⟨i, d1 ++ kv :: d2⟩).nid := by rw [w.root, hp]
  have hget : t.store.getLeaf i = .ok ⟨d1 ++ kv :: d2, lstId none c.lvL, hdId c.lvR none⟩ :=
    hseg.getLeaf
  have hget' : t.store.leaves[i]? = some (some ⟨d1 ++ kv :: d2, lstId none c.lvL, hdId c.lvR none⟩) :=
    hseg.get
  have hxl : (d1 ++ kv :: d2).length = d1.length + d2.length + 1 := by simp; omega
  have h64 : (d1 ++ kv :: d2).length ≤ 64 := hxS.2
  have hlow : c.min μ ≤ (d1 ++ kv :: d2).length := hxS.1
  have hlt : t.len = (c.lvL.flatMap (·.2) ++ (d1 ++ d2) ++ c.lvR.flatMap (·.2)).length + 1 := by
    rw [w.len, htoL]; simp only [List.length_append, List.length_cons]; omega
  have hAc : AugWF t g → c.AugOK := fun h => (Ctx.augOK_of_plug hlen (hp ▸ h.ok)).1
  -- the end of the operation, once the ascending loop is done
  have fin : ∀ (s1 : Store K V A) (st1 : Statistic) (g1 : T K V A H) (d d0 : DeleteResult K V)
      (dr : Leaf.DeleteResult K V) (l1 : Leaf K V),
      (⟨d1 ++ kv :: d2, lstId none c.lvL, hdId c.lvR none⟩ : Leaf K V).tryDeleteAt d1.length
        = .ok (l1, dr) →
      (dr = .done kv ∧ d0 = .done kv ∨ ∃ idx, dr = .underSize idx ∧ d0 = .leafUnderSize idx) →
      removeAscend (t.store.setLeaf i l1) t.st (c.stack (.leaf i)) d0 = .ok (d, s1, st1) →
      Out μ (rootMin H) true g1 kv d → g1.nid = t.root →
      IMem s1.inners g1.nodes → (g1.nodes.map (·.1)).Nodup →
      Seg s1.leaves none g1.leaves none → (g1.leaves.map (·.1)).Nodup →
      (∀ q l, s1.leaves[q]? = some (some l) → q ∈ g1.leaves.map (·.1)) →
      (g.inorder.Pairwise E.R → g1.inorder.Pairwise E.R) →
      g1.leaves.flatMap (·.2) = c.lvL.flatMap (·.2) ++ (d1 ++ d2) ++ c.lvR.flatMap (·.2) →
      (c.AugOK → g1.AugOK) → t.st.LE st1 → t.st.leafFixes ≤ st1.leafFixes →
      st1.leafFixes ≤ t.st.leafFixes + 1 → (c.Right → c.Lone → d = .done kv ∧ g1.LoneR) →
      (c.Right → ∀ rest n, c.spine = rest ++ [0, n] → 1 ≤ n →
        d = .done kv ∧ ∃ n', 1 ≤ n' ∧ g1.spine = rest ++ [0, n']) →
      g1.nodes.length + st1.innerMerges = g.nodes.length + t.st.innerMerges →
      s1.allocatedInners + st1.innerMerges = t.store.allocatedInners + t.st.innerMerges →
      g1.leaves.length + st1.leafMerges = g.leaves.length + t.st.leafMerges →
      (∃ (t' : Tree K V A) (H' : Nat) (g' : T K V A H'),
      t.removeByRef ⟨c.stack (.leaf i), i, d1.length⟩ = .ok (kv, t') ∧ WF0 μ t' g' ∧
      (g.inorder.Pairwise E.R → g'.inorder.Pairwise E.R) ∧
      g'.toL = c.lvL.flatMap (·.2) ++ (d1 ++ d2) ++ c.lvR.flatMap (·.2) ∧
      (AugWF t g → AugWF t' g') ∧ t.st.LE t'.st ∧ t.st.leafFixes ≤ t'.st.leafFixes ∧
      t'.st.leafFixes ≤ t.st.leafFixes + 1 ∧ (c.Right → c.Lone → g'.LoneR) ∧
      (c.Right → ∀ rest n, c.spine = rest ++ [0, n] → 1 ≤ n →
        ∃ n', 1 ≤ n' ∧ g'.spine = rest ++ [0, n']) ∧
      RemAccount t g t' g') := by
    intro s1 st1 g1 d d0 dr l1 htry hdr hrun hout hnid him hnd hsg hsn hlv hor hct hau hs1 hs2 hs3 hlo hsp hcnt hall hlcnt
    have hmem : ∀ y ∈ g1.leaves, ∃ p n, s1.leaves[y.1]? = some (some ⟨y.2, p, n⟩) := by
      intro y hy
      obtain ⟨a, b, hab⟩ := List.append_of_mem hy
      have := hsg
      rw [hab] at this
      exact ⟨_, _, this.get⟩
    obtain ⟨root, H', g', r1, r2, r3, r4, r5, r6, r7, r8, r9, r10, r11, r12, r13⟩ := removeRoot_ok hout him hnd hmem
    have htl : g'.toL = c.lvL.flatMap (·.2) ++ (d1 ++ d2) ++ c.lvR.flatMap (·.2) := by
      rw [T.toL, r6, hct]
    refine ⟨{ root := root, rootAug := g'.topAug, len := t.len - 1, store := s1, st := st1 }, H', g',
      ?_, ?_, by rw [r7]; exact hor, htl, ?_, hs1, hs2, hs3, fun h1 h2 => r10 (hlo h1 h2).1 (hlo h1 h2).2,
      fun hr rest n h1 h2 => by rw [r11 (hsp hr rest n h1 h2).1]; exact (hsp hr rest n h1 h2).2,
      r12, by show g'.nodes.length + (H - H') + st1.innerMerges = _; omega, hall, by rw [r6]; exact hlcnt⟩
    · have h0 : ¬ t.len = 0 := by omega
      rcases hdr with ⟨rfl, rfl⟩ | ⟨idx, rfl, rfl⟩ <;>
        simp only [Tree.removeByRef, hget, ok_bind, htry, hrun, ← hnid, r1, r3, h0, if_false, pure_ok]
    · refine ⟨r2, r4, r5, ?_, ?_, ?_, r8, ?_⟩
      · rw [r6]; exact hsg
      · rw [r6]; exact hsn
      · rw [r6]; exact hlv
      · rw [htl, hlt]; rfl
    · exact fun ha => ⟨r9 (hau (hAc ha)), .inl rfl⟩
  by_cases hlend : 16 < (d1 ++ kv :: d2).length
  · -- the leaf can lend
    have htry : (⟨d1 ++ kv :: d2, lstId none c.lvL, hdId c.lvR none⟩ : Leaf K V).tryDeleteAt d1.length
        = .ok (⟨d1 ++ d2, lstId none c.lvL, hdId c.lvR none⟩, .done kv) := by
      have : (⟨d1 ++ kv :: d2, lstId none c.lvL, hdId c.lvR none⟩ : Leaf K V).ableToLend = true :=
        decide_eq_true hlend
      simp only [Leaf.tryDeleteAt, this, if_true, sliceRemove_ok rfl, ok_bind, pure_ok]
    have hseg1 := Seg.update (d' := d1 ++ d2) hseg hlnd
    have hlnd1 : ((c.lvL ++ (i, d1 ++ d2) :: c.lvR).map (·.1)).Nodup := by simpa using hlnd
    have hlive1 : ∀ q l, (t.store.leaves.set i
        (some ⟨d1 ++ d2, lstId none c.lvL, hdId c.lvR none⟩))[q]? = some (some l) →
        q ∈ (c.lvL ++ (i, d1 ++ d2) :: c.lvR).map (·.1) := by
      intro q l hq
      have := live_set hlive (by simp) q l hq
      simpa using this
    let x' : GLeaf K V := ⟨i, d1 ++ d2⟩
    have hmin := Ctx.min_le hμ (c := c)
    have := remAscend_ok hμ (c := c)
      (s := t.store.setLeaf i ⟨d1 ++ d2, lstId none c.lvL, hdId c.lvR none⟩)
      (st := t.st) (x := x') (x0 := ⟨i, d1 ++ kv :: d2⟩) (kv := kv) (d := .done kv) rfl hcS
      (.inl ⟨rfl, by simp only [x', List.length_append]; omega,
        by simp only [x', List.length_append]; omega⟩)
      (by
        intro y hy
        have hy' : y ∈ c.lvL ++ (i, d1 ++ d2) :: c.lvR := by simpa [T.leaves, x'] using hy
        obtain ⟨a, b, hab⟩ := List.append_of_mem hy'
        have := hseg1
        rw [hab] at this
        exact ⟨_, _, this.get⟩)
      (by simpa [T.nodes, x', Store.setLeaf] using hm) (by simpa [T.nodes, x'] using hn)
    rcases this with ⟨g1, d', inners, st', h1, h2, h3, h4, h5, h6, h7, h8, h9, h10, h11, h12, h13, -, h15, h16⟩ |
      ⟨h0, h1, -, h2⟩
    · have hlv1 : g1.leaves = c.lvL ++ (i, d1 ++ d2) :: c.lvR := by
        rw [h7]; simp [T.leaves, x']
      refine .inl (fin _ st' g1 d' _ _ _ htry (.inl ⟨rfl, rfl⟩) h1 h2 (by rw [h3, hroot]) h4 h5
        ?_ ?_ ?_ ?_ ?_ (fun h => h8 h trivial) h9 (by omega) (by omega)
        (fun hr hl => h11 hr (.inl hl))
        (fun hr rest n h1 h2 => ⟨h12 rfl, n, h2, by rw [h13 hr rfl, h1]; simp [T.spine]⟩)
        (by rw [h15, hg.length_eq]; simp [T.nodes, x', T.nid]) h16
        (by
          rw [hlv1, hleaves]
          simp only [Statistic.leafMerges, Statistic.leafFixes, Statistic.LE, List.length_append,
            List.length_cons] at h9 h10 ⊢
          omega))
      · rw [hlv1]; exact hseg1
      · rw [hlv1]; exact hlnd1
      · rw [hlv1]; exact hlive1
      · intro hord
        rw [hin] at hord
        rw [h6]
        refine hord.sublist ?_
        simp only [T.inorder, x', ek, List.map_append, List.map_cons, List.append_assoc,
          List.cons_append]
        exact List.Sublist.append_left (List.Sublist.append_left
          (List.Sublist.cons _ (List.Sublist.refl _)) _) _
      · rw [hlv1]; simp
    · exact absurd rfl h2
  · -- the leaf is at the minimum
    have htry : (⟨d1 ++ kv :: d2, lstId none c.lvL, hdId c.lvR none⟩ : Leaf K V).tryDeleteAt d1.length
        = .ok (⟨d1 ++ kv :: d2, lstId none c.lvL, hdId c.lvR none⟩, .underSize d1.length) := by
      have : (⟨d1 ++ kv :: d2, lstId none c.lvL, hdId c.lvR none⟩ : Leaf K V).ableToLend = false :=
        decide_eq_false hlend
      simp only [Leaf.tryDeleteAt, this, Bool.false_eq_true, if_false, pure_ok]
    have hset : t.store.setLeaf i ⟨d1 ++ kv :: d2, lstId none c.lvL, hdId c.lvR none⟩ = t.store := by
      simp only [Store.setLeaf, set_same hget']
    cases c with
    | nil =>
      refine .inl ?_
      simp only [Ctx.lvL, Ctx.lvR, Ctx.inL, Ctx.inR, List.nil_append, List.append_nil,
        List.flatMap_nil, lstId_nil, hdId_nil, Ctx.stack, Ctx.nodes] at *
      let x' : GLeaf K V := ⟨i, d1 ++ d2⟩
      have hseg1 : Seg (t.store.leaves.set i (some ⟨d1 ++ d2, none, none⟩)) none [(i, d1 ++ d2)] none := by
        have := Seg.update (LA := []) (LB := []) (d' := d1 ++ d2) hseg hlnd
        simpa using this
      have ha : newAugmentationForId (t.store.setLeaf i ⟨d1 ++ d2, none, none⟩) (.leaf i)
          = .ok (T.topAug (A := A) (h := 0) x') := by
        refine newAug_ok (K := K) (V := V) (A := A) (h := 0) (x := x') ⟨fun _ h => by simp [T.nodes] at h, ?_⟩
        intro y hy
        simp only [T.leaves, List.mem_singleton] at hy
        subst hy
        exact ⟨none, none, hseg1.1⟩
      have hr : t.root = .leaf i := by rw [hroot]; rfl
      refine ⟨{ root := .leaf i, rootAug := T.topAug (A := A) (h := 0) x', len := t.len - 1,
                store := t.store.setLeaf i ⟨d1 ++ d2, none, none⟩, st := t.st }, 0, x', ?_, ?_, ?_, ?_,
        fun _ => ⟨trivial, .inl rfl⟩, Statistic.LE.refl, Nat.le_refl _, Nat.le_succ _,
        fun _ h => h.elim, fun _ rest n h1 => by simp [Ctx.spine] at h1, Nat.le_refl _,
        by rw [hg.length_eq]; simp [T.nodes], rfl, by rw [hleaves]; simp [T.leaves]⟩
      · have h0 : ¬ t.len = 0 := by omega
        simp only [Tree.removeByRef, hget, ok_bind, htry, hset, removeAscend, pure_ok, removeRoot, hr,
          NodeId.leafIdUnchecked, Leaf.deleteAt, sliceRemove_ok rfl, ha, h0, if_false]
      · refine ⟨rfl, by simp [T.nodes], by simp [T.nodes], hseg1, by simp [T.leaves], ?_, ?_, ?_⟩
        · have := live_set (l := ⟨d1 ++ d2, none, none⟩) hlive (List.mem_singleton_self _)
          intro q l hq
          have := this q l hq
          simpa [T.leaves, x'] using this
        · exact ⟨Nat.zero_le _, by simp only [x', List.length_append]; omega⟩
        · simp only [T.toL, T.leaves, x', List.flatMap_cons, List.flatMap_nil, List.append_nil]
          omega
      · intro hord
        rw [hin] at hord
        refine hord.sublist ?_
        simp only [T.inorder, x', ek, List.map_append, List.map_cons]
        exact List.Sublist.append_left (List.Sublist.cons _ (List.Sublist.refl _)) _
      · simp [T.toL, T.leaves, x']
    | cons f c =>
      obtain ⟨hS, hmin, hf64, hf, hcs⟩ := hcS
      by_cases h1 : 1 ≤ f.len
      · simp only [Ctx.nodes] at hm hn
        simp only [Ctx.lvL, Ctx.lvR] at *
        obtain ⟨g0, d0, s0, st0, hs⟩ := leaf_step (s := t.store) (st := t.st) (LA := c.lvL) (LB := c.lvR) (kv := kv) (i := i)
          (d1 := d1) (d2 := d2) hμ (Ctx.min_le hμ) hf hf64 hS hmin h1 hm hn
          (by simpa using hseg) (by simpa using hlnd) (by simpa using hlive) hlow (by omega)
        have := remAscend_ok hμ (c := c) (s := s0) (st := st0) (x := g0)
          (x0 := f.fill ⟨i, d1 ++ kv :: d2⟩) (kv := kv) (d := d0) hs.nid hcs hs.out
          (by
            intro y hy
            obtain ⟨a, b, hab⟩ := List.append_of_mem hy
            have := hs.seg
            rw [hab] at this
            exact ⟨_, _, this.get⟩)
          (by rw [hs.nid]; exact hs.imem) (by rw [hs.nid]; exact hs.nodup)
        rcases this with ⟨g1, d', inners, st', h1, h2, h3, h4, h5, h6, h7, h8, h9, h10, h11, h12, h13, h14, h15, h16⟩ |
          ⟨h0, h1, h1', h2⟩
        · have hs3 := hs.stat
          refine .inl (fin { s0 with inners := inners } st' g1 d' _ _ _ htry (.inr ⟨_, rfl, rfl⟩) ?_ h2 (by rw [h3, hroot]; rfl) h4 h5
            ?_ ?_ ?_ ?_ ?_ ?_ (hs3.1.trans h9) (by omega) (by omega)
            (fun hr hl => h11 hr.2 (.inl (hl.resolve_left (by omega))))
            (fun hr rest n e1 e2 => by
              have e3 : c.spine = rest ++ [0] ∧ f.len = n := by
                have : c.spine ++ [f.len] = (rest ++ [0]) ++ [n] := by simpa [Ctx.spine] using e1
                exact ⟨(List.append_inj' this rfl).1, by simpa using (List.append_inj' this rfl).2⟩
              have hd := h14 (by rw [e3.1]; simp)
              refine ⟨h12 hd, (GNode.keys g0).length, ?_, ?_⟩
              · rcases hs.size hd with e4 | e4 <;> omega
              · rw [h13 hr.2 hd, e3.1, T.spine_one]; simp)
            (by
              have e1 : st0.innerMerges = t.st.innerMerges := by
                have h1 := hs3.1
                have h2 := hs3.2.2
                simp only [Statistic.innerMerges, Statistic.innerFixes, Statistic.LE] at h1 h2 ⊢
                omega
              have e2 : g0.nodes.length = 1 := by
                simp [T.nodes]
              have e3 : (f.nodes (.leaf i)).length = 1 := by
                simp only [Frame.nodes, Frame.side, List.length_cons]; rw [side0, side0]; rfl
              rw [h15, hg.length_eq, hs.nid]
              simp only [Ctx.nodes, List.length_append]
              omega)
            (by
              have e1 : st0.innerMerges = t.st.innerMerges := by
                have h1 := hs3.1
                have h2 := hs3.2.2
                simp only [Statistic.innerMerges, Statistic.innerFixes, Statistic.LE] at h1 h2 ⊢
                omega
              have e2 := hs.alloc
              simp only [Store.allocatedInners]
              omega)
            (by
              have e1 := hs.count
              rw [h7, hleaves]
              simp only [Statistic.leafMerges, Statistic.leafFixes, Statistic.LE, List.length_append,
                List.length_cons] at h9 h10 e1 ⊢
              omega))
          · rw [hset]
            simp only [Ctx.stack]
            rw [hs.run, ← hs.nid]; exact h1
          · rw [h7]; exact hs.seg
          · rw [h7]; exact hs.lnodup
          · rw [h7]; exact hs.live
          · intro hord
            rw [hin] at hord
            rw [h6]
            refine hs.ord _ _ ?_
            simpa [Ctx.inL, Ctx.inR] using hord
          · rw [h7]
            have := hs.content
            simp only [List.flatMap_append, this, List.append_assoc]
          · rintro ⟨ha, hb⟩
            exact h8 hb (hs.aug ha)
        · have hne : ¬ (Ctx.spine (.cons f c)).getLast? = some 0 := by
            simp only [Ctx.spine, List.getLast?_concat, Option.some.injEq]; omega
          have htryR := (Leaf.tryDeleteAt_agree _ _).eq (by rw [htry]; simp) |>.trans htry
          have : removeAscendR t.store t.st (Ctx.stack (.cons f c) (.leaf i))
              (.leafUnderSize d1.length) = .error .ub := by
            simp only [Ctx.stack]
            rw [removeAscendR_step hs.run, ← hs.nid]; exact h1'
          refine .inr ⟨h0, ?_, by
            rw [if_neg hne]
            simp only [Tree.removeByRefR, hget, ok_bind, htryR, hset, this, error_bind]⟩
          have : removeAscend t.store t.st (Ctx.stack (.cons f c) (.leaf i))
              (.leafUnderSize d1.length) = .error .panic := by
            simp only [Ctx.stack]
            rw [hs.run, ← hs.nid]; exact h1
          simp only [Tree.removeByRef, hget, ok_bind, htry, hset, this, error_bind]
      · have he : (Ctx.spine (.cons f c)).getLast? = some 0 := by
          simp only [Ctx.spine, List.getLast?_concat, Option.some.injEq]; omega
        have htryR := (Leaf.tryDeleteAt_agree _ _).eq (by rw [htry]; simp) |>.trans htry
        have : removeAscendR t.store t.st (Ctx.stack (.cons f c) (.leaf i))
            (.leafUnderSize d1.length) = .error .panic :=
          leaf_stepR_panic hf (by omega) hm
        refine .inr ⟨Ctx.min_zero (c := c) (by omega), ?_, by
          rw [if_pos he]
          simp only [Tree.removeByRefR, hget, ok_bind, htryR, hset, this, error_bind]⟩
        have : removeAscend t.store t.st (Ctx.stack (.cons f c) (.leaf i))
            (.leafUnderSize d1.length) = .error .panic :=
          leaf_step_panic hf (by omega) hm
        simp only [Tree.removeByRef, hget, ok_bind, htry, hset, this, error_bind]

theorem removeByRef_ok {μ : Nat} (hμ : μ ≤ 16) {t : Tree K V A} {H : Nat} {g : T K V A H}
    (w : WF μ t g) {c : Ctx K V A 0 H} {i : Nat} {d1 d2 : List (K × V)} {kv : K × V}
    (hp : c.plug ⟨i, d1 ++ kv :: d2⟩ = g) (hlen : c.LenOK) :
    (∃ (t' : Tree K V A) (H' : Nat) (g' : T K V A H'),
      t.removeByRef ⟨c.stack (.leaf i), i, d1.length⟩ = .ok (kv, t') ∧ WF μ t' g' ∧
      g'.toL = c.lvL.flatMap (·.2) ++ (d1 ++ d2) ++ c.lvR.flatMap (·.2) ∧
      (AugWF t g → AugWF t' g') ∧ t.st.LE t'.st ∧ t.st.leafFixes ≤ t'.st.leafFixes ∧
      t'.st.leafFixes ≤ t.st.leafFixes + 1 ∧
      RemAccount t g t' g') ∨
    (μ = 0 ∧ t.removeByRef ⟨c.stack (.leaf i), i, d1.length⟩ = .error .panic) := by
  rcases removeByRef_ok0 hμ w.base hp hlen with ⟨t', H', g', h1, h2, h3, h4, h5, h6, h7, h8, -, -, h9⟩ | ⟨h0, h1, -⟩
  · exact .inl ⟨t', H', g', h1, h2.ordered (h3 w.ord), h4, h5, h6, h7, h8, h9⟩
  · exact .inr ⟨h0, h1⟩

end
end Bpt
