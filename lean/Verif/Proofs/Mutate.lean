import Verif.AugSpec
import Verif.Proofs.Reads

/-!
# Removal by key and changing values in place
-/

namespace Bpt
variable {K V A : Type}
open Spec

section Path

theorem flatMap_split {α β : Type} {f : α → List β} {l : List α} {P Q : List β} {y : β}
    (h : l.flatMap f = P ++ y :: Q) :
    ∃ l1 a l2 P' Q', l = l1 ++ a :: l2 ∧ f a = P' ++ y :: Q' ∧ P = l1.flatMap f ++ P' ∧
      Q = Q' ++ l2.flatMap f := by
  induction l generalizing P with
  | nil => simp at h
  | cons a l ih =>
    simp only [List.flatMap_cons] at h
    rw [List.append_eq_append_iff] at h
    rcases h with ⟨R, h1, h2⟩ | ⟨R, h1, h2⟩
    · obtain ⟨l1, a', l2, P', Q', rfl, h4, h5, h6⟩ := ih h2
      exact ⟨a :: l1, a', l2, P', Q', rfl, h4, by simp [h1, h5], h6⟩
    · cases R with
      | nil =>
        simp only [List.nil_append] at h2
        obtain ⟨l1, a', l2, P', Q', rfl, h4, h5, h6⟩ := ih (P := []) (by simpa using h2.symm)
        refine ⟨a :: l1, a', l2, P', Q', rfl, h4, ?_, h6⟩
        simp only [List.append_nil] at h1
        simp [h1, ← h5]
      | cons r R =>
        simp only [List.cons_append, List.cons.injEq] at h2
        refine ⟨[], a, l, P, R, rfl, ?_, by simp, h2.2⟩
        rw [h1, h2.1]

/-- Every leaf of a tree is reached by a path. -/
theorem exists_ctx {μ : Nat} {H : Nat} {g : T K V A H} (hg : T.ShapeTop μ (rootMin H) true g)
    {LA LB : List (Nat × List (K × V))} {i : Nat} {d : List (K × V)}
    (hL : g.leaves = LA ++ (i, d) :: LB) :
    ∃ c : Ctx K V A 0 H, c.plug ⟨i, d⟩ = g ∧ c.LenOK ∧ c.lvL = LA ∧ c.lvR = LB := by
  have key : ∀ (h : Nat) (c : Ctx K V A h H) (x : T K V A h) (P Q : List (Nat × List (K × V))),
      c.plug x = g → c.LenOK → x.leaves = P ++ (i, d) :: Q → c.lvL ++ P = LA → Q ++ c.lvR = LB →
      ∃ c : Ctx K V A 0 H, c.plug ⟨i, d⟩ = g ∧ c.LenOK ∧ c.lvL = LA ∧ c.lvR = LB := by
    intro h
    induction h with
    | zero =>
      intro c x P Q hp hl hx h1 h2
      obtain ⟨j, e⟩ := x
      simp only [T.leaves] at hx
      rcases P with _ | ⟨p, P⟩
      · simp only [List.nil_append, List.cons.injEq, Prod.mk.injEq] at hx
        obtain ⟨⟨rfl, rfl⟩, rfl⟩ := hx
        exact ⟨c, hp, hl, by simpa using h1, by simpa using h2⟩
      · simp at hx
    | succ h ih =>
      intro c x P Q hp hl hx h1 h2
      simp only [T.leaves] at hx
      obtain ⟨k1, y, k2, P', Q', hk, hy, rfl, rfl⟩ := flatMap_split hx
      have hs := (Ctx.shape_plug.1 ⟨hp ▸ hg, hl⟩).2
      have hkl := (T.ShapeTop.lens hs).1
      obtain ⟨f, y', rfl, hf, h3, -⟩ := exists_frame (x := x) (T.ShapeTop.lens hs).1
        (T.ShapeTop.lens hs).2 (i := k1.length) (by rw [hk] at hkl; simp at hkl; omega)
      have hk' : f.kidsL ++ y' :: f.kidsR = k1 ++ y :: k2 := hk
      obtain ⟨rfl, e⟩ := List.append_inj hk' h3
      obtain ⟨rfl, rfl⟩ := List.cons.inj e
      refine ih (.cons f c) y' P' Q' hp ⟨hf, hl⟩ hy ?_ ?_
      · rw [← h1]; simp [Ctx.lvL, Frame.lvL]
      · rw [← h2]; simp [Ctx.lvR, Frame.lvR]
  exact key H .nil g LA LB rfl trivial hL (by simp [Ctx.lvL]) (by simp [Ctx.lvR])

theorem Ctx.nid_plug {h H : Nat} {c : Ctx K V A h H} {x y : T K V A h} (hxy : x.nid = y.nid) :
    (c.plug x).nid = (c.plug y).nid := by
  induction c with
  | nil => exact hxy
  | cons f c ih => exact ih rfl

variable [Augmentation K V A]

theorem Ctx.aug_plug {h H : Nat} {c : Ctx K V A h H} (hc : c.LenOK) {x y : T K V A h}
    (hxy : x.topAug = y.topAug) (hy : x.AugOK → y.AugOK) :
    ((c.plug x).AugOK → (c.plug y).AugOK) ∧ (c.plug x).topAug = (c.plug y).topAug := by
  induction c with
  | nil => exact ⟨hy, hxy⟩
  | cons f c ih =>
    refine ih hc.2 ?_ ?_
    · simp only [T.topAug, Frame.fill]
    · rw [T.augOK_fill hc.1, T.augOK_fill hc.1]
      rintro ⟨h1, h2, h3⟩
      exact ⟨h1, h2.trans hxy, hy h3⟩

end Path

/-- Overwriting the value of an entry of a leaf. -/
theorem setValue_ok0 {μ : Nat} {t : Tree K V A} {H : Nat} {g : T K V A H} (w : WF0 μ t g)
    {LA LB : List (Nat × List (K × V))} {i : Nat} {a b : List (K × V)} {k : K} {v v' : V}
    (hL : g.leaves = LA ++ (i, a ++ (k, v) :: b) :: LB) :
    ∃ g' : T K V A H,
      WF0 μ { t with store := t.store.setLeaf i ⟨a ++ (k, v') :: b, lstId none LA, hdId LB none⟩ } g' ∧
      g'.inorder = g.inorder ∧
      g'.toL = LA.flatMap (·.2) ++ (a ++ (k, v') :: b) ++ LB.flatMap (·.2) ∧
      (∀ [Augmentation K V A], KeyOnly K V A → (g.AugOK → g'.AugOK) ∧ g'.topAug = g.topAug) := by
  obtain ⟨c, hp, hl, rfl, rfl⟩ := exists_ctx w.shape hL
  let x : T K V A 0 := (⟨i, a ++ (k, v) :: b⟩ : GLeaf K V)
  let y : T K V A 0 := (⟨i, a ++ (k, v') :: b⟩ : GLeaf K V)
  have hp' : c.plug x = g := hp
  obtain ⟨hcS, hxS⟩ := Ctx.shape_plug.1 ⟨hp ▸ w.shape, hl⟩
  have hleaves : (c.plug y).leaves = c.lvL ++ (i, a ++ (k, v') :: b) :: c.lvR := by
    rw [Ctx.leaves_plug]; simp [T.leaves, y]
  have hnodes : g.nodes.Perm (c.plug y).nodes := by
    rw [← hp']
    exact (Ctx.nodes_plug (c := c) (x := x)).trans (Ctx.nodes_plug (c := c) (x := y)).symm
  have hseg := w.seg
  have hlnd := w.lnodup
  have hlive := w.live
  rw [hL] at hseg hlnd hlive
  have htoL : (c.plug y).toL = c.lvL.flatMap (·.2) ++ (a ++ (k, v') :: b) ++ c.lvR.flatMap (·.2) := by
    simp [T.toL, hleaves]
  refine ⟨c.plug y, ⟨?_, ?_, ?_, ?_, ?_, ?_, ?_, ?_⟩, ?_, htoL, ?_⟩
  · show t.root = _
    rw [w.root, ← hp']
    exact Ctx.nid_plug rfl
  · exact w.imem.perm hnodes
  · exact (List.Perm.ids hnodes).1 w.inodup
  · rw [hleaves]; exact Seg.update hseg hlnd
  · rw [hleaves]; simpa using hlnd
  · rw [hleaves]
    intro q l hq
    have := live_set hlive (by simp) q l hq
    simpa using this
  · refine (Ctx.shape_plug.2 ⟨hcS, ?_⟩).1
    have h1 : _ ≤ (a ++ (k, v) :: b).length := hxS.1
    have h2 : (a ++ (k, v) :: b).length ≤ 64 := hxS.2
    exact ⟨by simp only [y, List.length_append, List.length_cons] at h1 ⊢; exact h1,
      by simp only [y, List.length_append, List.length_cons] at h2 ⊢; exact h2⟩
  · show t.len = _
    rw [w.len, htoL]
    simp [T.toL, hL]
  · rw [← hp, Ctx.inorder_plug hl, Ctx.inorder_plug hl]
    simp [T.inorder, y]
  · intro _ hk
    have he : T.topAug (h := 0) (K := K) (V := V) (A := A) x = T.topAug (h := 0) y := by
      simp only [T.topAug, x, y, List.map_append, List.map_cons]
      exact hk _ _ _ (by simp)
    have := Ctx.aug_plug hl he (fun _ => trivial)
    rw [hp'] at this
    exact ⟨this.1, this.2.symm⟩

section
variable [LinearOrder K]

theorem setValue_ok {μ : Nat} {t : Tree K V A} {H : Nat} {g : T K V A H} (w : WF μ t g)
    {LA LB : List (Nat × List (K × V))} {i : Nat} {a b : List (K × V)} {k : K} {v v' : V}
    (hL : g.leaves = LA ++ (i, a ++ (k, v) :: b) :: LB) :
    ∃ g' : T K V A H,
      WF μ { t with store := t.store.setLeaf i ⟨a ++ (k, v') :: b, lstId none LA, hdId LB none⟩ } g' ∧
      g'.toL = LA.flatMap (·.2) ++ (a ++ (k, v') :: b) ++ LB.flatMap (·.2) ∧
      (∀ [Augmentation K V A], KeyOnly K V A → (g.AugOK → g'.AugOK) ∧ g'.topAug = g.topAug) := by
  obtain ⟨g', h1, h2, h3⟩ := setValue_ok0 (v' := v') w.base hL
  exact ⟨g', h1.ordered (h2 ▸ w.ord), h3⟩

theorem updateInLeaf_ok {s : Store K V A} {L LA LB : List (Nat × List (K × V))} {x} {k : K}
    (f : Flat s L) (hc : Cut L k LA x LB) (u : V → V) :
    (∃ a v b, x.2 = a ++ (k, v) :: b ∧ lookup k (L.flatMap (·.2)) = some v ∧
      modify k u (L.flatMap (·.2)) = LA.flatMap (·.2) ++ (a ++ (k, u v) :: b) ++ LB.flatMap (·.2) ∧
      updateInLeaf s x.1 k u = .ok (some v,
        s.setLeaf x.1 ⟨a ++ (k, u v) :: b, lstId none LA, hdId LB none⟩)) ∨
    (lookup k (L.flatMap (·.2)) = none ∧ modify k u (L.flatMap (·.2)) = L.flatMap (·.2) ∧
      updateInLeaf s x.1 k u = .ok (none, s)) := by
  unfold updateInLeaf
  rw [f.get hc.eq]
  obtain ⟨i, d⟩ := x
  rcases hc.split f.sorted with ⟨a, v, b, rfl, h1, h2, h3, h4, h5⟩ | ⟨a, b, rfl, h1, h2, h3, h4, h5⟩
  · refine .inl ⟨a, v, b, rfl, ?_, ?_, ?_⟩
    · rw [h3, lookup_found h4]
    · rw [h3, modify_found h4 h5]; simp
    · simp only [ok_bind, locateSlot_found h1, Leaf.dataAt, readAt_mid, pure_ok]
      simp
  · refine .inr ⟨?_, ?_, ?_⟩
    · rw [h3, lookup_none h4 h5]
    · rw [h3, modify_vacant h4 h5]
    · simp only [ok_bind, locateSlot_vacant h1 h2, pure_ok]

/-- `get_mut` followed by a write. -/
theorem getMut_ok {μ : Nat} {t : Tree K V A} {H : Nat} {g : T K V A H} (w : WF μ t g) (k : K)
    (u : V → V) :
    ∃ (t' : Tree K V A) (g' : T K V A H), t.getMut k u = .ok (lookup k g.toL, t') ∧ WF μ t' g' ∧
      g'.toL = modify k u g.toL ∧ t'.st = t.st ∧ t'.rootAug = t.rootAug ∧
      (∀ [Augmentation K V A], KeyOnly K V A → (g.AugOK → g'.AugOK) ∧ g'.topAug = g.topAug) ∧
      (∀ [Augmentation K V A], lookup k g.toL = none → (g.AugOK → g'.AugOK) ∧ g'.topAug = g.topAug) := by
  have r := w.reads
  -- the write, once the leaf is known
  have fin : ∀ (c : Option Nat) (LA : List (Nat × List (K × V))) (x) (LB), Cut g.leaves k LA x LB →
      ∃ (s : Store K V A) (g' : T K V A H),
        updateInLeaf { t.store with cached := c } x.1 k u = .ok (lookup k g.toL, s) ∧
        WF μ { t with store := s } g' ∧ g'.toL = modify k u g.toL ∧
        (∀ [Augmentation K V A], KeyOnly K V A → (g.AugOK → g'.AugOK) ∧ g'.topAug = g.topAug) ∧
      (∀ [Augmentation K V A], lookup k g.toL = none → (g.AugOK → g'.AugOK) ∧ g'.topAug = g.topAug) := by
    intro c LA x LB hc
    rcases updateInLeaf_ok (r.cached c).flat hc u with ⟨a, v, b, hx, h1, h2, h3⟩ | ⟨h1, h2, h3⟩
    · obtain ⟨i, d⟩ := x
      simp only at hx
      subst hx
      obtain ⟨g', hw, h4, h5⟩ := setValue_ok (v' := u v) (w.cached c) hc.eq
      refine ⟨_, g', ?_, hw, ?_, h5, ?_⟩
      · rw [h3]; exact congrArg (fun o => Except.ok (o, _)) h1.symm
      · rw [h4]; exact h2.symm
      · intro _ h0
        have : lookup k g.toL = some v := h1
        rw [this] at h0; cases h0
    · refine ⟨_, g, ?_, w.cached c, h2.symm, fun _ => ⟨fun h => h, rfl⟩, fun _ => ⟨fun h => h, rfl⟩⟩
      rw [h3]; exact congrArg (fun o => Except.ok (o, _)) h1.symm
  obtain ⟨o, ho, hh⟩ := r.flat.tryCacheAt t.store.cached k
  unfold Tree.getMut Store.tryCache
  rw [ho]
  cases o with
  | some i =>
    obtain ⟨LA, x, LB, hc, rfl⟩ := hh i rfl
    obtain ⟨s, g', h1, h2, h3, h4, h5⟩ := fin t.store.cached LA x LB hc
    have h1' : updateInLeaf t.store x.1 k u = .ok (lookup k g.toL, s) := h1
    exact ⟨_, g', by simp only [ok_bind, h1', pure_ok], h2, h3, rfl, rfl, h4, h5⟩
  | none =>
    obtain ⟨LA, x, LB, hc, hf⟩ := r.find k
    obtain ⟨s, g', h1, h2, h3, h4, h5⟩ := fin (some x.1) LA x LB hc
    exact ⟨_, g', by simp only [ok_bind, hf, Store.cacheLeaf, h1, pure_ok], h2, h3, rfl, rfl, h4, h5⟩

variable [Augmentation K V A]

/-- Removal by key. -/
theorem removeImpl_ok {μ : Nat} (hμ : μ ≤ 16) {t : Tree K V A} {H : Nat} {g : T K V A H}
    (w : WF μ t g) (hH : H ≤ maxDepth) (k : K) :
    (∃ (t' : Tree K V A) (H' : Nat) (g' : T K V A H'),
      t.removeImpl k = .ok ((lookup k g.toL).map (fun v => (k, v)), t') ∧ WF μ t' g' ∧
      g'.toL = erase k g.toL ∧ (AugWF t g → AugWF t' g') ∧
      t.st.LE t'.st ∧ t.st.leafFixes ≤ t'.st.leafFixes ∧
      t'.st.leafFixes ≤ t.st.leafFixes + 1 ∧ (lookup k g.toL = none → t' = t) ∧
      RemAccount t g t' g') ∨
    (μ = 0 ∧ t.removeImpl k = .error .panic) := by
  obtain ⟨c, x, hp, hdesc, hloc⟩ := descend_stack w hH k
  have hcut := hloc.cut w hp
  obtain ⟨i, d⟩ := x
  unfold Tree.removeImpl Tree.keyToRef
  rw [hdesc]
  simp only [ok_bind]
  rw [w.flat.get hcut.eq]
  rcases hcut.split w.sorted with ⟨a, v, b, h0, h1, h2, h3, h4, h5⟩ | ⟨a, b, h0, h1, h2, h3, h4, h5⟩
  · simp only at h0
    subst h0
    simp only [ok_bind, locateSlot_found h1, pure_ok]
    have h3' : g.toL = _ := h3
    rcases removeByRef_ok hμ w hp hloc.lenOK with ⟨t', H', g', r1, r2, r3, r4, r5, r6, r7, r8⟩ | ⟨r0, r1⟩
    · refine .inl ⟨t', H', g', ?_, r2, ?_, r4, r5, r6, r7, ?_, r8⟩
      · rw [h3', lookup_found h4]
        simp only [r1, ok_bind, pure_ok, Option.map_some]
      · rw [r3, h3', erase_found h4 h5]; simp
      · rw [h3', lookup_found h4]; intro h; cases h
    · refine .inr ⟨r0, ?_⟩
      simp only [r1, error_bind]
  · simp only at h0
    subst h0
    have h3' : g.toL = _ := h3
    refine .inl ⟨t, H, g, ?_, w, ?_, fun h => h, Statistic.LE.refl, Nat.le_refl _,
      Nat.le_succ _, fun _ => rfl, .refl⟩
    · simp only [ok_bind, locateSlot_vacant h1 h2, pure_ok]
      rw [h3', lookup_none h4 h5]
      rfl
    · rw [h3', erase_vacant h4 h5]

theorem remove_ok {μ : Nat} (hμ : μ ≤ 16) {t : Tree K V A} {H : Nat} {g : T K V A H}
    (w : WF μ t g) (hH : H ≤ maxDepth) (k : K) :
    (∃ (t' : Tree K V A) (H' : Nat) (g' : T K V A H'),
      t.remove k = .ok (lookup k g.toL, t') ∧ WF μ t' g' ∧
      g'.toL = erase k g.toL ∧ (AugWF t g → AugWF t' g') ∧
      t.st.LE t'.st ∧ t.st.leafFixes ≤ t'.st.leafFixes ∧
      t'.st.leafFixes ≤ t.st.leafFixes + 1 ∧ (lookup k g.toL = none → t' = t) ∧
      RemAccount t g t' g') ∨
    (μ = 0 ∧ t.remove k = .error .panic) := by
  rcases removeImpl_ok hμ w hH k with ⟨t', H', g', h1, h2⟩ | ⟨h0, h1⟩
  · refine .inl ⟨t', H', g', ?_, h2⟩
    simp only [Tree.remove, h1, ok_bind, pure_ok]
    cases lookup k g.toL <;> rfl
  · exact .inr ⟨h0, by simp only [Tree.remove, h1, error_bind]⟩

end
end Bpt
