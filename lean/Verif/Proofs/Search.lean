import Verif.Proofs.Mutate
import Verif.Model.Visit

/-!
# Searches through augmentations and `descend_visit`
-/

namespace Bpt
open Bpt.Spec
variable {K V A : Type}

theorem eraseIdx_mid {α : Type} (l r : List α) (x : α) (n : Nat) (h : n = l.length) :
    (l ++ x :: r).eraseIdx n = l ++ r := by
  subst h
  induction l with
  | nil => rfl
  | cons a l ih => simp [ih]

theorem modify_mid {α : Type} (l r : List α) (x : α) (f : α → α) (n : Nat) (h : n = l.length) :
    (l ++ x :: r).modify n f = l ++ f x :: r := by
  subst h
  induction l with
  | nil => rfl
  | cons a l ih => simp [ih]

/-! ## Search on ghost trees -/

section Search
variable {Q : Type} [SearchAugmentation K V A Q]

/-- Position, in the items of the tree, found by the search. -/
def T.search : {h : Nat} → T K V A h → Q → Option Nat
  | 0, x, q => SearchAugmentation.locateInLeaf A q ((GLeaf.data x).map (·.1)) ((GLeaf.data x).map (·.2))
  | _ + 1, x, q =>
    match SearchAugmentation.locateInInner V q (GNode.keys x) (GNode.augs x) with
    | none => none
    | some (i, q') =>
      match (GNode.kids x)[i]? with
      | none => none
      | some c => (T.search c q').map
          (fun n => (((GNode.kids x).take i).flatMap T.toL).length + n)

theorem getRef_ok0 {μ : Nat} {t : Tree K V A} {H : Nat} {g : T K V A H} (w : WF0 μ t g)
    (hH : H ≤ maxDepth) (hr : SearchInRange K V A) (q : Q) :
    (g.search q = none ∧ t.getRefByAugmentation q = .ok none) ∨
    (∃ (c : Ctx K V A 0 H) (i : Nat) (d1 : List (K × V)) (kv : K × V) (d2 : List (K × V)),
      c.plug ⟨i, d1 ++ kv :: d2⟩ = g ∧ c.LenOK ∧
      g.search q = some ((c.lvL.flatMap (·.2)).length + d1.length) ∧
      t.getRefByAugmentation q = .ok (some ⟨c.stack (.leaf i), i, d1.length⟩)) := by
  have key := descend_ok (s := t.store) (step := searchStep (K := K) V (A := A) (Q := Q))
    (fun h (c : Ctx K V A h H) (x : T K V A h) st => c.plug x = g ∧ c.LenOK ∧ st.1 = c.stack x.nid ∧
      g.search q = (x.search st.2).map (fun n => (c.lvL.flatMap (·.2)).length + n))
    (fun _ => g.search q = none)
    (by
      rintro h c x ⟨stk, q'⟩ ⟨hp, hl, hst, hs⟩
      have hsh := (Ctx.shape_plug.1 ⟨hp ▸ w.shape, hl⟩).2
      have hlens := T.ShapeTop.lens hsh
      simp only at hst hs
      subst hst
      unfold searchStep
      cases hloc : SearchAugmentation.locateInInner V q' x.keys x.augs with
      | none =>
        refine .inl ⟨(), ?_, ?_⟩
        · simp only [GNode.inner, hloc]; rfl
        · rw [hs]; simp only [T.search, hloc]; rfl
      | some p =>
        obtain ⟨i, q2⟩ := p
        have hi := hr.inner _ _ _ _ _ hloc
        obtain ⟨f, y, rfl, hf, hfl, -, -⟩ := exists_frame (x := x) hlens.1 hlens.2 (i := i) (by omega)
        refine .inr ⟨f, y, (_, q2), rfl, ?_, hp, ⟨hf, hl⟩, rfl, ?_⟩
        · have hlen : (c.stack (T.nid (h := h + 1) (f.fill y))).length < maxDepth := by
            have := c.le
            simp only [Ctx.stack_length]; omega
          have hc := childId_fill (f := f) (i := T.nid y)
          rw [hfl] at hc
          have e : SearchAugmentation.locateInInner V q' (f.inner y.nid).keys (f.inner y.nid).augs
              = some (i, q2) := hloc
          simp only [GNode.inner_fill, e, hc, ok_bind, pushStack, if_pos hlen, pure_ok, Ctx.stack, hfl]
          rfl
        · rw [hs]
          simp only [T.search, hloc]
          have e1 : (f.fill y).kids[i]? = some y := by simp [Frame.fill, ← hfl]
          have e2 : (f.fill y).kids.take i = f.kidsL := by simp [Frame.fill, ← hfl]
          rw [e1, e2]
          simp only [Option.map_map]
          congr 1
          funext n
          simp only [Function.comp, Ctx.lvL, Frame.lvL, List.flatMap_append, List.length_append]
          have e3 : f.kidsL.flatMap T.toL = (f.kidsL.flatMap T.leaves).flatMap (·.2) := by
            rw [List.flatMap_assoc]; rfl
          rw [e3]; omega)
    H .nil g ([], q) t.store.fuel w.height_le_fuel w.imem
    ⟨rfl, trivial, rfl, by simp [Ctx.lvL]⟩
  unfold Tree.getRefByAugmentation
  rw [w.root]
  rcases key with ⟨b, hb, hs⟩ | ⟨c, x, st, hp, hd, hp', hl, hst, hs⟩
  · refine .inl ⟨hs, ?_⟩
    simp only [hb, ok_bind, pure_ok]
  · have hp : c.plug x = g := hp'
    have hL : g.leaves = c.lvL ++ (x.id, x.data) :: c.lvR := by
      rw [← hp, Ctx.leaves_plug]; simp [T.leaves]
    have hg := w.flat.get hL
    obtain ⟨stk, q'⟩ := st
    simp only at hst hs hd
    subst hst
    simp only [hd, ok_bind, hg, Leaf.keys, Leaf.values]
    simp only [T.search] at hs
    cases hloc : SearchAugmentation.locateInLeaf A q' (x.data.map (·.1)) (x.data.map (·.2)) with
    | none =>
      rw [hloc] at hs
      exact .inl ⟨hs, rfl⟩
    | some i =>
      rw [hloc] at hs
      have hi := hr.leaf _ _ _ hloc
      refine .inr ⟨c, x.id, x.data.take i, x.data[i], x.data.drop (i + 1), ?_, hl, ?_, ?_⟩
      · rw [← List.drop_eq_getElem_cons, List.take_append_drop]; exact hp
      · rw [hs]; simp; omega
      · simp only [pure_ok, List.length_take, Nat.min_eq_left hi.le]; rfl

theorem getBy_ok0 {μ : Nat} {t : Tree K V A} {H : Nat} {g : T K V A H} (w : WF0 μ t g)
    (hH : H ≤ maxDepth) (hr : SearchInRange K V A) (q : Q) :
    (∀ n, g.search q = some n → n < g.toL.length) ∧
    t.getByAugmentation q = .ok ((g.search q).bind (fun n => g.toL[n]?)) := by
  unfold Tree.getByAugmentation
  rcases getRef_ok0 w hH hr q with ⟨h1, h2⟩ | ⟨c, i, d1, kv, d2, hp, hl, h1, h2⟩
  · simp [h1, h2]
  · have hL : g.leaves = c.lvL ++ (i, d1 ++ kv :: d2) :: c.lvR := by
      rw [← hp, Ctx.leaves_plug]; simp [T.leaves]
    have hT : g.toL = c.lvL.flatMap (·.2) ++ (d1 ++ kv :: d2) ++ c.lvR.flatMap (·.2) := by
      simp [T.toL, hL]
    have hlt : (c.lvL.flatMap (·.2)).length + d1.length < g.toL.length := by
      rw [hT]; simp only [List.length_append, List.length_cons]; omega
    refine ⟨?_, ?_⟩
    · intro n hn
      rw [h1] at hn; cases hn
      exact hlt
    · simp only [h1, h2, ok_bind, w.flat.get hL, Leaf.dataAt, readAt_mid, pure_ok, Option.bind_some]
      rw [hT, List.append_assoc, List.getElem?_append_right (by omega), List.append_assoc,
        List.getElem?_append_right (by omega)]
      simp

variable [LinearOrder K]

theorem getRef_ok {μ : Nat} {t : Tree K V A} {H : Nat} {g : T K V A H} (w : WF μ t g)
    (hH : H ≤ maxDepth) (hr : SearchInRange K V A) (q : Q) :
    (g.search q = none ∧ t.getRefByAugmentation q = .ok none) ∨
    (∃ (c : Ctx K V A 0 H) (i : Nat) (d1 : List (K × V)) (kv : K × V) (d2 : List (K × V)),
      c.plug ⟨i, d1 ++ kv :: d2⟩ = g ∧ c.LenOK ∧
      g.search q = some ((c.lvL.flatMap (·.2)).length + d1.length) ∧
      t.getRefByAugmentation q = .ok (some ⟨c.stack (.leaf i), i, d1.length⟩)) :=
  getRef_ok0 w.base hH hr q

theorem getBy_ok {μ : Nat} {t : Tree K V A} {H : Nat} {g : T K V A H} (w : WF μ t g)
    (hH : H ≤ maxDepth) (hr : SearchInRange K V A) (q : Q) :
    (∀ n, g.search q = some n → n < g.toL.length) ∧
    t.getByAugmentation q = .ok ((g.search q).bind (fun n => g.toL[n]?)) :=
  getBy_ok0 w.base hH hr q

/-- Removal by any search augmentation that stays in range. -/
theorem removeBy_ok [Augmentation K V A] {μ : Nat} (hμ : μ ≤ 16) {t : Tree K V A} {H : Nat}
    {g : T K V A H} (w : WF μ t g) (hH : H ≤ maxDepth) (hr : SearchInRange K V A) (q : Q) :
    (∃ (t' : Tree K V A) (H' : Nat) (g' : T K V A H'),
      t.removeByAugmentation q = .ok ((g.search q).bind (fun n => g.toL[n]?), t') ∧ WF μ t' g' ∧
      g'.toL = (match g.search q with | none => g.toL | some n => g.toL.eraseIdx n) ∧
      (AugWF t g → AugWF t' g') ∧
      t.st.LE t'.st ∧ t.st.leafFixes ≤ t'.st.leafFixes ∧
      t'.st.leafFixes ≤ t.st.leafFixes + 1 ∧ (g.search q = none → t' = t) ∧
      RemAccount t g t' g') ∨
    (μ = 0 ∧ t.removeByAugmentation q = .error .panic) := by
  unfold Tree.removeByAugmentation
  rcases getRef_ok w hH hr q with ⟨h1, h2⟩ | ⟨c, i, d1, kv, d2, hp, hl, h1, h2⟩
  · refine .inl ⟨t, H, g, ?_, w, ?_, id, ?_, Nat.le_refl _, by omega, fun _ => rfl, .refl⟩
    · simp [h1, h2]
    · simp [h1]
    · exact Statistic.LE.refl
  · have hL : g.leaves = c.lvL ++ (i, d1 ++ kv :: d2) :: c.lvR := by
      rw [← hp, Ctx.leaves_plug]; simp [T.leaves]
    have hT : g.toL = c.lvL.flatMap (·.2) ++ (d1 ++ kv :: d2) ++ c.lvR.flatMap (·.2) := by
      simp [T.toL, hL]
    rcases removeByRef_ok hμ w hp hl with ⟨t', H', g', h3, h4, h5, h6, h7, h8, h9, h10⟩ | ⟨h0, h3⟩
    · refine .inl ⟨t', H', g', ?_, h4, ?_, h6, h7, h8, h9, ?_, h10⟩
      · simp only [h1, h2, ok_bind, h3, pure_ok, Option.bind_some]
        rw [hT, List.append_assoc, List.getElem?_append_right (by omega), List.append_assoc,
          List.getElem?_append_right (by omega)]
        simp
      · rw [h5]
        simp only [h1]
        have e : g.toL = (c.lvL.flatMap (·.2) ++ d1) ++ kv :: (d2 ++ c.lvR.flatMap (·.2)) := by
          rw [hT]; simp
        rw [e, eraseIdx_mid _ _ _ _ (by simp)]
        simp
      · simp [h1]
    · exact .inr ⟨h0, by simp only [h2, ok_bind, h3]; rfl⟩

/-- In-place update by any search augmentation that stays in range. -/
theorem getMutBy_ok {μ : Nat} {t : Tree K V A} {H : Nat} {g : T K V A H} (w : WF μ t g)
    (hH : H ≤ maxDepth) (hr : SearchInRange K V A) (q : Q) (u : V → V) :
    ∃ (t' : Tree K V A) (g' : T K V A H),
      t.getMutByAugmentation q u = .ok (((g.search q).bind (fun n => g.toL[n]?)).map (·.2), t') ∧
      WF μ t' g' ∧
      g'.toL = (match g.search q with
        | none => g.toL
        | some n => g.toL.modify n (fun kv => (kv.1, u kv.2))) ∧
      t'.st = t.st ∧ t'.rootAug = t.rootAug ∧
      (∀ [Augmentation K V A], KeyOnly K V A → (g.AugOK → g'.AugOK) ∧ g'.topAug = g.topAug) ∧
      (g.search q = none → t' = t) := by
  unfold Tree.getMutByAugmentation
  rcases getRef_ok w hH hr q with ⟨h1, h2⟩ | ⟨c, i, d1, kv, d2, hp, hl, h1, h2⟩
  · exact ⟨t, g, by simp [h1, h2], w, by simp [h1], rfl, rfl, fun _ => ⟨id, rfl⟩, fun _ => rfl⟩
  · have hL : g.leaves = c.lvL ++ (i, d1 ++ kv :: d2) :: c.lvR := by
      rw [← hp, Ctx.leaves_plug]; simp [T.leaves]
    have hT : g.toL = c.lvL.flatMap (·.2) ++ (d1 ++ kv :: d2) ++ c.lvR.flatMap (·.2) := by
      simp [T.toL, hL]
    obtain ⟨g', h3, h4, h5⟩ := setValue_ok w (k := kv.1) (v := kv.2) (v' := u kv.2) hL
    refine ⟨_, g', ?_, h3, ?_, rfl, rfl, h5, by simp [h1]⟩
    · simp only [h1, h2, ok_bind, w.flat.get hL, Leaf.dataAt, readAt_mid, pure_ok, Option.bind_some]
      rw [hT, List.append_assoc, List.getElem?_append_right (by omega), List.append_assoc,
          List.getElem?_append_right (by omega)]
      simp
    · rw [h4]
      simp only [h1]
      have e : g.toL = (c.lvL.flatMap (·.2) ++ d1) ++ kv :: (d2 ++ c.lvR.flatMap (·.2)) := by
        rw [hT]; simp
      rw [e, modify_mid _ _ _ _ _ (by simp)]
      simp

end Search

/-! ## `descend_visit` -/

/-- `descend_visit` on ghost trees. -/
def T.visit {σ R : Type} (v : Visitor K V A σ R) : {h : Nat} → T K V A h → σ → Res (Option R)
  | 0, x, st => .ok (v.visitLeaf st ((GLeaf.data x).map (·.1)) ((GLeaf.data x).map (·.2)))
  | _ + 1, x, st =>
    match v.visitInner st (GNode.keys x) (GNode.augs x) with
    | (.goDown i, st') =>
      match (GNode.kids x)[i]? with
      | some c => T.visit v c st'
      | none => .error .panic
    | (.cancel, _) => .ok none
    | (.complete r, _) => .ok (some r)

theorem descendVisit_ok0 {σ R : Type} {μ : Nat} {t : Tree K V A} {H : Nat}
    {g : T K V A H} (w : WF0 μ t g) (v : Visitor K V A σ R) (st : σ) :
    t.descendVisit v st = g.visit v st := by
  have key : ∀ (h : Nat) (x : T K V A h) (st : σ) (fuel : Nat), h ≤ fuel →
      IMem t.store.inners x.nodes → (∃ m r, T.ShapeTop μ m r x) → (∀ y ∈ x.leaves, y ∈ g.leaves) →
      (do
        match ← descend t.store (visitStep v) fuel st x.nid with
        | .inl r => return r
        | .inr (st, leafId) =>
          let leaf ← t.store.getLeaf leafId
          return v.visitLeaf st leaf.keys leaf.values) = x.visit v st := by
    intro h
    induction h with
    | zero =>
      intro x st fuel _ _ _ hL
      obtain ⟨LA, LB, hL⟩ := List.append_of_mem (hL (GLeaf.id x, GLeaf.data x) (by simp [T.leaves]))
      have hg := w.flat.get hL
      have e : descend t.store (visitStep v) fuel st (T.nid (h := 0) x) = .ok (.inr (st, GLeaf.id x)) := by
        cases fuel <;> rfl
      rw [e]
      simp only [ok_bind, hg, Leaf.keys, Leaf.values, pure_ok, T.visit]
    | succ h ih =>
      intro x st fuel hf hm hsh hL
      obtain ⟨m, r, hsh⟩ := hsh
      obtain ⟨fuel, rfl⟩ : ∃ n, fuel = n + 1 := ⟨fuel - 1, by omega⟩
      have hg : t.store.getInner (GNode.id x) = .ok (GNode.inner x) := hm.get nodes_head
      have hlens := T.ShapeTop.lens hsh
      simp only [T.nid_succ, descend, hg, ok_bind, visitStep, T.visit]
      have e1 : (GNode.inner x).keys = x.keys := rfl
      have e2 : (GNode.inner x).augs = x.augs := rfl
      rw [e1, e2]
      rcases hv : v.visitInner st x.keys x.augs with ⟨i | _ | r', st'⟩
      · simp only [Inner.len, e1]
        by_cases hi : x.keys.length < i
        · rw [if_pos hi, List.getElem?_eq_none (by omega)]
          rfl
        · obtain ⟨f, y, hx, hF, hfl, -, -⟩ := exists_frame (x := x) hlens.1 hlens.2 (i := i) (by omega)
          subst hx
          rw [if_neg hi]
          have hc := childId_fill (f := f) (i := T.nid y)
          rw [hfl] at hc
          have e3 : (f.fill y).kids[i]? = some y := by simp [Frame.fill, ← hfl]
          rw [GNode.inner_fill, hc, e3]
          simp only [ok_bind, pure_ok]
          refine ih y st' fuel (by omega) hm.kid ?_ ?_
          · exact ⟨_, _, (T.shape_fill.1 ⟨hsh, hF⟩).2⟩
          · intro z hz
            refine hL z ?_
            rw [T.leaves_fill]; simp [hz]
      · rfl
      · rfl
  unfold Tree.descendVisit
  rw [w.root]
  exact key H g st _ w.height_le_fuel w.imem ⟨_, _, w.shape⟩ (fun _ h => h)

theorem descendVisit_ok [LinearOrder K] {σ R : Type} {μ : Nat} {t : Tree K V A} {H : Nat}
    {g : T K V A H} (w : WF μ t g) (v : Visitor K V A σ R) (st : σ) :
    t.descendVisit v st = g.visit v st := descendVisit_ok0 w.base v st

end Bpt
