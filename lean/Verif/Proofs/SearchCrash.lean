import Verif.QuerySpec
import Verif.Model.SearchCrash
import Verif.Proofs.Crash
import Verif.Proofs.Lawful
import Verif.Proofs.SearchOut
import Verif.Proofs.Structure
import Verif.Proofs.Rank

/-!
# Crash points of searches, ranks and visitors
-/

namespace Bpt
open Spec
variable {K V A Q : Type}

theorem Traced.trace_bind {σ α β : Type} (x : Traced σ α) (f : α → Traced σ β) :
    (x >>= f).trace = x.trace ++ (match x.result with | .ok a => (f a).trace | .error _ => []) := by
  have : (x >>= f).trace = (match x.result with
    | .ok a => (⟨x.trace ++ (f a).trace, (f a).result⟩ : Traced σ β)
    | .error e => ⟨x.trace, .error e⟩).trace := rfl
  rw [this]
  cases x.result <;> simp

/-! ## The traced programs are the programs -/

theorem descendT_result {σ β τ : Type} {s : Store K V A}
    {stepT : σ → Nat → Inner K A → Traced τ (β ⊕ (σ × NodeId))}
    {step : σ → Nat → Inner K A → Res (β ⊕ (σ × NodeId))}
    (h : ∀ st i n, (stepT st i n).result = step st i n) (fuel : Nat) (st : σ) (i : NodeId) :
    (descendT s stepT fuel st i).result = descend s step fuel st i := by
  induction fuel generalizing st i with
  | zero => cases i <;> rfl
  | succ fuel ih =>
    cases i with
    | leaf i => rfl
    | inner i =>
      simp only [descendT, descend, Traced.result_bind, Traced.result_lift, Traced.result_lift']
      cases s.getInner i with
      | error e => rfl
      | ok n =>
        simp only [ok_bind, h]
        cases step st i n with
        | error e => rfl
        | ok r =>
          rcases r with b | ⟨st', c⟩
          · rfl
          · exact ih st' c

section Search
variable [SearchAugmentation K V A Q]

theorem getRefT_result (t : Tree K V A) (q : Q) :
    (t.getRefByAugmentationT q).result = t.getRefByAugmentation q := by
  unfold Tree.getRefByAugmentationT Tree.getRefByAugmentation
  rw [Traced.result_bind, descendT_result (step := searchStep V) (fun st i n => by
    simp only [searchStepT, Traced.result_bind, Traced.result_call, ok_bind, Traced.result_lift, Traced.result_lift'])]
  refine congrArg _ (funext fun r => ?_)
  rcases r with ⟨⟩ | ⟨⟨stack, q'⟩, leafId⟩
  · rfl
  · simp only [Traced.result_bind, Traced.result_lift, Traced.result_lift', Traced.result_call, ok_bind]
    refine congrArg _ (funext fun leaf => ?_)
    cases SearchAugmentation.locateInLeaf A q' leaf.keys leaf.values <;> rfl

theorem getByT_result (t : Tree K V A) (q : Q) :
    (t.getByAugmentationT q).result = t.getByAugmentation q := by
  unfold Tree.getByAugmentationT Tree.getByAugmentation
  rw [Traced.result_bind, getRefT_result]
  refine congrArg _ (funext fun r => ?_)
  cases r with
  | none => rfl
  | some e => simp only [Traced.result_bind, Traced.result_lift, Traced.result_lift', Traced.result_pure]; rfl

theorem getMutByT_result (t : Tree K V A) (q : Q) (f : V → V) :
    (t.getMutByAugmentationT q f).result = t.getMutByAugmentation q f := by
  unfold Tree.getMutByAugmentationT Tree.getMutByAugmentation
  rw [Traced.result_bind, getRefT_result]
  refine congrArg _ (funext fun r => ?_)
  cases r with
  | none => rfl
  | some e => simp only [Traced.result_bind, Traced.result_lift, Traced.result_lift', Traced.result_pure]; rfl

end Search

theorem rankByT_result {R : Type} [LinearOrder K] [RankAugmentation K V A R] (t : Tree K V A) (k : K) :
    (t.rankByAugmentationT (R := R) k).result = t.rankByAugmentation k := by
  unfold Tree.rankByAugmentationT Tree.rankByAugmentation descendLeaf
  rw [Traced.result_bind, Traced.result_call, ok_bind, Traced.result_bind,
    descendT_result (step := fun st i n => do let r ← rankStep V k st i n; return .inr r)
    (fun st i n => by
      simp only [rankStepT, rankStep, Traced.result_bind, Traced.result_call, ok_bind, Traced.result_lift, Traced.result_lift']
      cases n.locateChild k with
      | error e => rfl
      | ok p =>
        simp only [ok_bind]
        by_cases h : p.1 ≤ n.augs.length
        · simp only [h, not_true, if_false]; rfl
        · simp only [h, not_false_eq_true, if_true]; rfl)]
  cases descend t.store _ t.store.fuel (RankAugmentation.initialValue K V A : R) t.root with
  | error e => rfl
  | ok r =>
    rcases r with e | ⟨r, i⟩
    · exact e.elim
    · simp only [Traced.result_bind, Traced.result_lift, Traced.result_lift', Traced.result_call, ok_bind, Traced.result_pure]
      rfl

theorem descendVisitT_result {σ R : Type} (t : Tree K V A) (v : Visitor K V A σ R) (st : σ) :
    (t.descendVisitT v st).result = t.descendVisit v st := by
  unfold Tree.descendVisitT Tree.descendVisit
  rw [Traced.result_bind, descendT_result (step := visitStep v) (fun st i n => by
    simp only [visitStepT, Traced.result_bind, Traced.result_call, ok_bind, Traced.result_lift, Traced.result_lift'])]
  refine congrArg _ (funext fun r => ?_)
  rcases r with r | ⟨st', i⟩
  · rfl
  · simp only [Traced.result_bind, Traced.result_lift, Traced.result_lift', Traced.result_call, ok_bind]; rfl

/-! ## Exact traces -/

/-- The trace of a descent followed by `k`, if each step and `k` add what the specification `S` says,
always in the same memory. -/
theorem descendT_trace {σ β τ γ : Type} {H : Nat} {s : Store K V A} (m : τ)
    {stepT : σ → Nat → Inner K A → Traced τ (β ⊕ (σ × NodeId))}
    (k : β ⊕ (σ × Nat) → Traced τ γ)
    (Inv : (h : Nat) → Ctx K V A h H → T K V A h → σ → Prop)
    (S : (h : Nat) → T K V A h → σ → List Callback)
    (hstop : ∀ b, (k (.inl b)).trace = [])
    (hleaf : ∀ (c : Ctx K V A 0 H) (x : GLeaf K V) (st : σ), Inv 0 c x st →
      (k (.inr (st, x.id))).trace = (S 0 x st).map (·, m))
    (hstep : ∀ (h : Nat) (c : Ctx K V A (h + 1) H) (x : GNode K A (T K V A h)) (st : σ),
      Inv (h + 1) c x st →
      ((stepT st x.id x.inner).trace = (S (h + 1) x st).map (·, m) ∧
        ∀ p, (stepT st x.id x.inner).result ≠ .ok (.inr p)) ∨
      (∃ (f : Frame K A (T K V A h)) (y : T K V A h) (st' : σ) (cs : List Callback), x = f.fill y ∧
        (stepT st x.id x.inner).result = .ok (.inr (st', y.nid)) ∧
        (stepT st x.id x.inner).trace = cs.map (·, m) ∧ S (h + 1) x st = cs ++ S h y st' ∧
        Inv h (.cons f c) y st')) :
    ∀ (h : Nat) (c : Ctx K V A h H) (x : T K V A h) (st : σ) (fuel : Nat), h ≤ fuel →
      IMem s.inners x.nodes → Inv h c x st →
      (descendT s stepT fuel st x.nid >>= k).trace = (S h x st).map (·, m) := by
  intro h
  induction h with
  | zero =>
    intro c x st fuel _ _ hi
    have e : descendT s stepT fuel st (T.nid (h := 0) x) = pure (.inr (st, GLeaf.id x)) := by
      cases fuel <;> rfl
    rw [e, Traced.trace_bind]
    exact hleaf c x st hi
  | succ h ih =>
    intro c x st fuel hf hm hi
    obtain ⟨fuel, rfl⟩ : ∃ n, fuel = n + 1 := ⟨fuel - 1, by omega⟩
    have hg : s.getInner (GNode.id x) = .ok (GNode.inner x) := hm.get nodes_head
    have e : (descendT s stepT (fuel + 1) st (T.nid (h := h + 1) x) >>= k).trace =
        (stepT st (GNode.id x) (GNode.inner x)).trace ++
          (match (stepT st (GNode.id x) (GNode.inner x)).result with
          | .ok (.inr (st', c)) => (descendT s stepT fuel st' c >>= k).trace
          | _ => []) := by
      rw [T.nid_succ]
      simp only [descendT, Traced.trace_bind, Traced.result_bind, Traced.result_lift, Traced.result_lift', hg, ok_bind,
        Traced.trace_lift, Traced.trace_lift', List.nil_append, List.append_assoc]
      congr 1
      cases (stepT st (GNode.id x) (GNode.inner x)).result with
      | error e => rfl
      | ok r =>
        rcases r with b | ⟨st', c'⟩
        · simp only [Traced.trace_pure, Traced.result_pure, ok_bind, List.nil_append]
          exact hstop b
        · rfl
    rw [e]
    rcases hstep h c x st hi with ⟨h1, h2⟩ | ⟨f, y, st', cs, rfl, h1, h2, h3, h4⟩
    · rw [h1]
      cases hr : (stepT st (GNode.id x) (GNode.inner x)).result with
      | error e => simp
      | ok r =>
        rcases r with b | p
        · simp
        · exact absurd hr (h2 p)
    · rw [h1, h2]
      simp only
      rw [ih (.cons f c) y st' fuel (by omega) hm.kid h4, h3, List.map_append]

theorem askedNth_eq [SearchAugmentation K V A Q] (q : Q) (i : Nat) (l : List (STree K V A)) :
    STree.askedNth q i l = match l[i]? with
      | some c => c.asked q
      | none => [] := by
  induction l generalizing i with
  | nil => rw [STree.askedNth]; rfl
  | cons a l ih =>
    cases i with
    | zero => rw [STree.askedNth]; rfl
    | succ i => rw [STree.askedNth, ih]; rfl

theorem shownNth_eq {σ R : Type} (v : Visitor K V A σ R) (st : σ) (i : Nat) (l : List (STree K V A)) :
    STree.shownNth v st i l = match l[i]? with
      | some c => c.shown v st
      | none => [] := by
  induction l generalizing i with
  | nil => rw [STree.shownNth]; rfl
  | cons a l ih =>
    cases i with
    | zero => rw [STree.shownNth]; rfl
    | succ i => rw [STree.shownNth, ih]; rfl

theorem foldedNth_eq [LinearOrder K] (k : K) (i : Nat) (l : List (STree K V A)) :
    STree.foldedNth k i l = match l[i]? with
      | some c => c.folded k
      | none => [] := by
  induction l generalizing i with
  | nil => rw [STree.foldedNth]; rfl
  | cons a l ih =>
    cases i with
    | zero => rw [STree.foldedNth]; rfl
    | succ i => rw [STree.foldedNth, ih]; rfl

section Search
variable [SearchAugmentation K V A Q]

theorem getRefT_trace {μ : Nat} {t : Tree K V A} {H : Nat} {g : T K V A H} (w : WF0 μ t g)
    (hH : H ≤ maxDepth) (q : Q) :
    (t.getRefByAugmentationT q).trace = (g.toS.asked q).map (·, t) := by
  unfold Tree.getRefByAugmentationT
  rw [w.root]
  refine descendT_trace (H := H) t (k := _)
    (fun h (c : Ctx K V A h H) (x : T K V A h) st => c.plug x = g ∧ c.LenOK ∧ st.1 = c.stack x.nid)
    (fun h x st => x.toS.asked st.2) ?_ ?_ ?_ H .nil g ([], q) t.store.fuel w.height_le_fuel
    w.imem ⟨rfl, trivial, rfl⟩
  · rintro ⟨⟩; rfl
  · rintro c x ⟨stack, q'⟩ ⟨hp, hl, -⟩
    have hL : g.leaves = c.lvL ++ (GLeaf.id x, GLeaf.data x) :: c.lvR := by
      rw [← hp, Ctx.leaves_plug]; simp [T.leaves]
    have hg := w.flat.get hL
    simp only [Traced.trace_bind, Traced.trace_lift, Traced.trace_lift', Traced.result_lift, Traced.result_lift', Traced.trace_call,
      Traced.result_call, hg, List.nil_append]
    simp only [T.toS, STree.asked, Leaf.keys, Leaf.values, List.length_map]
    cases SearchAugmentation.locateInLeaf A q' ((GLeaf.data x).map (·.1)) ((GLeaf.data x).map (·.2)) <;> rfl
  · rintro h c x ⟨stk, q'⟩ ⟨hp, hl, hst⟩
    simp only at hst
    subst hst
    have hsh := (Ctx.shape_plug.1 ⟨hp ▸ w.shape, hl⟩).2
    have hlens := T.ShapeTop.lens hsh
    have e1 : (GNode.inner x).keys = GNode.keys x := rfl
    have e2 : (GNode.inner x).augs = GNode.augs x := rfl
    have e4 : (T.toS (h := h + 1) x).asked q' = .query (GNode.keys x).length (GNode.augs x).length ::
        (match SearchAugmentation.locateInInner V q' (GNode.keys x) (GNode.augs x) with
        | none => []
        | some (i, q') => STree.askedNth q' i ((GNode.kids x).map T.toS)) := by
      rw [T.toS, STree.asked]
      rcases SearchAugmentation.locateInInner V q' (GNode.keys x) (GNode.augs x) with _ | ⟨i, q2⟩ <;> rfl
    simp only [searchStepT, Traced.trace_bind, Traced.trace_call, Traced.result_call, Traced.result_bind,
      Traced.trace_lift, Traced.trace_lift', Traced.result_lift, Traced.result_lift', List.append_nil, ok_bind, searchStep, e1, e2, e4]
    cases hloc : SearchAugmentation.locateInInner V q' (GNode.keys x) (GNode.augs x) with
    | none => exact .inl ⟨rfl, fun p h => by cases h⟩
    | some p =>
      obtain ⟨i, q2⟩ := p
      simp only [askedNth_eq, List.getElem?_map]
      by_cases hi : i < (GNode.kids x).length
      · obtain ⟨f, y, rfl, hF, hfl, -, -⟩ := exists_frame (x := x) hlens.1 hlens.2 (i := i) (by omega)
        have hlen : (c.stack (T.nid (h := h + 1) (f.fill y))).length < maxDepth := by
          have := c.le
          simp only [Ctx.stack_length]; omega
        have hc := childId_fill (f := f) (i := T.nid y)
        rw [hfl] at hc
        have e3 : (GNode.kids (f.fill y))[i]? = some y := by simp [Frame.fill, ← hfl]
        refine .inr ⟨f, y, (_, q2), [.query _ _], rfl, ?_, rfl, ?_, hp, ⟨hF, hl⟩, rfl⟩
        · rw [GNode.inner_fill, hc]
          simp only [ok_bind, pushStack]
          rw [if_pos hlen]
          simp only [ok_bind, pure_ok, Ctx.stack, hfl]
          rfl
        · rw [e3]; rfl
      · have e3 : (GNode.inner x).childId i = .error .ub := by
          unfold Inner.childId readAt
          have : (GNode.inner x).childs[i]? = none := by
            rw [List.getElem?_eq_none_iff]
            simp only [GNode.inner, List.length_map]
            omega
          rw [this]
        rw [e3, List.getElem?_eq_none (by omega)]
        exact .inl ⟨rfl, fun p h => by cases h⟩

end Search

theorem descendVisitT_trace {σ R : Type} {μ : Nat} {t : Tree K V A} {H : Nat} {g : T K V A H}
    (w : WF0 μ t g) (v : Visitor K V A σ R) (st : σ) :
    (t.descendVisitT v st).trace = (g.toS.shown v st).map (·, t) := by
  unfold Tree.descendVisitT
  rw [w.root]
  refine descendT_trace (H := H) t (k := _)
    (fun h (c : Ctx K V A h H) (x : T K V A h) _ => c.plug x = g ∧ c.LenOK)
    (fun h x st => x.toS.shown v st) (fun _ => rfl) ?_ ?_ H .nil g st t.store.fuel w.height_le_fuel
    w.imem ⟨rfl, trivial⟩
  · rintro c x st ⟨hp, hl⟩
    have hL : g.leaves = c.lvL ++ (GLeaf.id x, GLeaf.data x) :: c.lvR := by
      rw [← hp, Ctx.leaves_plug]; simp [T.leaves]
    have hg := w.flat.get hL
    simp only [Traced.trace_bind, Traced.trace_lift, Traced.trace_lift', Traced.result_lift, Traced.result_lift', Traced.trace_call,
      Traced.result_call, hg, List.nil_append]
    simp only [T.toS, STree.shown, Leaf.keys, Leaf.values, List.length_map]
    rfl
  · rintro h c x st ⟨hp, hl⟩
    have hsh := (Ctx.shape_plug.1 ⟨hp ▸ w.shape, hl⟩).2
    have hlens := T.ShapeTop.lens hsh
    have e1 : (GNode.inner x).keys = GNode.keys x := rfl
    have e2 : (GNode.inner x).augs = GNode.augs x := rfl
    have e4 : (T.toS (h := h + 1) x).shown v st = .query (GNode.keys x).length (GNode.augs x).length ::
        (match v.visitInner st (GNode.keys x) (GNode.augs x) with
        | (.goDown i, st') => STree.shownNth v st' i ((GNode.kids x).map T.toS)
        | _ => []) := by
      rw [T.toS, STree.shown]
      rcases v.visitInner st (GNode.keys x) (GNode.augs x) with ⟨i | _ | r, st'⟩ <;> rfl
    simp only [visitStepT, Traced.trace_bind, Traced.trace_call, Traced.result_call, Traced.result_bind,
      Traced.trace_lift, Traced.trace_lift', Traced.result_lift, Traced.result_lift', List.append_nil, ok_bind, visitStep, e1, e2, e4]
    rcases v.visitInner st (GNode.keys x) (GNode.augs x) with ⟨i | _ | r, st'⟩
    · simp only [shownNth_eq, List.getElem?_map]
      by_cases hi : i < (GNode.kids x).length
      · obtain ⟨f, y, rfl, hF, hfl, -, -⟩ := exists_frame (x := x) hlens.1 hlens.2 (i := i) (by omega)
        have hc := childId_fill (f := f) (i := T.nid y)
        rw [hfl] at hc
        have e3 : (GNode.kids (f.fill y))[i]? = some y := by simp [Frame.fill, ← hfl]
        refine .inr ⟨f, y, st', [.query _ _], rfl, ?_, rfl, ?_, hp, ⟨hF, hl⟩⟩
        · have : ¬ (GNode.inner (f.fill y)).len < i := by
            show ¬ (GNode.keys (f.fill y)).length < i
            omega
          rw [if_neg this, GNode.inner_fill, hc]
          rfl
        · rw [e3]; rfl
      · have : (GNode.inner x).len < i := by
          show (GNode.keys x).length < i
          omega
        rw [if_pos this, List.getElem?_eq_none (by omega)]
        exact .inl ⟨rfl, fun p h => by cases h⟩
    · exact .inl ⟨rfl, fun p h => by cases h⟩
    · exact .inl ⟨rfl, fun p h => by cases h⟩

theorem mem_interL {ks : List K} {xs : List (List (E K))} (h : ks.length = xs.length) {a : K} (ha : a ∈ ks) :
    E.sep a ∈ interL ks xs := by
  induction ks generalizing xs with
  | nil => cases ha
  | cons b ks ih =>
    cases xs with
    | nil => cases h
    | cons x xs =>
      rw [interL_cons]
      rcases List.mem_cons.1 ha with rfl | ha
      · simp
      · exact List.mem_append.2 (.inr (List.mem_cons_of_mem _ (ih (by simpa using h) ha)))

theorem mem_interR {ks : List K} {xs : List (List (E K))} (h : ks.length = xs.length) {a : K} (ha : a ∈ ks) :
    E.sep a ∈ interR ks xs := by
  induction ks generalizing xs with
  | nil => cases ha
  | cons b ks ih =>
    cases xs with
    | nil => cases h
    | cons x xs =>
      rw [interR_cons]
      rcases List.mem_cons.1 ha with rfl | ha
      · simp
      · exact List.mem_append.2 (.inr (ih (by simpa using h) ha))

theorem rankByT_trace {R : Type} [LinearOrder K] [RankAugmentation K V A R] {μ : Nat} {t : Tree K V A}
    {H : Nat} {g : T K V A H} (w : WF μ t g) (k : K) :
    (t.rankByAugmentationT (R := R) k).trace = (.query 0 0 :: g.toS.folded k).map (·, t) := by
  unfold Tree.rankByAugmentationT
  rw [Traced.trace_bind, Traced.trace_call, Traced.result_call, List.map_cons]
  refine congrArg (_ :: ·) ?_
  simp only
  rw [w.base.root]
  refine descendT_trace (H := H) t (k := _)
    (fun h (c : Ctx K V A h H) (x : T K V A h) (_ : R) => c.plug x = g ∧ Located k g c x)
    (fun h x _ => x.toS.folded k) (fun b => b.elim) ?_ ?_ H .nil g _ t.store.fuel w.base.height_le_fuel
    w.base.imem ⟨rfl, located_root⟩
  · rintro c x r ⟨hp, hl⟩
    have hg := w.flat.get (hl.cut w hp).eq
    simp only at hg
    simp only [Traced.trace_bind, Traced.trace_lift, Traced.trace_lift', Traced.result_lift, Traced.result_lift', Traced.trace_call,
      Traced.result_call, hg, List.nil_append]
    simp only [T.toS, STree.folded, Leaf.keys, List.length_map]
    rfl
  · rintro h c x r ⟨hp, hl⟩
    obtain ⟨f, y, rfl, h1, h2, h3⟩ := locate_step w hp hl
    have e : (f.fill y).inner.augs = f.augsL ++ f.aug :: f.augsR := rfl
    have hcount : (f.keysL ++ f.keysR).countP (· ≤ k) = f.kidsL.length := by
      have hL : ∀ a ∈ f.keysL, a ≤ k := fun a ha =>
        h3.before (.sep a) (List.mem_append.2 (.inr (mem_interL (by simp [h1.1]) ha)))
      have hR : ∀ a ∈ f.keysR, k < a := fun a ha =>
        h3.after (.sep a) (List.mem_append.2 (.inl (mem_interR (by simp [h1.2.2.1]) ha)))
      rw [List.countP_append, List.countP_eq_length.2 (fun a ha => by simpa using hL a ha),
        List.countP_eq_zero.2 (fun a ha => by simpa using hR a ha), h1.1, Nat.add_zero]
    have e4 : (T.toS (h := h + 1) (f.fill y)).folded k = .compare :: .query 0 f.kidsL.length :: y.toS.folded k := by
      rw [T.toS, STree.folded]
      simp only [Frame.fill, hcount, foldedNth_eq, List.getElem?_map]
      simp
    refine .inr ⟨f, y, RankAugmentation.foldInner V k r f.augsL, [.compare, .query 0 f.kidsL.length], rfl,
      ?_, ?_, e4, hp, h3⟩
    · simp only [rankStepT, Traced.result_bind, Traced.result_call, Traced.result_lift, Traced.result_lift', ok_bind, h2, e]
      rw [if_neg (by rw [← h1.2.1]; simp)]
      simp only [Traced.result_pure, ok_bind, Traced.result_bind, Traced.result_call]
      rw [← h1.2.1, List.take_left]
    · simp only [rankStepT, Traced.trace_bind, Traced.result_bind, Traced.result_call, Traced.result_lift, Traced.result_lift',
        Traced.trace_call, Traced.trace_lift, Traced.trace_lift', ok_bind, h2, e]
      rw [if_neg (by rw [← h1.2.1]; simp)]
      rfl

/-! ## A removal by a search is the removal of the key it finds -/

/-- In a list of trees, the tree that holds the item at a given position is unique. -/
theorem kids_place {X : Type} {n : X → Nat} {a a' b b' : List X} {x x' : X} {p p' : Nat}
    (h : a ++ x :: b = a' ++ x' :: b') (hp : (a.map n).sum + p = (a'.map n).sum + p') (h1 : p < n x)
    (h2 : p' < n x') : a = a' ∧ x = x' ∧ p = p' := by
  induction a generalizing a' with
  | nil =>
    cases a' with
    | nil =>
      simp only [List.nil_append, List.cons.injEq] at h
      simp only [List.map_nil, List.sum_nil] at hp
      exact ⟨rfl, h.1, by omega⟩
    | cons y a' =>
      simp only [List.nil_append, List.cons_append, List.cons.injEq] at h
      obtain ⟨rfl, -⟩ := h
      simp only [List.map_nil, List.sum_nil, List.map_cons, List.sum_cons] at hp
      omega
  | cons y a ih =>
    cases a' with
    | nil =>
      simp only [List.nil_append, List.cons_append, List.cons.injEq] at h
      obtain ⟨rfl, -⟩ := h
      simp only [List.map_nil, List.sum_nil, List.map_cons, List.sum_cons] at hp
      omega
    | cons z a' =>
      simp only [List.cons_append, List.cons.injEq] at h
      obtain ⟨rfl, h⟩ := h
      simp only [List.map_cons, List.sum_cons] at hp
      obtain ⟨rfl, h3, h4⟩ := ih h (by omega)
      exact ⟨rfl, h3, h4⟩

theorem T.toL_length_flat {h : Nat} (l : List (T K V A h)) :
    ((l.flatMap T.leaves).flatMap (·.2)).length = (l.map (fun x => x.toL.length)).sum := by
  induction l with
  | nil => rfl
  | cons x l ih =>
    simp only [List.flatMap_cons, List.flatMap_append, List.length_append, List.map_cons, List.sum_cons, ih]
    rfl

theorem T.toL_fill {h : Nat} (f : Frame K A (T K V A h)) (x : T K V A h) :
    T.toL (h := h + 1) (f.fill x) = f.lvL.flatMap (·.2) ++ (x.toL ++ f.lvR.flatMap (·.2)) := by
  simp [T.toL, T.leaves, Frame.fill, Frame.lvL, Frame.lvR]

/-- The path to the item at a given position is unique. -/
theorem Ctx.place {h H : Nat} (c c' : Ctx K V A h H) {x x' : T K V A h} {p p' : Nat}
    (hp : c.plug x = c'.plug x')
    (h0 : (c.lvL.flatMap (·.2)).length + p = (c'.lvL.flatMap (·.2)).length + p')
    (h1 : p < x.toL.length) (h2 : p' < x'.toL.length) :
    x = x' ∧ p = p' ∧ ∀ i, c.stack i = c'.stack i := by
  induction c generalizing p p' with
  | nil =>
    cases c' with
    | nil =>
      simp only [Ctx.lvL, List.flatMap_nil, List.length_nil] at h0
      exact ⟨hp, by omega, fun _ => rfl⟩
    | cons f c' => exact absurd c'.le (by omega)
  | cons f c ih =>
    cases c' with
    | nil => exact absurd c.le (by omega)
    | cons f' c' =>
      simp only [Ctx.lvL, List.flatMap_append, List.length_append] at h0
      obtain ⟨q1, q2, q3⟩ := ih c' (p := (f.lvL.flatMap (·.2)).length + p)
        (p' := (f'.lvL.flatMap (·.2)).length + p') hp (by omega)
        (by rw [T.toL_fill]; simp only [List.length_append]; omega)
        (by rw [T.toL_fill]; simp only [List.length_append]; omega)
      simp only [Frame.fill, GNode.mk.injEq] at q1
      simp only [Frame.lvL, T.toL_length_flat] at q2
      obtain ⟨r1, r2, r3⟩ := kids_place (n := fun x : T K V A _ => x.toL.length) q1.2.2.1 q2 h1 h2
      refine ⟨r2, r3, fun i => ?_⟩
      simp only [Ctx.stack, q1.1, r1, q3]

/-- `key_to_ref` finds the place where an item is. -/
theorem keyToRef_place [LinearOrder K] {μ : Nat} {t : Tree K V A} {H : Nat} {g : T K V A H} (w : WF μ t g)
    (hH : H ≤ maxDepth) {c : Ctx K V A 0 H} {i : Nat} {d1 d2 : List (K × V)} {e : K × V}
    (hp : c.plug ⟨i, d1 ++ e :: d2⟩ = g) :
    t.keyToRef e.1 = .ok (some ⟨c.stack (.leaf i), i, d1.length⟩) := by
  obtain ⟨c', x, hp', hdesc, hloc⟩ := descend_stack w hH e.1
  have hcut := hloc.cut w hp'
  obtain ⟨j, d⟩ := x
  unfold Tree.keyToRef
  rw [hdesc]
  simp only [ok_bind]
  rw [w.flat.get hcut.eq]
  have hL : g.toL = (c.lvL.flatMap (·.2) ++ d1) ++ e :: (d2 ++ c.lvR.flatMap (·.2)) := by
    rw [← hp, T.toL, Ctx.leaves_plug]; simp [T.leaves]
  have hs : Sorted g.toL := w.sorted
  have hlt : ∀ y ∈ c.lvL.flatMap (·.2) ++ d1, y.1 < e.1 := by
    rw [hL] at hs
    exact fun y hy => (List.pairwise_append.1 hs).2.2 y hy e (by simp)
  have cutoff : ∀ {A B : List (K × V)} {y : K × V}, (∀ z ∈ A, z.1 < e.1) → y.1 = e.1 →
      (A ++ y :: B).takeWhile (fun z => decide (z.1 < e.1)) = A := by
    intro A B y h1 h2
    rw [List.takeWhile_append_of_pos (fun z hz => by simpa using h1 z hz),
      List.takeWhile_cons_of_neg (by simp [h2]), List.append_nil]
  rcases hcut.split w.sorted with ⟨a, v, b, h0, h1, h2, h3, h4, h5⟩ | ⟨a, b, h0, h1, h2, h3, h4, h5⟩
  · simp only at h0
    subst h0
    simp only [ok_bind, locateSlot_found h1, pure_ok]
    have e1 : c'.lvL.flatMap (·.2) ++ a = c.lvL.flatMap (·.2) ++ d1 := by
      rw [← cutoff h4 (y := (e.1, v)) rfl, ← cutoff hlt (y := e) rfl]
      exact congrArg _ (h3.symm.trans hL)
    obtain ⟨q1, q2, q3⟩ := Ctx.place c' c (hp'.trans hp.symm) (p := a.length) (p' := d1.length)
      (by simpa using congrArg List.length e1) (by simp [T.toL, T.leaves]) (by simp [T.toL, T.leaves])
    rw [q2, q3, show j = i from congrArg GLeaf.id q1]
  · exfalso
    have hmem : e ∈ g.leaves.flatMap (·.2) := by
      show e ∈ g.toL
      rw [hL]; simp
    rw [h3, List.mem_append] at hmem
    rcases hmem with hm | hm
    · exact absurd (h4 e hm) (lt_irrefl _)
    · exact absurd (h5 e hm) (lt_irrefl _)

section
variable [LinearOrder K] [Augmentation K V A] [SearchAugmentation K V A Q]

theorem removeByT_trace {μ : Nat} {t : Tree K V A} {H : Nat} {g : T K V A H} (w : WF μ t g)
    (hH : H ≤ maxDepth) (early : Bool) (q : Q) :
    match g.searchEnd q with
    | .entry e => ∃ rest, (t.removeT (.ofOrder early e.1)).trace = (.compare, t) :: rest ∧
        (t.removeByAugmentationT q).trace = (g.toS.asked q).map (·, t) ++ rest
    | .noItem => True
    | _ => (t.removeByAugmentationT q).trace = (g.toS.asked q).map (·, t) := by
  have h1 := getRefT_trace w.base hH q
  have h2 := getRefT_result t q
  have h := getRef_out w.base hH q
  have e : (t.removeByAugmentationT q).trace = (t.getRefByAugmentationT q).trace ++
      (match (t.getRefByAugmentationT q).result with
      | .ok (some r) => (t.removeByRefT r).trace
      | _ => []) := by
    unfold Tree.removeByAugmentationT
    rw [Traced.trace_bind]
    congr 1
    cases (t.getRefByAugmentationT q).result with
    | error e => rfl
    | ok r =>
      cases r with
      | none => rfl
      | some r =>
        simp only [Traced.trace_bind, Traced.trace_pure]
        cases (t.removeByRefT r).result <;> simp
  rw [e, h1, h2]
  generalize g.searchEnd q = o at h ⊢
  generalize t.getRefByAugmentation q = r at h ⊢
  cases h with
  | nothing => simp
  | @entry c i d1 d2 e hp hl =>
    refine ⟨_, ?_, rfl⟩
    have hk := keyToRefU_lawful w hH early e.1
    rw [keyToRef_place w hH hp] at hk
    unfold Tree.removeT
    simp only [Traced.trace_bind, Traced.trace_call, Traced.result_call, Traced.trace_lift, Traced.trace_lift',
      Traced.result_lift, Traced.result_lift', hk, Traced.trace_pure]
    cases (t.removeByRefT ⟨c.stack (.leaf i), i, d1.length⟩).result <;> simp
  | noItem => trivial
  | noChild => simp

theorem removeByT_result (t : Tree K V A) (q : Q) :
    (t.removeByAugmentationT q).result = t.removeByAugmentation q := by
  unfold Tree.removeByAugmentationT Tree.removeByAugmentation
  rw [Traced.result_bind, getRefT_result]
  refine congrArg _ (funext fun r => ?_)
  cases r with
  | none => rfl
  | some e => simp only [Traced.result_bind, removeByRefT_result, Traced.result_pure]; rfl

end

end Bpt
