import Verif.Model.Count
import Verif.Proofs.Unordered
import Verif.Proofs.GroupTree
import Verif.Proofs.CrashInsert
import Mathlib.Data.Nat.Log

/-!
# Counted calls: they are the calls, and what they cost
-/

namespace Bpt
variable {K V A : Type}

namespace Counted
variable {α β : Type}

@[simp] theorem result_pure (a : α) : (pure a : Counted α).result = .ok a := rfl
@[simp] theorem cost_pure (a : α) : (pure a : Counted α).cost = 0 := rfl
@[simp] theorem result_ask (a : α) : (ask a).result = .ok a := rfl
@[simp] theorem cost_ask (a : α) : (ask a).cost = 1 := rfl
@[simp] theorem result_lift (x : Res α) : (liftM x : Counted α).result = x := rfl
@[simp] theorem cost_lift (x : Res α) : (liftM x : Counted α).cost = 0 := rfl
@[simp] theorem result_lift' (x : Res α) : (MonadLift.monadLift x : Counted α).result = x := rfl
@[simp] theorem cost_lift' (x : Res α) : (MonadLift.monadLift x : Counted α).cost = 0 := rfl

@[simp] theorem result_bind (x : Counted α) (f : α → Counted β) :
    (x >>= f).result = x.result >>= fun a => (f a).result := by
  show (match x.result with
    | .ok a => (⟨x.cost + (f a).cost, (f a).result⟩ : Counted β)
    | .error e => ⟨x.cost, .error e⟩).result = _
  cases x.result <;> rfl

theorem cost_bind (x : Counted α) (f : α → Counted β) :
    (x >>= f).cost = match x.result with
      | .ok a => x.cost + (f a).cost
      | .error _ => x.cost := by
  show (match x.result with
    | .ok a => (⟨x.cost + (f a).cost, (f a).result⟩ : Counted β)
    | .error e => ⟨x.cost, .error e⟩).cost = _
  cases x.result <;> rfl

theorem cost_bind_ok {x : Counted α} {f : α → Counted β} {a : α} (h : x.result = .ok a) :
    (x >>= f).cost = x.cost + (f a).cost := by
  rw [cost_bind, h]

theorem bind_le {x : Counted α} {f : α → Counted β} {m n : Nat} (h1 : x.cost ≤ m)
    (h2 : ∀ a, x.result = .ok a → (f a).cost ≤ n) : (x >>= f).cost ≤ m + n := by
  rw [cost_bind]
  cases h : x.result with
  | ok a => have := h2 a h; simp only; omega
  | error e => simp only; omega

theorem lift_le {x : Res α} {f : α → Counted β} {n : Nat} (h : ∀ a, x = .ok a → (f a).cost ≤ n) :
    ((liftM x : Counted α) >>= f).cost ≤ n := by
  have := bind_le (x := (liftM x : Counted α)) (f := f) (m := 0) (Nat.le_refl _) h
  omega

theorem ask_le {a : α} {f : α → Counted β} {n : Nat} (h : (f a).cost ≤ n) :
    (ask a >>= f).cost ≤ 1 + n :=
  bind_le (Nat.le_refl _) (fun b hb => by cases hb; exact h)

theorem then_le {x : Counted α} {f : α → Counted β} {m : Nat} (h1 : x.cost ≤ m)
    (h2 : ∀ a, (f a).cost = 0) : (x >>= f).cost ≤ m :=
  bind_le h1 fun a _ => Nat.le_of_eq (h2 a)

end Counted

/-! ## The counted calls are the calls -/

@[simp] theorem halvingLoopC_result (f : Nat → K → Ordering) (keys : List K) (n j b s : Nat) :
    (halvingLoopC f keys n j b s).result = halvingLoopU f keys n j b s := by
  induction n generalizing j b s with
  | zero => rfl
  | succ n ih =>
    rw [halvingLoopC, halvingLoopU]
    split
    · simp [ih]
    · rfl

@[simp] theorem earlyLoopC_result (f : Nat → K → Ordering) (keys : List K) (n j l r : Nat) :
    (earlyLoopC f keys n j l r).result = earlyLoopU f keys n j l r := by
  induction n generalizing j l r with
  | zero => rfl
  | succ n ih =>
    rw [earlyLoopC, earlyLoopU]
    split
    · simp only [Counted.result_bind, Counted.result_lift, Counted.result_ask, ok_bind]
      congr 1; funext x
      cases f j x <;> simp [ih]
    · rfl

@[simp] theorem searchC_result (e : Bool) (f : Nat → K → Ordering) (keys : List K) :
    (searchC e f keys).result = searchU e f keys := by
  unfold searchC searchU
  split
  · simp
  · unfold halvingSearchC halvingSearchU
    split
    · rfl
    · simp only [Counted.result_bind, Counted.result_lift, Counted.result_ask, ok_bind,
        halvingLoopC_result]
      congr 1; funext p
      congr 1; funext x
      cases f p.1 x <;> rfl

@[simp] theorem locateChildC_result (o : Answers K) (d : Nat) (n : Inner K A) :
    (n.locateChildC o d).result = n.locateChildU o d := by
  simp only [Inner.locateChildC, Inner.locateChildU, Counted.result_bind, searchC_result]
  congr 1; funext s
  cases s <;> simp

@[simp] theorem locateSlotC_result (o : Answers K) (l : Leaf K V) :
    (l.locateSlotC o).result = l.locateSlotU o := by
  simp [Leaf.locateSlotC, Leaf.locateSlotU]

@[simp] theorem locateSlotWithValueC_result (o : Answers K) (l : Leaf K V) :
    (l.locateSlotWithValueC o).result = l.locateSlotWithValueU o := by
  simp only [Leaf.locateSlotWithValueC, Leaf.locateSlotWithValueU, Counted.result_bind,
    locateSlotC_result]
  congr 1; funext s
  cases s <;> simp

@[simp] theorem inRangeC_result (o : Answers K) (i : Nat) (l : Leaf K V) :
    (l.inRangeC o i).result = l.inRangeU o i := by
  obtain ⟨d, p, n⟩ := l
  unfold Leaf.inRangeC Leaf.inRangeU
  simp only [Counted.result_bind]
  congr 1
  · cases p <;> simp
  · funext b
    cases b with
    | true => rfl
    | false =>
      simp only [Bool.false_eq_true, if_false, Counted.result_bind]
      congr 1
      cases n with
      | none => rfl
      | some n =>
        simp only
        split
        · rfl
        · simp

@[simp] theorem tryCacheC_result (o : Answers K) (s : Store K V A) :
    (s.tryCacheC o).result = s.tryCacheU o := by
  unfold Store.tryCacheC Store.tryCacheU
  cases s.cached with
  | none => rfl
  | some id =>
    simp only
    cases s.tryGetLeaf id with
    | none => rfl
    | some l => simp

theorem descendC_result {σ : Type} {s : Store K V A}
    {stepC : σ → Nat → Inner K A → Counted (σ × NodeId)} {step : σ → Nat → Inner K A → Res (σ × NodeId)}
    (h : ∀ st i n, (stepC st i n).result = step st i n) (fuel : Nat) (st : σ) (root : NodeId) :
    (descendC s stepC fuel st root).result = (do
      match ← descend (β := Empty) s (fun st i n => do let r ← step st i n; return .inr r) fuel st root with
      | .inl e => nomatch e
      | .inr r => return r) := by
  induction fuel generalizing st root with
  | zero => cases root <;> rfl
  | succ n ih =>
    cases root with
    | leaf i => rfl
    | inner i =>
      rw [descendC, descend]
      simp only [Counted.result_bind, Counted.result_lift, bind_assoc, h]
      congr 1; funext nd
      congr 1; funext r
      simp only [pure_ok, ok_bind]
      exact ih r.1 r.2

theorem descendC_result' {σ : Type} {s : Store K V A}
    {stepC : σ → Nat → Inner K A → Counted (σ × NodeId)} {step : σ → Nat → Inner K A → Res (σ × NodeId)}
    (h : ∀ st i n, (stepC st i n).result = step st i n) (st : σ) (root : NodeId) :
    (descendC s stepC s.fuel st root).result = descendLeaf s step st root :=
  descendC_result h s.fuel st root

@[simp] theorem stackStepC_result (o : Answers K) (st : List StackEntry) (i : Nat) (n : Inner K A) :
    (stackStepC o st i n).result = stackStepU o st i n := by
  simp [stackStepC, stackStepU]

@[simp] theorem locateStepC_result (o : Answers K) (d i : Nat) (n : Inner K A) :
    (locateStepC o d i n).result = locateStepU o d i n := by
  simp [locateStepC, locateStepU]

@[simp] theorem insertLeafC_result (o : Answers K) (s : Store K V A) (id : Nat) (k : K) (v : V) :
    (insertLeafC o s id k v).result = insertLeafU o s id k v := by
  simp [insertLeafC, insertLeafU]

@[simp] theorem keyToRefC_result (o : Answers K) (t : Tree K V A) :
    (t.keyToRefC o).result = t.keyToRefU o := by
  simp only [Tree.keyToRefC, Tree.keyToRefU, Counted.result_bind,
    descendC_result' (stackStepC_result o), Counted.result_lift, locateSlotC_result]
  congr 1; funext p
  congr 1; funext l
  congr 1; funext s
  cases s <;> rfl

@[simp] theorem findDescendLeafC_result (o : Answers K) (s : Store K V A) (root : NodeId) :
    (findDescendLeafC o s root).result = findDescendLeafU o s root := by
  simp [findDescendLeafC, findDescendLeafU, descendC_result' (locateStepC_result o)]

@[simp] theorem findInLeafC_result (o : Answers K) (s : Store K V A) (i : Nat) :
    (findInLeafC o s i).result = findInLeafU o s i := by
  simp [findInLeafC, findInLeafU]

@[simp] theorem getC_result (o : Answers K) (t : Tree K V A) : (t.getC o).result = t.getU o := by
  simp only [Tree.getC, Tree.getU, Counted.result_bind, tryCacheC_result]
  congr 1; funext r
  cases r <;> simp

@[simp] theorem updateInLeafC_result (o : Answers K) (s : Store K V A) (i : Nat) (f : V → V) :
    (updateInLeafC o s i f).result = updateInLeafU o s i f := by
  simp only [updateInLeafC, updateInLeafU, Counted.result_bind, Counted.result_lift,
    locateSlotC_result]
  congr 1; funext l
  congr 1; funext s
  cases s <;> simp

@[simp] theorem getMutC_result (o : Answers K) (t : Tree K V A) (f : V → V) :
    (t.getMutC o f).result = t.getMutU o f := by
  simp only [Tree.getMutC, Tree.getMutU, Counted.result_bind, tryCacheC_result]
  congr 1; funext r
  cases r <;> simp

@[simp] theorem cursorLocateLeafC_result (o : Answers K) (c : Cursor K) (t : Tree K V A) :
    (c.locateLeafC o t).result = c.locateLeafU o t := by
  simp only [Cursor.locateLeafC, Cursor.locateLeafU, Counted.result_bind]
  congr 1
  · cases t.store.tryGetLeaf c.leafIdHint <;> simp
  · funext r
    cases r with
    | some l => rfl
    | none =>
      simp only [Counted.result_bind, Tree.locateLeafC, tryCacheC_result, Counted.result_lift]
      congr 1
      congr 1; funext r
      cases r <;> simp

@[simp] theorem hintHitsC_result (o : Answers K) (c : Cursor K) (l : Leaf K V) :
    (c.hintHitsC o l).result = .ok (c.hintHitsU o l) := by
  unfold Cursor.hintHitsC Cursor.hintHitsU
  cases l.tryDataAt c.offsetHint <;> rfl

@[simp] theorem prevPosC_result (o : Answers K) (c : Cursor K) (t : Tree K V A) (l : Leaf K V) :
    (c.prevPosC o t l).result = c.prevPosU o t l := by
  simp only [Cursor.prevPosC, Cursor.prevPosU, Counted.result_bind, hintHitsC_result, ok_bind]
  cases c.hintHitsU o l with
  | true =>
    simp only [if_true]
    split <;> rfl
  | false =>
    simp only [Bool.false_eq_true, if_false, Counted.result_bind, locateSlotC_result, bind_assoc]
    congr 1; funext s
    cases s <;> simp only [pure_ok, ok_bind] <;> split <;> rfl

@[simp] theorem prevWithValueC_result (o : Answers K) (c : Cursor K) (t : Tree K V A) :
    (c.prevWithValueC o t).result = c.prevWithValueU o t := by
  simp only [Cursor.prevWithValueC, Cursor.prevWithValueU, Counted.result_bind,
    cursorLocateLeafC_result, prevPosC_result]
  congr 1; funext p
  congr 1; funext r
  cases r <;> simp

@[simp] theorem nextOffsetC_result (o : Answers K) (c : Cursor K) (l : Leaf K V) :
    (c.nextOffsetC o l).result = c.nextOffsetU o l := by
  simp only [Cursor.nextOffsetC, Cursor.nextOffsetU, Counted.result_bind, hintHitsC_result, ok_bind]
  cases c.hintHitsU o l with
  | true => rfl
  | false =>
    simp only [Bool.false_eq_true, if_false, Counted.result_bind, locateSlotWithValueC_result]
    congr 1; funext p
    obtain ⟨i, v⟩ := p
    cases v <;> rfl

@[simp] theorem nextWithValueC_result (o : Answers K) (c : Cursor K) (t : Tree K V A) :
    (c.nextWithValueC o t).result = c.nextWithValueU o t := by
  simp [Cursor.nextWithValueC, Cursor.nextWithValueU]

@[simp] theorem valueC_result (o : Answers K) (c : Cursor K) (t : Tree K V A) :
    (c.valueC o t).result = c.valueU o t := by
  simp only [Cursor.valueC, Cursor.valueU, Counted.result_bind, cursorLocateLeafC_result,
    hintHitsC_result, ok_bind]
  congr 1; funext p
  obtain ⟨i, l⟩ := p
  simp only
  cases l.tryDataAt c.offsetHint <;> cases c.hintHitsU o l <;> simp

@[simp] theorem getCursorC_result (o : Answers K) (t : Tree K V A) (k : K) :
    (t.getCursorC o k).result = t.getCursorU o k := by
  simp [Tree.getCursorC, Tree.getCursorU]

section Aug
variable [Augmentation K V A]

@[simp] theorem descendInsertC_result (o : Answers K) (s : Store K V A) (i : NodeId) (k : K) (v : V) :
    (descendInsertC o s i k v).result = descendInsertU o s i k v := by
  cases i <;> simp [descendInsertC, descendInsertU, descendC_result' (stackStepC_result o)]

@[simp] theorem insertC_result (o : Answers K) (t : Tree K V A) (k : K) (v : V) :
    (t.insertC o k v).result = t.insertU o k v := by
  simp [Tree.insertC, Tree.insertU]

@[simp] theorem removeC_result (o : Answers K) (t : Tree K V A) :
    (t.removeC o).result = t.removeU o := by
  simp only [Tree.removeC, Tree.removeU, Tree.removeImplU, Counted.result_bind, keyToRefC_result,
    bind_assoc]
  congr 1; funext r
  cases r <;> simp

theorem ucallC_result (t : Tree K V A) (o : Answers K) (c : UCall K V) :
    (t.ucallC o c).result = t.ucall o c := by
  cases c <;> simp only [Tree.ucallC, Tree.ucall, Counted.result_bind, insertC_result, removeC_result,
    getC_result, getMutC_result, nextWithValueC_result, prevWithValueC_result, valueC_result,
    getCursorC_result, Counted.result_lift] <;> try rfl
  congr 1; funext r
  cases r <;> rfl

end Aug

/-! ## Costs -/

theorem halvingLoopC_cost (f : Nat → K → Ordering) (keys : List K) (n m : Nat) {j b s : Nat}
    (hs : s ≤ 2 ^ m) : (halvingLoopC f keys n j b s).cost ≤ m := by
  induction n generalizing j b s m with
  | zero => exact Nat.zero_le _
  | succ n ih =>
    rw [halvingLoopC]
    split
    · cases m with
      | zero => omega
      | succ m =>
        refine Counted.lift_le fun x _ => ?_
        refine Nat.le_trans (Counted.ask_le (ih m ?_)) (by omega)
        rw [Nat.pow_succ] at hs
        omega
    · exact Nat.zero_le _

theorem earlyLoopC_cost (f : Nat → K → Ordering) (keys : List K) (n m : Nat) {j l r : Nat}
    (hs : r - l < 2 ^ m) : (earlyLoopC f keys n j l r).cost ≤ m := by
  induction n generalizing j l r m with
  | zero => exact Nat.zero_le _
  | succ n ih =>
    rw [earlyLoopC]
    split
    · cases m with
      | zero => omega
      | succ m =>
        rw [Nat.pow_succ] at hs
        refine Counted.lift_le fun x _ => ?_
        refine Nat.le_trans (Counted.ask_le (n := m) ?_) (by omega)
        cases f j x with
        | lt => exact ih m (by omega)
        | gt => exact ih m (by omega)
        | eq => exact Nat.zero_le _
    · exact Nat.zero_le _

/-- A binary search in at most 64 keys makes at most 7 comparisons. -/
theorem searchC_cost (e : Bool) (f : Nat → K → Ordering) {keys : List K} (h : keys.length ≤ 64) :
    (searchC e f keys).cost ≤ 7 := by
  unfold searchC
  split
  · exact earlyLoopC_cost f keys _ 7 (by norm_num; omega)
  · unfold halvingSearchC
    split
    · exact Nat.zero_le _
    · refine Counted.bind_le (m := 6) (n := 1) (halvingLoopC_cost f keys _ 6 (by norm_num; omega)) ?_
      rintro ⟨j, b⟩ -
      refine Counted.lift_le fun x _ => ?_
      refine Counted.ask_le (n := 0) ?_
      cases f j x <;> exact Nat.le_refl _

theorem locateChildC_cost (o : Answers K) (d : Nat) {n : Inner K A} (h : n.keys.length ≤ 64) :
    (n.locateChildC o d).cost ≤ 7 := by
  refine Counted.then_le (searchC_cost _ _ h) fun s => ?_
  cases s <;> exact Nat.le_antisymm (Counted.lift_le fun _ _ => Nat.le_refl _) (Nat.zero_le _)

theorem locateSlotC_cost (o : Answers K) {l : Leaf K V} (h : l.data.length ≤ 64) :
    (l.locateSlotC o).cost ≤ 7 :=
  searchC_cost _ _ (by simpa [Leaf.keys] using h)

theorem locateSlotWithValueC_cost (o : Answers K) {l : Leaf K V} (h : l.data.length ≤ 64) :
    (l.locateSlotWithValueC o).cost ≤ 7 := by
  refine Counted.then_le (locateSlotC_cost o h) fun s => ?_
  cases s with
  | vacant i => rfl
  | found i => exact Nat.le_antisymm (Counted.lift_le fun _ _ => Nat.le_refl _) (Nat.zero_le _)

theorem inRangeC_cost (o : Answers K) (i : Nat) (l : Leaf K V) : (l.inRangeC o i).cost ≤ 2 := by
  obtain ⟨d, p, n⟩ := l
  unfold Leaf.inRangeC
  refine Counted.bind_le (m := 1) (n := 1) ?_ fun b _ => ?_
  · cases p with
    | none => exact Nat.zero_le _
    | some p => exact Counted.lift_le fun _ _ => Nat.le_refl _
  · cases b with
    | true => exact Nat.zero_le _
    | false =>
      simp only [Bool.false_eq_true, if_false]
      refine Counted.then_le ?_ fun _ => rfl
      cases n with
      | none => exact Nat.zero_le _
      | some n =>
        simp only
        split
        · exact Counted.lift_le fun _ _ => Counted.lift_le fun _ _ => Nat.le_refl _
        · exact Counted.lift_le fun _ _ => Nat.le_refl _

theorem tryCacheC_cost (o : Answers K) (s : Store K V A) : (s.tryCacheC o).cost ≤ 2 := by
  unfold Store.tryCacheC
  cases s.cached with
  | none => exact Nat.zero_le _
  | some id =>
    simp only
    cases s.tryGetLeaf id with
    | none => exact Nat.zero_le _
    | some l => exact Counted.then_le (inRangeC_cost o 0 l) fun _ => rfl

theorem hintHitsC_cost (o : Answers K) (c : Cursor K) (l : Leaf K V) :
    (c.hintHitsC o l).cost ≤ 1 := by
  unfold Cursor.hintHitsC
  cases l.tryDataAt c.offsetHint <;> simp

/-- The step of a counted descent, with the cost so far in the state. -/
def countStep {σ : Type} (stepC : σ → Nat → Inner K A → Counted (σ × NodeId)) (st : Nat × σ) (i : Nat)
    (n : Inner K A) : Res ((Nat × σ) × NodeId) := do
  let r ← (stepC st.2 i n).result
  return ((st.1 + (stepC st.2 i n).cost, r.1), r.2)

theorem descendC_cost {σ : Type} {s : Store K V A}
    {stepC : σ → Nat → Inner K A → Counted (σ × NodeId)} (fuel n : Nat) (st : σ) (root : NodeId)
    {m : Nat} {st' : σ} {i : Nat}
    (h : descend (β := Empty) s (fun st i n => do let r ← countStep stepC st i n; return .inr r) fuel
      (n, st) root = .ok (.inr ((m, st'), i))) :
    n + (descendC s stepC fuel st root).cost = m ∧
      (descendC s stepC fuel st root).result = .ok (st', i) := by
  induction fuel generalizing n st root with
  | zero =>
    cases root with
    | leaf i => cases h; exact ⟨rfl, rfl⟩
    | inner i => cases h
  | succ f ih =>
    cases root with
    | leaf i => cases h; exact ⟨rfl, rfl⟩
    | inner j =>
      rw [descend] at h
      rw [descendC]
      cases hg : s.getInner j with
      | error e => rw [hg] at h; cases h
      | ok nd =>
        rw [hg] at h
        simp only [ok_bind, countStep] at h
        cases hr : (stepC st j nd).result with
        | error e => rw [hr] at h; cases h
        | ok r =>
          rw [hr] at h
          simp only [ok_bind, pure_ok] at h
          obtain ⟨h1, h2⟩ := ih _ _ _ h
          have e1 : (liftM (Except.ok nd : Res (Inner K A)) : Counted (Inner K A)).result = .ok nd := rfl
          rw [Counted.cost_bind_ok e1, Counted.cost_bind_ok hr]
          refine ⟨?_, ?_⟩
          · simp only [Counted.cost_lift]; omega
          · simp only [Counted.result_bind, e1, ok_bind, hr, h2]

theorem descendC_cost' {σ : Type} {s : Store K V A}
    {stepC : σ → Nat → Inner K A → Counted (σ × NodeId)} {st : σ} {root : NodeId}
    {m : Nat} {st' : σ} {i : Nat}
    (h : descendLeaf s (countStep stepC) (0, st) root = .ok ((m, st'), i)) :
    (descendC s stepC s.fuel st root).cost = m ∧
      (descendC s stepC s.fuel st root).result = .ok (st', i) := by
  have := descendC_cost (s := s) (stepC := stepC) s.fuel 0 st root (m := m) (st' := st') (i := i) (by
    unfold descendLeaf at h
    revert h
    cases descend (β := Empty) s
        (fun st i n => do let r ← countStep stepC st i n; return .inr r) s.fuel (0, st) root with
    | error e => intro h; cases h
    | ok r =>
      cases r with
      | inl e => exact nomatch e
      | inr r => intro h; cases h; rfl)
  exact ⟨by omega, this.2⟩

theorem stackStepC_cost (o : Answers K) (st : List StackEntry) (i : Nat) {n : Inner K A}
    (h : n.keys.length ≤ 64) : (stackStepC o st i n).cost ≤ 7 :=
  Counted.then_le (locateChildC_cost o _ h) fun _ =>
    Nat.le_antisymm (Counted.lift_le fun _ _ => Nat.le_refl _) (Nat.zero_le _)

theorem locateStepC_cost (o : Answers K) (d i : Nat) {n : Inner K A}
    (h : n.keys.length ≤ 64) : (locateStepC o d i n).cost ≤ 7 :=
  Counted.then_le (locateChildC_cost o _ h) fun _ => rfl

/-- The cost of a descent from the root of a tree of height `H`. -/
theorem descendStackC_ok {μ : Nat} {t : Tree K V A} {H : Nat} {g : T K V A H} (w : WF0 μ t g)
    (hH : H ≤ maxDepth) (o : Answers K) :
    ∃ (c : Ctx K V A 0 H) (x : GLeaf K V), Ctx.plug c x = g ∧ c.LenOK ∧
      (descendC t.store (stackStepC o) t.store.fuel [] t.root).result
        = .ok (c.stack (.leaf x.id), x.id) ∧
      (descendC t.store (stackStepC o) t.store.fuel [] t.root).cost ≤ 7 * H := by
  obtain ⟨c, x, ⟨m, st⟩, h1, h2, h3, h4, h5⟩ := descendLeaf_ok w (step := countStep (stackStepC o))
    (fun h c x st => c.LenOK ∧ st.2 = c.stack x.nid ∧ st.1 + 7 * h ≤ 7 * H)
    (by
      rintro h c x ⟨m, st⟩ hp ⟨hl, rfl, hm⟩
      have hsh := (Ctx.shape_plug.1 ⟨hp ▸ w.shape, hl⟩).2
      obtain ⟨f, y, rfl, h1, h2⟩ := locateU_frame o (c.stack (T.nid (h := h + 1) x)).length hsh
      have hlen : (c.stack (T.nid (h := h + 1) (f.fill y))).length < maxDepth := by
        have := c.le
        simp only [Ctx.stack_length]; omega
      have hr : (stackStepC o (c.stack (T.nid (h := h + 1) (f.fill y))) (f.fill y).id
          (f.fill y).inner).result = .ok ((Ctx.cons f c).stack y.nid, y.nid) := by
        rw [stackStepC_result, stackStepU, h2]
        simp only [ok_bind, pushStack, if_pos hlen]
        simp [Ctx.stack]
      have hc := stackStepC_cost o (c.stack (T.nid (h := h + 1) (f.fill y))) (f.fill y).id
        (n := (f.fill y).inner) hsh.2.1
      refine ⟨f, y, (m + (stackStepC o (c.stack (T.nid (h := h + 1) (f.fill y))) (f.fill y).id
        (f.fill y).inner).cost, (Ctx.cons f c).stack y.nid), rfl, ?_, ⟨h1, hl⟩, rfl, ?_⟩
      · rw [countStep, hr]; rfl
      · simp only at hm ⊢; omega)
    (st := (0, [])) ⟨trivial, rfl, by simp⟩
  obtain ⟨e1, e2⟩ := descendC_cost' h2
  refine ⟨c, x, h1, h3, ?_, ?_⟩
  · rw [e2]; exact congrArg (fun z => Except.ok (z, x.id)) h4
  · simp only at h5; omega

theorem findDescendLeafC_cost {μ : Nat} {t : Tree K V A} {H : Nat} {g : T K V A H} (w : WF0 μ t g)
    (o : Answers K) : (findDescendLeafC o t.store t.root).cost ≤ 7 * H := by
  obtain ⟨c, x, ⟨m, st⟩, h1, h2, h3, h5⟩ := descendLeaf_ok w (step := countStep (locateStepC o))
    (fun h c x st => c.LenOK ∧ st.1 + 7 * h ≤ 7 * H)
    (by
      rintro h c x ⟨m, st⟩ hp ⟨hl, hm⟩
      have hsh := (Ctx.shape_plug.1 ⟨hp ▸ w.shape, hl⟩).2
      obtain ⟨f, y, rfl, h1, h2⟩ := locateU_frame o st hsh
      have hr : (locateStepC o st (f.fill y).id (f.fill y).inner).result = .ok (st + 1, y.nid) := by
        rw [locateStepC_result, locateStepU, h2]; rfl
      have hc := locateStepC_cost o st (f.fill y).id (n := (f.fill y).inner) hsh.2.1
      refine ⟨f, y, (m + (locateStepC o st (f.fill y).id (f.fill y).inner).cost, st + 1), rfl, ?_,
        ⟨h1, hl⟩, ?_⟩
      · rw [countStep, hr]; rfl
      · simp only at hm ⊢; omega)
    (st := (0, 0)) ⟨trivial, by simp⟩
  obtain ⟨e1, e2⟩ := descendC_cost' h2
  refine Counted.then_le ?_ fun _ => rfl
  simp only at h5; omega

/-- No leaf has more than 64 items. -/
def SmallLeaves (s : Store K V A) : Prop := ∀ i l, s.getLeaf i = .ok l → l.data.length ≤ 64

theorem WF0.smallLeaves {μ : Nat} {t : Tree K V A} {H : Nat} {g : T K V A H} (w : WF0 μ t g) :
    SmallLeaves t.store := by
  intro i l h
  have h' : t.store.tryGetLeaf i = some l := by
    unfold Store.getLeaf at h
    unfold Store.tryGetLeaf
    split at h
    · next e => cases h; simp [e]
    · cases h
  obtain ⟨LA, x, LB, h1, rfl, rfl⟩ := w.flat.tryGet h'
  exact leaf_le w.shape x (by rw [h1]; simp)

theorem SmallLeaves.tryGet {s : Store K V A} (h : SmallLeaves s) {i : Nat} {l : Leaf K V}
    (hl : s.tryGetLeaf i = some l) : l.data.length ≤ 64 := by
  refine h i l ?_
  unfold Store.tryGetLeaf at hl
  unfold Store.getLeaf
  split at hl
  · next e => cases hl; simp [e]
  · cases hl

theorem findInLeafC_cost (o : Answers K) {s : Store K V A} (h : SmallLeaves s) (i : Nat) :
    (findInLeafC o s i).cost ≤ 7 :=
  Counted.lift_le fun l hl => Counted.then_le (locateSlotWithValueC_cost o (h i l hl)) fun _ => rfl

theorem updateInLeafC_cost (o : Answers K) {s : Store K V A} (h : SmallLeaves s) (i : Nat)
    (f : V → V) : (updateInLeafC o s i f).cost ≤ 7 :=
  Counted.lift_le fun l hl => Counted.then_le (locateSlotC_cost o (h i l hl)) fun s => by
    cases s with
    | vacant i => rfl
    | found i => exact Nat.le_antisymm (Counted.lift_le fun _ _ => Nat.le_refl _) (Nat.zero_le _)

theorem insertLeafC_cost (o : Answers K) {s : Store K V A} (h : SmallLeaves s) (i : Nat) (k : K)
    (v : V) : (insertLeafC o s i k v).cost ≤ 7 :=
  Counted.lift_le fun l hl => Counted.then_le (locateSlotC_cost o (h i l hl)) fun _ => rfl

/-- Costs on a tree of height `H`. -/
theorem getC_cost {μ : Nat} {t : Tree K V A} {H : Nat} {g : T K V A H} (w : WF0 μ t g)
    (o : Answers K) : (t.getC o).cost ≤ 2 + (7 * H + 7) := by
  refine Counted.bind_le (tryCacheC_cost o t.store) fun r _ => ?_
  cases r with
  | some i =>
    have := Counted.then_le (f := fun v => (pure (v, t) : Counted (Option V × Tree K V A)))
      (findInLeafC_cost o w.smallLeaves i) fun _ => rfl
    simp only; omega
  | none =>
    refine Counted.bind_le (findDescendLeafC_cost w o) fun i _ => ?_
    exact Counted.then_le (findInLeafC_cost o w.smallLeaves i) fun _ => rfl

theorem getMutC_cost {μ : Nat} {t : Tree K V A} {H : Nat} {g : T K V A H} (w : WF0 μ t g)
    (o : Answers K) (f : V → V) : (t.getMutC o f).cost ≤ 2 + (7 * H + 7) := by
  refine Counted.bind_le (tryCacheC_cost o t.store) fun r _ => ?_
  cases r with
  | some i =>
    refine Nat.le_trans (Counted.then_le (updateInLeafC_cost o w.smallLeaves i f) fun _ => rfl) ?_
    omega
  | none =>
    refine Counted.bind_le (findDescendLeafC_cost w o) fun i _ => ?_
    have h' : SmallLeaves (t.store.cacheLeaf i) := w.smallLeaves
    exact Counted.then_le (updateInLeafC_cost o h' i f) fun _ => rfl

theorem keyToRefC_cost {μ : Nat} {t : Tree K V A} {H : Nat} {g : T K V A H} (w : WF0 μ t g)
    (hl : t.len < 2 ^ 64) (o : Answers K) : (t.keyToRefC o).cost ≤ 7 * H + 7 := by
  obtain ⟨c, x, -, -, -, h⟩ := descendStackC_ok w (w.depth hl) o
  refine Counted.bind_le h fun p _ => ?_
  refine Counted.lift_le fun l hl => Counted.then_le (locateSlotC_cost o (w.smallLeaves _ l hl)) ?_
  intro s
  cases s <;> rfl

theorem cursorLocateLeafC_cost {μ : Nat} {t : Tree K V A} {H : Nat} {g : T K V A H} (w : WF0 μ t g)
    (o : Answers K) (c : Cursor K) : (c.locateLeafC o t).cost ≤ 2 + (2 + 7 * H) := by
  refine Counted.bind_le ?_ fun r _ => ?_
  · cases t.store.tryGetLeaf c.leafIdHint with
    | none => exact Nat.zero_le _
    | some l => exact Counted.then_le (inRangeC_cost o 2 l) fun _ => rfl
  · cases r with
    | some l => exact Nat.zero_le _
    | none =>
      refine Counted.then_le (m := 2 + 7 * H) ?_ fun _ =>
        Nat.le_antisymm (Counted.lift_le fun _ _ => Nat.le_refl _) (Nat.zero_le _)
      refine Counted.bind_le (tryCacheC_cost o t.store) fun r _ => ?_
      cases r with
      | some i => exact Nat.zero_le _
      | none => exact findDescendLeafC_cost w o

theorem cursorLocateLeafC_small {μ : Nat} {t : Tree K V A} {H : Nat} {g : T K V A H} (w : WF0 μ t g)
    {o : Answers K} {c : Cursor K} {p : Nat × Leaf K V} (h : (c.locateLeafC o t).result = .ok p) :
    p.2.data.length ≤ 64 := by
  rw [cursorLocateLeafC_result] at h
  unfold Cursor.locateLeafU at h
  obtain ⟨r, h1, h2⟩ := bind_ok h
  cases r with
  | some l =>
    cases h2
    cases hl : t.store.tryGetLeaf c.leafIdHint with
    | none => rw [hl] at h1; cases h1
    | some l' =>
      rw [hl] at h1
      obtain ⟨b, -, h3⟩ := bind_ok h1
      cases b with
      | true => cases h3; exact w.smallLeaves.tryGet hl
      | false => cases h3
  | none =>
    obtain ⟨i, -, h4⟩ := bind_ok h2
    obtain ⟨l, h5, h6⟩ := bind_ok h4
    cases h6
    exact w.smallLeaves i l h5

theorem prevPosC_cost (o : Answers K) (c : Cursor K) (t : Tree K V A) {l : Leaf K V}
    (h : l.data.length ≤ 64) : (c.prevPosC o t l).cost ≤ 1 + 7 := by
  refine Counted.bind_le (hintHitsC_cost o c l) fun b _ => ?_
  cases b with
  | true =>
    simp only [if_true]
    split <;> exact Nat.zero_le _
  | false =>
    simp only [Bool.false_eq_true, if_false]
    refine Counted.then_le (locateSlotC_cost o h) fun s => ?_
    cases s <;> simp only <;> split <;> rfl

theorem nextOffsetC_cost (o : Answers K) (c : Cursor K) {l : Leaf K V}
    (h : l.data.length ≤ 64) : (c.nextOffsetC o l).cost ≤ 1 + 7 := by
  refine Counted.bind_le (hintHitsC_cost o c l) fun b _ => ?_
  cases b with
  | true => exact Nat.zero_le _
  | false =>
    simp only [Bool.false_eq_true, if_false]
    refine Counted.then_le (locateSlotWithValueC_cost o h) ?_
    rintro ⟨i, v⟩
    cases v <;> rfl

theorem ucallC_cost {μ : Nat} [Augmentation K V A] {t : Tree K V A} {H : Nat} {g : T K V A H} (w : WF0 μ t g)
    (hl : t.len < 2 ^ 64) (o : Answers K) (c : UCall K V) : (t.ucallC o c).cost ≤ 7 * H + 12 := by
  have lift0 : ∀ {α β : Type} (x : Res α) (f : α → β), ((liftM x : Counted α) >>= fun a => pure (f a)).cost = 0 :=
    fun x f => Nat.le_antisymm (Counted.lift_le fun _ _ => Nat.le_refl _) (Nat.zero_le _)
  cases c with
  | insert k v =>
    refine Counted.then_le ?_ fun _ => rfl
    refine Counted.then_le ?_ fun _ => rfl
    unfold descendInsertC
    cases hr : t.root with
    | leaf i =>
      have := insertLeafC_cost o w.smallLeaves i k v
      simp only; omega
    | inner i =>
      obtain ⟨c, x, -, -, -, h⟩ := descendStackC_ok w (w.depth hl) o
      rw [hr] at h
      refine Nat.le_trans (Counted.bind_le (n := 7) h fun p _ => ?_) (by omega)
      exact Counted.then_le (insertLeafC_cost o w.smallLeaves _ k v) fun _ => rfl
  | remove =>
    refine Counted.then_le ?_ fun _ => rfl
    refine Counted.then_le (Nat.le_trans (keyToRefC_cost w hl o) (by omega)) fun r => ?_
    cases r with
    | none => rfl
    | some e => exact lift0 _ _
  | get =>
    exact Counted.then_le (Nat.le_trans (getC_cost w o) (by omega)) fun _ => rfl
  | getMut f =>
    exact Counted.then_le (Nat.le_trans (getMutC_cost w o f) (by omega)) fun _ => rfl
  | cursorNext c =>
    refine Counted.then_le ?_ fun _ => rfl
    refine Nat.le_trans (Counted.bind_le (n := 8) (cursorLocateLeafC_cost w o c) fun p hp => ?_)
      (by omega)
    exact Counted.then_le (nextOffsetC_cost o c (cursorLocateLeafC_small w hp)) fun _ => rfl
  | cursorPrev c =>
    refine Counted.then_le ?_ fun _ => rfl
    refine Nat.le_trans (Counted.bind_le (n := 8) (cursorLocateLeafC_cost w o c) fun p hp => ?_)
      (by omega)
    refine Counted.then_le (prevPosC_cost o c t (cursorLocateLeafC_small w hp)) fun r => ?_
    cases r with
    | none => rfl
    | some q => exact lift0 _ _
  | cursorValue c =>
    refine Counted.then_le ?_ fun _ => rfl
    refine Nat.le_trans (Counted.bind_le (n := 8) (cursorLocateLeafC_cost w o c) fun p hp => ?_)
      (by omega)
    refine Counted.bind_le (n := 7) (hintHitsC_cost o c p.2) fun b _ => ?_
    have := Counted.then_le (f := fun q => (pure q.2 : Counted (Option V)))
      (locateSlotWithValueC_cost o (cursorLocateLeafC_small w hp)) fun _ => rfl
    cases p.2.tryDataAt c.offsetHint with
    | none => exact this
    | some kv => cases b with
      | true => exact Nat.zero_le _
      | false => exact this
  | getCursor k =>
    refine Counted.then_le ?_ fun r => by cases r <;> rfl
    refine Nat.le_trans (Counted.bind_le (n := 7) (findDescendLeafC_cost w o) fun i hi => ?_)
      (by omega)
    refine Counted.lift_le fun l hl => ?_
    exact Counted.then_le (locateSlotWithValueC_cost o (w.smallLeaves i l hl)) fun _ => rfl
  | _ => exact Nat.zero_le _

end Bpt
