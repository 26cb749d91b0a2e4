import Verif.Proofs.Crash
import Verif.Proofs.Count

/-!
# How many summaries and key copies a call makes
-/

namespace Bpt
variable {K V A : Type}

namespace Traced
variable {σ τ α β : Type}

/-- Calls of user code other than comparisons. -/
def work (x : Traced σ α) : Nat := (x.trace.filter (fun e => decide (e.1 ≠ .compare))).length

@[simp] theorem work_pure (a : α) : (pure a : Traced σ α).work = 0 := rfl
@[simp] theorem work_lift (x : Res α) : (liftM x : Traced σ α).work = 0 := rfl
@[simp] theorem work_mapMem (f : σ → τ) (x : Traced σ α) : (mapMem f x).work = x.work := by
  simp [work, mapMem, List.filter_map, Function.comp_def]

theorem work_bind_le {x : Traced σ α} {f : α → Traced σ β} {m n : Nat} (h1 : x.work ≤ m)
    (h2 : ∀ a, x.result = .ok a → (f a).work ≤ n) : (x >>= f).work ≤ m + n := by
  have : (x >>= f).work = (match x.result with
    | .ok a => (⟨x.trace ++ (f a).trace, (f a).result⟩ : Traced σ β)
    | .error e => ⟨x.trace, .error e⟩).work := rfl
  rw [this]
  cases h : x.result with
  | ok a =>
    have := h2 a h
    simp only [work, List.filter_append, List.length_append] at h1 this ⊢
    omega
  | error e => simp only [work] at h1 ⊢; omega

theorem work_lift_le {x : Res α} {f : α → Traced σ β} {n : Nat}
    (h : ∀ a, x = .ok a → (f a).work ≤ n) : ((liftM x : Traced σ α) >>= f).work ≤ n := by
  have := work_bind_le (x := (liftM x : Traced σ α)) (f := f) (m := 0) (Nat.le_refl _) h
  omega

theorem work_call_le {c : Callback} {s : σ} {f : Unit → Traced σ β} {n : Nat}
    (h : (f ()).work ≤ n) : (call c s >>= f).work ≤ 1 + n :=
  work_bind_le (by cases c <;> simp [work]) fun _ _ => h

theorem work_compare_le {s : σ} {f : Unit → Traced σ β} {n : Nat}
    (h : (f ()).work ≤ n) : (call .compare s >>= f).work ≤ n := by
  have := work_bind_le (x := call .compare s) (f := f) (m := 0) (n := n) (Nat.le_of_eq rfl) fun _ _ => h
  omega

theorem work_then_le {x : Traced σ α} {f : α → Traced σ β} {m : Nat} (h1 : x.work ≤ m)
    (h2 : ∀ a, (f a).work = 0) : (x >>= f).work ≤ m :=
  work_bind_le (n := 0) h1 fun a _ => Nat.le_of_eq (h2 a)

theorem work_guard_le {c : Prop} [Decidable c] {e : Res Unit} {f : Unit → Traced σ β} {n : Nat}
    (h : ∀ u, (f u).work ≤ n) : (if c then (liftM e : Traced σ Unit) >>= f else f ()).work ≤ n := by
  split
  · exact work_lift_le fun u _ => h u
  · exact h ()

end Traced

open Traced

section
variable [Augmentation K V A]

theorem newAugmentationT_work {σ : Type} (m : σ) (s : Store K V A) (i : NodeId) :
    (newAugmentationT m s i).work ≤ 1 := by
  cases i <;> exact work_lift_le fun _ _ => work_call_le (n := 0) (Nat.le_refl _)

omit [Augmentation K V A] in
theorem insertLeafT_work (o : Answers K) (s : Store K V A) (id : Nat) (k : K) (v : V) :
    (insertLeafT o s id k v).work ≤ 1 := by
  refine work_lift_le fun leaf _ => work_compare_le ?_
  refine work_lift_le fun slot _ => work_lift_le fun r _ => ?_
  obtain ⟨leaf', u⟩ := r
  cases u with
  | inserted => exact Nat.zero_le _
  | updated v0 => exact Nat.zero_le _
  | isFull idx k v =>
    refine work_lift_le fun l _ => work_lift_le fun p _ => work_lift_le fun kv _ => ?_
    refine work_call_le (n := 0) ?_
    exact work_lift_le fun l _ => work_lift_le fun l _ => Nat.le_refl _

theorem insertAscendT_work (s : Store K V A) (stack : List StackEntry) (r : InsertResult K V) :
    (insertAscendT s stack r).work ≤ 2 * stack.length := by
  induction stack generalizing s r with
  | nil => exact Nat.zero_le _
  | cons e stack ih =>
    obtain ⟨id, idx, c⟩ := e
    have e2 : 2 * ((id, idx, c) :: stack).length = 1 + (1 + 2 * stack.length) := by
      rw [List.length_cons]; omega
    rw [e2]
    cases r with
    | split key rc =>
      refine work_bind_le (newAugmentationT_work _ _ _) fun a _ => ?_
      refine work_bind_le (newAugmentationT_work _ _ _) fun b _ => ?_
      refine work_lift_le fun n _ => work_lift_le fun n _ => ?_
      split
      · exact work_lift_le fun n _ => ih _ _
      · exact work_lift_le fun n _ => ih _ _
    | inserted =>
      refine work_bind_le (newAugmentationT_work _ _ _) fun a _ => ?_
      refine work_lift_le fun n _ => work_lift_le fun n _ => ?_
      exact Nat.le_trans (ih _ _) (by omega)
    | updated v =>
      refine work_bind_le (newAugmentationT_work _ _ _) fun a _ => ?_
      refine work_lift_le fun n _ => work_lift_le fun n _ => ?_
      exact Nat.le_trans (ih _ _) (by omega)

theorem finishInsertT_work (t : Tree K V A) (s : Store K V A) (r : InsertResult K V) :
    (t.finishInsertT s r).work ≤ 3 := by
  cases r with
  | inserted =>
    exact Nat.le_trans (work_then_le (newAugmentationT_work _ _ _) fun _ => rfl) (by omega)
  | updated v =>
    exact Nat.le_trans (work_then_le (newAugmentationT_work _ _ _) fun _ => rfl) (by omega)
  | split k rc =>
    refine work_bind_le (n := 2) (newAugmentationT_work _ _ _) fun a _ => ?_
    refine work_bind_le (n := 1) (newAugmentationT_work _ _ _) fun b _ => ?_
    exact work_lift_le fun n _ => work_call_le (n := 0) (Nat.le_refl _)

theorem tryRotateRightInnerT_work (pid : Nat) (s : Store K V A) (n : Inner K A) (i : Nat) :
    (tryRotateRightInnerT pid s n i).work ≤ 2 := by
  refine work_lift_le fun _ _ => work_lift_le fun _ _ => work_lift_le fun prev _ => ?_
  split
  · refine work_lift_le fun _ _ => work_call_le (n := 1) ?_
    refine work_lift_le fun _ _ => work_lift_le fun _ _ => work_lift_le fun _ _ => ?_
    refine work_call_le (n := 0) ?_
    exact work_lift_le fun _ _ => work_lift_le fun _ _ => Nat.le_refl _
  · exact Nat.zero_le _

theorem tryRotateLeftInnerT_work (pid : Nat) (s : Store K V A) (n : Inner K A) (i : Nat) :
    (tryRotateLeftInnerT pid s n i).work ≤ 2 := by
  refine work_lift_le fun _ _ => work_lift_le fun _ _ => work_lift_le fun prev _ => ?_
  split
  · refine work_lift_le fun _ _ => work_call_le (n := 1) ?_
    refine work_lift_le fun _ _ => work_lift_le fun _ _ => work_lift_le fun _ _ => ?_
    refine work_call_le (n := 0) ?_
    exact work_lift_le fun _ _ => work_lift_le fun _ _ => Nat.le_refl _
  · exact Nat.zero_le _

/-- A rotation that does not happen calls nothing. -/
theorem tryRotateRightInnerT_none {pid : Nat} {s : Store K V A} {n : Inner K A} {i : Nat}
    (h : (tryRotateRightInnerT pid s n i).result = .ok none) :
    (tryRotateRightInnerT pid s n i).work = 0 := by
  rw [tryRotateRightInnerT_result] at h
  unfold tryRotateRightInner at h
  simp only [bind_assoc] at h
  obtain ⟨a, h1, h⟩ := bind_ok h
  obtain ⟨b, h2, h⟩ := bind_ok h
  obtain ⟨c, h3, h⟩ := bind_ok h
  obtain ⟨d, h4, h⟩ := bind_ok h
  obtain ⟨p, h5, h⟩ := bind_ok h
  refine Nat.le_zero.1 ?_
  refine work_lift_le fun _ _ => work_lift_le fun d' hd' => work_lift_le fun prev hp => ?_
  have e1 : d' = d := by rw [h3] at hd'; exact (Except.ok.inj (hd'.symm.trans h4))
  rw [e1, h5] at hp
  cases hp
  split at h
  · obtain ⟨_, _, h⟩ := bind_ok h
    obtain ⟨_, _, h⟩ := bind_ok h
    obtain ⟨_, _, h⟩ := bind_ok h
    obtain ⟨_, _, h⟩ := bind_ok h
    obtain ⟨_, _, h⟩ := bind_ok h
    obtain ⟨_, _, h⟩ := bind_ok h
    cases h
  · next hc => rw [if_neg hc]; exact Nat.le_refl _

theorem tryRotateLeftInnerT_none {pid : Nat} {s : Store K V A} {n : Inner K A} {i : Nat}
    (h : (tryRotateLeftInnerT pid s n i).result = .ok none) :
    (tryRotateLeftInnerT pid s n i).work = 0 := by
  rw [tryRotateLeftInnerT_result] at h
  unfold tryRotateLeftInner at h
  simp only [bind_assoc] at h
  obtain ⟨a, h1, h⟩ := bind_ok h
  obtain ⟨b, h2, h⟩ := bind_ok h
  obtain ⟨c, h3, h⟩ := bind_ok h
  obtain ⟨d, h4, h⟩ := bind_ok h
  obtain ⟨p, h5, h⟩ := bind_ok h
  refine Nat.le_zero.1 ?_
  refine work_lift_le fun b' hb' => work_lift_le fun _ _ => work_lift_le fun prev hp => ?_
  have e1 : b' = b := by rw [h1] at hb'; exact (Except.ok.inj (hb'.symm.trans h2))
  rw [e1, h5] at hp
  cases hp
  split at h
  · obtain ⟨_, _, h⟩ := bind_ok h
    obtain ⟨_, _, h⟩ := bind_ok h
    obtain ⟨_, _, h⟩ := bind_ok h
    obtain ⟨_, _, h⟩ := bind_ok h
    obtain ⟨_, _, h⟩ := bind_ok h
    obtain ⟨_, _, h⟩ := bind_ok h
    cases h
  · next hc => rw [if_neg hc]; exact Nat.le_refl _

theorem mergeInnerNodeT_work (pid : Nat) (s : Store K V A) (n : Inner K A) (i : Nat) :
    (mergeInnerNodeT pid s n i).work ≤ 1 := by
  refine work_guard_le fun _ => ?_
  refine work_lift_le fun _ _ => work_lift_le fun _ _ => work_lift_le fun _ _ => ?_
  refine work_lift_le fun _ _ => work_lift_le fun _ _ => work_lift_le fun _ _ => ?_
  refine work_call_le (n := 0) ?_
  exact work_lift_le fun _ _ => Nat.le_refl _

theorem handleInnerUnderSizeT_work (pid : Nat) (s : Store K V A) (st : Statistic) (n : Inner K A)
    (i : Nat) (d : K × V) : (handleInnerUnderSizeT pid s st n i d).work ≤ 2 := by
  unfold handleInnerUnderSizeT
  generalize hR : (if 0 < i
    then Traced.mapMem (·, st) (tryRotateRightInnerT pid s n (i - 1))
    else return none : Traced (Store K V A × Statistic) (Option (Store K V A × Inner K A))) = R
  have hR1 : R.work ≤ 2 := by
    rw [← hR]
    split
    · rw [work_mapMem]; exact tryRotateRightInnerT_work _ _ _ _
    · exact Nat.zero_le _
  have hR2 : R.result = .ok none → R.work = 0 := by
    rw [← hR]
    split
    · rw [work_mapMem, Traced.result_mapMem]; exact tryRotateRightInnerT_none
    · intro _; rfl
  generalize hL : (if i < n.len
    then Traced.mapMem (·, st) (tryRotateLeftInnerT pid s n i)
    else return none : Traced (Store K V A × Statistic) (Option (Store K V A × Inner K A))) = L
  have hL1 : L.work ≤ 2 := by
    rw [← hL]
    split
    · rw [work_mapMem]; exact tryRotateLeftInnerT_work _ _ _ _
    · exact Nat.zero_le _
  have hL2 : L.result = .ok none → L.work = 0 := by
    rw [← hL]
    split
    · rw [work_mapMem, Traced.result_mapMem]; exact tryRotateLeftInnerT_none
    · intro _; rfl
  have merge : ∀ (st : Statistic) (j : Nat),
      ((Traced.mapMem (·, st) (mergeInnerNodeT pid s n j)) >>= fun x : Bool × Store K V A × Inner K A =>
        if x.1 then (pure (.done d, x.2.1, st, x.2.2) : Traced (Store K V A × Statistic)
          (DeleteResult K V × Store K V A × Statistic × Inner K A))
        else pure (.innerUnderSize d, x.2.1, st, x.2.2)).work ≤ 2 := by
    intro st j
    refine Nat.le_trans (work_then_le (m := 1) ?_ fun x => ?_) (by omega)
    · rw [work_mapMem]; exact mergeInnerNodeT_work _ _ _ _
    · split <;> rfl
  rcases hr : R.result with e | r
  · exact work_bind_le (n := 0) hR1 fun a ha => by rw [hr] at ha; cases ha
  cases r with
  | some p => exact work_bind_le (n := 0) hR1 fun a ha => by rw [hr] at ha; cases ha; exact Nat.le_refl _
  | none =>
    refine Nat.le_trans (work_bind_le (m := 0) (n := 2) (Nat.le_of_eq (hR2 hr)) fun a ha => ?_) (by omega)
    rw [hr] at ha; cases ha
    rcases hl : L.result with e | r
    · exact work_bind_le (n := 0) hL1 fun a ha => by rw [hl] at ha; cases ha
    cases r with
    | some p => exact work_bind_le (n := 0) hL1 fun a ha => by rw [hl] at ha; cases ha; exact Nat.le_refl _
    | none =>
      refine Nat.le_trans (work_bind_le (m := 0) (n := 2) (Nat.le_of_eq (hL2 hl)) fun a ha => ?_) (by omega)
      rw [hl] at ha; cases ha
      by_cases h0 : 0 < i
      · simp only [h0, if_true]; exact merge _ _
      · simp only [h0, if_false]; exact merge _ _

theorem rotateRightForLeafT_work (pid : Nat) (s : Store K V A) (n : Inner K A) (i d : Nat) :
    (rotateRightForLeafT pid s n i d).work ≤ 3 := by
  refine work_lift_le fun _ _ => work_lift_le fun _ _ => work_lift_le fun _ _ => ?_
  refine work_guard_le fun _ => ?_
  refine work_lift_le fun _ _ => work_call_le (n := 2) ?_
  refine work_lift_le fun _ _ => work_call_le (n := 1) ?_
  refine work_lift_le fun _ _ => work_lift_le fun _ _ => work_call_le (n := 0) ?_
  exact work_lift_le fun _ _ => work_lift_le fun _ _ => Nat.le_refl _

theorem rotateLeftForLeafT_work (pid : Nat) (s : Store K V A) (n : Inner K A) (i d : Nat) :
    (rotateLeftForLeafT pid s n i d).work ≤ 3 := by
  refine work_lift_le fun _ _ => work_lift_le fun _ _ => work_lift_le fun _ _ => ?_
  refine work_guard_le fun _ => ?_
  refine work_lift_le fun _ _ => work_call_le (n := 2) ?_
  refine work_lift_le fun _ _ => work_lift_le fun _ _ => work_call_le (n := 1) ?_
  refine work_lift_le fun _ _ => work_lift_le fun _ _ => work_call_le (n := 0) ?_
  exact work_lift_le fun _ _ => work_lift_le fun _ _ => Nat.le_refl _

theorem mergeLeafNodeLeftT_work (pid : Nat) (s : Store K V A) (n : Inner K A) (i d : Nat) :
    (mergeLeafNodeLeftT pid s n i d).work ≤ 1 := by
  refine work_lift_le fun _ _ => work_lift_le fun _ _ => work_lift_le fun _ _ => ?_
  refine work_lift_le fun _ _ => work_lift_le fun _ _ => work_call_le (n := 0) ?_
  exact work_lift_le fun _ _ => work_lift_le fun _ _ => work_lift_le fun _ _ => Nat.le_refl _

theorem mergeLeafNodeWithRightT_work (pid : Nat) (s : Store K V A) (n : Inner K A) (i d : Nat) :
    (mergeLeafNodeWithRightT pid s n i d).work ≤ 1 := by
  refine work_lift_le fun _ _ => work_lift_le fun _ _ => work_lift_le fun _ _ => ?_
  refine work_lift_le fun _ _ => work_lift_le fun _ _ => work_lift_le fun _ _ => ?_
  refine work_call_le (n := 0) ?_
  exact work_lift_le fun _ _ => work_lift_le fun _ _ => work_lift_le fun _ _ => Nat.le_refl _

theorem handleLeafUnderSizeT_work (pid : Nat) (s : Store K V A) (st : Statistic) (n : Inner K A)
    (i d : Nat) : (handleLeafUnderSizeT pid s st n i d).work ≤ 3 := by
  refine work_lift_le fun _ _ => work_lift_le fun _ _ => work_lift_le fun f _ => ?_
  cases f with
  | rotateRight =>
    exact work_then_le (by rw [work_mapMem]; exact rotateRightForLeafT_work _ _ _ _ _) fun _ => rfl
  | rotateLeft =>
    exact work_then_le (by rw [work_mapMem]; exact rotateLeftForLeafT_work _ _ _ _ _) fun _ => rfl
  | mergeLeft =>
    exact Nat.le_trans (work_then_le (m := 1)
      (by rw [work_mapMem]; exact mergeLeafNodeLeftT_work _ _ _ _ _) fun _ => rfl) (by omega)
  | mergeRight =>
    exact Nat.le_trans (work_then_le (m := 1)
      (by rw [work_mapMem]; exact mergeLeafNodeWithRightT_work _ _ _ _ _) fun _ => rfl) (by omega)

/-- Calls still due before a fix-up step of a leaf. -/
def leafDebt : DeleteResult K V → Nat
  | .leafUnderSize _ => 1
  | _ => 0

omit [Augmentation K V A] in
theorem leafDebt_ok [Augmentation K V A] {s : Store K V A} {st : Statistic} {n : Inner K A} {i : Nat}
    {d : K × V} {p} (h : handleInnerUnderSize s st n i d = .ok p) : leafDebt p.1 = 0 := by
  unfold handleInnerUnderSize at h
  obtain ⟨a, -, h⟩ := bind_ok h
  cases a with
  | some q => cases h; rfl
  | none =>
    obtain ⟨a, -, h⟩ := bind_ok h
    cases a with
    | some q => cases h; rfl
    | none =>
      obtain ⟨⟨ok, s', n'⟩, -, h⟩ := bind_ok h
      cases ok <;> (cases h; rfl)

theorem leafDebt_leaf {s : Store K V A} {st : Statistic} {n : Inner K A} {i d : Nat}
    {p} (h : handleLeafUnderSize s st n i d = .ok p) : leafDebt p.1 = 0 := by
  unfold handleLeafUnderSize at h
  obtain ⟨_, -, h⟩ := bind_ok h
  obtain ⟨_, -, h⟩ := bind_ok h
  obtain ⟨f, -, h⟩ := bind_ok h
  have hite : ∀ (ok : Bool) (kv : K × V), leafDebt (if ok then .done kv else .innerUnderSize kv) = 0 := by
    intro ok kv; cases ok <;> rfl
  cases f with
  | rotateRight => obtain ⟨_, -, h⟩ := bind_ok h; cases h; rfl
  | rotateLeft => obtain ⟨_, -, h⟩ := bind_ok h; cases h; rfl
  | mergeLeft =>
    obtain ⟨q, hq, h⟩ := bind_ok h
    cases h
    unfold mergeLeafNodeLeft at hq
    simp only [bind_assoc] at hq
    repeat' obtain ⟨_, -, hq⟩ := bind_ok hq
    cases hq
    exact hite _ _
  | mergeRight =>
    obtain ⟨q, hq, h⟩ := bind_ok h
    cases h
    unfold mergeLeafNodeWithRight at hq
    simp only [bind_assoc] at hq
    repeat' obtain ⟨_, -, hq⟩ := bind_ok hq
    cases hq
    exact hite _ _

theorem removeAscendT_work (s : Store K V A) (st : Statistic) (stack : List StackEntry)
    (r : DeleteResult K V) : (removeAscendT s st stack r).work ≤ 2 * stack.length + leafDebt r := by
  induction stack generalizing s st r with
  | nil => exact Nat.zero_le _
  | cons e stack ih =>
    obtain ⟨id, idx, c⟩ := e
    rw [List.length_cons]
    cases r with
    | done kv =>
      refine Nat.le_trans (work_bind_le (n := 2 * stack.length) (newAugmentationT_work _ _ _)
        fun a _ => ?_) (by simp only [leafDebt]; omega)
      exact work_lift_le fun n _ => work_lift_le fun n _ => ih _ _ _
    | innerUnderSize kv =>
      refine work_lift_le fun n _ => ?_
      refine Nat.le_trans (work_bind_le (n := 2 * stack.length) (handleInnerUnderSizeT_work _ _ _ _ _ _)
        fun a ha => ?_) (by simp only [leafDebt]; omega)
      rw [handleInnerUnderSizeT_result] at ha
      have := ih (a.2.1.setInner id a.2.2.2) a.2.2.1 a.1
      rw [leafDebt_ok ha] at this
      exact this
    | leafUnderSize i =>
      refine work_lift_le fun n _ => ?_
      refine Nat.le_trans (work_bind_le (n := 2 * stack.length) (handleLeafUnderSizeT_work _ _ _ _ _ _)
        fun a ha => ?_) (by simp only [leafDebt]; omega)
      rw [handleLeafUnderSizeT_result] at ha
      have := ih (a.2.1.setInner id a.2.2.2) a.2.2.1 a.1
      rw [leafDebt_leaf ha] at this
      exact this

theorem removeByRefT_work (t : Tree K V A) (e : EntryRef) :
    (t.removeByRefT e).work ≤ 2 * e.stack.length + 2 := by
  refine work_lift_le fun _ _ => work_lift_le fun p _ => ?_
  refine work_bind_le (m := 2 * e.stack.length + 1) (n := 1) ?_ fun q _ => ?_
  · rw [work_mapMem]
    refine Nat.le_trans (removeAscendT_work _ _ _ _) ?_
    obtain ⟨l, dr⟩ := p
    cases dr <;> simp [leafDebt]
  · refine work_lift_le fun _ _ => work_bind_le (n := 0) (newAugmentationT_work _ _ _) fun _ _ => ?_
    exact work_guard_le fun _ => Nat.le_refl _

theorem keyToRefU_stack {μ : Nat} {t : Tree K V A} {H : Nat} {g : T K V A H} (w : WF0 μ t g)
    (hl : t.len < 2 ^ 64) (o : Answers K) {e : EntryRef} (h : t.keyToRefU o = .ok (some e)) :
    e.stack.length ≤ H := by
  obtain ⟨c, x, -, -, h1, -⟩ := descendStackC_ok w (w.depth hl) o
  rw [← keyToRefC_result] at h
  unfold Tree.keyToRefC at h
  rw [Counted.result_bind, h1, ok_bind] at h
  simp only [Counted.result_bind] at h
  obtain ⟨l, -, h⟩ := bind_ok h
  obtain ⟨s, -, h⟩ := bind_ok h
  cases s with
  | found i => cases h; simp [Ctx.stack_length]
  | vacant i => cases h

theorem ucallT_work {μ : Nat} {t : Tree K V A} {H : Nat} {g : T K V A H} (w : WF0 μ t g)
    (hl : t.len < 2 ^ 64) (o : Answers K) (c : UCall K V) : (t.ucallT o c).work ≤ 2 * H + 4 := by
  cases c with
  | insert k v =>
    refine work_then_le ?_ fun _ => rfl
    unfold Tree.insertT
    rw [work_mapMem]
    refine work_bind_le (m := 2 * H + 1) (n := 3) ?_ fun p _ => finishInsertT_work _ _ _
    unfold descendInsertT
    cases hr : t.root with
    | leaf i => exact Nat.le_trans (insertLeafT_work _ _ _ _ _) (by omega)
    | inner i =>
      obtain ⟨c, x, -, -, h1, -⟩ := descendStackC_ok w (w.depth hl) o
      refine work_compare_le (work_lift_le fun p hp => ?_)
      have hp' : descendLeaf t.store (stackStepU o) [] t.root = .ok p := by rw [hr]; exact hp
      have hs : p.1.length ≤ H := by
        rw [descendC_result' (stackStepC_result o), hp'] at h1
        cases h1
        simp [Ctx.stack_length]
      refine Nat.le_trans (work_bind_le (insertLeafT_work o t.store p.2 k v)
        fun q _ => insertAscendT_work _ _ _) (by omega)
  | remove =>
    refine work_then_le ?_ fun _ => rfl
    refine work_compare_le (work_lift_le fun r hr => ?_)
    cases r with
    | none => exact Nat.zero_le _
    | some e =>
      have := keyToRefU_stack w hl o hr
      exact Nat.le_trans (work_then_le (removeByRefT_work t e) fun _ => rfl) (by omega)
  | get =>
    refine Nat.le_trans (work_then_le (m := 0) ?_ fun _ => rfl) (Nat.zero_le _)
    refine work_compare_le (work_lift_le fun r _ => ?_)
    cases r with
    | some i => exact work_lift_le fun _ _ => Nat.le_refl _
    | none => exact work_lift_le fun _ _ => work_compare_le (work_lift_le fun _ _ => Nat.le_refl _)
  | getMut f =>
    refine Nat.le_trans (work_then_le (m := 0) ?_ fun _ => rfl) (Nat.zero_le _)
    refine work_compare_le (work_lift_le fun r _ => ?_)
    cases r with
    | some i => exact work_lift_le fun _ _ => Nat.le_refl _
    | none => exact work_lift_le fun _ _ => work_compare_le (work_lift_le fun _ _ => Nat.le_refl _)
  | cursorNext c =>
    refine work_compare_le ?_
    exact Nat.le_trans (work_call_le (n := 0) (Nat.le_refl _)) (by omega)
  | cursorPrev c =>
    refine work_compare_le ?_
    exact Nat.le_trans (work_call_le (n := 0) (Nat.le_refl _)) (by omega)
  | cursorValue c => exact Nat.le_trans (work_compare_le (n := 0) (Nat.le_refl _)) (by omega)
  | getCursor k => exact Nat.le_trans (work_compare_le (n := 0) (Nat.le_refl _)) (by omega)
  | _ => exact Nat.zero_le _

end
end Bpt
