import Verif.Model.Crash
import Verif.Proofs.Unordered

/-!
# Crash points: the traced calls are the calls, and what the traces contain
-/

namespace Bpt
variable {K V A : Type}

attribute [simp] Callback.ofLeaf Callback.ofInner Callback.isFromLeaf Callback.isFromInner

namespace Traced
variable {σ τ α β : Type}

@[simp] theorem result_pure (a : α) : (pure a : Traced σ α).result = .ok a := rfl
@[simp] theorem trace_pure (a : α) : (pure a : Traced σ α).trace = [] := rfl
@[simp] theorem result_call (c : Callback) (m : σ) : (call c m).result = .ok () := rfl
@[simp] theorem trace_call (c : Callback) (m : σ) : (call c m).trace = [(c, m)] := rfl
@[simp] theorem result_lift (x : Res α) : (liftM x : Traced σ α).result = x := rfl
@[simp] theorem trace_lift (x : Res α) : (liftM x : Traced σ α).trace = [] := rfl
@[simp] theorem result_lift' (x : Res α) : (MonadLift.monadLift x : Traced σ α).result = x := rfl
@[simp] theorem trace_lift' (x : Res α) : (MonadLift.monadLift x : Traced σ α).trace = [] := rfl
@[simp] theorem result_mapMem (f : σ → τ) (x : Traced σ α) : (mapMem f x).result = x.result := rfl

@[simp] theorem result_bind (x : Traced σ α) (f : α → Traced σ β) :
    (x >>= f).result = x.result >>= fun a => (f a).result := by
  show (match x.result with
    | .ok a => (⟨x.trace ++ (f a).trace, (f a).result⟩ : Traced σ β)
    | .error e => ⟨x.trace, .error e⟩).result = _
  cases x.result <;> rfl

theorem mem_bind {x : Traced σ α} {f : α → Traced σ β} {e : Callback × σ} :
    e ∈ (x >>= f).trace ↔ e ∈ x.trace ∨ ∃ a, x.result = .ok a ∧ e ∈ (f a).trace := by
  have : (x >>= f).trace = (match x.result with
    | .ok a => (⟨x.trace ++ (f a).trace, (f a).result⟩ : Traced σ β)
    | .error e => ⟨x.trace, .error e⟩).trace := rfl
  rw [this]
  cases x.result <;> simp

theorem mem_mapMem {g : σ → τ} {x : Traced σ α} {c : Callback} {m : τ} :
    (c, m) ∈ (mapMem g x).trace ↔ ∃ m', (c, m') ∈ x.trace ∧ g m' = m := by
  simp [mapMem]

/-- Every call of user code satisfies `P`. -/
def All (P : Callback → σ → Prop) (x : Traced σ α) : Prop := ∀ c m, (c, m) ∈ x.trace → P c m

theorem all_pure {P : Callback → σ → Prop} {a : α} : All P (pure a : Traced σ α) := by
  intro c m h; simp at h

theorem all_lift {P : Callback → σ → Prop} {x : Res α} : All P (liftM x : Traced σ α) := by
  intro c m h; simp at h

theorem all_call {P : Callback → σ → Prop} {c : Callback} {m : σ} (h : P c m) : All P (call c m) := by
  intro c' m' h'
  simp only [trace_call, List.mem_singleton, Prod.mk.injEq] at h'
  rw [h'.1, h'.2]; exact h

theorem all_bind {P : Callback → σ → Prop} {x : Traced σ α} {f : α → Traced σ β} (hx : All P x)
    (hf : ∀ a, x.result = .ok a → All P (f a)) : All P (x >>= f) := by
  intro c m h
  rcases mem_bind.1 h with h | ⟨a, ha, h⟩
  · exact hx c m h
  · exact hf a ha c m h

theorem all_lift_bind {P : Callback → σ → Prop} {x : Res α} {f : α → Traced σ β}
    (hf : ∀ a, x = .ok a → All P (f a)) : All P ((liftM x : Traced σ α) >>= f) :=
  all_bind all_lift hf

theorem all_call_bind {P : Callback → σ → Prop} {c : Callback} {m : σ} {f : Unit → Traced σ β}
    (h : P c m) (hf : All P (f ())) : All P (call c m >>= f) :=
  all_bind (all_call h) (fun _ _ => hf)

theorem all_mapMem {P : Callback → τ → Prop} {g : σ → τ} {x : Traced σ α}
    (h : All (fun c m => P c (g m)) x) : All P (mapMem g x) := by
  intro c m hm
  obtain ⟨m', h1, rfl⟩ := mem_mapMem.1 hm
  exact h c m' h1

theorem all_mono {P Q : Callback → σ → Prop} {x : Traced σ α} (hp : ∀ c m, P c m → Q c m)
    (h : All P x) : All Q x := fun c m hm => hp c m (h c m hm)

theorem all_guard {P : Callback → σ → Prop} {c : Prop} [Decidable c] {e : Res Unit}
    {f : Unit → Traced σ β} (h : ∀ u, All P (f u)) :
    All P (if c then (liftM e : Traced σ Unit) >>= f else f ()) := by
  split
  · exact all_lift_bind fun u _ => h u
  · exact h ()

end Traced

section
variable [Augmentation K V A]

/-! ## The traced calls are the calls -/

@[simp] theorem newAugmentationT_result {σ : Type} (m : σ) (s : Store K V A) (i : NodeId) :
    (newAugmentationT m s i).result = newAugmentationForId s i := by
  cases i <;> simp [newAugmentationT, newAugmentationForId]

omit [Augmentation K V A] in
@[simp] theorem insertLeafT_result (o : Answers K) (s : Store K V A) (id : Nat) (k : K) (v : V) :
    (insertLeafT o s id k v).result = insertLeafU o s id k v := by
  unfold insertLeafT insertLeafU insertLeafAt
  simp only [Traced.result_bind, Traced.result_lift, Traced.result_call, ok_bind]
  congr 1; funext leaf; congr 1; funext slot; congr 1; funext r
  obtain ⟨leaf', u⟩ := r
  cases u <;> simp [Traced.result_bind] <;> rfl

@[simp] theorem insertAscendT_result (s : Store K V A) (stack : List StackEntry)
    (r : InsertResult K V) : (insertAscendT s stack r).result = insertAscend s stack r := by
  induction stack generalizing s r with
  | nil => rfl
  | cons e stack ih =>
    obtain ⟨id, idx, c⟩ := e
    cases r with
    | inserted => simp [insertAscendT, insertAscend, ih]
    | updated v => simp [insertAscendT, insertAscend, ih]
    | split k rc =>
      simp only [insertAscendT, insertAscend, Traced.result_bind, newAugmentationT_result,
        Traced.result_lift]
      congr 1; funext a; congr 1; funext b; congr 1; funext n; congr 1; funext n'
      split <;> simp [ih]

@[simp] theorem descendInsertT_result (o : Answers K) (s : Store K V A) (i : NodeId) (k : K) (v : V) :
    (descendInsertT o s i k v).result = descendInsertU o s i k v := by
  cases i <;> simp [descendInsertT, descendInsertU]

@[simp] theorem finishInsertT_result (t : Tree K V A) (s : Store K V A) (r : InsertResult K V) :
    (t.finishInsertT s r).result = t.finishInsert s r := by
  cases r <;> simp [Tree.finishInsertT, Tree.finishInsert]

@[simp] theorem insertT_result (o : Answers K) (t : Tree K V A) (k : K) (v : V) :
    (t.insertT o k v).result = t.insertU o k v := by
  simp [Tree.insertT, Tree.insertU]

@[simp] theorem tryRotateRightInnerT_result (pid : Nat) (s : Store K V A) (n : Inner K A) (i : Nat) :
    (tryRotateRightInnerT pid s n i).result = tryRotateRightInner s n i := by
  simp only [tryRotateRightInnerT, tryRotateRightInner, Traced.result_bind, Traced.result_lift,
    bind_assoc]
  congr 1; funext a; congr 1; funext b; congr 1; funext c; congr 1; funext d; congr 1; funext e
  split <;> simp

@[simp] theorem tryRotateLeftInnerT_result (pid : Nat) (s : Store K V A) (n : Inner K A) (i : Nat) :
    (tryRotateLeftInnerT pid s n i).result = tryRotateLeftInner s n i := by
  simp only [tryRotateLeftInnerT, tryRotateLeftInner, Traced.result_bind, Traced.result_lift,
    bind_assoc]
  congr 1; funext a; congr 1; funext b; congr 1; funext c; congr 1; funext d; congr 1; funext e
  split <;> simp

@[simp] theorem mergeInnerNodeT_result (pid : Nat) (s : Store K V A) (n : Inner K A) (i : Nat) :
    (mergeInnerNodeT pid s n i).result = mergeInnerNode s n i := by
  simp only [mergeInnerNodeT, mergeInnerNode]
  split <;> simp

@[simp] theorem handleInnerUnderSizeT_result (pid : Nat) (s : Store K V A) (st : Statistic)
    (n : Inner K A) (i : Nat) (d : K × V) :
    (handleInnerUnderSizeT pid s st n i d).result = handleInnerUnderSize s st n i d := by
  simp only [handleInnerUnderSizeT, handleInnerUnderSize, Traced.result_bind]
  congr 1
  · split <;> simp
  · funext r
    cases r with
    | some r => rfl
    | none =>
      simp only [Traced.result_bind]
      congr 1
      · split <;> simp
      · funext r
        cases r with
        | some r => rfl
        | none =>
          simp only [Traced.result_bind, Traced.result_mapMem, mergeInnerNodeT_result]
          congr 1
          funext r
          split <;> rfl

@[simp] theorem rotateRightForLeafT_result (pid : Nat) (s : Store K V A) (n : Inner K A) (i d : Nat) :
    (rotateRightForLeafT pid s n i d).result = rotateRightForLeaf s n i d := by
  simp only [rotateRightForLeafT, rotateRightForLeaf, Traced.result_bind, Traced.result_lift,
    bind_assoc]
  congr 1; funext a; congr 1; funext b; congr 1; funext c; congr 1; funext d; congr 1; funext e
  split <;> simp

@[simp] theorem rotateLeftForLeafT_result (pid : Nat) (s : Store K V A) (n : Inner K A) (i d : Nat) :
    (rotateLeftForLeafT pid s n i d).result = rotateLeftForLeaf s n i d := by
  simp only [rotateLeftForLeafT, rotateLeftForLeaf, Traced.result_bind, Traced.result_lift,
    bind_assoc]
  congr 1; funext a; congr 1; funext b; congr 1; funext c; congr 1; funext d; congr 1; funext e
  split <;> simp

@[simp] theorem mergeLeafNodeLeftT_result (pid : Nat) (s : Store K V A) (n : Inner K A) (i d : Nat) :
    (mergeLeafNodeLeftT pid s n i d).result = mergeLeafNodeLeft s n i d := by
  simp [mergeLeafNodeLeftT, mergeLeafNodeLeft]

@[simp] theorem mergeLeafNodeWithRightT_result (pid : Nat) (s : Store K V A) (n : Inner K A)
    (i d : Nat) :
    (mergeLeafNodeWithRightT pid s n i d).result = mergeLeafNodeWithRight s n i d := by
  simp [mergeLeafNodeWithRightT, mergeLeafNodeWithRight]

@[simp] theorem handleLeafUnderSizeT_result (pid : Nat) (s : Store K V A) (st : Statistic)
    (n : Inner K A) (i d : Nat) :
    (handleLeafUnderSizeT pid s st n i d).result = handleLeafUnderSize s st n i d := by
  simp only [handleLeafUnderSizeT, handleLeafUnderSize, Traced.result_bind, Traced.result_lift]
  congr 1; funext a; congr 1; funext b; congr 1; funext c
  cases c <;> simp

@[simp] theorem removeAscendT_result (s : Store K V A) (st : Statistic) (stack : List StackEntry)
    (r : DeleteResult K V) : (removeAscendT s st stack r).result = removeAscend s st stack r := by
  induction stack generalizing s st r with
  | nil => rfl
  | cons e stack ih =>
    obtain ⟨id, idx, c⟩ := e
    cases r <;> simp [removeAscendT, removeAscend, ih]

@[simp] theorem removeByRefT_result (t : Tree K V A) (e : EntryRef) :
    (t.removeByRefT e).result = t.removeByRef e := by
  simp only [Tree.removeByRefT, Tree.removeByRef, Traced.result_bind, Traced.result_lift,
    Traced.result_mapMem, removeAscendT_result, newAugmentationT_result]
  congr 1; funext a; congr 1; funext b; congr 1; funext c; congr 1; funext d; congr 1; funext e
  split <;> simp

@[simp] theorem removeT_result (o : Answers K) (t : Tree K V A) :
    (t.removeT o).result = t.removeU o := by
  simp only [Tree.removeT, Tree.removeU, Tree.removeImplU, Traced.result_bind, Traced.result_lift,
    Traced.result_call, ok_bind, bind_assoc]
  congr 1; funext r
  cases r <;> simp

omit [Augmentation K V A] in
@[simp] theorem getT_result (o : Answers K) (t : Tree K V A) : (t.getT o).result = t.getU o := by
  simp only [Tree.getT, Tree.getU, Traced.result_bind, Traced.result_lift,
    Traced.result_call, ok_bind]
  congr 1; funext r
  cases r <;> simp

omit [Augmentation K V A] in
@[simp] theorem getMutT_result (o : Answers K) (t : Tree K V A) (f : V → V) :
    (t.getMutT o f).result = t.getMutU o f := by
  simp only [Tree.getMutT, Tree.getMutU, Traced.result_bind, Traced.result_lift,
    Traced.result_call, ok_bind]
  congr 1; funext r
  cases r <;> simp

theorem ucallT_result (t : Tree K V A) (o : Answers K) (c : UCall K V) :
    (t.ucallT o c).result = t.ucall o c := by
  cases c <;> simp [Tree.ucallT, Tree.ucall]

/-! ## Comparisons run before anything is changed -/

theorem newAugmentationT_all {σ : Type} {P : Callback → σ → Prop} {m : σ} {s : Store K V A}
    {i : NodeId} (h1 : ∀ n : Inner K A, P (.ofInner n) m)
    (h2 : ∀ l : Leaf K V, P (.ofLeaf l) m) : (newAugmentationT m s i).All P := by
  cases i with
  | inner i => exact Traced.all_lift_bind fun a _ => Traced.all_call_bind (h1 _) Traced.all_pure
  | leaf i => exact Traced.all_lift_bind fun a _ => Traced.all_call_bind (h2 _) Traced.all_pure

theorem insertAscendT_kind {P : Callback → Store K V A → Prop} 
    (h1 : ∀ m (n : Inner K A), P (.ofInner n) m) (h2 : ∀ m (l : Leaf K V), P (.ofLeaf l) m)
    (s : Store K V A) (stack : List StackEntry) (r : InsertResult K V) :
    (insertAscendT s stack r).All P := by
  induction stack generalizing s r with
  | nil => exact Traced.all_pure
  | cons e stack ih =>
    obtain ⟨id, idx, c⟩ := e
    have ha := fun i => newAugmentationT_all (i := i) (s := s) (h1 s) (h2 s)
    cases r with
    | inserted =>
      exact Traced.all_bind (ha _) fun _ _ => Traced.all_lift_bind fun _ _ =>
        Traced.all_lift_bind fun _ _ => ih _ _
    | updated v =>
      exact Traced.all_bind (ha _) fun _ _ => Traced.all_lift_bind fun _ _ =>
        Traced.all_lift_bind fun _ _ => ih _ _
    | split k rc =>
      refine Traced.all_bind (ha _) fun _ _ => Traced.all_bind (ha _) fun _ _ =>
        Traced.all_lift_bind fun _ _ => Traced.all_lift_bind fun _ _ => ?_
      split
      · exact Traced.all_lift_bind fun _ _ => ih _ _
      · exact Traced.all_lift_bind fun _ _ => ih _ _

theorem finishInsertT_kind {P : Callback → Store K V A → Prop} (t : Tree K V A) (s : Store K V A)
    (r : InsertResult K V) (h1 : ∀ n : Inner K A, P (.ofInner n) s)
    (h2 : ∀ l : Leaf K V, P (.ofLeaf l) s) : (t.finishInsertT s r).All P := by
  have ha := fun i => newAugmentationT_all (i := i) (s := s) h1 h2
  cases r with
  | inserted => exact Traced.all_bind (ha _) fun _ _ => Traced.all_pure
  | updated v => exact Traced.all_bind (ha _) fun _ _ => Traced.all_pure
  | split k rc =>
    exact Traced.all_bind (ha _) fun _ _ => Traced.all_bind (ha _) fun _ _ =>
        Traced.all_lift_bind fun _ _ => Traced.all_call_bind (h1 _) Traced.all_pure

omit [Augmentation K V A] in
theorem insertLeafT_compare (o : Answers K) (s : Store K V A) (id : Nat) (k : K) (v : V) :
    (insertLeafT o s id k v).All (fun c m => c = .compare → m = s) := by
  refine Traced.all_lift_bind fun leaf _ => Traced.all_call_bind (fun _ => rfl) ?_
  refine Traced.all_lift_bind fun slot _ => Traced.all_lift_bind fun r _ => ?_
  split
  · exact Traced.all_pure
  · exact Traced.all_pure
  · exact Traced.all_lift_bind fun _ _ => Traced.all_lift_bind fun _ _ =>
      Traced.all_lift_bind fun _ _ => Traced.all_call_bind (by simp) <|
      Traced.all_lift_bind fun _ _ => Traced.all_lift_bind fun _ _ => Traced.all_pure

theorem insertT_compare (o : Answers K) (t : Tree K V A) (k : K) (v : V) :
    (t.insertT o k v).All (fun c m => c = .compare → m = t) := by
  refine Traced.all_mapMem (Traced.all_mono (P := fun c m => c = .compare → m = t.store) ?_ ?_)
  · intro c m h hc
    rw [h hc]
  · refine Traced.all_bind ?_ fun r _ => finishInsertT_kind _ _ _ (by simp) (by simp)
    cases t.root with
    | leaf i => exact insertLeafT_compare o _ _ k v
    | inner i =>
      exact Traced.all_call_bind (fun _ => rfl) <| Traced.all_lift_bind fun _ _ =>
        Traced.all_bind (insertLeafT_compare o _ _ k v) fun _ _ =>
          insertAscendT_kind (by simp) (by simp) _ _ _

theorem handleInnerUnderSizeT_kind (pid : Nat) (s : Store K V A) (st : Statistic)
    (n : Inner K A) (i : Nat) (d : K × V) :
    (handleInnerUnderSizeT pid s st n i d).All (fun c _ => c.isFromInner) := by
  have hR : ∀ j, (tryRotateRightInnerT pid s n j).All (fun c _ => c.isFromInner) := by
    intro j
    refine Traced.all_lift_bind fun _ _ => Traced.all_lift_bind fun _ _ =>
      Traced.all_lift_bind fun _ _ => ?_
    split
    · exact Traced.all_lift_bind fun _ _ => Traced.all_call_bind rfl <|
        Traced.all_lift_bind fun _ _ => Traced.all_lift_bind fun _ _ =>
        Traced.all_lift_bind fun _ _ => Traced.all_call_bind rfl <|
        Traced.all_lift_bind fun _ _ => Traced.all_lift_bind fun _ _ => Traced.all_pure
    · exact Traced.all_pure
  have hL : ∀ j, (tryRotateLeftInnerT pid s n j).All (fun c _ => c.isFromInner) := by
    intro j
    refine Traced.all_lift_bind fun _ _ => Traced.all_lift_bind fun _ _ =>
      Traced.all_lift_bind fun _ _ => ?_
    split
    · exact Traced.all_lift_bind fun _ _ => Traced.all_call_bind rfl <|
        Traced.all_lift_bind fun _ _ => Traced.all_lift_bind fun _ _ =>
        Traced.all_lift_bind fun _ _ => Traced.all_call_bind rfl <|
        Traced.all_lift_bind fun _ _ => Traced.all_lift_bind fun _ _ => Traced.all_pure
    · exact Traced.all_pure
  have hM : ∀ j, (mergeInnerNodeT pid s n j).All (fun c _ => c.isFromInner) := by
    intro j
    exact Traced.all_guard fun _ => Traced.all_lift_bind fun _ _ => Traced.all_lift_bind fun _ _ =>
        Traced.all_lift_bind fun _ _ => Traced.all_lift_bind fun _ _ =>
        Traced.all_lift_bind fun _ _ => Traced.all_lift_bind fun _ _ =>
        Traced.all_call_bind rfl <| Traced.all_lift_bind fun _ _ => Traced.all_pure
  refine Traced.all_bind ?_ fun r _ => ?_
  · split
    · exact Traced.all_mapMem (hR _)
    · exact Traced.all_pure
  · cases r with
    | some r => exact Traced.all_pure
    | none =>
      refine Traced.all_bind ?_ fun r _ => ?_
      · split
        · exact Traced.all_mapMem (hL _)
        · exact Traced.all_pure
      · cases r with
        | some r => exact Traced.all_pure
        | none =>
          refine Traced.all_bind (Traced.all_mapMem (hM _)) fun r _ => ?_
          obtain ⟨ok, s', n'⟩ := r
          cases ok <;> exact Traced.all_pure

theorem handleLeafUnderSizeT_kind (pid : Nat) (s : Store K V A) (st : Statistic)
    (n : Inner K A) (i d : Nat) :
    (handleLeafUnderSizeT pid s st n i d).All (fun c _ => c ≠ .compare) := by
  have hR : ∀ j, (rotateRightForLeafT pid s n j d).All (fun c _ => c ≠ .compare) := by
    intro j
    refine Traced.all_lift_bind fun _ _ => Traced.all_lift_bind fun _ _ =>
      Traced.all_lift_bind fun _ _ => ?_
    exact Traced.all_guard fun _ => Traced.all_lift_bind fun _ _ => Traced.all_call_bind (by simp) <|
        Traced.all_lift_bind fun _ _ => Traced.all_call_bind (by simp) <|
        Traced.all_lift_bind fun _ _ => Traced.all_lift_bind fun _ _ =>
        Traced.all_call_bind (by simp) <|
        Traced.all_lift_bind fun _ _ => Traced.all_lift_bind fun _ _ => Traced.all_pure
  have hL : ∀ j, (rotateLeftForLeafT pid s n j d).All (fun c _ => c ≠ .compare) := by
    intro j
    exact Traced.all_lift_bind fun _ _ => Traced.all_lift_bind fun _ _ =>
        Traced.all_lift_bind fun _ _ => Traced.all_guard fun _ =>
        Traced.all_lift_bind fun _ _ => Traced.all_call_bind (by simp) <|
        Traced.all_lift_bind fun _ _ => Traced.all_lift_bind fun _ _ =>
        Traced.all_call_bind (by simp) <|
        Traced.all_lift_bind fun _ _ => Traced.all_lift_bind fun _ _ =>
        Traced.all_call_bind (by simp) <|
        Traced.all_lift_bind fun _ _ => Traced.all_lift_bind fun _ _ => Traced.all_pure
  have hML : ∀ j, (mergeLeafNodeLeftT pid s n j d).All (fun c _ => c ≠ .compare) := by
    intro j
    exact Traced.all_lift_bind fun _ _ => Traced.all_lift_bind fun _ _ =>
        Traced.all_lift_bind fun _ _ => Traced.all_lift_bind fun _ _ =>
        Traced.all_lift_bind fun _ _ => Traced.all_call_bind (by simp) <|
        Traced.all_lift_bind fun _ _ => Traced.all_lift_bind fun _ _ =>
        Traced.all_lift_bind fun _ _ => Traced.all_pure
  have hMR : ∀ j, (mergeLeafNodeWithRightT pid s n j d).All (fun c _ => c ≠ .compare) := by
    intro j
    exact Traced.all_lift_bind fun _ _ => Traced.all_lift_bind fun _ _ =>
        Traced.all_lift_bind fun _ _ => Traced.all_lift_bind fun _ _ =>
        Traced.all_lift_bind fun _ _ => Traced.all_lift_bind fun _ _ =>
        Traced.all_call_bind (by simp) <|
        Traced.all_lift_bind fun _ _ => Traced.all_lift_bind fun _ _ =>
        Traced.all_lift_bind fun _ _ => Traced.all_pure
  refine Traced.all_lift_bind fun _ _ => Traced.all_lift_bind fun _ _ =>
    Traced.all_lift_bind fun fix _ => ?_
  cases fix with
  | rotateRight => exact Traced.all_bind (Traced.all_mapMem (hR _)) fun _ _ => Traced.all_pure
  | rotateLeft => exact Traced.all_bind (Traced.all_mapMem (hL _)) fun _ _ => Traced.all_pure
  | mergeLeft => exact Traced.all_bind (Traced.all_mapMem (hML _)) fun _ _ => Traced.all_pure
  | mergeRight => exact Traced.all_bind (Traced.all_mapMem (hMR _)) fun _ _ => Traced.all_pure

theorem removeAscendT_kind (s : Store K V A) (st : Statistic) (stack : List StackEntry)
    (r : DeleteResult K V) : (removeAscendT s st stack r).All (fun c _ => c ≠ .compare) := by
  induction stack generalizing s st r with
  | nil => exact Traced.all_pure
  | cons e stack ih =>
    obtain ⟨id, idx, c⟩ := e
    cases r with
    | done kv =>
      exact Traced.all_bind (newAugmentationT_all (by simp) (by simp)) fun _ _ =>
        Traced.all_lift_bind fun _ _ => Traced.all_lift_bind fun _ _ => ih _ _ _
    | innerUnderSize kv =>
      exact Traced.all_lift_bind fun _ _ =>
        Traced.all_bind (Traced.all_mono (by rintro c m h rfl; cases h)
          (handleInnerUnderSizeT_kind _ _ _ _ _ _)) fun _ _ => ih _ _ _
    | leafUnderSize kv =>
      exact Traced.all_lift_bind fun _ _ =>
        Traced.all_bind (handleLeafUnderSizeT_kind _ _ _ _ _ _) fun _ _ => ih _ _ _

theorem removeByRefT_kind (t : Tree K V A) (e : EntryRef) :
    (t.removeByRefT e).All (fun c _ => c ≠ .compare) := by
  exact Traced.all_lift_bind fun _ _ => Traced.all_lift_bind fun _ _ =>
    Traced.all_bind (Traced.all_mapMem (removeAscendT_kind _ _ _ _)) fun _ _ =>
    Traced.all_lift_bind fun _ _ =>
    Traced.all_bind (newAugmentationT_all (by simp) (by simp)) fun _ _ =>
    Traced.all_guard fun _ => Traced.all_pure

theorem removeT_compare (o : Answers K) (t : Tree K V A) :
    (t.removeT o).All (fun c m => c = .compare → m = t) := by
  refine Traced.all_call_bind (fun _ => rfl) <| Traced.all_lift_bind fun r _ => ?_
  cases r with
  | none => exact Traced.all_pure
  | some e =>
    exact Traced.all_bind (Traced.all_mono (fun c m h hc => absurd hc h) (removeByRefT_kind _ _))
      fun _ _ => Traced.all_pure

omit [Augmentation K V A] in
/-- The memory of a comparison in `get`: the map itself or the map with another cached leaf. -/
theorem getT_mem {μ : Nat} {t : Tree K V A} {l : List (K × V)} (h : UInvM μ t l) (o : Answers K) (f : V → V) :
    (t.getT o).All (fun c m => c = .compare ∧ (m = t ∨ ∃ r, t.getU o = .ok (r, m))) ∧
    (t.getMutT o f).All (fun c m => c = .compare ∧ (m = t ∨ ∃ r, t.getU o = .ok (r, m))) := by
  obtain ⟨r, t', hg, -, -⟩ := getU_ok h o
  constructor
  · refine Traced.all_call_bind ⟨rfl, .inl rfl⟩ <| Traced.all_lift_bind fun c hc => ?_
    cases c with
    | some i => exact Traced.all_lift_bind fun _ _ => Traced.all_pure
    | none =>
      refine Traced.all_lift_bind fun i hi => Traced.all_call_bind ⟨rfl, .inr ⟨r, ?_⟩⟩ <|
        Traced.all_lift_bind fun _ _ => Traced.all_pure
      rw [hg]
      simp only [Tree.getU, hc, hi, ok_bind] at hg
      cases hv : findInLeafU o (t.store.cacheLeaf i) i with
      | error e => rw [hv] at hg; cases hg
      | ok v => rw [hv] at hg; cases hg; rfl
  · refine Traced.all_call_bind ⟨rfl, .inl rfl⟩ <| Traced.all_lift_bind fun c hc => ?_
    cases c with
    | some i => exact Traced.all_lift_bind fun _ _ => Traced.all_pure
    | none =>
      refine Traced.all_lift_bind fun i hi => Traced.all_call_bind ⟨rfl, .inr ⟨r, ?_⟩⟩ <|
        Traced.all_lift_bind fun _ _ => Traced.all_pure
      rw [hg]
      simp only [Tree.getU, hc, hi, ok_bind] at hg
      cases hv : findInLeafU o (t.store.cacheLeaf i) i with
      | error e => rw [hv] at hg; cases hg
      | ok v => rw [hv] at hg; cases hg; rfl

/-- Every comparison runs on the map before the call, or on the map as a lookup leaves it; so does all
user code called by anything but an insertion or a removal. -/
theorem ucallT_compare {μ : Nat} {t : Tree K V A} {l : List (K × V)} (h : UInvM μ t l) (o : Answers K)
    (c : UCall K V) :
    (t.ucallT o c).All (fun cb m => (cb = .compare ∨ (∀ k v, c ≠ .insert k v) ∧ c ≠ .remove) →
      m = t ∨ ∃ r, t.ucall o .get = .ok (r, m)) := by
  have hget : ∀ m r, t.getU o = .ok (r, m) → ∃ r, t.ucall o .get = .ok (r, m) := by
    intro m r hr
    exact ⟨.value r, by simp only [Tree.ucall, hr, ok_bind, pure_ok]⟩
  cases c with
  | insert k v =>
    exact Traced.all_bind (Traced.all_mono (fun c m h hc => .inl (h (hc.resolve_right fun h => h.1 k v rfl)))
      (insertT_compare o t k v)) fun _ _ => Traced.all_pure
  | remove =>
    exact Traced.all_bind (Traced.all_mono (fun c m h hc => .inl (h (hc.resolve_right fun h => h.2 rfl)))
      (removeT_compare o t)) fun _ _ => Traced.all_pure
  | get =>
    exact Traced.all_bind (Traced.all_mono (fun c m h _ => h.2.imp id fun ⟨r, hr⟩ => hget m r hr)
      (getT_mem h o id).1) fun _ _ => Traced.all_pure
  | getMut f =>
    exact Traced.all_bind (Traced.all_mono (fun c m h _ => h.2.imp id fun ⟨r, hr⟩ => hget m r hr)
      (getT_mem h o f).2) fun _ _ => Traced.all_pure
  | cursorNext c =>
    exact Traced.all_call_bind (fun _ => .inl rfl) (Traced.all_call_bind (fun _ => .inl rfl) Traced.all_lift)
  | cursorPrev c =>
    exact Traced.all_call_bind (fun _ => .inl rfl) (Traced.all_call_bind (fun _ => .inl rfl) Traced.all_lift)
  | cursorValue c => exact Traced.all_call_bind (fun _ => .inl rfl) Traced.all_lift
  | getCursor k => exact Traced.all_call_bind (fun _ => .inl rfl) Traced.all_lift
  | first => exact Traced.all_lift
  | last => exact Traced.all_lift
  | len => exact Traced.all_lift
  | isEmpty => exact Traced.all_lift
  | iter n => exact Traced.all_lift
  | iterBack n => exact Traced.all_lift
  | clear => exact Traced.all_lift

end
end Bpt
