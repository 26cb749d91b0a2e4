import Verif.Proofs.MapKeys

/-! # Renaming keys: the calls -/

namespace Bpt
variable {K L V A α β γ δ : Type} {f : K → L}

/-- The answers `o'` about renamed keys are the answers `o`. -/
structure Agree (f : K → L) (o : Answers K) (o' : Answers L) : Prop where
  early : o'.early = o.early
  inner : ∀ d j x, o'.inner d j (f x) = o.inner d j x
  leaf : ∀ j x, o'.leaf j (f x) = o.leaf j x
  lt : ∀ i x, o'.lt i (f x) = o.lt i x
  eq : ∀ x, o'.eq (f x) = o.eq x

section Search
variable {g : Nat → K → Ordering} {g' : Nat → L → Ordering}

theorem halvingLoopU_map (h : ∀ j x, g' j (f x) = g j x) (ks : List K) (n j base size : Nat) :
    Maps (fun a => a) (halvingLoopU g ks n j base size)
      (halvingLoopU g' (ks.map f) n j base size) := by
  induction n generalizing j base size with
  | zero => rfl
  | succ n ih =>
    rw [halvingLoopU, halvingLoopU]
    refine Maps.ite Iff.rfl ?_ (Maps.pure rfl)
    refine Maps.bind (readAt_map f _ _) fun x => ?_
    rw [h]
    exact ih _ _ _

theorem halvingSearchU_map (h : ∀ j x, g' j (f x) = g j x) (ks : List K) :
    Maps (fun a => a) (halvingSearchU g ks) (halvingSearchU g' (ks.map f)) := by
  unfold halvingSearchU
  rw [List.length_map]
  refine Maps.ite Iff.rfl (Maps.pure rfl) ?_
  refine Maps.bind (halvingLoopU_map h _ _ _ _ _) fun r => ?_
  refine Maps.bind (readAt_map f _ _) fun x => ?_
  rw [h]
  cases g r.1 x <;> exact Maps.pure rfl

theorem earlyLoopU_map (h : ∀ j x, g' j (f x) = g j x) (ks : List K) (n j left right : Nat) :
    Maps (fun a => a) (earlyLoopU g ks n j left right)
      (earlyLoopU g' (ks.map f) n j left right) := by
  induction n generalizing j left right with
  | zero => rfl
  | succ n ih =>
    rw [earlyLoopU, earlyLoopU]
    refine Maps.ite Iff.rfl ?_ (Maps.pure rfl)
    refine Maps.bind (readAt_map f _ _) fun x => ?_
    rw [h]
    cases g j x
    · exact ih _ _ _
    · exact Maps.pure rfl
    · exact ih _ _ _

theorem searchU_map (h : ∀ j x, g' j (f x) = g j x) (early : Bool) (ks : List K) :
    Maps (fun a => a) (searchU early g ks) (searchU early g' (ks.map f)) := by
  unfold searchU
  rw [List.length_map]
  exact Maps.ite Iff.rfl (earlyLoopU_map h _ _ _ _ _) (halvingSearchU_map h _)

end Search

variable {o : Answers K} {o' : Answers L}

theorem Inner.locateChildU_map (h : Agree f o o') (d : Nat) (n : Inner K A) :
    Maps (fun a => a) (n.locateChildU o d) ((n.mapK f).locateChildU o' d) := by
  unfold Inner.locateChildU
  rw [h.early]
  refine Maps.bind (searchU_map (h.inner d) _ _) fun r => ?_
  cases r <;> exact Maps.same

theorem Leaf.locateSlotU_map (h : Agree f o o') (l : Leaf K V) :
    Maps (fun a => a) (l.locateSlotU o) ((l.mapK f).locateSlotU o') := by
  unfold Leaf.locateSlotU
  rw [h.early, Leaf.mapK_keys]
  exact searchU_map h.leaf _ _

theorem Leaf.locateSlotWithValueU_map (h : Agree f o o') (l : Leaf K V) :
    Maps (fun a => a) (l.locateSlotWithValueU o) ((l.mapK f).locateSlotWithValueU o') := by
  unfold Leaf.locateSlotWithValueU
  refine Maps.bind (Leaf.locateSlotU_map h l) fun r => ?_
  cases r with
  | found i => exact Maps.bind (Leaf.dataAt_map l i) fun kv => Maps.pure rfl
  | vacant i => exact Maps.pure rfl

theorem Leaf.inRangeU_map (h : Agree f o o') (i : Nat) (l : Leaf K V) :
    Maps (fun a => a) (l.inRangeU o i) ((l.mapK f).inRangeU o' i) := by
  unfold Leaf.inRangeU
  rw [Leaf.mapK_prev, Leaf.mapK_next, Leaf.mapK_len]
  refine Maps.bind (m := fun a => a) ?_ fun b => ?_
  · cases l.prev with
    | none => exact Maps.pure rfl
    | some _ => exact Maps.bind (Leaf.dataAt_map l 0) fun kv => Maps.pure (h.lt _ _)
  · refine Maps.ite Iff.rfl (Maps.pure rfl) ?_
    refine Maps.bind (m := fun a => a) ?_ fun b => Maps.pure rfl
    cases l.next with
    | none => exact Maps.pure rfl
    | some _ =>
      refine Maps.ite Iff.rfl Maps.error ?_
      exact Maps.bind (Leaf.dataAt_map l _) fun kv => Maps.pure (h.lt _ _)

theorem Store.tryCacheU_map (h : Agree f o o') (s : Store K V A) :
    Maps (fun a => a) (s.tryCacheU o) ((s.mapK f).tryCacheU o') := by
  unfold Store.tryCacheU
  rw [show (s.mapK f).cached = s.cached from rfl]
  cases s.cached with
  | none => exact Maps.pure rfl
  | some id =>
    dsimp only
    rw [Store.tryGetLeaf_map]
    cases s.tryGetLeaf id with
    | none => exact Maps.pure rfl
    | some l => exact Maps.bind (Leaf.inRangeU_map h 0 l) fun b => Maps.pure rfl

/-! ## Insertion -/

/-- The outcome of the descent of an insertion, renamed. -/
def InsertResult.mapK (f : K → L) : InsertResult K V → InsertResult L V
  | .updated v => .updated v
  | .inserted => .inserted
  | .split k c => .split (f k) c

theorem insertLeafAt_map (s : Store K V A) (id : Nat) (l : Leaf K V) (slot : Slot) (k : K) (v : V) :
    Maps (fun p => (p.1.mapK f, p.2.mapK f)) (insertLeafAt s id l slot k v)
      (insertLeafAt (s.mapK f) id (l.mapK f) slot (f k) v) := by
  refine Maps.bind (Leaf.upsertAt_map l slot k v) fun r => ?_
  obtain ⟨l', r⟩ := r
  cases r with
  | inserted => exact Maps.pure (by simp [InsertResult.mapK])
  | updated v0 => exact Maps.pure (by simp [InsertResult.mapK])
  | isFull i k v =>
    simp only [Leaf.UpsertResult.mapK, Store.reserveLeaf_map]
    refine Maps.bind (Store.getLeaf_map _ _) fun l => ?_
    refine Maps.bind (Leaf.splitNewLeaf_map l i (k, v) _ _) fun p => ?_
    obtain ⟨l, r⟩ := p
    simp only [Store.setLeaf_map]
    refine Maps.bind (Leaf.dataAt_map r 0) fun kv => ?_
    refine Maps.bind (m := Store.mapK f) ?_ fun s => ?_
    · rw [Leaf.mapK_next]
      cases r.next with
      | none => exact Maps.pure rfl
      | some nx =>
        exact Maps.bind (Store.getLeaf_map _ _) fun nl => Maps.pure (by
          rw [Leaf.setPrev_map, Store.setLeaf_map])
    · refine Maps.bind (Store.assignLeaf_map _ _ _) fun s => ?_
      exact Maps.pure (by simp [InsertResult.mapK, item])

theorem insertLeafU_map (h : Agree f o o') (s : Store K V A) (id : Nat) (k : K) (v : V) :
    Maps (fun p => (p.1.mapK f, p.2.mapK f)) (insertLeafU o s id k v)
      (insertLeafU o' (s.mapK f) id (f k) v) := by
  refine Maps.bind (Store.getLeaf_map s id) fun l => ?_
  refine Maps.bind (Leaf.locateSlotU_map h l) fun r => ?_
  exact insertLeafAt_map _ _ _ _ _ _

theorem stackStepU_map (h : Agree f o o') (st : List StackEntry) (i : Nat) (n : Inner K A) :
    Maps (fun p => (p.1, p.2)) (stackStepU o st i n) (stackStepU o' st i (n.mapK f)) := by
  refine Maps.bind (Inner.locateChildU_map h _ n) fun r => ?_
  exact Maps.bind Maps.same fun st => Maps.pure rfl

section Aug
variable [Augmentation K V A]

theorem insertAscend_map (s : Store K V A) (stack : List StackEntry) (r : InsertResult K V) :
    Maps (fun p => (p.1.mapK f, p.2.mapK f)) (insertAscend s stack r)
      (insertAscend (s.mapK f) stack (r.mapK f)) := by
  induction stack generalizing s r with
  | nil => cases r <;> exact Maps.pure rfl
  | cons e stack ih =>
    obtain ⟨id, ci, c⟩ := e
    cases r with
    | split k rc =>
      rw [InsertResult.mapK, insertAscend, insertAscend]
      refine Maps.bind (newAugmentation_map s rc) fun ra => ?_
      refine Maps.bind (newAugmentation_map s c) fun ca => ?_
      refine Maps.bind (Store.getInner_map s id) fun n => ?_
      refine Maps.bind (Inner.setAugmentation_map n ci ca) fun n => ?_
      refine Maps.ite (by simp) ?_ ?_
      · refine Maps.bind (Inner.insertAt_map _ _ _ _ _) fun n => ?_
        rw [Store.setInner_map]
        exact ih _ .inserted
      · refine Maps.bind (Inner.split_map _ _ _ _ _) fun p => ?_
        obtain ⟨k, n, n'⟩ := p
        simp only [Store.setInner_map, Store.addInner_map]
        exact ih _ (.split _ _)
    | inserted =>
      rw [InsertResult.mapK, insertAscend, insertAscend]
      refine Maps.bind (newAugmentation_map s c) fun ca => ?_
      refine Maps.bind (Store.getInner_map s id) fun n => ?_
      refine Maps.bind (Inner.setAugmentation_map n ci ca) fun n => ?_
      rw [Store.setInner_map]
      exact ih _ .inserted
    | updated v =>
      rw [InsertResult.mapK, insertAscend, insertAscend]
      refine Maps.bind (newAugmentation_map s c) fun ca => ?_
      refine Maps.bind (Store.getInner_map s id) fun n => ?_
      refine Maps.bind (Inner.setAugmentation_map n ci ca) fun n => ?_
      rw [Store.setInner_map]
      exact ih _ (.updated v)

theorem descendInsertU_map (h : Agree f o o') (s : Store K V A) (c : NodeId) (k : K) (v : V) :
    Maps (fun p => (p.1.mapK f, p.2.mapK f)) (descendInsertU o s c k v)
      (descendInsertU o' (s.mapK f) c (f k) v) := by
  cases c with
  | leaf id => exact insertLeafU_map h _ _ _ _
  | inner id =>
    refine Maps.bind (descendLeaf_map s (fun st => st) (stackStepU_map h) [] _) fun r => ?_
    refine Maps.bind (insertLeafU_map h _ _ _ _) fun r => ?_
    exact insertAscend_map _ _ _

theorem Tree.finishInsert_map (t : Tree K V A) (s : Store K V A) (r : InsertResult K V) :
    Maps (fun p => (p.1, p.2.mapK f)) (t.finishInsert s r)
      ((t.mapK f).finishInsert (s.mapK f) (r.mapK f)) := by
  cases r with
  | inserted => exact Maps.bind (newAugmentation_map s t.root) fun a => Maps.pure rfl
  | updated v => exact Maps.bind (newAugmentation_map s t.root) fun a => Maps.pure rfl
  | split k c =>
    refine Maps.bind (newAugmentation_map s t.root) fun a => ?_
    refine Maps.bind (newAugmentation_map s c) fun b => ?_
    refine Maps.bind (Inner.newFromIter_map [k] [t.root, c] [a, b]) fun n => ?_
    simp only [Store.addInner_map]
    exact Maps.pure rfl

theorem Tree.insertU_map (h : Agree f o o') (t : Tree K V A) (k : K) (v : V) :
    Maps (fun p => (p.1, p.2.mapK f)) (t.insertU o k v) ((t.mapK f).insertU o' (f k) v) := by
  refine Maps.bind (descendInsertU_map h _ _ _ _) fun r => ?_
  exact Tree.finishInsert_map _ _ _

/-! ## Removal -/

/-- The outcome of a fix-up, renamed. -/
def DeleteResult.mapK (f : K → L) : DeleteResult K V → DeleteResult L V
  | .done kv => .done (item f kv)
  | .innerUnderSize kv => .innerUnderSize (item f kv)
  | .leafUnderSize i => .leafUnderSize i

theorem innerAug_unit (n : Inner L Unit) : innerAug V n = () := rfl

theorem tryRotateRightInner_map (s : Store K V A) (n : Inner K A) (i : Nat) :
    Maps (Option.map fun p => (p.1.mapK f, p.2.mapK f)) (tryRotateRightInner s n i)
      (tryRotateRightInner (s.mapK f) (n.mapK f) i) := by
  unfold tryRotateRightInner
  refine Maps.bind (Inner.childId_map n _) fun rc => ?_
  refine Maps.bind Maps.same fun rid => ?_
  refine Maps.bind (Inner.childId_map n _) fun lc => ?_
  refine Maps.bind Maps.same fun lid => ?_
  refine Maps.bind (Store.getInner_map s _) fun p => ?_
  refine Maps.ite (by simp) ?_ (Maps.pure rfl)
  refine Maps.bind (Inner.pop_map p) fun x => ?_
  simp only [Store.setInner_map]
  refine Maps.bind (Inner.setKey_map _ _ _) fun y => ?_
  refine Maps.bind (Store.getInner_map _ _) fun r => ?_
  refine Maps.bind (Inner.pushFront_map _ _ _ _) fun r => ?_
  refine Maps.bind (Inner.setAugmentation_map _ _ _) fun n => ?_
  refine Maps.bind (Inner.setAugmentation_map _ _ _) fun n => ?_
  exact Maps.pure (by simp)

theorem tryRotateLeftInner_map (s : Store K V A) (n : Inner K A) (i : Nat) :
    Maps (Option.map fun p => (p.1.mapK f, p.2.mapK f)) (tryRotateLeftInner s n i)
      (tryRotateLeftInner (s.mapK f) (n.mapK f) i) := by
  unfold tryRotateLeftInner
  refine Maps.bind (Inner.childId_map n _) fun rc => ?_
  refine Maps.bind Maps.same fun rid => ?_
  refine Maps.bind (Inner.childId_map n _) fun lc => ?_
  refine Maps.bind Maps.same fun lid => ?_
  refine Maps.bind (Store.getInner_map s _) fun p => ?_
  refine Maps.ite (by simp) ?_ (Maps.pure rfl)
  refine Maps.bind (Inner.popFront_map p) fun x => ?_
  simp only [Store.setInner_map]
  refine Maps.bind (Inner.setKey_map _ _ _) fun y => ?_
  refine Maps.bind (Store.getInner_map _ _) fun r => ?_
  refine Maps.bind (Inner.push_map _ _ _ _) fun r => ?_
  refine Maps.bind (Inner.setAugmentation_map _ _ _) fun n => ?_
  refine Maps.bind (Inner.setAugmentation_map _ _ _) fun n => ?_
  exact Maps.pure (by simp)

theorem mergeInnerNode_map (s : Store K V A) (n : Inner K A) (i : Nat) :
    Maps (fun p => (p.1, p.2.1.mapK f, p.2.2.mapK f)) (mergeInnerNode s n i)
      (mergeInnerNode (s.mapK f) (n.mapK f) i) := by
  unfold mergeInnerNode
  refine Maps.ite (by simp) Maps.error ?_
  refine Maps.bind (Inner.childId_map n _) fun lc => ?_
  refine Maps.bind Maps.same fun lid => ?_
  refine Maps.bind (Inner.childId_map n _) fun rc => ?_
  refine Maps.bind Maps.same fun rid => ?_
  refine Maps.bind (Inner.removeSlotWithRight_map n i) fun x => ?_
  refine Maps.bind (Store.takeInner_map s _) fun y => ?_
  refine Maps.bind (Store.getInner_map _ _) fun l => ?_
  refine Maps.bind (Inner.mergeNext_map _ _ _) fun l => ?_
  refine Maps.bind (Inner.setAugmentation_map _ _ _) fun n => ?_
  exact Maps.pure (by simp)

theorem handleInnerUnderSize_map (s : Store K V A) (st : Statistic) (n : Inner K A) (i : Nat)
    (d : K × V) :
    Maps (fun p => (p.1.mapK f, p.2.1.mapK f, p.2.2.1, p.2.2.2.mapK f))
      (handleInnerUnderSize s st n i d)
      (handleInnerUnderSize (s.mapK f) st (n.mapK f) i (item f d)) := by
  unfold handleInnerUnderSize
  refine Maps.bind (m := Option.map fun p => (p.1.mapK f, p.2.mapK f))
    (Maps.ite Iff.rfl (tryRotateRightInner_map _ _ _) (Maps.pure rfl)) fun r => ?_
  cases r with
  | some p => exact Maps.pure rfl
  | none =>
  refine Maps.bind (m := Option.map fun p => (p.1.mapK f, p.2.mapK f))
    (Maps.ite (by simp) (tryRotateLeftInner_map _ _ _) (Maps.pure rfl)) fun r => ?_
  cases r with
  | some p => exact Maps.pure rfl
  | none =>
  refine Maps.bind (mergeInnerNode_map _ _ _) fun r => ?_
  refine Maps.ite Iff.rfl (Maps.pure rfl) (Maps.pure rfl)

theorem rotateRightForLeaf_map (s : Store K V A) (n : Inner K A) (i d : Nat) :
    Maps (fun p => (item f p.1, p.2.1.mapK f, p.2.2.mapK f)) (rotateRightForLeaf s n i d)
      (rotateRightForLeaf (s.mapK f) (n.mapK f) i d) := by
  unfold rotateRightForLeaf
  refine Maps.bind (Inner.childId_map n _) fun lc => ?_
  refine Maps.bind Maps.same fun lid => ?_
  refine Maps.bind (Inner.childId_map n _) fun rc => ?_
  refine Maps.bind Maps.same fun rid => ?_
  refine Maps.bind (Store.getLeaf_map s _) fun l => ?_
  refine Maps.ite (by simp) Maps.error ?_
  refine Maps.bind (Leaf.pop_map l) fun x => ?_
  simp only [Store.setLeaf_map]
  refine Maps.bind (Inner.setAugmentation_map _ _ _) fun n => ?_
  refine Maps.bind (Store.getLeaf_map _ _) fun r => ?_
  refine Maps.bind (Leaf.deleteWithPushFront_map _ _ _) fun y => ?_
  refine Maps.bind (Inner.setAugmentation_map _ _ _) fun n => ?_
  refine Maps.bind (Inner.setKey_map _ _ _) fun n => ?_
  exact Maps.pure (by simp)

theorem rotateLeftForLeaf_map (s : Store K V A) (n : Inner K A) (i d : Nat) :
    Maps (fun p => (item f p.1, p.2.1.mapK f, p.2.2.mapK f)) (rotateLeftForLeaf s n i d)
      (rotateLeftForLeaf (s.mapK f) (n.mapK f) i d) := by
  unfold rotateLeftForLeaf
  refine Maps.bind (Inner.childId_map n _) fun lc => ?_
  refine Maps.bind Maps.same fun lid => ?_
  refine Maps.bind (Inner.childId_map n _) fun rc => ?_
  refine Maps.bind Maps.same fun rid => ?_
  refine Maps.bind (Store.getLeaf_map s _) fun l => ?_
  refine Maps.ite (by simp) Maps.error ?_
  refine Maps.bind (Leaf.popFront_map l) fun x => ?_
  simp only [Store.setLeaf_map]
  refine Maps.bind (Inner.setAugmentation_map _ _ _) fun n => ?_
  refine Maps.bind (Leaf.dataAt_map _ _) fun kv => ?_
  refine Maps.bind (Store.getLeaf_map _ _) fun r => ?_
  refine Maps.bind (Leaf.deleteWithPush_map _ _ _) fun y => ?_
  refine Maps.bind (Inner.setAugmentation_map _ _ _) fun n => ?_
  refine Maps.bind (Inner.setKey_map _ _ _) fun n => ?_
  exact Maps.pure (by simp)

omit [Augmentation K V A] in
theorem relinkNext_map (s : Store K V A) (l : Leaf K V) (i : Nat) :
    Maps (Store.mapK f) (relinkNext s l i) (relinkNext (s.mapK f) (l.mapK f) i) := by
  unfold relinkNext
  rw [Leaf.mapK_next]
  cases l.next with
  | none => exact Maps.pure rfl
  | some nx =>
    exact Maps.bind (Store.getLeaf_map _ _) fun nl => Maps.pure (by
      rw [Leaf.setPrev_map, Store.setLeaf_map])

theorem mergeLeafNodeLeft_map (s : Store K V A) (n : Inner K A) (i d : Nat) :
    Maps (fun p => (p.1.mapK f, p.2.1.mapK f, p.2.2.mapK f)) (mergeLeafNodeLeft s n i d)
      (mergeLeafNodeLeft (s.mapK f) (n.mapK f) i d) := by
  unfold mergeLeafNodeLeft
  refine Maps.bind (Inner.childId_map n _) fun lc => ?_
  refine Maps.bind Maps.same fun lid => ?_
  refine Maps.bind (Inner.childId_map n _) fun rc => ?_
  refine Maps.bind Maps.same fun rid => ?_
  refine Maps.bind (Store.takeLeaf_map s _) fun x => ?_
  refine Maps.bind (Store.getLeaf_map _ _) fun l => ?_
  refine Maps.bind (Leaf.mergeRightDeleteFirst_map _ _ _) fun y => ?_
  simp only [Store.setLeaf_map]
  refine Maps.bind (Inner.setAugmentation_map _ _ _) fun n => ?_
  refine Maps.bind (relinkNext_map _ _ _) fun s => ?_
  refine Maps.bind (Inner.removeSlotWithRight_map _ _) fun z => ?_
  refine Maps.pure ?_
  rcases z with ⟨_ | _, _, _⟩ <;> rfl

theorem mergeLeafNodeWithRight_map (s : Store K V A) (n : Inner K A) (i d : Nat) :
    Maps (fun p => (p.1.mapK f, p.2.1.mapK f, p.2.2.mapK f)) (mergeLeafNodeWithRight s n i d)
      (mergeLeafNodeWithRight (s.mapK f) (n.mapK f) i d) := by
  unfold mergeLeafNodeWithRight
  refine Maps.bind (Inner.childId_map n _) fun lc => ?_
  refine Maps.bind Maps.same fun lid => ?_
  refine Maps.bind (Inner.childId_map n _) fun rc => ?_
  refine Maps.bind Maps.same fun rid => ?_
  refine Maps.bind (Store.takeLeaf_map s _) fun x => ?_
  refine Maps.bind (Store.getLeaf_map _ _) fun l => ?_
  refine Maps.bind (Leaf.deleteAt_map _ _) fun y => ?_
  refine Maps.bind (Leaf.mergeRight_map _ _) fun l => ?_
  simp only [Store.setLeaf_map]
  refine Maps.bind (Inner.setAugmentation_map _ _ _) fun n => ?_
  refine Maps.bind (relinkNext_map _ _ _) fun s => ?_
  refine Maps.bind (Inner.removeSlotWithRight_map _ _) fun z => ?_
  refine Maps.pure ?_
  rcases z with ⟨_ | _, _, _⟩ <;> rfl

theorem chooseFix_map (p n : Option (Leaf K V)) :
    Maps (fun a => a) (chooseFix p n) (chooseFix (p.map (Leaf.mapK f)) (n.map (Leaf.mapK f))) := by
  cases p <;> cases n <;> simp only [Option.map, chooseFix, Leaf.mapK_ableToLend, Leaf.mapK_len] <;>
    exact Maps.same

theorem handleLeafUnderSize_map (s : Store K V A) (st : Statistic) (n : Inner K A) (i d : Nat) :
    Maps (fun p => (p.1.mapK f, p.2.1.mapK f, p.2.2.1, p.2.2.2.mapK f))
      (handleLeafUnderSize s st n i d)
      (handleLeafUnderSize (s.mapK f) st (n.mapK f) i d) := by
  unfold handleLeafUnderSize
  have key : ∀ j, Maps (Option.map (Leaf.mapK f))
      (do
        let id ← (← n.childId j).leafIdUnchecked
        let l ← s.getLeaf id
        return some l : Res (Option (Leaf K V)))
      (do
        let id ← (← (n.mapK f).childId j).leafIdUnchecked
        let l ← (s.mapK f).getLeaf id
        return some l) := fun j =>
    Maps.bind (Inner.childId_map n _) fun c => Maps.bind Maps.same fun id =>
      Maps.bind (Store.getLeaf_map s _) fun l => Maps.pure rfl
  refine Maps.bind (m := Option.map (Leaf.mapK f)) (Maps.ite Iff.rfl (key _) (Maps.pure rfl))
    fun p => ?_
  refine Maps.bind (m := Option.map (Leaf.mapK f)) (Maps.ite (by simp) (key _) (Maps.pure rfl))
    fun q => ?_
  refine Maps.bind (chooseFix_map p q) fun a => ?_
  cases a
  · exact Maps.bind (rotateRightForLeaf_map _ _ _ _) fun r => Maps.pure rfl
  · exact Maps.bind (rotateLeftForLeaf_map _ _ _ _) fun r => Maps.pure rfl
  · exact Maps.bind (mergeLeafNodeLeft_map _ _ _ _) fun r => Maps.pure rfl
  · exact Maps.bind (mergeLeafNodeWithRight_map _ _ _ _) fun r => Maps.pure rfl

theorem removeAscend_map (s : Store K V A) (st : Statistic) (stack : List StackEntry)
    (r : DeleteResult K V) :
    Maps (fun p => (p.1.mapK f, p.2.1.mapK f, p.2.2)) (removeAscend s st stack r)
      (removeAscend (s.mapK f) st stack (r.mapK f)) := by
  induction stack generalizing s st r with
  | nil => cases r <;> exact Maps.pure rfl
  | cons e stack ih =>
    obtain ⟨id, ci, c⟩ := e
    cases r with
    | done kv =>
      rw [DeleteResult.mapK, removeAscend, removeAscend]
      refine Maps.bind (newAugmentation_map s c) fun ca => ?_
      refine Maps.bind (Store.getInner_map s id) fun n => ?_
      refine Maps.bind (Inner.setAugmentation_map n ci ca) fun n => ?_
      rw [Store.setInner_map]
      exact ih _ _ (.done _)
    | innerUnderSize kv =>
      rw [DeleteResult.mapK, removeAscend, removeAscend]
      refine Maps.bind (Store.getInner_map s id) fun n => ?_
      refine Maps.bind (handleInnerUnderSize_map _ _ _ _ _) fun x => ?_
      simp only [Store.setInner_map]
      exact ih _ _ _
    | leafUnderSize i =>
      rw [DeleteResult.mapK, removeAscend, removeAscend]
      refine Maps.bind (Store.getInner_map s id) fun n => ?_
      refine Maps.bind (handleLeafUnderSize_map _ _ _ _ _) fun x => ?_
      simp only [Store.setInner_map]
      exact ih _ _ _

omit [Augmentation K V A] in
theorem removeRoot_map (s : Store K V A) (root : NodeId) (r : DeleteResult K V) :
    Maps (fun p => (item f p.1, p.2.1.mapK f, p.2.2)) (removeRoot s root r)
      (removeRoot (s.mapK f) root (r.mapK f)) := by
  cases r with
  | done kv => exact Maps.pure rfl
  | innerUnderSize kv =>
    refine Maps.bind Maps.same fun id => ?_
    refine Maps.bind (Store.getInner_map s id) fun n => ?_
    refine Maps.ite (by simp) ?_ (Maps.pure rfl)
    exact Maps.bind (Inner.childId_map n _) fun c => Maps.pure rfl
  | leafUnderSize i =>
    refine Maps.bind Maps.same fun id => ?_
    refine Maps.bind (Store.getLeaf_map s id) fun l => ?_
    exact Maps.bind (Leaf.deleteAt_map _ _) fun x => Maps.pure (by simp)

theorem Tree.removeByRef_map (t : Tree K V A) (e : EntryRef) :
    Maps (fun p => (item f p.1, p.2.mapK f)) (t.removeByRef e) ((t.mapK f).removeByRef e) := by
  unfold Tree.removeByRef
  refine Maps.bind (Store.getLeaf_map t.store _) fun l => ?_
  refine Maps.bind (Leaf.tryDeleteAt_map l _) fun x => ?_
  obtain ⟨l, d⟩ := x
  refine Maps.bind (m := fun p => (p.1.mapK f, p.2.1.mapK f, p.2.2)) ?_ fun y => ?_
  · cases d with
    | done kv =>
      simp only [Tree.mapK, Store.setLeaf_map]
      exact removeAscend_map _ _ _ (.done kv)
    | underSize i =>
      simp only [Tree.mapK, Store.setLeaf_map]
      exact removeAscend_map _ _ _ (.leafUnderSize i)
  refine Maps.bind (removeRoot_map _ _ _) fun z => ?_
  refine Maps.bind (newAugmentation_map _ _) fun a => ?_
  exact Maps.ite Iff.rfl Maps.error (Maps.pure rfl)

omit [Augmentation K V A] in
theorem Tree.keyToRefU_map (h : Agree f o o') (t : Tree K V A) :
    Maps (fun a => a) (t.keyToRefU o) ((t.mapK f).keyToRefU o') := by
  refine Maps.bind (descendLeaf_map t.store (fun st => st) (stackStepU_map h) [] _) fun r => ?_
  refine Maps.bind (Store.getLeaf_map _ _) fun l => ?_
  refine Maps.bind (Leaf.locateSlotU_map h l) fun r => ?_
  cases r <;> exact Maps.pure rfl

theorem Tree.removeU_map (h : Agree f o o') (t : Tree K V A) :
    Maps (fun p => (p.1, p.2.mapK f)) (t.removeU o) ((t.mapK f).removeU o') := by
  refine Maps.bind (m := fun p => (p.1.map (item f), p.2.mapK f)) ?_ fun r => ?_
  · refine Maps.bind (Tree.keyToRefU_map h t) fun r => ?_
    cases r with
    | none => exact Maps.pure rfl
    | some e => exact Maps.bind (Tree.removeByRef_map t e) fun x => Maps.pure rfl
  · refine Maps.pure ?_
    rcases r with ⟨_ | _, _⟩ <;> rfl

end Aug

/-! ## Reads -/

theorem locateStepU_map (h : Agree f o o') (d i : Nat) (n : Inner K A) :
    Maps (fun p => (p.1, p.2)) (locateStepU o d i n) (locateStepU o' d i (n.mapK f)) :=
  Maps.bind (Inner.locateChildU_map h _ n) fun _ => Maps.pure rfl

theorem findDescendLeafU_map (h : Agree f o o') (s : Store K V A) (root : NodeId) :
    Maps (fun a => a) (findDescendLeafU o s root) (findDescendLeafU o' (s.mapK f) root) :=
  Maps.bind (descendLeaf_map s (fun st => st) (locateStepU_map h) 0 _) fun _ => Maps.pure rfl

theorem findInLeafU_map (h : Agree f o o') (s : Store K V A) (id : Nat) :
    Maps (fun a => a) (findInLeafU o s id) (findInLeafU o' (s.mapK f) id) :=
  Maps.bind (Store.getLeaf_map s id) fun l =>
    Maps.bind (Leaf.locateSlotWithValueU_map h l) fun _ => Maps.pure rfl

theorem Tree.getU_map (h : Agree f o o') (t : Tree K V A) :
    Maps (fun p => (p.1, p.2.mapK f)) (t.getU o) ((t.mapK f).getU o') := by
  refine Maps.bind (Store.tryCacheU_map h t.store) fun r => ?_
  cases r with
  | some id => exact Maps.bind (findInLeafU_map h t.store id) fun v => Maps.pure rfl
  | none =>
    refine Maps.bind (findDescendLeafU_map h t.store t.root) fun id => ?_
    exact Maps.bind (findInLeafU_map h (t.store.cacheLeaf id) id) fun v => Maps.pure rfl

theorem updateInLeafU_map (h : Agree f o o') (s : Store K V A) (id : Nat) (g : V → V) :
    Maps (fun p => (p.1, p.2.mapK f)) (updateInLeafU o s id g) (updateInLeafU o' (s.mapK f) id g) := by
  refine Maps.bind (Store.getLeaf_map s id) fun l => ?_
  refine Maps.bind (Leaf.locateSlotU_map h l) fun r => ?_
  cases r with
  | vacant i => exact Maps.pure rfl
  | found i =>
    refine Maps.bind (Leaf.dataAt_map l i) fun kv => Maps.pure ?_
    refine Prod.ext rfl ?_
    dsimp only
    rw [← Store.setLeaf_map]
    simp [Leaf.mapK, List.map_set, item]

theorem Tree.getMutU_map (h : Agree f o o') (t : Tree K V A) (g : V → V) :
    Maps (fun p => (p.1, p.2.mapK f)) (t.getMutU o g) ((t.mapK f).getMutU o' g) := by
  refine Maps.bind (Store.tryCacheU_map h t.store) fun r => ?_
  cases r with
  | some id => exact Maps.bind (updateInLeafU_map h t.store id g) fun v => Maps.pure rfl
  | none =>
    refine Maps.bind (findDescendLeafU_map h t.store t.root) fun id => ?_
    exact Maps.bind (updateInLeafU_map h (t.store.cacheLeaf id) id g) fun v => Maps.pure rfl

theorem Tree.firstLeaf_map (t : Tree K V A) :
    Maps (fun a => a) t.firstLeaf (t.mapK f).firstLeaf := by
  refine Maps.bind (descendLeaf_map t.store (fun st => st) (fun st i n => ?_) () _)
    fun _ => Maps.pure rfl
  exact Maps.bind (Inner.childId_map n 0) fun c => Maps.pure rfl

/-! ## Cursors -/

/-- A cursor with its key renamed. -/
def Cursor.mapK (f : K → L) (c : Cursor K) : Cursor L := ⟨f c.k, c.leafIdHint, c.offsetHint⟩

theorem Cursor.locateLeafU_map (h : Agree f o o') (c : Cursor K) (t : Tree K V A) :
    Maps (fun p => (p.1, p.2.mapK f)) (c.locateLeafU o t) ((c.mapK f).locateLeafU o' (t.mapK f)) := by
  unfold Cursor.locateLeafU
  refine Maps.bind (m := Option.map (Leaf.mapK f)) ?_ fun hit => ?_
  · rw [show (c.mapK f).leafIdHint = c.leafIdHint from rfl,
      show (t.mapK f).store = t.store.mapK f from rfl, Store.tryGetLeaf_map]
    cases t.store.tryGetLeaf c.leafIdHint with
    | none => exact Maps.pure rfl
    | some l =>
      refine Maps.bind (Leaf.inRangeU_map h 2 l) fun b => Maps.pure ?_
      cases b <;> rfl
  · cases hit with
    | some l => exact Maps.pure rfl
    | none =>
      refine Maps.bind (m := fun a => a) ?_ fun id => ?_
      · refine Maps.bind (Store.tryCacheU_map h t.store) fun r => ?_
        cases r with
        | some id => exact Maps.pure rfl
        | none => exact findDescendLeafU_map h _ _
      · exact Maps.bind (Store.getLeaf_map _ _) fun l => Maps.pure rfl

theorem Cursor.hintHitsU_map (h : Agree f o o') (c : Cursor K) (l : Leaf K V) :
    (c.mapK f).hintHitsU o' (l.mapK f) = c.hintHitsU o l := by
  unfold Cursor.hintHitsU
  rw [show (c.mapK f).offsetHint = c.offsetHint from rfl, Leaf.tryDataAt_map]
  cases l.tryDataAt c.offsetHint with
  | none => rfl
  | some kv => exact h.eq _

theorem prevLeafEnd_map (t : Tree K V A) (l : Leaf K V) :
    Maps (Option.map fun p => (p.1, p.2.mapK f)) (prevLeafEnd t l)
      (prevLeafEnd (t.mapK f) (l.mapK f)) := by
  unfold prevLeafEnd
  rw [Leaf.mapK_prev]
  cases l.prev with
  | none => exact Maps.pure rfl
  | some p =>
    refine Maps.bind (Store.getLeaf_map _ _) fun l => ?_
    exact Maps.ite (by simp) Maps.error (Maps.pure (by simp))

theorem Cursor.prevPosU_map (h : Agree f o o') (c : Cursor K) (t : Tree K V A) (l : Leaf K V) :
    Maps (Option.map fun p => (p.1, p.2.mapK f)) (c.prevPosU o t l)
      ((c.mapK f).prevPosU o' (t.mapK f) (l.mapK f)) := by
  unfold Cursor.prevPosU
  rw [Cursor.hintHitsU_map h]
  refine Maps.ite Iff.rfl ?_ ?_
  · exact Maps.ite Iff.rfl (Maps.pure rfl) (prevLeafEnd_map t l)
  · refine Maps.bind (m := fun a => a) ?_ fun off => ?_
    · refine Maps.bind (Leaf.locateSlotU_map h l) fun r => ?_
      cases r <;> exact Maps.pure rfl
    · exact Maps.ite Iff.rfl (Maps.pure rfl) (prevLeafEnd_map t l)

theorem Cursor.prevWithValueU_map (h : Agree f o o') (c : Cursor K) (t : Tree K V A) :
    Maps (Option.map fun p => (p.1.mapK f, p.2)) (c.prevWithValueU o t)
      ((c.mapK f).prevWithValueU o' (t.mapK f)) := by
  refine Maps.bind (Cursor.locateLeafU_map h c t) fun r => ?_
  refine Maps.bind (Cursor.prevPosU_map h c t r.2) fun x => ?_
  cases x with
  | none => exact Maps.pure rfl
  | some y => exact Maps.bind (Leaf.dataAt_map _ _) fun kv => Maps.pure rfl

theorem Cursor.nextOffsetU_map (h : Agree f o o') (c : Cursor K) (l : Leaf K V) :
    Maps (fun a => a) (c.nextOffsetU o l) ((c.mapK f).nextOffsetU o' (l.mapK f)) := by
  unfold Cursor.nextOffsetU
  rw [Cursor.hintHitsU_map h]
  refine Maps.ite Iff.rfl (Maps.pure rfl) ?_
  refine Maps.bind (Leaf.locateSlotWithValueU_map h l) fun r => ?_
  rcases r with ⟨_, _ | _⟩ <;> exact Maps.pure rfl

theorem forwardFrom_map (t : Tree K V A) (id : Nat) (l : Leaf K V) (i : Nat) :
    Maps (Option.map fun p => (p.1.mapK f, p.2)) (forwardFrom t id l i)
      (forwardFrom (t.mapK f) id (l.mapK f) i) := by
  unfold forwardFrom
  rw [Leaf.mapK_next]
  refine Maps.ite (by simp) ?_ ?_
  · exact Maps.bind (Leaf.dataAt_map _ _) fun kv => Maps.pure rfl
  · cases l.next with
    | none => exact Maps.pure rfl
    | some nx =>
      refine Maps.bind (Store.getLeaf_map _ _) fun l => ?_
      exact Maps.bind (Leaf.dataAt_map _ _) fun kv => Maps.pure rfl

theorem Cursor.nextWithValueU_map (h : Agree f o o') (c : Cursor K) (t : Tree K V A) :
    Maps (Option.map fun p => (p.1.mapK f, p.2)) (c.nextWithValueU o t)
      ((c.mapK f).nextWithValueU o' (t.mapK f)) := by
  refine Maps.bind (Cursor.locateLeafU_map h c t) fun r => ?_
  refine Maps.bind (Cursor.nextOffsetU_map h c r.2) fun x => ?_
  exact forwardFrom_map _ _ _ _

theorem Cursor.valueU_map (h : Agree f o o') (c : Cursor K) (t : Tree K V A) :
    Maps (fun a => a) (c.valueU o t) ((c.mapK f).valueU o' (t.mapK f)) := by
  refine Maps.bind (Cursor.locateLeafU_map h c t) fun r => ?_
  obtain ⟨id, l⟩ := r
  dsimp only
  rw [Cursor.hintHitsU_map h, show (c.mapK f).offsetHint = c.offsetHint from rfl,
    Leaf.tryDataAt_map]
  have tail := Maps.bind (Leaf.locateSlotWithValueU_map h l)
    (fun r => (Maps.pure rfl : Maps (fun a => a) (pure r.2) (pure r.2)))
  cases l.tryDataAt c.offsetHint with
  | none => exact tail
  | some kv =>
    cases c.hintHitsU o l with
    | true => exact Maps.pure rfl
    | false => exact tail

theorem Tree.getCursorU_map (h : Agree f o o') (t : Tree K V A) (k : K) :
    Maps (Option.map fun p => (p.1.mapK f, p.2)) (t.getCursorU o k)
      ((t.mapK f).getCursorU o' (f k)) := by
  refine Maps.bind (findDescendLeafU_map h _ _) fun id => ?_
  refine Maps.bind (Store.getLeaf_map _ _) fun l => ?_
  exact Maps.bind (Leaf.locateSlotWithValueU_map h l) fun r => Maps.pure rfl

/-! ## Forward iteration -/

def Iter.mapK (f : K → L) (it : Iter K V) : Iter L V :=
  ⟨it.len, it.leaf.map (Leaf.mapK f), it.leafOffset, it.end_.map fun p => (p.1.mapK f, p.2)⟩

theorem Tree.iter_map (t : Tree K V A) : Maps (Iter.mapK f) t.iter (t.mapK f).iter := by
  refine Maps.bind (Tree.firstLeaf_map t) fun id => ?_
  exact Maps.bind (Store.getLeaf_map _ _) fun l => Maps.pure rfl

theorem Iter.next_map (t : Tree K V A) (it : Iter K V) :
    Maps (fun p => (p.1.map (item f), p.2.mapK f)) (it.next t) ((it.mapK f).next (t.mapK f)) := by
  unfold Iter.next
  refine Maps.ite Iff.rfl (Maps.pure rfl) ?_
  obtain ⟨n, l, i, e⟩ := it
  cases l with
  | none => exact Maps.pure rfl
  | some l =>
    refine Maps.bind (Leaf.dataAt_map l i) fun kv => ?_
    refine Maps.ite (by simp [Iter.mapK]) (Maps.pure rfl) ?_
    dsimp only [Iter.mapK, Option.map]
    rw [Leaf.mapK_next]
    cases l.next with
    | none => exact Maps.pure rfl
    | some nx => exact Maps.bind (Store.getLeaf_map _ _) fun nl => Maps.pure rfl

theorem Iter.run_map (t : Tree K V A) (n : Nat) (it : Iter K V) :
    Maps (List.map fun p => (p.1.map (item f), p.2)) (it.runCalls t (List.replicate n .front))
      ((it.mapK f).runCalls (t.mapK f) (List.replicate n .front)) := by
  induction n generalizing it with
  | zero => exact Maps.pure rfl
  | succ n ih =>
    refine Maps.bind (Iter.next_map t it) fun r => ?_
    exact Maps.bind (ih r.2) fun rest => Maps.pure rfl

end Bpt
