import Verif.Model.Release

/-!
# Release and debug builds agree unless the debug build panics
-/

namespace Bpt
variable {K V A : Type}

/-- `y` is what `x` is, unless `x` panics. -/
structure DebugAgree {α : Type} (x y : Res α) : Prop where
  eq : x ≠ .error .panic → y = x

theorem DebugAgree.refl {α : Type} (x : Res α) : DebugAgree x x := ⟨fun _ => rfl⟩

theorem DebugAgree.bind {α β : Type} {x y : Res α} {f g : α → Res β} (h : DebugAgree x y)
    (hf : ∀ a, DebugAgree (f a) (g a)) : DebugAgree (x >>= f) (y >>= g) := by
  refine ⟨fun hne => ?_⟩
  rcases x with e | a
  · have he : e ≠ .panic := fun h => hne (by rw [h]; rfl)
    rw [h.eq (fun hh => he (by cases hh; rfl))]
    rfl
  · rw [h.eq (by simp)]
    exact (hf a).eq hne

theorem DebugAgree.panic {α : Type} (y : Res α) : DebugAgree (.error .panic) y := ⟨fun h => absurd rfl h⟩

theorem DebugAgree.panic_bind {α β : Type} (f : α → Res β) (y : Res β) :
    DebugAgree ((.error .panic : Res α) >>= f) y := ⟨fun h => absurd rfl h⟩

theorem DebugAgree.pure_bind {α β : Type} {a : α} {f : α → Res β} {y : Res β} (h : DebugAgree (f a) y) :
    DebugAgree ((pure a : Res α) >>= f) y := h

theorem DebugAgree.ite {α : Type} {c : Prop} [Decidable c] {x y x' y' : Res α} (h : DebugAgree x x')
    (h' : DebugAgree y y') : DebugAgree (if c then x else y) (if c then x' else y') := by
  split
  · exact h
  · exact h'

theorem DebugAgree.guard {α : Type} {c : Prop} [Decidable c] {x y : Res α} (h : DebugAgree x y) :
    DebugAgree (if c then .error .panic else x) y := by
  split
  · exact DebugAgree.panic _
  · exact h

theorem DebugAgree.guard_bind {α β : Type} {c : Prop} [Decidable c] {f : α → Res β} {x y : Res β}
    (h : DebugAgree x y) : DebugAgree (if c then (.error .panic : Res α) >>= f else x) y := by
  split
  · exact DebugAgree.panic_bind _ _
  · exact h

/-- Structural congruence for `DebugAgree`. -/
macro "agree" : tactic => `(tactic| repeat' (first
  | with_reducible exact DebugAgree.refl _
  | with_reducible exact DebugAgree.panic _
  | with_reducible exact DebugAgree.panic_bind _ _
  | with_reducible apply_assumption
  | with_reducible refine DebugAgree.pure_bind ?_
  | with_reducible refine DebugAgree.guard ?_
  | with_reducible refine DebugAgree.guard_bind ?_
  | with_reducible refine DebugAgree.ite ?_ ?_
  | with_reducible refine DebugAgree.bind ?_ ?_
  | intro _
  | dsimp only
  | (split <;> (rename_i h; try simp only [h]))
  | (simp_all; done)))

theorem sliceInsert_agree {α : Type} (l : List α) (i : Nat) (x : α) :
    DebugAgree (sliceInsert l i x) (sliceInsertR l i x) := by
  unfold sliceInsert sliceInsertR
  split
  · exact DebugAgree.refl _
  · exact DebugAgree.panic _

theorem sliceRemove_agree {α : Type} (l : List α) (i : Nat) :
    DebugAgree (sliceRemove l i) (sliceRemoveR l i) := by
  unfold sliceRemove sliceRemoveR
  cases l[i]? with
  | some x => exact DebugAgree.refl _
  | none => exact DebugAgree.panic _

theorem Leaf.splitNewLeaf_agree (l : Leaf K V) (i : Nat) (item : K × V) (a b : Nat) :
    DebugAgree (l.splitNewLeaf i item a b) (l.splitNewLeafR i item a b) := by
  have h := @sliceInsert_agree (K × V)
  unfold splitNewLeaf splitNewLeafR
  agree

theorem Leaf.deleteAt_agree (l : Leaf K V) (i : Nat) : DebugAgree (l.deleteAt i) (l.deleteAtR i) := by
  have h := @sliceRemove_agree (K × V)
  unfold deleteAt deleteAtR
  agree

theorem Leaf.tryDeleteAt_agree (l : Leaf K V) (i : Nat) :
    DebugAgree (l.tryDeleteAt i) (l.tryDeleteAtR i) := by
  have h := @sliceRemove_agree (K × V)
  unfold tryDeleteAt tryDeleteAtR
  agree

theorem Leaf.pop_agree (l : Leaf K V) : DebugAgree l.pop l.popR := by
  have h := @sliceRemove_agree (K × V)
  unfold pop popR
  agree

theorem Leaf.popFront_agree (l : Leaf K V) : DebugAgree l.popFront l.popFrontR := by
  have h := @sliceRemove_agree (K × V)
  unfold popFront popFrontR
  agree

theorem Leaf.deleteWithPush_agree (l : Leaf K V) (i : Nat) (x : K × V) :
    DebugAgree (l.deleteWithPush i x) (l.deleteWithPushR i x) := by
  have h := @sliceRemove_agree (K × V)
  unfold deleteWithPush deleteWithPushR
  agree

theorem Leaf.keyRange_agree (l : Leaf K V) : DebugAgree l.keyRange l.keyRangeR := by
  unfold keyRange keyRangeR
  agree

theorem Inner.insertAt_agree (n : Inner K A) (i : Nat) (k : K) (c : NodeId) (a : A) :
    DebugAgree (n.insertAt i k c a) (n.insertAtR i k c a) := by
  have h0 := @sliceInsert_agree K
  have h1 := @sliceInsert_agree NodeId
  have h2 := @sliceInsert_agree A
  unfold insertAt insertAtR
  by_cases h : n.isFull = true
  · rw [if_pos (Or.inr h)]
    exact DebugAgree.panic _
  · rw [if_neg h]
    by_cases h' : i ≤ n.len
    · rw [if_neg (by simp [h, h'])]
      refine DebugAgree.bind (h0 _ _ _) fun x => ?_
      refine DebugAgree.bind (h1 _ _ _) fun x => ?_
      refine DebugAgree.bind (h2 _ _ _) fun x => ?_
      exact DebugAgree.refl _
    · rw [if_pos (Or.inl h')]
      exact DebugAgree.panic _

theorem Inner.split_agree (n : Inner K A) (i : Nat) (k : K) (c : NodeId) (a : A) :
    DebugAgree (n.split i k c a) (n.splitR i k c a) := by
  have h0 := @sliceInsert_agree K
  have h1 := @sliceInsert_agree NodeId
  have h2 := @sliceInsert_agree A
  unfold split splitR
  by_cases hf : (!n.isFull) = true
  · rw [if_pos hf]
    exact DebugAgree.panic _
  rw [if_neg hf, if_neg hf]
  refine DebugAgree.ite (DebugAgree.refl _) (DebugAgree.ite ?_ (DebugAgree.refl _))
  refine DebugAgree.bind (DebugAgree.refl _) fun x => ?_
  refine DebugAgree.bind (h0 _ _ _) fun x => ?_
  refine DebugAgree.bind (h1 _ _ _) fun x => ?_
  refine DebugAgree.bind (h2 _ _ _) fun x => ?_
  exact DebugAgree.refl _

theorem Inner.removeSlotWithRight_agree (n : Inner K A) (i : Nat) :
    DebugAgree (n.removeSlotWithRight i)
      (n.removeSlotWithRightR i) := by
  have h0 := @sliceRemove_agree K
  have h1 := @sliceRemove_agree NodeId
  have h2 := @sliceRemove_agree A
  unfold Inner.removeSlotWithRight Inner.removeSlotWithRightR
  agree

theorem Inner.mergeNext_agree (n : Inner K A) (k : K) (r : Inner K A) :
    DebugAgree (n.mergeNext k r) (n.mergeNextR k r) := by
  unfold mergeNext mergeNextR
  refine DebugAgree.ite (DebugAgree.refl _) ?_
  by_cases h : ¬ n.len + 1 + r.len ≤ innerN
  · rw [if_pos h]
    exact DebugAgree.panic _
  · rw [if_neg h, if_neg h]
    exact DebugAgree.refl _

theorem Inner.pop_agree (n : Inner K A) :
    DebugAgree (n.pop)
      (n.popR) := by
  unfold Inner.pop Inner.popR
  agree

theorem Inner.popFront_agree (n : Inner K A) :
    DebugAgree (n.popFront)
      (n.popFrontR) := by
  have h0 := @sliceRemove_agree K
  have h1 := @sliceRemove_agree NodeId
  have h2 := @sliceRemove_agree A
  unfold Inner.popFront Inner.popFrontR
  agree

theorem Leaf.inRangeU_agree (o : Answers K) (i : Nat) (l : Leaf K V) :
    DebugAgree (l.inRangeU o i)
      (l.inRangeUR o i) := by
  unfold Leaf.inRangeU Leaf.inRangeUR
  agree

theorem Store.tryCacheU_agree (o : Answers K) (s : Store K V A) :
    DebugAgree (s.tryCacheU o)
      (s.tryCacheUR o) := by
  have h0 := @Leaf.inRangeU_agree K V
  unfold Store.tryCacheU Store.tryCacheUR
  agree

theorem Leaf.upsertAt_agree (l : Leaf K V) (s : Slot) (k : K) (v : V) :
    DebugAgree (l.upsertAt s k v)
      (l.upsertAtR s k v) := by
  have h0 := @sliceInsert_agree (K × V)
  unfold Leaf.upsertAt Leaf.upsertAtR
  agree

theorem insertLeafAt_agree (s : Store K V A) (id : Nat) (l : Leaf K V) (sl : Slot) (k : K) (v : V) :
    DebugAgree (insertLeafAt s id l sl k v)
      (insertLeafAtR s id l sl k v) := by
  have h0 := @Leaf.upsertAt_agree K V
  have h1 := @Leaf.splitNewLeaf_agree K V
  unfold insertLeafAt insertLeafAtR
  agree

theorem insertLeafU_agree (o : Answers K) (s : Store K V A) (id : Nat) (k : K) (v : V) :
    DebugAgree (insertLeafU o s id k v)
      (insertLeafUR o s id k v) := by
  have h0 := @insertLeafAt_agree K V A
  unfold insertLeafU insertLeafUR
  agree

section Aug
variable [Augmentation K V A]

theorem insertAscend_agree (s : Store K V A) (st : List StackEntry) (r : InsertResult K V) :
    DebugAgree (insertAscend s st r) (insertAscendR s st r) := by
  have h0 := @Inner.insertAt_agree K A
  have h1 := @Inner.split_agree K A
  induction st generalizing s r with
  | nil => exact DebugAgree.refl _
  | cons e st ih =>
    obtain ⟨a, b, c⟩ := e
    rcases r with v | _ | ⟨k, rc⟩
    · rw [insertAscend, insertAscendR]
      agree
    · rw [insertAscend, insertAscendR]
      agree
    · rw [insertAscend, insertAscendR]
      agree

theorem descendInsertU_agree (o : Answers K) (s : Store K V A) (n : NodeId) (k : K) (v : V) :
    DebugAgree (descendInsertU o s n k v)
      (descendInsertUR o s n k v) := by
  have h0 := @insertLeafU_agree K V A
  have h1 := @insertAscend_agree K V A _
  unfold descendInsertU descendInsertUR
  agree

theorem Tree.insertU_agree (o : Answers K) (t : Tree K V A) (k : K) (v : V) :
    DebugAgree (t.insertU o k v)
      (t.insertUR o k v) := by
  have h0 := @descendInsertU_agree K V A _
  unfold Tree.insertU Tree.insertUR
  agree

theorem tryRotateRightInner_agree (s : Store K V A) (n : Inner K A) (i : Nat) :
    DebugAgree (tryRotateRightInner s n i)
      (tryRotateRightInnerR s n i) := by
  have h0 := @Inner.pop_agree K A
  unfold tryRotateRightInner tryRotateRightInnerR
  agree

theorem tryRotateLeftInner_agree (s : Store K V A) (n : Inner K A) (i : Nat) :
    DebugAgree (tryRotateLeftInner s n i)
      (tryRotateLeftInnerR s n i) := by
  have h0 := @Inner.popFront_agree K A
  unfold tryRotateLeftInner tryRotateLeftInnerR
  agree

theorem mergeInnerNode_agree (s : Store K V A) (n : Inner K A) (i : Nat) :
    DebugAgree (mergeInnerNode s n i)
      (mergeInnerNodeR s n i) := by
  have h0 := @Inner.removeSlotWithRight_agree K A
  have h1 := @Inner.mergeNext_agree K A
  unfold mergeInnerNode mergeInnerNodeR
  agree

theorem handleInnerUnderSize_agree (s : Store K V A) (st : Statistic) (n : Inner K A) (i : Nat) (kv : K × V) :
    DebugAgree (handleInnerUnderSize s st n i kv)
      (handleInnerUnderSizeR s st n i kv) := by
  have h0 := @tryRotateRightInner_agree K V A _
  have h1 := @tryRotateLeftInner_agree K V A _
  have h2 := @mergeInnerNode_agree K V A _
  unfold handleInnerUnderSize handleInnerUnderSizeR
  agree

theorem rotateRightForLeaf_agree (s : Store K V A) (n : Inner K A) (i j : Nat) :
    DebugAgree (rotateRightForLeaf s n i j)
      (rotateRightForLeafR s n i j) := by
  have h0 := @Leaf.pop_agree K V
  unfold rotateRightForLeaf rotateRightForLeafR
  agree

theorem rotateLeftForLeaf_agree (s : Store K V A) (n : Inner K A) (i j : Nat) :
    DebugAgree (rotateLeftForLeaf s n i j)
      (rotateLeftForLeafR s n i j) := by
  have h0 := @Leaf.popFront_agree K V
  have h1 := @Leaf.deleteWithPush_agree K V
  unfold rotateLeftForLeaf rotateLeftForLeafR
  agree

theorem mergeLeafNodeLeft_agree (s : Store K V A) (n : Inner K A) (i j : Nat) :
    DebugAgree (mergeLeafNodeLeft s n i j)
      (mergeLeafNodeLeftR s n i j) := by
  have h0 := @Inner.removeSlotWithRight_agree K A
  unfold mergeLeafNodeLeft mergeLeafNodeLeftR
  agree

theorem mergeLeafNodeWithRight_agree (s : Store K V A) (n : Inner K A) (i j : Nat) :
    DebugAgree (mergeLeafNodeWithRight s n i j)
      (mergeLeafNodeWithRightR s n i j) := by
  have h0 := @Inner.removeSlotWithRight_agree K A
  have h1 := @Leaf.deleteAt_agree K V
  unfold mergeLeafNodeWithRight mergeLeafNodeWithRightR
  agree

theorem handleLeafUnderSize_agree (s : Store K V A) (st : Statistic) (n : Inner K A) (i j : Nat) :
    DebugAgree (handleLeafUnderSize s st n i j) (handleLeafUnderSizeR s st n i j) := by
  unfold handleLeafUnderSize handleLeafUnderSizeR
  refine DebugAgree.bind (DebugAgree.refl _) fun p => ?_
  refine DebugAgree.bind (DebugAgree.refl _) fun q => ?_
  refine DebugAgree.bind (DebugAgree.refl _) fun f => ?_
  cases f
  · exact DebugAgree.bind (rotateRightForLeaf_agree _ _ _ _) fun _ => DebugAgree.refl _
  · exact DebugAgree.bind (rotateLeftForLeaf_agree _ _ _ _) fun _ => DebugAgree.refl _
  · exact DebugAgree.bind (mergeLeafNodeLeft_agree _ _ _ _) fun _ => DebugAgree.refl _
  · exact DebugAgree.bind (mergeLeafNodeWithRight_agree _ _ _ _) fun _ => DebugAgree.refl _

theorem removeAscend_agree (s : Store K V A) (st : Statistic) (l : List StackEntry)
    (r : DeleteResult K V) : DebugAgree (removeAscend s st l r) (removeAscendR s st l r) := by
  have h0 := @handleInnerUnderSize_agree K V A _
  have h1 := @handleLeafUnderSize_agree K V A _
  induction l generalizing s st r with
  | nil => exact DebugAgree.refl _
  | cons e l ih =>
    obtain ⟨a, b, c⟩ := e
    rcases r with kv | kv | i
    · rw [removeAscend, removeAscendR]
      agree
    · rw [removeAscend, removeAscendR]
      agree
    · rw [removeAscend, removeAscendR]
      agree

theorem removeRoot_agree (s : Store K V A) (root : NodeId) (r : DeleteResult K V) :
    DebugAgree (removeRoot s root r)
      (removeRootR s root r) := by
  have h0 := @Leaf.deleteAt_agree K V
  unfold removeRoot removeRootR
  agree

theorem Tree.removeByRef_agree (t : Tree K V A) (e : EntryRef) :
    DebugAgree (t.removeByRef e) (t.removeByRefR e) := by
  unfold removeByRef removeByRefR
  refine DebugAgree.bind (DebugAgree.refl _) fun l => ?_
  refine DebugAgree.bind (Leaf.tryDeleteAt_agree _ _) fun x => ?_
  refine DebugAgree.bind (removeAscend_agree _ _ _ _) fun x => ?_
  refine DebugAgree.bind (removeRoot_agree _ _ _) fun x => ?_
  refine DebugAgree.bind (DebugAgree.refl _) fun a => ?_
  by_cases h : t.len = 0
  · rw [if_pos h]
    exact DebugAgree.panic_bind _ _
  · rw [if_neg h, if_neg h]
    exact DebugAgree.refl _

theorem Tree.removeImplU_agree (o : Answers K) (t : Tree K V A) :
    DebugAgree (t.removeImplU o)
      (t.removeImplUR o) := by
  have h0 := @Tree.removeByRef_agree K V A _
  unfold Tree.removeImplU Tree.removeImplUR
  agree

theorem Tree.removeU_agree (o : Answers K) (t : Tree K V A) :
    DebugAgree (t.removeU o)
      (t.removeUR o) := by
  have h0 := @Tree.removeImplU_agree K V A _
  unfold Tree.removeU Tree.removeUR
  agree

end Aug

theorem Tree.getU_agree (o : Answers K) (t : Tree K V A) :
    DebugAgree (t.getU o)
      (t.getUR o) := by
  have h0 := @Store.tryCacheU_agree K V A
  unfold Tree.getU Tree.getUR
  agree

theorem Tree.getMutU_agree (o : Answers K) (t : Tree K V A) (f : V → V) :
    DebugAgree (t.getMutU o f)
      (t.getMutUR o f) := by
  have h0 := @Store.tryCacheU_agree K V A
  unfold Tree.getMutU Tree.getMutUR
  agree

theorem Cursor.locateLeafU_agree (o : Answers K) (c : Cursor K) (t : Tree K V A) :
    DebugAgree (c.locateLeafU o t)
      (c.locateLeafUR o t) := by
  have h0 := @Store.tryCacheU_agree K V A
  have h1 := @Leaf.inRangeU_agree K V
  unfold Cursor.locateLeafU Cursor.locateLeafUR
  agree

theorem prevLeafEnd_agree (t : Tree K V A) (l : Leaf K V) :
    DebugAgree (prevLeafEnd t l) (prevLeafEndR t l) := by
  unfold prevLeafEnd prevLeafEndR
  cases l.prev with
  | none => exact DebugAgree.refl _
  | some p =>
    refine DebugAgree.bind (DebugAgree.refl _) fun x => ?_
    by_cases h : x.len = 0
    · rw [if_pos h]
      exact DebugAgree.panic_bind _ _
    · rw [if_neg h, if_neg h]
      exact DebugAgree.refl _

theorem Cursor.prevPosU_agree (o : Answers K) (c : Cursor K) (t : Tree K V A) (l : Leaf K V) :
    DebugAgree (c.prevPosU o t l)
      (c.prevPosUR o t l) := by
  have h0 := @prevLeafEnd_agree K V A
  unfold Cursor.prevPosU Cursor.prevPosUR
  agree

theorem Cursor.prevWithValueU_agree (o : Answers K) (c : Cursor K) (t : Tree K V A) :
    DebugAgree (c.prevWithValueU o t)
      (c.prevWithValueUR o t) := by
  have h0 := @Cursor.prevPosU_agree K V A
  have h1 := @Cursor.locateLeafU_agree K V A
  unfold Cursor.prevWithValueU Cursor.prevWithValueUR
  agree

theorem Cursor.nextWithValueU_agree (o : Answers K) (c : Cursor K) (t : Tree K V A) :
    DebugAgree (c.nextWithValueU o t)
      (c.nextWithValueUR o t) := by
  have h0 := @Cursor.locateLeafU_agree K V A
  unfold Cursor.nextWithValueU Cursor.nextWithValueUR
  agree

theorem Cursor.valueU_agree (o : Answers K) (c : Cursor K) (t : Tree K V A) :
    DebugAgree (c.valueU o t) (c.valueUR o t) := by
  unfold valueU valueUR
  refine DebugAgree.bind (Cursor.locateLeafU_agree _ _ _) fun x => ?_
  exact DebugAgree.refl _

theorem Tree.last_agree (t : Tree K V A) :
    DebugAgree (t.last)
      (t.lastR) := by
  unfold Tree.last Tree.lastR
  agree

theorem Iter.nextBack_agree (t : Tree K V A) (it : Iter K V) :
    DebugAgree (it.nextBack t)
      (it.nextBackR t) := by
  unfold Iter.nextBack Iter.nextBackR
  agree

theorem Iter.call_agree (t : Tree K V A) (it : Iter K V) (d : Dir) :
    DebugAgree (it.call t d)
      (it.callR t d) := by
  have h0 := @Iter.nextBack_agree K V A
  unfold Iter.call Iter.callR
  agree

theorem Iter.runCalls_agree (t : Tree K V A) (it : Iter K V) (ds : List Dir) :
    DebugAgree (it.runCalls t ds) (it.runCallsR t ds) := by
  have h0 := @Iter.call_agree K V A
  induction ds generalizing it with
  | nil => exact DebugAgree.refl _
  | cons d ds ih =>
    rw [Iter.runCalls, Iter.runCallsR]
    agree

theorem IntoIter.takeData_agree (it : IntoIter K V A) (id : Nat) (l : Leaf K V) (i : Nat) :
    DebugAgree (it.takeData id l i)
      (it.takeDataR id l i) := by
  unfold IntoIter.takeData IntoIter.takeDataR
  agree

theorem IntoIter.nextAux_agree (n : Nat) (it : IntoIter K V A) :
    DebugAgree (IntoIter.nextAux n it) (IntoIter.nextAuxR n it) := by
  have h0 := @IntoIter.takeData_agree K V A
  induction n generalizing it with
  | zero => exact DebugAgree.refl _
  | succ n ih =>
    rw [IntoIter.nextAux, IntoIter.nextAuxR]
    agree

theorem IntoIter.nextBackAux_agree (n : Nat) (it : IntoIter K V A) :
    DebugAgree (IntoIter.nextBackAux n it) (IntoIter.nextBackAuxR n it) := by
  have h0 := @IntoIter.takeData_agree K V A
  induction n generalizing it with
  | zero => exact DebugAgree.refl _
  | succ n ih =>
    rw [IntoIter.nextBackAux, IntoIter.nextBackAuxR]
    agree

theorem IntoIter.next_agree (it : IntoIter K V A) :
    DebugAgree (it.next)
      (it.nextR) := by
  have h0 := @IntoIter.nextAux_agree K V A
  unfold IntoIter.next IntoIter.nextR
  agree

theorem IntoIter.nextBack_agree (it : IntoIter K V A) :
    DebugAgree (it.nextBack)
      (it.nextBackR) := by
  have h0 := @IntoIter.nextBackAux_agree K V A
  unfold IntoIter.nextBack IntoIter.nextBackR
  agree

theorem IntoIter.call_agree (it : IntoIter K V A) (d : Dir) :
    DebugAgree (it.call d)
      (it.callR d) := by
  have h0 := @IntoIter.next_agree K V A
  have h1 := @IntoIter.nextBack_agree K V A
  unfold IntoIter.call IntoIter.callR
  agree

theorem IntoIter.runCalls_agree (it : IntoIter K V A) (ds : List Dir) :
    DebugAgree (it.runCalls ds) (it.runCallsR ds) := by
  have h0 := @IntoIter.call_agree K V A
  induction ds generalizing it with
  | nil => exact DebugAgree.refl _
  | cons d ds ih =>
    rw [IntoIter.runCalls, IntoIter.runCallsR]
    agree

theorem IntoIter.dropAux_agree (n : Nat) (it : IntoIter K V A) :
    DebugAgree (IntoIter.dropAux n it) (IntoIter.dropAuxR n it) := by
  have h0 := @IntoIter.next_agree K V A
  induction n generalizing it with
  | zero => exact DebugAgree.refl _
  | succ n ih =>
    rw [IntoIter.dropAux, IntoIter.dropAuxR]
    agree

theorem IntoIter.drop_agree (it : IntoIter K V A) :
    DebugAgree (it.drop)
      (it.dropR) := by
  have h0 := @IntoIter.dropAux_agree K V A
  unfold IntoIter.drop IntoIter.dropR
  agree

theorem Tree.drop_agree (t : Tree K V A) :
    DebugAgree (t.drop)
      (t.dropR) := by
  have h0 := @IntoIter.drop_agree K V A
  unfold Tree.drop Tree.dropR
  agree

section Aug
variable [Augmentation K V A]

theorem bulkLeaves_agree (n : Nat) (s : Store K V A) (p : Option Nat) (l : List (K × V)) :
    DebugAgree (bulkLeaves n s p l) (bulkLeavesR n s p l) := by
  have h0 := @Leaf.keyRange_agree K V
  induction n generalizing s p l with
  | zero => exact DebugAgree.refl _
  | succ n ih =>
    rw [bulkLeaves, bulkLeavesR]
    agree

theorem Tree.bulkLoadU_agree (eq : Nat → K → K → Bool) (l : List (K × V)) :
    DebugAgree ((Tree.bulkLoadU eq l : Res (Tree K V A)))
      ((Tree.bulkLoadUR eq l : Res (Tree K V A))) := by
  have h0 := @bulkLeaves_agree K V A _
  unfold Tree.bulkLoadU Tree.bulkLoadUR
  agree

theorem Tree.ucall_agree (t : Tree K V A) (o : Answers K) (c : UCall K V) :
    DebugAgree (t.ucall o c) (t.ucallR o c) := by
  have h0 := @Tree.insertU_agree K V A _
  have h1 := @Tree.removeU_agree K V A _
  have h2 := @Tree.getU_agree K V A
  have h3 := @Tree.getMutU_agree K V A
  have h4 := @Tree.last_agree K V A
  have h5 := @Iter.runCalls_agree K V A
  have h6 := @Cursor.nextWithValueU_agree K V A
  have h7 := @Cursor.prevWithValueU_agree K V A
  have h8 := @Cursor.valueU_agree K V A
  cases c <;> simp only [Tree.ucall, Tree.ucallR] <;> agree

theorem Tree.urun_agree (t : Tree K V A) (cs : List (Answers K × UCall K V)) :
    DebugAgree (t.urun cs) (t.urunR cs) := by
  have h0 := @Tree.ucall_agree K V A _
  induction cs generalizing t with
  | nil => exact DebugAgree.refl _
  | cons c cs ih =>
    obtain ⟨o, c⟩ := c
    rw [Tree.urun, Tree.urunR]
    agree

end Aug

end Bpt
