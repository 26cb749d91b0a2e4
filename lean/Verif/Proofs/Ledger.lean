import Verif.Model.Ledger
import Verif.Proofs.Crash
import Verif.Proofs.CrashInsert

/-!
# The books of keys and augmentations

Every key and every augmentation gets a weight. Each function changes the total weight of the store by
what its log says was made minus what was dropped by its owner.
-/

namespace Bpt
variable {K V A : Type}

namespace Logged
variable {α β : Type}

@[simp] theorem result_pure (a : α) : (pure a : Logged K A α).result = .ok a := rfl
@[simp] theorem log_pure (a : α) : (pure a : Logged K A α).log = [] := rfl
@[simp] theorem result_emit (es : List (Event K A)) : (emit es).result = .ok () := rfl
@[simp] theorem log_emit (es : List (Event K A)) : (emit es).log = es := rfl
@[simp] theorem result_lift (x : Res α) : (liftM x : Logged K A α).result = x := rfl
@[simp] theorem log_lift (x : Res α) : (liftM x : Logged K A α).log = [] := rfl
@[simp] theorem result_lift' (x : Res α) : (MonadLift.monadLift x : Logged K A α).result = x := rfl
@[simp] theorem log_lift' (x : Res α) : (MonadLift.monadLift x : Logged K A α).log = [] := rfl

@[simp] theorem result_bind (x : Logged K A α) (f : α → Logged K A β) :
    (x >>= f).result = x.result >>= fun a => (f a).result := by
  show (match x.result with
    | .ok a => (⟨x.log ++ (f a).log, (f a).result⟩ : Logged K A β)
    | .error e => ⟨x.log, .error e⟩).result = _
  cases x.result <;> rfl

theorem log_bind {x : Logged K A α} {f : α → Logged K A β} {a : α} (h : x.result = .ok a) :
    (x >>= f).log = x.log ++ (f a).log := by
  show (match x.result with
    | .ok a => (⟨x.log ++ (f a).log, (f a).result⟩ : Logged K A β)
    | .error e => ⟨x.log, .error e⟩).log = _
  rw [h]

end Logged

/-! ## Results -/

@[simp] theorem setAugmentationL_result (n : Inner K A) (i : Nat) (a : A) :
    (n.setAugmentationL i a).result = n.setAugmentation i a := by
  simp only [Inner.setAugmentationL, Logged.result_bind, Logged.result_lift]
  cases n.setAugmentation i a <;> rfl

@[simp] theorem removeSlotWithRightL_result (n : Inner K A) (i : Nat) :
    (n.removeSlotWithRightL i).result = n.removeSlotWithRight i := by
  simp only [Inner.removeSlotWithRightL, Logged.result_bind, Logged.result_lift]
  cases n.removeSlotWithRight i <;> rfl

section
variable [Augmentation K V A]

@[simp] theorem newAugmentationL_result (s : Store K V A) (i : NodeId) :
    (newAugmentationL s i).result = newAugmentationForId s i := by
  simp only [newAugmentationL, Logged.result_bind, Logged.result_lift]
  cases newAugmentationForId s i <;> rfl

@[simp] theorem leafAugL_result (l : Leaf K V) : (leafAugL l : Logged K A A).result = .ok (leafAug l) := rfl

@[simp] theorem innerAugL_result (n : Inner K A) : (innerAugL V n).result = .ok (innerAug V n) := rfl

omit [Augmentation K V A] in
@[simp] theorem insertLeafL_result (o : Answers K) (s : Store K V A) (id : Nat) (k : K) (v : V) :
    (insertLeafL o s id k v).result = insertLeafU o s id k v := by
  unfold insertLeafL insertLeafU insertLeafAt
  simp only [Logged.result_bind, Logged.result_lift]
  congr 1; funext leaf; congr 1; funext slot; congr 1; funext r
  obtain ⟨leaf', u⟩ := r
  cases u <;> simp [Logged.result_bind] <;> rfl

@[simp] theorem insertAscendL_result (s : Store K V A) (stack : List StackEntry)
    (r : InsertResult K V) : (insertAscendL s stack r).result = insertAscend s stack r := by
  induction stack generalizing s r with
  | nil => rfl
  | cons e stack ih =>
    obtain ⟨id, idx, c⟩ := e
    cases r with
    | inserted => simp [insertAscendL, insertAscend, ih]
    | updated v => simp [insertAscendL, insertAscend, ih]
    | split k rc =>
      simp only [insertAscendL, insertAscend, Logged.result_bind, newAugmentationL_result,
        Logged.result_lift, setAugmentationL_result]
      congr 1; funext a; congr 1; funext b; congr 1; funext n; congr 1; funext n'
      split <;> simp [ih]

@[simp] theorem descendInsertL_result (o : Answers K) (s : Store K V A) (i : NodeId) (k : K) (v : V) :
    (descendInsertL o s i k v).result = descendInsertU o s i k v := by
  cases i <;> simp [descendInsertL, descendInsertU]

@[simp] theorem finishInsertL_result (t : Tree K V A) (s : Store K V A) (r : InsertResult K V) :
    (t.finishInsertL s r).result = t.finishInsert s r := by
  cases r <;> simp [Tree.finishInsertL, Tree.finishInsert]

@[simp] theorem insertL_result (o : Answers K) (t : Tree K V A) (k : K) (v : V) :
    (t.insertL o k v).result = t.insertU o k v := by
  simp [Tree.insertL, Tree.insertU]

@[simp] theorem tryRotateRightInnerL_result (s : Store K V A) (n : Inner K A) (i : Nat) :
    (tryRotateRightInnerL s n i).result = tryRotateRightInner s n i := by
  simp only [tryRotateRightInnerL, tryRotateRightInner, Logged.result_bind, Logged.result_lift,
    bind_assoc]
  congr 1; funext a; congr 1; funext b; congr 1; funext c; congr 1; funext d; congr 1; funext e
  split <;> simp

@[simp] theorem tryRotateLeftInnerL_result (s : Store K V A) (n : Inner K A) (i : Nat) :
    (tryRotateLeftInnerL s n i).result = tryRotateLeftInner s n i := by
  simp only [tryRotateLeftInnerL, tryRotateLeftInner, Logged.result_bind, Logged.result_lift,
    bind_assoc]
  congr 1; funext a; congr 1; funext b; congr 1; funext c; congr 1; funext d; congr 1; funext e
  split <;> simp

@[simp] theorem mergeInnerNodeL_result (s : Store K V A) (n : Inner K A) (i : Nat) :
    (mergeInnerNodeL s n i).result = mergeInnerNode s n i := by
  simp only [mergeInnerNodeL, mergeInnerNode]
  split <;> simp

@[simp] theorem handleInnerUnderSizeL_result (s : Store K V A) (st : Statistic)
    (n : Inner K A) (i : Nat) (d : K × V) :
    (handleInnerUnderSizeL s st n i d).result = handleInnerUnderSize s st n i d := by
  simp only [handleInnerUnderSizeL, handleInnerUnderSize, Logged.result_bind]
  congr 1
  · split <;> simp
  · funext r
    cases r with
    | some r => rfl
    | none =>
      simp only [Logged.result_bind]
      congr 1
      · split <;> simp
      · funext r
        cases r with
        | some r => rfl
        | none =>
          simp only [Logged.result_bind, mergeInnerNodeL_result]
          congr 1
          funext r
          split <;> rfl

@[simp] theorem rotateRightForLeafL_result (s : Store K V A) (n : Inner K A) (i d : Nat) :
    (rotateRightForLeafL s n i d).result = rotateRightForLeaf s n i d := by
  simp only [rotateRightForLeafL, rotateRightForLeaf, Logged.result_bind, Logged.result_lift,
    bind_assoc]
  congr 1; funext a; congr 1; funext b; congr 1; funext c; congr 1; funext d; congr 1; funext e
  split <;> simp

@[simp] theorem rotateLeftForLeafL_result (s : Store K V A) (n : Inner K A) (i d : Nat) :
    (rotateLeftForLeafL s n i d).result = rotateLeftForLeaf s n i d := by
  simp only [rotateLeftForLeafL, rotateLeftForLeaf, Logged.result_bind, Logged.result_lift,
    bind_assoc]
  congr 1; funext a; congr 1; funext b; congr 1; funext c; congr 1; funext d; congr 1; funext e
  split <;> simp

@[simp] theorem mergeLeafNodeLeftL_result (s : Store K V A) (n : Inner K A) (i d : Nat) :
    (mergeLeafNodeLeftL s n i d).result = mergeLeafNodeLeft s n i d := by
  simp [mergeLeafNodeLeftL, mergeLeafNodeLeft]

@[simp] theorem mergeLeafNodeWithRightL_result (s : Store K V A) (n : Inner K A)
    (i d : Nat) :
    (mergeLeafNodeWithRightL s n i d).result = mergeLeafNodeWithRight s n i d := by
  simp [mergeLeafNodeWithRightL, mergeLeafNodeWithRight]

@[simp] theorem handleLeafUnderSizeL_result (s : Store K V A) (st : Statistic)
    (n : Inner K A) (i d : Nat) :
    (handleLeafUnderSizeL s st n i d).result = handleLeafUnderSize s st n i d := by
  simp only [handleLeafUnderSizeL, handleLeafUnderSize, Logged.result_bind, Logged.result_lift]
  congr 1; funext a; congr 1; funext b; congr 1; funext c
  cases c <;> simp

@[simp] theorem removeAscendL_result (s : Store K V A) (st : Statistic) (stack : List StackEntry)
    (r : DeleteResult K V) : (removeAscendL s st stack r).result = removeAscend s st stack r := by
  induction stack generalizing s st r with
  | nil => rfl
  | cons e stack ih =>
    obtain ⟨id, idx, c⟩ := e
    cases r <;> simp [removeAscendL, removeAscend, ih]

@[simp] theorem removeByRefL_result (t : Tree K V A) (e : EntryRef) :
    (t.removeByRefL e).result = t.removeByRef e := by
  simp only [Tree.removeByRefL, Tree.removeByRef, Logged.result_bind, Logged.result_lift,
    removeAscendL_result, newAugmentationL_result]
  congr 1; funext a; congr 1; funext b; congr 1; funext c; congr 1; funext d; congr 1; funext e
  split <;> simp

@[simp] theorem removeL_result (o : Answers K) (t : Tree K V A) :
    (t.removeL o).result = t.removeU o := by
  simp only [Tree.removeL, Tree.removeU, Tree.removeImplU, Logged.result_bind, Logged.result_lift,
    bind_assoc]
  congr 1; funext r
  cases r <;> simp


end
end Bpt
