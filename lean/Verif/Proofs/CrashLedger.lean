import Verif.Proofs.Crash
import Verif.MadeSpec

/-!
# The crash points of a call are the objects it makes

The trace of user code (`Model/Crash.lean`) and the ledger of objects (`Model/Ledger.lean`) are two
separate listings of the same functions. They agree.
-/

namespace Bpt
variable {K V A : Type}

/-- Same outcome, same objects made in the same order. -/
def MadeAlike {σ α : Type} (x : Traced σ α) (y : Logged K A α) : Prop :=
  x.result = y.result ∧ x.trace.filterMap (·.1.kind) = y.log.filterMap Event.kind

namespace MadeAlike
variable {σ τ α β : Type}

theorem pure (a : α) : MadeAlike (Pure.pure a : Traced σ α) (Pure.pure a : Logged K A α) := ⟨rfl, rfl⟩

theorem lift (x : Res α) : MadeAlike (liftM x : Traced σ α) (liftM x : Logged K A α) := ⟨rfl, rfl⟩

theorem bind {x : Traced σ α} {y : Logged K A α} {f : α → Traced σ β} {g : α → Logged K A β}
    (h : MadeAlike x y) (hf : ∀ a, MadeAlike (f a) (g a)) : MadeAlike (x >>= f) (y >>= g) := by
  obtain ⟨tx, rx⟩ := x
  obtain ⟨ly, ry⟩ := y
  obtain ⟨h1, h2⟩ := h
  dsimp only at h1 h2
  subst h1
  cases rx with
  | error e => exact ⟨rfl, h2⟩
  | ok a =>
    obtain ⟨h3, h4⟩ := hf a
    refine ⟨h3, ?_⟩
    show (tx ++ (f a).trace).filterMap _ = (ly ++ (g a).log).filterMap _
    rw [List.filterMap_append, List.filterMap_append, h2, h4]

theorem lift_bind {x : Res α} {f : α → Traced σ β} {g : α → Logged K A β}
    (hf : ∀ a, MadeAlike (f a) (g a)) :
    MadeAlike ((liftM x : Traced σ α) >>= f) ((liftM x : Logged K A α) >>= g) := bind (lift x) hf

theorem mapMem {x : Traced σ α} {y : Logged K A α} (f : σ → τ) (h : MadeAlike x y) :
    MadeAlike (Traced.mapMem f x) y := by
  refine ⟨h.1, ?_⟩
  rw [← h.2]
  simp [Traced.mapMem, List.filterMap_map, Function.comp_def]

theorem compare {m : σ} {f : Unit → Traced σ β} {y : Logged K A β} (h : MadeAlike (f ()) y) :
    MadeAlike (Traced.call .compare m >>= f) y := ⟨h.1, h.2⟩

theorem silent {x : Traced σ β} {es : List (Event K A)} {g : Unit → Logged K A β}
    (he : es.filterMap Event.kind = []) (h : MadeAlike x (g ())) : MadeAlike x (Logged.emit es >>= g) := by
  refine ⟨h.1, ?_⟩
  show _ = (es ++ (g ()).log).filterMap _
  rw [List.filterMap_append, he, h.2, List.nil_append]

theorem drops {x : Traced σ β} {k : K} {g : Unit → Logged K A β} (h : MadeAlike x (g ())) :
    MadeAlike x (Logged.emit [.dropKey k] >>= g) := silent rfl h

theorem dropsAug {x : Traced σ β} {a : A} {g : Unit → Logged K A β} (h : MadeAlike x (g ())) :
    MadeAlike x (Logged.emit [.dropAug a] >>= g) := silent rfl h

theorem clone {m : σ} {k : K} {f : Unit → Traced σ β} {g : Unit → Logged K A β}
    (h : MadeAlike (f ()) (g ())) :
    MadeAlike (Traced.call .cloneKey m >>= f) (Logged.emit [.cloneKey k] >>= g) := by
  refine ⟨h.1, ?_⟩
  show Made.keyCopy :: _ = Made.keyCopy :: _
  exact congrArg _ h.2

theorem guard {c : Prop} [Decidable c] {e : Res Unit} {f : Unit → Traced σ β}
    {g : Unit → Logged K A β} (h : ∀ u, MadeAlike (f u) (g u)) :
    MadeAlike (if c then (liftM e : Traced σ Unit) >>= f else f ())
      (if c then (liftM e : Logged K A Unit) >>= g else g ()) := by
  split
  · exact lift_bind h
  · exact h ()

section
variable [Augmentation K V A]

theorem leaf {m : σ} {l : Leaf K V} {f : Unit → Traced σ β} {g : A → Logged K A β}
    (h : MadeAlike (f ()) (g (leafAug l))) :
    MadeAlike (Traced.call (.ofLeaf l) m >>= f) (leafAugL l >>= g) := by
  refine ⟨h.1, ?_⟩
  show Made.summary :: _ = Made.summary :: _
  exact congrArg _ h.2

theorem inner {m : σ} {n : Inner K A} {f : Unit → Traced σ β} {g : A → Logged K A β}
    (h : MadeAlike (f ()) (g (innerAug V n))) :
    MadeAlike (Traced.call (.ofInner n) m >>= f) (innerAugL V n >>= g) := by
  refine ⟨h.1, ?_⟩
  show Made.summary :: _ = Made.summary :: _
  exact congrArg _ h.2

theorem newAug (m : σ) (s : Store K V A) (id : NodeId) :
    MadeAlike (newAugmentationT m s id) (newAugmentationL s id) := by
  cases id with
  | inner i =>
    dsimp only [newAugmentationT, newAugmentationL, newAugmentationForId]
    cases s.getInner i with
    | error e => exact ⟨rfl, rfl⟩
    | ok n => exact ⟨rfl, rfl⟩
  | leaf i =>
    dsimp only [newAugmentationT, newAugmentationL, newAugmentationForId]
    cases s.getLeaf i with
    | error e => exact ⟨rfl, rfl⟩
    | ok n => exact ⟨rfl, rfl⟩

end

theorem setAug (n : Inner K A) (i : Nat) (a : A) :
    MadeAlike (liftM (n.setAugmentation i a) : Traced σ _) (n.setAugmentationL i a) := by
  unfold Inner.setAugmentationL
  cases n.setAugmentation i a with
  | error e => exact ⟨rfl, rfl⟩
  | ok n' =>
    refine ⟨rfl, ?_⟩
    show _ = ([] ++ (n.augs[i]?.toList.map Event.dropAug ++ [])).filterMap Event.kind
    cases n.augs[i]? <;> rfl

theorem removeSlot (n : Inner K A) (i : Nat) :
    MadeAlike (liftM (n.removeSlotWithRight i) : Traced σ _) (n.removeSlotWithRightL i) := by
  unfold Inner.removeSlotWithRightL
  cases n.removeSlotWithRight i with
  | error e => exact ⟨rfl, rfl⟩
  | ok n' =>
    refine ⟨rfl, ?_⟩
    show _ = ([] ++ (n.augs[i + 1]?.toList.map Event.dropAug ++ [])).filterMap Event.kind
    cases n.augs[i + 1]? <;> rfl

end MadeAlike

section Aug
variable [Augmentation K V A]

omit [Augmentation K V A] in
theorem insertLeaf_made (o : Answers K) (s : Store K V A) (id : Nat) (k : K) (v : V) :
    MadeAlike (insertLeafT o s id k v) (insertLeafL o s id k v) := by
  unfold insertLeafT insertLeafL
  refine .lift_bind fun leaf => .compare (.lift_bind fun slot => .lift_bind fun x => ?_)
  obtain ⟨l', r⟩ := x
  cases r with
  | inserted => exact .pure _
  | updated v0 => exact .drops (.pure _)
  | isFull idx k v =>
    exact .lift_bind fun ll => .lift_bind fun x => .lift_bind fun kv => .clone <|
      .lift_bind fun s => .lift_bind fun s => .pure _

theorem insertAscend_made (s : Store K V A) (stack : List StackEntry) (r : InsertResult K V) :
    MadeAlike (insertAscendT s stack r) (insertAscendL s stack r) := by
  induction stack generalizing s r with
  | nil => cases r <;> exact .pure _
  | cons e stack ih =>
    obtain ⟨id, ci, cid⟩ := e
    cases r with
    | split key rc =>
      dsimp only [insertAscendT, insertAscendL]
      refine .bind (.newAug ..) fun ra => .bind (.newAug ..) fun ca => .lift_bind fun n =>
        .bind (.setAug ..) fun n => ?_
      split
      · exact .lift_bind fun n => ih ..
      · exact .lift_bind fun x => ih ..
    | inserted =>
      exact .bind (.newAug ..) fun ca => .lift_bind fun n => .bind (.setAug ..) fun n => ih ..
    | updated v =>
      exact .bind (.newAug ..) fun ca => .lift_bind fun n => .bind (.setAug ..) fun n => ih ..

theorem descendInsert_made (o : Answers K) (s : Store K V A) (i : NodeId) (k : K) (v : V) :
    MadeAlike (descendInsertT o s i k v) (descendInsertL o s i k v) := by
  cases i with
  | leaf id => exact insertLeaf_made ..
  | inner id =>
    exact .compare (.lift_bind fun x => .bind (insertLeaf_made ..) fun y => insertAscend_made ..)

theorem finishInsert_made (t : Tree K V A) (s : Store K V A) (r : InsertResult K V) :
    MadeAlike (t.finishInsertT s r) (t.finishInsertL s r) := by
  cases r with
  | inserted => exact .bind (.newAug ..) fun a => .dropsAug (.pure _)
  | updated v => exact .bind (.newAug ..) fun a => .dropsAug (.pure _)
  | split k c =>
    exact .bind (.newAug ..) fun a => .bind (.newAug ..) fun b => .lift_bind fun n =>
      .inner (.dropsAug (.pure _))

theorem insert_made (o : Answers K) (t : Tree K V A) (k : K) (v : V) :
    MadeAlike (t.insertT o k v) (t.insertL o k v) :=
  .mapMem _ (.bind (descendInsert_made ..) fun x => finishInsert_made ..)

theorem tryRotateRightInner_made (pid : Nat) (s : Store K V A) (n : Inner K A) (i : Nat) :
    MadeAlike (tryRotateRightInnerT pid s n i) (tryRotateRightInnerL s n i) := by
  unfold tryRotateRightInnerT tryRotateRightInnerL
  refine .lift_bind fun r => .lift_bind fun l => .lift_bind fun p => ?_
  split
  · exact .lift_bind fun x => .inner <| .lift_bind fun y => .lift_bind fun z => .lift_bind fun z =>
      .inner <| .bind (.setAug ..) fun n => .bind (.setAug ..) fun n => .pure _
  · exact .pure _

theorem tryRotateLeftInner_made (pid : Nat) (s : Store K V A) (n : Inner K A) (i : Nat) :
    MadeAlike (tryRotateLeftInnerT pid s n i) (tryRotateLeftInnerL s n i) := by
  unfold tryRotateLeftInnerT tryRotateLeftInnerL
  refine .lift_bind fun r => .lift_bind fun l => .lift_bind fun p => ?_
  split
  · exact .lift_bind fun x => .inner <| .lift_bind fun y => .lift_bind fun z => .lift_bind fun z =>
      .inner <| .bind (.setAug ..) fun n => .bind (.setAug ..) fun n => .pure _
  · exact .pure _

theorem mergeInnerNode_made (pid : Nat) (s : Store K V A) (n : Inner K A) (i : Nat) :
    MadeAlike (mergeInnerNodeT pid s n i) (mergeInnerNodeL s n i) := by
  unfold mergeInnerNodeT mergeInnerNodeL
  refine .guard fun _ => .lift_bind fun l => .lift_bind fun r => .bind (.removeSlot ..) fun x =>
    .lift_bind fun y => .lift_bind fun z => .lift_bind fun z => .inner <|
    .bind (.setAug ..) fun n => .silent ?_ (.pure _)
  generalize y.1.augs.take 1 = l
  induction l with
  | nil => rfl
  | cons a l ih => exact ih

theorem handleInnerUnderSize_made (pid : Nat) (s : Store K V A) (st : Statistic) (n : Inner K A)
    (i : Nat) (d : K × V) :
    MadeAlike (handleInnerUnderSizeT pid s st n i d) (handleInnerUnderSizeL s st n i d) := by
  unfold handleInnerUnderSizeT handleInnerUnderSizeL
  refine .bind ?_ fun x => ?_
  · split
    · exact .mapMem _ (tryRotateRightInner_made ..)
    · exact .pure _
  cases x with
  | some x => exact .pure _
  | none =>
    refine .bind ?_ fun x => ?_
    · split
      · exact .mapMem _ (tryRotateLeftInner_made ..)
      · exact .pure _
    cases x with
    | some x => exact .pure _
    | none =>
      refine .bind (.mapMem _ (mergeInnerNode_made ..)) fun x => ?_
      dsimp only
      split
      · exact .pure _
      · exact .pure _

theorem rotateRightForLeaf_made (pid : Nat) (s : Store K V A) (n : Inner K A) (i d : Nat) :
    MadeAlike (rotateRightForLeafT pid s n i d) (rotateRightForLeafL s n i d) := by
  unfold rotateRightForLeafT rotateRightForLeafL
  exact .lift_bind fun l => .lift_bind fun r => .lift_bind fun ll => .guard fun _ =>
    .lift_bind fun x => .leaf <| .bind (.setAug ..) fun n => .clone <| .lift_bind fun rl =>
    .lift_bind fun y => .leaf <| .bind (.setAug ..) fun n => .lift_bind fun z => .drops (.pure _)

theorem rotateLeftForLeaf_made (pid : Nat) (s : Store K V A) (n : Inner K A) (i d : Nat) :
    MadeAlike (rotateLeftForLeafT pid s n i d) (rotateLeftForLeafL s n i d) := by
  unfold rotateLeftForLeafT rotateLeftForLeafL
  exact .lift_bind fun l => .lift_bind fun r => .lift_bind fun ll => .guard fun _ =>
    .lift_bind fun x => .leaf <| .bind (.setAug ..) fun n => .lift_bind fun f => .clone <|
    .lift_bind fun rl => .lift_bind fun y => .leaf <| .bind (.setAug ..) fun n =>
    .lift_bind fun z => .drops (.pure _)

theorem mergeLeafNodeLeft_made (pid : Nat) (s : Store K V A) (n : Inner K A) (i d : Nat) :
    MadeAlike (mergeLeafNodeLeftT pid s n i d) (mergeLeafNodeLeftL s n i d) := by
  unfold mergeLeafNodeLeftT mergeLeafNodeLeftL
  exact .lift_bind fun l => .lift_bind fun r => .lift_bind fun x => .lift_bind fun ll =>
    .lift_bind fun y => .leaf <| .bind (.setAug ..) fun n => .lift_bind fun s =>
    .bind (.removeSlot ..) fun z => .drops (.pure _)

theorem mergeLeafNodeWithRight_made (pid : Nat) (s : Store K V A) (n : Inner K A) (i d : Nat) :
    MadeAlike (mergeLeafNodeWithRightT pid s n i d) (mergeLeafNodeWithRightL s n i d) := by
  unfold mergeLeafNodeWithRightT mergeLeafNodeWithRightL
  exact .lift_bind fun l => .lift_bind fun r => .lift_bind fun x => .lift_bind fun ll =>
    .lift_bind fun y => .lift_bind fun y => .leaf <| .bind (.setAug ..) fun n => .lift_bind fun s =>
    .bind (.removeSlot ..) fun z => .drops (.pure _)

theorem handleLeafUnderSize_made (pid : Nat) (s : Store K V A) (st : Statistic) (n : Inner K A)
    (i d : Nat) :
    MadeAlike (handleLeafUnderSizeT pid s st n i d) (handleLeafUnderSizeL s st n i d) := by
  unfold handleLeafUnderSizeT handleLeafUnderSizeL
  refine .lift_bind fun p => .lift_bind fun q => .lift_bind fun f => ?_
  cases f with
  | rotateRight => exact .bind (.mapMem _ (rotateRightForLeaf_made ..)) fun x => .pure _
  | rotateLeft => exact .bind (.mapMem _ (rotateLeftForLeaf_made ..)) fun x => .pure _
  | mergeLeft => exact .bind (.mapMem _ (mergeLeafNodeLeft_made ..)) fun x => .pure _
  | mergeRight => exact .bind (.mapMem _ (mergeLeafNodeWithRight_made ..)) fun x => .pure _

theorem removeAscend_made (s : Store K V A) (st : Statistic) (stack : List StackEntry)
    (r : DeleteResult K V) : MadeAlike (removeAscendT s st stack r) (removeAscendL s st stack r) := by
  induction stack generalizing s st r with
  | nil => cases r <;> exact .pure _
  | cons e stack ih =>
    obtain ⟨id, ci, cid⟩ := e
    cases r with
    | done kv =>
      exact .bind (.newAug ..) fun ca => .lift_bind fun n => .bind (.setAug ..) fun n => ih ..
    | innerUnderSize kv =>
      exact .lift_bind fun p => .bind (handleInnerUnderSize_made ..) fun x => ih ..
    | leafUnderSize idx =>
      exact .lift_bind fun p => .bind (handleLeafUnderSize_made ..) fun x => ih ..

theorem removeByRef_made (t : Tree K V A) (e : EntryRef) :
    MadeAlike (t.removeByRefT e) (t.removeByRefL e) := by
  unfold Tree.removeByRefT Tree.removeByRefL
  exact .lift_bind fun l => .lift_bind fun x => .bind (.mapMem _ (removeAscend_made ..)) fun y =>
    .lift_bind fun z => .bind (.newAug ..) fun a => .dropsAug <| .guard fun _ => .pure _

theorem remove_made (o : Answers K) (t : Tree K V A) : MadeAlike (t.removeT o) (t.removeL o) := by
  unfold Tree.removeT Tree.removeL
  refine .compare (.lift_bind fun r => ?_)
  cases r with
  | none => exact .pure _
  | some e => exact .bind (removeByRef_made ..) fun x => .drops (.pure _)

end Aug
end Bpt
