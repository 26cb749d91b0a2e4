import Verif.Proofs.RawTree

/-!
# Simulation of the list-level model by the slot-level model: removal
-/

namespace Bpt
namespace Raw
variable {K V A : Type}
variable {s : Bpt.Store K V A} {t : Store K V A} {m : Inner K A} {n : InnerS K A}

theorem leafAble (h : LeafRep (l : Leaf K V) x) : leafAbleToLend x = l.ableToLend := by
  unfold leafAbleToLend Leaf.ableToLend
  rw [h.size]

theorem innerAble (h : InnerRep m n) : innerAbleToLend n = m.ableToLend := by
  unfold innerAbleToLend Inner.ableToLend
  rw [h.size]

theorem keyToRef_sim [LinearOrder K] {t : Bpt.Tree K V A} {u : Tree K V A} (h : TreeRep t u) (k : K) :
    Sim (· = ·) (t.keyToRef k) (u.keyToRef k) := by
  unfold Bpt.Tree.keyToRef Tree.keyToRef
  rw [h.root]
  refine Sim.bind (descendLeaf_sim h.store (insertDescendStep_sim k) _ _) ?_
  rintro ⟨st, l⟩ _ rfl
  refine Sim.bind (getLeaf_sim h.store l) (fun l n hln => ?_)
  refine Sim.right (hln.locateSlot k) ?_
  cases l.locateSlot k with
  | vacant i => exact Sim.pure rfl
  | found i => exact Sim.pure rfl

/-- Two optional pairs of a store and a node. -/
def OptSN : Option (Bpt.Store K V A × Inner K A) → Option (Store K V A × InnerS K A) → Prop
  | some a, some b => StoreRep a.1 b.1 ∧ InnerRep a.2 b.2
  | none, none => True
  | _, _ => False

variable [Augmentation K V A]

theorem tryRotateRightInner_sim (h : StoreRep s t) (hn : InnerRep m n) (slot : Nat) :
    Sim OptSN (Bpt.tryRotateRightInner s m slot) (tryRotateRightInner t n slot) := by
  unfold Bpt.tryRotateRightInner tryRotateRightInner
  refine Sim.bind (childId_sim hn _) ?_
  rintro c _ rfl
  refine Sim.bindEq fun rid => ?_
  refine Sim.bind (childId_sim hn _) ?_
  rintro c _ rfl
  refine Sim.bindEq fun lid => ?_
  refine Sim.bind (getInner_sim h lid) (fun pm pn hp => ?_)
  refine Sim.ite (by rw [innerAble hp]) (fun _ => ?_) (fun _ => Sim.pure trivial)
  refine Sim.bind (inner_pop_sim hp) ?_
  rintro ⟨⟨k, c, a⟩, pm⟩ ⟨_, pn⟩ ⟨rfl, hp⟩
  dsimp only at hp ⊢
  refine Sim.right hp.innerAug ?_
  refine Sim.bind (setKey_sim hn slot k) ?_
  rintro ⟨k, m⟩ ⟨_, n⟩ ⟨rfl, hn⟩
  dsimp only at hn ⊢
  have h := h.setInner hp lid
  refine Sim.bind (getInner_sim h rid) (fun rm rn hr => ?_)
  refine Sim.bind (inner_pushFront_sim hr k c a) (fun rm rn hr => ?_)
  refine Sim.right hr.innerAug ?_
  refine Sim.bind (setAugmentation_sim hn _ _) (fun m n hn => ?_)
  refine Sim.bind (setAugmentation_sim hn _ _) (fun m n hn => ?_)
  exact Sim.pure ⟨h.setInner hr rid, hn⟩

theorem tryRotateLeftInner_sim (h : StoreRep s t) (hn : InnerRep m n) (slot : Nat) :
    Sim OptSN (Bpt.tryRotateLeftInner s m slot) (tryRotateLeftInner t n slot) := by
  unfold Bpt.tryRotateLeftInner tryRotateLeftInner
  refine Sim.bind (childId_sim hn _) ?_
  rintro c _ rfl
  refine Sim.bindEq fun rid => ?_
  refine Sim.bind (childId_sim hn _) ?_
  rintro c _ rfl
  refine Sim.bindEq fun lid => ?_
  refine Sim.bind (getInner_sim h rid) (fun pm pn hp => ?_)
  refine Sim.ite (by rw [innerAble hp]) (fun _ => ?_) (fun _ => Sim.pure trivial)
  refine Sim.bind (inner_popFront_sim hp) ?_
  rintro ⟨⟨k, c, a⟩, pm⟩ ⟨_, pn⟩ ⟨rfl, hp⟩
  dsimp only at hp ⊢
  refine Sim.right hp.innerAug ?_
  refine Sim.bind (setKey_sim hn slot k) ?_
  rintro ⟨k, m⟩ ⟨_, n⟩ ⟨rfl, hn⟩
  dsimp only at hn ⊢
  have h := h.setInner hp rid
  refine Sim.bind (getInner_sim h lid) (fun rm rn hr => ?_)
  refine Sim.bind (inner_push_sim hr k c a) (fun rm rn hr => ?_)
  refine Sim.right hr.innerAug ?_
  refine Sim.bind (setAugmentation_sim hn _ _) (fun m n hn => ?_)
  refine Sim.bind (setAugmentation_sim hn _ _) (fun m n hn => ?_)
  exact Sim.pure ⟨h.setInner hr lid, hn⟩

theorem mergeInnerNode_sim (h : StoreRep s t) (hn : InnerRep m n) (slot : Nat) :
    Sim (PairR (· = ·) (PairR StoreRep InnerRep)) (Bpt.mergeInnerNode s m slot)
      (mergeInnerNode t n slot) := by
  unfold Bpt.mergeInnerNode mergeInnerNode
  refine Sim.ite (by rw [hn.size]) (fun _ => Sim.error_bind) (fun _ => ?_)
  refine Sim.bind (childId_sim hn _) ?_
  rintro c _ rfl
  refine Sim.bindEq fun lid => ?_
  refine Sim.bind (childId_sim hn _) ?_
  rintro c _ rfl
  refine Sim.bindEq fun rid => ?_
  refine Sim.bind (removeSlot_sim hn slot) ?_
  rintro ⟨b, k, m⟩ ⟨_, _, n⟩ ⟨rfl, rfl, hn⟩
  dsimp only at hn ⊢
  refine Sim.bind (takeInner_sim h rid) ?_
  rintro ⟨rm, s⟩ ⟨rn, t⟩ ⟨hr, h⟩
  dsimp only at hr h ⊢
  refine Sim.bind (getInner_sim h lid) (fun lm ln hl => ?_)
  refine Sim.bind (mergeNext_sim hl hr k) ?_
  rintro lm ⟨ln, _⟩ hl
  dsimp only at hl ⊢
  refine Sim.right hl.innerAug ?_
  refine Sim.bind (setAugmentation_sim hn _ _) (fun m n hn => ?_)
  exact Sim.pure ⟨rfl, h.setInner hl lid, hn⟩

/-- The results of the two under-size handlers. -/
abbrev FixR : (DeleteResult K V × Bpt.Store K V A × Statistic × Inner K A) →
    (DeleteResult K V × Store K V A × Statistic × InnerS K A) → Prop :=
  PairR (· = ·) (PairR StoreRep (PairR (· = ·) InnerRep))

theorem handleInnerUnderSize_sim (h : StoreRep s t) (st : Statistic) (hn : InnerRep m n)
    (childIdx : Nat) (d : K × V) :
    Sim FixR (Bpt.handleInnerUnderSize s st m childIdx d) (handleInnerUnderSize t st n childIdx d) := by
  unfold Bpt.handleInnerUnderSize handleInnerUnderSize
  refine Sim.bind (R := OptSN) (Sim.ite Iff.rfl (fun _ => tryRotateRightInner_sim h hn _)
    (fun _ => Sim.pure trivial)) ?_
  intro a b hab
  match a, b, hab with
  | some (s', m'), some (t', n'), hab => exact Sim.pure ⟨rfl, hab.1, rfl, hab.2⟩
  | none, none, _ =>
    refine Sim.bind (R := OptSN) (Sim.ite (by rw [hn.size]) (fun _ => tryRotateLeftInner_sim h hn _)
      (fun _ => Sim.pure trivial)) ?_
    intro a b hab
    match a, b, hab with
    | some (s', m'), some (t', n'), hab => exact Sim.pure ⟨rfl, hab.1, rfl, hab.2⟩
    | none, none, _ =>
      dsimp only
      generalize (if 0 < childIdx
        then (childIdx - 1, { st with mergeWithLeftInner := st.mergeWithLeftInner + 1 })
        else (childIdx, { st with mergeWithRightInner := st.mergeWithRightInner + 1 }) :
          Nat × Statistic) = p
      obtain ⟨slot, st⟩ := p
      refine Sim.bind (mergeInnerNode_sim h hn slot) ?_
      rintro ⟨b, s, m⟩ ⟨_, t, n⟩ ⟨rfl, h, hn⟩
      exact Sim.ite Iff.rfl (fun _ => Sim.pure ⟨rfl, h, rfl, hn⟩) (fun _ => Sim.pure ⟨rfl, h, rfl, hn⟩)

theorem rotateRightForLeaf_sim (h : StoreRep s t) (hn : InnerRep m n) (slot di : Nat) :
    Sim (PairR (· = ·) (PairR StoreRep InnerRep)) (Bpt.rotateRightForLeaf s m slot di)
      (rotateRightForLeaf t n slot di) := by
  unfold Bpt.rotateRightForLeaf rotateRightForLeaf
  refine Sim.bind (childId_sim hn _) ?_
  rintro c _ rfl
  refine Sim.bindEq fun lid => ?_
  refine Sim.bind (childId_sim hn _) ?_
  rintro c _ rfl
  refine Sim.bindEq fun rid => ?_
  refine Sim.bind (getLeaf_sim h lid) (fun lm ln hl => ?_)
  refine Sim.ite (by rw [leafAble hl]) (fun _ => Sim.error_bind) (fun _ => ?_)
  refine Sim.bind (leaf_pop_sim hl) ?_
  rintro ⟨kv, lm⟩ ⟨_, ln⟩ ⟨rfl, hl⟩
  dsimp only at hl ⊢
  refine Sim.right hl.leafAug ?_
  refine Sim.bind (setAugmentation_sim hn _ _) (fun m n hn => ?_)
  have h := h.setLeaf hl lid
  refine Sim.bind (getLeaf_sim h rid) (fun rm rn hr => ?_)
  refine Sim.bind (deleteWithPushFront_sim hr di kv) ?_
  rintro ⟨d, rm⟩ ⟨_, rn⟩ ⟨rfl, hr⟩
  dsimp only at hr ⊢
  refine Sim.right hr.leafAug ?_
  refine Sim.bind (setAugmentation_sim hn _ _) (fun m n hn => ?_)
  refine Sim.bind (setKey_sim hn slot kv.1) ?_
  rintro ⟨k, m⟩ ⟨_, n⟩ ⟨rfl, hn⟩
  exact Sim.pure ⟨rfl, (h.setLeaf hr rid).cacheLeaf rid, hn⟩

theorem rotateLeftForLeaf_sim (h : StoreRep s t) (hn : InnerRep m n) (slot di : Nat) :
    Sim (PairR (· = ·) (PairR StoreRep InnerRep)) (Bpt.rotateLeftForLeaf s m slot di)
      (rotateLeftForLeaf t n slot di) := by
  unfold Bpt.rotateLeftForLeaf rotateLeftForLeaf
  refine Sim.bind (childId_sim hn _) ?_
  rintro c _ rfl
  refine Sim.bindEq fun lid => ?_
  refine Sim.bind (childId_sim hn _) ?_
  rintro c _ rfl
  refine Sim.bindEq fun rid => ?_
  refine Sim.bind (getLeaf_sim h rid) (fun rm rn hr => ?_)
  refine Sim.ite (by rw [leafAble hr]) (fun _ => Sim.error_bind) (fun _ => ?_)
  refine Sim.bind (leaf_popFront_sim hr) ?_
  rintro ⟨kv, rm⟩ ⟨_, rn⟩ ⟨rfl, hr⟩
  dsimp only at hr ⊢
  refine Sim.right hr.leafAug ?_
  refine Sim.bind (setAugmentation_sim hn _ _) (fun m n hn => ?_)
  refine Sim.bind (dataAt_sim hr 0) ?_
  rintro f _ rfl
  have h := h.setLeaf hr rid
  refine Sim.bind (getLeaf_sim h lid) (fun lm ln hl => ?_)
  refine Sim.bind (deleteWithPush_sim hl di kv) ?_
  rintro ⟨d, lm⟩ ⟨_, ln⟩ ⟨rfl, hl⟩
  dsimp only at hl ⊢
  refine Sim.right hl.leafAug ?_
  refine Sim.bind (setAugmentation_sim hn _ _) (fun m n hn => ?_)
  refine Sim.bind (setKey_sim hn slot f.1) ?_
  rintro ⟨k, m⟩ ⟨_, n⟩ ⟨rfl, hn⟩
  exact Sim.pure ⟨rfl, (h.setLeaf hl lid).cacheLeaf lid, hn⟩

omit [Augmentation K V A] in
theorem relinkNext_sim (h : StoreRep s t) {l : Leaf K V} {x : LeafS K V} (hl : LeafRep l x) (id : Nat) :
    Sim StoreRep (Bpt.relinkNext s l id) (relinkNext t x id) := by
  unfold Bpt.relinkNext relinkNext
  rw [hl.next]
  cases l.next with
  | none => exact Sim.pure h
  | some nx =>
    refine Sim.bind (getLeaf_sim h nx) (fun l n hln => ?_)
    exact Sim.pure (h.setLeaf (hln.setPrev _) nx)

theorem mergeLeafNodeLeft_sim (h : StoreRep s t) (hn : InnerRep m n) (slot di : Nat) :
    Sim (PairR (· = ·) (PairR StoreRep InnerRep)) (Bpt.mergeLeafNodeLeft s m slot di)
      (mergeLeafNodeLeft t n slot di) := by
  unfold Bpt.mergeLeafNodeLeft mergeLeafNodeLeft
  refine Sim.bind (childId_sim hn _) ?_
  rintro c _ rfl
  refine Sim.bindEq fun lid => ?_
  refine Sim.bind (childId_sim hn _) ?_
  rintro c _ rfl
  refine Sim.bindEq fun rid => ?_
  refine Sim.bind (takeLeaf_sim h rid) ?_
  rintro ⟨rm, s⟩ ⟨rn, t⟩ ⟨hr, h⟩
  dsimp only at hr h ⊢
  refine Sim.bind (getLeaf_sim h lid) (fun lm ln hl => ?_)
  refine Sim.bind (mergeRightDeleteFirst_sim hl hr di) ?_
  rintro ⟨kv, lm⟩ ⟨_, ln, _⟩ ⟨rfl, hl⟩
  dsimp only at hl ⊢
  refine Sim.right hl.leafAug ?_
  refine Sim.bind (setAugmentation_sim hn _ _) (fun m n hn => ?_)
  refine Sim.bind (relinkNext_sim (h.setLeaf hl lid) hl lid) (fun s t h => ?_)
  refine Sim.bind (removeSlot_sim hn slot) ?_
  rintro ⟨b, k, m⟩ ⟨_, _, n⟩ ⟨rfl, rfl, hn⟩
  exact Sim.pure ⟨rfl, h.cacheLeaf lid, hn⟩

theorem mergeLeafNodeWithRight_sim (h : StoreRep s t) (hn : InnerRep m n) (slot di : Nat) :
    Sim (PairR (· = ·) (PairR StoreRep InnerRep)) (Bpt.mergeLeafNodeWithRight s m slot di)
      (mergeLeafNodeWithRight t n slot di) := by
  unfold Bpt.mergeLeafNodeWithRight mergeLeafNodeWithRight
  refine Sim.bind (childId_sim hn _) ?_
  rintro c _ rfl
  refine Sim.bindEq fun lid => ?_
  refine Sim.bind (childId_sim hn _) ?_
  rintro c _ rfl
  refine Sim.bindEq fun rid => ?_
  refine Sim.bind (takeLeaf_sim h rid) ?_
  rintro ⟨rm, s⟩ ⟨rn, t⟩ ⟨hr, h⟩
  dsimp only at hr h ⊢
  refine Sim.bind (getLeaf_sim h lid) (fun lm ln hl => ?_)
  refine Sim.bind (deleteAt_sim hl di) ?_
  rintro ⟨kv, lm⟩ ⟨_, ln⟩ ⟨rfl, hl⟩
  dsimp only at hl ⊢
  refine Sim.bind (mergeRight_sim hl hr) ?_
  rintro lm ⟨ln, _⟩ hl
  dsimp only at hl ⊢
  refine Sim.right hl.leafAug ?_
  refine Sim.bind (setAugmentation_sim hn _ _) (fun m n hn => ?_)
  refine Sim.bind (relinkNext_sim (h.setLeaf hl lid) hl lid) (fun s t h => ?_)
  refine Sim.bind (removeSlot_sim hn slot) ?_
  rintro ⟨b, k, m⟩ ⟨_, _, n⟩ ⟨rfl, rfl, hn⟩
  exact Sim.pure ⟨rfl, h.cacheLeaf lid, hn⟩

omit [Augmentation K V A] in
theorem chooseFix_eq {p q : Option (Leaf K V)} {p' q' : Option (LeafS K V)}
    (hp : Option.Rel LeafRep p p') (hq : Option.Rel LeafRep q q') :
    chooseFix p' q' = Bpt.chooseFix p q := by
  cases hp with
  | none =>
    cases hq with
    | none => rfl
    | some hq => unfold chooseFix Bpt.chooseFix; simp only [leafAble hq]
  | some hp =>
    cases hq with
    | none => unfold chooseFix Bpt.chooseFix; simp only [leafAble hp]
    | some hq => unfold chooseFix Bpt.chooseFix; simp only [leafAble hq, leafAble hp, hp.size, hq.size]

theorem handleLeafUnderSize_sim (h : StoreRep s t) (st : Statistic) (hn : InnerRep m n)
    (childIdx ki : Nat) :
    Sim FixR (Bpt.handleLeafUnderSize s st m childIdx ki) (handleLeafUnderSize t st n childIdx ki) := by
  unfold Bpt.handleLeafUnderSize handleLeafUnderSize
  have sib : ∀ i, Sim (Option.Rel LeafRep) (do
      let id ← (← m.childId i).leafIdUnchecked
      let l ← s.getLeaf id
      return some l : Res (Option (Leaf K V))) (siblingLeaf t n i) := by
    intro i
    refine Sim.bind (childId_sim hn _) ?_
    rintro c _ rfl
    refine Sim.bindEq fun lid => ?_
    exact Sim.bind (getLeaf_sim h lid) (fun lm ln hl => Sim.pure (Option.Rel.some hl))
  refine Sim.bind (Sim.ite Iff.rfl (fun _ => sib _) (fun _ => Sim.pure Option.Rel.none)) ?_
  intro p p' hp
  refine Sim.bind (Sim.ite (by rw [hn.size]) (fun _ => sib _) (fun _ => Sim.pure Option.Rel.none)) ?_
  intro q q' hq
  rw [chooseFix_eq hp hq]
  refine Sim.bindEq fun a => ?_
  cases a with
  | rotateRight =>
    refine Sim.bind (rotateRightForLeaf_sim h hn _ _) ?_
    rintro ⟨b, s, m⟩ ⟨_, t, n⟩ ⟨rfl, h, hn⟩
    exact Sim.pure ⟨rfl, h, rfl, hn⟩
  | rotateLeft =>
    refine Sim.bind (rotateLeftForLeaf_sim h hn _ _) ?_
    rintro ⟨b, s, m⟩ ⟨_, t, n⟩ ⟨rfl, h, hn⟩
    exact Sim.pure ⟨rfl, h, rfl, hn⟩
  | mergeLeft =>
    refine Sim.bind (mergeLeafNodeLeft_sim h hn _ _) ?_
    rintro ⟨b, s, m⟩ ⟨_, t, n⟩ ⟨rfl, h, hn⟩
    exact Sim.pure ⟨rfl, h, rfl, hn⟩
  | mergeRight =>
    refine Sim.bind (mergeLeafNodeWithRight_sim h hn _ _) ?_
    rintro ⟨b, s, m⟩ ⟨_, t, n⟩ ⟨rfl, h, hn⟩
    exact Sim.pure ⟨rfl, h, rfl, hn⟩

theorem removeAscend_sim : ∀ (stack : List StackEntry) (s : Bpt.Store K V A) (t : Store K V A)
    (_ : StoreRep s t) (st : Statistic) (r : DeleteResult K V),
    Sim (PairR (· = ·) (PairR StoreRep (· = ·))) (Bpt.removeAscend s st stack r)
      (removeAscend t st stack r) := by
  intro stack
  induction stack with
  | nil =>
    intro s t h st r
    unfold Bpt.removeAscend removeAscend
    exact Sim.pure ⟨rfl, h, rfl⟩
  | cons e stack ih =>
    intro s t h st r
    obtain ⟨id, ci, cid⟩ := e
    cases r with
    | done kv =>
      unfold Bpt.removeAscend removeAscend
      refine Sim.bind (newAug_sim h cid) ?_
      rintro a _ rfl
      refine Sim.bind (getInner_sim h id) (fun m n hmn => ?_)
      refine Sim.bind (setAugmentation_sim hmn ci a) (fun m n hmn => ?_)
      exact ih _ _ (h.setInner hmn id) _ _
    | innerUnderSize kv =>
      unfold Bpt.removeAscend removeAscend
      refine Sim.bind (getInner_sim h id) (fun m n hmn => ?_)
      refine Sim.bind (handleInnerUnderSize_sim h st hmn ci kv) ?_
      rintro ⟨r, s, st, m⟩ ⟨_, t, _, n⟩ ⟨rfl, h, rfl, hn⟩
      exact ih _ _ (StoreRep.setInner h hn id) _ _
    | leafUnderSize idx =>
      unfold Bpt.removeAscend removeAscend
      refine Sim.bind (getInner_sim h id) (fun m n hmn => ?_)
      refine Sim.bind (handleLeafUnderSize_sim h st hmn ci idx) ?_
      rintro ⟨r, s, st, m⟩ ⟨_, t, _, n⟩ ⟨rfl, h, rfl, hn⟩
      exact ih _ _ (StoreRep.setInner h hn id) _ _

omit [Augmentation K V A] in
theorem removeRoot_sim (h : StoreRep s t) (root : NodeId) (r : DeleteResult K V) :
    Sim (PairR (· = ·) (PairR StoreRep (· = ·))) (Bpt.removeRoot s root r) (removeRoot t root r) := by
  cases r with
  | done kv => exact Sim.pure ⟨rfl, h, rfl⟩
  | innerUnderSize kv =>
    unfold Bpt.removeRoot removeRoot
    refine Sim.bindEq fun id => ?_
    refine Sim.bind (getInner_sim h id) (fun m n hmn => ?_)
    refine Sim.ite (by rw [hmn.size]; simp [Inner.isEmpty]) (fun _ => ?_) (fun _ => Sim.pure ⟨rfl, h, rfl⟩)
    refine Sim.bind (childId_sim hmn 0) ?_
    rintro c _ rfl
    exact Sim.pure ⟨rfl, h, rfl⟩
  | leafUnderSize idx =>
    unfold Bpt.removeRoot removeRoot
    refine Sim.bindEq fun id => ?_
    refine Sim.bind (getLeaf_sim h id) (fun l x hl => ?_)
    refine Sim.bind (deleteAt_sim hl idx) ?_
    rintro ⟨kv, l⟩ ⟨_, x⟩ ⟨rfl, hl⟩
    exact Sim.pure ⟨rfl, h.setLeaf hl id, rfl⟩

theorem removeByRef_sim {t : Bpt.Tree K V A} {u : Tree K V A} (h : TreeRep t u) (e : EntryRef) :
    Sim (PairR (· = ·) TreeRep) (t.removeByRef e) (u.removeByRef e) := by
  unfold Bpt.Tree.removeByRef Tree.removeByRef
  refine Sim.bind (getLeaf_sim h.store _) (fun l x hl => ?_)
  refine Sim.bind (tryDeleteAt_sim hl _) ?_
  rintro ⟨l, d⟩ ⟨x, _⟩ ⟨hl, rfl⟩
  dsimp only at hl ⊢
  rw [h.st, h.root, h.len]
  refine Sim.bind (removeAscend_sim _ _ _ (h.store.setLeaf hl _) _ _) ?_
  rintro ⟨r, s, st⟩ ⟨_, t', _⟩ ⟨rfl, hs, rfl⟩
  dsimp only at hs ⊢
  refine Sim.bind (removeRoot_sim hs _ _) ?_
  rintro ⟨kv, s, root⟩ ⟨_, t', _⟩ ⟨rfl, hs, rfl⟩
  dsimp only at hs ⊢
  refine Sim.bind (newAug_sim hs _) ?_
  rintro a _ rfl
  refine Sim.ite Iff.rfl (fun _ => Sim.error_bind) (fun _ => ?_)
  exact Sim.pure ⟨rfl, rfl, rfl, rfl, hs, rfl⟩

theorem removeImpl_sim [LinearOrder K] {t : Bpt.Tree K V A} {u : Tree K V A} (h : TreeRep t u)
    (k : K) : Sim (PairR (· = ·) TreeRep) (t.removeImpl k) (u.removeImpl k) := by
  unfold Bpt.Tree.removeImpl Tree.removeImpl
  refine Sim.bind (keyToRef_sim h k) ?_
  rintro a _ rfl
  cases a with
  | none => exact Sim.pure ⟨rfl, h⟩
  | some e =>
    refine Sim.bind (removeByRef_sim h e) ?_
    rintro ⟨kv, t⟩ ⟨_, u⟩ ⟨rfl, h⟩
    exact Sim.pure ⟨rfl, h⟩

theorem remove_sim [LinearOrder K] {t : Bpt.Tree K V A} {u : Tree K V A} (h : TreeRep t u) (k : K) :
    Sim (PairR (· = ·) TreeRep) (t.remove k) (u.remove k) := by
  unfold Bpt.Tree.remove Tree.remove
  refine Sim.bind (removeImpl_sim h k) ?_
  rintro ⟨kv, t⟩ ⟨_, u⟩ ⟨rfl, h⟩
  exact Sim.pure ⟨rfl, h⟩

end Raw
end Bpt
