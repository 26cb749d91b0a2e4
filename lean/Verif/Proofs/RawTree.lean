import Verif.Proofs.RawNode

/-!
# Simulation of the list-level model by the slot-level model: store, insertion, lookup
-/

namespace Bpt
namespace Raw

section Lists
variable {α β : Type} {R : α → β → Prop}

theorem forall₂_get {l : List α} {l' : List β} (h : List.Forall₂ R l l') :
    ∀ i : Nat, Option.Rel R l[i]? l'[i]? := by
  induction h with
  | nil => intro i; exact Option.Rel.none
  | cons hr _ ih =>
    intro i
    cases i with
    | zero => exact Option.Rel.some hr
    | succ i => simpa using ih i

theorem forall₂_set {l : List α} {l' : List β} (h : List.Forall₂ R l l') {a : α} {b : β}
    (hab : R a b) : ∀ i : Nat, List.Forall₂ R (l.set i a) (l'.set i b) := by
  induction h with
  | nil => intro i; exact List.Forall₂.nil
  | cons hr ht ih =>
    intro i
    cases i with
    | zero => exact List.Forall₂.cons hab ht
    | succ i => exact List.Forall₂.cons hr (ih i)

theorem forall₂_snoc {l : List α} {l' : List β} (h : List.Forall₂ R l l') {a : α} {b : β}
    (hab : R a b) : List.Forall₂ R (l ++ [a]) (l' ++ [b]) := by
  induction h with
  | nil => exact List.Forall₂.cons hab List.Forall₂.nil
  | cons hr _ ih => exact List.Forall₂.cons hr ih

end Lists

variable {K V A : Type}

/-- The list-level store `s` is represented by the slot-level store `t`. -/
structure StoreRep (s : Bpt.Store K V A) (t : Store K V A) : Prop where
  inners : List.Forall₂ (Option.Rel InnerRep) s.inners t.inners
  leaves : List.Forall₂ (Option.Rel LeafRep) s.leaves t.leaves
  cached : t.cached = s.cached

/-- The list-level tree `t` is represented by the slot-level tree `u`. -/
structure TreeRep (t : Bpt.Tree K V A) (u : Tree K V A) : Prop where
  root : u.root = t.root
  rootAug : u.rootAug = t.rootAug
  len : u.len = t.len
  store : StoreRep t.store u.store
  st : u.st = t.st

section Store
variable {s : Bpt.Store K V A} {t : Store K V A}

theorem getInner_sim (h : StoreRep s t) (i : Nat) : Sim InnerRep (s.getInner i) (t.getInner i) := by
  unfold Bpt.Store.getInner Store.getInner
  have := forall₂_get h.inners i
  intro a e
  revert this e
  cases s.inners[i]? with
  | none => intro _ e; cases e
  | some o =>
    cases o with
    | none => intro _ e; cases e
    | some n =>
      intro hr e
      cases e
      cases h' : t.inners[i]? with
      | none => rw [h'] at hr; cases hr
      | some o =>
        rw [h'] at hr
        cases hr with
        | some hr => cases hr with
          | some hr => exact ⟨_, rfl, hr⟩

theorem takeInner_sim (h : StoreRep s t) (i : Nat) :
    Sim (PairR InnerRep StoreRep) (s.takeInner i) (t.takeInner i) := by
  unfold Bpt.Store.takeInner Store.takeInner
  have := forall₂_get h.inners i
  intro a e
  revert this e
  cases s.inners[i]? with
  | none => intro _ e; cases e
  | some o =>
    cases o with
    | none => intro _ e; cases e
    | some n =>
      intro hr e
      cases e
      cases h' : t.inners[i]? with
      | none => rw [h'] at hr; cases hr
      | some o =>
        rw [h'] at hr
        cases hr with
        | some hr => cases hr with
          | some hr =>
            exact ⟨_, rfl, hr, forall₂_set h.inners Option.Rel.none i, h.leaves, h.cached⟩

theorem getLeaf_sim (h : StoreRep s t) (i : Nat) : Sim LeafRep (s.getLeaf i) (t.getLeaf i) := by
  unfold Bpt.Store.getLeaf Store.getLeaf
  have := forall₂_get h.leaves i
  intro a e
  revert this e
  cases s.leaves[i]? with
  | none => intro _ e; cases e
  | some o =>
    cases o with
    | none => intro _ e; cases e
    | some n =>
      intro hr e
      cases e
      cases h' : t.leaves[i]? with
      | none => rw [h'] at hr; cases hr
      | some o =>
        rw [h'] at hr
        cases hr with
        | some hr => cases hr with
          | some hr => exact ⟨_, rfl, hr⟩

theorem takeLeaf_sim (h : StoreRep s t) (i : Nat) :
    Sim (PairR LeafRep StoreRep) (s.takeLeaf i) (t.takeLeaf i) := by
  unfold Bpt.Store.takeLeaf Store.takeLeaf
  have := forall₂_get h.leaves i
  intro a e
  revert this e
  cases s.leaves[i]? with
  | none => intro _ e; cases e
  | some o =>
    cases o with
    | none => intro _ e; cases e
    | some n =>
      intro hr e
      cases e
      cases h' : t.leaves[i]? with
      | none => rw [h'] at hr; cases hr
      | some o =>
        rw [h'] at hr
        cases hr with
        | some hr => cases hr with
          | some hr =>
            exact ⟨_, rfl, hr, h.inners, forall₂_set h.leaves Option.Rel.none i, h.cached⟩

theorem tryGetLeaf_rel (h : StoreRep s t) (i : Nat) :
    Option.Rel LeafRep (s.tryGetLeaf i) (t.tryGetLeaf i) := by
  unfold Bpt.Store.tryGetLeaf Store.tryGetLeaf
  have := forall₂_get h.leaves i
  revert this
  cases s.leaves[i]? <;> cases t.leaves[i]? <;> intro hr <;> cases hr
  · exact Option.Rel.none
  · rename_i hr; cases hr
    · rename_i hr; exact Option.Rel.some hr
    · exact Option.Rel.none

theorem StoreRep.setInner (h : StoreRep s t) {m : Inner K A} {n : InnerS K A} (hn : InnerRep m n)
    (i : Nat) : StoreRep (s.setInner i m) (t.setInner i n) :=
  ⟨forall₂_set h.inners (Option.Rel.some hn) i, h.leaves, h.cached⟩

theorem StoreRep.setLeaf (h : StoreRep s t) {m : Leaf K V} {n : LeafS K V} (hn : LeafRep m n)
    (i : Nat) : StoreRep (s.setLeaf i m) (t.setLeaf i n) :=
  ⟨h.inners, forall₂_set h.leaves (Option.Rel.some hn) i, h.cached⟩

theorem StoreRep.cacheLeaf (h : StoreRep s t) (i : Nat) :
    StoreRep (s.cacheLeaf i) (t.cacheLeaf i) := ⟨h.inners, h.leaves, rfl⟩

theorem StoreRep.addInner (h : StoreRep s t) {m : Inner K A} {n : InnerS K A} (hn : InnerRep m n) :
    StoreRep (s.addInner m).1 (t.addInner n).1 ∧ (s.addInner m).2 = (t.addInner n).2 :=
  ⟨⟨forall₂_snoc h.inners (Option.Rel.some hn), h.leaves, h.cached⟩, h.inners.length_eq⟩

theorem StoreRep.reserveLeaf (h : StoreRep s t) :
    StoreRep s.reserveLeaf.1 t.reserveLeaf.1 ∧ s.reserveLeaf.2 = t.reserveLeaf.2 :=
  ⟨⟨h.inners, forall₂_snoc h.leaves Option.Rel.none, h.cached⟩, h.leaves.length_eq⟩

theorem StoreRep.newEmptyLeaf (h : StoreRep s t) :
    StoreRep s.newEmptyLeaf.1 t.newEmptyLeaf.1 ∧ s.newEmptyLeaf.2 = t.newEmptyLeaf.2 :=
  ⟨⟨h.inners, forall₂_snoc h.leaves (Option.Rel.some LeafRep.new), h.cached⟩, h.leaves.length_eq⟩

theorem assignLeaf_sim (h : StoreRep s t) {m : Leaf K V} {n : LeafS K V} (hn : LeafRep m n)
    (i : Nat) : Sim StoreRep (s.assignLeaf i m) (t.assignLeaf i n) := by
  unfold Bpt.Store.assignLeaf Store.assignLeaf
  exact Sim.ite (by rw [h.leaves.length_eq]) (fun _ => Sim.ok (h.setLeaf hn i)) (fun _ => Sim.error)

theorem StoreRep.fuel (h : StoreRep s t) : t.fuel = s.fuel := by
  unfold Store.fuel Bpt.Store.fuel
  rw [h.inners.length_eq]

theorem StoreRep.empty : StoreRep (Bpt.Store.empty : Bpt.Store K V A) Store.empty :=
  ⟨List.Forall₂.nil, List.Forall₂.nil, rfl⟩

theorem tryCache_sim [LinearOrder K] (h : StoreRep s t) (k : K) :
    Sim (· = ·) (s.tryCache k) (t.tryCache k) := by
  unfold Bpt.Store.tryCache Bpt.Store.tryCacheAt Store.tryCache
  rw [h.cached]
  cases s.cached with
  | none => exact Sim.pure rfl
  | some id =>
    simp only []
    have := tryGetLeaf_rel h id
    revert this
    cases s.tryGetLeaf id <;> cases t.tryGetLeaf id <;> intro hr <;> cases hr
    · exact Sim.pure rfl
    · rename_i hr
      exact Sim.bind (inRange_sim hr k) (by rintro a _ rfl; exact Sim.pure rfl)

end Store

section Descend
variable {s : Bpt.Store K V A} {t : Store K V A}

/-- Related results of a descent. -/
def SumR {σ σ' β : Type} (R : σ → σ' → Prop) {γ : Type} : β ⊕ (σ × γ) → β ⊕ (σ' × γ) → Prop
  | .inl a, .inl b => a = b
  | .inr a, .inr b => R a.1 b.1 ∧ a.2 = b.2
  | _, _ => False

theorem descend_sim {σ β : Type} (h : StoreRep s t)
    {step : σ → Nat → Inner K A → Res (β ⊕ (σ × NodeId))}
    {step' : σ → Nat → InnerS K A → Res (β ⊕ (σ × NodeId))}
    (hstep : ∀ st i m n, InnerRep m n → Sim (· = ·) (step st i m) (step' st i n)) :
    ∀ (fuel : Nat) (st : σ) (id : NodeId),
      Sim (· = ·) (Bpt.descend s step fuel st id) (descend t step' fuel st id) := by
  intro fuel
  induction fuel with
  | zero =>
    intro st id
    cases id with
    | inner i => exact Sim.error
    | leaf i => exact Sim.ok rfl
  | succ fuel ih =>
    intro st id
    cases id with
    | leaf i => exact Sim.ok rfl
    | inner i =>
      unfold Bpt.descend descend
      refine Sim.bind (getInner_sim h i) (fun m n hmn => ?_)
      refine Sim.bind (hstep st i m n hmn) ?_
      rintro a _ rfl
      match a with
      | .inl b => exact Sim.pure rfl
      | .inr (st', c) => exact ih st' c

theorem descendLeaf_sim {σ : Type} (h : StoreRep s t)
    {step : σ → Nat → Inner K A → Res (σ × NodeId)}
    {step' : σ → Nat → InnerS K A → Res (σ × NodeId)}
    (hstep : ∀ st i m n, InnerRep m n → Sim (· = ·) (step st i m) (step' st i n))
    (st : σ) (id : NodeId) :
    Sim (· = ·) (Bpt.descendLeaf s step st id) (descendLeaf t step' st id) := by
  unfold Bpt.descendLeaf descendLeaf
  rw [h.fuel]
  refine Sim.bind (descend_sim h ?_ _ st id) ?_
  · intro st i m n hmn
    exact Sim.bind (hstep st i m n hmn) (by rintro a _ rfl; exact Sim.pure rfl)
  · rintro a _ rfl
    match a with
    | .inr r => exact Sim.pure rfl

end Descend

section Insert
variable {s : Bpt.Store K V A} {t : Store K V A}

theorem newAug_sim [Augmentation K V A] (h : StoreRep s t) (id : NodeId) :
    Sim (· = ·) (Bpt.newAugmentationForId s id) (newAugmentationForId t id) := by
  cases id with
  | inner i =>
    refine Sim.bind (getInner_sim h i) (fun m n hmn => ?_)
    rw [hmn.innerAug]; exact Sim.pure rfl
  | leaf i =>
    refine Sim.bind (getLeaf_sim h i) (fun m n hmn => ?_)
    rw [hmn.leafAug]; exact Sim.pure rfl

theorem TreeRep.new [Augmentation K V A] : TreeRep (Bpt.Tree.new : Bpt.Tree K V A) Tree.new :=
  ⟨rfl, rfl, rfl, StoreRep.empty.newEmptyLeaf.1, rfl⟩

variable [LinearOrder K]

theorem insertLeaf_sim (h : StoreRep s t) (id : Nat) (k : K) (v : V) :
    Sim (PairR StoreRep (· = ·)) (Bpt.insertLeaf s id k v) (insertLeaf t id k v) := by
  unfold Bpt.insertLeaf insertLeaf
  refine Sim.bind (getLeaf_sim h id) (fun l n hln => ?_)
  refine Sim.bind (tryUpsert_sim hln k v) ?_
  rintro ⟨l', u⟩ ⟨n', _⟩ ⟨hl', rfl⟩
  cases u with
  | inserted => exact Sim.pure ⟨(h.setLeaf hl' id).cacheLeaf id, rfl⟩
  | updated v0 => exact Sim.pure ⟨h.setLeaf hl' id, rfl⟩
  | isFull idx k v =>
    have hr := h.reserveLeaf
    have e : t.reserveLeaf = (t.reserveLeaf.1, s.reserveLeaf.2) := by rw [hr.2]
    simp only []
    rw [e]
    simp only []
    refine Sim.bind (getLeaf_sim hr.1 id) (fun l n hln => ?_)
    refine Sim.bind (splitNewLeaf_sim hln idx (k, v) _ _) ?_
    rintro ⟨a, b⟩ ⟨a', b'⟩ ⟨ha, hb⟩
    dsimp only at ha hb ⊢
    refine Sim.bind (dataAt_sim hb 0) ?_
    rintro kv _ rfl
    refine Sim.bind (R := StoreRep) ?_ (fun s' t' hst => ?_)
    · unfold setPrevOfNext
      rw [hb.next]
      cases b.next with
      | none => exact Sim.pure (hr.1.setLeaf ha id)
      | some nx =>
        refine Sim.bind (getLeaf_sim (hr.1.setLeaf ha id) nx) (fun l n hln => ?_)
        exact Sim.pure ((hr.1.setLeaf ha id).setLeaf (hln.setPrev _) nx)
    · refine Sim.bind (assignLeaf_sim hst hb _) (fun s' t' hst => ?_)
      exact Sim.pure ⟨hst.cacheLeaf _, rfl⟩

theorem insertDescendStep_sim (k : K) (st : List StackEntry) (i : Nat) (m : Inner K A)
    (n : InnerS K A) (h : InnerRep m n) :
    Sim (· = ·) (Bpt.insertDescendStep k st i m) (insertDescendStep k st i n) := by
  refine Sim.bind (locateChild_sim h k) ?_
  rintro ⟨a, b⟩ _ rfl
  exact Sim.bindEq (fun _ => Sim.pure rfl)

variable [Augmentation K V A]

theorem insertAscend_sim : ∀ (stack : List StackEntry) (s : Bpt.Store K V A) (t : Store K V A)
    (_ : StoreRep s t) (r : InsertResult K V),
    Sim (PairR StoreRep (· = ·)) (Bpt.insertAscend s stack r) (insertAscend t stack r) := by
  intro stack
  induction stack with
  | nil =>
    intro s t h r
    unfold Bpt.insertAscend insertAscend
    exact Sim.pure ⟨h, rfl⟩
  | cons e stack ih =>
    intro s t h r
    obtain ⟨id, ci, cid⟩ := e
    cases r with
    | inserted =>
      unfold Bpt.insertAscend insertAscend
      refine Sim.bind (newAug_sim h cid) ?_
      rintro a _ rfl
      refine Sim.bind (getInner_sim h id) (fun m n hmn => ?_)
      refine Sim.bind (setAugmentation_sim hmn ci a) (fun m n hmn => ?_)
      exact ih _ _ (h.setInner hmn id) _
    | updated v =>
      unfold Bpt.insertAscend insertAscend
      refine Sim.bind (newAug_sim h cid) ?_
      rintro a _ rfl
      refine Sim.bind (getInner_sim h id) (fun m n hmn => ?_)
      refine Sim.bind (setAugmentation_sim hmn ci a) (fun m n hmn => ?_)
      exact ih _ _ (h.setInner hmn id) _
    | split key rc =>
      unfold Bpt.insertAscend insertAscend
      refine Sim.bind (newAug_sim h rc) ?_
      rintro ra _ rfl
      refine Sim.bind (newAug_sim h cid) ?_
      rintro a _ rfl
      refine Sim.bind (getInner_sim h id) (fun m n hmn => ?_)
      refine Sim.bind (setAugmentation_sim hmn ci a) (fun m n hmn => ?_)
      refine Sim.ite ?_ (fun _ => ?_) (fun _ => ?_)
      · rw [hmn.size]; simp [Inner.isFull]
      · refine Sim.bind (insertAt_sim hmn ci key rc ra) (fun m n hmn => ?_)
        exact ih _ _ (h.setInner hmn id) _
      · refine Sim.bind (split_sim hmn ci key rc ra) ?_
        rintro ⟨up, m1, m2⟩ ⟨_, n1, n2⟩ ⟨rfl, h1, h2⟩
        have hadd := (h.setInner h1 id).addInner h2
        dsimp only at hadd h1 h2 ⊢
        have e : (t.setInner id n1).addInner n2 =
            (((t.setInner id n1).addInner n2).1, ((s.setInner id m1).addInner m2).2) := by rw [hadd.2]
        rw [e]
        exact ih _ _ hadd.1 _

theorem descendInsert_sim (h : StoreRep s t) (id : NodeId) (k : K) (v : V) :
    Sim (PairR StoreRep (· = ·)) (Bpt.descendInsert s id k v) (descendInsert t id k v) := by
  cases id with
  | leaf i => exact insertLeaf_sim h i k v
  | inner i =>
    show Sim _ (Bpt.insertInner s i k v) (insertInner t i k v)
    unfold Bpt.insertInner insertInner
    refine Sim.bind (descendLeaf_sim h (insertDescendStep_sim k) _ _) ?_
    rintro ⟨st, l⟩ _ rfl
    refine Sim.bind (insertLeaf_sim h l k v) ?_
    rintro ⟨s', r⟩ ⟨t', _⟩ ⟨hst, rfl⟩
    exact insertAscend_sim _ _ _ hst _

theorem insert_sim {t : Bpt.Tree K V A} {u : Tree K V A} (h : TreeRep t u) (k : K) (v : V) :
    Sim (PairR (· = ·) TreeRep) (t.insert k v) (u.insert k v) := by
  unfold Bpt.Tree.insert Tree.insert
  rw [h.root]
  refine Sim.bind (descendInsert_sim h.store t.root k v) ?_
  rintro ⟨s', r⟩ ⟨t', _⟩ ⟨hst, rfl⟩
  dsimp only at hst
  cases r with
  | inserted =>
    refine Sim.bind (newAug_sim hst _) ?_
    rintro a _ rfl
    exact Sim.pure ⟨rfl, rfl, rfl, by rw [h.len], hst, h.st⟩
  | updated v =>
    refine Sim.bind (newAug_sim hst _) ?_
    rintro a _ rfl
    exact Sim.pure ⟨rfl, rfl, rfl, h.len, hst, h.st⟩
  | split k rc =>
    refine Sim.bind (newAug_sim hst _) ?_
    rintro a _ rfl
    refine Sim.bind (newAug_sim hst _) ?_
    rintro b _ rfl
    refine Sim.bind (newFromIter_sim rfl) (fun m n hmn => ?_)
    refine Sim.right hmn.innerAug ?_
    have hadd := hst.addInner hmn
    exact Sim.pure ⟨rfl, congrArg NodeId.inner hadd.2.symm, rfl, by rw [h.len], hadd.1, h.st⟩

end Insert

section Read
variable [LinearOrder K]
variable {s : Bpt.Store K V A} {t : Store K V A}

theorem locateStep_sim (k : K) (st : Unit) (i : Nat) (m : Inner K A)
    (n : InnerS K A) (h : InnerRep m n) :
    Sim (· = ·) (Bpt.locateStep k st i m) (locateStep k st i n) := by
  refine Sim.bind (locateChild_sim h k) ?_
  rintro ⟨a, b⟩ _ rfl
  exact Sim.pure rfl

theorem findInLeaf_sim (h : StoreRep s t) (id : Nat) (k : K) :
    Sim (· = ·) (Bpt.findInLeaf s id k) (findInLeaf t id k) := by
  refine Sim.bind (getLeaf_sim h id) (fun l n hln => ?_)
  refine Sim.bind (locateSlotWithValue_sim hln k) ?_
  rintro a _ rfl
  exact Sim.pure rfl

theorem findDescendLeaf_sim (h : StoreRep s t) (id : NodeId) (k : K) :
    Sim (· = ·) (Bpt.findDescendLeaf s id k) (findDescendLeaf t id k) := by
  refine Sim.bind (descendLeaf_sim h (locateStep_sim k) _ _) ?_
  rintro a _ rfl
  exact Sim.pure rfl

theorem get_sim {t : Bpt.Tree K V A} {u : Tree K V A} (h : TreeRep t u) (k : K) :
    Sim (PairR (· = ·) TreeRep) (t.get k) (u.get k) := by
  unfold Bpt.Tree.get Tree.get
  refine Sim.bind (tryCache_sim h.store k) ?_
  rintro a _ rfl
  cases a with
  | some id =>
    refine Sim.bind (findInLeaf_sim h.store id k) ?_
    rintro a _ rfl
    exact Sim.pure ⟨rfl, h⟩
  | none =>
    rw [h.root]
    refine Sim.bind (findDescendLeaf_sim h.store _ k) ?_
    rintro a _ rfl
    refine Sim.bind (findInLeaf_sim (h.store.cacheLeaf a) a k) ?_
    rintro b _ rfl
    exact Sim.pure ⟨rfl, rfl, h.rootAug, h.len, h.store.cacheLeaf a, h.st⟩

theorem updateInLeaf_sim (h : StoreRep s t) (id : Nat) (k : K) (f : V → V) :
    Sim (PairR (· = ·) StoreRep) (Bpt.updateInLeaf s id k f) (updateInLeaf t id k f) := by
  unfold Bpt.updateInLeaf updateInLeaf
  refine Sim.bind (getLeaf_sim h id) (fun l n hln => ?_)
  refine Sim.right (hln.locateSlot k) ?_
  cases l.locateSlot k with
  | vacant i => exact Sim.pure ⟨rfl, h⟩
  | found i =>
    simp only []
    intro a e
    cases hd : l.dataAt i with
    | error _ => rw [hd] at e; cases e
    | ok kv =>
      rw [hd] at e
      obtain ⟨hi, rfl⟩ := leaf_dataAt_ok hd
      rw [hln.vs_read hi, ok_bind, hln.holds.vs, Slots.write_pad (by simpa using hi), ok_bind]
      cases e
      refine ⟨_, rfl, rfl, StoreRep.setLeaf h ?_ id⟩
      refine ⟨⟨?_, ?_, ?_, ?_⟩, hln.prev, hln.next⟩
      · simpa using hln.holds.size
      · simpa using hln.holds.cap
      · rw [hln.holds.ks]
        congr 1
        rw [List.map_set]
        exact (List.set_getElem_self (as := l.data.map (·.1)) (i := i) (by simpa using hi) ▸ by simp)
      · simp

theorem getMut_sim {t : Bpt.Tree K V A} {u : Tree K V A} (h : TreeRep t u) (k : K) (f : V → V) :
    Sim (PairR (· = ·) TreeRep) (t.getMut k f) (u.getMut k f) := by
  unfold Bpt.Tree.getMut Tree.getMut
  refine Sim.bind (tryCache_sim h.store k) ?_
  rintro a _ rfl
  cases a with
  | some id =>
    refine Sim.bind (updateInLeaf_sim h.store id k f) ?_
    rintro ⟨a, s⟩ ⟨_, t⟩ ⟨rfl, hst⟩
    exact Sim.pure ⟨rfl, h.root, h.rootAug, h.len, hst, h.st⟩
  | none =>
    rw [h.root]
    refine Sim.bind (findDescendLeaf_sim h.store _ k) ?_
    rintro a _ rfl
    refine Sim.bind (updateInLeaf_sim (h.store.cacheLeaf a) a k f) ?_
    rintro ⟨a, s⟩ ⟨_, t⟩ ⟨rfl, hst⟩
    exact Sim.pure ⟨rfl, rfl, h.rootAug, h.len, hst, h.st⟩

theorem locateLeaf_sim {t : Bpt.Tree K V A} {u : Tree K V A} (h : TreeRep t u) (k : K) :
    Sim (· = ·) (t.locateLeaf k) (u.locateLeaf k) := by
  unfold Bpt.Tree.locateLeaf Tree.locateLeaf
  refine Sim.bind (tryCache_sim h.store k) ?_
  rintro a _ rfl
  cases a with
  | some id => exact Sim.pure rfl
  | none => rw [h.root]; exact findDescendLeaf_sim h.store _ k

end Read

section Ends
variable {t : Bpt.Tree K V A} {u : Tree K V A}

theorem firstLeaf_sim (h : TreeRep t u) : Sim (· = ·) t.firstLeaf u.firstLeaf := by
  unfold Bpt.Tree.firstLeaf Tree.firstLeaf
  rw [h.root]
  refine Sim.bind (descendLeaf_sim h.store ?_ _ _) (by rintro a _ rfl; exact Sim.pure rfl)
  intro st i m n hmn
  exact Sim.bind (childId_sim hmn _) (by rintro a _ rfl; exact Sim.pure rfl)

theorem lastLeaf_sim (h : TreeRep t u) : Sim (· = ·) t.lastLeaf u.lastLeaf := by
  unfold Bpt.Tree.lastLeaf Tree.lastLeaf
  rw [h.root]
  refine Sim.bind (descendLeaf_sim h.store ?_ _ _) (by rintro a _ rfl; exact Sim.pure rfl)
  intro st i m n hmn
  unfold Bpt.lastStep lastStep
  rw [hmn.size]
  exact Sim.bind (childId_sim hmn _) (by rintro a _ rfl; exact Sim.pure rfl)

theorem first_sim (h : TreeRep t u) : Sim (· = ·) t.first u.first := by
  unfold Bpt.Tree.first Tree.first
  refine Sim.ite (by unfold Bpt.Tree.isEmpty Tree.isEmpty; rw [h.len]) (fun _ => Sim.pure rfl)
    (fun _ => ?_)
  refine Sim.bind (firstLeaf_sim h) ?_
  rintro a _ rfl
  refine Sim.bind (getLeaf_sim h.store a) (fun l n hln => ?_)
  exact Sim.bind (dataAt_sim hln _) (by rintro a _ rfl; exact Sim.pure rfl)

theorem last_sim (h : TreeRep t u) : Sim (· = ·) t.last u.last := by
  unfold Bpt.Tree.last Tree.last
  refine Sim.ite (by unfold Bpt.Tree.isEmpty Tree.isEmpty; rw [h.len]) (fun _ => Sim.pure rfl)
    (fun _ => ?_)
  refine Sim.bind (lastLeaf_sim h) ?_
  rintro a _ rfl
  refine Sim.bind (getLeaf_sim h.store a) (fun l n hln => ?_)
  refine Sim.ite (by rw [hln.size]) (fun _ => Sim.error_bind) (fun _ => ?_)
  rw [hln.size]
  exact Sim.bind (dataAt_sim hln _) (by rintro a _ rfl; exact Sim.pure rfl)

theorem clear_sim [Augmentation K V A] : TreeRep t.clear u.clear := TreeRep.new

end Ends

end Raw
end Bpt
