import Verif.Model.DropRemove
import Verif.Proofs.DropInsert
import Verif.Proofs.CrashExact
import Verif.Proofs.CrashArgs

/-!
# The memory in which destructors run during a removal
-/

namespace Bpt
variable {K V A : Type}

/-! ## Memories with the same leaves and the same edges -/

/-- What a descent along first or last children sees of an inner node. -/
def Inner.form (n : Inner K A) : Nat × List NodeId := (n.keys.length, n.childs)

/-- The same leaves, and inner nodes with the same children and numbers of keys. -/
structure AlikeS (s s' : Store K V A) : Prop where
  leaves : s.leaves = s'.leaves
  inners : s.inners.map (Option.map Inner.form) = s'.inners.map (Option.map Inner.form)

theorem AlikeS.refl (s : Store K V A) : AlikeS s s := ⟨rfl, rfl⟩

theorem AlikeS.symm {s s' : Store K V A} (h : AlikeS s s') : AlikeS s' s := ⟨h.leaves.symm, h.inners.symm⟩

theorem AlikeS.set {s s' : Store K V A} (h : AlikeS s s') (i : Nat) {n n' : Inner K A}
    (e : n.form = n'.form) : AlikeS (s.setInner i n) (s'.setInner i n') := by
  refine ⟨h.leaves, ?_⟩
  simp only [Store.setInner, List.map_set, h.inners, Option.map_some, e]

theorem AlikeS.cache {s s' : Store K V A} (h : AlikeS s s') (i : Nat) : AlikeS (s.cacheLeaf i) s' :=
  ⟨h.leaves, h.inners⟩

theorem setAugmentation_form {n n' : Inner K A} {i : Nat} {a : A} (h : n.setAugmentation i a = .ok n') :
    n'.form = n.form := by
  obtain ⟨h1, h2⟩ := setAugmentation_eq h
  simp only [Inner.form, h1, h2]

theorem setKey_form {n n' : Inner K A} {i : Nat} {k k' : K} (h : n.setKey i k = .ok (k', n')) :
    n'.form = n.form := by
  obtain ⟨h1, h2⟩ := setKey_eq h
  simp only [Inner.form, h1, h2]

theorem AlikeS.length {s s' : Store K V A} (h : AlikeS s s') : s.inners.length = s'.inners.length := by
  have := congrArg List.length h.inners
  simpa using this

theorem AlikeS.get {s s' : Store K V A} (h : AlikeS s s') {i : Nat} {n : Inner K A}
    (hn : s.inners[i]? = some (some n)) : ∃ n', s'.inners[i]? = some (some n') ∧ n'.form = n.form := by
  have := congrArg (·[i]?) h.inners
  simp only [List.getElem?_map, hn, Option.map_some] at this
  cases hx : s'.inners[i]? with
  | none => rw [hx] at this; cases this
  | some x =>
    rw [hx] at this
    cases x with
    | none => simp at this
    | some n' =>
      simp only [Option.map_some, Option.some.injEq] at this
      exact ⟨n', rfl, this.symm⟩

theorem AlikeS.get_none {s s' : Store K V A} (h : AlikeS s s') {i : Nat}
    (hn : ∀ n, s.inners[i]? ≠ some (some n)) : ∀ n, s'.inners[i]? ≠ some (some n) := by
  intro n hn'
  obtain ⟨n', h1, -⟩ := h.symm.get hn'
  exact hn _ h1

theorem AlikeS.down {s s' : Store K V A} (e : AlikeS s s') {h : Nat} {id : NodeId} (a : Down s h id) :
    Down s' h id := by
  induction h generalizing id with
  | zero =>
    obtain ⟨i, l, rfl, h1⟩ := a
    exact ⟨i, l, rfl, e.leaves ▸ h1⟩
  | succ h ih =>
    obtain ⟨i, n, rfl, h1, h2, h3⟩ := a
    obtain ⟨n', h4, h5⟩ := e.get h1
    simp only [Inner.form, Prod.mk.injEq] at h5
    refine ⟨i, n', rfl, h4, by rw [h5.1, h5.2]; exact h2, fun c hc => ih (h3 c (h5.2 ▸ hc))⟩

theorem AlikeS.descend {s s' : Store K V A} (e : AlikeS s s') {σ β : Type}
    {step : σ → Nat → Inner K A → Res (β ⊕ (σ × NodeId))}
    (hstep : ∀ st i n n', n.form = n'.form → step st i n = step st i n') (n : Nat) (st : σ) (i : NodeId) :
    Bpt.descend s step n st i = Bpt.descend s' step n st i := by
  induction n generalizing st i with
  | zero => cases i <;> rfl
  | succ n ih =>
    cases i with
    | leaf i => rfl
    | inner i =>
      unfold Bpt.descend
      by_cases hx : ∃ m, s.inners[i]? = some (some m)
      · obtain ⟨m, hm⟩ := hx
        obtain ⟨m', hm', hf⟩ := e.get hm
        have h1 : s.getInner i = .ok m := by simp [Store.getInner, hm]
        have h2 : s'.getInner i = .ok m' := by simp [Store.getInner, hm']
        rw [h1, h2]
        simp only [ok_bind, hstep st i m m' hf.symm, ih]
      · have key : ∀ s : Store K V A, (∀ n, s.inners[i]? ≠ some (some n)) → s.getInner i = .error .ub := by
          intro s hn
          unfold Store.getInner
          split
          · next h => exact absurd h (hn _)
          · rfl
        have hn : ∀ n, s.inners[i]? ≠ some (some n) := fun n h => hx ⟨n, h⟩
        have hn' := e.get_none hn
        rw [key s hn, key s' hn']
        rfl

/-- Memory of a map up to summaries and the contents of inner keys. -/
structure AlikeT (t t' : Tree K V A) : Prop where
  store : AlikeS t.store t'.store
  root : t.root = t'.root
  len : t.len = t'.len
  st : t.st = t'.st

theorem childId_form {n n' : Inner K A} (e : n.form = n'.form) (i : Nat) : n.childId i = n'.childId i := by
  simp only [Inner.form, Prod.mk.injEq] at e
  simp only [Inner.childId, e.2]

theorem AlikeT.firstLeaf {t t' : Tree K V A} (e : AlikeT t t') : t.firstLeaf = t'.firstLeaf := by
  unfold Tree.firstLeaf descendLeaf
  rw [e.store.descend (by
    intro st i n n' hf
    simp only [firstStep, childId_form hf]), e.root]
  simp only [Store.fuel, e.store.length]

theorem AlikeT.lastLeaf {t t' : Tree K V A} (e : AlikeT t t') : t.lastLeaf = t'.lastLeaf := by
  unfold Tree.lastLeaf descendLeaf
  rw [e.store.descend (by
    intro st i n n' hf
    have hl : n.len = n'.len := by
      simp only [Inner.form, Prod.mk.injEq] at hf
      exact hf.1
    simp only [lastStep, childId_form hf, hl]), e.root]
  simp only [Store.fuel, e.store.length]

theorem nextAux_store {s' : Store K V A} (n : Nat) (it : IntoIter K V A) (e : s'.leaves = it.store.leaves) :
    IntoIter.nextAux n { it with store := s' }
      = (IntoIter.nextAux n it).map (fun p => (p.1, { p.2 with store := s' })) ∧
    ∀ p, IntoIter.nextAux n it = .ok p → p.2.store = it.store := by
  induction n generalizing it with
  | zero => exact ⟨rfl, by intro p h; cases h⟩
  | succ n ih =>
    unfold IntoIter.nextAux
    by_cases h0 : it.len = 0
    · rw [if_pos h0, if_pos h0]
      exact ⟨rfl, by intro p h; cases h; rfl⟩
    · simp only [h0, if_false]
      have hg : s'.getLeaf it.pos.1 = it.store.getLeaf it.pos.1 := by
        unfold Store.getLeaf; rw [e]
      rw [hg]
      cases it.store.getLeaf it.pos.1 with
      | error f => exact ⟨rfl, by intro p h; cases h⟩
      | ok leaf =>
        simp only [ok_bind]
        by_cases h1 : it.pos.2 < leaf.len
        · simp only [h1, if_true, IntoIter.takeData]
          cases leaf.data[it.pos.2]? with
          | none => exact ⟨rfl, by intro p h; cases h⟩
          | some kv =>
            simp only
            by_cases h2 : (it.pos.1, it.pos.2) ∈ it.taken
            · simp only [h2, if_true]
              exact ⟨rfl, by intro p h; cases h⟩
            · simp only [h2, if_false, ok_bind]
              refine ⟨rfl, ?_⟩
              intro p h
              cases h; rfl
        · simp only [h1, if_false]
          cases leaf.next with
          | none => exact ⟨rfl, by intro p h; cases h⟩
          | some nx =>
            obtain ⟨h3, h4⟩ := ih { it with pos := (nx, 0) } e
            exact ⟨h3, fun p h => h4 p h⟩

theorem dropAux_store {s' : Store K V A} (n : Nat) (it : IntoIter K V A) (e : s'.leaves = it.store.leaves) :
    IntoIter.dropAux n { it with store := s' } = IntoIter.dropAux n it := by
  induction n generalizing it with
  | zero => rfl
  | succ n ih =>
    unfold IntoIter.dropAux IntoIter.next
    obtain ⟨h1, h2⟩ := nextAux_store (s' := s') (it.store.leaves.length + 1) it e
    simp only [e]
    rw [h1]
    cases hx : IntoIter.nextAux (it.store.leaves.length + 1) it with
    | error f => rfl
    | ok p =>
      obtain ⟨o, it'⟩ := p
      have h3 := h2 _ hx
      simp only [Except.map, ok_bind]
      cases o with
      | none => rfl
      | some kv =>
        simp only
        rw [ih it' (by rw [e, h3])]

theorem AlikeT.drop {t t' : Tree K V A} (e : AlikeT t t') : t.drop = t'.drop := by
  unfold Tree.drop Tree.intoIter
  rw [e.firstLeaf, e.lastLeaf]
  cases t'.firstLeaf with
  | error f => rfl
  | ok i =>
    cases t'.lastLeaf with
    | error f => rfl
    | ok j =>
      have hg : t.store.getLeaf j = t'.store.getLeaf j := by
        unfold Store.getLeaf; rw [e.store.leaves]
      simp only [ok_bind, hg]
      cases t'.store.getLeaf j with
      | error f => rfl
      | ok l =>
        simp only [ok_bind, pure_ok, e.len]
        unfold IntoIter.drop
        exact dropAux_store (s' := t.store) _
          { store := t'.store, len := t'.len, pos := (i, 0), end_ := (j, l.len), taken := [] } e.store.leaves

theorem AlikeT.readable {P : K × V → Prop} {t t' : Tree K V A} (e : AlikeT t t') (h : Readable P t') :
    Readable P t := by
  obtain ⟨H, L, h1, h2, h3, h4⟩ := h
  refine ⟨H, L, ?_, ?_, h3.congr e.store.leaves.symm, h4⟩
  · rw [e.root]; exact e.store.symm.down h1
  · unfold Store.fuel at h2 ⊢
    rw [e.store.length]
    exact h2

theorem AlikeT.holding {P : K × V → Prop} {n : Nat} {t t' : Tree K V A} (e : AlikeT t t') (h : Holding P n t') :
    Holding P n t := by
  obtain ⟨H, L, h1, h2, h3, h4⟩ := h
  refine ⟨H, L, ?_, ?_, h3.congr e.store.leaves.symm, h4⟩
  · rw [e.root]; exact e.store.symm.down h1
  · unfold Store.fuel at h2 ⊢
    rw [e.store.length]
    exact h2

/-! ## Programs whose calls happen in memories like those of another program -/

/-- The two programs return the same, and each call of `d` is made in a memory like one of `S`, or
like one in which `t` makes a call that is not a comparison. -/
structure Near {σ α : Type} (R : σ → σ → Prop) (S : σ → Prop) (d t : Traced σ α) : Prop where
  result : d.result = t.result
  mem : ∀ c m, (c, m) ∈ d.trace → (∃ m', S m' ∧ R m m') ∨
    ∃ c' m', (c', m') ∈ t.trace ∧ c' ≠ .compare ∧ R m m'

section
variable {σ τ α β : Type} {R : σ → σ → Prop} {S : σ → Prop}

theorem Near.refl_lift {x : Res α} : Near R S (liftM x : Traced σ α) (liftM x) :=
  ⟨rfl, by intro c m h; simp at h⟩

theorem Near.pure {a : α} : Near R S (pure a : Traced σ α) (Pure.pure a) :=
  ⟨rfl, by intro c m h; simp at h⟩

theorem Near.bind {x x' : Traced σ α} {f f' : α → Traced σ β} (hx : Near R S x x')
    (hf : ∀ a, x.result = .ok a → Near R S (f a) (f' a)) : Near R S (x >>= f) (x' >>= f') := by
  refine ⟨?_, ?_⟩
  · rw [Traced.result_bind, Traced.result_bind, ← hx.result]
    cases h : x.result with
    | error e => rfl
    | ok a => exact (hf a h).result
  · intro c m h
    rcases Traced.mem_bind.1 h with h | ⟨a, ha, h⟩
    · rcases hx.mem c m h with h1 | ⟨c', m', h1, h2⟩
      · exact .inl h1
      · exact .inr ⟨c', m', Traced.mem_bind.2 (.inl h1), h2⟩
    · rcases (hf a ha).mem c m h with h1 | ⟨c', m', h1, h2⟩
      · exact .inl h1
      · exact .inr ⟨c', m', Traced.mem_bind.2 (.inr ⟨a, hx.result ▸ ha, h1⟩), h2⟩

theorem Near.lift_bind {x : Res α} {f f' : α → Traced σ β}
    (hf : ∀ a, x = .ok a → Near R S (f a) (f' a)) :
    Near R S ((liftM x : Traced σ α) >>= f) ((liftM x : Traced σ α) >>= f') :=
  Near.refl_lift.bind hf

/-- A call of the second program. -/
theorem Near.seen {d : Traced σ β} {c : Callback} {m : σ} {f : Unit → Traced σ β} (hc : c ≠ .compare)
    (h : Near R (fun x => S x ∨ x = m) d (f ())) : Near R S d (Traced.call c m >>= f) := by
  refine ⟨by rw [h.result]; simp, ?_⟩
  intro c1 m1 h1
  rcases h.mem c1 m1 h1 with ⟨m', h2 | rfl, h3⟩ | ⟨c', m', h2, h3⟩
  · exact .inl ⟨m', h2, h3⟩
  · exact .inr ⟨c, m', Traced.mem_bind.2 (.inl (by simp)), hc, h3⟩
  · exact .inr ⟨c', m', Traced.mem_bind.2 (.inr ⟨(), rfl, h2⟩), h3⟩

/-- A call of the first program. -/
theorem Near.drops {t : Traced σ β} {c : Callback} {m m' : σ} {f : Unit → Traced σ β} (hs : S m')
    (hr : R m m') (h : Near R S (f ()) t) : Near R S (Traced.call c m >>= f) t := by
  refine ⟨by rw [← h.result]; simp, ?_⟩
  intro c1 m1 h1
  rcases Traced.mem_bind.1 h1 with h1 | ⟨_, -, h1⟩
  · simp only [Traced.trace_call, List.mem_singleton, Prod.mk.injEq] at h1
    exact .inl ⟨m', hs, h1.2 ▸ hr⟩
  · exact h.mem c1 m1 h1

theorem Near.guard {c : Prop} [Decidable c] {e : Res Unit} {f f' : Unit → Traced σ β}
    (h : ∀ u, Near R S (f u) (f' u)) :
    Near R S (if c then (liftM e : Traced σ Unit) >>= f else f ())
      (if c then (liftM e : Traced σ Unit) >>= f' else f' ()) := by
  split
  · exact Near.lift_bind fun u _ => h u
  · exact h ()

theorem Near.mapMem {R' : τ → τ → Prop} {S' : τ → Prop} {g : σ → τ} (hR : ∀ m m', R m m' → R' (g m) (g m'))
    (hS : ∀ m, S m → S' (g m)) {d t : Traced σ α} (h : Near R S d t) :
    Near R' S' (Traced.mapMem g d) (Traced.mapMem g t) := by
  refine ⟨h.result, ?_⟩
  intro c m hm
  obtain ⟨m0, h1, rfl⟩ := Traced.mem_mapMem.1 hm
  rcases h.mem c m0 h1 with ⟨m', h2, h3⟩ | ⟨c', m', h2, h3, h4⟩
  · exact .inl ⟨g m', hS _ h2, hR _ _ h3⟩
  · exact .inr ⟨c', g m', Traced.mem_mapMem.2 ⟨m', h2, rfl⟩, h3, hR _ _ h4⟩

theorem Near.mono {S' : σ → Prop} {d t : Traced σ α} (hS : ∀ m, S m → S' m) (h : Near R S d t) :
    Near R S' d t :=
  ⟨h.result, fun c m hm => (h.mem c m hm).imp (fun ⟨m', h1, h2⟩ => ⟨m', hS _ h1, h2⟩) id⟩

theorem ofLeaf_ne (l : Leaf K V) : Callback.ofLeaf l ≠ .compare := by simp [Callback.ofLeaf]
theorem ofInner_ne (n : Inner K A) : Callback.ofInner n ≠ .compare := by simp [Callback.ofInner]

theorem Near.newAug [Augmentation K V A] {m : σ} {s : Store K V A} {id : NodeId} {f f' : A → Traced σ β}
    (h : ∀ a, newAugmentationForId s id = .ok a → Near R (fun x => S x ∨ x = m) (f a) (f' a)) :
    Near R S ((liftM (newAugmentationForId s id) : Traced σ A) >>= f) (newAugmentationT m s id >>= f') := by
  have hr := newAugmentationT_result m s id
  refine ⟨?_, ?_⟩
  · rw [Traced.result_bind, Traced.result_bind, hr, Traced.result_lift]
    cases hx : newAugmentationForId s id with
    | error e => rfl
    | ok a => exact (h a hx).result
  · intro c1 m1 h1
    rcases Traced.mem_bind.1 h1 with h1 | ⟨a, ha, h1⟩
    · simp at h1
    · have ha : newAugmentationForId s id = .ok a := ha
      rcases (h a ha).mem c1 m1 h1 with ⟨m', h2 | rfl, h3⟩ | ⟨c', m', h2, h3⟩
      · exact .inl ⟨m', h2, h3⟩
      · have : ∃ c, (c, m') ∈ (newAugmentationT m' s id).trace ∧ c ≠ .compare := by
          rw [← hr] at ha
          cases id with
          | leaf i =>
            simp only [newAugmentationT, Traced.result_bind] at ha
            obtain ⟨l, hl, -⟩ := bind_ok ha
            exact ⟨.ofLeaf l, Traced.mem_bind.2 (.inr ⟨l, hl, Traced.mem_bind.2 (.inl (by simp))⟩), ofLeaf_ne l⟩
          | inner i =>
            simp only [newAugmentationT, Traced.result_bind] at ha
            obtain ⟨l, hl, -⟩ := bind_ok ha
            exact ⟨.ofInner l, Traced.mem_bind.2 (.inr ⟨l, hl, Traced.mem_bind.2 (.inl (by simp))⟩), ofInner_ne l⟩
        obtain ⟨c, h4, h5⟩ := this
        exact .inr ⟨c, m', Traced.mem_bind.2 (.inl h4), h5, h3⟩
      · exact .inr ⟨c', m', Traced.mem_bind.2 (.inr ⟨a, hr.trans ha, h2⟩), h3⟩

end

/-! ## The destructors of a removal run in memories like those in which summary code runs -/

section
variable [Augmentation K V A]

/-- Memory of the fix-up loop. -/
def AlikeP (m m' : Store K V A × Statistic) : Prop := AlikeS m.1 m'.1 ∧ m.2 = m'.2

theorem tryRotateRightInnerD_near (S : Store K V A → Prop) (pid : Nat) (s : Store K V A) (node : Inner K A)
    (slot : Nat) : Near AlikeS S (tryRotateRightInnerD pid s node slot) (tryRotateRightInnerT pid s node slot) := by
  unfold tryRotateRightInnerD tryRotateRightInnerT
  refine Near.lift_bind fun rid _ => Near.lift_bind fun lid _ => Near.lift_bind fun prev _ => ?_
  split
  · refine Near.lift_bind fun q _ => Near.seen (ofInner_ne _) <| Near.lift_bind fun q2 _ =>
      Near.lift_bind fun r1 _ => Near.lift_bind fun r2 _ => Near.seen (ofInner_ne _) <|
      Near.lift_bind fun n1 h1 => Near.drops (.inr rfl) ((AlikeS.refl _).set _ (setAugmentation_form h1)) <|
      Near.lift_bind fun n2 h2 => Near.drops (.inr rfl)
        ((AlikeS.refl _).set _ ((setAugmentation_form h2).trans (setAugmentation_form h1))) Near.pure
  · exact Near.pure

theorem tryRotateLeftInnerD_near (S : Store K V A → Prop) (pid : Nat) (s : Store K V A) (node : Inner K A)
    (slot : Nat) : Near AlikeS S (tryRotateLeftInnerD pid s node slot) (tryRotateLeftInnerT pid s node slot) := by
  unfold tryRotateLeftInnerD tryRotateLeftInnerT
  refine Near.lift_bind fun rid _ => Near.lift_bind fun lid _ => Near.lift_bind fun prev _ => ?_
  split
  · refine Near.lift_bind fun q _ => Near.seen (ofInner_ne _) <| Near.lift_bind fun q2 _ =>
      Near.lift_bind fun r1 _ => Near.lift_bind fun r2 _ => Near.seen (ofInner_ne _) <|
      Near.lift_bind fun n1 h1 => Near.drops (.inr rfl) ((AlikeS.refl _).set _ (setAugmentation_form h1)) <|
      Near.lift_bind fun n2 h2 => Near.drops (.inr rfl)
        ((AlikeS.refl _).set _ ((setAugmentation_form h2).trans (setAugmentation_form h1))) Near.pure
  · exact Near.pure

theorem mergeInnerNodeD_near (S : Store K V A → Prop) (pid : Nat) (s : Store K V A) (node : Inner K A)
    (slot : Nat) : Near AlikeS S (mergeInnerNodeD pid s node slot) (mergeInnerNodeT pid s node slot) := by
  unfold mergeInnerNodeD mergeInnerNodeT
  refine Near.guard fun _ => Near.lift_bind fun lid _ => Near.lift_bind fun rid _ => Near.lift_bind fun q _ =>
    Near.lift_bind fun q2 _ => Near.lift_bind fun l1 _ => Near.lift_bind fun l2 _ => Near.seen (ofInner_ne _) <|
    Near.lift_bind fun n1 h1 => Near.drops (.inr rfl) ((AlikeS.refl _).set _ (setAugmentation_form h1)) Near.pure

theorem handleInnerUnderSizeD_near (S : Store K V A × Statistic → Prop) (pid : Nat) (s : Store K V A)
    (st : Statistic) (node : Inner K A) (idx : Nat) (kv : K × V) :
    Near AlikeP S (handleInnerUnderSizeD pid s st node idx kv) (handleInnerUnderSizeT pid s st node idx kv) := by
  have mp : ∀ {α : Type} {st : Statistic} {d t : Traced (Store K V A) α}, Near AlikeS (fun _ => False) d t →
      Near AlikeP S (Traced.mapMem (·, st) d) (Traced.mapMem (·, st) t) := fun h =>
    h.mapMem (fun _ _ h => ⟨h, rfl⟩) (fun _ h => h.elim)
  unfold handleInnerUnderSizeD handleInnerUnderSizeT
  refine Near.bind ?_ fun q _ => ?_
  · split
    · exact mp (tryRotateRightInnerD_near _ _ _ _ _)
    · exact Near.pure
  · cases q with
    | some q => exact Near.pure
    | none =>
      refine Near.bind ?_ fun q _ => ?_
      · split
        · exact mp (tryRotateLeftInnerD_near _ _ _ _ _)
        · exact Near.pure
      · cases q with
        | some q => exact Near.pure
        | none =>
          refine Near.bind (mp (mergeInnerNodeD_near _ _ _ _ _)) fun q _ => ?_
          obtain ⟨ok, s1, n1⟩ := q
          cases ok <;> exact Near.pure

theorem rotateRightForLeafD_near (S : Store K V A → Prop) (pid : Nat) (s : Store K V A) (node : Inner K A)
    (slot idx : Nat) :
    Near AlikeS S (rotateRightForLeafD pid s node slot idx) (rotateRightForLeafT pid s node slot idx) := by
  unfold rotateRightForLeafD rotateRightForLeafT
  refine Near.lift_bind fun lid _ => Near.lift_bind fun rid _ => Near.lift_bind fun l _ => Near.guard fun _ =>
    Near.lift_bind fun q _ => Near.seen (ofLeaf_ne _) <| Near.lift_bind fun n1 h1 =>
    Near.drops (.inr rfl) ((AlikeS.refl _).set _ (setAugmentation_form h1)) <| Near.seen (by simp) <|
    Near.lift_bind fun r _ => Near.lift_bind fun q2 _ => Near.seen (ofLeaf_ne _) <|
    Near.lift_bind fun n2 h2 => Near.drops (.inr rfl) ((AlikeS.refl _).set _ (setAugmentation_form h2)) <|
    Near.lift_bind fun q3 h3 => Near.drops (.inr rfl) (((AlikeS.refl _).cache _).set _
      ((setKey_form h3).trans (setAugmentation_form h2))) Near.pure

theorem rotateLeftForLeafD_near (S : Store K V A → Prop) (pid : Nat) (s : Store K V A) (node : Inner K A)
    (slot idx : Nat) :
    Near AlikeS S (rotateLeftForLeafD pid s node slot idx) (rotateLeftForLeafT pid s node slot idx) := by
  unfold rotateLeftForLeafD rotateLeftForLeafT
  refine Near.lift_bind fun lid _ => Near.lift_bind fun rid _ => Near.lift_bind fun l _ => Near.guard fun _ =>
    Near.lift_bind fun q _ => Near.seen (ofLeaf_ne _) <| Near.lift_bind fun n1 h1 =>
    Near.drops (.inr rfl) ((AlikeS.refl _).set _ (setAugmentation_form h1)) <| Near.lift_bind fun fi _ =>
    Near.seen (by simp) <|
    Near.lift_bind fun r _ => Near.lift_bind fun q2 _ => Near.seen (ofLeaf_ne _) <|
    Near.lift_bind fun n2 h2 => Near.drops (.inr rfl) ((AlikeS.refl _).set _ (setAugmentation_form h2)) <|
    Near.lift_bind fun q3 h3 => Near.drops (.inr rfl) ((AlikeS.refl _).set _
      ((setKey_form h3).trans (setAugmentation_form h2))) Near.pure

theorem mergeLeafNodeLeftD_near (pid : Nat) (s : Store K V A) (node : Inner K A) (slot idx : Nat) :
    Near AlikeS (fun m => ∃ q, mergeLeafNodeLeft s node slot idx = .ok q ∧ m = q.2.1.setInner pid q.2.2)
      (mergeLeafNodeLeftD pid s node slot idx) (mergeLeafNodeLeftT pid s node slot idx) := by
  unfold mergeLeafNodeLeftD mergeLeafNodeLeftT mergeLeafNodeLeft
  refine Near.lift_bind fun lid e1 => Near.lift_bind fun rid e2 => Near.lift_bind fun q e3 =>
    Near.lift_bind fun l e4 => Near.lift_bind fun q2 e5 => Near.seen (ofLeaf_ne _) <|
    Near.lift_bind fun n1 h1 => Near.drops (.inr rfl) ((AlikeS.refl _).set _ (setAugmentation_form h1)) <|
    Near.lift_bind fun s2 e6 => Near.lift_bind fun q3 e7 =>
    Near.drops (m' := (s2.cacheLeaf lid).setInner pid q3.2.2)
      (.inl ⟨(if q3.1 then .done q2.1 else .innerUnderSize q2.1, s2.cacheLeaf lid, q3.2.2), ?_, rfl⟩) ⟨rfl, rfl⟩ Near.pure
  obtain ⟨c1, e1, e1'⟩ := bind_ok e1
  obtain ⟨c2, e2, e2'⟩ := bind_ok e2
  simp only [e1, e1', e2, e2', e3, e4, e5, h1, e6, e7, ok_bind]
  rfl

theorem mergeLeafNodeWithRightD_near (pid : Nat) (s : Store K V A) (node : Inner K A) (slot idx : Nat) :
    Near AlikeS (fun m => ∃ q, mergeLeafNodeWithRight s node slot idx = .ok q ∧ m = q.2.1.setInner pid q.2.2)
      (mergeLeafNodeWithRightD pid s node slot idx) (mergeLeafNodeWithRightT pid s node slot idx) := by
  unfold mergeLeafNodeWithRightD mergeLeafNodeWithRightT mergeLeafNodeWithRight
  refine Near.lift_bind fun lid e1 => Near.lift_bind fun rid e2 => Near.lift_bind fun q e3 =>
    Near.lift_bind fun l e4 => Near.lift_bind fun q2 e5 => Near.lift_bind fun l3 e8 => Near.seen (ofLeaf_ne _) <|
    Near.lift_bind fun n1 h1 => Near.drops (.inr rfl) ((AlikeS.refl _).set _ (setAugmentation_form h1)) <|
    Near.lift_bind fun s2 e6 => Near.lift_bind fun q3 e7 =>
    Near.drops (m' := (s2.cacheLeaf lid).setInner pid q3.2.2)
      (.inl ⟨(if q3.1 then .done q2.1 else .innerUnderSize q2.1, s2.cacheLeaf lid, q3.2.2), ?_, rfl⟩) ⟨rfl, rfl⟩ Near.pure
  obtain ⟨c1, e1, e1'⟩ := bind_ok e1
  obtain ⟨c2, e2, e2'⟩ := bind_ok e2
  simp only [e1, e1', e2, e2', e3, e4, e5, e8, h1, e6, e7, ok_bind]
  rfl

theorem handleLeafUnderSizeD_near (pid : Nat) (s : Store K V A) (st : Statistic) (node : Inner K A)
    (idx j : Nat) :
    Near AlikeP (fun m => ∃ q, handleLeafUnderSize s st node idx j = .ok q ∧
        m = (q.2.1.setInner pid q.2.2.2, q.2.2.1))
      (handleLeafUnderSizeD pid s st node idx j) (handleLeafUnderSizeT pid s st node idx j) := by
  unfold handleLeafUnderSizeD handleLeafUnderSizeT handleLeafUnderSize
  refine Near.lift_bind fun p e1 => Near.lift_bind fun n e2 => Near.lift_bind fun fix e3 => ?_
  simp only [e1, e2, e3, ok_bind]
  cases fix with
  | rotateRight =>
    exact Near.bind ((rotateRightForLeafD_near (fun _ => False) _ _ _ _ _).mapMem (fun _ _ h => ⟨h, rfl⟩)
      (fun _ h => h.elim)) fun q _ => Near.pure
  | rotateLeft =>
    exact Near.bind ((rotateLeftForLeafD_near (fun _ => False) _ _ _ _ _).mapMem (fun _ _ h => ⟨h, rfl⟩)
      (fun _ h => h.elim)) fun q _ => Near.pure
  | mergeLeft =>
    refine Near.bind ((mergeLeafNodeLeftD_near _ _ _ _ _).mapMem (fun _ _ h => ⟨h, rfl⟩) ?_) fun q _ => Near.pure
    rintro m ⟨q, h1, rfl⟩
    exact ⟨_, by rw [h1]; rfl, rfl⟩
  | mergeRight =>
    refine Near.bind ((mergeLeafNodeWithRightD_near _ _ _ _ _).mapMem (fun _ _ h => ⟨h, rfl⟩) ?_) fun q _ => Near.pure
    rintro m ⟨q, h1, rfl⟩
    exact ⟨_, by rw [h1]; rfl, rfl⟩

theorem removeAscendD_near (S : Store K V A × Statistic → Prop) (stack : List StackEntry) (s : Store K V A)
    (st : Statistic) (r : DeleteResult K V)
    (hS : ∀ idx, r = .leafUnderSize idx → ∀ pid ci cid stack' nd q, stack = (pid, ci, cid) :: stack' →
      s.getInner pid = .ok nd → handleLeafUnderSize s st nd ci idx = .ok q →
      S (q.2.1.setInner pid q.2.2.2, q.2.2.1)) :
    Near AlikeP S (removeAscendD s st stack r) (removeAscendT s st stack r) := by
  induction stack generalizing s st r with
  | nil => exact Near.pure
  | cons e stack ih =>
    obtain ⟨pid, ci, cid⟩ := e
    cases r with
    | done kv =>
      refine Near.newAug fun a _ => Near.lift_bind fun n e1 => Near.lift_bind fun n1 h1 =>
        Near.drops (.inr rfl) ⟨?_, rfl⟩ (Near.mono (fun _ h => .inl h) (ih _ _ _ (by intro _ h; cases h)))
      have e1 := getInner_eq e1
      have : s.setInner pid n = s := by simp only [Store.setInner, set_same e1]
      have h2 := (AlikeS.refl s).set pid (setAugmentation_form h1)
      rw [this] at h2
      exact h2
    | innerUnderSize kv =>
      refine Near.lift_bind fun n e1 => Near.bind (handleInnerUnderSizeD_near _ _ _ _ _ _ _) fun q hq => ?_
      refine ih _ _ _ fun idx h => ?_
      rw [(handleInnerUnderSizeD_near (fun _ => False) _ _ _ _ _ _).result, handleInnerUnderSizeT_result] at hq
      exact absurd h (handleInner_below (r := q.1) (s' := q.2.1) (st' := q.2.2.1) (n' := q.2.2.2) hq idx)
    | leafUnderSize idx =>
      refine Near.lift_bind fun n e1 => Near.bind (Near.mono ?_ (handleLeafUnderSizeD_near _ _ _ _ _ _)) fun q hq => ?_
      · rintro m ⟨q, h1, rfl⟩
        exact hS idx rfl pid ci cid stack n q rfl e1 h1
      · refine ih _ _ _ fun idx h => ?_
        rw [(handleLeafUnderSizeD_near _ _ _ _ _ _).result, handleLeafUnderSizeT_result] at hq
        exact absurd h (handleLeaf_below (r := q.1) (s' := q.2.1) (st' := q.2.2.1) (n' := q.2.2.2) hq idx)

/-! ## Destructors of keys -/

theorem tryRotateRightInnerD_aug (pid : Nat) (s : Store K V A) (node : Inner K A) (slot : Nat) :
    (tryRotateRightInnerD pid s node slot).All (fun c _ => c = .dropAug) := by
  refine Traced.all_lift_bind fun rid _ => Traced.all_lift_bind fun lid _ => Traced.all_lift_bind fun prev _ => ?_
  split
  · exact Traced.all_lift_bind fun _ _ => Traced.all_lift_bind fun _ _ => Traced.all_lift_bind fun _ _ =>
      Traced.all_lift_bind fun _ _ => Traced.all_lift_bind fun _ _ => Traced.all_call_bind rfl <|
      Traced.all_lift_bind fun _ _ => Traced.all_call_bind rfl Traced.all_pure
  · exact Traced.all_pure

theorem tryRotateLeftInnerD_aug (pid : Nat) (s : Store K V A) (node : Inner K A) (slot : Nat) :
    (tryRotateLeftInnerD pid s node slot).All (fun c _ => c = .dropAug) := by
  refine Traced.all_lift_bind fun rid _ => Traced.all_lift_bind fun lid _ => Traced.all_lift_bind fun prev _ => ?_
  split
  · exact Traced.all_lift_bind fun _ _ => Traced.all_lift_bind fun _ _ => Traced.all_lift_bind fun _ _ =>
      Traced.all_lift_bind fun _ _ => Traced.all_lift_bind fun _ _ => Traced.all_call_bind rfl <|
      Traced.all_lift_bind fun _ _ => Traced.all_call_bind rfl Traced.all_pure
  · exact Traced.all_pure

theorem mergeInnerNodeD_aug (pid : Nat) (s : Store K V A) (node : Inner K A) (slot : Nat) :
    (mergeInnerNodeD pid s node slot).All (fun c _ => c = .dropAug) :=
  Traced.all_guard fun _ => Traced.all_lift_bind fun _ _ => Traced.all_lift_bind fun _ _ =>
    Traced.all_lift_bind fun _ _ => Traced.all_lift_bind fun _ _ => Traced.all_lift_bind fun _ _ =>
    Traced.all_lift_bind fun _ _ => Traced.all_lift_bind fun _ _ => Traced.all_call_bind rfl Traced.all_pure

theorem handleInnerUnderSizeD_aug (pid : Nat) (s : Store K V A) (st : Statistic) (node : Inner K A) (idx : Nat)
    (kv : K × V) : (handleInnerUnderSizeD pid s st node idx kv).All (fun c _ => c = .dropAug) := by
  unfold handleInnerUnderSizeD
  refine Traced.all_bind ?_ fun q _ => ?_
  · split
    · exact Traced.all_mapMem (tryRotateRightInnerD_aug _ _ _ _)
    · exact Traced.all_pure
  · cases q with
    | some q => exact Traced.all_pure
    | none =>
      refine Traced.all_bind ?_ fun q _ => ?_
      · split
        · exact Traced.all_mapMem (tryRotateLeftInnerD_aug _ _ _ _)
        · exact Traced.all_pure
      · cases q with
        | some q => exact Traced.all_pure
        | none =>
          refine Traced.all_bind (Traced.all_mapMem (mergeInnerNodeD_aug _ _ _ _)) fun q _ => ?_
          obtain ⟨ok, s1, n1⟩ := q
          cases ok <;> exact Traced.all_pure

theorem mergeLeafNodeLeftD_key (pid : Nat) (s : Store K V A) (node : Inner K A) (slot idx : Nat) :
    (mergeLeafNodeLeftD pid s node slot idx).All (fun c m => c = .dropKey →
      ∃ q, mergeLeafNodeLeft s node slot idx = .ok q ∧ AlikeS m (q.2.1.setInner pid q.2.2)) := by
  unfold mergeLeafNodeLeftD mergeLeafNodeLeft
  refine Traced.all_lift_bind fun lid e1 => Traced.all_lift_bind fun rid e2 => Traced.all_lift_bind fun q e3 =>
    Traced.all_lift_bind fun l e4 => Traced.all_lift_bind fun q2 e5 =>
    Traced.all_lift_bind fun n1 h1 => Traced.all_call_bind (fun h => by cases h) <|
    Traced.all_lift_bind fun s2 e6 => Traced.all_lift_bind fun q3 e7 =>
    Traced.all_call_bind (fun _ => ⟨(if q3.1 then .done q2.1 else .innerUnderSize q2.1, s2.cacheLeaf lid, q3.2.2),
      ?_, ⟨rfl, rfl⟩⟩) Traced.all_pure
  obtain ⟨c1, e1, e1'⟩ := bind_ok e1
  obtain ⟨c2, e2, e2'⟩ := bind_ok e2
  simp only [e1, e1', e2, e2', e3, e4, e5, h1, e6, e7, ok_bind]
  rfl

theorem mergeLeafNodeWithRightD_key (pid : Nat) (s : Store K V A) (node : Inner K A) (slot idx : Nat) :
    (mergeLeafNodeWithRightD pid s node slot idx).All (fun c m => c = .dropKey →
      ∃ q, mergeLeafNodeWithRight s node slot idx = .ok q ∧ AlikeS m (q.2.1.setInner pid q.2.2)) := by
  unfold mergeLeafNodeWithRightD mergeLeafNodeWithRight
  refine Traced.all_lift_bind fun lid e1 => Traced.all_lift_bind fun rid e2 => Traced.all_lift_bind fun q e3 =>
    Traced.all_lift_bind fun l e4 => Traced.all_lift_bind fun q2 e5 => Traced.all_lift_bind fun l3 e8 =>
    Traced.all_lift_bind fun n1 h1 => Traced.all_call_bind (fun h => by cases h) <|
    Traced.all_lift_bind fun s2 e6 => Traced.all_lift_bind fun q3 e7 =>
    Traced.all_call_bind (fun _ => ⟨(if q3.1 then .done q2.1 else .innerUnderSize q2.1, s2.cacheLeaf lid, q3.2.2),
      ?_, ⟨rfl, rfl⟩⟩) Traced.all_pure
  obtain ⟨c1, e1, e1'⟩ := bind_ok e1
  obtain ⟨c2, e2, e2'⟩ := bind_ok e2
  simp only [e1, e1', e2, e2', e3, e4, e5, e8, h1, e6, e7, ok_bind]
  rfl

theorem handleLeafUnderSizeD_key (pid : Nat) (s : Store K V A) (st : Statistic) (node : Inner K A)
    (idx j : Nat) :
    (handleLeafUnderSizeD pid s st node idx j).All (fun c m => c = .dropKey → m.2 = st ∨
      ∃ q, handleLeafUnderSize s st node idx j = .ok q ∧ AlikeP m (q.2.1.setInner pid q.2.2.2, q.2.2.1)) := by
  unfold handleLeafUnderSizeD handleLeafUnderSize
  refine Traced.all_lift_bind fun p e1 => Traced.all_lift_bind fun n e2 => Traced.all_lift_bind fun fix e3 => ?_
  simp only [e1, e2, e3, ok_bind]
  cases fix with
  | rotateRight =>
    exact Traced.all_bind (Traced.all_mapMem (fun _ _ _ _ => .inl rfl)) fun q _ => Traced.all_pure
  | rotateLeft =>
    exact Traced.all_bind (Traced.all_mapMem (fun _ _ _ _ => .inl rfl)) fun q _ => Traced.all_pure
  | mergeLeft =>
    refine Traced.all_bind (Traced.all_mapMem (Traced.all_mono (fun c m h hc => .inr ?_)
      (mergeLeafNodeLeftD_key _ _ _ _ _))) fun q _ => Traced.all_pure
    obtain ⟨q, h1, h2⟩ := h hc
    exact ⟨_, by rw [h1]; rfl, h2, rfl⟩
  | mergeRight =>
    refine Traced.all_bind (Traced.all_mapMem (Traced.all_mono (fun c m h hc => .inr ?_)
      (mergeLeafNodeWithRightD_key _ _ _ _ _))) fun q _ => Traced.all_pure
    obtain ⟨q, h1, h2⟩ := h hc
    exact ⟨_, by rw [h1]; rfl, h2, rfl⟩

theorem removeAscendD_key (S : Store K V A × Statistic → Prop) (stack : List StackEntry) (s : Store K V A)
    (st : Statistic) (r : DeleteResult K V)
    (hS : ∀ idx, r = .leafUnderSize idx → ∀ pid ci cid stack' nd q, stack = (pid, ci, cid) :: stack' →
      s.getInner pid = .ok nd → handleLeafUnderSize s st nd ci idx = .ok q →
      S (q.2.1.setInner pid q.2.2.2, q.2.2.1)) :
    (removeAscendD s st stack r).All (fun c m => c = .dropKey → m.2 = st ∨ ∃ m', S m' ∧ AlikeP m m') := by
  have key : ∀ (stack : List StackEntry) (s : Store K V A) (st : Statistic) (r : DeleteResult K V),
      (∀ idx, r ≠ .leafUnderSize idx) → (removeAscendD s st stack r).All (fun c _ => c = .dropAug) := by
    intro stack
    induction stack with
    | nil => exact fun _ _ _ _ => Traced.all_pure
    | cons e stack ih =>
      obtain ⟨pid, ci, cid⟩ := e
      intro s st r hr
      cases r with
      | done kv =>
        exact Traced.all_lift_bind fun a _ => Traced.all_lift_bind fun n e1 => Traced.all_lift_bind fun n1 h1 =>
          Traced.all_call_bind rfl (ih _ _ _ (by simp))
      | innerUnderSize kv =>
        refine Traced.all_lift_bind fun n e1 => Traced.all_bind (handleInnerUnderSizeD_aug _ _ _ _ _ _) fun q hq => ?_
        rw [(handleInnerUnderSizeD_near (fun _ => False) _ _ _ _ _ _).result, handleInnerUnderSizeT_result] at hq
        exact ih _ _ _ (handleInner_below (r := q.1) (s' := q.2.1) (st' := q.2.2.1) (n' := q.2.2.2) hq)
      | leafUnderSize idx => exact absurd rfl (hr idx)
  have key' : ∀ (stack : List StackEntry) (s : Store K V A) (st' : Statistic) (r : DeleteResult K V),
      (∀ idx, r ≠ .leafUnderSize idx) → (removeAscendD s st' stack r).All (fun c m => c = .dropKey → m.2 = st ∨
        ∃ m', S m' ∧ AlikeP m m') := fun stack s st' r hr =>
    Traced.all_mono (fun c m h hc => by rw [h] at hc; cases hc) (key stack s st' r hr)
  cases r with
  | done kv => exact key' _ _ _ _ (by simp)
  | innerUnderSize kv => exact key' _ _ _ _ (by simp)
  | leafUnderSize idx =>
    cases stack with
    | nil => exact Traced.all_pure
    | cons e stack =>
      obtain ⟨pid, ci, cid⟩ := e
      refine Traced.all_lift_bind fun n e1 => Traced.all_bind (Traced.all_mono (fun c m h hc => ?_)
        (handleLeafUnderSizeD_key _ _ _ _ _ _)) fun q hq => ?_
      · refine (h hc).imp id ?_
        rintro ⟨q, h1, h2⟩
        exact ⟨_, hS idx rfl pid ci cid stack n q rfl e1 h1, h2⟩
      · rw [(handleLeafUnderSizeD_near _ _ _ _ _ _).result, handleLeafUnderSizeT_result] at hq
        exact key' _ _ _ _ (handleLeaf_below (r := q.1) (s' := q.2.1) (st' := q.2.2.1) (n' := q.2.2.2) hq)

/-! ## The whole removal -/

/-- The memories when the step at an undersized leaf is complete. -/
def AfterLeafStep (t : Tree K V A) (e : EntryRef) (m : Tree K V A) : Prop :=
  ∃ leaf leaf' idx pid ci cid stack nd q, t.store.getLeaf e.leafId = .ok leaf ∧
    leaf.tryDeleteAt e.offset = .ok (leaf', .underSize idx) ∧ e.stack = (pid, ci, cid) :: stack ∧
    (t.store.setLeaf e.leafId leaf').getInner pid = .ok nd ∧
    handleLeafUnderSize (t.store.setLeaf e.leafId leaf') t.st nd ci idx = .ok q ∧
    m = { t with store := q.2.1.setInner pid q.2.2.2, st := q.2.2.1 }

theorem removeByRefD_near (t : Tree K V A) (e : EntryRef) :
    Near AlikeT (AfterLeafStep t e) (t.removeByRefD e) (t.removeByRefT e) := by
  refine Near.lift_bind fun leaf e1 => Near.lift_bind fun q e2 => ?_
  obtain ⟨leaf', dr⟩ := q
  refine Near.bind (Near.mapMem (R := AlikeP)
    (S := fun m => AfterLeafStep t e { t with store := m.1, st := m.2 })
    (fun _ _ h => ⟨h.1, rfl, rfl, h.2⟩) (fun _ h => h) (removeAscendD_near _ _ _ _ _ ?_)) fun q3 _ => ?_
  · intro idx hr pid ci cid stack nd q hs hn hq
    cases dr with
    | done kv => cases hr
    | underSize idx' =>
      cases hr
      exact ⟨leaf, leaf', _, pid, ci, cid, stack, nd, q, e1, e2, hs, hn, hq, rfl⟩
  · refine Near.lift_bind fun q4 _ => Near.newAug fun a _ =>
      Near.drops (.inr rfl) ⟨AlikeS.refl _, rfl, rfl, rfl⟩ <| Near.guard fun _ => Near.pure

theorem removeByRefD_key (t : Tree K V A) (e : EntryRef) :
    (t.removeByRefD e).All (fun c m => c = .dropKey → m.st = t.st ∨ ∃ m', AfterLeafStep t e m' ∧ AlikeT m m') := by
  refine Traced.all_lift_bind fun leaf e1 => Traced.all_lift_bind fun q e2 => ?_
  obtain ⟨leaf', dr⟩ := q
  refine Traced.all_bind (Traced.all_mapMem (Traced.all_mono (fun c m h hc => ?_)
    (removeAscendD_key (fun m => AfterLeafStep t e { t with store := m.1, st := m.2 }) _ _ _ _ ?_))) fun q3 _ => ?_
  · refine (h hc).imp id ?_
    rintro ⟨m', h1, h2⟩
    exact ⟨_, h1, h2.1, rfl, rfl, h2.2⟩
  · intro idx hr pid ci cid stack nd q hs hn hq
    cases dr with
    | done kv => cases hr
    | underSize idx' =>
      cases hr
      exact ⟨leaf, leaf', _, pid, ci, cid, stack, nd, q, e1, e2, hs, hn, hq, rfl⟩
  · exact Traced.all_lift_bind fun _ _ => Traced.all_lift_bind fun _ _ =>
      Traced.all_call_bind (fun h => by cases h) <| Traced.all_guard fun _ => Traced.all_pure

theorem removeD_result (o : Answers K) (t : Tree K V A) : (t.removeD o).result = (t.removeT o).result := by
  unfold Tree.removeD Tree.removeT
  simp only [Traced.result_bind, Traced.result_call, ok_bind, Traced.result_lift]
  refine bind_congr fun r => ?_
  cases r with
  | none => rfl
  | some e =>
    simp only [Traced.result_bind, (removeByRefD_near t e).result]
    refine bind_congr fun q => ?_
    simp

theorem AfterLeafStep.short {μ : Nat} (hμ1 : 1 ≤ μ) {t : Tree K V A} {l : List (K × V)} (h : UInvM μ t l)
    {o : Answers K} {e : EntryRef} (he : t.keyToRefU o = .ok (some e)) {m : Tree K V A} (hm : AfterLeafStep t e m) :
    ∃ H n, Short (· ∈ l) m.store m.root H n ∧ n + 1 = m.len := by
  obtain ⟨H, g, w, hl⟩ := h.ghost
  obtain ⟨c, x, hp, hlen, hdesc⟩ := descend_stackU w (w.depth h.lt) o
  have hleaves : g.leaves = c.lvL ++ (x.id, x.data) :: c.lvR := by
    rw [← hp, Ctx.leaves_plug]; simp [T.leaves]
  have hget := w.flat.get hleaves
  unfold Tree.keyToRefU at he
  rw [hdesc] at he
  simp only [ok_bind] at he
  simp only at hget
  rw [hget] at he
  obtain ⟨i, d⟩ := x
  rcases locateSlotU_cases o d (lstId none c.lvL) (hdId c.lvR none) with ⟨a, kv, b, rfl, h1⟩ | ⟨a, b, rfl, h1⟩
  · obtain ⟨inst, -⟩ := exists_wellFoundedLT K
    simp only [ok_bind, h1, pure_ok] at he
    cases he
    rcases removeByRef_ok0 h.le w hp hlen with ⟨t', H', g', r1, r2, -, r4, -⟩ | ⟨r0, -⟩
    · have hl1 : t'.len + 1 = t.len := by
        rw [r2.len, w.len, r4, T.toL, hleaves]
        simp only [List.length_append, List.flatMap_append, List.flatMap_cons, List.length_cons]
        omega
      have hstep := (removeByRefT_short_step (P := (· ∈ l)) hμ1 h.le w hp hlen r1 r2 hl1 (fun x hx => hl ▸ hx) (by
        intro y hy
        rw [r4] at hy
        rw [← hl, T.toL, hleaves]
        simp only [List.mem_append, List.flatMap_append, List.flatMap_cons, List.mem_cons] at hy ⊢
        tauto)).2
      obtain ⟨leaf, leaf', idx, pid, ci, cid, stack, nd, q, e1, e2, e3, e4, e5, rfl⟩ := hm
      simp only at e1 e2 e3 e4 e5 hget
      rw [hget] at e1
      cases e1
      unfold Leaf.tryDeleteAt at e2
      split at e2
      · obtain ⟨_, -, e2⟩ := bind_ok e2
        cases e2
      · next hab =>
        obtain ⟨rfl, e2⟩ := Prod.mk.inj (Except.ok.inj e2)
        cases e2
        have hget' : t.store.leaves[i]? = some (some ⟨a ++ kv :: b, lstId none c.lvL, hdId c.lvR none⟩) :=
          getLeaf_eq hget
        have hset : t.store.setLeaf i ⟨a ++ kv :: b, lstId none c.lvL, hdId c.lvR none⟩ = t.store := by
          simp only [Store.setLeaf, set_same hget']
        rw [hset] at e4 e5
        refine ⟨H, t'.len, hstep ?_ pid ci cid stack nd q e3 e4 e5, by simp only; omega⟩
        have : ¬ 16 < (a ++ kv :: b).length := fun h => hab (decide_eq_true h)
        omega
    · omega
  · simp only [ok_bind, h1, pure_ok] at he
    cases he

/-- What happens to the map at every destructor of a removal. -/
theorem removeD_points {μ : Nat} (hμ1 : 1 ≤ μ) {t : Tree K V A} {l : List (K × V)} (h : UInvM μ t l)
    (o : Answers K) : (t.removeD o).All (fun cb m => (cb = .dropKey ∧ ∃ r, t.removeU o = .ok (r, m)) ∨
      ((∃ j, m.lastLeaf = .ok j ∧
        m.drop = .error (open Classical in if (∃ l, m.store.leaves[j]? = some (some l)) then .panic else .ub)) ∧
      (cb = .dropKey ∨ m.st.leafMerges = t.st.leafMerges ∨ m.root ≠ t.root →
        m.drop = .error .panic ∧ ∃ n, Holding (· ∈ l) n m ∧ n + 1 = m.len))) := by
  have hres := removeD_result o t
  rw [removeT_result] at hres
  have hE := removeT_exact hμ1 h o
  have hS := removeT_short hμ1 h o
  have fromShort : ∀ {m m' : Tree K V A}, AlikeT m m' → (∃ H n, Short (· ∈ l) m'.store m'.root H n ∧ n + 1 = m'.len) →
      (∃ j, m.lastLeaf = .ok j ∧
        m.drop = .error (open Classical in if (∃ l, m.store.leaves[j]? = some (some l)) then .panic else .ub)) ∧
      m.drop = .error .panic ∧ ∃ n, Holding (· ∈ l) n m ∧ n + 1 = m.len := by
    rintro m m' e ⟨H, n, hs, hn⟩
    obtain ⟨j, l', h3, h4⟩ := hs.down.last m'.store.fuel hs.fuel
    have hd : m.drop = .error .panic := e.drop.trans (hs.drop (by omega))
    refine ⟨⟨j, ?_, ?_⟩, hd, n, e.holding ?_, by rw [e.len, hn]⟩
    · rw [e.lastLeaf]
      unfold Tree.lastLeaf descendLeaf
      rw [h4]; rfl
    · rw [hd, if_pos ⟨l', e.store.leaves ▸ h3⟩]
    · obtain ⟨e1, e2, L, e3, e5, e4⟩ := hs
      exact ⟨H, L, e1, e2, e3, e4, e5⟩
  intro cb m hm
  rcases Traced.mem_bind.1 hm with hm | ⟨r, hr, hm⟩
  · simp at hm
  have hr : t.keyToRefU o = .ok r := hr
  cases r with
  | none => simp at hm
  | some e =>
    rcases Traced.mem_bind.1 hm with hm | ⟨q, hq, hm⟩
    · refine .inr ?_
      have hT : ∀ {c' m'}, (c', m') ∈ (t.removeByRefT e).trace → (c', m') ∈ (t.removeT o).trace := fun h1 =>
        Traced.mem_bind.2 (.inr ⟨(), rfl, Traced.mem_bind.2 (.inr ⟨some e, hr, Traced.mem_bind.2 (.inl h1)⟩)⟩)
      rcases (removeByRefD_near t e).mem cb m hm with ⟨m', h1, h2⟩ | ⟨c', m', h1, h2, h3⟩
      · obtain ⟨k1, k2⟩ := fromShort h2 (h1.short hμ1 h hr)
        exact ⟨k1, fun _ => k2⟩
      · refine ⟨?_, fun hk => ?_⟩
        · obtain ⟨j, h4, h5⟩ := hE c' m' (hT h1) h2
          refine ⟨j, h3.lastLeaf.trans h4, ?_⟩
          rw [h3.drop, h5, h3.store.leaves]
        · have hsafe : m.st.leafMerges = t.st.leafMerges ∨ m.root ≠ t.root →
              m.drop = .error .panic ∧ ∃ n, Holding (· ∈ l) n m ∧ n + 1 = m.len := fun hs =>
            (fromShort h3 (hS c' m' (hT h1) h2 (fun _ => by rw [← h3.st, ← h3.root]; exact hs))).2
          rcases hk with rfl | hk
          · rcases removeByRefD_key t e _ m hm rfl with hk | ⟨m2, hk1, hk2⟩
            · exact hsafe (.inl (by rw [hk]))
            · exact (fromShort hk2 (hk1.short hμ1 h hr)).2
          · exact hsafe hk
    · refine .inl ?_
      rcases Traced.mem_bind.1 hm with hm | ⟨_, -, hm⟩
      · simp only [Traced.trace_call, List.mem_singleton, Prod.mk.injEq] at hm
        obtain ⟨rfl, rfl⟩ := hm
        refine ⟨rfl, some q.1.2, ?_⟩
        rw [← hres]
        unfold Tree.removeD
        rw [Traced.result_bind, Traced.result_lift, hr]
        simp only [ok_bind]
        rw [Traced.result_bind, hq]
        rfl
      · simp at hm

end

/-! ## How many destructors run -/

/-- Rotations and merges of leaves. -/
def Statistic.leafSteps (st : Statistic) : Nat :=
  st.rotateRightLeaf + st.rotateLeftLeaf + st.mergeWithLeftLeaf + st.mergeWithRightLeaf

/-- Rotations of leaves and of inner nodes. -/
def Statistic.rotations (st : Statistic) : Nat :=
  st.rotateRightLeaf + st.rotateLeftLeaf + st.rotateRightInner + st.rotateLeftInner

/-- If the program ends, its answer and its numbers of key and augmentation destructors satisfy `P`. -/
def Tally {σ α : Type} (x : Traced σ α) (P : α → Nat → Nat → Prop) : Prop :=
  ∀ a, x.result = .ok a → P a (x.kinds.count .dropKey) (x.kinds.count .dropAug)

section
variable {σ τ α β : Type}

theorem Tally.pure {a : α} {P : α → Nat → Nat → Prop} (h : P a 0 0) : Tally (pure a : Traced σ α) P := by
  intro b hb
  cases hb
  exact h

theorem Tally.bind {x : Traced σ α} {f : α → Traced σ β} {Q : α → Nat → Nat → Prop} {P : β → Nat → Nat → Prop}
    (hx : Tally x Q) (hf : ∀ a i j, x.result = .ok a → Q a i j → Tally (f a) (fun b k l => P b (i + k) (j + l))) :
    Tally (x >>= f) P := by
  intro b hb
  rw [Traced.result_bind] at hb
  obtain ⟨a, ha, hb⟩ := bind_ok hb
  rw [Traced.kinds_bind ha, List.count_append, List.count_append]
  exact hf a _ _ ha (hx a ha) b hb

theorem Tally.lift_bind {x : Res α} {f : α → Traced σ β} {P : β → Nat → Nat → Prop}
    (hf : ∀ a, x = .ok a → Tally (f a) P) : Tally ((liftM x : Traced σ α) >>= f) P := by
  intro b hb
  rw [Traced.result_bind] at hb
  obtain ⟨a, ha, hb⟩ := bind_ok hb
  have ha : x = .ok a := ha
  rw [Traced.kinds_lift ha]
  exact hf a ha b hb

theorem Tally.aug {m : σ} {f : Unit → Traced σ β} {P : β → Nat → Nat → Prop}
    (h : Tally (f ()) (fun b i j => P b i (j + 1))) : Tally (Traced.call .dropAug m >>= f) P := by
  intro b hb
  rw [Traced.result_bind] at hb
  rw [Traced.kinds_call]
  simpa using h b hb

theorem Tally.key {m : σ} {f : Unit → Traced σ β} {P : β → Nat → Nat → Prop}
    (h : Tally (f ()) (fun b i j => P b (i + 1) j)) : Tally (Traced.call .dropKey m >>= f) P := by
  intro b hb
  rw [Traced.result_bind] at hb
  rw [Traced.kinds_call]
  simpa using h b hb

theorem Tally.guard {c : Prop} [Decidable c] {e : Res Unit} {f : Unit → Traced σ β} {P : β → Nat → Nat → Prop}
    (h : ∀ u, Tally (f u) P) : Tally (if c then (liftM e : Traced σ Unit) >>= f else f ()) P := by
  split
  · exact Tally.lift_bind fun u _ => h u
  · exact h ()

theorem Tally.mapMem {g : σ → τ} {x : Traced σ α} {P : α → Nat → Nat → Prop} (h : Tally x P) :
    Tally (Traced.mapMem g x) P := by
  intro a ha
  have : (Traced.mapMem g x).kinds = x.kinds := by
    simp [Traced.kinds, Traced.mapMem, List.map_map, Function.comp_def]
  rw [this]
  exact h a ha

end

section
variable [Augmentation K V A]

theorem tryRotateRightInnerD_tally (pid : Nat) (s : Store K V A) (node : Inner K A) (slot : Nat) :
    Tally (tryRotateRightInnerD pid s node slot) (fun r i j => i = 0 ∧ j = if r.isSome then 2 else 0) := by
  refine Tally.lift_bind fun rid _ => Tally.lift_bind fun lid _ => Tally.lift_bind fun prev _ => ?_
  split
  · exact Tally.lift_bind fun _ _ => Tally.lift_bind fun _ _ => Tally.lift_bind fun _ _ =>
      Tally.lift_bind fun _ _ => Tally.lift_bind fun _ _ => Tally.aug <|
      Tally.lift_bind fun _ _ => Tally.aug <| Tally.pure ⟨rfl, rfl⟩
  · exact Tally.pure ⟨rfl, rfl⟩

theorem tryRotateLeftInnerD_tally (pid : Nat) (s : Store K V A) (node : Inner K A) (slot : Nat) :
    Tally (tryRotateLeftInnerD pid s node slot) (fun r i j => i = 0 ∧ j = if r.isSome then 2 else 0) := by
  refine Tally.lift_bind fun rid _ => Tally.lift_bind fun lid _ => Tally.lift_bind fun prev _ => ?_
  split
  · exact Tally.lift_bind fun _ _ => Tally.lift_bind fun _ _ => Tally.lift_bind fun _ _ =>
      Tally.lift_bind fun _ _ => Tally.lift_bind fun _ _ => Tally.aug <|
      Tally.lift_bind fun _ _ => Tally.aug <| Tally.pure ⟨rfl, rfl⟩
  · exact Tally.pure ⟨rfl, rfl⟩

theorem mergeInnerNodeD_tally (pid : Nat) (s : Store K V A) (node : Inner K A) (slot : Nat) :
    Tally (mergeInnerNodeD pid s node slot) (fun _ i j => i = 0 ∧ j = 1) := by
  unfold mergeInnerNodeD
  exact Tally.guard fun _ => Tally.lift_bind fun _ _ => Tally.lift_bind fun _ _ =>
    Tally.lift_bind fun _ _ => Tally.lift_bind fun _ _ => Tally.lift_bind fun _ _ =>
    Tally.lift_bind fun _ _ => Tally.lift_bind fun _ _ => Tally.aug <| Tally.pure ⟨rfl, rfl⟩

/-- What one level of the loop adds. -/
def LevelTally (st st' : Statistic) (i j : Nat) : Prop :=
  i + st.leafSteps = st'.leafSteps ∧ j + st.rotations = st'.rotations + 1

theorem handleInnerUnderSizeD_tally (pid : Nat) (s : Store K V A) (st : Statistic) (node : Inner K A) (idx : Nat)
    (kv : K × V) : Tally (handleInnerUnderSizeD pid s st node idx kv) (fun q => LevelTally st q.2.2.1) := by
  unfold handleInnerUnderSizeD
  refine Tally.bind (Q := fun r i j => i = 0 ∧ j = if r.isSome then 2 else 0) ?_ fun q i j _ hq => ?_
  · split
    · exact Tally.mapMem (tryRotateRightInnerD_tally _ _ _ _)
    · exact Tally.pure ⟨rfl, rfl⟩
  · obtain ⟨rfl, rfl⟩ := hq
    cases q with
    | some q =>
      refine Tally.pure ⟨?_, ?_⟩
      · simp [Statistic.leafSteps]
      · simp [Statistic.rotations]; omega
    | none =>
      refine Tally.bind (Q := fun r i j => i = 0 ∧ j = if r.isSome then 2 else 0) ?_ fun q i j _ hq => ?_
      · split
        · exact Tally.mapMem (tryRotateLeftInnerD_tally _ _ _ _)
        · exact Tally.pure ⟨rfl, rfl⟩
      · obtain ⟨rfl, rfl⟩ := hq
        cases q with
        | some q =>
          refine Tally.pure ⟨?_, ?_⟩
          · simp [Statistic.leafSteps]
          · simp [Statistic.rotations]; omega
        | none =>
          refine Tally.bind (Tally.mapMem (mergeInnerNodeD_tally _ _ _ _)) fun q i j _ hq => ?_
          obtain ⟨rfl, rfl⟩ := hq
          obtain ⟨ok, s1, n1⟩ := q
          have : ∀ b : Prop, [Decidable b] → LevelTally st (if b then (idx - 1, { st with mergeWithLeftInner := st.mergeWithLeftInner + 1 }) else (idx, { st with mergeWithRightInner := st.mergeWithRightInner + 1 })).2 (0 + (0 + (0 + 0))) (0 + (0 + (1 + 0))) := by
            intro b _
            split <;> simp [LevelTally, Statistic.leafSteps, Statistic.rotations] <;> omega
          cases ok <;> exact Tally.pure (this _)

theorem handleLeafUnderSizeD_tally (pid : Nat) (s : Store K V A) (st : Statistic) (node : Inner K A)
    (idx j : Nat) : Tally (handleLeafUnderSizeD pid s st node idx j) (fun q => LevelTally st q.2.2.1) := by
  have hrr : ∀ slot, Tally (rotateRightForLeafD pid s node slot j) (fun _ i j => i = 1 ∧ j = 2) := fun slot =>
    Tally.lift_bind fun _ _ => Tally.lift_bind fun _ _ => Tally.lift_bind fun _ _ => Tally.guard fun _ =>
    Tally.lift_bind fun _ _ => Tally.lift_bind fun _ _ => Tally.aug <| Tally.lift_bind fun _ _ =>
    Tally.lift_bind fun _ _ => Tally.lift_bind fun _ _ => Tally.aug <| Tally.lift_bind fun _ _ => Tally.key <|
    Tally.pure ⟨rfl, rfl⟩
  have hrl : ∀ slot, Tally (rotateLeftForLeafD pid s node slot j) (fun _ i j => i = 1 ∧ j = 2) := fun slot =>
    Tally.lift_bind fun _ _ => Tally.lift_bind fun _ _ => Tally.lift_bind fun _ _ => Tally.guard fun _ =>
    Tally.lift_bind fun _ _ => Tally.lift_bind fun _ _ => Tally.aug <| Tally.lift_bind fun _ _ =>
    Tally.lift_bind fun _ _ => Tally.lift_bind fun _ _ => Tally.lift_bind fun _ _ => Tally.aug <|
    Tally.lift_bind fun _ _ => Tally.key <| Tally.pure ⟨rfl, rfl⟩
  have hml : ∀ slot, Tally (mergeLeafNodeLeftD pid s node slot j) (fun _ i j => i = 1 ∧ j = 1) := fun slot =>
    Tally.lift_bind fun _ _ => Tally.lift_bind fun _ _ => Tally.lift_bind fun _ _ =>
    Tally.lift_bind fun _ _ => Tally.lift_bind fun _ _ => Tally.lift_bind fun _ _ => Tally.aug <|
    Tally.lift_bind fun _ _ => Tally.lift_bind fun _ _ => Tally.key <| Tally.pure ⟨rfl, rfl⟩
  have hmr : ∀ slot, Tally (mergeLeafNodeWithRightD pid s node slot j) (fun _ i j => i = 1 ∧ j = 1) := fun slot =>
    Tally.lift_bind fun _ _ => Tally.lift_bind fun _ _ => Tally.lift_bind fun _ _ =>
    Tally.lift_bind fun _ _ => Tally.lift_bind fun _ _ => Tally.lift_bind fun _ _ => Tally.lift_bind fun _ _ =>
    Tally.aug <| Tally.lift_bind fun _ _ => Tally.lift_bind fun _ _ => Tally.key <| Tally.pure ⟨rfl, rfl⟩
  unfold handleLeafUnderSizeD
  refine Tally.lift_bind fun p e1 => Tally.lift_bind fun n e2 => Tally.lift_bind fun fix e3 => ?_
  cases fix with
  | rotateRight =>
    refine Tally.bind (Tally.mapMem (hrr _)) fun q i j _ hq => Tally.pure ?_
    obtain ⟨rfl, rfl⟩ := hq
    simp [LevelTally, Statistic.leafSteps, Statistic.rotations]; omega
  | rotateLeft =>
    refine Tally.bind (Tally.mapMem (hrl _)) fun q i j _ hq => Tally.pure ?_
    obtain ⟨rfl, rfl⟩ := hq
    simp [LevelTally, Statistic.leafSteps, Statistic.rotations]; omega
  | mergeLeft =>
    refine Tally.bind (Tally.mapMem (hml _)) fun q i j _ hq => Tally.pure ?_
    obtain ⟨rfl, rfl⟩ := hq
    simp [LevelTally, Statistic.leafSteps, Statistic.rotations]; omega
  | mergeRight =>
    refine Tally.bind (Tally.mapMem (hmr _)) fun q i j _ hq => Tally.pure ?_
    obtain ⟨rfl, rfl⟩ := hq
    simp [LevelTally, Statistic.leafSteps, Statistic.rotations]; omega

theorem removeAscendD_tally (stack : List StackEntry) (s : Store K V A) (st : Statistic) (r : DeleteResult K V) :
    Tally (removeAscendD s st stack r) (fun q i j => i + st.leafSteps = q.2.2.leafSteps ∧
      j + st.rotations = q.2.2.rotations + stack.length) := by
  induction stack generalizing s st r with
  | nil => exact Tally.pure ⟨by simp, by simp⟩
  | cons e stack ih =>
    obtain ⟨pid, ci, cid⟩ := e
    have mono : ∀ {α : Type} {x : Traced (Store K V A × Statistic) α} {P Q : α → Nat → Nat → Prop},
        (∀ a i j, P a i j → Q a i j) → Tally x P → Tally x Q := fun h hx a ha => h _ _ _ (hx a ha)
    have after : ∀ (s1 : Store K V A) (st1 : Statistic) (r1 : DeleteResult K V) (i j : Nat), LevelTally st st1 i j →
        Tally (removeAscendD s1 st1 stack r1) (fun q k l => i + k + st.leafSteps = q.2.2.leafSteps ∧
          j + l + st.rotations = q.2.2.rotations + (stack.length + 1)) := by
      intro s1 st1 r1 i j h
      refine mono ?_ (ih s1 st1 r1)
      rintro q k l ⟨h1, h2⟩
      obtain ⟨h3, h4⟩ := h
      exact ⟨by omega, by omega⟩
    cases r with
    | done kv =>
      refine Tally.lift_bind fun a _ => Tally.lift_bind fun n e1 => Tally.lift_bind fun n1 h1 => Tally.aug ?_
      refine mono ?_ (after (s.setInner pid n1) st (.done kv) 0 1 ⟨by omega, by omega⟩)
      rintro q k l ⟨h1, h2⟩
      simp only [List.length_cons]
      exact ⟨by omega, by omega⟩
    | innerUnderSize kv =>
      exact Tally.lift_bind fun n e1 => Tally.bind (handleInnerUnderSizeD_tally _ _ _ _ _ _) fun q i j _ hq =>
        after _ _ _ i j hq
    | leafUnderSize idx =>
      exact Tally.lift_bind fun n e1 => Tally.bind (handleLeafUnderSizeD_tally _ _ _ _ _ _) fun q i j _ hq =>
        after _ _ _ i j hq

theorem removeByRefD_tally (t : Tree K V A) (e : EntryRef) :
    Tally (t.removeByRefD e) (fun q i j => i + t.st.leafSteps = q.2.st.leafSteps ∧
      j + t.st.rotations = q.2.st.rotations + e.stack.length + 1) := by
  refine Tally.lift_bind fun leaf _ => Tally.lift_bind fun q1 _ =>
    Tally.bind (Tally.mapMem (removeAscendD_tally _ _ _ _)) fun q2 i j _ hq => Tally.lift_bind fun q3 _ =>
    Tally.lift_bind fun a _ => Tally.aug <| Tally.guard fun _ => Tally.pure ?_
  obtain ⟨h1, h2⟩ := hq
  obtain ⟨r2, s2, st2⟩ := q2
  dsimp only at h1 h2 ⊢
  exact ⟨by omega, by omega⟩

theorem removeD_tally (o : Answers K) (t : Tree K V A) {r : Option V} {t1 : Tree K V A}
    (h : t.removeU o = .ok (r, t1)) {stack : List StackEntry} {id : Nat}
    (hd : descendLeaf t.store (stackStepU o) [] t.root = .ok (stack, id)) :
    (r = none → (t.removeD o).trace = []) ∧
    (r.isSome → (t.removeD o).kinds.count .dropKey + t.st.leafSteps = t1.st.leafSteps + 1 ∧
      (t.removeD o).kinds.count .dropAug + t.st.rotations = t1.st.rotations + stack.length + 1) := by
  have hr : (t.removeD o).result = .ok (r, t1) := by rw [removeD_result, removeT_result, h]
  have hk : ∀ x, t.keyToRefU o = .ok (some x) → x.stack = stack := by
    intro x hx
    unfold Tree.keyToRefU at hx
    rw [hd] at hx
    simp only [ok_bind] at hx
    obtain ⟨lf, -, hx⟩ := bind_ok hx
    obtain ⟨sl, -, hx⟩ := bind_ok hx
    cases sl with
    | found n => rw [← Option.some.inj (Except.ok.inj hx)]
    | vacant n => cases hx
  cases hq : t.keyToRefU o with
  | error f =>
    unfold Tree.removeD at hr
    rw [Traced.result_bind, Traced.result_lift, hq] at hr
    cases hr
  | ok x =>
    cases x with
    | none =>
      unfold Tree.removeD at hr
      rw [Traced.result_bind, Traced.result_lift, hq] at hr
      cases hr
      refine ⟨fun _ => ?_, by simp⟩
      unfold Tree.removeD
      rw [hq]; rfl
    | some x =>
      have key : Tally (t.removeD o) (fun q i j => q.1.isSome ∧ i + t.st.leafSteps = q.2.st.leafSteps + 1 ∧
          j + t.st.rotations = q.2.st.rotations + stack.length + 1) := by
        refine Tally.lift_bind fun y hy => ?_
        rw [hq] at hy
        cases hy
        refine Tally.bind (removeByRefD_tally t x) fun q i j _ hj => Tally.key <| Tally.pure ?_
        obtain ⟨h1, h2⟩ := hj
        rw [hk x hq] at h2
        exact ⟨rfl, by simp only; omega, by simp only; omega⟩
      have h1 := key _ hr
      refine ⟨?_, fun _ => h1.2⟩
      rintro rfl
      exact absurd h1.1 (by simp)

end
end Bpt
