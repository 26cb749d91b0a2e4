import Verif.Proofs.BulkCrash
import Verif.OwnershipSpec

/-!
# What user code has made so far, and what bulk loading owns of it
-/

namespace Bpt
variable {K V A : Type}

/-- What a call of user code makes: `wk` for a key, `wa` for an augmentation. -/
def Callback.makes (wk wa : Nat) : Callback → Nat
  | .cloneKey => wk
  | .cloneAug | .fromLeaf _ | .fromInner _ _ => wa
  | .compare | .dropKey | .dropAug | .query _ _ => 0

/-- What the calls of a trace make. -/
def tally {σ : Type} (wk wa : Nat) (l : List (Callback × σ)) : Nat :=
  (l.map (fun e => e.1.makes wk wa)).sum

theorem tally_append {σ : Type} {wk wa : Nat} {l l' : List (Callback × σ)} :
    tally wk wa (l ++ l') = tally wk wa l + tally wk wa l' := by simp [tally]

def LayerNode.size (wk wa : Nat) (n : LayerNode K A) : Nat :=
  wk * n.2.1.1.toList.length + wk * n.2.1.2.toList.length + wa

def Inner.size (wk wa : Nat) (n : Inner K A) : Nat := wk * n.keys.length + wa * n.augs.length

def InnerS.filled (wk wa : Nat) (n : InnerS K A) : Nat :=
  wk * n.ks.countP (·.isSome) + wa * n.as.countP (·.isSome)

def Store.innerSize (wk wa : Nat) (s : Store K V A) : Nat :=
  (s.inners.map (fun o => match o with | some n => n.size wk wa | none => 0)).sum

def Wreck.size (wk wa : Nat) (w : Wreck K V A) : Nat :=
  wk * w.keys.length + (w.scratch.map (LayerNode.size wk wa)).sum + w.store.innerSize wk wa +
    (match w.node with | some n => n.filled wk wa | none => 0)

namespace Traced
variable {α β : Type} {wk wa : Nat}

/-- At every call, what has been made before is owned. -/
def TallyAt (wk wa : Nat) (x : Traced (Wreck K V A) α) (n : Nat) : Prop :=
  ∀ pre c w post, x.trace = pre ++ (c, w) :: post → w.size wk wa = n + tally wk wa pre

/-- ... and in the end. -/
structure Tally (wk wa : Nat) (x : Traced (Wreck K V A) α) (n : Nat) (m : α → Nat) : Prop where
  here : TallyAt wk wa x n
  done : ∀ a, x.result = .ok a → m a = n + tally wk wa x.trace

theorem trace_bind_ok {σ : Type} {x : Traced σ α} {f : α → Traced σ β} {a : α} (h : x.result = .ok a) :
    (x >>= f).trace = x.trace ++ (f a).trace := by
  have : (x >>= f).trace = (match x.result with
    | .ok a => (⟨x.trace ++ (f a).trace, (f a).result⟩ : Traced σ β)
    | .error e => ⟨x.trace, .error e⟩).trace := rfl
  rw [this, h]

theorem trace_bind_error {σ : Type} {x : Traced σ α} {f : α → Traced σ β} {e : Fault}
    (h : x.result = .error e) : (x >>= f).trace = x.trace := by
  have : (x >>= f).trace = (match x.result with
    | .ok a => (⟨x.trace ++ (f a).trace, (f a).result⟩ : Traced σ β)
    | .error e => ⟨x.trace, .error e⟩).trace := rfl
  rw [this, h]

theorem TallyAt.bind {x : Traced (Wreck K V A) α} {f : α → Traced (Wreck K V A) β} {n : Nat}
    {m : α → Nat} (h : Tally wk wa x n m)
    (hf : ∀ a, x.result = .ok a → TallyAt wk wa (f a) (m a)) : TallyAt wk wa (x >>= f) n := by
  intro pre c w post e
  cases hr : x.result with
  | error e' => rw [trace_bind_error hr] at e; exact h.here pre c w post e
  | ok a =>
    rw [trace_bind_ok hr] at e
    rcases List.append_eq_append_iff.1 e with ⟨q, e1, e2⟩ | ⟨q, e1, e2⟩
    · have := hf a hr q c w post e2
      rw [this, h.done a hr, e1, tally_append]
      omega
    · cases q with
      | nil =>
        have := hf a hr [] c w post (by simpa using e2.symm)
        rw [this, h.done a hr, e1]
        simp [tally]
      | cons y q =>
        rw [List.cons_append, List.cons.injEq] at e2
        obtain ⟨rfl, e2⟩ := e2
        exact h.here pre c w q e1

theorem Tally.bind {x : Traced (Wreck K V A) α} {f : α → Traced (Wreck K V A) β} {n : Nat}
    {m : α → Nat} {m' : β → Nat} (h : Tally wk wa x n m)
    (hf : ∀ a, x.result = .ok a → Tally wk wa (f a) (m a) m') : Tally wk wa (x >>= f) n m' := by
  refine ⟨TallyAt.bind h fun a ha => (hf a ha).here, fun b hb => ?_⟩
  obtain ⟨a, h1, h2⟩ := bind_result_ok hb
  rw [trace_bind_ok h1, tally_append, (hf a h1).done b h2, h.done a h1]
  omega

theorem TallyAt.pure {a : α} {n : Nat} : TallyAt wk wa (Pure.pure a : Traced (Wreck K V A) α) n := by
  intro pre c w post e
  have : ([] : List (Callback × Wreck K V A)) = pre ++ (c, w) :: post := e
  simp at this

theorem Tally.pure {a : α} {n : Nat} {m : α → Nat} (h : m a = n) :
    Tally wk wa (Pure.pure a : Traced (Wreck K V A) α) n m :=
  ⟨.pure, fun b hb => by cases hb; exact h⟩

theorem TallyAt.lift {x : Res α} {n : Nat} : TallyAt wk wa (liftM x : Traced (Wreck K V A) α) n := by
  intro pre c w post e
  have : ([] : List (Callback × Wreck K V A)) = pre ++ (c, w) :: post := e
  simp at this

theorem Tally.lift {x : Res α} {n : Nat} {m : α → Nat} (h : ∀ a, x = .ok a → m a = n) :
    Tally wk wa (liftM x : Traced (Wreck K V A) α) n m :=
  ⟨.lift, fun b hb => h b hb⟩

theorem Tally.lift_bind {x : Res α} {f : α → Traced (Wreck K V A) β} {n : Nat} {m : β → Nat}
    (hf : ∀ a, x = .ok a → Tally wk wa (f a) n m) :
    Tally wk wa ((liftM x : Traced (Wreck K V A) α) >>= f) n m :=
  Tally.bind (m := fun _ => n) (.lift fun _ _ => rfl) fun a h => hf a h

theorem Tally.call {c : Callback} {w : Wreck K V A} {n : Nat} (h : w.size wk wa = n) :
    Tally wk wa (Traced.call c w) n (fun _ => n + c.makes wk wa) := by
  refine ⟨?_, fun b hb => by cases hb; simp [tally, Traced.call]⟩
  intro pre c' w' post e
  have e' : [(c, w)] = pre ++ (c', w') :: post := e
  cases pre with
  | nil =>
    rw [List.nil_append, List.cons.injEq] at e'
    obtain ⟨e1, -⟩ := e'
    cases e1
    simpa [tally] using h
  | cons y pre => simp at e'

theorem Tally.mono {x : Traced (Wreck K V A) α} {n n' : Nat} {m m' : α → Nat} (h : Tally wk wa x n m)
    (hn : n = n') (hm : ∀ a, m a = m' a) : Tally wk wa x n' m' := by
  subst hn
  exact ⟨h.here, fun a ha => by rw [← hm a]; exact h.done a ha⟩

end Traced

open Traced

section
variable {wk wa : Nat}

theorem dedupNextT_tally (eq : Nat → K → K → Bool) (w : Wreck K V A) (rest : List (K × V)) (i : Nat)
    (cur : Option (K × V)) (gone : List (K × V)) :
    Tally wk wa (dedupNextT eq w rest i cur gone) (w.size wk wa) (fun _ => w.size wk wa) := by
  induction rest generalizing i cur gone with
  | nil => exact .pure rfl
  | cons item rest ih =>
    cases cur with
    | none => exact ih i (some item) gone
    | some c =>
      rw [dedupNextT]
      refine Tally.bind (.call rfl) fun _ _ => ?_
      simp only [Callback.makes, Nat.add_zero]
      split
      · exact ih _ _ _
      · exact .pure rfl

theorem setDataT_tally (eq : Nat → K → K → Bool) (w : Wreck K V A) (n : Nat) (leaf : List (K × V))
    (d : DeDup K V) :
    Tally wk wa (setDataT eq w n leaf d) (w.size wk wa) (fun _ => w.size wk wa) := by
  induction n generalizing leaf d with
  | zero => exact .pure rfl
  | succ n ih =>
    rw [setDataT]
    refine Tally.bind (dedupNextT_tally eq { w with leaf := leaf } _ _ _ _) ?_
    rintro ⟨o, d1⟩ -
    cases o with
    | none => exact .pure rfl
    | some x => exact ih _ _

theorem keyRangeT_tally (w : Wreck K V A) (l : Leaf K V) :
    Tally wk wa (l.keyRangeT w) (w.size wk wa)
      (fun r => w.size wk wa + wk * r.1.toList.length + wk * r.2.toList.length) := by
  unfold Leaf.keyRangeT
  refine Tally.lift_bind fun r _ => ?_
  refine Tally.bind (m := fun _ => w.size wk wa + wk * r.1.toList.length) ?_ fun _ _ => ?_
  · split
    · next h => rw [h]; exact (Tally.call rfl).mono rfl (fun _ => by simp [Callback.makes])
    · next h => rw [h]; exact .pure (by simp)
  · refine Tally.bind (m := fun _ => w.size wk wa + wk * r.1.toList.length + wk * r.2.toList.length) ?_
      fun _ _ => .pure rfl
    split
    · next h =>
      rw [h]
      refine (Tally.call ?_).mono rfl (fun _ => by simp [Callback.makes])
      simp only [Wreck.size, List.length_append, Nat.mul_add]
      omega
    · next h => rw [h]; exact .pure (by simp)

theorem linkFromPrev_inners {s s' : Store K V A} {p : Option Nat} {id : Nat}
    (h : linkFromPrev s p id = .ok s') : s'.inners = s.inners := by
  cases p with
  | none => cases h; rfl
  | some p =>
    unfold linkFromPrev at h
    obtain ⟨l, hl, h⟩ := bind_ok h
    cases h
    rfl

theorem assignLeaf_inners {s s' : Store K V A} {i : Nat} {leaf : Leaf K V}
    (h : s.assignLeaf i leaf = .ok s') : s'.inners = s.inners := by
  unfold Store.assignLeaf at h
  split at h
  · cases h; rfl
  · cases h

variable [Augmentation K V A]

theorem bulkLeavesT_tally (eq : Nat → K → K → Bool) (fuel : Nat) (s : Store K V A) (p : Option Nat)
    (nodes : List (LayerNode K A)) (d : DeDup K V) :
    Tally wk wa (bulkLeavesT eq fuel s p nodes d)
      (({ store := s, scratch := nodes } : Wreck K V A).size wk wa)
      (fun r => ({ store := r.1, scratch := nodes ++ r.2.1 } : Wreck K V A).size wk wa) := by
  induction fuel generalizing s p nodes d with
  | zero => exact .lift (fun _ h => by cases h)
  | succ fuel ih =>
    rw [bulkLeavesT]
    refine Tally.bind (setDataT_tally eq _ _ _ _) ?_
    rintro ⟨l, d1⟩ -
    dsimp only
    split
    · exact .pure (by simp)
    · refine Tally.lift_bind fun s1 e1 => ?_
      have e1' : s1.inners = s.inners := (linkFromPrev_inners e1).trans rfl
      refine Tally.bind (Tally.mono (keyRangeT_tally _ _) ?_ fun _ => rfl) fun rg hrg => ?_
      · simp only [Wreck.size, Store.innerSize, e1']
      · refine Tally.bind (.call ?_) fun _ _ => ?_
        · simp only [Wreck.size, Store.innerSize, e1', List.length_append, List.length_nil, Nat.mul_add]
          omega
        · refine Tally.lift_bind fun s2 e2 => ?_
          have e2' : s2.inners = s1.inners := assignLeaf_inners e2
          refine Tally.bind (Tally.mono (ih s2 _ _ d1) ?_ fun _ => rfl) ?_
          · simp only [Wreck.size, Store.innerSize, e1', e2', List.length_nil, Nat.mul_zero, List.map_append,
              List.sum_append, List.map_cons, List.map_nil, List.sum_cons, List.sum_nil, LayerNode.size,
              Callback.ofLeaf, Callback.makes]
            omega
          · rintro ⟨a, b, c, e⟩ -
            refine .pure ?_
            simp only [List.append_assoc, List.cons_append, List.nil_append]

omit [Augmentation K V A] in
theorem cloneOptionT_tally (w : Wreck K V A) (o : Option K) :
    Tally wk wa (cloneOptionT w o) (w.size wk wa) (fun _ => w.size wk wa + wk * o.toList.length) := by
  cases o with
  | none => exact .pure (by simp)
  | some k => exact (Tally.call rfl).mono rfl (fun _ => by simp [Callback.makes])

theorem countP_filled {α : Type} (n : Nat) (xs : List α) :
    (Slots.filled n xs).countP (·.isSome) = xs.length := by
  have h : ∀ m, (List.replicate m (none : Option α)).countP (·.isSome) = 0 := by
    intro m
    rw [List.countP_eq_zero]
    intro a ha
    rw [(List.mem_replicate.1 ha).2]
    simp
  unfold Slots.filled
  rw [List.countP_append, h, List.countP_map, Nat.add_zero, List.countP_eq_length]
  intro a _
  rfl

omit [Augmentation K V A] in
theorem cloneKeysT_tally {w : Wreck K V A} (hw : w.node = none) (ks : List K)
    (cs : List (LayerNode K A)) :
    Tally wk wa (cloneKeysT w ks cs) (w.size wk wa + wk * ks.length)
      (fun r => w.size wk wa + wk * r.length) := by
  induction cs generalizing ks with
  | nil => exact .pure rfl
  | cons c cs ih =>
    rw [cloneKeysT]
    refine Tally.bind (Tally.mono (cloneOptionT_tally _ _) ?_ fun _ => rfl) fun _ _ => ?_
    · simp only [Wreck.size, InnerS.filled, InnerS.unfinished, hw, countP_filled, List.length_nil]
      omega
    · refine Tally.lift_bind fun k hk => ?_
      refine (ih (ks ++ [k])).mono ?_ fun _ => rfl
      have : c.2.1.1 = some k := by
        unfold expectStartKey at hk
        split at hk
        · next h => cases hk; exact h
        · cases hk
      rw [this]
      simp only [Wreck.size, InnerS.filled, InnerS.unfinished, hw, countP_filled, List.length_nil,
        List.length_append, Option.toList_some, List.length_singleton, Nat.mul_add]
      omega

omit [Augmentation K V A] in
theorem cloneAugsT_tally {w : Wreck K V A} (hw : w.node = none) (ks : List K) (ids : List NodeId)
    (as : List A) (cs : List (LayerNode K A)) :
    Tally wk wa (cloneAugsT w ks ids as cs) (w.size wk wa + wk * ks.length + wa * as.length)
      (fun r => w.size wk wa + wk * ks.length + wa * r.length) := by
  induction cs generalizing as with
  | nil => exact .pure rfl
  | cons c cs ih =>
    rw [cloneAugsT]
    refine Tally.bind (.call ?_) fun _ _ => ?_
    · simp only [Wreck.size, InnerS.filled, InnerS.unfinished, hw, countP_filled]
      omega
    · refine (ih _).mono ?_ fun _ => rfl
      simp only [Callback.makes, List.length_append, List.length_singleton, Nat.mul_add]
      omega

theorem buildInnerT_tally {w : Wreck K V A} (hw : w.node = none) (hk : w.keys = [])
    (c : List (LayerNode K A)) :
    Tally wk wa (buildInnerT w c) (w.size wk wa)
      (fun r => ({ w with store := r.1, scratch := w.scratch ++ [r.2] } : Wreck K V A).size wk wa) := by
  unfold buildInnerT
  refine Tally.lift_bind fun c1 _ => ?_
  refine Tally.bind (cloneOptionT_tally _ _) fun _ _ => ?_
  refine Tally.lift_bind fun c2 _ => ?_
  dsimp only
  refine Tally.bind (Tally.mono (cloneOptionT_tally _ _) ?_ fun _ => rfl) fun _ _ => ?_
  · simp only [Wreck.size, hw, hk, List.length_nil]
    omega
  refine Tally.bind (Tally.mono (cloneKeysT_tally (by exact hw) [] _) ?_ fun _ => rfl) fun ks _ => ?_
  · simp only [Wreck.size, hw, hk, List.length_nil, List.length_append, Nat.mul_add]
    omega
  refine Tally.bind (Tally.mono (cloneAugsT_tally (by exact hw) _ _ [] _) ?_ fun _ => rfl) fun as _ => ?_
  · simp
  refine Tally.lift_bind fun inner hi => ?_
  have e1 : inner.keys = ks ∧ inner.augs = as := by
    unfold Inner.newFromIter at hi
    split at hi
    · split at hi
      · cases hi
        exact ⟨rfl, rfl⟩
      · cases hi
    · cases hi
  refine Tally.bind (.call ?_) fun _ _ => .pure ?_
  · simp only [Wreck.size, hw, InnerS.filled, InnerS.finished, countP_filled, e1.1, e1.2]
    omega
  · simp only [Wreck.size, hw, hk, Store.innerSize, Store.addInner, List.map_append, List.sum_append, List.map_cons,
      List.map_nil, List.sum_cons, List.sum_nil, LayerNode.size, Inner.size, e1.1, e1.2, Callback.ofInner,
      Callback.makes, List.length_append, List.length_nil, Nat.mul_add]
    omega

theorem buildLayerT_tally {w : Wreck K V A} (hw : w.node = none) (hk : w.keys = [])
    (cs : List (List (LayerNode K A))) :
    Tally wk wa (buildLayerT w cs) (w.size wk wa)
      (fun r => ({ w with store := r.1, scratch := w.scratch ++ r.2 } : Wreck K V A).size wk wa) := by
  induction cs generalizing w with
  | nil => exact .pure (by simp)
  | cons c cs ih =>
    rw [buildLayerT]
    refine Tally.bind (buildInnerT_tally hw hk c) ?_
    rintro ⟨s, n⟩ -
    refine Tally.bind (ih hw hk) ?_
    rintro ⟨s', ns⟩ -
    refine .pure ?_
    simp only [List.append_assoc, List.cons_append, List.nil_append]

theorem buildInnerLayerT_tally (fuel : Nat) {w : Wreck K V A} (hw : w.node = none) (hk : w.keys = [])
    (ns : List (LayerNode K A)) :
    TallyAt wk wa (buildInnerLayerT fuel w ns) (w.size wk wa) := by
  induction fuel generalizing w ns with
  | zero => exact .lift
  | succ fuel ih =>
    match ns with
    | [] => exact .lift
    | [n] => exact .pure
    | a :: b :: ns =>
      rw [buildInnerLayerT]
      · refine TallyAt.bind (buildLayerT_tally hw hk _) ?_
        rintro ⟨s, ns'⟩ -
        exact ih (w := { w with store := s, scratch := w.scratch ++ ns' }) hw hk ns'
      · intro h
        cases h
      · intro n h
        cases h

theorem buildInnerLayerT_done (fuel : Nat) {w : Wreck K V A} (hw : w.node = none) (hk : w.keys = [])
    (ns : List (LayerNode K A)) {r : Store K V A × NodeId} (h : (buildInnerLayerT fuel w ns).result = .ok r) :
    r.1.innerSize wk wa ≤ w.size wk wa + tally wk wa (buildInnerLayerT fuel w ns).trace := by
  induction fuel generalizing w ns with
  | zero => cases h
  | succ fuel ih =>
    match ns with
    | [] => cases h
    | [n] =>
      cases h
      simp only [Wreck.size]
      omega
    | a :: b :: ns =>
      rw [buildInnerLayerT] at h ⊢
      · obtain ⟨⟨s, ns'⟩, h1, h2⟩ := bind_result_ok h
        have := ih (w := { w with store := s, scratch := w.scratch ++ ns' }) hw hk ns' h2
        rw [trace_bind_ok h1, tally_append]
        have e := (buildLayerT_tally (wk := wk) (wa := wa) hw hk _).done _ h1
        dsimp only at e this ⊢
        omega
      · intro h
        cases h
      · intro n h
        cases h
      · intro h
        cases h
      · intro n h
        cases h

/-- At every call, what is owned has been made before; nothing is missing except perhaps at the last
call. -/
def Traced.TallyLast {α : Type} (wk wa : Nat) (x : Traced (Wreck K V A) α) (n : Nat) : Prop :=
  ∀ pre c w post, x.trace = pre ++ (c, w) :: post →
    w.size wk wa ≤ n + tally wk wa pre ∧ (post ≠ [] → w.size wk wa = n + tally wk wa pre)

omit [Augmentation K V A] in
theorem Traced.TallyLast.bind {α β : Type} {x : Traced (Wreck K V A) α}
    {f : α → Traced (Wreck K V A) β} {n : Nat} (h : TallyAt wk wa x n)
    (hf : ∀ a, x.result = .ok a → TallyLast wk wa (f a) (n + tally wk wa x.trace)) :
    TallyLast wk wa (x >>= f) n := by
  intro pre c w post e
  cases hr : x.result with
  | error e' =>
    rw [trace_bind_error hr] at e
    have := h pre c w post e
    omega
  | ok a =>
    rw [trace_bind_ok hr] at e
    rcases List.append_eq_append_iff.1 e with ⟨q, e1, e2⟩ | ⟨q, e1, e2⟩
    · have := hf a hr q c w post e2
      rw [e1, tally_append, ← Nat.add_assoc]
      exact this
    · cases q with
      | nil =>
        have := hf a hr [] c w post (by simpa using e2.symm)
        rw [e1] at this
        simpa [tally] using this
      | cons y q =>
        rw [List.cons_append, List.cons.injEq] at e2
        obtain ⟨rfl, e2⟩ := e2
        have := h pre c w q e1
        omega

omit [Augmentation K V A] in
theorem Traced.TallyLast.single {α : Type} {x : Traced (Wreck K V A) α} {n : Nat} {w : Wreck K V A}
    (h : x.trace = [] ∨ ∃ c, x.trace = [(c, w)]) (hw : w.size wk wa ≤ n) : TallyLast wk wa x n := by
  intro pre c w' post e
  rcases h with h | ⟨c0, h⟩
  · rw [h] at e
    simp at e
  · rw [h] at e
    cases pre with
    | nil => cases e; exact ⟨by omega, fun h => absurd rfl h⟩
    | cons y pre => simp at e

theorem newAugmentationT_trace {w : Wreck K V A} {s : Store K V A} {id : NodeId} :
    (newAugmentationT w s id).trace = [] ∨ ∃ c, (newAugmentationT w s id).trace = [(c, w)] := by
  cases id with
  | inner i =>
    simp only [newAugmentationT]
    cases s.getInner i with
    | error e => exact .inl rfl
    | ok n => exact .inr ⟨.ofInner n, rfl⟩
  | leaf i =>
    simp only [newAugmentationT]
    cases s.getLeaf i with
    | error e => exact .inl rfl
    | ok n => exact .inr ⟨.ofLeaf n, rfl⟩

theorem bulkLoadT_tally (eq : Nat → K → K → Bool) (data : List (K × V)) :
    TallyLast wk wa (Tree.bulkLoadT eq data : Traced (Wreck K V A) (Tree K V A)) 0 := by
  unfold Tree.bulkLoadT
  split
  · intro pre c w post h
    have : ([] : List (Callback × Wreck K V A)) = pre ++ (c, w) :: post := h
    simp at this
  have h0 : ({ store := Store.empty, scratch := [] } : Wreck K V A).size wk wa = 0 := by
    simp [Wreck.size, Store.innerSize, Store.empty]
  have t0 := bulkLeavesT_tally (wk := wk) (wa := wa) (A := A) eq (data.length + 1) Store.empty none []
    ⟨0, data, none, []⟩
  rw [h0] at t0
  refine TallyLast.bind t0.here ?_
  rintro ⟨s, nodes, count, d⟩ hr
  rw [← t0.done _ hr]
  simp only [List.nil_append]
  refine TallyLast.bind (buildInnerLayerT_tally _ rfl rfl _) ?_
  rintro ⟨s', root⟩ hr'
  have := buildInnerLayerT_done (wk := wk) (wa := wa) _ rfl rfl _ hr'
  refine TallyLast.single (w := { gone := d.gone, iter := d.owned, store := s' }) ?_ ?_
  · unfold Tree.newFromPartsT
    split
    · have ht := newAugmentationT_trace (A := A) (w := { gone := d.gone, iter := d.owned, store := s' })
        (s := s') (id := root)
      cases hx : (newAugmentationT ({ gone := d.gone, iter := d.owned, store := s' } : Wreck K V A) s' root).result with
      | error e => rw [trace_bind_error hx]; exact ht
      | ok a =>
        rw [trace_bind_ok hx]
        have : ∀ y : Tree K V A, (pure y : Traced (Wreck K V A) (Tree K V A)).trace = [] := fun _ => rfl
        rw [this, List.append_nil]
        exact ht
    · exact .inl rfl
  · refine Nat.le_trans ?_ this
    simp [Wreck.size]

/-! ## What unwinding drops -/

omit [Augmentation K V A] in
theorem unwind_drops {c : Callback} {w : Wreck K V A} {d : List (K × V)} {es : List (Event K A)}
    (hs : w.Shape c) (h : w.unwind = .ok (d, es)) :
    wk * (Event.droppedKeys es).length + wa * (Event.droppedAugs es).length ≤ w.size wk wa ∧
    (c ≠ .cloneAug →
      wk * (Event.droppedKeys es).length + wa * (Event.droppedAugs es).length = w.size wk wa) := by
  have hk : ∀ l : List K, Event.droppedKeys (l.map (Event.dropKey (A := A))) = l := by
    intro l; simp [Event.droppedKeys, List.filterMap_map, Function.comp_def]
  have hk' : ∀ l : List A, Event.droppedKeys (l.map (Event.dropAug (K := K))) = [] := by
    intro l; simp [Event.droppedKeys, List.filterMap_map, Function.comp_def]
  have ha : ∀ l : List A, Event.droppedAugs (l.map (Event.dropAug (K := K))) = l := by
    intro l; simp [Event.droppedAugs, List.filterMap_map, Function.comp_def]
  have ha' : ∀ l : List K, Event.droppedAugs (l.map (Event.dropKey (A := A))) = [] := by
    intro l; simp [Event.droppedAugs, List.filterMap_map, Function.comp_def]
  have ka : ∀ a b : List (Event K A), Event.droppedKeys (a ++ b) = Event.droppedKeys a ++ Event.droppedKeys b := by
    intro a b; simp [Event.droppedKeys]
  have aa : ∀ a b : List (Event K A), Event.droppedAugs (a ++ b) = Event.droppedAugs a ++ Event.droppedAugs b := by
    intro a b; simp [Event.droppedAugs]
  have hscr : ∀ l : List (LayerNode K A),
      wk * (Event.droppedKeys (l.flatMap LayerNode.dropEvents)).length +
        wa * (Event.droppedAugs (l.flatMap LayerNode.dropEvents)).length =
      (l.map (LayerNode.size wk wa)).sum := by
    intro l
    induction l with
    | nil => simp [Event.droppedKeys, Event.droppedAugs]
    | cons n l ih =>
      have e : Event.droppedKeys [Event.dropAug (K := K) n.2.2] = [] := rfl
      have e' : Event.droppedAugs [Event.dropAug (K := K) n.2.2] = [n.2.2] := rfl
      simp only [List.flatMap_cons, ka, aa, LayerNode.dropEvents, hk, ha', e, e', List.length_append,
        List.length_nil, List.length_singleton, Nat.mul_add, List.map_cons, List.sum_cons, ← ih, LayerNode.size]
      omega
  have hst : ∀ l : List (Option (Inner K A)),
      wk * (Event.droppedKeys (l.flatMap (fun n => match n with | some n => n.dropEvents | none => []))).length +
        wa * (Event.droppedAugs (l.flatMap (fun n => match n with | some n => n.dropEvents | none => []))).length =
      (l.map (fun o => match o with | some n => n.size wk wa | none => 0)).sum := by
    intro l
    induction l with
    | nil => simp [Event.droppedKeys, Event.droppedAugs]
    | cons n l ih =>
      cases n with
      | none => simpa using ih
      | some n =>
        have e : Event.droppedKeys n.dropEvents = n.keys := by
          rw [Inner.dropEvents, ka, hk, hk', List.append_nil]
        have e' : Event.droppedAugs n.dropEvents = n.augs := by
          rw [Inner.dropEvents, aa, ha, ha', List.nil_append]
        have e2 : n.size wk wa = wk * n.keys.length + wa * n.augs.length := rfl
        simp only [List.flatMap_cons, ka, aa, e, e', List.length_append,
          Nat.mul_add, List.map_cons, List.sum_cons, ← ih, e2]
        omega
  have h1 := hscr w.scratch
  have h2 : wk * (Event.droppedKeys w.store.dropEvents).length +
      wa * (Event.droppedAugs w.store.dropEvents).length = w.store.innerSize wk wa := hst w.store.inners
  have main : ∀ ks : List K, ∀ as : List A, es = ks.map .dropKey ++ as.map .dropAug ++ w.keys.map .dropKey ++
      w.scratch.flatMap LayerNode.dropEvents ++ w.store.dropEvents →
      wk * (Event.droppedKeys es).length + wa * (Event.droppedAugs es).length =
        wk * ks.length + wa * as.length + (wk * w.keys.length + (w.scratch.map (LayerNode.size wk wa)).sum +
          w.store.innerSize wk wa) := by
    intro ks as e
    subst e
    simp only [ka, aa, hk, hk', ha, ha', List.length_append, List.length_nil, Nat.mul_add]
    omega
  rcases hs with hn | ⟨n, hn, hl⟩ | ⟨ks, ids, as, hn, hc⟩
  · unfold Wreck.unwind at h
    rw [hn] at h
    cases h
    have := main [] [] rfl
    simp only [Wreck.size, hn, this, List.length_nil]
    omega
  · have e : (InnerS.finished n).drop = .ok (n.keys, n.augs) := by
      unfold InnerS.drop InnerS.finished Slots.dropPrefix
      simp only [mapM_read (Nat.le_refl _), mapM_read (show n.keys.length + 1 ≤ n.augs.length by omega),
        ok_bind, pure_ok, List.take_length]
      rw [← hl, List.take_length]
    unfold Wreck.unwind at h
    rw [hn] at h
    simp only [e, ok_bind, pure_ok] at h
    cases h
    have := main _ _ rfl
    simp only [Wreck.size, hn, this, InnerS.filled, InnerS.finished, countP_filled]
    omega
  · cases as with
    | nil =>
      rw [(Wreck.bad_unfinished hn).1] at h
      cases h
    | cons a as =>
      have e : (InnerS.unfinished ks ids (a :: as)).drop = .ok ([], [a]) := rfl
      unfold Wreck.unwind at h
      rw [hn] at h
      simp only [e, ok_bind, pure_ok] at h
      cases h
      have := main _ _ rfl
      simp only [Wreck.size, hn, this, InnerS.filled, InnerS.unfinished, countP_filled, List.length_nil,
        List.length_cons, Nat.mul_add]
      refine ⟨by omega, fun h => ?_⟩
      rcases hc with hc | hc
      · exact absurd hc h
      · cases hc

end
end Bpt
