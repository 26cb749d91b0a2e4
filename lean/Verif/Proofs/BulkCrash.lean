import Verif.Model.BulkCrash
import Verif.LoadSpec
import Verif.Proofs.BulkLedger
import Verif.Proofs.Crash
import Verif.Proofs.PermTac

/-!
# Crash points of bulk loading
-/

namespace Bpt
variable {K V A : Type}

namespace Traced
variable {σ α β : Type}

/-- The number of calls of user code in a memory with `p`. -/
def count (p : σ → Bool) (x : Traced σ α) : Nat := x.trace.countP (fun e => p e.2)

theorem count_bind {p : σ → Bool} {x : Traced σ α} {f : α → Traced σ β} {a : α} (h : x.result = .ok a) :
    count p (x >>= f) = count p x + count p (f a) := by
  have : (x >>= f).trace = (match x.result with
    | .ok a => (⟨x.trace ++ (f a).trace, (f a).result⟩ : Traced σ β)
    | .error e => ⟨x.trace, .error e⟩).trace := rfl
  unfold count
  rw [this, h]
  simp

@[simp] theorem count_pure {p : σ → Bool} (a : α) : count p (pure a : Traced σ α) = 0 := rfl
@[simp] theorem count_call {p : σ → Bool} (c : Callback) (m : σ) :
    count p (call c m) = if p m then 1 else 0 := by
  simp [count, List.countP_cons]
@[simp] theorem count_lift {p : σ → Bool} (x : Res α) : count p (liftM x : Traced σ α) = 0 := rfl

theorem count_lift_bind {p : σ → Bool} {x : Res α} {f : α → Traced σ β} {a : α} (h : x = .ok a) :
    count p ((liftM x : Traced σ α) >>= f) = count p (f a) := by
  rw [count_bind (a := a) h]; simp

theorem count_call_bind {p : σ → Bool} {c : Callback} {m : σ} {f : Unit → Traced σ β} :
    count p (call c m >>= f) = (if p m then 1 else 0) + count p (f ()) := by
  rw [count_bind (a := ()) rfl]; simp

theorem count_zero {p : σ → Bool} {x : Traced σ α} (h : x.All (fun _ m => p m = false)) :
    count p x = 0 := by
  unfold count
  rw [List.countP_eq_zero]
  rintro ⟨c, m⟩ hm
  simp [h c m hm]

theorem bind_result_ok {x : Traced σ α} {f : α → Traced σ β} {b : β} (h : (x >>= f).result = .ok b) :
    ∃ a, x.result = .ok a ∧ (f a).result = .ok b := by
  rw [result_bind] at h
  exact bind_ok h

end Traced

/-! ## Unwinding -/

/-- Unwinding is undefined behaviour. -/
def Wreck.bad (w : Wreck K V A) : Bool :=
  match w.unwind with
  | .error .ub => true
  | _ => false

theorem Wreck.bad_none {w : Wreck K V A} (h : w.node = none) :
    (∃ es, w.unwind = .ok (w.iter, es)) ∧ w.bad = false := by
  unfold bad unwind
  rw [h]
  exact ⟨⟨_, rfl⟩, rfl⟩

theorem mapM_read {α : Type} {xs : List α} {n m : Nat} (h : m ≤ xs.length) :
    (List.range m).mapM (fun i => (Slots.filled n xs).read i) = (.ok (xs.take m) : Res (List α)) := by
  induction m with
  | zero => rfl
  | succ m ih =>
    rw [List.range_succ, List.mapM_append, ih (by omega)]
    have : (Slots.filled n xs).read m = .ok xs[m] := by
      unfold Slots.read Slots.filled
      rw [List.getElem?_append_left (by simp; omega)]
      simp [List.getElem?_eq_getElem (show m < xs.length by omega)]
    simp only [ok_bind, List.mapM_cons, List.mapM_nil, this, pure_ok]
    rw [List.take_succ_eq_append_getElem (by omega)]

theorem Wreck.bad_unfinished {w : Wreck K V A} {ks : List K} {cs : List NodeId}
    (h : w.node = some (.unfinished ks cs [])) : w.unwind = .error .ub ∧ w.bad = true := by
  have : w.unwind = .error .ub := by
    unfold unwind
    rw [h]
    rfl
  refine ⟨this, ?_⟩
  unfold bad
  rw [this]

theorem Wreck.bad_started {w : Wreck K V A} {ks : List K} {cs : List NodeId} {a : A} {as : List A}
    (h : w.node = some (.unfinished ks cs (a :: as))) :
    (∃ es, w.unwind = .ok (w.iter, es)) ∧ w.bad = false := by
  have : (InnerS.unfinished ks cs (a :: as)).drop = .ok ([], [a]) := rfl
  unfold bad unwind
  rw [h]
  simp only [this, ok_bind, pure_ok]
  exact ⟨⟨_, rfl⟩, trivial⟩

theorem Wreck.bad_finished {w : Wreck K V A} {n : Inner K A} (hn : n.keys.length < n.augs.length)
    (h : w.node = some (.finished n)) : (∃ es, w.unwind = .ok (w.iter, es)) ∧ w.bad = false := by
  have : (InnerS.finished n).drop = .ok (n.keys, n.augs.take (n.keys.length + 1)) := by
    unfold InnerS.drop InnerS.finished Slots.dropPrefix
    simp only [mapM_read (Nat.le_refl _), mapM_read hn, ok_bind, pure_ok, List.take_length]
  unfold bad unwind
  rw [h]
  simp only [this, ok_bind, pure_ok]
  exact ⟨⟨_, rfl⟩, trivial⟩

/-! ## What holds at every crash point -/

/-- How far the node under construction is. -/
def Wreck.Shape (c : Callback) (w : Wreck K V A) : Prop :=
  w.node = none ∨ (∃ n, w.node = some (.finished n) ∧ n.augs.length = n.keys.length + 1) ∨
    ∃ ks ids as, w.node = some (.unfinished ks ids as) ∧ (c = .cloneAug ∨ as = [])

/-- Nothing of the data is in two places, and unwinding goes wrong only inside `K::clone` and
`A::clone`. -/
structure Wreck.Ok (data : List (K × V)) (c : Callback) (w : Wreck K V A) : Prop where
  items : (w.gone ++ w.iter ++ w.leaf ++ w.store.items).Perm data
  unwind : (∃ es, w.unwind = .ok (w.iter, es)) ∨
    (w.unwind = .error .ub ∧ (c = .cloneKey ∨ c = .cloneAug))
  shape : w.Shape c

theorem Wreck.ok_none {data : List (K × V)} {c : Callback} {w : Wreck K V A}
    (h : (w.gone ++ w.iter ++ w.leaf ++ w.store.items).Perm data) (hn : w.node = none) : w.Ok data c :=
  ⟨h, .inl (Wreck.bad_none hn).1, .inl hn⟩

/-! ## The iterator -/

/-- What the iterator still has to yield, and to drop. -/
def DeDup.todo (eq : Nat → K → K → Bool) (d : DeDup K V) : List (K × V) × List (K × V) :=
  dedupU eq d.asked d.owned

theorem dedupNextT_spec (eq : Nat → K → K → Bool) (w : Wreck K V A) (rest : List (K × V)) (i : Nat)
    (cur : Option (K × V)) (gone : List (K × V)) :
    ∃ o d, (dedupNextT eq w rest i cur gone).result = .ok (o, d) ∧
      (dedupU eq i (cur.toList ++ rest)).1 = o.toList ++ (d.todo eq).1 ∧
      (o = none → d.owned = []) ∧
      (∀ data : List (K × V), (gone ++ (cur.toList ++ rest) ++ w.leaf ++ w.store.items).Perm data →
        (d.gone ++ d.owned ++ (w.leaf ++ o.toList) ++ w.store.items).Perm data) := by
  induction rest generalizing i cur gone with
  | nil =>
    refine ⟨cur, ⟨i, [], none, gone⟩, rfl, ?_, fun _ => rfl, fun data h => ?_⟩
    · cases cur <;> simp [dedupU, DeDup.todo, DeDup.owned]
    · refine List.Perm.trans ?_ h
      simp only [DeDup.owned, Option.toList_none, List.nil_append, List.append_nil]
      perm
  | cons item rest ih =>
    cases cur with
    | none =>
      obtain ⟨o, d, h1, h2, h3, h4⟩ := ih i (some item) gone
      exact ⟨o, d, h1, h2, h3, h4⟩
    | some c =>
      rw [dedupNextT]
      simp only [Traced.result_bind, Traced.result_call, ok_bind]
      split
      · next he =>
        obtain ⟨o, d, h1, h2, h3, h4⟩ := ih (i + 1) (some item) (gone ++ [c])
        refine ⟨o, d, h1, ?_, h3, fun data h => h4 data ?_⟩
        · rw [← h2]
          simp only [Option.toList_some, List.cons_append, List.nil_append, dedupU]
          rw [if_pos he]
        · refine List.Perm.trans ?_ h
          simp only [Option.toList_some]
          perm
      · next he =>
        refine ⟨some c, ⟨i + 1, rest, some item, gone⟩, rfl, ?_, by simp, fun data h => ?_⟩
        · simp only [Option.toList_some, List.cons_append, List.nil_append, dedupU, DeDup.todo,
            DeDup.owned]
          rw [if_neg he]
        · refine List.Perm.trans ?_ h
          simp only [DeDup.owned, Option.toList_some]
          perm

theorem dedupNextT_all (eq : Nat → K → K → Bool) (w : Wreck K V A) (hw : w.node = none)
    {data : List (K × V)} (rest : List (K × V)) (i : Nat) (cur : Option (K × V)) (gone : List (K × V))
    (h : (gone ++ (cur.toList ++ rest) ++ w.leaf ++ w.store.items).Perm data) :
    (dedupNextT eq w rest i cur gone).All (fun c w' => w'.Ok data c ∧ w'.bad = false) := by
  induction rest generalizing i cur gone with
  | nil => exact Traced.all_pure
  | cons item rest ih =>
    cases cur with
    | none => exact ih i (some item) gone h
    | some c =>
      rw [dedupNextT]
      refine Traced.all_call_bind ⟨Wreck.ok_none ?_ hw, (Wreck.bad_none (w := { w with iter := c :: item :: rest, gone := gone }) hw).2⟩ ?_
      · exact h
      · split
        · refine ih _ _ _ ?_
          refine List.Perm.trans ?_ h
          simp only [Option.toList_some]
          perm
        · exact Traced.all_pure

theorem setDataT_spec (eq : Nat → K → K → Bool) (w : Wreck K V A) (n : Nat) (leaf : List (K × V))
    (d : DeDup K V) :
    ∃ l d', (setDataT eq w n leaf d).result = .ok (l, d') ∧
      l = leaf ++ (d.todo eq).1.take n ∧ (d'.todo eq).1 = (d.todo eq).1.drop n ∧
      (∀ data : List (K × V), (d.gone ++ d.owned ++ leaf ++ w.store.items).Perm data →
        (d'.gone ++ d'.owned ++ l ++ w.store.items).Perm data) := by
  induction n generalizing leaf d with
  | zero => exact ⟨leaf, d, rfl, by simp, by simp, fun _ h => h⟩
  | succ n ih =>
    obtain ⟨o, d1, h1, h2, h3, h4⟩ := dedupNextT_spec eq { w with leaf := leaf } d.rest d.asked d.cur d.gone
    rw [setDataT]
    simp only [Traced.result_bind, h1, ok_bind]
    have h2' : (d.todo eq).1 = o.toList ++ (d1.todo eq).1 := h2
    cases o with
    | none =>
      have ho := h3 rfl
      have : (d1.todo eq).1 = [] := by simp [DeDup.todo, ho, dedupU]
      refine ⟨leaf, d1, rfl, by simp [h2', this], by simp [h2', this], fun data h => ?_⟩
      have := h4 data (by simpa [DeDup.owned] using h)
      simpa using this
    | some x =>
      obtain ⟨l, d', g1, g2, g3, g4⟩ := ih (leaf ++ [x]) d1
      refine ⟨l, d', g1, ?_, ?_, fun data h => g4 data ?_⟩
      · rw [g2, h2']; simp
      · rw [g3, h2']; simp
      · have := h4 data (by simpa [DeDup.owned] using h)
        simpa using this

theorem setDataT_all (eq : Nat → K → K → Bool) (w : Wreck K V A) (hw : w.node = none)
    {data : List (K × V)} (n : Nat) (leaf : List (K × V)) (d : DeDup K V)
    (h : (d.gone ++ d.owned ++ leaf ++ w.store.items).Perm data) :
    (setDataT eq w n leaf d).All (fun c w' => w'.Ok data c ∧ w'.bad = false) := by
  induction n generalizing leaf d with
  | zero => exact Traced.all_pure
  | succ n ih =>
    rw [setDataT]
    refine Traced.all_bind (dedupNextT_all eq { w with leaf := leaf } hw _ _ _ _ (by simpa [DeDup.owned] using h)) ?_
    rintro ⟨o, d1⟩ ho
    obtain ⟨o', d', h1, -, -, h4⟩ := dedupNextT_spec eq { w with leaf := leaf } d.rest d.asked d.cur d.gone
    rw [h1] at ho
    cases ho
    cases o with
    | none => exact Traced.all_pure
    | some x =>
      refine ih _ _ ?_
      have := h4 data (by simpa [DeDup.owned] using h)
      simpa using this

/-! ## Leaves -/

theorem linkFromPrev_items {s s' : Store K V A} {p : Option Nat} {id : Nat}
    (h : linkFromPrev { s with leaves := s.leaves ++ [none] } p id = .ok s') :
    ∃ L, s'.leaves = L ++ [none] ∧ L.length = s.leaves.length ∧ s'.items = s.items := by
  cases p with
  | none =>
    cases h
    exact ⟨s.leaves, rfl, rfl, by simp [Store.items]⟩
  | some p =>
    unfold linkFromPrev at h
    obtain ⟨l, hl, h⟩ := bind_ok h
    cases h
    unfold Store.getLeaf at hl
    have hp : p < s.leaves.length := by
      rcases Nat.lt_or_ge p s.leaves.length with h | h
      · exact h
      · rw [List.getElem?_append_right h] at hl
        rcases hq : p - s.leaves.length with _ | q <;> simp [hq] at hl
    rw [List.getElem?_append_left hp] at hl
    refine ⟨s.leaves.set p (some (l.setNext (some id))), ?_, by simp, ?_⟩
    · simp only [Store.setLeaf]
      rw [List.set_append_left _ _ hp]
    · simp only [Store.setLeaf, Store.items]
      rw [List.set_append_left _ _ hp, List.flatMap_append]
      simp only [List.flatMap_cons, List.flatMap_nil, List.append_nil]
      have hl' : s.leaves[p]? = some (some l) := by
        split at hl
        · next he => cases hl; exact he
        · cases hl
      obtain ⟨hlt, hl'⟩ := List.getElem?_eq_some_iff.1 hl'
      rw [List.set_eq_take_append_cons_drop, if_pos hp]
      conv => rhs; rw [← List.take_append_drop p s.leaves, List.drop_eq_getElem_cons hp, hl']
      simp [List.flatMap_append, Leaf.setNext]

theorem assignLeaf_items {s s' : Store K V A} {L : List (Option (Leaf K V))} {leaf : Leaf K V}
    (hs : s.leaves = L ++ [none]) (h : s.assignLeaf L.length leaf = .ok s') :
    s'.items = s.items ++ leaf.data := by
  unfold Store.assignLeaf at h
  split at h
  · cases h
    simp only [Store.setLeaf, Store.items, hs]
    simp [List.flatMap_append]
  · cases h

@[simp] theorem keyRangeT_result (w : Wreck K V A) (l : Leaf K V) :
    (l.keyRangeT w).result = l.keyRange := by
  unfold Leaf.keyRangeT
  simp only [Traced.result_bind, Traced.result_lift]
  rcases l.keyRange with e | ⟨_ | a, _ | b⟩ <;> rfl

theorem keyRangeT_all {P : Callback → Wreck K V A → Prop} (w : Wreck K V A) (l : Leaf K V)
    (h : ∀ ks, P .cloneKey { w with keys := ks }) : (l.keyRangeT w).All P := by
  unfold Leaf.keyRangeT
  refine Traced.all_lift_bind fun r _ => ?_
  refine Traced.all_bind ?_ fun _ _ => Traced.all_bind ?_ fun _ _ => Traced.all_pure
  · split
    · exact Traced.all_call (h w.keys)
    · exact Traced.all_pure
  · split
    · exact Traced.all_call (h _)
    · exact Traced.all_pure

theorem todo_nil {eq : Nat → K → K → Bool} {d : DeDup K V} (h : (d.todo eq).1 = []) : d.owned = [] := by
  by_contra hne
  exact dedupU_ne eq d.asked hne h

section
variable [Augmentation K V A]

theorem bulkLeaves_fuel (f f' : Nat) (s : Store K V A) (p : Option Nat) (data : List (K × V))
    (h : data.length < f) (h' : data.length < f') : bulkLeaves f s p data = bulkLeaves f' s p data := by
  induction f generalizing f' s p data with
  | zero => omega
  | succ f ih =>
    cases f' with
    | zero => omega
    | succ f' =>
      rw [bulkLeaves, bulkLeaves]
      split
      · rfl
      · next hne =>
        have hpos : 0 < data.length := by
          cases data with
          | nil => simp at hne
          | cons => simp
        have : (data.drop leafN).length < data.length := by
          rw [List.length_drop]
          have : leafN = 64 := rfl
          omega
        simp only [ih f' _ _ (data.drop leafN) (by omega) (by omega)]

theorem bulkLeavesT_result (eq : Nat → K → K → Bool) (fuel : Nat) (s : Store K V A) (p : Option Nat)
    (nodes : List (LayerNode K A)) (d : DeDup K V) :
    (bulkLeavesT eq fuel s p nodes d).result.map (fun r => (r.1, r.2.1, r.2.2.1)) =
      bulkLeaves fuel s p (d.todo eq).1 := by
  induction fuel generalizing s p nodes d with
  | zero => rfl
  | succ fuel ih =>
    obtain ⟨l, d', h1, h2, h3, -⟩ := setDataT_spec eq ({ store := s, scratch := nodes } : Wreck K V A) leafN
      [] d
    rw [bulkLeavesT, bulkLeaves]
    simp only [Traced.result_bind, h1, ok_bind]
    simp only [List.nil_append] at h2
    rw [← h2]
    split
    · rfl
    · simp only [Traced.result_bind, Traced.result_lift, keyRangeT_result, Traced.result_call, ok_bind]
      cases linkFromPrev s.reserveLeaf.1 p s.reserveLeaf.2 with
      | error e => rfl
      | ok s1 =>
        simp only [ok_bind]
        cases Leaf.keyRange ⟨l, p, none⟩ with
        | error e => rfl
        | ok rg =>
          simp only [ok_bind]
          cases s1.assignLeaf s.reserveLeaf.2 ⟨l, p, none⟩ with
          | error e => rfl
          | ok s2 =>
            simp only [ok_bind]
            rw [← h3, ← ih s2 (some s.reserveLeaf.2)
              (nodes ++ [(.leaf s.reserveLeaf.2, rg, leafAug ⟨l, p, none⟩)]) d']
            generalize (bulkLeavesT eq fuel s2 (some s.reserveLeaf.2)
              (nodes ++ [(.leaf s.reserveLeaf.2, rg, leafAug ⟨l, p, none⟩)]) d').result = x
            cases x <;> rfl

theorem bulkLeavesT_all (eq : Nat → K → K → Bool) {data : List (K × V)} (fuel : Nat) (s : Store K V A)
    (p : Option Nat) (nodes : List (LayerNode K A)) (d : DeDup K V)
    (h : (d.gone ++ d.owned ++ s.items).Perm data) :
    (bulkLeavesT eq fuel s p nodes d).All (fun c w' => w'.Ok data c ∧ w'.bad = false) ∧
    ∀ r, (bulkLeavesT eq fuel s p nodes d).result = .ok r →
      (r.2.2.2.gone ++ r.2.2.2.owned ++ r.1.items).Perm data ∧ r.2.2.2.owned = [] := by
  induction fuel generalizing s p nodes d with
  | zero => exact ⟨Traced.all_lift, fun r hr => by cases hr⟩
  | succ fuel ih =>
    obtain ⟨l, d', h1, h2, h3, h4⟩ := setDataT_spec eq ({ store := s, scratch := nodes } : Wreck K V A) leafN
      [] d
    simp only [List.nil_append] at h2
    have h4 := h4 data (by simpa using h)
    simp only at h4
    -- the state in which the next round begins
    have hnext : ∀ s1 s2 : Store K V A,
        linkFromPrev s.reserveLeaf.1 p s.reserveLeaf.2 = .ok s1 →
        s1.assignLeaf s.reserveLeaf.2 ⟨l, p, none⟩ = .ok s2 →
        (d'.gone ++ d'.owned ++ s2.items).Perm data := by
      intro s1 s2 e1 e2
      obtain ⟨L, hL, hlen, hi⟩ := linkFromPrev_items (s := s) e1
      have e2' : s1.assignLeaf L.length ⟨l, p, none⟩ = .ok s2 := by rw [hlen]; exact e2
      have := assignLeaf_items hL e2'
      rw [this, hi]
      refine List.Perm.trans ?_ h4
      perm
    have hmid : ∀ s1 : Store K V A,
        linkFromPrev s.reserveLeaf.1 p s.reserveLeaf.2 = .ok s1 →
        (d'.gone ++ d'.owned ++ l ++ s1.items).Perm data := by
      intro s1 e1
      obtain ⟨L, hL, hlen, hi⟩ := linkFromPrev_items (s := s) e1
      rw [hi]; exact h4
    rw [bulkLeavesT]
    constructor
    · refine Traced.all_bind (setDataT_all eq _ rfl _ _ _ (by simpa using h)) ?_
      rintro ⟨l', d1⟩ hr
      rw [h1] at hr
      cases hr
      dsimp only
      split
      · exact Traced.all_pure
      · refine Traced.all_lift_bind fun s1 e1 => ?_
        have hm := hmid s1 e1
        refine Traced.all_bind (keyRangeT_all _ _ fun ks => ⟨Wreck.ok_none hm rfl, (Wreck.bad_none rfl).2⟩)
          fun rg hrg => ?_
        refine Traced.all_call_bind ⟨Wreck.ok_none hm rfl, (Wreck.bad_none rfl).2⟩ ?_
        refine Traced.all_lift_bind fun s2 e2 => ?_
        refine Traced.all_bind (ih s2 _ _ d' (hnext s1 s2 e1 e2)).1 ?_
        rintro ⟨a, b, c, e⟩ -
        exact Traced.all_pure
    · intro r hr
      obtain ⟨⟨l', d1⟩, e0, hr⟩ := Traced.bind_result_ok hr
      rw [h1] at e0
      cases e0
      dsimp only at hr
      split at hr
      · next hemp =>
        cases hr
        have hl0 : l = [] := by simpa using hemp
        subst hl0
        have ht : (d.todo eq).1 = [] := by
          rcases hd : (d.todo eq).1 with _ | ⟨x, xs⟩
          · rfl
          · rw [hd] at h2; cases h2
        rw [ht] at h3
        exact ⟨by simpa using h4, todo_nil (by simpa using h3)⟩
      · obtain ⟨s1, e1, hr⟩ := Traced.bind_result_ok hr
        obtain ⟨rg, -, hr⟩ := Traced.bind_result_ok hr
        obtain ⟨-, -, hr⟩ := Traced.bind_result_ok hr
        obtain ⟨s2, e2, hr⟩ := Traced.bind_result_ok hr
        obtain ⟨⟨a, b, c, e⟩, e3, hr⟩ := Traced.bind_result_ok hr
        cases hr
        exact (ih s2 _ _ d' (hnext s1 s2 e1 e2)).2 (a, b, c, e) e3

/-! ## Inner nodes: results -/

omit [Augmentation K V A] in
@[simp] theorem cloneOptionT_result (w : Wreck K V A) (o : Option K) : (cloneOptionT w o).result = .ok () := by
  cases o <;> rfl

omit [Augmentation K V A] in
theorem cloneKeysT_result (w : Wreck K V A) (ks : List K) (cs : List (LayerNode K A)) :
    (cloneKeysT w ks cs).result = (cs.mapM expectStartKey >>= fun l => .ok (ks ++ l)) := by
  induction cs generalizing ks with
  | nil => simp [cloneKeysT]
  | cons c cs ih =>
    rw [cloneKeysT]
    simp only [Traced.result_bind, cloneOptionT_result, Traced.result_lift, ok_bind, List.mapM_cons,
      bind_assoc, pure_ok, ih]
    congr 1; funext k; congr 1; funext l
    simp

omit [Augmentation K V A] in
@[simp] theorem cloneAugsT_result (w : Wreck K V A) (ks : List K) (ids : List NodeId) (as : List A)
    (cs : List (LayerNode K A)) : (cloneAugsT w ks ids as cs).result = .ok (as ++ cs.map (·.2.2)) := by
  induction cs generalizing as with
  | nil => simp [cloneAugsT]
  | cons c cs ih =>
    rw [cloneAugsT]
    simp only [Traced.result_bind, Traced.result_call, ok_bind, ih]
    simp

theorem buildInnerT_result (w : Wreck K V A) (c : List (LayerNode K A)) :
    (buildInnerT w c).result = buildInner w.store c := by
  unfold buildInnerT buildInner
  simp only [Traced.result_bind, Traced.result_lift, cloneOptionT_result, cloneKeysT_result, ok_bind,
    cloneAugsT_result, Traced.result_call, List.nil_append, bind_assoc, Traced.result_pure]
  rfl

theorem buildLayerT_result (w : Wreck K V A) (cs : List (List (LayerNode K A))) :
    (buildLayerT w cs).result = buildLayer w.store cs := by
  induction cs generalizing w with
  | nil => rfl
  | cons c cs ih =>
    rw [buildLayerT, buildLayer]
    simp only [Traced.result_bind, buildInnerT_result, ih, Traced.result_pure]
    rfl

theorem buildInnerLayerT_result (fuel : Nat) (w : Wreck K V A) (ns : List (LayerNode K A)) :
    (buildInnerLayerT fuel w ns).result = buildInnerLayer fuel w.store ns := by
  induction fuel generalizing w ns with
  | zero => rfl
  | succ fuel ih =>
    rcases ns with _ | ⟨n, _ | ⟨m, ns⟩⟩
    · rfl
    · rfl
    · rw [buildInnerLayerT, buildInnerLayer]
      · simp only [Traced.result_bind, buildLayerT_result, ih]
      all_goals intros; simp_all

/-! ## Inner nodes: every crash point -/

omit [Augmentation K V A] in
theorem cloneOptionT_all {P : Callback → Wreck K V A → Prop} {w : Wreck K V A} {o : Option K}
    (h : P .cloneKey w) : (cloneOptionT w o).All P := by
  cases o
  · exact Traced.all_pure
  · exact Traced.all_call h

omit [Augmentation K V A] in
theorem cloneKeysT_all {P : Callback → Wreck K V A → Prop} {w : Wreck K V A} (ks : List K)
    (cs : List (LayerNode K A)) (h : ∀ ks, P .cloneKey { w with node := some (.unfinished ks [] []) }) :
    (cloneKeysT w ks cs).All P := by
  induction cs generalizing ks with
  | nil => exact Traced.all_pure
  | cons c cs ih =>
    rw [cloneKeysT]
    exact Traced.all_bind (cloneOptionT_all (h ks)) fun _ _ => Traced.all_lift_bind fun k _ => ih _

omit [Augmentation K V A] in
theorem cloneAugsT_all {P : Callback → Wreck K V A → Prop} {w : Wreck K V A} (ks : List K)
    (ids : List NodeId) (as : List A) (cs : List (LayerNode K A))
    (h : ∀ as, P .cloneAug { w with node := some (.unfinished ks ids as) }) :
    (cloneAugsT w ks ids as cs).All P := by
  induction cs generalizing as with
  | nil => exact Traced.all_pure
  | cons c cs ih =>
    rw [cloneAugsT]
    exact Traced.all_call_bind (h as) (ih _)

theorem buildInnerT_all {data : List (K × V)} {w : Wreck K V A} (hw : w.node = none)
    (h : (w.gone ++ w.iter ++ w.leaf ++ w.store.items).Perm data) (c : List (LayerNode K A)) :
    (buildInnerT w c).All (fun c w' => w'.Ok data c) ∧
    ∀ r, (buildInnerT w c).result = .ok r → r.1.items = w.store.items := by
  have hu : ∀ (ks : List K) (ids : List NodeId) (as : List A) (keys : List K) (c : Callback),
      (c = .cloneKey ∧ as = [] ∨ c = .cloneAug) →
      ({ w with keys := keys, node := some (.unfinished ks ids as) } : Wreck K V A).Ok data c := by
    intro ks ids as keys c hc
    refine ⟨h, ?_, .inr (.inr ⟨ks, ids, as, rfl, hc.symm.imp id And.right⟩)⟩
    cases as with
    | nil => exact .inr ⟨(Wreck.bad_unfinished rfl).1, hc.imp And.left id⟩
    | cons a as => exact .inl (Wreck.bad_started rfl).1
  constructor
  · unfold buildInnerT
    refine Traced.all_lift_bind fun a ha => ?_
    refine Traced.all_bind (cloneOptionT_all (Wreck.ok_none h hw)) fun _ _ => ?_
    refine Traced.all_lift_bind fun b hb => ?_
    refine Traced.all_bind (cloneOptionT_all (Wreck.ok_none h hw)) fun _ _ => ?_
    refine Traced.all_bind (cloneKeysT_all _ _ fun ks => hu _ _ _ _ _ (.inl ⟨rfl, rfl⟩)) fun keys hk => ?_
    refine Traced.all_bind (cloneAugsT_all _ _ _ _ fun as => hu _ _ _ _ _ (.inr rfl)) fun augs hg => ?_
    refine Traced.all_lift_bind fun inner hi => ?_
    have hl : inner.augs.length = inner.keys.length + 1 := by
      rw [cloneAugsT_result] at hg
      cases hg
      unfold Inner.newFromIter at hi
      split at hi
      · split at hi
        · next he => cases hi; simp at he ⊢; omega
        · cases hi
      · cases hi
    exact Traced.all_call_bind ⟨h, .inl (Wreck.bad_finished (n := inner) (by omega) rfl).1,
      .inr (.inl ⟨inner, rfl, hl⟩)⟩ Traced.all_pure
  · intro r hr
    rw [buildInnerT_result] at hr
    unfold buildInner at hr
    obtain ⟨_, -, hr⟩ := bind_ok hr
    obtain ⟨_, -, hr⟩ := bind_ok hr
    obtain ⟨_, -, hr⟩ := bind_ok hr
    obtain ⟨_, -, hr⟩ := bind_ok hr
    cases hr
    rfl

theorem buildLayerT_all {data : List (K × V)} {w : Wreck K V A} (hw : w.node = none)
    (h : (w.gone ++ w.iter ++ w.leaf ++ w.store.items).Perm data) (cs : List (List (LayerNode K A))) :
    (buildLayerT w cs).All (fun c w' => w'.Ok data c) ∧
    ∀ r, (buildLayerT w cs).result = .ok r → r.1.items = w.store.items := by
  induction cs generalizing w with
  | nil =>
    refine ⟨Traced.all_pure, fun r hr => ?_⟩
    cases hr; rfl
  | cons c cs ih =>
    obtain ⟨h1, h2⟩ := buildInnerT_all hw h c
    rw [buildLayerT]
    constructor
    · refine Traced.all_bind h1 fun r hr => ?_
      refine Traced.all_bind (ih (w := { w with store := r.1, scratch := w.scratch ++ [r.2] }) hw (by
        show (w.gone ++ w.iter ++ w.leaf ++ r.1.items).Perm data
        rw [h2 r hr]; exact h)).1 fun _ _ => Traced.all_pure
    · intro r hr
      obtain ⟨a, ha, hr⟩ := Traced.bind_result_ok hr
      obtain ⟨b, hb, hr⟩ := Traced.bind_result_ok hr
      cases hr
      have := (ih (w := { w with store := a.1, scratch := w.scratch ++ [a.2] }) hw (by
        show (w.gone ++ w.iter ++ w.leaf ++ a.1.items).Perm data
        rw [h2 a ha]; exact h)).2 b hb
      exact this.trans (h2 a ha)

theorem buildInnerLayerT_all {data : List (K × V)} (fuel : Nat) {w : Wreck K V A} (hw : w.node = none)
    (h : (w.gone ++ w.iter ++ w.leaf ++ w.store.items).Perm data) (ns : List (LayerNode K A)) :
    (buildInnerLayerT fuel w ns).All (fun c w' => w'.Ok data c) ∧
    ∀ r, (buildInnerLayerT fuel w ns).result = .ok r → r.1.items = w.store.items := by
  induction fuel generalizing w ns with
  | zero => exact ⟨Traced.all_lift, fun r hr => by cases hr⟩
  | succ fuel ih =>
    rcases ns with _ | ⟨n, _ | ⟨m, ns⟩⟩
    · exact ⟨Traced.all_lift, fun r hr => by cases hr⟩
    · exact ⟨Traced.all_pure, fun r hr => by cases hr; rfl⟩
    · obtain ⟨h1, h2⟩ := buildLayerT_all hw h
        (chunks (innerN + 1) (n :: m :: ns).length (n :: m :: ns))
      rw [buildInnerLayerT]
      · constructor
        · refine Traced.all_bind h1 fun r hr => ?_
          exact (ih (w := { w with store := r.1, scratch := w.scratch ++ r.2 }) hw (by
            show (w.gone ++ w.iter ++ w.leaf ++ r.1.items).Perm data
            rw [h2 r hr]; exact h) r.2).1
        · intro r hr
          obtain ⟨a, ha, hr⟩ := Traced.bind_result_ok hr
          have := (ih (w := { w with store := a.1, scratch := w.scratch ++ a.2 }) hw (by
            show (w.gone ++ w.iter ++ w.leaf ++ a.1.items).Perm data
            rw [h2 a ha]; exact h) a.2).2 r hr
          exact this.trans (h2 a ha)
      all_goals intros; simp_all

/-! ## Inner nodes: the number of bad crash points -/

omit [Augmentation K V A] in
theorem cloneOptionT_count {p : Wreck K V A → Bool} {w : Wreck K V A} {o : Option K}
    (h : p w = false) : (cloneOptionT w o).count p = 0 := by
  cases o
  · rfl
  · rw [cloneOptionT, Traced.count_call, h]; rfl

omit [Augmentation K V A] in
theorem cloneKeysT_count {w : Wreck K V A} (ks : List K) (cs : List (LayerNode K A)) {r : List K}
    (h : (cloneKeysT w ks cs).result = .ok r) : (cloneKeysT w ks cs).count Wreck.bad = cs.length := by
  induction cs generalizing ks with
  | nil => rfl
  | cons c cs ih =>
    rw [cloneKeysT] at h ⊢
    obtain ⟨_, h0, h⟩ := Traced.bind_result_ok h
    rw [Traced.count_bind h0]
    obtain ⟨k, h1, h⟩ := Traced.bind_result_ok h
    rw [Traced.count_bind h1, ih _ h, Traced.count_lift]
    have : (cloneOptionT { w with node := some (.unfinished ks [] []) } c.2.1.1).count Wreck.bad = 1 := by
      have h1 : expectStartKey c = .ok k := h1
      unfold expectStartKey at h1
      split at h1
      · next e => rw [e, cloneOptionT, Traced.count_call, (Wreck.bad_unfinished rfl).2]; rfl
      · cases h1
    rw [this, List.length_cons]; omega

omit [Augmentation K V A] in
theorem cloneAugsT_count {w : Wreck K V A} (ks : List K) (ids : List NodeId) (as : List A)
    (cs : List (LayerNode K A)) : (cloneAugsT w ks ids as cs).count Wreck.bad =
      if as = [] ∧ cs ≠ [] then 1 else 0 := by
  induction cs generalizing as with
  | nil => simp [cloneAugsT]
  | cons c cs ih =>
    rw [cloneAugsT, Traced.count_call_bind, ih]
    cases as with
    | nil => rw [(Wreck.bad_unfinished rfl).2]; simp
    | cons a as => rw [(Wreck.bad_started rfl).2]; simp

theorem buildInnerT_count {w : Wreck K V A} (hw : w.node = none) (c : List (LayerNode K A))
    {r : Store K V A × LayerNode K A} (h : (buildInnerT w c).result = .ok r) :
    (buildInnerT w c).count Wreck.bad = c.length := by
  unfold buildInnerT at h ⊢
  obtain ⟨x1, h1, h⟩ := Traced.bind_result_ok h
  have hc : c ≠ [] := by
    rintro rfl
    cases h1
  rw [Traced.count_bind h1, Traced.count_lift]
  obtain ⟨x2, h2, h⟩ := Traced.bind_result_ok h
  rw [Traced.count_bind h2, cloneOptionT_count (Wreck.bad_none hw).2]
  obtain ⟨x3, h3, h⟩ := Traced.bind_result_ok h
  rw [Traced.count_bind h3, Traced.count_lift]
  obtain ⟨x4, h4, h⟩ := Traced.bind_result_ok h
  rw [Traced.count_bind h4,
    cloneOptionT_count (Wreck.bad_none (w := { w with keys := x1.2.1.1.toList }) hw).2]
  obtain ⟨x5, h5, h⟩ := Traced.bind_result_ok h
  rw [Traced.count_bind h5, cloneKeysT_count _ _ h5]
  obtain ⟨x6, h6, h⟩ := Traced.bind_result_ok h
  rw [Traced.count_bind h6, cloneAugsT_count]
  obtain ⟨x7, h7, h⟩ := Traced.bind_result_ok h
  rw [Traced.count_bind h7, Traced.count_lift, Traced.count_call_bind]
  rw [cloneAugsT_result] at h6
  cases h6
  have hi : Inner.newFromIter x5 (c.map (·.1)) ([] ++ c.map (·.2.2)) = .ok x7 := h7
  have : x7.keys.length < x7.augs.length := by
    unfold Inner.newFromIter at hi
    split at hi
    · split at hi
      · next he => cases hi; simp at he ⊢; omega
      · cases hi
    · cases hi
  rw [(Wreck.bad_finished this rfl).2]
  have : 0 < c.length := List.length_pos_iff.2 hc
  simp [hc]
  omega

theorem buildLayerT_count {w : Wreck K V A} (hw : w.node = none) (cs : List (List (LayerNode K A)))
    {r : Store K V A × List (LayerNode K A)} (h : (buildLayerT w cs).result = .ok r) :
    (buildLayerT w cs).count Wreck.bad = cs.flatten.length ∧ r.2.length = cs.length := by
  induction cs generalizing w r with
  | nil => cases h; exact ⟨rfl, rfl⟩
  | cons c cs ih =>
    rw [buildLayerT] at h ⊢
    obtain ⟨a, ha, h⟩ := Traced.bind_result_ok h
    obtain ⟨b, hb, h⟩ := Traced.bind_result_ok h
    rw [Traced.count_bind ha, Traced.count_bind hb, buildInnerT_count hw c ha]
    obtain ⟨h1, h2⟩ := ih (w := { w with store := a.1, scratch := w.scratch ++ [a.2] }) hw hb
    rw [h1]
    cases h
    exact ⟨by simp, by simp [h2]⟩

omit [Augmentation K V A] in
theorem chunks_lengths {α : Type} (fuel : Nat) (l : List α) (h : l.length ≤ fuel) :
    (chunks 65 fuel l).flatten = l ∧ (chunks 65 fuel l).length = (l.length + 64) / 65 := by
  induction fuel generalizing l with
  | zero =>
    have : l = [] := List.eq_nil_of_length_eq_zero (by omega)
    subst this; simp [chunks]
  | succ fuel ih =>
    rw [chunks]
    split
    · next he =>
      have : l = [] := by simpa using he
      subst this; simp
    · next he =>
      have hp : 0 < l.length := by
        cases l with
        | nil => simp at he
        | cons => simp
      obtain ⟨h1, h2⟩ := ih (l.drop 65) (by rw [List.length_drop]; omega)
      refine ⟨?_, ?_⟩
      · rw [List.flatten_cons, h1, List.take_append_drop]
      · rw [List.length_cons, h2, List.length_drop]; omega

theorem buildInnerLayerT_count (fuel : Nat) {w : Wreck K V A} (hw : w.node = none)
    (ns : List (LayerNode K A)) {r : Store K V A × NodeId}
    (h : (buildInnerLayerT fuel w ns).result = .ok r) :
    (buildInnerLayerT fuel w ns).count Wreck.bad = Spec.belowRoot ns.length := by
  induction fuel generalizing w ns with
  | zero => cases h
  | succ fuel ih =>
    rcases ns with _ | ⟨n, _ | ⟨m, ns⟩⟩
    · cases h
    · rw [Spec.belowRoot]; rfl
    · rw [buildInnerLayerT] at h ⊢
      · obtain ⟨a, ha, h⟩ := Traced.bind_result_ok h
        rw [Traced.count_bind ha]
        obtain ⟨h1, h2⟩ := buildLayerT_count hw _ ha
        obtain ⟨h3, h4⟩ := chunks_lengths (n :: m :: ns).length (n :: m :: ns) (Nat.le_refl _)
        have := ih (w := { w with store := a.1, scratch := w.scratch ++ a.2 }) hw a.2 h
        rw [h1, this, h2]
        have h3' : (chunks (innerN + 1) (n :: m :: ns).length (n :: m :: ns)).flatten = n :: m :: ns := h3
        have h4' : (chunks (innerN + 1) (n :: m :: ns).length (n :: m :: ns)).length =
          ((n :: m :: ns).length + 64) / 65 := h4
        rw [h3', h4']
        conv => rhs; rw [Spec.belowRoot]
        rw [if_neg (by simp)]
      all_goals intros; simp_all

/-! ## The whole load -/

theorem bulkLoadT_result (eq : Nat → K → K → Bool) (data : List (K × V)) :
    (Tree.bulkLoadT eq data : Traced (Wreck K V A) (Tree K V A)).result = Tree.bulkLoadU eq data := by
  unfold Tree.bulkLoadT Tree.bulkLoadU
  split
  · rfl
  · have h := bulkLeavesT_result (A := A) eq (data.length + 1) Store.empty none [] ⟨0, data, none, []⟩
    have ht : ((⟨0, data, none, []⟩ : DeDup K V).todo eq).1 = (dedupU eq 0 data).1 := by
      simp [DeDup.todo, DeDup.owned]
    rw [ht, bulkLeaves_fuel (data.length + 1) ((dedupU eq 0 data).1.length + 1) _ _ _ (by
      have := (dedupU_sublist eq 0 data).1.length_le
      omega) (by omega)] at h
    simp only [Traced.result_bind]
    rw [← h]
    generalize (bulkLeavesT eq (data.length + 1) (Store.empty : Store K V A) none []
      ⟨0, data, none, []⟩).result = x
    rcases x with e | ⟨s, ns, n, d⟩
    · rfl
    · simp only [Except.map, ok_bind, Traced.result_bind, buildInnerLayerT_result]
      congr 1; funext r
      unfold Tree.newFromPartsT Tree.newFromParts
      simp only [Traced.result_bind]
      split <;> simp [Traced.result_bind]

theorem bulkLoadT_leaves {eq : Nat → K → K → Bool} {data : List (K × V)} {s : Store K V A}
    {ns : List (LayerNode K A)} {n : Nat} {d : DeDup K V}
    (h : (bulkLeavesT eq (data.length + 1) (Store.empty : Store K V A) none []
      ⟨0, data, none, []⟩).result = .ok (s, ns, n, d)) :
    ns.length = ((dedupU eq 0 data).1.length + 63) / 64 := by
  have h' := bulkLeavesT_result (A := A) eq (data.length + 1) Store.empty none [] ⟨0, data, none, []⟩
  have ht : ((⟨0, data, none, []⟩ : DeDup K V).todo eq).1 = (dedupU eq 0 data).1 := by
    simp [DeDup.todo, DeDup.owned]
  rw [ht, h] at h'
  have := (dedupU_sublist eq 0 data).1.length_le
  obtain ⟨s', ns', ps, h1, -, -, -, -, h5, -, -, -, h9, -⟩ :=
    bulkLeaves_ok (A := A) (Nat.le_refl 1) (data.length + 1) (s := Store.empty)
      (data := (dedupU eq 0 data).1) (P := []) (by omega) trivial rfl
  have h1 : bulkLeaves (data.length + 1) (Store.empty : Store K V A) none (dedupU eq 0 data).1
    = .ok (s', ns', (dedupU eq 0 data).1.length) := h1
  rw [h1] at h'
  cases h'
  rw [h5.length, h9]

theorem bulkLoadT_all (eq : Nat → K → K → Bool) (data : List (K × V)) :
    (Tree.bulkLoadT eq data : Traced (Wreck K V A) (Tree K V A)).All (fun c w => w.Ok data c) := by
  unfold Tree.bulkLoadT
  split
  · exact Traced.all_pure
  · have hd : ((⟨0, data, none, []⟩ : DeDup K V).gone ++ (⟨0, data, none, []⟩ : DeDup K V).owned ++
        (Store.empty : Store K V A).items).Perm data := by
      simp [DeDup.owned, Store.items, Store.empty]
    obtain ⟨h1, h2⟩ := bulkLeavesT_all (A := A) eq (data.length + 1) Store.empty none []
      ⟨0, data, none, []⟩ hd
    refine Traced.all_bind (Traced.all_mono (fun _ _ h => h.1) h1) ?_
    rintro ⟨s, ns, n, d⟩ hr
    obtain ⟨h3, -⟩ := h2 _ hr
    have h3 : (d.gone ++ d.owned ++ ([] : List (K × V)) ++ s.items).Perm data := by simpa using h3
    obtain ⟨h4, h5⟩ := buildInnerLayerT_all (ns.length + 1)
      (w := ({ gone := d.gone, iter := d.owned, store := s, scratch := ns } : Wreck K V A)) rfl h3 ns
    refine Traced.all_bind h4 ?_
    rintro ⟨s', root⟩ hr'
    have h5 : s'.items = s.items := h5 _ hr'
    have h6 : (d.gone ++ d.owned ++ ([] : List (K × V)) ++ s'.items).Perm data := by rw [h5]; exact h3
    unfold Tree.newFromPartsT
    refine Traced.all_bind ?_ fun _ _ => Traced.all_pure
    split
    · exact newAugmentationT_all (fun _ => Wreck.ok_none h6 rfl) (fun _ => Wreck.ok_none h6 rfl)
    · exact Traced.all_pure

theorem bulkLoadT_count (eq : Nat → K → K → Bool) (data : List (K × V)) {t : Tree K V A}
    (h : (Tree.bulkLoadT eq data).result = .ok t) :
    (Tree.bulkLoadT eq data : Traced (Wreck K V A) (Tree K V A)).count Wreck.bad =
      Spec.belowRoot (((dedupU eq 0 data).1.length + 63) / 64) := by
  unfold Tree.bulkLoadT at h ⊢
  split at h
  · next he =>
    have : data = [] := by simpa using he
    subst this
    rw [Spec.belowRoot]; simp [dedupU]
  · next he =>
    rw [if_neg he]
    have hd : ((⟨0, data, none, []⟩ : DeDup K V).gone ++ (⟨0, data, none, []⟩ : DeDup K V).owned ++
        (Store.empty : Store K V A).items).Perm data := by
      simp [DeDup.owned, Store.items, Store.empty]
    obtain ⟨h1, -⟩ := bulkLeavesT_all (A := A) eq (data.length + 1) Store.empty none []
      ⟨0, data, none, []⟩ hd
    obtain ⟨⟨s, ns, n, d⟩, hr, h⟩ := Traced.bind_result_ok h
    rw [Traced.count_bind hr, Traced.count_zero (Traced.all_mono (fun _ _ h => h.2) h1)]
    obtain ⟨⟨s', root⟩, hr', h⟩ := Traced.bind_result_ok h
    dsimp only at hr' h ⊢
    rw [Traced.count_bind hr', buildInnerLayerT_count _ rfl _ hr', bulkLoadT_leaves hr]
    have : (Tree.newFromPartsT ({ gone := d.gone, iter := d.owned, store := s', scratch := [] } :
        Wreck K V A) root n).count Wreck.bad = 0 := by
      apply Traced.count_zero
      unfold Tree.newFromPartsT
      refine Traced.all_bind ?_ fun _ _ => Traced.all_pure
      split
      · exact newAugmentationT_all (fun _ => (Wreck.bad_none rfl).2) (fun _ => (Wreck.bad_none rfl).2)
      · exact Traced.all_pure
    dsimp only at this ⊢
    rw [this]; omega

/-! ## Both kinds of bad crash points occur -/

theorem buildInnerT_mem {w : Wreck K V A} (c : List (LayerNode K A))
    {r : Store K V A × LayerNode K A} (h : (buildInnerT w c).result = .ok r) (hc : 2 ≤ c.length) :
    (∃ w', (Callback.cloneKey, w') ∈ (buildInnerT w c).trace ∧ w'.unwind = .error .ub) ∧
    (∃ w', (Callback.cloneAug, w') ∈ (buildInnerT w c).trace ∧ w'.unwind = .error .ub) := by
  unfold buildInnerT at h ⊢
  obtain ⟨x1, h1, h⟩ := Traced.bind_result_ok h
  obtain ⟨x2, h2, h⟩ := Traced.bind_result_ok h
  obtain ⟨x3, h3, h⟩ := Traced.bind_result_ok h
  obtain ⟨x4, h4, h⟩ := Traced.bind_result_ok h
  obtain ⟨x5, h5, h⟩ := Traced.bind_result_ok h
  rcases c with _ | ⟨a, _ | ⟨b, c⟩⟩
  · simp at hc
  · simp at hc
  constructor
  · refine ⟨{ w with keys := x1.2.1.1.toList ++ x3.2.1.1.toList, node := some (.unfinished [] [] []) },
      Traced.mem_bind.2 <| .inr ⟨x1, h1, Traced.mem_bind.2 <| .inr ⟨x2, h2, Traced.mem_bind.2 <|
      .inr ⟨x3, h3, Traced.mem_bind.2 <| .inr ⟨x4, h4, Traced.mem_bind.2 <| .inl ?_⟩⟩⟩⟩,
      (Wreck.bad_unfinished rfl).1⟩
    have h5' := h5
    simp only [List.drop_succ_cons, List.drop_zero] at h5' ⊢
    rw [cloneKeysT] at h5' ⊢
    obtain ⟨_, -, h5'⟩ := Traced.bind_result_ok h5'
    obtain ⟨k, hk, -⟩ := Traced.bind_result_ok h5'
    refine Traced.mem_bind.2 (.inl ?_)
    have hk : expectStartKey b = .ok k := hk
    unfold expectStartKey at hk
    split at hk
    · next e => rw [e, cloneOptionT]; simp
    · cases hk
  · refine ⟨{ w with
        keys := x1.2.1.1.toList ++ x3.2.1.1.toList,
        node := some (.unfinished x5 ((a :: b :: c).map (·.1)) []) },
      Traced.mem_bind.2 <| .inr ⟨x1, h1, Traced.mem_bind.2 <| .inr ⟨x2, h2, Traced.mem_bind.2 <|
      .inr ⟨x3, h3, Traced.mem_bind.2 <| .inr ⟨x4, h4, Traced.mem_bind.2 <| .inr ⟨x5, h5,
      Traced.mem_bind.2 <| .inl ?_⟩⟩⟩⟩⟩, (Wreck.bad_unfinished rfl).1⟩
    rw [cloneAugsT]
    exact Traced.mem_bind.2 (.inl (by simp))

theorem bulkLoadT_mem (eq : Nat → K → K → Bool) (data : List (K × V)) {t : Tree K V A}
    (h : (Tree.bulkLoadT eq data).result = .ok t) (hn : 64 < (dedupU eq 0 data).1.length) :
    (∃ w', (Callback.cloneKey, w') ∈ (Tree.bulkLoadT eq data : Traced (Wreck K V A) (Tree K V A)).trace ∧
      w'.unwind = .error .ub) ∧
    (∃ w', (Callback.cloneAug, w') ∈ (Tree.bulkLoadT eq data : Traced (Wreck K V A) (Tree K V A)).trace ∧
      w'.unwind = .error .ub) := by
  unfold Tree.bulkLoadT at h ⊢
  split at h
  · next he =>
    have : data = [] := by simpa using he
    subst this
    simp [dedupU] at hn
  · next he =>
    rw [if_neg he]
    obtain ⟨⟨s, ns, n, d⟩, hr, h⟩ := Traced.bind_result_ok h
    obtain ⟨⟨s', root⟩, hr', h⟩ := Traced.bind_result_ok h
    have hl := bulkLoadT_leaves hr
    have hl2 : 2 ≤ ns.length := by omega
    rcases ns with _ | ⟨a, _ | ⟨b, ns⟩⟩
    · simp at hl2
    · simp at hl2
    have key : ∀ c : Callback, (∃ w', (c, w') ∈ (buildInnerLayerT ((a :: b :: ns).length + 1)
        ({ gone := d.gone, iter := d.owned, store := s, scratch := a :: b :: ns } : Wreck K V A)
        (a :: b :: ns)).trace ∧ w'.unwind = .error .ub) → ∃ w', (c, w') ∈ (do
          let (s, nodes, count, d) ← bulkLeavesT eq (data.length + 1) (Store.empty : Store K V A) none []
            ⟨0, data, none, []⟩
          let w : Wreck K V A := { gone := d.gone, iter := d.owned, store := s, scratch := nodes }
          let (s, root) ← buildInnerLayerT (nodes.length + 1) w nodes
          Tree.newFromPartsT { w with store := s, scratch := [] } root count).trace ∧
            w'.unwind = .error .ub := by
      rintro c ⟨w', h1, h2⟩
      exact ⟨w', Traced.mem_bind.2 (.inr ⟨_, hr, Traced.mem_bind.2 (.inl h1)⟩), h2⟩
    have hch : ∃ rest, chunks (innerN + 1) (a :: b :: ns).length (a :: b :: ns) =
        (a :: b :: ns).take 65 :: rest := ⟨_, rfl⟩
    obtain ⟨rest, hch⟩ := hch
    rw [buildInnerLayerT] at hr' key
    · obtain ⟨x, hx, hr'⟩ := Traced.bind_result_ok hr'
      rw [hch, buildLayerT] at hx key
      obtain ⟨y, hy, hx⟩ := Traced.bind_result_ok hx
      obtain ⟨⟨w1, m1, u1⟩, ⟨w2, m2, u2⟩⟩ := buildInnerT_mem _ hy (by simp)
      exact ⟨key _ ⟨w1, Traced.mem_bind.2 (.inl (Traced.mem_bind.2 (.inl m1))), u1⟩,
        key _ ⟨w2, Traced.mem_bind.2 (.inl (Traced.mem_bind.2 (.inl m2))), u2⟩⟩
    all_goals intros; clear key; simp at *

/-! ## The number of nodes -/

theorem buildLayer_inners {s : Store K V A} {cs : List (List (LayerNode K A))}
    {r : Store K V A × List (LayerNode K A)} (h : buildLayer s cs = .ok r) :
    r.1.inners.length = s.inners.length + cs.length ∧ r.1.leaves = s.leaves ∧ r.2.length = cs.length := by
  induction cs generalizing s r with
  | nil => cases h; simp
  | cons c cs ih =>
    rw [buildLayer] at h
    obtain ⟨a, ha, h⟩ := bind_ok h
    obtain ⟨b, hb, h⟩ := bind_ok h
    cases h
    obtain ⟨h1, h2, h3⟩ := ih hb
    unfold buildInner at ha
    obtain ⟨_, -, ha⟩ := bind_ok ha
    obtain ⟨_, -, ha⟩ := bind_ok ha
    obtain ⟨_, -, ha⟩ := bind_ok ha
    obtain ⟨_, -, ha⟩ := bind_ok ha
    cases ha
    simp only [Store.addInner] at h1 h2
    refine ⟨?_, h2, by simp [h3]⟩
    show b.1.inners.length = _
    rw [h1]; simp; omega

theorem buildInnerLayer_inners (fuel : Nat) {s : Store K V A} {ns : List (LayerNode K A)}
    {r : Store K V A × NodeId} (h : buildInnerLayer fuel s ns = .ok r) :
    r.1.inners.length + ns.length = s.inners.length + Spec.belowRoot ns.length + 1 ∧
      r.1.leaves = s.leaves := by
  induction fuel generalizing s ns with
  | zero => cases h
  | succ fuel ih =>
    rcases ns with _ | ⟨n, _ | ⟨m, ns⟩⟩
    · cases h
    · cases h
      rw [Spec.belowRoot]; simp
    · rw [buildInnerLayer] at h
      · obtain ⟨a, ha, h⟩ := bind_ok h
        obtain ⟨h1, h2, h3⟩ := buildLayer_inners ha
        obtain ⟨h4, h5⟩ := ih h
        obtain ⟨-, h6⟩ := chunks_lengths (n :: m :: ns).length (n :: m :: ns) (Nat.le_refl _)
        have h6' : (chunks (innerN + 1) (n :: m :: ns).length (n :: m :: ns)).length =
          ((n :: m :: ns).length + 64) / 65 := h6
        refine ⟨?_, h5.trans h2⟩
        rw [h6'] at h1 h3
        rw [h3] at h4
        conv => rhs; rw [Spec.belowRoot]
        rw [if_neg (by simp)]
        omega
      all_goals intros; simp_all

theorem bulkLoadU_nodes {eq : Nat → K → K → Bool} {data : List (K × V)} (hne : data ≠ [])
    {t : Tree K V A} (h : Tree.bulkLoadU eq data = .ok t) :
    t.store.leaves.length + t.store.inners.length =
      Spec.belowRoot (((dedupU eq 0 data).1.length + 63) / 64) + 1 := by
  unfold Tree.bulkLoadU at h
  rw [if_neg (by simpa using hne)] at h
  obtain ⟨⟨s, ns, n⟩, h0, h⟩ := bind_ok h
  obtain ⟨⟨s', root⟩, h1, h⟩ := bind_ok h
  obtain ⟨a, -, h⟩ := bind_ok h
  cases h
  obtain ⟨s1, ns1, ps, g1, -, g3, g4, -, g5, -, -, -, g9, -⟩ :=
    bulkLeaves_ok (A := A) (Nat.le_refl 1) ((dedupU eq 0 data).1.length + 1) (s := Store.empty)
      (data := (dedupU eq 0 data).1) (P := []) (by omega) trivial rfl
  have g1 : bulkLeaves ((dedupU eq 0 data).1.length + 1) (Store.empty : Store K V A) none
    (dedupU eq 0 data).1 = .ok (s1, ns1, (dedupU eq 0 data).1.length) := g1
  rw [g1] at h0
  cases h0
  obtain ⟨h2, h3⟩ := buildInnerLayer_inners _ h1
  have h3 : s'.leaves = s.leaves := h3
  have h2 : s'.inners.length + ns.length = s.inners.length + Spec.belowRoot ns.length + 1 := h2
  have hlen : s.leaves.length = ps.length := by
    have := congrArg List.length g3
    simp only [List.nil_append, List.length_map, List.length_range] at this
    rw [← this]
    clear * -
    induction ps with
    | nil => rfl
    | cons p ps ih => simp only [lleaves, List.flatMap_cons, List.length_append, List.length_cons] at ih ⊢; rw [ih]; simp [T.leaves]; omega
  rw [g4] at h2
  simp only [Store.empty, List.length_nil] at h2
  rw [g5.length] at h2
  rw [← g9]
  show s'.leaves.length + s'.inners.length = _
  rw [h3, hlen]
  omega

end
end Bpt
