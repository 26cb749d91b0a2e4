import Verif.Proofs.BulkCrash

/-!
# The calls of user code made by a bulk load
-/

namespace Bpt
variable {K V A : Type}

namespace Traced
variable {σ α β : Type}

/-- The calls of one kind, in order. -/
def calls (p : Callback → Bool) (x : Traced σ α) : List Callback := (x.trace.map (·.1)).filter p

theorem calls_bind {p : Callback → Bool} {x : Traced σ α} {f : α → Traced σ β} {a : α}
    (h : x.result = .ok a) : calls p (x >>= f) = calls p x ++ calls p (f a) := by
  have : (x >>= f).trace = (match x.result with
    | .ok a => (⟨x.trace ++ (f a).trace, (f a).result⟩ : Traced σ β)
    | .error e => ⟨x.trace, .error e⟩).trace := rfl
  unfold calls
  rw [this, h]
  simp

@[simp] theorem calls_pure {p : Callback → Bool} (a : α) : calls p (pure a : Traced σ α) = [] := rfl
@[simp] theorem calls_call {p : Callback → Bool} (c : Callback) (m : σ) :
    calls p (call c m) = if p c then [c] else [] := by
  simp [calls, List.filter_cons]
@[simp] theorem calls_lift {p : Callback → Bool} (x : Res α) : calls p (liftM x : Traced σ α) = [] := rfl

theorem calls_call_bind {p : Callback → Bool} {c : Callback} {m : σ} {f : Unit → Traced σ β} :
    calls p (call c m >>= f) = (if p c then [c] else []) ++ calls p (f ()) := by
  rw [calls_bind (a := ()) rfl]; simp

theorem calls_nil {p : Callback → Bool} {x : Traced σ α} (h : x.All (fun c _ => p c = false)) :
    calls p x = [] := by
  unfold calls
  rw [List.filter_eq_nil_iff]
  intro c hc
  obtain ⟨⟨c', m⟩, hm, rfl⟩ := List.mem_map.1 hc
  simp [h c' m hm]

end Traced

/-- Is this a call of `from_leaf` or `from_inner`? -/
def Callback.folds (c : Callback) : Bool := c.isFromLeaf || c.isFromInner

theorem groupSizes_step {c n : Nat} (hc : 0 < c) (hn : 0 < n) :
    Spec.groupSizes c n = min c n :: Spec.groupSizes c (n - c) := by
  unfold Spec.groupSizes
  rcases Nat.lt_or_ge n c with h | h
  · rw [Nat.div_eq_of_lt h, Nat.mod_eq_of_lt h, if_neg (by omega), show n - c = 0 by omega,
      Nat.min_eq_right (by omega)]
    simp
  · obtain ⟨m, rfl⟩ : ∃ m, n = m + c := ⟨n - c, by omega⟩
    rw [Nat.add_div_right _ hc, Nat.add_mod_right, Nat.add_sub_cancel, Nat.min_eq_left (by omega),
      List.replicate_succ, List.cons_append]

theorem chunks_sizes {α : Type} (fuel : Nat) (l : List α) (h : l.length ≤ fuel) :
    (chunks 65 fuel l).map List.length = Spec.groupSizes 65 l.length := by
  induction fuel generalizing l with
  | zero =>
    have : l = [] := List.eq_nil_of_length_eq_zero (by omega)
    subst this; simp [chunks, Spec.groupSizes]
  | succ fuel ih =>
    rw [chunks]
    split
    · next he =>
      have : l = [] := by simpa using he
      subst this; simp [Spec.groupSizes]
    · next he =>
      have hp : 0 < l.length := by
        cases l with
        | nil => simp at he
        | cons => simp
      rw [groupSizes_step (by omega) hp, List.map_cons, ih _ (by rw [List.length_drop]; omega),
        List.length_take, List.length_drop]

/-! ## Leaves -/

theorem dedupNextT_calls {p : Callback → Bool} (hp : p .compare = false) (eq : Nat → K → K → Bool)
    (w : Wreck K V A) (rest : List (K × V)) (i : Nat) (cur : Option (K × V)) (gone : List (K × V)) :
    (dedupNextT eq w rest i cur gone).calls p = [] := by
  induction rest generalizing i cur gone with
  | nil => rfl
  | cons item rest ih =>
    cases cur with
    | none => exact ih _ _ _
    | some c =>
      rw [dedupNextT, Traced.calls_call_bind, hp]
      by_cases he : eq i c.1 item.1 = true
      · simp only [he, if_true]; exact ih _ _ _
      · simp only [he]; rfl

theorem setDataT_calls {p : Callback → Bool} (hp : p .compare = false) (eq : Nat → K → K → Bool)
    (w : Wreck K V A) (n : Nat) (leaf : List (K × V)) (d : DeDup K V) :
    (setDataT eq w n leaf d).calls p = [] := by
  induction n generalizing leaf d with
  | zero => rfl
  | succ n ih =>
    obtain ⟨o, d1, h1, -⟩ := dedupNextT_spec eq { w with leaf := leaf } d.rest d.asked d.cur d.gone
    rw [setDataT, Traced.calls_bind h1, dedupNextT_calls hp]
    cases o with
    | none => rfl
    | some x => exact ih _ _

theorem keyRangeT_calls {p : Callback → Bool} (hp : p .cloneKey = false) (w : Wreck K V A) (l : Leaf K V) :
    (l.keyRangeT w).calls p = [] :=
  Traced.calls_nil (keyRangeT_all w l fun _ => hp)

/-- Comparisons left to the iterator. -/
def DeDup.toAsk (d : DeDup K V) : Nat := d.owned.length - 1

def Callback.isCompare : Callback → Bool
  | .compare => true
  | _ => false

def Callback.isCloneAug : Callback → Bool
  | .cloneAug => true
  | _ => false

theorem dedupNextT_asks (eq : Nat → K → K → Bool) (w : Wreck K V A) (rest : List (K × V)) (i : Nat)
    (cur : Option (K × V)) (gone : List (K × V)) {o : Option (K × V)} {d : DeDup K V}
    (h : (dedupNextT eq w rest i cur gone).result = .ok (o, d)) :
    ((dedupNextT eq w rest i cur gone).calls Callback.isCompare).length + d.toAsk =
      (cur.toList ++ rest).length - 1 := by
  induction rest generalizing i cur gone with
  | nil =>
    cases h
    cases o <;> simp [dedupNextT, DeDup.toAsk, DeDup.owned]
  | cons item rest ih =>
    cases cur with
    | none => exact ih _ _ _ h
    | some c =>
      rw [dedupNextT] at h ⊢
      rw [Traced.calls_call_bind]
      simp only [Traced.result_bind, Traced.result_call, ok_bind] at h
      split at h
      · next he =>
        have := ih _ _ _ h
        rw [if_pos he]
        simp [Callback.isCompare] at this ⊢
        omega
      · next he =>
        cases h
        rw [if_neg he]
        simp [Callback.isCompare, DeDup.toAsk, DeDup.owned]
        omega

theorem setDataT_asks (eq : Nat → K → K → Bool) (w : Wreck K V A) (n : Nat) (leaf : List (K × V))
    (d : DeDup K V) {l : List (K × V)} {d' : DeDup K V} (h : (setDataT eq w n leaf d).result = .ok (l, d')) :
    ((setDataT eq w n leaf d).calls Callback.isCompare).length + d'.toAsk = d.toAsk := by
  induction n generalizing leaf d with
  | zero => cases h; simp [setDataT]
  | succ n ih =>
    obtain ⟨o, d1, h1, -⟩ := dedupNextT_spec eq { w with leaf := leaf } d.rest d.asked d.cur d.gone
    have h2 := dedupNextT_asks eq _ _ _ _ _ h1
    rw [setDataT] at h ⊢
    rw [Traced.calls_bind h1]
    simp only [Traced.result_bind, h1, ok_bind] at h
    cases o with
    | none =>
      cases h
      simpa [DeDup.toAsk, DeDup.owned] using h2
    | some x =>
      have := ih _ _ h
      rw [List.length_append]
      have h2' : _ = d.toAsk := h2
      dsimp only at this ⊢
      omega

section
variable [Augmentation K V A]

theorem bulkLeavesT_asks (eq : Nat → K → K → Bool) (fuel : Nat) (s : Store K V A) (p : Option Nat)
    (nodes : List (LayerNode K A)) (d : DeDup K V)
    {r : Store K V A × List (LayerNode K A) × Nat × DeDup K V}
    (h : (bulkLeavesT eq fuel s p nodes d).result = .ok r) :
    ((bulkLeavesT eq fuel s p nodes d).calls Callback.isCompare).length = d.toAsk := by
  induction fuel generalizing s p nodes d r with
  | zero => cases h
  | succ fuel ih =>
    obtain ⟨l, d', h1, h2, h3, -⟩ := setDataT_spec eq ({ store := s, scratch := nodes } : Wreck K V A) leafN
      [] d
    have ha := setDataT_asks eq _ _ _ _ h1
    simp only [List.nil_append] at h2
    rw [bulkLeavesT] at h ⊢
    rw [Traced.calls_bind h1]
    obtain ⟨_, e0, h⟩ := Traced.bind_result_ok h
    rw [h1] at e0
    cases e0
    dsimp only at h ⊢
    split at h
    · next hemp =>
      rw [if_pos hemp]
      have hl0 : l = [] := by simpa using hemp
      have ht : (d.todo eq).1 = [] := by
        rcases hd : (d.todo eq).1 with _ | ⟨x, xs⟩
        · rfl
        · rw [hd, hl0] at h2; cases h2
      rw [ht] at h3
      have : d'.toAsk = 0 := by simp [DeDup.toAsk, todo_nil (eq := eq) (d := d') (by simpa using h3)]
      simp only [Traced.calls_pure, List.append_nil]
      omega
    · next hemp =>
      rw [if_neg hemp]
      obtain ⟨s1, e1, h⟩ := Traced.bind_result_ok h
      rw [Traced.calls_bind e1]
      obtain ⟨rg, e2, h⟩ := Traced.bind_result_ok h
      rw [Traced.calls_bind e2, keyRangeT_calls rfl]
      obtain ⟨_, e3, h⟩ := Traced.bind_result_ok h
      rw [Traced.calls_bind e3]
      obtain ⟨s2, e4, h⟩ := Traced.bind_result_ok h
      rw [Traced.calls_bind e4]
      obtain ⟨a, e5, h⟩ := Traced.bind_result_ok h
      rw [Traced.calls_bind e5]
      have := ih _ _ _ _ e5
      simp [Callback.ofLeaf, Callback.isCompare]
      omega

theorem bulkLeavesT_none {p : Callback → Bool} (h1 : p .compare = false) (h2 : p .cloneKey = false)
    (h3 : ∀ n, p (.fromLeaf n) = false) (eq : Nat → K → K → Bool) (fuel : Nat) (s : Store K V A)
    (q : Option Nat) (nodes : List (LayerNode K A)) (d : DeDup K V) 
    {r : Store K V A × List (LayerNode K A) × Nat × DeDup K V}
    (h : (bulkLeavesT eq fuel s q nodes d).result = .ok r) :
    (bulkLeavesT eq fuel s q nodes d).calls p = [] := by
  induction fuel generalizing s q nodes d r with
  | zero => cases h
  | succ fuel ih =>
    rw [bulkLeavesT] at h ⊢
    obtain ⟨⟨l, d'⟩, e0, h⟩ := Traced.bind_result_ok h
    rw [Traced.calls_bind e0, setDataT_calls h1]
    dsimp only at h ⊢
    split at h
    · next hemp => rw [if_pos hemp]; rfl
    · next hemp =>
      rw [if_neg hemp]
      obtain ⟨s1, e1, h⟩ := Traced.bind_result_ok h
      rw [Traced.calls_bind e1]
      obtain ⟨rg, e2, h⟩ := Traced.bind_result_ok h
      rw [Traced.calls_bind e2, keyRangeT_calls h2]
      obtain ⟨_, e3, h⟩ := Traced.bind_result_ok h
      rw [Traced.calls_bind e3]
      obtain ⟨s2, e4, h⟩ := Traced.bind_result_ok h
      rw [Traced.calls_bind e4]
      obtain ⟨a, e5, h⟩ := Traced.bind_result_ok h
      rw [Traced.calls_bind e5, ih _ _ _ _ e5]
      simp [Callback.ofLeaf, h3]

/-- The calls of `from_leaf` and `from_inner` for the leaves. -/
theorem bulkLeavesT_folds (eq : Nat → K → K → Bool) (fuel : Nat) (s : Store K V A) (p : Option Nat)
    (nodes : List (LayerNode K A)) (d : DeDup K V)
    {r : Store K V A × List (LayerNode K A) × Nat × DeDup K V}
    (h : (bulkLeavesT eq fuel s p nodes d).result = .ok r) :
    (bulkLeavesT eq fuel s p nodes d).calls Callback.folds =
      (Spec.groupSizes 64 (d.todo eq).1.length).map .fromLeaf := by
  induction fuel generalizing s p nodes d r with
  | zero => cases h
  | succ fuel ih =>
    obtain ⟨l, d', h1, h2, h3, -⟩ := setDataT_spec eq ({ store := s, scratch := nodes } : Wreck K V A) leafN
      [] d
    simp only [List.nil_append] at h2
    rw [bulkLeavesT] at h ⊢
    rw [Traced.calls_bind h1, setDataT_calls rfl]
    obtain ⟨_, e0, h⟩ := Traced.bind_result_ok h
    rw [h1] at e0
    cases e0
    dsimp only at h ⊢
    split at h
    · next hemp =>
      rw [if_pos hemp]
      have hl0 : l = [] := by simpa using hemp
      have ht : (d.todo eq).1 = [] := by
        rcases hd : (d.todo eq).1 with _ | ⟨x, xs⟩
        · rfl
        · rw [hd, hl0] at h2; cases h2
      rw [ht]
      simp [Spec.groupSizes]
    · next hemp =>
      rw [if_neg hemp]
      obtain ⟨s1, e1, h⟩ := Traced.bind_result_ok h
      rw [Traced.calls_bind e1]
      obtain ⟨rg, e2, h⟩ := Traced.bind_result_ok h
      rw [Traced.calls_bind e2, keyRangeT_calls rfl]
      obtain ⟨_, e3, h⟩ := Traced.bind_result_ok h
      rw [Traced.calls_bind e3]
      obtain ⟨s2, e4, h⟩ := Traced.bind_result_ok h
      rw [Traced.calls_bind e4]
      obtain ⟨a, e5, h⟩ := Traced.bind_result_ok h
      rw [Traced.calls_bind e5, ih _ _ _ _ e5, h3, List.length_drop]
      have hpos : 0 < (d.todo eq).1.length := by
        rcases hd : (d.todo eq).1 with _ | ⟨x, xs⟩
        · rw [hd] at h2; subst h2; simp at hemp
        · simp
      have hl : l.length = min 64 (d.todo eq).1.length := by rw [h2, List.length_take]
      rw [groupSizes_step (by omega) hpos]
      simp [Callback.ofLeaf, Callback.folds, Callback.isFromLeaf, Leaf.keys, hl]

/-- When there is one leaf, it has all items. -/
theorem bulkLeavesT_single (eq : Nat → K → K → Bool) (fuel : Nat) (s : Store K V A) (p : Option Nat)
    (nodes : List (LayerNode K A)) (d : DeDup K V) {s' : Store K V A} {x : LayerNode K A} {n : Nat}
    {d' : DeDup K V} (h : (bulkLeavesT eq fuel s p nodes d).result = .ok (s', [x], n, d')) :
    ∃ i l, x.1 = .leaf i ∧ s'.getLeaf i = .ok l ∧ l.data.length = (d.todo eq).1.length ∧
      (d.todo eq).1.length ≤ 64 ∧ 0 < (d.todo eq).1.length := by
  have h' := bulkLeavesT_result (A := A) eq fuel s p nodes d
  rw [h] at h'
  cases fuel with
  | zero => cases h
  | succ fuel =>
    rw [bulkLeaves] at h'
    simp only [Except.map] at h'
    split at h'
    · cases h'
    · next hne =>
      obtain ⟨s1, e1, h'⟩ := bind_ok h'.symm
      obtain ⟨rg, e2, h'⟩ := bind_ok h'
      obtain ⟨s2, e3, h'⟩ := bind_ok h'
      obtain ⟨⟨s3, rest, m⟩, e4, h'⟩ := bind_ok h'
      cases h'
      have hr : (d.todo eq).1.drop leafN = [] ∧ s3 = s2 := by
        cases fuel with
        | zero => cases e4
        | succ fuel =>
          rw [bulkLeaves] at e4
          split at e4
          · next he =>
            cases e4
            refine ⟨?_, rfl⟩
            rcases hd : (d.todo eq).1.drop leafN with _ | ⟨x, xs⟩
            · rfl
            · rw [hd] at he; simp at he
          · obtain ⟨_, -, e4⟩ := bind_ok e4
            obtain ⟨_, -, e4⟩ := bind_ok e4
            obtain ⟨_, -, e4⟩ := bind_ok e4
            obtain ⟨⟨_, _, _⟩, -, e4⟩ := bind_ok e4
            cases e4
      obtain ⟨hr, rfl⟩ := hr
      have h64 : (d.todo eq).1.length ≤ 64 := by simpa using hr
      refine ⟨_, ⟨(d.todo eq).1.take leafN, p, none⟩, rfl, ?_, ?_, h64, ?_⟩
      · unfold Store.assignLeaf at e3
        split at e3
        · next hlt =>
          cases e3
          simp only [Store.getLeaf, Store.setLeaf]
          rw [List.getElem?_set_self hlt]
        · cases e3
      · rw [List.length_take]; exact Nat.min_eq_right h64
      · rcases hd : (d.todo eq).1 with _ | ⟨x, xs⟩
        · rw [hd] at hne; simp at hne
        · simp

/-! ## Inner nodes -/

omit [Augmentation K V A] in
theorem cloneOptionT_calls {p : Callback → Bool} (hp : p .cloneKey = false) (w : Wreck K V A) (o : Option K) :
    (cloneOptionT w o).calls p = [] :=
  Traced.calls_nil (cloneOptionT_all hp)

omit [Augmentation K V A] in
theorem cloneKeysT_calls {p : Callback → Bool} (hp : p .cloneKey = false) (w : Wreck K V A) (ks : List K)
    (cs : List (LayerNode K A)) : (cloneKeysT w ks cs).calls p = [] :=
  Traced.calls_nil (cloneKeysT_all ks cs fun _ => hp)

omit [Augmentation K V A] in
theorem cloneAugsT_calls {p : Callback → Bool} (w : Wreck K V A) (ks : List K) (ids : List NodeId)
    (as : List A) (cs : List (LayerNode K A)) :
    (cloneAugsT w ks ids as cs).calls p = if p .cloneAug then cs.map (fun _ => .cloneAug) else [] := by
  induction cs generalizing as with
  | nil => simp [cloneAugsT]
  | cons c cs ih =>
    rw [cloneAugsT, Traced.calls_call_bind, ih]
    split <;> simp

/-- The calls for one inner node, except `K::clone`. -/
theorem buildInnerT_calls {p : Callback → Bool} (hp : p .cloneKey = false) {w : Wreck K V A}
    (c : List (LayerNode K A)) {r : Store K V A × LayerNode K A} (h : (buildInnerT w c).result = .ok r) :
    (buildInnerT w c).calls p = (c.map (fun _ => Callback.cloneAug) ++
        [Callback.fromInner (c.length - 1) c.length]).filter p ∧
      ∃ i n, r.2.1 = .inner i ∧ r.1.getInner i = .ok n ∧
        Callback.ofInner n = .fromInner (c.length - 1) c.length := by
  unfold buildInnerT at h ⊢
  obtain ⟨x1, h1, h⟩ := Traced.bind_result_ok h
  rw [Traced.calls_bind h1, Traced.calls_lift]
  obtain ⟨x2, h2, h⟩ := Traced.bind_result_ok h
  rw [Traced.calls_bind h2, cloneOptionT_calls hp]
  obtain ⟨x3, h3, h⟩ := Traced.bind_result_ok h
  rw [Traced.calls_bind h3, Traced.calls_lift]
  obtain ⟨x4, h4, h⟩ := Traced.bind_result_ok h
  rw [Traced.calls_bind h4, cloneOptionT_calls hp]
  obtain ⟨x5, h5, h⟩ := Traced.bind_result_ok h
  rw [Traced.calls_bind h5, cloneKeysT_calls hp]
  obtain ⟨x6, h6, h⟩ := Traced.bind_result_ok h
  rw [Traced.calls_bind h6, cloneAugsT_calls]
  obtain ⟨x7, h7, h⟩ := Traced.bind_result_ok h
  rw [Traced.calls_bind h7, Traced.calls_lift, Traced.calls_call_bind]
  rw [cloneAugsT_result] at h6
  cases h6
  have hi : Inner.newFromIter x5 (c.map (·.1)) ([] ++ c.map (·.2.2)) = .ok x7 := h7
  have hx : Callback.ofInner x7 = .fromInner (c.length - 1) c.length := by
    unfold Inner.newFromIter at hi
    split at hi
    · split at hi
      · next he => cases hi; simp [Callback.ofInner] at he ⊢; omega
      · cases hi
    · cases hi
  rw [hx]
  obtain ⟨x8, h8, h⟩ := Traced.bind_result_ok h
  have h8 : x7 = x8 := Except.ok.inj (h7.symm.trans h8)
  subst h8
  obtain ⟨_, -, h⟩ := Traced.bind_result_ok h
  cases h
  refine ⟨?_, _, x7, rfl, ?_, hx⟩
  · by_cases ha : p .cloneAug
    · by_cases hb : p (.fromInner (c.length - 1) c.length) <;> 
        simp [ha, hb, List.filter_append, List.filter_map]
    · by_cases hb : p (.fromInner (c.length - 1) c.length) <;>
        simp [ha, hb, List.filter_append, List.filter_map]
  · simp [Store.getInner, Store.addInner]

theorem buildLayerT_calls {p : Callback → Bool} (hp : p .cloneKey = false) {w : Wreck K V A}
    (cs : List (List (LayerNode K A)))
    {r : Store K V A × List (LayerNode K A)} (h : (buildLayerT w cs).result = .ok r) :
    (buildLayerT w cs).calls p = cs.flatMap (fun c => (c.map (fun _ => Callback.cloneAug) ++
        [Callback.fromInner (c.length - 1) c.length]).filter p) ∧ r.2.length = cs.length ∧
      (cs.length = 1 → ∃ x i n, r.2 = [x] ∧ x.1 = .inner i ∧ r.1.getInner i = .ok n ∧
        ∀ c ∈ cs, Callback.ofInner n = .fromInner (c.length - 1) c.length) := by
  induction cs generalizing w r with
  | nil => cases h; exact ⟨rfl, rfl, by simp⟩
  | cons c cs ih =>
    rw [buildLayerT] at h ⊢
    obtain ⟨a, ha, h⟩ := Traced.bind_result_ok h
    obtain ⟨b, hb, h⟩ := Traced.bind_result_ok h
    obtain ⟨g1, i, n, g2, g3, g4⟩ := buildInnerT_calls hp c ha
    obtain ⟨h1, h2, -⟩ := ih (w := { w with store := a.1, scratch := w.scratch ++ [a.2] }) hb
    rw [Traced.calls_bind ha, Traced.calls_bind hb, g1, h1]
    cases h
    refine ⟨by simp, by simp [h2], fun hl => ?_⟩
    have : cs = [] := by simpa using hl
    subst this
    cases hb
    exact ⟨a.2, i, n, rfl, g2, g3, by simpa using g4⟩

/-- The calls `p` for the levels above `m` nodes. -/
theorem buildInnerLayerT_calls {p : Callback → Bool} (hp : p .cloneKey = false) (fuel : Nat)
    {w : Wreck K V A} (ns : List (LayerNode K A)) {r : Store K V A × NodeId}
    (h : (buildInnerLayerT fuel w ns).result = .ok r) :
    ((∀ m, p (.fromInner m (m + 1)) = true) → p .cloneAug = false →
      (buildInnerLayerT fuel w ns).calls p = Spec.innerFolds ns.length) ∧
    ((∀ m, p (.fromInner m (m + 1)) = false) → p .cloneAug = true →
      ((buildInnerLayerT fuel w ns).calls p).length = Spec.belowRoot ns.length) ∧
    ((∀ m, p (.fromInner m (m + 1)) = false) → p .cloneAug = false →
      (buildInnerLayerT fuel w ns).calls p = []) ∧
    (2 ≤ ns.length → ∃ i n, r.2 = .inner i ∧ r.1.getInner i = .ok n ∧
      (Spec.innerFolds ns.length).getLast? = some (Callback.ofInner n)) ∧
    (∀ x, ns = [x] → r = (w.store, x.1)) := by
  induction fuel generalizing w ns with
  | zero => cases h
  | succ fuel ih =>
    rcases ns with _ | ⟨n, _ | ⟨m, ns⟩⟩
    · cases h
    · cases h
      refine ⟨fun _ _ => ?_, fun _ _ => ?_, fun _ _ => rfl, by simp, fun x hx => by cases hx; rfl⟩
      · rw [Spec.innerFolds]; rfl
      · rw [Spec.belowRoot]; rfl
    · rw [buildInnerLayerT] at h ⊢
      · obtain ⟨a, ha, h⟩ := Traced.bind_result_ok h
        rw [Traced.calls_bind ha]
        obtain ⟨h1, h2, h2'⟩ := buildLayerT_calls hp _ ha
        obtain ⟨h3, h4⟩ := chunks_lengths (n :: m :: ns).length (n :: m :: ns) (Nat.le_refl _)
        have h5 := chunks_sizes (n :: m :: ns).length (n :: m :: ns) (Nat.le_refl _)
        obtain ⟨i1, i2, i0, i3, i4⟩ := ih (w := { w with store := a.1, scratch := w.scratch ++ a.2 }) a.2 h
        have hinn : innerN + 1 = 65 := rfl
        rw [hinn] at h1 h2 h2'
        rw [h2, h4] at i1 i2 i3
        generalize hcs : chunks 65 (n :: m :: ns).length (n :: m :: ns) = cs at *
        have hge : 2 ≤ (n :: m :: ns).length := by simp
        generalize hN : (n :: m :: ns).length = N at *
        have hfold : Spec.innerFolds N = (Spec.groupSizes 65 N).map (fun c => .fromInner (c - 1) c) ++
            Spec.innerFolds ((N + 64) / 65) := by
          conv => lhs; rw [Spec.innerFolds]
          rw [if_neg (by omega)]
        have hbelow : Spec.belowRoot N = N + Spec.belowRoot ((N + 64) / 65) := by
          conv => lhs; rw [Spec.belowRoot]
          rw [if_neg (by omega)]
        have hposs : ∀ c ∈ cs, 0 < c.length := by
          intro c hc
          have : c.length ∈ Spec.groupSizes 65 N := by rw [← h5]; exact List.mem_map_of_mem hc
          unfold Spec.groupSizes at this
          rcases List.mem_append.1 this with h | h
          · rw [List.eq_of_mem_replicate h]; omega
          · split at h
            · simp at h
            · simp at h; omega
        refine ⟨fun q1 q2 => ?_, fun q1 q2 => ?_, fun q1 q2 => ?_, fun _ => ?_, fun x hx => by simp at hx⟩
        · rw [h1, i1 q1 q2, hfold, ← h5, List.map_map]
          congr 1
          rw [List.flatMap_eq_foldl, ← List.flatMap_eq_foldl]
          clear h3 h4 h5 h2 h2' ha h h1 hcs i1 i2 i0 i3 i4
          induction cs with
          | nil => rfl
          | cons c cs ih =>
            rw [List.flatMap_cons, ih (fun c hc => hposs c (List.mem_cons_of_mem _ hc)), List.map_cons]
            have := hposs c (by simp)
            have hq : p (.fromInner (c.length - 1) c.length) = true := by
              have := q1 (c.length - 1)
              rwa [Nat.sub_add_cancel (by omega)] at this
            rw [List.filter_append, List.filter_cons, hq]
            simp [List.filter_map, q2, Function.comp_def]
        · rw [List.length_append, i2 q1 q2, hbelow, h1]
          congr 1
          rw [← hN, ← h3]
          clear h3 h4 h5 h2 h2' ha h h1 hcs i1 i2 i0 i3 i4
          induction cs with
          | nil => rfl
          | cons c cs ih =>
            rw [List.flatMap_cons, List.length_append, ih (fun c hc => hposs c (List.mem_cons_of_mem _ hc))]
            have := hposs c (by simp)
            have hq : p (.fromInner (c.length - 1) c.length) = false := by
              have := q1 (c.length - 1)
              rwa [Nat.sub_add_cancel (by omega)] at this
            rw [List.filter_append, List.filter_cons, hq]
            simp [List.filter_map, q2, Function.comp_def]
        · rw [h1, i0 q1 q2, List.append_nil]
          refine List.flatMap_eq_nil_iff.2 fun c hc => ?_
          have := hposs c hc
          have hq : p (.fromInner (c.length - 1) c.length) = false := by
            have := q1 (c.length - 1)
            rwa [Nat.sub_add_cancel (by omega)] at this
          rw [List.filter_append, List.filter_cons, hq]
          simp [List.filter_map, q2, Function.comp_def]
        · rcases Nat.lt_or_ge 1 ((N + 64) / 65) with hl | hl
          · obtain ⟨i, n, e1, e2, e3⟩ := i3 hl
            refine ⟨i, n, e1, e2, ?_⟩
            rw [hfold, List.getLast?_append, e3]; rfl
          · have h1' : cs.length = 1 := by omega
            obtain ⟨x, i, n, e1, e2, e3, e4⟩ := h2' h1'
            rw [i4 x e1]
            refine ⟨i, n, e2, e3, ?_⟩
            have : Spec.innerFolds ((N + 64) / 65) = [] := by rw [Spec.innerFolds, if_pos hl]
            rw [hfold, this, List.append_nil, ← h5]
            obtain ⟨c, rfl⟩ := List.length_eq_one_iff.1 h1'
            rw [e4 c (by simp)]
            rfl
      all_goals intros; simp_all

/-! ## The whole load -/

theorem bulkLeavesT_count (eq : Nat → K → K → Bool) (data : List (K × V)) {s : Store K V A}
    {ns : List (LayerNode K A)} {n : Nat} {d : DeDup K V}
    (h : (bulkLeavesT eq (data.length + 1) (Store.empty : Store K V A) none []
      ⟨0, data, none, []⟩).result = .ok (s, ns, n, d)) : n = (dedupU eq 0 data).1.length := by
  have h' := bulkLeavesT_result (A := A) eq (data.length + 1) Store.empty none [] ⟨0, data, none, []⟩
  have ht : ((⟨0, data, none, []⟩ : DeDup K V).todo eq).1 = (dedupU eq 0 data).1 := by
    simp [DeDup.todo, DeDup.owned]
  rw [ht, h] at h'
  have := (dedupU_sublist eq 0 data).1.length_le
  obtain ⟨s', ns', ps, h1, -⟩ :=
    bulkLeaves_ok (A := A) (Nat.le_refl 1) (data.length + 1) (s := Store.empty)
      (data := (dedupU eq 0 data).1) (P := []) (by omega) trivial rfl
  have h1 : bulkLeaves (data.length + 1) (Store.empty : Store K V A) none (dedupU eq 0 data).1
    = .ok (s', ns', (dedupU eq 0 data).1.length) := h1
  rw [h1] at h'
  cases h'
  rfl

theorem bulkLoadT_folds (eq : Nat → K → K → Bool) (data : List (K × V)) {t : Tree K V A}
    (h : (Tree.bulkLoadT eq data).result = .ok t) :
    (Tree.bulkLoadT eq data : Traced (Wreck K V A) (Tree K V A)).calls Callback.folds =
      Spec.loadFolds (dedupU eq 0 data).1.length := by
  unfold Tree.bulkLoadT at h ⊢
  split at h
  · next he =>
    have : data = [] := by simpa using he
    subst this
    simp [dedupU, Spec.loadFolds, Spec.groupSizes, Spec.innerFolds]
  · next he =>
    rw [if_neg he]
    have ht : ((⟨0, data, none, []⟩ : DeDup K V).todo eq).1 = (dedupU eq 0 data).1 := by
      simp [DeDup.todo, DeDup.owned]
    have hne : data ≠ [] := by rintro rfl; simp at he
    have hpos : 0 < (dedupU eq 0 data).1.length := List.length_pos_iff.2 (dedupU_ne eq 0 hne)
    obtain ⟨⟨s, ns, n, d⟩, hr, h⟩ := Traced.bind_result_ok h
    rw [Traced.calls_bind hr, bulkLeavesT_folds _ _ _ _ _ _ hr, ht]
    obtain ⟨⟨s', root⟩, hr', h⟩ := Traced.bind_result_ok h
    dsimp only at hr' h ⊢
    obtain ⟨i1, -, -, i3, i4⟩ := buildInnerLayerT_calls (p := Callback.folds) rfl _ _ hr'
    have hn := bulkLeavesT_count eq data hr
    have hl := bulkLoadT_leaves hr
    rw [Traced.calls_bind hr', i1 (fun _ => rfl) rfl]
    dsimp only
    rw [hl] at i3 ⊢
    have key : (Tree.newFromPartsT ({ gone := d.gone, iter := d.owned, store := s', scratch := [] } :
        Wreck K V A) root n).calls Callback.folds =
        ((Spec.groupSizes 64 (dedupU eq 0 data).1.length).map Callback.fromLeaf ++
          Spec.innerFolds (((dedupU eq 0 data).1.length + 63) / 64)).getLast?.toList := by
      unfold Tree.newFromPartsT at h ⊢
      rw [if_pos (by omega)] at h ⊢
      obtain ⟨a, ha, h⟩ := Traced.bind_result_ok h
      rw [Traced.calls_bind ha, Traced.calls_pure, List.append_nil]
      rcases Nat.lt_or_ge 64 (dedupU eq 0 data).1.length with hlt | hge
      · obtain ⟨i, m, e1, e2, e3⟩ := i3 (by omega)
        dsimp only at e1 e2
        subst e1
        rw [newAugmentationT, Traced.calls_bind (a := m) e2, Traced.calls_lift, Traced.calls_call_bind,
          List.getLast?_append, e3]
        rfl
      · have h1 : ns.length = 1 := by omega
        obtain ⟨x, rfl⟩ := List.length_eq_one_iff.1 h1
        have e := i4 x rfl
        obtain ⟨i, l, e1, e2, e3, -, -⟩ := bulkLeavesT_single eq _ _ _ _ _ hr
        cases e
        rw [ht] at e3
        rw [e1, newAugmentationT, Traced.calls_bind (a := l) e2, Traced.calls_lift, Traced.calls_call_bind]
        have hz : Spec.innerFolds (((dedupU eq 0 data).1.length + 63) / 64) = [] := by
          rw [Spec.innerFolds, if_pos (by omega)]
        rw [hz, List.append_nil, groupSizes_step (by omega) hpos,
          Nat.sub_eq_zero_of_le hge, Nat.min_eq_right hge]
        simp [Spec.groupSizes, Callback.ofLeaf, Leaf.keys, e3, Callback.folds, Callback.isFromLeaf]
    rw [key, Spec.loadFolds, List.append_assoc]

theorem bulkLoadT_asks (eq : Nat → K → K → Bool) (data : List (K × V)) {t : Tree K V A}
    (h : (Tree.bulkLoadT eq data).result = .ok t) :
    ((Tree.bulkLoadT eq data : Traced (Wreck K V A) (Tree K V A)).calls Callback.isCompare).length =
      data.length - 1 ∧
    ((Tree.bulkLoadT eq data : Traced (Wreck K V A) (Tree K V A)).calls Callback.isCloneAug).length =
      Spec.belowRoot (((dedupU eq 0 data).1.length + 63) / 64) := by
  unfold Tree.bulkLoadT at h ⊢
  split at h
  · next he =>
    have : data = [] := by simpa using he
    subst this
    rw [Spec.belowRoot]
    simp [dedupU]
  · next he =>
    rw [if_neg he]
    obtain ⟨⟨s, ns, n, d⟩, hr, h⟩ := Traced.bind_result_ok h
    rw [Traced.calls_bind hr, Traced.calls_bind hr, bulkLeavesT_none (p := Callback.isCloneAug)
        rfl rfl (fun _ => rfl) _ _ _ _ _ _ hr,
      List.length_append, bulkLeavesT_asks _ _ _ _ _ _ hr]
    obtain ⟨⟨s', root⟩, hr', h⟩ := Traced.bind_result_ok h
    dsimp only at hr' h ⊢
    obtain ⟨-, i2, -⟩ := buildInnerLayerT_calls (p := Callback.isCloneAug) rfl _ _ hr'
    have i5 := (buildInnerLayerT_calls (p := Callback.isCompare) rfl _ _ hr').2.2.1 (fun _ => rfl) rfl
    have hl := bulkLoadT_leaves hr
    have fin : ∀ p : Callback → Bool, (∀ m, p (.fromLeaf m) = false) → (∀ m k, p (.fromInner m k) = false) →
        (Tree.newFromPartsT ({ gone := d.gone, iter := d.owned, store := s', scratch := [] } :
          Wreck K V A) root n).calls p = [] := by
      intro p h1 h2
      apply Traced.calls_nil
      unfold Tree.newFromPartsT
      refine Traced.all_bind ?_ fun _ _ => Traced.all_pure
      split
      · exact newAugmentationT_all (fun _ => h2 _ _) (fun _ => h1 _)
      · exact Traced.all_pure
    rw [Traced.calls_bind hr', Traced.calls_bind hr', i5]
    dsimp only
    rw [fin _ (fun _ => rfl) (fun _ _ => rfl), fin _ (fun _ => rfl) (fun _ _ => rfl), ← hl]
    refine ⟨by simp [DeDup.toAsk, DeDup.owned], ?_⟩
    simp [i2 (fun _ => rfl) rfl]

end

end Bpt
