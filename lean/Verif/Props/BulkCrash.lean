import Verif.CallbackSpec
import Verif.Proofs.BulkCalls
import Verif.Proofs.BulkTally
import Verif.Props.Loads

/-!
# C56: panics of user code inside `bulk_load`

`(c, w)` in the trace of `Tree.bulkLoadT` is a call `c` of user code, and `w` says who owns what at that
moment. A panic of that call runs `w.unwind`.
-/

namespace Bpt
variable {K V A : Type} [Augmentation K V A]

/-- C56: the traced program computes what `bulk_load` computes. -/
theorem C56_same_program (eq : Nat → K → K → Bool) (data : List (K × V)) :
    (Tree.bulkLoadT eq data : Traced (Wreck K V A) (Tree K V A)).result = Tree.bulkLoadU eq data :=
  bulkLoadT_result eq data

/-- C56: whatever the answers of `==`, and wherever user code panics in `bulk_load`, every item of the data
is in exactly one place: already destroyed, in the iterator, in the leaf being filled, or in a leaf of the
store. -/
theorem C56_one_owner (eq : Nat → K → K → Bool) (data : List (K × V)) {c : Callback} {w : Wreck K V A}
    (h : (c, w) ∈ (Tree.bulkLoadT eq data : Traced (Wreck K V A) (Tree K V A)).trace) :
    (w.gone ++ w.iter ++ w.leaf ++ w.store.items).Perm data :=
  (bulkLoadT_all eq data c w h).items

/-- C56: no item is dropped twice by a panic. When the unwinding is not undefined behaviour, the items
dropped before it, the items dropped by it and the items leaked are together the data. -/
theorem C56_no_double_drop (eq : Nat → K → K → Bool) (data : List (K × V)) {c : Callback}
    {w : Wreck K V A} {dropped : List (K × V)} {es : List (Event K A)}
    (h : (c, w) ∈ (Tree.bulkLoadT eq data : Traced (Wreck K V A) (Tree K V A)).trace)
    (hu : w.unwind = .ok (dropped, es)) :
    (w.gone ++ dropped ++ (w.leaf ++ w.store.items)).Perm data := by
  have hw := bulkLoadT_all eq data c w h
  rcases hw.unwind with ⟨es', h1⟩ | ⟨h1, -⟩
  · rw [h1] at hu
    cases hu
    simpa using hw.items
  · rw [h1] at hu
    cases hu

/-- A call of user code that gives the map a key of its own. -/
def Callback.makesKey : Callback → Bool
  | .cloneKey => true
  | _ => false

/-- A call of user code that gives the map an augmentation of its own. -/
def Callback.makesAug : Callback → Bool
  | .cloneAug | .fromLeaf _ | .fromInner _ _ => true
  | _ => false

/-- C56: the keys and augmentations that user code has made so far (`pre` are the calls that have returned)
when a panic unwinds out of `bulk_load`: no more are dropped than were made; and all of them are dropped,
unless the panic is in `A::clone` (then the keys and all but the first augmentation of the unfinished inner
node leak) or in the last call of the load (the vectors of cloned keys are gone by then). -/
theorem C56_clones (eq : Nat → K → K → Bool) (data : List (K × V)) {pre post : List (Callback × Wreck K V A)}
    {c : Callback} {w : Wreck K V A} {dropped : List (K × V)} {es : List (Event K A)}
    (h : (Tree.bulkLoadT eq data : Traced (Wreck K V A) (Tree K V A)).trace = pre ++ (c, w) :: post)
    (hu : w.unwind = .ok (dropped, es)) :
    (Event.droppedKeys es).length ≤ pre.countP (fun e => e.1.makesKey) ∧
    (Event.droppedAugs es).length ≤ pre.countP (fun e => e.1.makesAug) ∧
    (c ≠ .cloneAug → post ≠ [] →
      (Event.droppedKeys es).length = pre.countP (fun e => e.1.makesKey) ∧
      (Event.droppedAugs es).length = pre.countP (fun e => e.1.makesAug)) := by
  have hs := (bulkLoadT_all eq data c w (by rw [h]; simp)).shape
  have hk : pre.countP (fun e => e.1.makesKey) = tally 1 0 pre := by
    clear h
    induction pre with
    | nil => rfl
    | cons e pre ih =>
      obtain ⟨c, w⟩ := e
      rw [List.countP_cons, ih]
      cases c <;> simp [tally, Callback.makesKey, Callback.makes] <;> omega
  have ha : pre.countP (fun e => e.1.makesAug) = tally 0 1 pre := by
    clear h hk
    induction pre with
    | nil => rfl
    | cons e pre ih =>
      obtain ⟨c, w⟩ := e
      rw [List.countP_cons, ih]
      cases c <;> simp [tally, Callback.makesAug, Callback.makes] <;> omega
  have k1 := bulkLoadT_tally (wk := 1) (wa := 0) eq data _ _ _ _ h
  have k2 := unwind_drops (wk := 1) (wa := 0) hs hu
  have a1 := bulkLoadT_tally (wk := 0) (wa := 1) eq data _ _ _ _ h
  have a2 := unwind_drops (wk := 0) (wa := 1) hs hu
  rw [hk, ha]
  refine ⟨by omega, by omega, fun h1 h2 => ?_⟩
  have := k1.2 h2
  have := a1.2 h2
  have := k2.2 h1
  have := a2.2 h1
  omega

/-- C56, part: a panic of `==`, `from_leaf` or `from_inner` inside `bulk_load` unwinds without undefined
behaviour. The full property says so of every call of user code; it is false of `K::clone` and `A::clone`,
see `C56_refuted_unwinding`. -/
theorem C56_unwinding_partial (eq : Nat → K → K → Bool) (data : List (K × V)) {c : Callback}
    {w : Wreck K V A} (h : (c, w) ∈ (Tree.bulkLoadT eq data : Traced (Wreck K V A) (Tree K V A)).trace)
    (hc : c ≠ .cloneKey ∧ c ≠ .cloneAug) : ∃ dropped, w.unwind = .ok dropped := by
  rcases (bulkLoadT_all eq data c w h).unwind with ⟨es, h1⟩ | ⟨-, h1⟩
  · exact ⟨_, h1⟩
  · rcases h1 with h1 | h1
    · exact absurd h1 hc.1
    · exact absurd h1 hc.2

/-- C56: the unwinding itself never panics (so it never aborts the program). -/
theorem C56_no_panic_in_unwinding (eq : Nat → K → K → Bool) (data : List (K × V)) {c : Callback}
    {w : Wreck K V A} (h : (c, w) ∈ (Tree.bulkLoadT eq data : Traced (Wreck K V A) (Tree K V A)).trace) :
    w.unwind ≠ .error .panic := by
  rcases (bulkLoadT_all eq data c w h).unwind with ⟨es, h1⟩ | ⟨h1, -⟩ <;> rw [h1] <;> simp

/-- C56: the number of calls of user code in one `bulk_load` whose panic is undefined behaviour is the
number of nodes below the root of the tree it would have made. -/
theorem C56_bad_calls (eq : Nat → K → K → Bool) (data : List (K × V)) (hl : data.length < 2 ^ 64) :
    ((Tree.bulkLoadT eq data : Traced (Wreck K V A) (Tree K V A)).trace.countP
      (fun e => match e.2.unwind with | .error .ub => true | _ => false)) =
      Spec.belowRoot (((Spec.survivors eq data).length + 63) / 64) := by
  obtain ⟨t, h, -⟩ := bulkLoadU_ok (A := A) (Nat.zero_le 1) eq data hl (.inl rfl)
  have := bulkLoadT_count eq data (t := t) (by rw [bulkLoadT_result]; exact h)
  rw [dedupU_eq] at this
  exact this

/-- C56: `Spec.belowRoot` does count the nodes of the result. -/
theorem C56_bad_calls_nodes (eq : Nat → K → K → Bool) {data : List (K × V)} (hne : data ≠ [])
    {t : Tree K V A} (h : Tree.bulkLoadU eq data = .ok t) :
    t.store.leaves.length + t.store.inners.length =
      Spec.belowRoot (((Spec.survivors eq data).length + 63) / 64) + 1 := by
  have := bulkLoadU_nodes hne h
  rw [dedupU_eq] at this
  exact this

/-- C56: a load that keeps at most 64 items is safe whichever call panics. -/
theorem C56_unwinding_small (eq : Nat → K → K → Bool) (data : List (K × V)) (hl : data.length < 2 ^ 64)
    (hs : (Spec.survivors eq data).length ≤ 64) {c : Callback} {w : Wreck K V A}
    (h : (c, w) ∈ (Tree.bulkLoadT eq data : Traced (Wreck K V A) (Tree K V A)).trace) :
    ∃ dropped, w.unwind = .ok dropped := by
  have hz := C56_bad_calls (A := A) eq data hl
  rw [Spec.belowRoot, if_pos (by omega), List.countP_eq_zero] at hz
  have := hz _ h
  rcases (bulkLoadT_all eq data c w h).unwind with ⟨es, h1⟩ | ⟨h1, -⟩
  · exact ⟨_, h1⟩
  · simp [h1] at this

/-- C56, refuted: in every `bulk_load` that keeps more than 64 items there is a call of `K::clone`, and a
call of `A::clone`, whose panic is undefined behaviour: the unfinished inner node is dropped, and `Drop for
InnerNode` drops an augmentation that was never written. -/
theorem C56_refuted_unwinding (eq : Nat → K → K → Bool) (data : List (K × V)) (hl : data.length < 2 ^ 64)
    (hs : 64 < (Spec.survivors eq data).length) (c : Callback) (hc : c = .cloneKey ∨ c = .cloneAug) :
    ∃ w, (c, w) ∈ (Tree.bulkLoadT eq data : Traced (Wreck K V A) (Tree K V A)).trace ∧
      w.unwind = .error .ub := by
  obtain ⟨t, h, -⟩ := bulkLoadU_ok (A := A) (Nat.zero_le 1) eq data hl (.inl rfl)
  obtain ⟨h1, h2⟩ := bulkLoadT_mem eq data (t := t) (by rw [bulkLoadT_result]; exact h)
    (by rw [dedupU_eq]; exact hs)
  rcases hc with rfl | rfl
  · exact h1
  · exact h2

/-- C56: the number of comparisons and of clones of augmentations in one `bulk_load`. -/
theorem C56_calls (eq : Nat → K → K → Bool) (data : List (K × V)) (hl : data.length < 2 ^ 64) :
    ((Tree.bulkLoadT eq data : Traced (Wreck K V A) (Tree K V A)).trace.countP
      (fun e => e.1 = .compare)) = data.length - 1 ∧
    ((Tree.bulkLoadT eq data : Traced (Wreck K V A) (Tree K V A)).trace.countP
      (fun e => e.1 = .cloneAug)) = Spec.belowRoot (((Spec.survivors eq data).length + 63) / 64) := by
  obtain ⟨t, h, -⟩ := bulkLoadU_ok (A := A) (Nat.zero_le 1) eq data hl (.inl rfl)
  have := bulkLoadT_asks eq data (t := t) (by rw [bulkLoadT_result]; exact h)
  rw [dedupU_eq] at this
  refine ⟨?_, ?_⟩
  · rw [← this.1, Traced.calls, ← List.countP_eq_length_filter, List.countP_map]
    refine List.countP_congr ?_
    rintro ⟨c, w⟩ -
    cases c <;> simp [Callback.isCompare]
  · rw [← this.2, Traced.calls, ← List.countP_eq_length_filter, List.countP_map]
    refine List.countP_congr ?_
    rintro ⟨c, w⟩ -
    cases c <;> simp [Callback.isCloneAug]

/-- **C53**, for loads: which slices `from_leaf` and `from_inner` are given in one `bulk_load`, in order. The
nodes are filled from the left with 64 items or 65 children, level by level, and the root is folded twice. -/
theorem C53_load (eq : Nat → K → K → Bool) (data : List (K × V)) (hl : data.length < 2 ^ 64) :
    ((Tree.bulkLoadT eq data : Traced (Wreck K V A) (Tree K V A)).trace.map (·.1)).filter
      (fun c => c.isFromLeaf || c.isFromInner) = Spec.loadFolds (Spec.survivors eq data).length := by
  obtain ⟨t, h, -⟩ := bulkLoadU_ok (A := A) (Nat.zero_le 1) eq data hl (.inl rfl)
  have := bulkLoadT_folds eq data (t := t) (by rw [bulkLoadT_result]; exact h)
  rw [dedupU_eq] at this
  exact this

/-- The calls of a load have slices of the sizes promised in C53, except that `from_inner` may be given no
key and one augmentation. -/
theorem C53_load_arguments (eq : Nat → K → K → Bool) (data : List (K × V)) (hl : data.length < 2 ^ 64)
    {c : Callback} {w : Wreck K V A}
    (h : (c, w) ∈ (Tree.bulkLoadT eq data : Traced (Wreck K V A) (Tree K V A)).trace) :
    c.ArgsOk ∨ c = .fromInner 0 1 := by
  have sizes : ∀ k n x, 0 < k → x ∈ Spec.groupSizes k n → 1 ≤ x ∧ x ≤ k := by
    intro k n x hk hx
    unfold Spec.groupSizes at hx
    rcases List.mem_append.1 hx with hx | hx
    · rw [List.eq_of_mem_replicate hx]; omega
    · split at hx
      · simp at hx
      · have := Nat.mod_lt n hk
        simp at hx; omega
  have inner : ∀ m, ∀ c ∈ Spec.innerFolds m, c.ArgsOk ∨ c = .fromInner 0 1 := by
    intro m
    induction m using Nat.strongRecOn with
    | _ m ih =>
      intro c hc
      rw [Spec.innerFolds] at hc
      split at hc
      · simp at hc
      · rcases List.mem_append.1 hc with hc | hc
        · obtain ⟨x, hx, rfl⟩ := List.mem_map.1 hc
          have := sizes 65 m x (by omega) hx
          by_cases h1 : x = 1
          · subst h1; exact .inr rfl
          · left
            simp only [Callback.ArgsOk]
            omega
        · exact ih _ (by omega) c hc
  have made : ∀ c ∈ (Spec.groupSizes 64 (Spec.survivors eq data).length).map Callback.fromLeaf ++
      Spec.innerFolds (((Spec.survivors eq data).length + 63) / 64), c.ArgsOk ∨ c = .fromInner 0 1 := by
    intro c hc
    rcases List.mem_append.1 hc with hc | hc
    · obtain ⟨x, hx, rfl⟩ := List.mem_map.1 hc
      exact .inl (sizes 64 _ x (by omega) hx)
    · exact inner _ c hc
  have hf := C53_load (A := A) eq data hl
  have hm : (c.isFromLeaf || c.isFromInner) = true → c ∈ Spec.loadFolds (Spec.survivors eq data).length := by
    intro hc
    rw [← hf]
    exact List.mem_filter.2 ⟨List.mem_map.2 ⟨_, h, rfl⟩, hc⟩
  cases c with
  | compare => exact .inl trivial
  | cloneKey => exact .inl trivial
  | cloneAug => exact .inl trivial
  | dropKey => exact .inl trivial
  | dropAug => exact .inl trivial
  | query _ _ => exact .inl trivial
  | fromLeaf n =>
    have := hm rfl
    rw [Spec.loadFolds] at this
    rcases List.mem_append.1 this with h | h
    · exact made _ h
    · exact made _ (List.mem_of_mem_getLast? (Option.mem_toList.1 h))
  | fromInner n m =>
    have := hm rfl
    rw [Spec.loadFolds] at this
    rcases List.mem_append.1 this with h | h
    · exact made _ h
    · exact made _ (List.mem_of_mem_getLast? (Option.mem_toList.1 h))

/-! ## Instances -/

-- 70 items; 4161 items make 66 leaves, the last of which gets a parent of its own: no key, one augmentation
example : Spec.loadFolds 70 = [.fromLeaf 64, .fromLeaf 6, .fromInner 1 2, .fromInner 1 2] ∧
    Spec.loadFolds 4161 = List.replicate 65 (.fromLeaf 64) ++
      [.fromLeaf 1, .fromInner 64 65, .fromInner 0 1, .fromInner 1 2, .fromInner 1 2] := by
  refine ⟨?_, ?_⟩ <;> simp [Spec.loadFolds, Spec.groupSizes, Spec.innerFolds] <;> rfl

/-- 70 items in order. -/
def demoLoad : List (Nat × Nat) := (List.range 70).map (fun i => (i, i * i))

/-- `==` as it should be. -/
def lawfulEq : Nat → Nat → Nat → Bool := fun _ a b => a == b

-- a load of 70 items calls user code 69 times `==`, and 2 + 1 + 1 + ... times the rest; two of the calls
-- are bad: the tree has two leaves below its root
example : Spec.belowRoot 2 = 2 ∧ Spec.belowRoot 66 = 68 := by
  refine ⟨?_, ?_⟩ <;> · simp [Spec.belowRoot]

example : ((Tree.bulkLoadT lawfulEq demoLoad : Traced (Wreck Nat Nat Count) _).trace.map
    (fun e => match e.2.unwind with | .error .ub => 1 | _ => 0)).sum = 2 := by decide +kernel

example : 64 < (Spec.survivors lawfulEq demoLoad).length ∧ demoLoad.length < 2 ^ 64 := by decide +kernel

-- the last calls of the load of 70 items: what unwinding drops of the keys and augmentations made so far
-- (the two calls in the middle are the bad ones; the last three are `A::clone`, where the third key leaks,
-- `from_inner` for the root node under construction, and `from_inner` for the root of the tree)
example : ((Tree.bulkLoadT lawfulEq demoLoad : Traced (Wreck Nat Nat Count) _).trace.map
    (fun e => match e.2.unwind with
      | .ok (_, es) => some ((Event.droppedKeys es).length, (Event.droppedAugs es).length)
      | .error _ => none)).drop 70 =
    [some (0, 1), some (1, 1), some (1, 2), none, none, some (2, 3), some (3, 4), some (1, 2)] := by
  decide +kernel

-- 3 items with equal keys in front of 2 others: one survivor of the three
example : Spec.survivors lawfulEq [(1, 10), (1, 11), (1, 12), (2, 20), (3, 30)] = [(1, 12), (2, 20), (3, 30)] ∧
    (Tree.bulkLoadT lawfulEq [(1, 10), (1, 11), (1, 12), (2, 20), (3, 30)] :
      Traced (Wreck Nat Nat Count) _).trace.length = 6 := by decide +kernel

-- in the third comparison two items are gone
example : ((Tree.bulkLoadT lawfulEq [(1, 10), (1, 11), (1, 12), (2, 20), (3, 30)] :
      Traced (Wreck Nat Nat Count) _).trace[2]?.map (fun e => (e.2.gone, e.2.iter, e.2.leaf))) =
    some ([(1, 10), (1, 11)], [(1, 12), (2, 20), (3, 30)], []) := by decide +kernel

-- the hypotheses, on the load of 70 items
private theorem demoLoad_lt : demoLoad.length < 2 ^ 64 := by decide +kernel

example := C56_same_program (A := Count) lawfulEq demoLoad
example {c w} (h : (c, w) ∈ (Tree.bulkLoadT lawfulEq demoLoad : Traced (Wreck Nat Nat Count) _).trace) :=
  And.intro (C56_one_owner lawfulEq demoLoad h) (C56_no_panic_in_unwinding lawfulEq demoLoad h)
example {c w dropped es}
    (h : (c, w) ∈ (Tree.bulkLoadT lawfulEq demoLoad : Traced (Wreck Nat Nat Count) _).trace)
    (hu : w.unwind = .ok (dropped, es)) := C56_no_double_drop lawfulEq demoLoad h hu
example {pre post c w dropped es}
    (h : (Tree.bulkLoadT lawfulEq demoLoad : Traced (Wreck Nat Nat Count) _).trace = pre ++ (c, w) :: post)
    (hu : w.unwind = .ok (dropped, es)) := C56_clones lawfulEq demoLoad h hu
example {w} (h : (Callback.fromInner 1 2, w) ∈
    (Tree.bulkLoadT lawfulEq demoLoad : Traced (Wreck Nat Nat Count) _).trace) :=
  C56_unwinding_partial lawfulEq demoLoad h (by decide)
example := C56_bad_calls (A := Count) lawfulEq demoLoad demoLoad_lt
example {t : Tree Nat Nat Count} (h : Tree.bulkLoadU lawfulEq demoLoad = .ok t) :=
  C56_bad_calls_nodes lawfulEq (by decide) h
example {c w} (h : (c, w) ∈ (Tree.bulkLoadT lawfulEq (demoLoad.take 64) :
    Traced (Wreck Nat Nat Count) _).trace) :=
  C56_unwinding_small lawfulEq (demoLoad.take 64) (by decide +kernel) (by decide +kernel) h
example := C56_calls (A := Count) lawfulEq demoLoad demoLoad_lt
example := C53_load (A := Count) lawfulEq demoLoad demoLoad_lt
example {c w} (h : (c, w) ∈ (Tree.bulkLoadT lawfulEq demoLoad : Traced (Wreck Nat Nat Count) _).trace) :=
  C53_load_arguments lawfulEq demoLoad demoLoad_lt h

end Bpt
