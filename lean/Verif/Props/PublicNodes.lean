import Verif.Proofs.PublicNodes

/-!
# C60: the exported node types and the node store

`LeafNode`, `InnerNode` and `NodeStoreVec` can be used by any program. One expects their safe methods to answer or to
panic, whatever they are given. They do not: some calls are undefined behaviour. The exact theorems say what every
sequence of calls does; the partial theorems say what a caller has to observe.
-/

namespace Bpt
variable {K V A : Type}

/-- A leaf, from `new()`: any sequence of safe calls with any arguments does exactly what the specification says, be it
answers, a panic or undefined behaviour. -/
theorem C60_leaf_exact (o : Compare K) (cs : List (LeafCall K V)) :
    ((LeafS.new : LeafS K V).publicRun o cs).map (·.1) = Spec.Leaf.run o {} cs :=
  LeafIs.new.run o cs

/-- A caller who fills a leaf once, stays below its length and asks no range of an empty leaf always gets answers. -/
theorem C60_leaf_partial (o : Compare K) (cs : List (LeafCall K V)) (h : Spec.LeafCarefulRun 0 cs) :
    ∃ r, (LeafS.new : LeafS K V).publicRun o cs = .ok r := by
  obtain ⟨as, e⟩ := leaf_careful o cs {} rfl h
  rw [← C60_leaf_exact] at e
  cases hx : (LeafS.new : LeafS K V).publicRun o cs with
  | ok r => exact ⟨r, rfl⟩
  | error x => rw [hx] at e; cases e

/-- False without these conditions, whatever the types, the comparisons and the items: reading past the items,
filling twice, or asking the range of an empty leaf that has a left neighbour is undefined behaviour. -/
theorem C60_leaf_refuted (o : Compare K) :
    (∀ i, (LeafS.new : LeafS K V).publicRun o [.dataAt i] = .error .ub) ∧
      (∀ i f, (LeafS.new : LeafS K V).publicRun o [.valueAtMut i f] = .error .ub) ∧
      (∀ e, (LeafS.new : LeafS K V).publicRun o [.setData [e], .setData [e], .keys] = .error .ub) ∧
      (∀ e, (LeafS.new : LeafS K V).publicRun o [.setData [e], .setData [e], .tryDataAt 1] = .error .ub) ∧
      ∀ id k, (LeafS.new : LeafS K V).publicRun o [.setPrev (some id), .inRange k] = .error .ub := by
  have key : ∀ cs, Spec.Leaf.run o ({} : Spec.Leaf K V) cs = .error .ub →
      (LeafS.new : LeafS K V).publicRun o cs = .error .ub := by
    intro cs e
    rw [← C60_leaf_exact] at e
    cases hx : (LeafS.new : LeafS K V).publicRun o cs with
    | ok r => rw [hx] at e; cases e
    | error x => rw [hx] at e; cases e; rfl
  refine ⟨fun i => key _ rfl, fun i f => key _ rfl, fun e => key _ rfl, fun e => key _ rfl, fun id k => key _ ?_⟩
  simp [Spec.Leaf.run, Spec.Leaf.call, Except.map]

/-- An inner node, from `new_from_iter`, through any sequence of safe calls with any arguments, to its destruction. -/
theorem C60_inner_exact (o : Compare K) (keys : List K) (childs : List NodeId) (augs : List A)
    (cs : List (InnerCall K A)) :
    (InnerS.newFromIterPublic keys childs augs >>= fun n => n.publicRun o cs) =
      Spec.newInner keys childs augs >>= fun p => p.run o cs := by
  rcases newFromIter_is keys childs augs with ⟨n, p, h1, h2, h⟩ | ⟨e, h1, h2⟩
  · rw [h1, h2]; exact h.run o cs
  · rw [h1, h2]; rfl

/-- A caller who gives one child and one augmentation more than keys, at most 64 keys, and pushes no further than that,
always gets answers, and every key and every augmentation given is destroyed exactly once. -/
theorem C60_inner_partial (o : Compare K) (keys : List K) (childs : List NodeId) (augs : List A)
    (cs : List (InnerCall K A)) (hk : keys.length ≤ 64) (hc : childs.length = keys.length + 1)
    (ha : augs.length = keys.length + 1) (h : Spec.InnerCarefulRun keys.length cs) :
    ∃ as, (InnerS.newFromIterPublic keys childs augs >>= fun n => n.publicRun o cs) =
      .ok (as, keys ++ (Spec.pushed cs).1, augs ++ (Spec.pushed cs).2) := by
  rw [C60_inner_exact]
  have e : Spec.newInner keys childs augs = .ok ⟨keys, childs, augs⟩ := by
    unfold Spec.newInner
    rw [if_neg (by omega), if_neg (by omega), if_pos hc.symm]
  rw [e]
  exact inner_careful o cs ⟨keys, childs, augs⟩ hc ha h

/-- False without these conditions: too few augmentations, too many keys, lengths that do not fit, or one push too many
is undefined behaviour. -/
theorem C60_inner_refuted (o : Compare K) (keys : List K) (childs : List NodeId) (augs : List A) :
    (keys.length ≤ 64 → childs.length = keys.length + 1 → augs.length ≤ keys.length →
        (InnerS.newFromIterPublic keys childs augs >>= fun n => n.publicRun o []) = .error .ub) ∧
      (64 < keys.length → ∀ cs, (InnerS.newFromIterPublic keys childs augs >>= fun n => n.publicRun o cs) = .error .ub) ∧
      (childs.length ≠ keys.length + 1 → ∀ cs,
        (InnerS.newFromIterPublic keys childs ([] : List A) >>= fun n => n.publicRun o cs) = .error .ub) ∧
      (keys.length = 64 → childs.length = 65 → augs.length = 65 → ∀ k c a,
        (InnerS.newFromIterPublic keys childs augs >>= fun n => n.publicRun o [.push k c a]) = .error .ub) := by
  refine ⟨?_, ?_, ?_, ?_⟩
  · intro hk hc ha
    rw [C60_inner_exact]
    unfold Spec.newInner
    rw [if_neg (by omega), if_neg (by omega), if_pos hc.symm]
    show Spec.Inner.run o _ [] = _
    unfold Spec.Inner.run
    dsimp only
    rw [if_neg (by omega)]
  · intro hk cs
    rw [C60_inner_exact]
    unfold Spec.newInner
    rw [if_pos (.inl hk)]
    rfl
  · intro hk cs
    rw [C60_inner_exact]
    unfold Spec.newInner
    split
    · rfl
    · rw [if_neg (by simp), if_neg (fun h => hk h.symm), if_pos rfl]
      rfl
  · intro hk hc ha k c a
    rw [C60_inner_exact]
    unfold Spec.newInner
    rw [if_neg (by omega), if_neg (by omega), if_pos (by omega)]
    show Spec.Inner.run o _ [_] = _
    dsimp only [Spec.Inner.run, Spec.Inner.call]
    rw [if_neg (by omega)]

/-- The node store, from empty: any sequence of safe calls with any ids and nodes. -/
theorem C60_store_exact (o : Compare K) (cs : List (StoreCall K V A)) :
    ((⟨[], [], none⟩ : Raw.Store K V A).publicRun o cs).map (·.1) = Spec.Nodes.run o {} cs :=
  StoreIs.run ⟨fun _ => rfl, rfl, fun _ => rfl, rfl, rfl⟩ o cs

/-- Every method but `get_inner`, `get_leaf`, `get_mut_*` and `try_cache` answers or panics, whatever it is given. -/
theorem C60_store_partial (o : Compare K) (cs : List (StoreCall K V A)) (h : ∀ c ∈ cs, Spec.StoreChecked c) :
    (⟨[], [], none⟩ : Raw.Store K V A).publicRun o cs ≠ .error .ub := by
  intro e
  refine store_checked o cs {} h ?_
  rw [← C60_store_exact, e]
  rfl

/-- `get_inner` and `get_leaf` are documented to panic for an id that is not there; they are undefined behaviour instead,
for every id, on an empty store, for a reserved leaf and for a leaf that was taken. `try_cache` is undefined behaviour
when the remembered leaf is empty and has a left neighbour. -/
theorem C60_store_refuted (o : Compare K) :
    (∀ id, (⟨[], [], none⟩ : Raw.Store K V A).publicRun o [.getInner id] = .error .ub) ∧
      (∀ id, (⟨[], [], none⟩ : Raw.Store K V A).publicRun o [.getLeaf id] = .error .ub) ∧
      (⟨[], [], none⟩ : Raw.Store K V A).publicRun o [.reserveLeaf, .getLeaf 0] = .error .ub ∧
      (⟨[], [], none⟩ : Raw.Store K V A).publicRun o [.newEmptyLeaf, .takeLeaf 0, .getLeaf 0] = .error .ub ∧
      ∀ id k, (⟨[], [], none⟩ : Raw.Store K V A).publicRun o
        [.newEmptyLeaf, .getMutLeaf 0 (.setPrev (some id)), .cacheLeaf 0, .tryCache k] = .error .ub :=
  ⟨fun _ => rfl, fun _ => rfl, rfl, rfl, fun _ _ => rfl⟩

/-! ### Instances -/

/-- Numbers, found by their first position in the slice. -/
def byPosition : Compare Nat where
  lt a b := decide (a < b)
  gt a b := decide (b < a)
  find l k := match l.findIdx? (· == k) with
    | some i => .found i
    | none => .vacant l.length
  found := by
    intro l k i h
    split at h
    · cases h
      rename_i e
      rw [List.findIdx?_eq_some_iff_getElem] at e
      exact e.1
    · cases h
  vacant := by
    intro l k i h
    split at h
    · cases h
    · cases h; exact Nat.le_refl _

/-- A careful caller of a leaf: filled once with three items, then read and changed. -/
example : Spec.LeafCarefulRun (K := Nat) (V := Nat) 0
    [.len, .setData [(1, 10), (2, 20), (3, 30)], .setPrev (some 7), .setNext (some 8), .dataAt 2, .valueAtMut 1 (· + 1),
      .inRange 2, .keyRange, .locateSlotWithValue 2, .clone, .values] := by
  simp [Spec.LeafCarefulRun, Spec.LeafCareful, Spec.leafLenAfter]

/-- …and what they get. -/
example : ((LeafS.new : LeafS Nat Nat).publicRun byPosition
    [.setData [(1, 10), (2, 20), (3, 30)], .setPrev (some 7), .setNext (some 8), .dataAt 2, .valueAtMut 1 (· + 1),
      .inRange 4, .keyRange, .locateSlotWithValue 2, .clone, .values]).map (·.1) =
    .ok [.done, .done, .done, .item (3, 30), .value 20, .flag false, .range (some 1, some 3), .slotValue (1, some 21),
      .done, .values [10, 21, 30]] := by
  rw [C60_leaf_exact]
  rfl

/-- A careful caller of an inner node. -/
example : Spec.InnerCarefulRun (K := Nat) (A := Nat) 2
    [.key 1, .push 30 (.leaf 3) 4, .key 2, .locateChild 30, .clone, .isFull] := by
  simp [Spec.InnerCarefulRun, Spec.InnerCareful, Spec.innerLenAfter]

example : (InnerS.newFromIterPublic [10, 20] [.leaf 0, .leaf 1, .leaf 2] [1, 2, 3] >>= fun n =>
    n.publicRun byPosition [.key 1, .push 30 (.leaf 3) 4, .key 2, .locateChild 30, .clone, .isFull]) =
    .ok ([.key 20, .done, .key 30, .child (3, .leaf 3), .done, .flag false], [10, 20, 30], [1, 2, 3, 4]) := by
  rw [C60_inner_exact]
  rfl

/-- Calls of the store that are all checked; the last one panics. -/
example : ∀ c ∈ [StoreCall.newEmptyLeaf, .takeLeaf 0, .assignLeaf 0 (LeafS.new : LeafS Nat Nat), .cacheLeaf 0,
    .tryGetLeaf 5, (.takeInner 3 : StoreCall Nat Nat Nat)], Spec.StoreChecked c := by
  simp [Spec.StoreChecked]

example : (⟨[], [], none⟩ : Raw.Store Nat Nat Nat).publicRun byPosition [.newEmptyLeaf, .takeLeaf 0, .takeLeaf 0] = .error .panic := rfl

end Bpt
