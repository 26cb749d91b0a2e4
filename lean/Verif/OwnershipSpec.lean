import Verif.Model.Ledger

/-!
# Vocabulary for ownership

The books of a whole life of a map: what it was given, what it handed back, what it destroyed.
-/

namespace Bpt
variable {K V A : Type}

/-! ## Values -/

/-- The value a call gives to the map. A change through `get_mut` counts as taking the old value and
giving the new one. -/
def UCall.gives : UCall K V → Answer K V → List V
  | .insert _ v, _ => [v]
  | .getMut f, .value (some v) => [f v]
  | _, _ => []

/-- The value the caller owns after the call: the one replaced, removed, or overwritten in place. -/
def UCall.takes : UCall K V → Answer K V → List V
  | .insert _ _, .value (some v) => [v]
  | .remove, .value (some v) => [v]
  | .getMut _, .value (some v) => [v]
  | _, _ => []

/-- The values of a life: given to the map, handed back to the caller, destroyed by the map. -/
structure Ledger (V : Type) where
  given : List V
  back : List V
  destroyed : List V
deriving DecidableEq

/-- How a life ends: the map is dropped, or consumed by `into_iter()` of which the calls `ds` are made
before it is dropped. -/
inductive Ending where
  | drop
  | intoIter (ds : List Dir)

/-- The items a call destroys: `clear` replaces the map by a new one and drops the old one
(`src/tree/mod.rs:663-666`). -/
def Tree.destroys (t : Tree K V A) : UCall K V → Res (List (K × V))
  | .clear => t.drop
  | _ => return []

/-- A map lives through the calls and then ends. -/
def Tree.life [Augmentation K V A] (t : Tree K V A) :
    List (Answers K × UCall K V) → Ending → Res (Ledger V)
  | [], .drop => do
    let l ← t.drop
    return ⟨[], [], l.map (·.2)⟩
  | [], .intoIter ds => do
    let it ← t.intoIter
    let (xs, it) ← it.runCalls ds
    let l ← it.drop
    return ⟨[], (xs.filterMap (·.1)).map (·.2), l.map (·.2)⟩
  | (o, c) :: cs, e => do
    let gone ← t.destroys c
    let (a, t) ← t.ucall o c
    let s ← Tree.life t cs e
    return ⟨c.gives a ++ s.given, c.takes a ++ s.back, gone.map (·.2) ++ s.destroyed⟩

/-! ## Keys and augmentations -/

/-- The keys a call gives to the map. -/
def UCall.givesKeys : UCall K V → List K
  | .insert k _ => [k]
  | _ => []

/-- How many inner nodes the tree has merged, as `statistic()` counts them
(`merge_with_left_inner + merge_with_right_inner`). -/
def Tree.innerMerges (t : Tree K V A) : Nat := t.st.mergeWithLeftInner + t.st.mergeWithRightInner

/-- The merges of the tree a call replaces by a new one. -/
def UCall.closes (t : Tree K V A) : UCall K V → Nat
  | .clear => t.innerMerges
  | _ => 0

/-- The books of a life apart from its events: the keys given to the map and handed back by it, the
augmentations never dropped, and the merges of inner nodes. -/
structure Books (K A : Type) where
  given : List K
  back : List K
  leaked : List A
  merges : Nat
deriving DecidableEq

/-- A map lives through the calls and then ends. `into_iter` takes the store out of the map and forgets
the rest (`into_parts`, `src/tree/mod.rs:200-207`), the root augmentation with it. -/
def Tree.lifeL [Augmentation K V A] (t : Tree K V A) :
    List (Answers K × UCall K V) → Ending → Logged K A (Books K A)
  | [], .drop => do
    t.dropL
    return ⟨[], [], [], t.innerMerges⟩
  | [], .intoIter ds => do
    let it ← t.intoIter
    let (xs, it) ← (it.runCalls ds : Res _)
    let l ← it.drop
    Logged.emit (l.map (fun e => .dropKey e.1) ++ t.store.dropEvents)
    return ⟨[], (xs.filterMap (·.1)).map (·.1), [t.rootAug], t.innerMerges⟩
  | (o, c) :: cs, e => do
    let (_, t') ← t.ucallL o c
    let b ← Tree.lifeL t' cs e
    return ⟨c.givesKeys ++ b.given, b.back, b.leaked, c.closes t + b.merges⟩

/-- How many augmentations an ending forgets: `into_iter` forgets the root augmentation. -/
def Ending.forgets : Ending → Nat
  | .drop => 0
  | .intoIter _ => 1

variable (V) in
/-- The whole life of a map: `new` takes `Augmentation::default()` (`src/tree/mod.rs:100-110`). -/
def wholeLife [Augmentation K V A] (cs : List (Answers K × UCall K V)) (e : Ending) :
    Logged K A (Books K A) := do
  Logged.emit [.makeAug (Augmentation.dflt K V)]
  (Tree.new : Tree K V A).lifeL cs e

namespace Event

/-- The keys cloned. -/
def cloned (es : List (Event K A)) : List K :=
  es.filterMap (fun e => match e with | .cloneKey k => some k | _ => none)

/-- The keys dropped. -/
def droppedKeys (es : List (Event K A)) : List K :=
  es.filterMap (fun e => match e with | .dropKey k => some k | _ => none)

/-- The augmentations made. -/
def made (es : List (Event K A)) : List A :=
  es.filterMap (fun e => match e with | .makeAug a => some a | _ => none)

/-- The augmentations dropped, at whatever place. -/
def droppedAugs (es : List (Event K A)) : List A :=
  es.filterMap (fun e => match e with | .dropAug a => some a | .dropMovedAug a => some a | _ => none)

/-- The augmentations dropped at a place they had been moved away from. -/
def droppedMoved (es : List (Event K A)) : List A :=
  es.filterMap (fun e => match e with | .dropMovedAug a => some a | _ => none)

end Event
end Bpt
