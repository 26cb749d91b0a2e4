import Verif.Model.PublicNodes

/-!
# Specification for C60: what the safe public methods of nodes really need

For each type: the state that matters, and for every call the answer, or `panic`, or `ub` (undefined behaviour).
-/

namespace Bpt
namespace Spec

/-! ## Leaves -/

/-- A leaf: the items in the slots that have been written, what `len()` says, and the neighbours. -/
structure Leaf (K V : Type) where
  items : List (K × V) := []
  size : Nat := 0
  prev : Option Nat := none
  next : Option Nat := none

variable {K V A : Type}

/-- The value, or undefined behaviour. -/
def orUB {α : Type} : Option α → Res α
  | some x => .ok x
  | none => .error .ub

/-- All items, if every slot below `len()` has been written. -/
def Leaf.all (p : Leaf K V) : Res (List (K × V)) :=
  if p.size = p.items.length then .ok p.items else .error .ub

/-- One call. `set_data` writes the first slots but adds to the length. -/
def Leaf.call (o : Compare K) (p : Leaf K V) : LeafCall K V → Res (LeafAnswer K V × Leaf K V)
  | .len => .ok (.number p.size, p)
  | .isEmpty => .ok (.flag (p.size == 0), p)
  | .isFull => .ok (.flag (p.size == 64), p)
  | .ableToLend => .ok (.flag (decide (16 < p.size)), p)
  | .isSizeMinimum => .ok (.flag (p.size == 16), p)
  | .prev => .ok (.id p.prev, p)
  | .next => .ok (.id p.next, p)
  | .setPrev id => .ok (.done, { p with prev := id })
  | .setNext id => .ok (.done, { p with next := id })
  | .setData data =>
    let new := data.take 64
    if p.size + new.length < 2 ^ 16 then
      .ok (.done, { p with items := new ++ p.items.drop new.length, size := p.size + new.length })
    else .error .panic
  | .dataAt i => (orUB p.items[i]?).map (fun e => (.item e, p))
  | .tryDataAt i => if p.size ≤ i then .ok (.maybe none, p) else (orUB p.items[i]?).map (fun e => (.maybe (some e), p))
  | .valueAtMut i f => (orUB p.items[i]?).map (fun e =>
      (.value e.2, { p with items := p.items.set i (e.1, f e.2) }))
  | .keys => p.all.map (fun l => (.keys (l.map (·.1)), p))
  | .values => p.all.map (fun l => (.values (l.map (·.2)), p))
  | .locateSlot k => p.all.map (fun l => (.slot (o.find (l.map (·.1)) k), p))
  | .locateSlotWithValue k => p.all.map (fun l => (.slotValue (match o.find (l.map (·.1)) k with
      | .found i => (i, (l.map (·.2))[i]?)
      | .vacant i => (i, none)), p))
  | .inRange k =>
    if p.prev ≠ none ∧ p.items = [] then .error .ub
    else if p.prev ≠ none ∧ ∃ e, p.items.head? = some e ∧ o.lt k e.1 = true then .ok (.flag false, p)
    else if p.next = none then .ok (.flag true, p)
    else if p.size = 0 then .error .panic
    else (orUB p.items[p.size - 1]?).map (fun e => (.flag (!o.gt k e.1), p))
  | .keyRange =>
    if p.size = 0 then .error .panic
    else if p.next = none then
      .ok (.range (if p.prev = none then none else p.items.head?.map (·.1), none), p)
    else (orUB p.items[p.size - 1]?).map (fun e =>
      (.range (if p.prev = none then none else p.items.head?.map (·.1), some e.1), p))
  | .clone => p.all.map (fun _ => (.done, p))

/-- A sequence of calls. -/
def Leaf.run (o : Compare K) (p : Leaf K V) : List (LeafCall K V) → Res (List (LeafAnswer K V))
  | [] => .ok []
  | c :: cs =>
    match p.call o c with
    | .error e => .error e
    | .ok (a, p) => (p.run o cs).map (a :: ·)

/-- What a caller has to observe for a call on a leaf of length `size`: `set_data` only on an empty leaf, indices below
the length, and no `in_range` or `key_range` on an empty leaf. -/
def LeafCareful (size : Nat) : LeafCall K V → Prop
  | .setData _ => size = 0
  | .dataAt i => i < size
  | .valueAtMut i _ => i < size
  | .inRange _ => 0 < size
  | .keyRange => 0 < size
  | _ => True

/-- The length after a call. -/
def leafLenAfter (size : Nat) : LeafCall K V → Nat
  | .setData data => size + min 64 data.length
  | _ => size

/-- Every call of the sequence is careful. -/
def LeafCarefulRun : Nat → List (LeafCall K V) → Prop
  | _, [] => True
  | size, c :: cs => LeafCareful size c ∧ LeafCarefulRun (leafLenAfter size c) cs

/-! ## Inner nodes -/

/-- An inner node: its keys, its children, and the augmentations from the first slot up to the first slot that has not
been written. -/
structure Inner (K A : Type) where
  keys : List K
  childs : List NodeId
  augs : List A

/-- `new_from_iter`. A panic destroys the half-built node, and with it the augmentation in its first slot, written or
not. -/
def newInner (keys : List K) (childs : List NodeId) (augs : List A) : Res (Inner K A) :=
  if 64 < keys.length ∨ 65 < childs.length then .error .ub
  else if 65 < augs.length then .error .panic
  else if keys.length + 1 = childs.length then .ok ⟨keys, childs, augs⟩
  else if augs = [] then .error .ub
  else .error .panic

/-- One call. -/
def Inner.call (o : Compare K) (p : Inner K A) : InnerCall K A → Res (InnerAnswer K × Inner K A)
  | .len => .ok (.number p.keys.length, p)
  | .isEmpty => .ok (.flag (p.keys.length == 0), p)
  | .isFull => .ok (.flag (p.keys.length == 64), p)
  | .ableToLend => .ok (.flag (decide (16 < p.keys.length)), p)
  | .key i => (orUB p.keys[i]?).map (fun k => (.key k, p))
  | .locateChild k =>
    let i := match o.find p.keys k with
      | .found i => i + 1
      | .vacant i => i
    (orUB p.childs[i]?).map (fun c => (.child (i, c), p))
  | .push k c a =>
    if p.keys.length < 64 then
      .ok (.done, ⟨p.keys ++ [k], p.childs ++ [c],
        if p.keys.length + 1 < p.augs.length then p.augs.set (p.keys.length + 1) a
        else if p.keys.length + 1 = p.augs.length then p.augs ++ [a]
        else p.augs⟩)
    else .error .ub
  | .clone =>
    if p.keys.length + 1 ≤ p.augs.length then .ok (.done, ⟨p.keys, p.childs, p.augs.take (p.keys.length + 1)⟩)
    else .error .ub

/-- A sequence of calls, then the destruction of the node: the answers, the keys and the augmentations destroyed. -/
def Inner.run (o : Compare K) (p : Inner K A) : List (InnerCall K A) → Res (List (InnerAnswer K) × List K × List A)
  | [] => if p.keys.length + 1 ≤ p.augs.length then .ok ([], p.keys, p.augs.take (p.keys.length + 1)) else .error .ub
  | c :: cs =>
    match p.call o c with
    | .error e => .error e
    | .ok (a, p) => (p.run o cs).map (fun r => (a :: r.1, r.2))

/-- What a caller has to observe for a call on an inner node with `size` keys. -/
def InnerCareful (size : Nat) : InnerCall K A → Prop
  | .key i => i < size
  | .push _ _ _ => size < 64
  | _ => True

/-- The number of keys after a call. -/
def innerLenAfter (size : Nat) : InnerCall K A → Nat
  | .push _ _ _ => size + 1
  | _ => size

/-- Every call of the sequence is careful. -/
def InnerCarefulRun : Nat → List (InnerCall K A) → Prop
  | _, [] => True
  | size, c :: cs => InnerCareful size c ∧ InnerCarefulRun (innerLenAfter size c) cs

/-- The keys and the augmentations a sequence of calls pushes. -/
def pushed : List (InnerCall K A) → List K × List A
  | [] => ([], [])
  | .push k _ a :: cs => (k :: (pushed cs).1, a :: (pushed cs).2)
  | _ :: cs => pushed cs

/-! ## The store -/

/-- The node store: which node each id stands for, how many ids have been handed out, and the remembered leaf. -/
structure Nodes (K V A : Type) where
  inner : Nat → Option (InnerS K A) := fun _ => none
  innerIds : Nat := 0
  leaf : Nat → Option (LeafS K V) := fun _ => none
  leafIds : Nat := 0
  cached : Option Nat := none

/-- A map with one entry changed. -/
def update {α : Type} (f : Nat → α) (i : Nat) (x : α) : Nat → α := fun j => if j = i then x else f j

/-- The value, or a panic. -/
def orPanic {α : Type} : Option α → Res α
  | some x => .ok x
  | none => .error .panic

/-- One call. -/
def Nodes.call (o : Compare K) (p : Nodes K V A) : StoreCall K V A → Res (StoreAnswer K V A × Nodes K V A)
  | .newEmptyLeaf => .ok (.id p.leafIds, { p with leaf := update p.leaf p.leafIds (some .new), leafIds := p.leafIds + 1 })
  | .reserveLeaf => .ok (.id p.leafIds, { p with leafIds := p.leafIds + 1 })
  | .addInner n => .ok (.id p.innerIds, { p with
      inner := update p.inner p.innerIds (some n), innerIds := p.innerIds + 1 })
  | .getInner id => (orUB (p.inner id)).map (fun n => (.inner n, p))
  | .tryGetInner id => .ok (.maybeInner (p.inner id), p)
  | .takeInner id => (orPanic (p.inner id)).map (fun n => (.inner n, { p with inner := update p.inner id none }))
  | .putBackInner id n => if id < p.innerIds then .ok (.done, { p with inner := update p.inner id (some n) })
      else .error .panic
  | .getLeaf id => (orUB (p.leaf id)).map (fun n => (.leaf n, p))
  | .tryGetLeaf id => .ok (.maybeLeaf (p.leaf id), p)
  | .takeLeaf id => (orPanic (p.leaf id)).map (fun n => (.leaf n, { p with leaf := update p.leaf id none }))
  | .assignLeaf id l => if id < p.leafIds then .ok (.done, { p with leaf := update p.leaf id (some l) })
      else .error .panic
  | .getMutLeaf id c => (orUB (p.leaf id)).bind (fun l => (l.publicCall o c).map (fun r =>
      (.answer r.1, { p with leaf := update p.leaf id (some r.2) })))
  | .cacheLeaf id => .ok (.done, { p with cached := some id })
  | .tryCache k =>
    match p.cached.bind p.leaf with
    | none => .ok (.maybeId none, p)
    | some l => (l.publicCall o (.inRange k)).map (fun r => (.maybeId (match r.1 with
        | .flag true => p.cached
        | _ => none), p))

/-- A sequence of calls. -/
def Nodes.run (o : Compare K) (p : Nodes K V A) : List (StoreCall K V A) → Res (List (StoreAnswer K V A))
  | [] => .ok []
  | c :: cs =>
    match p.call o c with
    | .error e => .error e
    | .ok (a, p) => (p.run o cs).map (a :: ·)

/-- The methods that check what they are given. -/
def StoreChecked : StoreCall K V A → Prop
  | .getInner _ | .getLeaf _ | .getMutLeaf _ _ | .tryCache _ => False
  | _ => True

end Spec
end Bpt
