import Verif.Model.Tree

/-!
# Cursors (src/tree/cursor.rs)
-/

namespace Bpt
variable {K V A : Type} [LinearOrder K]

/-- `Cursor`, src/tree/cursor.rs:10-19. Both hints may be arbitrary numbers. -/
structure Cursor (K : Type) where
  k : K
  leafIdHint : Nat
  offsetHint : Nat
deriving DecidableEq

/-- `Cursor::locate_leaf`, src/tree/cursor.rs:210-225. -/
def Cursor.locateLeaf (c : Cursor K) (t : Tree K V A) : Res (Nat × Leaf K V) := do
  let hit ← (match t.store.tryGetLeaf c.leafIdHint with
    | some leaf => do
      let b ← leaf.inRange c.k
      return if b then some leaf else none
    | none => return none : Res (Option (Leaf K V)))
  match hit with
  | some leaf => return (c.leafIdHint, leaf)
  | none =>
    let leafId ← t.locateLeaf c.k
    let leaf ← t.store.getLeaf leafId
    return (leafId, leaf)

omit [LinearOrder K] in
/-- `Cursor::first`, src/tree/cursor.rs:39-56; `data_at(0)` is unchecked. -/
def Tree.cursorFirst (t : Tree K V A) : Res (Option (Cursor K × V)) := do
  let leafId ← t.firstLeaf
  let leaf ← t.store.getLeaf leafId
  let kv ← leaf.dataAt 0
  return some (⟨kv.1, leafId, 0⟩, kv.2)

omit [LinearOrder K] in
/-- `Cursor::last`, src/tree/cursor.rs:60-76; `leaf.len() - 1` underflows on an empty leaf. -/
def Tree.cursorLast (t : Tree K V A) : Res (Option (Cursor K × V)) := do
  let leafId ← t.lastLeaf
  let leaf ← t.store.getLeaf leafId
  if leaf.len = 0 then .error .panic
  let kv ← leaf.dataAt (leaf.len - 1)
  return some (⟨kv.1, leafId, leaf.len - 1⟩, kv.2)

omit [LinearOrder K] in
/-- The step to the previous leaf in `prev_with_value`, src/tree/cursor.rs:99-104 and 114-119. -/
def prevLeafEnd (t : Tree K V A) (leaf : Leaf K V) : Res (Option (Nat × Leaf K V)) :=
  match leaf.prev with
  | some prevId => do
    let prev ← t.store.getLeaf prevId
    if prev.len = 0 then .error .panic
    return some (prev.len - 1, prev)
  | none => return none

/-- The test of the offset hint: `leaf.try_data_at(self.offset_hint)` with key equal to the cursor's,
src/tree/cursor.rs:95-96, 150-151. -/
def Cursor.hintHits (c : Cursor K) (leaf : Leaf K V) : Bool :=
  match leaf.tryDataAt c.offsetHint with
  | some kv => decide (kv.1 = c.k)
  | none => false

/-- The choice of the previous entry in `prev_with_value`, src/tree/cursor.rs:95-121. -/
def Cursor.prevPos (c : Cursor K) (t : Tree K V A) (leaf : Leaf K V) :
    Res (Option (Nat × Leaf K V)) :=
  if c.hintHits leaf then
    if 0 < c.offsetHint then return some (c.offsetHint - 1, leaf)
    else prevLeafEnd t leaf
  else
    let offset := match leaf.locateSlot c.k with
      | .found i => i
      | .vacant i => i
    if 0 < offset then return some (offset - 1, leaf)
    else prevLeafEnd t leaf

/-- `Cursor::prev_with_value`, src/tree/cursor.rs:86-132. The new cursor keeps the leaf hint of the
leaf the search started from, as in the code. -/
def Cursor.prevWithValue (c : Cursor K) (t : Tree K V A) : Res (Option (Cursor K × V)) := do
  let (leafId, leaf) ← c.locateLeaf t
  match ← c.prevPos t leaf with
  | none => return none
  | some (offset, leaf) =>
    let kv ← leaf.dataAt offset
    return some (⟨kv.1, leafId, offset⟩, kv.2)

/-- The choice of the next offset in `next_with_value`, src/tree/cursor.rs:150-159. -/
def Cursor.nextOffset (c : Cursor K) (leaf : Leaf K V) : Res Nat :=
  if c.hintHits leaf then return c.offsetHint + 1
  else do
    let (offset, value) ← leaf.locateSlotWithValue c.k
    match value with
    | some _ => return offset + 1
    | none => return offset

omit [LinearOrder K] in
/-- The end of `next_with_value`, src/tree/cursor.rs:161-184: the entry at `nextOffset` or the first
one of the next leaf. -/
def forwardFrom (t : Tree K V A) (leafId : Nat) (leaf : Leaf K V) (nextOffset : Nat) :
    Res (Option (Cursor K × V)) :=
  if nextOffset < leaf.len then do
    let kv ← leaf.dataAt nextOffset
    return some (⟨kv.1, leafId, nextOffset⟩, kv.2)
  else
    match leaf.next with
    | none => return none
    | some leafId => do
      let leaf ← t.store.getLeaf leafId
      let kv ← leaf.dataAt 0
      return some (⟨kv.1, leafId, 0⟩, kv.2)

/-- `Cursor::next_with_value`, src/tree/cursor.rs:141-185. -/
def Cursor.nextWithValue (c : Cursor K) (t : Tree K V A) : Res (Option (Cursor K × V)) := do
  let (leafId, leaf) ← c.locateLeaf t
  let nextOffset ← c.nextOffset leaf
  forwardFrom t leafId leaf nextOffset

/-- `Cursor::value`, src/tree/cursor.rs:193-207. -/
def Cursor.value (c : Cursor K) (t : Tree K V A) : Res (Option V) := do
  let (_, leaf) ← c.locateLeaf t
  let hit : Option V := match leaf.tryDataAt c.offsetHint with
    | some kv => if kv.1 = c.k then some kv.2 else none
    | none => none
  match hit with
  | some v => return some v
  | none =>
    let (_, v) ← leaf.locateSlotWithValue c.k
    return v

/-- `Cursor::exists`, src/tree/cursor.rs:188-190. -/
def Cursor.exists? (c : Cursor K) (t : Tree K V A) : Res Bool := do
  let v ← c.value t
  return v.isSome

/-- `Cursor::prev`, src/tree/cursor.rs:80-82. -/
def Cursor.prev (c : Cursor K) (t : Tree K V A) : Res (Option (Cursor K)) := do
  let r ← c.prevWithValue t
  return r.map (·.1)

/-- `Cursor::next`, src/tree/cursor.rs:136-138. -/
def Cursor.next (c : Cursor K) (t : Tree K V A) : Res (Option (Cursor K)) := do
  let r ← c.nextWithValue t
  return r.map (·.1)

/-- `get_cursor`, src/tree/mod.rs:637-660. Does not use the cache; always `Some`. -/
def Tree.getCursor (t : Tree K V A) (k : K) : Res (Option (Cursor K × Option V)) := do
  let leafId ← findDescendLeaf t.store t.root k
  let leaf ← t.store.getLeaf leafId
  let (idx, v) ← leaf.locateSlotWithValue k
  return some (⟨k, leafId, idx⟩, v)

end Bpt
