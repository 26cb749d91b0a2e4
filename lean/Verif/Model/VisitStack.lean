import Verif.Model.Tree

/-!
# The traversal stack as it is stored

`VisitStack` (src/tree/entry_ref.rs:25-86) is an array of `MAX_DEPTH` entries and a counter. `Model/Tree` uses a list,
newest entry first; `Props/Structure` relates the two (C11).
-/

namespace Bpt

/-- `VisitStack`, src/tree/entry_ref.rs:26-33. The array is a list; its length is fixed by `new`. -/
structure VisitStack where
  len : Nat
  stack : List StackEntry

/-- `StackEntry::invalid`, src/tree/entry_ref.rs:15-23; `InnerNodeId::INVALID` is `usize::MAX` (node_id.rs:6). -/
def StackEntry.invalid : StackEntry := (2 ^ 64 - 1, 0, .inner (2 ^ 64 - 1))

namespace VisitStack

/-- `new`, src/tree/entry_ref.rs:49-54. -/
def new : VisitStack := ⟨0, List.replicate maxDepth StackEntry.invalid⟩

/-- `push`, src/tree/entry_ref.rs:56-67: the assertion, the checked write `self.stack[self.len]` and the checked
`self.len += 1` on a `u16`. -/
def push (s : VisitStack) (e : StackEntry) : Res VisitStack := do
  if ¬ s.len < maxDepth then .error .panic
  if ¬ s.len < s.stack.length then .error .panic
  if ¬ s.len + 1 < 2 ^ 16 then .error .panic
  return ⟨s.len + 1, s.stack.set s.len e⟩

/-- `pop`, src/tree/entry_ref.rs:69-85: the assertion, `self.len -= 1` and the checked read. -/
def pop (s : VisitStack) : Res (Option StackEntry × VisitStack) := do
  if s.len = 0 then return (none, s)
  if ¬ s.len ≤ maxDepth then .error .panic
  match s.stack[s.len - 1]? with
  | some e => return (some e, { s with len := s.len - 1 })
  | none => .error .panic

end VisitStack

/-- The calls the traversals make. -/
inductive StackCall where
  | push (e : StackEntry)
  | pop

/-- A sequence of calls on the stored stack: what the `pop`s return, and the stack afterwards. -/
def VisitStack.run : VisitStack → List StackCall → Res (List (Option StackEntry) × VisitStack)
  | s, [] => return ([], s)
  | s, .push e :: cs => do
    let s ← s.push e
    s.run cs
  | s, .pop :: cs => do
    let (r, s) ← s.pop
    let (rs, s) ← s.run cs
    return (r :: rs, s)

/-- The same sequence on the lists of `Model/Tree`: `pushStack`, and taking the newest entry off. -/
def stackRun : List StackEntry → List StackCall → Res (List (Option StackEntry) × List StackEntry)
  | s, [] => return ([], s)
  | s, .push e :: cs => do
    let s ← pushStack s e
    stackRun s cs
  | s, .pop :: cs => do
    let (rs, s') ← stackRun s.tail cs
    return (s.head? :: rs, s')

end Bpt
