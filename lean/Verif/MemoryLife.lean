import Verif.MemorySpec
import Verif.History

/-!
# Vocabulary for the memory a map has kept over a history of calls
-/

namespace Bpt
variable {K V A : Type} [LinearOrder K] [Augmentation K V A]

/-- The levels of inner nodes the tree has lost in a history, added up. `n` is what was lost before;
`clear` starts again with a new store. -/
def Tree.lostLevels (t : Tree K V A) (n : Nat) : List (Call K V) → Nat
  | [] => n
  | c :: cs =>
    match t.call c with
    | .ok (_, t') =>
      Tree.lostLevels t' (match c with | .clear => 0 | _ => n + (t.levels - t'.levels)) cs
    | .error _ => n

end Bpt
