import Verif.History

/-!
# Vocabulary for trees on used stores
-/

namespace Bpt
variable {K V A : Type}

/-- Slot `i` of the store holds a leaf. -/
def Store.HasLeaf (s : Store K V A) (i : Nat) : Prop := ∃ l, s.leaves[i]? = some (some l)

/-- The slot of a leaf that a call is told to try first: the hint inside the cursor it is made on. -/
def Call.hint : Call K V → Option Nat
  | .cursorNext c => some c.leafIdHint
  | .cursorPrev c => some c.leafIdHint
  | .cursorValue c => some c.leafIdHint
  | _ => none

/-- No call is made on a cursor whose hint names a leaf of `s`: no cursor of an older map. -/
def NoOldCursor (s : Store K V A) (cs : List (Call K V)) : Prop :=
  ∀ c ∈ cs, ∀ i, c.hint = some i → ¬ s.HasLeaf i

end Bpt
