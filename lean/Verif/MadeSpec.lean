import Verif.Model.Crash
import Verif.Model.Ledger

/-!
# What a call makes, as listed by the trace of user code and by the ledger of objects
-/

namespace Bpt
variable {K V A : Type}

/-- What user code makes for the map. -/
inductive Made where
  /-- a copy of a key -/
  | keyCopy
  /-- the summary of a node -/
  | summary
deriving DecidableEq

/-- What a call of user code makes. -/
def Callback.kind : Callback → Option Made
  | .compare => none
  | .cloneKey => some .keyCopy
  | .fromLeaf _ => some .summary
  | .fromInner _ _ => some .summary
  | .cloneAug => some .summary
  | .dropKey => none
  | .dropAug => none
  | .query _ _ => none

/-- What is made in an event of the ledger. -/
def Event.kind : Event K A → Option Made
  | .cloneKey _ => some .keyCopy
  | .makeAug _ => some .summary
  | _ => none

end Bpt
