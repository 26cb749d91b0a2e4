import Verif.Model.Release

/-!
# Vocabulary for the release build
-/

namespace Bpt
variable {K V A : Type}

/-- `Contents` in the release build: the items of a tree, as `len`, dropping the map, and any schedule
of calls on `into_iter()`, dropped midway, show them. -/
structure ContentsR (t : Tree K V A) (l : List (K × V)) : Prop where
  len : t.len = l.length
  drop : t.dropR = .ok l
  into : ∀ ds, ∃ it it', t.intoIter = .ok it ∧ it.runCallsR ds = .ok ((Spec.pulls l ds).1, it') ∧
    it'.dropR = .ok (Spec.pulls l ds).2

end Bpt
