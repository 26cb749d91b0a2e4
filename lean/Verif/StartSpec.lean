import Verif.LoadSpec
import Verif.EvenHistory

/-!
# Vocabulary: maps that have just been made
-/

namespace Bpt
variable {K V A : Type} [Augmentation K V A]

/-- A map that has just been made, and its items: an empty map, or a bulk load of any data, in any order and with any
answers of `==`, whose leaves group without a lone child (always so up to 4160 items; C19 is about the others). -/
inductive Fresh : Tree K V A → List (K × V) → Prop
  | new : Fresh Tree.new []
  | load {eq : Nat → K → K → Bool} {data : List (K × V)} {t : Tree K V A} : data.length < 2 ^ 64 →
      EvenlyGrouped (leavesFor (Spec.survivors eq data).length) → Tree.bulkLoadU eq data = .ok t →
      Fresh t (Spec.survivors eq data)

end Bpt
