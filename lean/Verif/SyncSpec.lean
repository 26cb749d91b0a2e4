import Verif.AugSpec
import Verif.LawlessHistory

/-!
# Vocabulary: augmentations in histories with arbitrary comparisons
-/

namespace Bpt

/-- `from_inner` over children equals `from_leaf` over their concatenated content, in whatever order the
items are. -/
def HomomorphicAny (K V A : Type) [Augmentation K V A] : Prop :=
  ∀ (ks : List K) (parts : List (List (K × V))), parts.length = ks.length + 1 → (∀ p ∈ parts, p ≠ []) →
    Augmentation.fromInner V ks (parts.map (leafOf A)) = leafOf A parts.flatten

/-- The call changes no value in place. -/
def UCall.keepsValues {K V : Type} : UCall K V → Prop
  | .getMut _ => False
  | _ => True

end Bpt
