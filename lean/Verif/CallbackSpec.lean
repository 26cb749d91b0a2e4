import Verif.Model.Crash

/-!
# Specification: what a user's augmentation is given

`Augmentation::from_leaf(keys, values)` and `Augmentation::from_inner(keys, augmentations)` are written
by users of the crate. What may they assume about the slices?
-/

namespace Bpt

/-- `from_leaf` gets between 1 and 64 entries; `from_inner` gets between 1 and 64 keys and one more
augmentation than keys. -/
def Callback.ArgsOk : Callback → Prop
  | .fromLeaf entries => 1 ≤ entries ∧ entries ≤ 64
  | .fromInner keys augs => 1 ≤ keys ∧ keys ≤ 64 ∧ augs = keys + 1
  | .compare => True
  | .cloneKey => True
  | .cloneAug => True
  | .dropKey => True
  | .dropAug => True
  | .query _ _ => True

end Bpt
