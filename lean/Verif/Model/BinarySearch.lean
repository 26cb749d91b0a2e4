import Verif.Model.Basic

/-!
# The halving search behind `binary_search_by_key`

`locate_slot` (src/tree/leaf_node.rs:316) and `locate_child` (src/tree/inner_node.rs:210) call the
standard library's `slice::binary_search_by_key`. The two loops it has had are written out here; the
rest of the model uses `bsearch` (`Verif/Model/Basic.lean`), proved equal in
`Verif/Props/BinarySearch.lean`. An out-of-range `get_unchecked` is a panic.
-/

namespace Bpt
variable {K : Type} [LinearOrder K]

/-- `get_unchecked(i)`. -/
def probe (keys : List K) (i : Nat) : Res K :=
  match keys[i]? with
  | some x => return x
  | none => .error .panic

/-- The loop of `binary_search_by` since Rust 1.82: `base` moves to `mid` unless the probe is
greater, `size` loses `half`. -/
def halvingLoop (keys : List K) (k : K) (base size : Nat) : Res Nat :=
  if 1 < size then do
    let half := size / 2
    let mid := base + half
    let x ← probe keys mid
    halvingLoop keys k (if k < x then base else mid) (size - half)
  else return base
termination_by size
decreasing_by omega

/-- `binary_search_by_key` since Rust 1.82, as called at leaf_node.rs:316 and inner_node.rs:210. -/
def halvingSearch (keys : List K) (k : K) : Res Slot :=
  if keys.length = 0 then return .vacant 0
  else do
    let base ← halvingLoop keys k 0 keys.length
    let x ← probe keys base
    return if x = k then .found base else .vacant (if x < k then base + 1 else base)

/-- The loop of `binary_search_by` before Rust 1.82: returns early on an equal probe. -/
def earlyLoop (keys : List K) (k : K) (left right : Nat) : Res Slot :=
  if left < right then do
    let mid := left + (right - left) / 2
    let x ← probe keys mid
    if x < k then earlyLoop keys k (mid + 1) right
    else if k < x then earlyLoop keys k left mid
    else return .found mid
  else return .vacant left
termination_by right - left
decreasing_by all_goals omega

/-- `binary_search_by_key` before Rust 1.82, as called at leaf_node.rs:316 and inner_node.rs:210. -/
def earlySearch (keys : List K) (k : K) : Res Slot := earlyLoop keys k 0 keys.length

end Bpt
