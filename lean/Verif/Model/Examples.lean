import Verif.Model.Augment

/-!
# User augmentations shipped with the crate as examples
(examples/augment_even_count.rs, examples/duplicate_key.rs, examples/visit_depth.rs)
-/

namespace Bpt
variable {K V : Type}

/-! ## examples/augment_even_count.rs -/

/-- `EvenCount`, examples/augment_even_count.rs:6. -/
structure EvenCount where
  val : Nat
deriving DecidableEq, Repr

/-- `value_is_even`, examples/augment_even_count.rs:8-10 (`i64 % 2 == 0`; on integers of any size). -/
def valueIsEven (v : Int) : Bool := v % 2 == 0

/-- `Augmentation for EvenCount`, examples/augment_even_count.rs:12-22. -/
instance : Augmentation Int V EvenCount where
  dflt := ⟨0⟩
  fromLeaf keys _ := ⟨(keys.filter valueIsEven).length⟩
  fromInner _ as := ⟨(as.map (·.val)).sum⟩

/-- The loop of `EvenCount::locate_in_leaf`, examples/augment_even_count.rs:31-40. -/
def evenLocateLeaf : Nat → Nat → List Int → Option Nat
  | _, _, [] => none
  | idx, offset, k :: ks =>
    if valueIsEven k then
      if offset = 0 then some idx else evenLocateLeaf (idx + 1) (offset - 1) ks
    else evenLocateLeaf (idx + 1) offset ks

/-- The loop of `EvenCount::locate_in_inner`, examples/augment_even_count.rs:50-57. -/
def evenLocateInner : Nat → Nat → List EvenCount → Option (Nat × Nat)
  | _, _, [] => none
  | idx, rel, a :: as =>
    if rel < a.val then some (idx, rel) else evenLocateInner (idx + 1) (rel - a.val) as

/-- `SearchAugmentation for EvenCount`, examples/augment_even_count.rs:26-62. -/
instance : SearchAugmentation Int V EvenCount Nat where
  locateInLeaf offset keys _ := evenLocateLeaf 0 offset keys
  locateInInner offset _ as := evenLocateInner 0 offset as

/-! ## examples/duplicate_key.rs -/

/-- `Count` of examples/duplicate_key.rs:6: the total multiplicity. -/
structure DupCount where
  val : Nat
deriving DecidableEq, Repr

/-- `Augmentation for Count`, examples/duplicate_key.rs:15-23. -/
instance : Augmentation K Nat DupCount where
  dflt := ⟨0⟩
  fromLeaf _ values := ⟨values.sum⟩
  fromInner _ counts := ⟨(counts.map (·.val)).sum⟩

/-- The loop of `Count::locate_in_leaf`, examples/duplicate_key.rs:30-39. -/
def dupLocateLeaf (offset : Nat) : Nat → Nat → List Nat → Option Nat
  | _, _, [] => none
  | idx, accum, c :: cs =>
    if offset < accum + c then some idx else dupLocateLeaf offset (idx + 1) (accum + c) cs

/-- The loop of `Count::locate_in_inner`, examples/duplicate_key.rs:44-50. -/
def dupLocateInner : Nat → Nat → List DupCount → Option (Nat × Nat)
  | _, _, [] => none
  | i, idx, a :: as => if a.val ≤ idx then dupLocateInner (i + 1) (idx - a.val) as else some (i, idx)

/-- `SearchAugmentation for Count`, examples/duplicate_key.rs:25-55. `keys` and `values` have the
same length, so the `zip` is modelled by the values. -/
instance : SearchAugmentation K Nat DupCount Nat where
  locateInLeaf offset _ values := dupLocateLeaf offset 0 0 values
  locateInInner idx _ counts := dupLocateInner 0 idx counts

/-- `insert` of examples/duplicate_key.rs:59-62: one more copy of `key`. -/
def dupInsert [LinearOrder K] (t : Tree K Nat DupCount) (key : K) : Res (Tree K Nat DupCount) := do
  let (prev, t) ← t.get key
  let (_, t) ← t.insert key (prev.getD 0 + 1)
  return t

/-- `delete` of examples/duplicate_key.rs:64-71: one copy less of `key`. `prev_count - 1` on an absent
key underflows. -/
def dupDelete [LinearOrder K] (t : Tree K Nat DupCount) (key : K) : Res (Tree K Nat DupCount) := do
  let (prev, t) ← t.get key
  let prevCount := prev.getD 0
  if prevCount = 1 then
    let (_, t) ← t.remove key
    return t
  else if prevCount = 0 then .error .panic
  else
    let (_, t) ← t.insert key (prevCount - 1)
    return t

/-! ## examples/visit_depth.rs -/

/-- `GetTreeDepth`, examples/visit_depth.rs:5-32; the state is `depth`. -/
def getTreeDepth {A : Type} : Visitor K V A Nat Nat where
  visitInner depth _ _ := (.goDown 0, depth + 1)
  visitLeaf depth _ _ := some (depth + 1)

end Bpt
