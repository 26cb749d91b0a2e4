import Verif.Model.Visit

/-!
# The augmentations of the crate (src/augment/count.rs, src/augment/group.rs) and of its examples
-/

namespace Bpt
variable {K V : Type}

/-! ## Count -/

/-- `Count`, src/augment/count.rs:8. -/
structure Count where
  count : Nat
deriving DecidableEq, Repr

/-- `Augmentation for Count`, src/augment/count.rs:17-25. -/
instance : Augmentation K V Count where
  dflt := ⟨0⟩
  fromLeaf keys _ := ⟨keys.length⟩
  fromInner _ counts := ⟨(counts.map (·.count)).sum⟩

/-- The loop of `Count::locate_in_inner`, src/augment/count.rs:39-50; `i` is the loop index. -/
def countLocate : Nat → List Count → Nat → Option (Nat × Nat)
  | _, [], _ => none
  | i, a :: as, idx => if a.count ≤ idx then countLocate (i + 1) as (idx - a.count) else some (i, idx)

/-- `SearchAugmentation for Count`, src/augment/count.rs:27-51. -/
instance : SearchAugmentation K V Count Nat where
  locateInLeaf idx keys _ := if idx < keys.length then some idx else none
  locateInInner idx _ counts := countLocate 0 counts idx

/-- `RankAugmentation for Count`, src/augment/count.rs:53-80. -/
instance : RankAugmentation K V Count Nat where
  initialValue := 0
  foldInner _ rank counts := counts.foldl (fun r a => r + a.count) rank
  foldLeaf _ rank slot _ := match slot with
    | .found idx => .ok (idx + rank)
    | .vacant idx => .error (idx + rank)

/-! ## GroupCount -/

/-- `GroupCount`, src/augment/group.rs:13-22. -/
inductive GroupCount (G : Type) where
  | zero
  | one (g : G) (c : Nat)
  | multiple (minGroup maxGroup : G × Nat) (groupCount : Nat)
deriving DecidableEq, Repr

/-- `FromRef`, src/augment/group.rs:147-149. -/
class FromRef (K G : Type) where
  fromRef : K → G

namespace GroupCount
variable {G : Type} [LinearOrder G]

omit [LinearOrder G] in
/-- `group_count`, src/augment/group.rs:35-41. -/
def count : GroupCount G → Nat
  | zero => 0
  | one _ _ => 1
  | multiple _ _ n => n

omit [LinearOrder G] in
/-- `max_group`, src/augment/group.rs:44-54. -/
def maxGroup? : GroupCount G → Option (G × Nat)
  | zero => none
  | one g c => some (g, c)
  | multiple _ m _ => some m

/-- `merge_with`, src/augment/group.rs:57-143. -/
def mergeWith : GroupCount G → GroupCount G → GroupCount G
  | zero, r => r
  | l, zero => l
  | one g1 c1, one g2 c2 =>
    if g1 = g2 then one g1 (c1 + c2) else multiple (g1, c1) (g2, c2) 2
  | one g1 c1, multiple mn mx n =>
    if g1 = mn.1 then multiple (g1, c1 + mn.2) mx n else multiple (g1, c1) mx (n + 1)
  | multiple mn mx n, one g2 c2 =>
    if g2 = mx.1 then multiple mn (mx.1, mx.2 + c2) n else multiple mn (g2, c2) (n + 1)
  | multiple mn1 mx1 n1, multiple mn2 mx2 n2 =>
    multiple mn1 mx2 (if mx1.1 = mn2.1 then n1 + n2 - 1 else n1 + n2)

/-- State of the loop of `GroupCount::from_leaf`, src/augment/group.rs:164-169: the current
`last_group`, whether `last_group_item_count` still points to `min_group_count`, and the three
counters. -/
structure LeafScan (G : Type) where
  last : G
  inFirst : Bool
  groupCount : Nat
  minCount : Nat
  lastCount : Nat

/-- Body of the loop of `GroupCount::from_leaf`, src/augment/group.rs:171-180. `last_group_count` is
not reset when a new group starts, as in the code. -/
def leafScanStep (st : LeafScan G) (g : G) : LeafScan G :=
  if st.last ≠ g then
    { st with groupCount := st.groupCount + 1, inFirst := false, last := g }
  else if st.inFirst then
    { st with minCount := st.minCount + 1 }
  else
    { st with lastCount := st.lastCount + 1 }

/-- `GroupCount::from_leaf` on the groups of the keys, src/augment/group.rs:156-193. -/
def scanLeaf : List G → GroupCount G
  | [] => zero
  | g :: gs =>
    let st := gs.foldl leafScanStep
      { last := g, inFirst := true, groupCount := 1, minCount := 1, lastCount := 1 }
    if st.groupCount = 1 then one g st.minCount
    else multiple (g, st.minCount) (st.last, st.lastCount) st.groupCount

/-- `Augmentation for GroupCount`, src/augment/group.rs:24-28, 151-204. -/
instance [FromRef K G] : Augmentation K V (GroupCount G) where
  dflt := zero
  fromLeaf keys _ := scanLeaf (keys.map FromRef.fromRef)
  fromInner _ gs := gs.foldl mergeWith zero

/-- The loop of `GroupCount::locate_in_leaf`, src/augment/group.rs:214-233. -/
def locateLeafLoop (group : G) (offset : Nat) : Nat → Nat → List G → Option Nat
  | _, _, [] => none
  | idx, inGroup, g :: gs =>
    if g < group then locateLeafLoop group offset (idx + 1) inGroup gs
    else if g = group then
      if inGroup = offset then some idx
      else locateLeafLoop group offset (idx + 1) (inGroup + 1) gs
    else none

/-- The loop of `GroupCount::locate_in_inner`, src/augment/group.rs:235-272. -/
def locateInnerLoop (group : G) : Nat → Nat → List (GroupCount G) → Option (Nat × (G × Nat))
  | _, _, [] => none
  | idx, offset, zero :: gs => locateInnerLoop group (idx + 1) offset gs
  | idx, offset, one g c :: gs =>
    if g < group then locateInnerLoop group (idx + 1) offset gs
    else if g = group then
      if offset < c then some (idx, (group, offset))
      else locateInnerLoop group (idx + 1) (offset - c) gs
    else none
  | idx, offset, multiple _ mx _ :: gs =>
    if mx.1 < group then locateInnerLoop group (idx + 1) offset gs
    else if mx.1 = group then
      if offset < mx.2 then some (idx, (group, offset))
      else locateInnerLoop group (idx + 1) (offset - mx.2) gs
    else some (idx, (group, offset))

/-- `SearchAugmentation for GroupCount`, src/augment/group.rs:206-273. -/
instance [FromRef K G] : SearchAugmentation K V (GroupCount G) (G × Nat) where
  locateInLeaf q keys _ := locateLeafLoop q.1 q.2 0 0 (keys.map FromRef.fromRef)
  locateInInner q _ gs := locateInnerLoop q.1 0 q.2 gs

/-- The loop over the remaining reversed siblings in `fold_inner`, src/augment/group.rs:297-304. -/
def sumSameGroup (g : G) : List (GroupCount G) → Nat
  | [] => 0
  | a :: as => match a.maxGroup? with
    | some (g', c) => if g' = g then c + sumSameGroup g as else 0
    | none => 0

/-- `GroupCount::fold_inner`, src/augment/group.rs:287-312. -/
def foldInner (rank : Option (G × Nat)) (gs : List (GroupCount G)) : Option (G × Nat) :=
  match gs.reverse with
  | [] => none
  | last :: rest => match last.maxGroup? with
    | none => none
    | some (mg, mc) =>
      let size := mc + sumSameGroup mg rest
      match rank with
      | some (g, c) => if g = mg then some (g, c + size) else some (mg, size)
      | none => some (mg, size)

/-- `GroupCount::fold_leaf`, src/augment/group.rs:314-357, on the groups of the leaf's keys. -/
def foldLeaf (gk : G) (rank : Option (G × Nat)) (slot : Slot) (gs : List G) :
    Except (Option (G × Nat)) (Option (G × Nat)) :=
  match gs with
  | [] => .error (some (gk, 0))
  | g0 :: _ =>
    let (group, offset) := rank.getD (g0, 0)
    if group = gk then
      match slot with
      | .found idx => .ok (some (gk, idx + offset))
      | .vacant idx => .error (some (gk, idx + offset))
    else
      let count (idx : Nat) := ((gs.take idx).filter (· = gk)).length
      match slot with
      | .found idx => .ok (some (gk, count idx))
      | .vacant idx => .error (some (gk, count idx))

/-- `RankAugmentation for GroupCount`, src/augment/group.rs:275-358. -/
instance [FromRef K G] : RankAugmentation K V (GroupCount G) (Option (G × Nat)) where
  initialValue := none
  foldInner _ rank gs := foldInner rank gs
  foldLeaf k rank slot keys := foldLeaf (FromRef.fromRef k) rank slot (keys.map FromRef.fromRef)

/-- The loop of `ExtractGroupSize::visit_inner`, src/augment/group.rs:389-417. State: current child
index, `prev_group_count`, `element_count`. `none` is `Cancel`. -/
def extractInnerLoop (group : G) : Nat → Nat → Nat → Nat → List (GroupCount G) →
    Option (Nat × Nat)
  | childIdx, _, _, cnt, [] => some (childIdx, cnt)
  | _, idx, prevCount, cnt, a :: as => match a.maxGroup? with
    | none => none
    | some (mg, mc) =>
      if mg < group then extractInnerLoop group idx (idx + 1) prevCount cnt as
      else if mg = group then extractInnerLoop group idx (idx + 1) mc (cnt + prevCount) as
      else some (idx, cnt + prevCount)

/-- The loop of `ExtractGroupSize::visit_leaf`, src/augment/group.rs:419-429. -/
def extractLeafLoop (group : G) : Nat → List G → Nat
  | cnt, [] => cnt
  | cnt, g :: gs =>
    if g < group then extractLeafLoop group cnt gs
    else if g = group then extractLeafLoop group (cnt + 1) gs
    else cnt

/-- `ExtractGroupSize`, src/augment/group.rs:367-430; the state is `element_count`, initially 0. -/
def extractGroupSize [FromRef K G] (group : G) : Visitor K V (GroupCount G) Nat Nat where
  visitInner cnt _ gs := match extractInnerLoop group 0 0 0 cnt gs with
    | some (childIdx, cnt') => (.goDown childIdx, cnt')
    | none => (.cancel, cnt)
  visitLeaf cnt keys _ := some (extractLeafLoop group cnt (keys.map FromRef.fromRef))

end GroupCount

/-- `Tuple2<T1>` grouping of pairs by their first component, src/augment/group.rs:435-441. -/
structure Tuple2 (T : Type) where
  val : T
deriving DecidableEq

end Bpt
