import Verif.Model.Crash
import Verif.Model.Visit

/-!
# Panics in the user's searches, ranks and visitors

The functions of `Model/Visit.lean` again, listing the user code they call and the memory in which it
runs (see `Model/Crash.lean`). They borrow the map immutably until the search is over.
-/

namespace Bpt
variable {K V A : Type}

/-- The root-to-leaf loops, see `descend`, with a step that calls user code. -/
def descendT {σ β τ : Type} (s : Store K V A)
    (step : σ → Nat → Inner K A → Traced τ (β ⊕ (σ × NodeId))) :
    Nat → σ → NodeId → Traced τ (β ⊕ (σ × Nat))
  | _, st, .leaf i => return .inr (st, i)
  | 0, _, .inner _ => (.error .fuel : Res _)
  | fuel + 1, st, .inner i => do
    let node ← s.getInner i
    match ← step st i node with
    | .inl b => return .inl b
    | .inr (st', c) => descendT s step fuel st' c

section Search
variable {Q : Type} [SearchAugmentation K V A Q]

/-- Inner step of `get_ref_by_augmentation`, src/tree/mod.rs:678-690: `locate_in_inner` is given the
keys and the augmentations of the node. -/
def searchStepT (t : Tree K V A) (st : List StackEntry × Q) (i : Nat) (n : Inner K A) :
    Traced (Tree K V A) (Unit ⊕ ((List StackEntry × Q) × NodeId)) := do
  Traced.call (.query n.keys.length n.augs.length) t
  (searchStep V st i n : Res _)

/-- `get_ref_by_augmentation`, src/tree/mod.rs:669-703: `locate_in_leaf` is given the keys and the values
of the leaf. -/
def Tree.getRefByAugmentationT (t : Tree K V A) (q : Q) : Traced (Tree K V A) (Option EntryRef) := do
  match ← descendT t.store (searchStepT t) t.store.fuel ([], q) t.root with
  | .inl () => return none
  | .inr ((stack, q), leafId) =>
    let leaf ← t.store.getLeaf leafId
    Traced.call (.query leaf.keys.length leaf.values.length) t
    match SearchAugmentation.locateInLeaf A q leaf.keys leaf.values with
    | none => return none
    | some slot => return some ⟨stack, leafId, slot⟩

/-- `get_by_augmentation` with `get_by_ref`, src/tree/mod.rs:706-712, 770-774. -/
def Tree.getByAugmentationT (t : Tree K V A) (q : Q) : Traced (Tree K V A) (Option (K × V)) := do
  match ← t.getRefByAugmentationT q with
  | none => return none
  | some e =>
    let leaf ← t.store.getLeaf e.leafId
    let kv ← leaf.dataAt e.offset
    return some kv

/-- `get_mut_by_augmentation` with `get_mut_by_ref`, src/tree/mod.rs:715-723, 777-788, followed by the
caller updating the value with `f` (outside the call). -/
def Tree.getMutByAugmentationT (t : Tree K V A) (q : Q) (f : V → V) :
    Traced (Tree K V A) (Option V × Tree K V A) := do
  match ← t.getRefByAugmentationT q with
  | none => return (none, t)
  | some e =>
    let leaf ← t.store.getLeaf e.leafId
    let kv ← leaf.dataAt e.offset
    let leaf := { leaf with data := leaf.data.set e.offset (kv.1, f kv.2) }
    return (some kv.2, { t with store := t.store.setLeaf e.leafId leaf })

/-- `remove_by_augmentation`, src/tree/mod.rs:761-767. -/
def Tree.removeByAugmentationT [Augmentation K V A] (t : Tree K V A) (q : Q) :
    Traced (Tree K V A) (Option (K × V) × Tree K V A) := do
  match ← t.getRefByAugmentationT q with
  | none => return (none, t)
  | some e =>
    let (kv, t) ← t.removeByRefT e
    return (some kv, t)

end Search

section Rank
variable {R : Type} [RankAugmentation K V A R] [LinearOrder K]

/-- Inner step of `rank_by_augmentation`, src/tree/mod.rs:735-745: the comparisons of `locate_child`,
then `fold_inner`, which is given the augmentations before the child. -/
def rankStepT (t : Tree K V A) (k : K) (rank : R) (_ : Nat) (n : Inner K A) :
    Traced (Tree K V A) (Empty ⊕ (R × NodeId)) := do
  Traced.call .compare t
  let (idx, c) ← n.locateChild k
  if ¬ idx ≤ n.augs.length then (.error .panic : Res Unit)
  Traced.call (.query 0 idx) t
  return .inr (RankAugmentation.foldInner V k rank (n.augs.take idx), c)

/-- `rank_by_augmentation`, src/tree/mod.rs:726-758: `initial_value` first, then at the leaf the
comparisons of `locate_slot` and `fold_leaf`, which is given the keys. -/
def Tree.rankByAugmentationT (t : Tree K V A) (k : K) : Traced (Tree K V A) (Except R R) := do
  Traced.call (.query 0 0) t
  match ← descendT t.store (rankStepT t k) t.store.fuel (RankAugmentation.initialValue K V A) t.root with
  | .inl e => nomatch e
  | .inr (rank, leafId) =>
    let leaf ← t.store.getLeaf leafId
    Traced.call .compare t
    Traced.call (.query leaf.keys.length 0) t
    return RankAugmentation.foldLeaf V A k rank (leaf.locateSlot k) leaf.keys

end Rank

/-- Inner step of `descend_visit`, src/tree/visit.rs:32-51: `visit_inner` is given the keys and the
augmentations of the node. -/
def visitStepT {σ R : Type} (t : Tree K V A) (v : Visitor K V A σ R) (st : σ) (i : Nat) (n : Inner K A) :
    Traced (Tree K V A) (Option R ⊕ (σ × NodeId)) := do
  Traced.call (.query n.keys.length n.augs.length) t
  (visitStep v st i n : Res _)

/-- `descend_visit`, src/tree/visit.rs:25-58: `visit_leaf` is given the keys and the values of the
leaf. -/
def Tree.descendVisitT {σ R : Type} (t : Tree K V A) (v : Visitor K V A σ R) (st : σ) :
    Traced (Tree K V A) (Option R) := do
  match ← descendT t.store (visitStepT t v) t.store.fuel st t.root with
  | .inl r => return r
  | .inr (st, leafId) =>
    let leaf ← t.store.getLeaf leafId
    Traced.call (.query leaf.keys.length leaf.values.length) t
    return v.visitLeaf st leaf.keys leaf.values

end Bpt
