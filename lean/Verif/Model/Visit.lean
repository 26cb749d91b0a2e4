import Verif.Model.Remove

/-!
# Queries through augmentations (src/tree/mod.rs:669-788) and `descend_visit` (src/tree/visit.rs)
-/

namespace Bpt
variable {K V A : Type}

section Search
variable {Q : Type} [SearchAugmentation K V A Q]

variable (V) in
/-- Inner step of `get_ref_by_augmentation`, src/tree/mod.rs:678-690. `none` is the early return of
`?`. -/
def searchStep (st : List StackEntry × Q) (i : Nat) (n : Inner K A) :
    Res (Unit ⊕ ((List StackEntry × Q) × NodeId)) :=
  match SearchAugmentation.locateInInner V st.2 n.keys n.augs with
  | none => return .inl ()
  | some (offset, q) => do
    let c ← n.childId offset
    let stack ← pushStack st.1 (i, offset, c)
    return .inr ((stack, q), c)

/-- `get_ref_by_augmentation`, src/tree/mod.rs:669-703. -/
def Tree.getRefByAugmentation (t : Tree K V A) (q : Q) : Res (Option EntryRef) := do
  match ← descend t.store (searchStep V) t.store.fuel ([], q) t.root with
  | .inl () => return none
  | .inr ((stack, q), leafId) =>
    let leaf ← t.store.getLeaf leafId
    match SearchAugmentation.locateInLeaf A q leaf.keys leaf.values with
    | none => return none
    | some slot => return some ⟨stack, leafId, slot⟩

/-- `get_by_augmentation` with `get_by_ref`, src/tree/mod.rs:706-712, 770-774. -/
def Tree.getByAugmentation (t : Tree K V A) (q : Q) : Res (Option (K × V)) := do
  match ← t.getRefByAugmentation q with
  | none => return none
  | some e =>
    let leaf ← t.store.getLeaf e.leafId
    let kv ← leaf.dataAt e.offset
    return some kv

/-- `get_mut_by_augmentation` with `get_mut_by_ref`, src/tree/mod.rs:715-723, 777-788, followed by
the caller updating the value with `f`. Returns the value before. -/
def Tree.getMutByAugmentation (t : Tree K V A) (q : Q) (f : V → V) :
    Res (Option V × Tree K V A) := do
  match ← t.getRefByAugmentation q with
  | none => return (none, t)
  | some e =>
    let leaf ← t.store.getLeaf e.leafId
    let kv ← leaf.dataAt e.offset
    let leaf := { leaf with data := leaf.data.set e.offset (kv.1, f kv.2) }
    return (some kv.2, { t with store := t.store.setLeaf e.leafId leaf })

/-- `remove_by_augmentation`, src/tree/mod.rs:761-767. -/
def Tree.removeByAugmentation [Augmentation K V A] (t : Tree K V A) (q : Q) :
    Res (Option (K × V) × Tree K V A) := do
  match ← t.getRefByAugmentation q with
  | none => return (none, t)
  | some e =>
    let (kv, t) ← t.removeByRef e
    return (some kv, t)

end Search

section Rank
variable {R : Type} [RankAugmentation K V A R] [LinearOrder K]

variable (V) in
/-- Inner step of `rank_by_augmentation`, src/tree/mod.rs:735-745. `augmentations()[0..child_idx]`
is a checked slice. -/
def rankStep (k : K) (rank : R) (_ : Nat) (n : Inner K A) : Res (R × NodeId) := do
  let (idx, c) ← n.locateChild k
  if ¬ idx ≤ n.augs.length then .error .panic
  return (RankAugmentation.foldInner V k rank (n.augs.take idx), c)

/-- `rank_by_augmentation`, src/tree/mod.rs:726-758. -/
def Tree.rankByAugmentation (t : Tree K V A) (k : K) : Res (Except R R) := do
  let (rank, leafId) ← descendLeaf t.store (rankStep V k)
    (RankAugmentation.initialValue K V A) t.root
  let leaf ← t.store.getLeaf leafId
  return RankAugmentation.foldLeaf V A k rank (leaf.locateSlot k) leaf.keys

end Rank

/-- `DescendVisitResult`, src/tree/visit.rs:13-21. -/
inductive VisitResult (R : Type) where
  | goDown (idx : Nat)
  | cancel
  | complete (r : R)

/-- `DescendVisit`, src/tree/visit.rs:6-11, as a state machine: `visit_inner` takes `&mut self`. -/
structure Visitor (K V A σ R : Type) where
  visitInner : σ → List K → List A → VisitResult R × σ
  visitLeaf : σ → List K → List V → Option R

/-- Inner step of `descend_visit`, src/tree/visit.rs:32-51. -/
def visitStep {σ R : Type} (v : Visitor K V A σ R) (st : σ) (_ : Nat) (n : Inner K A) :
    Res (Option R ⊕ (σ × NodeId)) :=
  match v.visitInner st n.keys n.augs with
  | (.goDown idx, st') =>
    if n.len < idx then .error .panic else do
      let c ← n.childId idx
      return .inr (st', c)
  | (.cancel, _) => return .inl none
  | (.complete r, _) => return .inl (some r)

/-- `descend_visit`, src/tree/visit.rs:25-58. -/
def Tree.descendVisit {σ R : Type} (t : Tree K V A) (v : Visitor K V A σ R) (st : σ) :
    Res (Option R) := do
  match ← descend t.store (visitStep v) t.store.fuel st t.root with
  | .inl r => return r
  | .inr (st, leafId) =>
    let leaf ← t.store.getLeaf leafId
    return v.visitLeaf st leaf.keys leaf.values

end Bpt
