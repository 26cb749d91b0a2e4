import Verif.Model.Crash
import Verif.Structure

/-!
# Specification: which nodes a search, a rank or a visitor is shown

On the nested tree of `Verif/Structure.lean`: the calls of user code on the way from the root to a leaf,
in order, each with the sizes of the two slices it is given.
-/

namespace Bpt
variable {K V A Q : Type}

namespace STree

mutual
/-- The calls a search makes. -/
def asked [SearchAugmentation K V A Q] (q : Q) : STree K V A → List Callback
  | leaf d => [.query d.length d.length]
  | node keys augs kids => .query keys.length augs.length ::
    match SearchAugmentation.locateInInner V q keys augs with
    | none => []
    | some (i, q') => askedNth q' i kids
/-- Go on in the child with index `i`, if there is one. -/
def askedNth [SearchAugmentation K V A Q] (q : Q) (i : Nat) : List (STree K V A) → List Callback
  | [] => []
  | c :: cs => match i with
    | 0 => c.asked q
    | i + 1 => askedNth q i cs
end

mutual
/-- The calls of a visitor. -/
def shown {σ R : Type} (v : Visitor K V A σ R) (st : σ) : STree K V A → List Callback
  | leaf d => [.query d.length d.length]
  | node keys augs kids => .query keys.length augs.length ::
    match v.visitInner st keys augs with
    | (.goDown i, st') => shownNth v st' i kids
    | _ => []
/-- Go on in the child with index `i`, if there is one. -/
def shownNth {σ R : Type} (v : Visitor K V A σ R) (st : σ) (i : Nat) : List (STree K V A) → List Callback
  | [] => []
  | c :: cs => match i with
    | 0 => c.shown v st
    | i + 1 => shownNth v st i cs
end

mutual
/-- The calls made while computing the rank of `k`: at each inner node the comparisons and the
augmentations of the children left of `k`, at the leaf the comparisons and all its keys. -/
def folded [LinearOrder K] (k : K) : STree K V A → List Callback
  | leaf d => [.compare, .query d.length 0]
  | node keys _ kids => .compare :: .query 0 (keys.countP (· ≤ k)) :: foldedNth k (keys.countP (· ≤ k)) kids
/-- Go on in the child with index `i`. -/
def foldedNth [LinearOrder K] (k : K) (i : Nat) : List (STree K V A) → List Callback
  | [] => []
  | c :: cs => match i with
    | 0 => c.folded k
    | i + 1 => foldedNth k i cs
end

end STree
end Bpt
