import Verif.Model.DropPanic

/-!
# What C59 says about destructors that panic
-/

namespace Bpt
namespace Raw
variable {K V A : Type}

/-- The elements up to and including the first one with `p`. -/
def upTo {α : Type} (p : α → Bool) : List α → List α
  | [] => []
  | x :: xs => x :: (if p x then [] else upTo p xs)

/-- The elements up to and including the `n`-th one with `p`. -/
def upToNth {α : Type} (p : α → Bool) : Nat → List α → List α
  | 0, _ => []
  | _ + 1, [] => []
  | n + 1, x :: xs => x :: (if p x then upToNth p n xs else upToNth p (n + 1) xs)

/-- The destructor of the key or that of the value of the item panics. -/
def itemBomb (bomb : Destroyed K V A → Bool) (kv : K × V) : Bool := bomb (.key kv.1) || bomb (.value kv.2)

/-- The destructors of the items `l`, in order, if the ones after a panicking item are left out. -/
def itemsLog (bomb : Destroyed K V A → Bool) (l : List (K × V)) : List (Destroyed K V A) :=
  (upTo (itemBomb bomb) l).flatMap (fun kv => [.key kv.1, .value kv.2])

/-- The keys and augmentations that an inner node holds. -/
def nodeOwns (o : Option (InnerS K A)) : List (Destroyed K V A) :=
  match o with
  | none => []
  | some n => n.ks.present.map .key ++ n.as.present.map .aug

/-- The destructors of the inner nodes, in order; in each node those after a panicking one are left out. -/
def nodesLog (bomb : Destroyed K V A → Bool) (os : List (Option (InnerS K A))) : List (Destroyed K V A) :=
  os.flatMap (fun o => upTo bomb (nodeOwns o))

/-- How a run of the destructors `log` ends. -/
def endOf (bomb : Destroyed K V A → Bool) (log : List (Destroyed K V A)) : Ending :=
  match log.countP bomb with
  | 0 => .done
  | 1 => .unwound
  | _ => .aborted

end Raw
end Bpt
