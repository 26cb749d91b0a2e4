import Mathlib.Data.Finset.Sort
import Verif.Model.Set
import Verif.History

/-!
# Histories of calls on sets, and their specification by finite sets
-/

namespace Bpt
variable {K : Type} [LinearOrder K]

/-- One call on a `BPlusTreeSet`. -/
inductive SetCall (K : Type) where
  | insert (k : K)
  | remove (k : K)
  | contains (k : K)
  | len
  | isEmpty
  | first
  | last
  /-- the first `n` results of `iter()` -/
  | iter (n : Nat)
  /-- any schedule of calls on a clone's `into_iter()` -/
  | intoIter (ds : List Dir)
  | clear

/-- An answer. -/
inductive SetAnswer (K : Type) where
  | flag (b : Bool)
  | number (n : Nat)
  | key (o : Option K)
  | keys (l : List (Option K × Nat))
  | done
deriving DecidableEq

/-- A call on the model. -/
def TreeSet.call (s : TreeSet K) : SetCall K → Res (SetAnswer K × TreeSet K)
  | .insert k => do let (b, s) ← s.insert k; return (.flag b, s)
  | .remove k => do let (b, s) ← s.remove k; return (.flag b, s)
  | .contains k => do let (b, s) ← s.contains k; return (.flag b, s)
  | .len => return (.number s.len, s)
  | .isEmpty => return (.flag s.isEmpty, s)
  | .first => do let o ← s.first; return (.key o, s)
  | .last => do let o ← s.last; return (.key o, s)
  | .iter n => do let r ← s.iterCalls (List.replicate n .front); return (.keys r, s)
  | .intoIter ds => do let r ← s.intoIterCalls ds; return (.keys r, s)
  | .clear => return (.done, s.clear)

/-- A sequence of calls on the model. -/
def TreeSet.run (s : TreeSet K) : List (SetCall K) → Res (List (SetAnswer K) × TreeSet K)
  | [] => return ([], s)
  | c :: cs => do
    let (a, s) ← s.call c
    let (as, s) ← TreeSet.run s cs
    return (a :: as, s)

/-- The elements of a finite set in ascending order. -/
def Spec.ascending (s : Finset K) : List K := s.sort (· ≤ ·)

/-- The same call on a finite set. -/
def Spec.setCall (s : Finset K) : SetCall K → SetAnswer K × Finset K
  | .insert k => (.flag (decide (k ∉ s)), insert k s)
  | .remove k => (.flag (decide (k ∈ s)), s.erase k)
  | .contains k => (.flag (decide (k ∈ s)), s)
  | .len => (.number s.card, s)
  | .isEmpty => (.flag (decide (s = ∅)), s)
  | .first => (.key (Spec.ascending s).head?, s)
  | .last => (.key (Spec.ascending s).getLast?, s)
  | .iter n => (.keys (Spec.pulls (Spec.ascending s) (List.replicate n .front)).1, s)
  | .intoIter ds => (.keys (Spec.pulls (Spec.ascending s) ds).1, s)
  | .clear => (.done, ∅)

/-- The same sequence of calls on a finite set. -/
def Spec.setRun (s : Finset K) : List (SetCall K) → List (SetAnswer K) × Finset K
  | [] => ([], s)
  | c :: cs => ((Spec.setCall s c).1 :: (Spec.setRun (Spec.setCall s c).2 cs).1,
      (Spec.setRun (Spec.setCall s c).2 cs).2)

/-- The elements of a set as observed through `contains`. -/
def SetShows (t : TreeSet K) (s : Finset K) : Prop :=
  ∀ k, ∃ t', t.contains k = .ok (decide (k ∈ s), t')

end Bpt
