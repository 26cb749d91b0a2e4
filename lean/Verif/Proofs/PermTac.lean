import Mathlib.Tactic.Abel
import Mathlib.Algebra.Order.Group.Multiset

/-!
# A tactic for permutations of concatenations
-/

/-- Proves that two concatenations are permutations of each other. -/
macro "perm" : tactic => `(tactic| (
  refine Multiset.coe_eq_coe.1 ?_
  simp only [List.map_append, List.map_cons, List.map_nil, List.flatMap_append, List.flatMap_cons,
    List.flatMap_nil, List.append_nil, List.nil_append, ← Multiset.coe_add, ← Multiset.cons_coe,
    ← Multiset.singleton_add, List.cons_append, List.append_assoc]
  try abel))
