import Verif.Proofs.SearchCrash
import Verif.Props.Searches
import Verif.Props.Crash

/-!
# C64: panics in a user's search, rank or visitor

The traced calls run a call and also list the pieces of user code it calls, each with the map as it is in
memory at that moment: the map a caller sees who catches the panic. `Verif/QuerySpec.lean` says, on the
nested tree that visitors see, which nodes the user's code is shown on its way.
-/

namespace Bpt
open Spec
variable {K V A Q R σ : Type}

/-- **C64.** The traced calls are the calls of the model. -/
theorem C64_program [LinearOrder K] [Augmentation K V A] [SearchAugmentation K V A Q]
    [RankAugmentation K V A R] (t : Tree K V A) (q : Q) (f : V → V) (k : K) (v : Visitor K V A σ R) (st : σ) :
    (t.getByAugmentationT q).result = t.getByAugmentation q ∧
    (t.getMutByAugmentationT q f).result = t.getMutByAugmentation q f ∧
    (t.removeByAugmentationT q).result = t.removeByAugmentation q ∧
    (t.rankByAugmentationT k).result = t.rankByAugmentation (R := R) k ∧
    (t.descendVisitT v st).result = t.descendVisit v st :=
  ⟨getByT_result t q, getMutByT_result t q f, removeByT_result t q, rankByT_result t k,
    descendVisitT_result t v st⟩

section
variable [LinearOrder K] [Augmentation K V A] {t : Tree K V A}

/-- **C64, searches.** `get_by_augmentation` and `get_mut_by_augmentation` show the user's search each
node on its way once, with all its keys and all its augmentations or values; whichever of these calls
panics, the map is exactly the map before. No condition on the answers of the search. -/
theorem C64_search [SearchAugmentation K V A Q] (h : ReachableBulk t) {s : STree K V A} (hs : Explored t s)
    (q : Q) (f : V → V) :
    (t.getByAugmentationT q).trace = (s.asked q).map (·, t) ∧
    (t.getMutByAugmentationT q f).trace = (s.asked q).map (·, t) := by
  obtain ⟨H, g, w, hlt, -⟩ := h.wf
  rw [explored_unique hs w.explored]
  have h1 := getRefT_trace w.base (w.depth hlt) q
  constructor
  · unfold Tree.getByAugmentationT
    rw [Traced.trace_bind, h1]
    cases (t.getRefByAugmentationT q).result with
    | error e => simp
    | ok r =>
      cases r with
      | none => simp
      | some e =>
        simp only [Traced.trace_bind, Traced.trace_lift, Traced.trace_lift', Traced.result_lift, Traced.result_lift']
        cases t.store.getLeaf e.leafId with
        | error e => simp
        | ok l =>
          simp only [List.append_nil, List.nil_append]
          cases l.dataAt e.offset <;> simp
  · unfold Tree.getMutByAugmentationT
    rw [Traced.trace_bind, h1]
    cases (t.getRefByAugmentationT q).result with
    | error e => simp
    | ok r =>
      cases r with
      | none => simp
      | some e =>
        simp only [Traced.trace_bind, Traced.trace_lift, Traced.trace_lift', Traced.result_lift, Traced.result_lift']
        cases t.store.getLeaf e.leafId with
        | error e => simp
        | ok l =>
          simp only [List.append_nil, List.nil_append]
          cases l.dataAt e.offset <;> simp

/-- **C64, visitors.** `descend_visit` shows the visitor each node on its way once, with all its keys and
all its augmentations or values; whichever call panics, the map is exactly the map before. -/
theorem C64_visit (h : ReachableBulk t) {s : STree K V A} (hs : Explored t s) (v : Visitor K V A σ R) (st : σ) :
    (t.descendVisitT v st).trace = (s.shown v st).map (·, t) := by
  obtain ⟨H, g, w, hlt, -⟩ := h.wf
  rw [explored_unique hs w.explored]
  exact descendVisitT_trace w.base v st

/-- **C64, ranks.** `rank_by_augmentation` calls `initial_value` first, then for each node on the way to
`k` compares keys and folds in the augmentations left of `k`, at the leaf its keys; whichever call panics,
the map is exactly the map before. -/
theorem C64_rank [RankAugmentation K V A R] (h : ReachableBulk t) {s : STree K V A} (hs : Explored t s) (k : K) :
    (t.rankByAugmentationT (R := R) k).trace = (.query 0 0 :: s.folded k).map (·, t) := by
  obtain ⟨H, g, w, hlt, -⟩ := h.wf
  rw [explored_unique hs w.explored]
  exact rankByT_trace w k

/-- **C64, removing.** `remove_by_augmentation` first makes the calls of the search, on the map as it was.
If the search ends at an item, the calls of user code after that are, in the same memory, exactly those
that `remove` of the item's key makes after its comparisons; so all that C45, C53 and C62 say about a
panic during `remove` holds. If it gives up or names a child that does not exist there are no more calls.
(If it names an item that does not exist, the call does not return, C63.) -/
theorem C64_remove [SearchAugmentation K V A Q] (h : ReachableBulk t) {s : STree K V A} (hs : Explored t s)
    (q : Q) (early : Bool) :
    match s.search q with
    | .entry e => ∃ rest, (t.ucallT ((Call.remove (V := V) e.1).answers early) .remove).trace = (.compare, t) :: rest ∧
        (t.removeByAugmentationT q).trace = (s.asked q).map (·, t) ++ rest
    | .nothing => (t.removeByAugmentationT q).trace = (s.asked q).map (·, t)
    | .noChild => (t.removeByAugmentationT q).trace = (s.asked q).map (·, t)
    | .noItem => ∀ cb t', (cb, t') ∈ (s.asked q).map (·, t) → (cb, t') ∈ (t.removeByAugmentationT q).trace := by
  obtain ⟨H, g, w, hlt, -⟩ := h.wf
  rw [explored_unique hs w.explored, toS_search]
  have h1 := removeByT_trace w (w.depth hlt) early q
  generalize hg : g.searchEnd q = o at h1 ⊢
  cases o with
  | nothing => exact h1
  | noChild => exact h1
  | entry e =>
    obtain ⟨rest, h2, h3⟩ := h1
    refine ⟨rest, ?_, h3⟩
    show (t.removeT (.ofOrder early e.1) >>= fun r => pure _).trace = _
    rw [Traced.trace_bind, h2]
    cases (t.removeT (.ofOrder early e.1)).result <;> simp
  | noItem =>
    intro cb t' hm
    rw [← getRefT_trace w.base (w.depth hlt) q] at hm
    exact Traced.mem_bind.2 (.inl hm)

/-- **C64, dropping the map after a panic in `remove_by_augmentation`.** A panic in the search loses
nothing. After a panic in any other user code dropping the map panics if the leaf that the last children
lead to is still there, and is undefined behaviour if it is gone (as for `remove`, see C45). -/
theorem C64_remove_drop [SearchAugmentation K V A Q] (h : ReachableEven t) {s : STree K V A}
    (hs : Explored t s) (q : Q) (hq : s.search q ≠ .noItem) (cb : Callback) (t' : Tree K V A)
    (ht : (cb, t') ∈ (t.removeByAugmentationT q).trace) :
    t' = t ∨ ∃ j, t'.lastLeaf = .ok j ∧
      ((∃ leaf, t'.store.leaves[j]? = some (some leaf)) → t'.drop = .error .panic) ∧
      ((¬ ∃ leaf, t'.store.leaves[j]? = some (some leaf)) → t'.drop = .error .ub) := by
  have h1 := C64_remove h.bulk hs q true
  have hn : ∀ {cb t'}, (cb, t') ∈ (s.asked q).map (·, t) → t' = t := by
    intro cb t' hm
    obtain ⟨_, -, hx⟩ := List.mem_map.1 hm
    exact (Prod.mk.inj hx).2.symm
  cases ho : s.search q with
  | nothing => rw [ho] at h1; rw [h1] at ht; exact .inl (hn ht)
  | noChild => rw [ho] at h1; rw [h1] at ht; exact .inl (hn ht)
  | noItem => exact absurd ho hq
  | entry e =>
    rw [ho] at h1
    obtain ⟨rest, h2, h3⟩ := h1
    rw [h3, List.mem_append] at ht
    rcases ht with ht | ht
    · exact .inl (hn ht)
    · obtain ⟨H, g, w, hlt, -⟩ := h.wf
      have hu : UInvM 1 t g.toL := ⟨⟨H, g, w.base, rfl⟩, hlt, by omega⟩
      have hm : (cb, t') ∈ (t.ucallT ((Call.remove (V := V) e.1).answers true) .remove).trace := by
        rw [h2]; exact List.mem_cons_of_mem _ ht
      by_cases hc : cb = .compare
      · subst hc
        have : (t.ucallT ((Call.remove (V := V) e.1).answers true) .remove).All
            (fun c m => c = .compare → m = t) :=
          Traced.all_bind (removeT_compare _ t) fun _ _ => Traced.all_pure
        exact .inl (this _ _ hm rfl)
      · obtain ⟨j, e1, e2⟩ := Traced.all_bind (removeT_exact (by omega) hu _)
          (fun _ _ => Traced.all_pure) cb t' hm hc
        refine .inr ⟨j, e1, fun h => ?_, fun h => ?_⟩
        · rw [e2, if_pos h]
        · rw [e2, if_neg h]

end

/-! ### Concrete cases -/

/-- A map with two leaves, of 64 and 16 items (`Props/Searches.lean`), and a search for item 3 of the second. -/
example : (wild.getByAugmentationT (1, 3)).trace.map (·.1) = [.query 1 2, .query 16 16] ∧
    (wild.removeByAugmentationT (1, 3)).trace.map (·.1) =
      [.query 1 2, .query 16 16, .fromLeaf 63, .cloneKey, .fromLeaf 16, .fromInner 1 2] := by
  decide +kernel

/-- A rank: `initial_value`, the comparisons and `fold_inner` at the root, the comparisons and
`fold_leaf` at the leaf. -/
example : (demo.rankByAugmentationT (R := Nat) 40).trace.map (·.1) =
    [.query 0 0, .compare, .query 0 0, .compare, .query 45 0] := by decide +kernel

example : ∃ s : STree Nat Nat Wild, Explored wild s ∧
    (wild.getByAugmentationT (1, 3)).trace = (s.asked (1, 3)).map (·, wild) := by
  obtain ⟨H, s, h1, -⟩ := C10_structure_bulk wild_even.bulk wild_load.2.shows
  exact ⟨s, h1, (C64_search wild_even.bulk h1 (1, 3) id).1⟩

example : ∃ s : STree Nat Nat Wild, Explored wild s ∧ s.search ((1, 3) : Nat × Nat) = .entry (67, 67) ∧
    ∃ rest, (wild.ucallT ((Call.remove (V := Nat) 67).answers true) .remove).trace = (.compare, wild) :: rest ∧
      (wild.removeByAugmentationT (1, 3)).trace = (s.asked (1, 3)).map (·, wild) ++ rest := by
  obtain ⟨H, s, h1, -⟩ := C10_structure_bulk wild_even.bulk wild_load.2.shows
  have h3 := C63_get wild_even.bulk h1 ((1, 3) : Nat × Nat)
  have h4 := C64_remove wild_even.bulk h1 ((1, 3) : Nat × Nat) true
  have h5 : wild.getByAugmentation (1, 3) = .ok (some (67, 67)) := by decide +kernel
  rw [h5] at h3
  refine ⟨s, h1, ?_⟩
  cases ho : s.search ((1, 3) : Nat × Nat) with
  | entry e => rw [ho] at h3 h4; cases h3; exact ⟨rfl, h4⟩
  | nothing => rw [ho] at h3; cases h3
  | noItem => rw [ho] at h3; cases h3
  | noChild => rw [ho] at h3; cases h3

example := C64_program (A := Count) (R := Nat) (σ := Unit) demo 5 id 7
example : ∃ s : STree Nat Nat Count, Explored demo s ∧
    (demo.rankByAugmentationT (R := Nat) 40).trace = (.query 0 0 :: s.folded 40).map (·, demo) := by
  obtain ⟨H, s, h1, -⟩ := C10_structure_bulk demo_reach.mut.bulk demo_shows
  exact ⟨s, h1, C64_rank demo_reach.mut.bulk h1 40⟩
example (v : Visitor Nat Nat Count Unit Nat) : ∃ s : STree Nat Nat Count, Explored demo s ∧
    (demo.descendVisitT v ()).trace = (s.shown v ()).map (·, demo) := by
  obtain ⟨H, s, h1, -⟩ := C10_structure_bulk demo_reach.mut.bulk demo_shows
  exact ⟨s, h1, C64_visit demo_reach.mut.bulk h1 v ()⟩
example (s : STree Nat Nat Wild) (h1 : Explored wild s) (cb : Callback) (t' : Tree Nat Nat Wild)
    (ht : (cb, t') ∈ (wild.removeByAugmentationT (1, 3)).trace) : t' = wild ∨ ∃ f, t'.drop = .error f := by
  have h3 := C63_get wild_even.bulk h1 ((1, 3) : Nat × Nat)
  have h5 : wild.getByAugmentation (1, 3) = .ok (some (67, 67)) := by decide +kernel
  rw [h5] at h3
  rcases C64_remove_drop wild_even h1 (1, 3) (fun h => by rw [h] at h3; cases h3) cb t' ht with h | ⟨j, -, h6, h7⟩
  · exact .inl h
  · exact .inr (by by_cases h : ∃ leaf, t'.store.leaves[j]? = some (some leaf)
                   · exact ⟨_, h6 h⟩
                   · exact ⟨_, h7 h⟩)

end Bpt
