import Verif.Props.Demo
import Verif.Proofs.LoneRemove

/-!
# Operations after bulk loading: C19
-/

namespace Bpt
open Spec
variable {K V A : Type} [LinearOrder K] [Augmentation K V A]

/-- **C19 (partial).** After bulk loading sorted data whose leaves can be grouped without a lone child
(for example at most 4160 distinct keys), every later sequence of calls gives the answers of the sorted
association list, without failures. Missing: the other sizes, where a removal can panic
(`C19_remove_panics_refuted`). -/
theorem C19_after_bulk_load_partial (data : List (K × V)) (hd : data.Pairwise (fun a b => a.1 ≤ b.1))
    (hn : EvenlyGrouped (leavesFor (insertAll [] data).length)) (cs : List (Call K V))
    (hl : data.length + cs.length < 2 ^ 64) :
    ∃ (t t' : Tree K V A), Tree.bulkLoad data = .ok t ∧
      t.run cs = .ok ((Spec.run (insertAll [] data) cs).1, t') ∧
      Shows t' (Spec.run (insertAll [] data) cs).2 := by
  have hlen := insertAll_length data
  obtain ⟨t, H, g, h1, h2, _, h4, _⟩ := bulkLoad_ok (A := A) (μ := 1) (by omega) data hd
    (.inr (hn.noLone _))
  have hi : Inv 1 t (insertAll [] data) := ⟨H, g, h2, h4, by rw [h2.len, h4]; omega⟩
  obtain ⟨t', h5, h6⟩ := run_ok (by omega) (by omega) hi cs (by rw [hi.len]; omega)
  exact ⟨t, t', h1, h5, h6.shows⟩

/-- **C19 (partial).** The same for `from_iter` of items in any order. -/
theorem C19_after_from_iter_partial (items : List (K × V))
    (hn : EvenlyGrouped (leavesFor (insertAll [] items).length)) (cs : List (Call K V))
    (hl : items.length + cs.length < 2 ^ 64) :
    ∃ (t t' : Tree K V A), Tree.fromIter items = .ok t ∧
      t.run cs = .ok ((Spec.run (insertAll [] items) cs).1, t') ∧
      Shows t' (Spec.run (insertAll [] items) cs).2 := by
  have hlen := insertAll_length items
  obtain ⟨t, H, g, h1, h2, _, h4, _⟩ := fromIter_ok (A := A) (μ := 1) (by omega) items
    (.inr (hn.noLone _))
  have hi : Inv 1 t (insertAll [] items) := ⟨H, g, h2, h4, by rw [h2.len, h4]; omega⟩
  obtain ⟨t', h5, h6⟩ := run_ok (by omega) (by omega) hi cs (by rw [hi.len]; omega)
  exact ⟨t, t', h1, h5, h6.shows⟩

/-- The sizes that are covered include everything up to 4160 distinct keys. -/
theorem C19_small_partial (items : List (K × V)) (hn : (insertAll [] items).length ≤ 4160)
    (cs : List (Call K V)) (hl : items.length + cs.length < 2 ^ 64) :
    ∃ (t t' : Tree K V A), Tree.fromIter items = .ok t ∧
      t.run cs = .ok ((Spec.run (insertAll [] items) cs).1, t') ∧
      Shows t' (Spec.run (insertAll [] items) cs).2 :=
  C19_after_from_iter_partial items (evenlyGrouped_small (by unfold leavesFor; omega)) cs hl

theorem remove_absent {μ : Nat} {t : Tree K V A} {H : Nat} {g : T K V A H} (w : WF μ t g)
    (hH : H ≤ maxDepth) {k : K} (hk : lookup k g.toL = none) : t.remove k = .ok (none, t) := by
  obtain ⟨c, x, hp, hdesc, hloc⟩ := descend_stack w hH k
  have hcut := hloc.cut w hp
  obtain ⟨i, d⟩ := x
  unfold Tree.remove Tree.removeImpl Tree.keyToRef
  rw [hdesc]
  simp only [ok_bind]
  rw [w.flat.get hcut.eq]
  rcases hcut.split w.sorted with ⟨a, v, b, h0, h1, h2, h3, h4, h5⟩ | ⟨a, b, h0, h1, h2, h3, h4, h5⟩
  · have h3' : g.toL = _ := h3
    rw [h3', lookup_found h4] at hk
    cases hk
  · simp only at h0
    subst h0
    simp only [ok_bind, locateSlot_vacant h1 h2, pure_ok]
    rfl

/-- **C19 (partial).** For every size: each call gives the answer of the sorted association list, or it
is a removal and panics. No call ever gives a wrong answer or accesses memory it should not. -/
theorem C19_right_or_panic_partial {t : Tree K V A} (h : ReachableBulk t) {l : List (K × V)}
    (hl : Shows t l) (c : Call K V) (hn : t.len + 1 < 2 ^ 64) :
    (∃ t', t.call c = .ok ((Spec.call l c).1, t') ∧ Shows t' (Spec.call l c).2) ∨
    (t.call c = .error .panic ∧ ∃ k, c = .remove k ∧ (lookup k l).isSome) := by
  obtain ⟨l', hi⟩ := h.inv
  cases hi.unique hl
  rcases call_ok (by omega) hi hn c with ⟨t', h1, h2⟩ | ⟨_, k, rfl, h1⟩
  · exact .inl ⟨t', h1, h2.shows⟩
  · refine .inr ⟨h1, k, rfl, ?_⟩
    cases hk : lookup k l with
    | some v => rfl
    | none =>
      exfalso
      obtain ⟨H, g, w, rfl, hlt⟩ := hi
      simp only [Tree.call, remove_absent w (w.depth hlt) hk, ok_bind, pure_ok] at h1
      cases h1

/-- **C19 (partial).** Histories without removals behave like the sorted association list after bulk
loading of any size. -/
theorem C19_without_removals_partial {t : Tree K V A} (h : ReachableBulk t) {l : List (K × V)}
    (hl : Shows t l) (cs : List (Call K V)) (hc : ∀ c ∈ cs, ∀ k, c ≠ .remove k)
    (hn : t.len + cs.length < 2 ^ 64) :
    ∃ t', t.run cs = .ok ((Spec.run l cs).1, t') ∧ Shows t' (Spec.run l cs).2 := by
  obtain ⟨l', hi⟩ := h.inv
  cases hi.unique hl
  have key : ∃ t', t.run cs = .ok ((Spec.run l cs).1, t') ∧ Inv 0 t' (Spec.run l cs).2 := by
    clear h hl
    induction cs generalizing t l with
    | nil => exact ⟨t, rfl, hi⟩
    | cons c cs ih =>
      rw [List.length_cons] at hn
      rcases call_ok (by omega) hi (by omega) c with ⟨t1, h1, h2⟩ | ⟨_, k, rfl, _⟩
      · have := call_length l c
        obtain ⟨t2, h3, h4⟩ := ih (fun c hc' => hc c (by simp [hc']))
          (by rw [h2.len]; rw [hi.len] at hn; omega) h2
        exact ⟨t2, by simp only [Tree.run, h1, ok_bind, h3, pure_ok, Spec.run], h4⟩
      · exact absurd rfl (hc _ (by simp) k)
  obtain ⟨t', h1, h2⟩ := key
  exact ⟨t', h1, h2.shows⟩

/-- **C19 is false of the code for every other size.** After bulk loading sorted data whose leaves cannot
be grouped without a lone child, removing the keys one by one from the largest to the smallest panics
before the map is empty. -/
theorem C19_uneven_refuted (data : List (K × V)) (hd : data.Pairwise (fun a b => a.1 ≤ b.1))
    (hn : ¬ EvenlyGrouped (leavesFor (insertAll [] data).length)) (hl : data.length < 2 ^ 64) :
    ∃ t : Tree K V A, Tree.bulkLoad data = .ok t ∧ Shows t (insertAll [] data) ∧
      t.run ((insertAll [] data).reverse.map (fun e => .remove e.1)) = .error .panic := by
  have hlen := insertAll_length data
  obtain ⟨t, H, g, h1, h2, _, h4, h5, _⟩ := bulkLoad_ok (A := A) (μ := 0) (by omega) data hd (.inl rfl)
  have hlt : t.len < 2 ^ 64 := by rw [h2.len, h4]; omega
  have hi : Inv 0 t (insertAll [] data) := ⟨H, g, h2, h4, hlt⟩
  refine ⟨t, h1, hi.shows, ?_⟩
  refine run_removals_lone _ h2 hlt (h5 fun h => hn (evenlyGrouped_of_noLone (by
    unfold leavesFor; omega) h)) (by rw [h4, List.reverse_reverse])

/-- **C19, exact condition.** Every sequence of calls after bulk loading gives the answers of the sorted
association list if and only if the leaves can be grouped, layer by layer, without a lone child. -/
theorem C19_exactly_when (data : List (K × V)) (hd : data.Pairwise (fun a b => a.1 ≤ b.1))
    (hl : 2 * data.length < 2 ^ 64) :
    (∀ cs : List (Call K V), data.length + cs.length < 2 ^ 64 →
      ∃ (t t' : Tree K V A), Tree.bulkLoad data = .ok t ∧
        t.run cs = .ok ((Spec.run (insertAll [] data) cs).1, t') ∧
        Shows t' (Spec.run (insertAll [] data) cs).2) ↔
    EvenlyGrouped (leavesFor (insertAll [] data).length) := by
  constructor
  · intro h
    by_contra hn
    have hlen := insertAll_length data
    obtain ⟨t, h1, _, h2⟩ := C19_uneven_refuted (A := A) data hd hn (by omega)
    obtain ⟨t1, t2, h3, h4, _⟩ := h ((insertAll [] data).reverse.map (fun e => .remove e.1)) (by rw [List.length_map, List.length_reverse]; omega)
    rw [h1] at h3
    cases h3
    rw [h2] at h4
    cases h4
  · exact fun h cs hc => C19_after_bulk_load_partial data hd h cs hc

/-- **C19, exact condition**, for `from_iter` of items in any order. -/
theorem C19_from_iter_exactly_when (items : List (K × V)) (hl : 2 * items.length < 2 ^ 64) :
    (∀ cs : List (Call K V), items.length + cs.length < 2 ^ 64 →
      ∃ (t t' : Tree K V A), Tree.fromIter items = .ok t ∧
        t.run cs = .ok ((Spec.run (insertAll [] items) cs).1, t') ∧
        Shows t' (Spec.run (insertAll [] items) cs).2) ↔
    EvenlyGrouped (leavesFor (insertAll [] items).length) := by
  constructor
  · intro h
    by_contra hn
    have hlen := insertAll_length items
    obtain ⟨t, H, g, h1, h2, _, h4, h5, _⟩ := fromIter_ok (A := A) (μ := 0) (by omega) items (.inl rfl)
    have hlt : t.len < 2 ^ 64 := by rw [h2.len, h4]; omega
    have h6 := run_removals_lone (insertAll [] items).reverse h2 hlt
      (h5 fun h => hn (evenlyGrouped_of_noLone (by unfold leavesFor; omega) h))
      (by rw [h4, List.reverse_reverse])
    obtain ⟨t1, t2, h3, h7, _⟩ := h ((insertAll [] items).reverse.map (fun e => .remove e.1)) (by rw [List.length_map, List.length_reverse]; omega)
    rw [h1] at h3
    cases h3
    rw [h6] at h7
    cases h7
  · exact fun h cs hc => C19_after_from_iter_partial items h cs hc

/-- Is the result a panic? -/
def isPanic {α : Type} : Res α → Bool
  | .error .panic => true
  | _ => false

/-- 4161 items: 66 leaves, grouped as 65 + 1. -/
def loneItems : List (Nat × Unit) := (List.range 4161).map (fun i => (i, ()))

/-- **C19 is false of the code.** Bulk loading 4161 items works, but then removing the largest key
panics: its leaf is underfull and has no sibling to borrow from or to merge with
(`unreachable!()`, tree_remove.rs:186). -/
theorem C19_remove_panics_refuted :
    ∃ t : Tree Nat Unit Unit, Tree.bulkLoad loneItems = .ok t ∧
      Shows t loneItems ∧ t.remove 4160 = .error .panic := by
  have h1 : isPanic ((Tree.bulkLoad loneItems : Res (Tree Nat Unit Unit)) >>= fun t => t.remove 4160)
      = true := by decide +kernel
  have hs : Sorted loneItems := by
    unfold loneItems Sorted
    rw [List.pairwise_map]
    exact List.pairwise_lt_range
  obtain ⟨t, H, g, h2, h3, _, h4, _⟩ := bulkLoad_ok (A := Unit) (μ := 0) (by omega) loneItems
    (hs.imp (fun h => h.le)) (.inl rfl)
  rw [insertAll_of_sorted hs] at h4
  rw [h2, ok_bind] at h1
  refine ⟨t, h2, ?_, ?_⟩
  · exact Inv.shows ⟨H, g, h3, h4, by rw [h3.len, h4, loneItems, List.length_map, List.length_range]; omega⟩
  · cases hr : t.remove 4160 with
    | ok r => rw [hr] at h1; cases h1
    | error f => rw [hr] at h1; cases f <;> first | rfl | cases h1

/-- The condition of the partial theorem is decided by the number of distinct keys: 4160 is fine, 4161 is
not, 4225 is again. -/
example : EvenlyGrouped (leavesFor 4160) := evenlyGrouped_small (by decide)
example : ¬ EvenlyGrouped (leavesFor 4161) := by
  intro h
  cases h with
  | root h => exact absurd h (by decide)
  | layer h _ => exact absurd h (by decide)
example : EvenlyGrouped (leavesFor 4225) :=
  .layer (by decide) (evenlyGrouped_small (by decide))

/-- The condition is not met by 4161 items, so some history of the loaded map panics. -/
example : ∃ t : Tree Nat Unit Unit, Tree.bulkLoad loneItems = .ok t ∧
    t.run ((insertAll [] loneItems).reverse.map (fun e => .remove e.1)) = .error .panic := by
  have hs : Sorted loneItems := by
    unfold loneItems Sorted
    rw [List.pairwise_map]
    exact List.pairwise_lt_range
  obtain ⟨t, h1, _, h2⟩ := C19_uneven_refuted (A := Unit) loneItems (hs.imp (fun h => h.le))
    (by
      rw [insertAll_of_sorted hs, loneItems, List.length_map, List.length_range]
      intro h
      cases h with
      | root h => exact absurd h (by decide)
      | layer h _ => exact absurd h (by decide))
    (by rw [loneItems, List.length_map, List.length_range]; decide)
  exact ⟨t, h1, h2⟩

/-- 500 items, then removals, insertions and reads. -/
example : ∃ t t' : Tree Nat Nat Count, Tree.bulkLoad demoBulkItems = .ok t ∧
    t.run [.remove 499, .remove 0, .insert 1000 1, .len] =
      .ok ([.value (some 499), .value (some 0), .value none, .number 499], t') := by
  obtain ⟨t, t', h1, h2, _⟩ := C19_after_bulk_load_partial (A := Count) demoBulkItems
    (demoBulkItems_sorted.imp (fun h => h.le))
    (by rw [insertAll_of_sorted demoBulkItems_sorted]; exact evenlyGrouped_small (by decide +kernel))
    [.remove 499, .remove 0, .insert 1000 1, .len] (by simp [demoBulkItems])
  refine ⟨t, t', h1, ?_⟩
  have e : (Spec.run demoBulkItems [.remove 499, .remove 0, .insert 1000 1, .len]).1
      = [.value (some 499), .value (some 0), .value none, .number 499] := by decide +kernel
  rw [h2, insertAll_of_sorted demoBulkItems_sorted, e]

example := C19_after_from_iter_partial (A := Count) demoBulkItems
  (by rw [insertAll_of_sorted demoBulkItems_sorted]; exact evenlyGrouped_small (by decide +kernel))
  [.remove 499, .insert 1000 1] (by decide +kernel)
example := C19_small_partial (A := Count) demoBulkItems
  (by rw [insertAll_of_sorted demoBulkItems_sorted]; decide +kernel) [.remove 499] (by decide +kernel)
example := C19_right_or_panic_partial demoBulk_reach.mut demoBulk_load.2.shows (.remove 499)
  (by decide +kernel)
example := C19_without_removals_partial demoBulk_reach.mut demoBulk_load.2.shows
  [.insert 1000 1, .get 1000] (by simp) (by decide +kernel)
example := C19_exactly_when (A := Count) demoBulkItems (demoBulkItems_sorted.imp (fun h => h.le))
  (by decide +kernel)
example := C19_from_iter_exactly_when (A := Count) demoBulkItems.reverse (by decide +kernel)

end Bpt
