import Verif.Proofs.Shape
import Verif.Props.Structure
import Verif.Props.Loads
import Verif.Props.Unordered

/-!
# C61: the shape of a bulk-loaded map; C46: the shape of a map whatever the comparisons answer

`Verif/ShapeSpec.lean` says what a packed tree is. `Explored t s`: no visitor can tell the map `t` from
the nested tree `s` (`Verif/Structure.lean`).
-/

namespace Bpt
variable {K V A : Type} [Augmentation K V A]

/-! ## C61 -/

/-- **C61.** Whatever the order of the data and whatever `==` answers, `bulk_load` succeeds and makes the
packed tree of the items it keeps: leaves of 64 items, nodes of 65 children, the rest in the last one of
each level, between two children the first key of the right one, with every augmentation in place. -/
theorem C61_packed (eq : Nat → K → K → Bool) (data : List (K × V)) :
    ∃ (t : Tree K V A) (s : STree K V A), Tree.bulkLoadU eq data = .ok t ∧ Explored t s ∧
      Packed (Spec.survivors eq data) s := by
  obtain ⟨t, s, h1, h2, h3, -⟩ := bulkLoadU_packed (A := A) eq data
  exact ⟨t, s, h1, h2, h3⟩

/-- **C61.** The same for `FromIterator` with a linear order: the items are those of inserting one after
the other. -/
theorem C61_from_iter [LinearOrder K] (items : List (K × V)) :
    ∃ (t : Tree K V A) (s : STree K V A), Tree.fromIter items = .ok t ∧ Explored t s ∧
      Packed (Spec.insertAll [] items) s := by
  obtain ⟨t, s, h1, h2, h3, -⟩ := bulkLoadU_packed (A := A) (fun _ a b => decide (a = b))
    (items.mergeSort (fun a b => decide (a.1 ≤ b.1)))
  rw [bulkLoadU_lawful] at h1
  refine ⟨t, s, h1, h2, ?_⟩
  have e : Spec.survivors (fun _ a b => decide (a = b)) (items.mergeSort (fun a b => decide (a.1 ≤ b.1)))
      = Spec.insertAll [] items := by
    have e2 := congrArg Prod.fst (dedupU_eq (fun _ a b => decide (a = b))
      (items.mergeSort (fun a b => decide (a.1 ≤ b.1))))
    rw [dedupU_lawful] at e2
    rw [← insertAll_mergeSort, ← dedup_insertAll _ (mergeSort_sorted items)]
    exact e2.symm
  rwa [e] at h3

/-- **C61.** There is only one packed tree with given items. So no visitor can tell apart two bulk loads
that keep the same items. -/
theorem C61_same_items {eq eq' : Nat → K → K → Bool} {data data' : List (K × V)} {t t' : Tree K V A}
    (h : Tree.bulkLoadU eq data = .ok t) (h' : Tree.bulkLoadU eq' data' = .ok t')
    (hs : Spec.survivors eq data = Spec.survivors eq' data') {σ R : Type} (v : Visitor K V A σ R)
    (st : σ) : t.descendVisit v st = t'.descendVisit v st := by
  obtain ⟨_, s, h1, h2, h3⟩ := C61_packed (A := A) eq data
  obtain ⟨_, s', h1', h2', h3'⟩ := C61_packed (A := A) eq' data'
  rw [h] at h1
  rw [h'] at h1'
  cases h1
  cases h1'
  rw [hs] at h3
  rw [h2, h2', h3.unique h3']

/-- **C61.** The number of levels: with `d` levels, as counted by the visitor of
`examples/visit_depth.rs`, there are at most `64·65^(d-1)` items, and more than `64·65^(d-2)` if `d` is
not 1. -/
theorem C61_levels (eq : Nat → K → K → Bool) (data : List (K × V)) :
    ∃ (t : Tree K V A) (d : Nat), Tree.bulkLoadU eq data = .ok t ∧
      t.descendVisit getTreeDepth 0 = .ok (some d) ∧ 1 ≤ d ∧
      (Spec.survivors eq data).length ≤ 64 * 65 ^ (d - 1) ∧
      (d = 1 ∨ 64 * 65 ^ (d - 2) < (Spec.survivors eq data).length) := by
  obtain ⟨t, s, h1, h2, h3, h4⟩ := bulkLoadU_packed (A := A) eq data
  obtain ⟨j, g1, g2, g3⟩ := h3.levels
  refine ⟨t, j + 1, h1, ?_, by omega, g2, ?_⟩
  · rw [h2]
    have := visit_depth g1 h4 0
    rwa [Nat.zero_add] at this
  · rcases g3 with rfl | g3
    · exact .inl rfl
    · exact .inr g3

/-- A tree of nodes with at most 64 keys and 64 items holds at most `64·65^H` items. -/
theorem fits_length {s : STree K V A} {H : Nat} (hf : s.Fits) (hs : s.LeavesAt H) :
    s.items.length ≤ 64 * 65 ^ H := by
  induction hs with
  | leaf =>
    cases hf with
    | leaf h => rw [STree.items]; omega
  | @node h ks as kids _ ih =>
    cases hf with
    | node h1 h2 h3 h4 =>
      rw [STree.items, itemsAll_eq, List.length_flatMap]
      have : (kids.map (fun c => c.items.length)).sum ≤ kids.length * (64 * 65 ^ h) := by
        clear h2
        induction kids with
        | nil => simp
        | cons c cs ih' =>
          have e1 := ih c (by simp) (h4 c (by simp))
          have e2 := ih' (fun c hc => ‹∀ c ∈ _, _› c (by simp [hc])) (fun c hc => ih c (by simp [hc]))
            (fun c hc => h4 c (by simp [hc]))
          rw [List.map_cons, List.sum_cons, List.length_cons, Nat.succ_mul]
          omega
      have h5 : kids.length * (64 * 65 ^ h) ≤ 65 * (64 * 65 ^ h) := Nat.mul_le_mul_right _ (by omega)
      rw [Nat.pow_succ]
      omega

/-- **C61.** A bulk load makes a tree with the fewest levels: no map with as many items, however it came
about, has fewer. -/
theorem C61_fewest_levels [LinearOrder K] {eq : Nat → K → K → Bool} {data : List (K × V)}
    {t t' : Tree K V A} (h : Tree.bulkLoadU eq data = .ok t) (h' : ReachableBulk t')
    (hn : t'.len = (Spec.survivors eq data).length) :
    ∃ d d', t.descendVisit getTreeDepth 0 = .ok (some d) ∧
      t'.descendVisit getTreeDepth 0 = .ok (some d') ∧ d ≤ d' := by
  obtain ⟨_, d, h1, h2, h3, h4, h5⟩ := C61_levels (A := A) eq data
  rw [h] at h1
  cases h1
  obtain ⟨l, hi⟩ := h'.inv
  obtain ⟨H, s, e1, e2, e3, -, -, e6⟩ := C10_structure_bulk h' hi.shows
  refine ⟨d, H + 1, h2, C10_depth_visitor h' e1 e2, ?_⟩
  rcases h5 with h5 | h5
  · omega
  · have e7 := fits_length e3 e2
    rw [e6, ← hi.len, hn] at e7
    have e8 : 65 ^ (d - 2) < 65 ^ H := by omega
    have := (Nat.pow_lt_pow_iff_right (by omega : 1 < 65)).1 e8
    omega

/-! ## C46 -/

/-- **C46 (shape).** Whatever the comparisons answer, after any history on a new or evenly bulk-loaded map
the map is, to every visitor, a nested tree with all leaves at the same depth, at most 15 inner levels, at
most 64 keys per node, at least 16 keys per node off the rightmost path, holding exactly the content. -/
theorem C46_structure {t0 : Tree K V A} {l0 : List (K × V)} (h0 : Fresh t0 l0)
    (cs : List (Answers K × UCall K V)) (hn : l0.length + cs.length < 2 ^ 64) :
    ∃ as t, t0.urun cs = .ok (as, t) ∧ ∃ (H : Nat) (s : STree K V A), Contents t s.items ∧
      Explored t s ∧ s.LeavesAt H ∧ H ≤ 15 ∧ s.Fits ∧ s.FilledOffRight true := by
  obtain ⟨as, t, l, h1, h2, -⟩ := urun_ok h0.inv cs (by rw [h0.inv.len]; omega)
  obtain ⟨H, g, w, rfl⟩ := h2.ghost
  refine ⟨as, t, h1, H, g.toS, by rw [g.toS_items]; exact h2.contents, w.explored, g.toS_leavesAt,
    w.depth h2.lt, T.toS_fits w.shape, T.toS_filledOffRight w.shape (by simp) ?_⟩
  intro _ hH
  cases H with
  | zero => omega
  | succ n => exact Nat.le_refl _

/-- **C46 (shape, new maps).** If the history starts with a new map, every node but the root has at least
16 keys. -/
theorem C46_structure_new (cs : List (Answers K × UCall K V)) (hn : cs.length < 2 ^ 64) :
    ∃ as t, (Tree.new : Tree K V A).urun cs = .ok (as, t) ∧ ∃ (H : Nat) (s : STree K V A),
      Contents t s.items ∧ Explored t s ∧ s.LeavesAt H ∧ s.Fits ∧ s.Filled true := by
  obtain ⟨as, t, l, h1, h2, -⟩ := urun_ok (A := A) UInv.new cs (by show 0 + _ < _; omega)
  obtain ⟨H, g, w, rfl⟩ := h2.ghost
  refine ⟨as, t, h1, H, g.toS, by rw [g.toS_items]; exact h2.contents, w.explored, g.toS_leavesAt,
    T.toS_fits w.shape, T.toS_filled w.shape (.inr (by omega)) (by simp) ?_⟩
  intro hH
  cases H with
  | zero => omega
  | succ n => exact Nat.le_refl _

/-! ## Instances -/

example := C61_packed (A := Count) oddEq oddData
example := C61_from_iter (A := Count) demoItems
example := C61_levels (A := Count) oddEq oddData

/-- 76 items make two levels. -/
example : (match (Tree.bulkLoadU oddEq oddData : Res (Tree Nat Nat Count)) with
    | .ok t => (match t.descendVisit getTreeDepth 0 with | .ok r => r | .error _ => none)
    | .error _ => none) = some 2 := by decide +kernel

/-- The packed tree of five items is one leaf. -/
example : Packed (A := Count) [(1, 1), (2, 2), (3, 3), (4, 4), (5, 5)]
    (.leaf [(1, 1), (2, 2), (3, 3), (4, 4), (5, 5)]) :=
  .some (ps := [((1, 1), [(2, 2), (3, 3), (4, 4), (5, 5)])]) ⟨rfl, by decide, by decide⟩ .root

/-- The packed tree of 70 items is a node with two leaves, 64 items in the first. -/
example : Packed (A := Count) ((List.range 70).map (fun i => (i, i)))
    (.node [64] [⟨64⟩, ⟨6⟩] [.leaf ((0, 0) :: (List.range 63).map (fun i => (i + 1, i + 1))),
      .leaf ((64, 64) :: (List.range 5).map (fun i => (i + 65, i + 65)))]) := by
  have h : Packed (A := Count) ((List.range 70).map (fun i => (i, i))) _ :=
    .some (ps := [((0, 0), (List.range 63).map (fun i => (i + 1, i + 1))),
        ((64, 64), (List.range 5).map (fun i => (i + 65, i + 65)))])
      ⟨by decide +kernel, by decide +kernel, by decide +kernel⟩
      (.layer (ps := [(leafOver ((0, 0), (List.range 63).map (fun i => (i + 1, i + 1))),
        [leafOver ((64, 64), (List.range 5).map (fun i => (i + 65, i + 65)))])])
        ⟨rfl, by simp, by simp⟩ (by simp) .root)
  have e1 : leafOf Count ((0, 0) :: (List.range 63).map (fun i => (i + 1, i + 1))) = ⟨64⟩ := by
    decide +kernel
  have e2 : leafOf Count ((64, 64) :: (List.range 5).map (fun i => (i + 65, i + 65))) = ⟨6⟩ := by
    decide +kernel
  simpa only [nodeOver, leafOver, List.map_cons, List.map_nil, STree.aug, e1, e2] using h

example : ∃ t t' : Tree Nat Nat Count, Tree.bulkLoadU oddEq oddData = .ok t ∧
    Tree.bulkLoadU (fun _ _ _ => false) (Spec.survivors oddEq oddData) = .ok t' ∧
    t.descendVisit getTreeDepth 0 = t'.descendVisit getTreeDepth 0 := by
  obtain ⟨t, s, h1, -⟩ := C61_packed (A := Count) oddEq oddData
  obtain ⟨t', s', h1', -⟩ := C61_packed (A := Count) (fun _ _ _ => false) (Spec.survivors oddEq oddData)
  exact ⟨t, t', h1, h1', C61_same_items h1 h1' (by decide +kernel) _ _⟩

example : ∃ t : Tree Nat Nat Count, ∃ d d',
    Tree.bulkLoadU (fun _ a b => decide (a = b)) demoContent = .ok t ∧
    t.descendVisit getTreeDepth 0 = .ok (some d) ∧
    demo.descendVisit getTreeDepth 0 = .ok (some d') ∧ d ≤ d' := by
  obtain ⟨t, s, h1, -⟩ := C61_packed (A := Count) (fun _ a b => decide (a = b)) demoContent
  obtain ⟨d, d', h⟩ := C61_fewest_levels h1 demo_reach.mut.bulk (by decide +kernel)
  exact ⟨t, d, d', h1, h⟩

example := C46_structure (A := Count) .new lawlessHistory (by decide)
example := C46_structure_new (A := Count) lawlessHistory (by decide)

end Bpt
