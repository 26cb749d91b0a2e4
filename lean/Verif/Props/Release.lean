import Verif.ReleaseSpec
import Verif.Proofs.ReleaseRemove
import Verif.Props.Loads
import Verif.Props.Unordered
import Verif.Props.Safety

/-!
# C55: the release build

In a release build `debug_assert!` is off and arithmetic wraps around. The functions with suffix `R` are
the code as built for release.
-/

namespace Bpt
open Spec
variable {K V A : Type}

theorem Contents.release {t : Tree K V A} {l : List (K × V)} (h : Contents t l) : ContentsR t l := by
  refine ⟨h.len, ?_, fun ds => ?_⟩
  · rw [← h.drop]; exact (Tree.drop_agree t).eq (by rw [h.drop]; simp)
  · obtain ⟨it, it', h1, h2, h3⟩ := h.into ds
    refine ⟨it, it', h1, ?_, ?_⟩
    · rw [← h2]; exact (IntoIter.runCalls_agree it ds).eq (by rw [h2]; simp)
    · rw [← h3]; exact (IntoIter.drop_agree it').eq (by rw [h3]; simp)

section
variable [Augmentation K V A]

/-- **C55 (same results).** On any tree, with any answers of the comparisons: calls that do not panic in a
debug build do the same in a release build. -/
theorem C55_same (t : Tree K V A) (cs : List (Answers K × UCall K V)) (h : t.urun cs ≠ .error .panic) :
    t.urunR cs = t.urun cs :=
  (Tree.urun_agree t cs).eq h

/-- **C55 (histories from an empty map).** Whatever the comparisons answer, every history of calls in a
release build succeeds, with the same answers and the same tree as in a debug build, each call has one of
the effects listed by `Effect`, and `len`, `drop` and `into_iter` account for exactly the items left. -/
theorem C55_history (cs : List (Answers K × UCall K V)) (hn : cs.length < 2 ^ 64) :
    ∃ as t l, (Tree.new : Tree K V A).urunR cs = .ok (as, t) ∧
      (Tree.new : Tree K V A).urun cs = .ok (as, t) ∧
      Effects (cs.map (·.2)) as [] l ∧ ContentsR t l := by
  obtain ⟨as, t, l, h1, h2, h3⟩ := C46_history (A := A) .new cs (by simpa using hn)
  exact ⟨as, t, l, by rw [C55_same _ _ (by rw [h1]; simp), h1], h1, h2, h3.release⟩

/-- **C55 (bulk loads).** `bulk_load` of any data, with any answers of `==`, builds the same tree in a
release build. -/
theorem C55_load (eq : Nat → K → K → Bool) (data : List (K × V)) (hn : data.length < 2 ^ 64) :
    ∃ t : Tree K V A, Tree.bulkLoadUR eq data = .ok t ∧ Tree.bulkLoadU eq data = .ok t ∧
      ContentsR t (Spec.survivors eq data) := by
  obtain ⟨t, h1, h2, -⟩ := C54_load (A := A) eq data hn
  exact ⟨t, by rw [(Tree.bulkLoadU_agree eq data).eq (by rw [h1]; simp), h1], h1, h2.release⟩

/-- **C55 (histories after a bulk load without lone children).** -/
theorem C55_even (eq : Nat → K → K → Bool) (data : List (K × V)) (cs : List (Answers K × UCall K V))
    (hn : data.length + cs.length < 2 ^ 64)
    (he : EvenlyGrouped (leavesFor (Spec.survivors eq data).length)) :
    ∃ t : Tree K V A, Tree.bulkLoadUR eq data = .ok t ∧
      ∃ as t' l', t.urunR cs = .ok (as, t') ∧ t.urun cs = .ok (as, t') ∧
        Effects (cs.map (·.2)) as (Spec.survivors eq data) l' ∧ ContentsR t' l' := by
  obtain ⟨t, h1, as, t', l', h2, h3, h4⟩ := C54_even (A := A) eq data cs hn he
  refine ⟨t, by rw [(Tree.bulkLoadU_agree eq data).eq (by rw [h1]; simp), h1], as, t', l', ?_, h2, h3,
    h4.release⟩
  rw [C55_same _ _ (by rw [h2]; simp), h2]

/-- **C55 (histories after any bulk load), partial.** In a release build every history either succeeds as
in a debug build, or does so up to a removal that panics in a debug build. In a release build that removal
panics, or it is undefined behaviour (`C55_release_refuted`): it never goes on as if nothing happened. -/
theorem C55_loaded_partial (eq : Nat → K → K → Bool) (data : List (K × V))
    (cs : List (Answers K × UCall K V)) (hn : data.length + cs.length < 2 ^ 64) :
    ∃ t : Tree K V A, Tree.bulkLoadUR eq data = .ok t ∧
      ((∃ as t' l', t.urunR cs = .ok (as, t') ∧ t.urun cs = .ok (as, t') ∧
          Effects (cs.map (·.2)) as (Spec.survivors eq data) l' ∧ ContentsR t' l') ∨
        (∃ cs1 o cs2 as t1 l1, cs = cs1 ++ (o, .remove) :: cs2 ∧ t.urunR cs1 = .ok (as, t1) ∧
          Effects (cs1.map (·.2)) as (Spec.survivors eq data) l1 ∧ ContentsR t1 l1 ∧
          t1.ucall o .remove = .error .panic ∧
          (t1.ucallR o .remove = .error .panic ∨ t1.ucallR o .remove = .error .ub))) := by
  obtain ⟨t, h1, h2, -⟩ := bulkLoadU_ok (A := A) (μ := 0) (by omega) eq data (by omega) (.inl rfl)
  have hlen : t.len ≤ data.length := by
    rw [h2.len]
    exact (dedupU_sublist eq 0 data).1.length_le
  rw [dedupU_eq] at h2
  refine ⟨t, by rw [(Tree.bulkLoadU_agree eq data).eq (by rw [h1]; simp), h1], ?_⟩
  rcases urun_or h2 cs (by omega) with ⟨as, t', l', h3, h4, h5⟩ |
    ⟨-, cs1, o, cs2, as, t1, l1, h3, h4, h5, h6, h7, -⟩
  · exact .inl ⟨as, t', l', by rw [C55_same _ _ (by rw [h3]; simp), h3], h3, h5, h4.contents.release⟩
  · refine .inr ⟨cs1, o, cs2, as, t1, l1, h3, by rw [C55_same _ _ (by rw [h4]; simp), h4], h6,
      h5.contents.release, h7, ?_⟩
    rcases removeImplU_or h5 o with ⟨a, t', l', e, -⟩ | ⟨-, -, e⟩
    · simp only [Tree.ucall, Tree.removeU, e, ok_bind, pure_ok] at h7
      cases h7
    · rcases e with e | e
      · left; simp only [Tree.ucallR, Tree.removeUR, e, error_bind]
      · right; simp only [Tree.ucallR, Tree.removeUR, e, error_bind]

/-- **C55, refuted after bulk loads that leave an inner node alone.** The leaves are grouped by 65 into
nodes, and these again. If no leaf is alone but the last node of the next level is, then removing the
entries from the last to the first panics in a debug build (`C19_uneven_refuted`); in a release build it
reads a child that was never written. -/
theorem C55_release_refuted [LinearOrder K] (early : Bool) (data : List (K × V))
    (hd : data.Pairwise (fun a b => a.1 ≤ b.1)) (hl : data.length < 2 ^ 64) {m : Nat}
    (hm : m = leavesFor (insertAll [] data).length) (h1 : m % 65 ≠ 1) (h2 : 1 < parents m)
    (h3 : parents m % 65 = 1) :
    ∃ t : Tree K V A, Tree.bulkLoad data = .ok t ∧ Shows t (insertAll [] data) ∧
      t.urunR ((insertAll [] data).reverse.map (fun e => (.ofOrder early e.1, .remove)))
        = .error .ub ∧
      t.run ((insertAll [] data).reverse.map (fun e => .remove e.1)) = .error .panic := by
  have hlen := insertAll_length data
  unfold parents at h2 h3
  obtain ⟨rest, n, e1, e2⟩ := layerSpine_deep h1 h2 h3
  obtain ⟨t, H, g, g1, g2, _, g4, g5, _, g6⟩ :=
    bulkLoad_ok (A := A) (μ := 0) (by omega) data hd (.inl rfl)
  have hlt : t.len < 2 ^ 64 := by rw [g2.len, g4]; omega
  have hi : Inv 0 t (insertAll [] data) := ⟨H, g, g2, g4, hlt⟩
  have hm' : ((insertAll [] data).length + 63) / 64 = m := hm.symm
  rw [hm', e1] at g6
  refine ⟨t, g1, hi.shows, ?_, ?_⟩
  · exact run_removals_deep early _ g2 hlt g6 e2 (by rw [g4, List.reverse_reverse])
  · refine run_removals_lone _ g2 hlt (g5 ?_) (by rw [g4, List.reverse_reverse])
    rw [hm']
    intro h
    rcases h with h | ⟨-, h⟩
    · omega
    · obtain ⟨k, rfl⟩ : ∃ k, m = k + 1 := ⟨m - 1, by omega⟩
      rcases h with h | ⟨h, -⟩
      · omega
      · exact h h3

/-- **C55 (lawful keys).** With keys in a linear order, on any reachable map: a call of the release build
gives what the main model says, unless the main model panics. -/
theorem C55_lawful [LinearOrder K] {t : Tree K V A} (h : ReachableBulk t) (early : Bool) (c : Call K V)
    (hc : t.call c ≠ .error .panic) : t.ucallR (c.answers early) c.lawless = t.call c := by
  have e := C46_lawful h early c
  rw [(Tree.ucall_agree t _ _).eq (by rw [e]; exact hc), e]

/-- Histories that do not begin with a bulk load of uneven size do not panic. -/
theorem C55_reachable [LinearOrder K] {t : Tree K V A} (h : ReachableEven t) (early : Bool) (c : Call K V)
    (hn : t.len + 1 < 2 ^ 64) : ∃ a t', t.ucallR (c.answers early) c.lawless = .ok (a, t') ∧
      t.call c = .ok (a, t') := by
  obtain ⟨a, t', h1, -⟩ := (C12_no_failure h).1 c hn
  exact ⟨a, t', by rw [C55_lawful h.bulk early c (by rw [h1]; simp), h1], h1⟩

end

/-! ## Cases that meet the hypotheses -/

/-- The calls of `lawlessHistory`, on the same map as C46, in a release build. -/
example : (match (Tree.new : Tree Nat Nat Count).urunR lawlessHistory with
    | .ok (as, t) => some (as.drop 70, t.len, t.root)
    | .error _ => none) =
    some ([.value (some 51), .value (some 50), .entry (some (5, 36)), .value none,
      .value (some 50), .number 69], 69, .inner 0) := by decide +kernel

example : lawlessHistory.length < 2 ^ 64 ∧ oddData.length + lawlessHistory.length < 2 ^ 64 ∧
    EvenlyGrouped (leavesFor (Spec.survivors oddEq oddData).length) := by
  refine ⟨by decide, by decide +kernel, evenlyGrouped_small ?_⟩
  have : (Spec.survivors oddEq oddData).length = 76 := by decide +kernel
  rw [this]
  decide

example (c : Call Nat Nat) : ∃ a t', demo.ucallR (c.answers false) c.lawless = .ok (a, t') ∧
    demo.call c = .ok (a, t') :=
  C55_reachable demo_reach.mut.even false c (by decide +kernel)

/-- 270465 items fill 4227 leaves: 66 nodes, of which the last holds two leaves and is alone in its
group. -/
example (early : Bool) : ∃ t : Tree Nat Nat Count,
    Tree.bulkLoad ((List.range 270465).map (fun i => (i, i))) = .ok t ∧
    t.urunR (((List.range 270465).map (fun i => (i, i))).reverse.map
      (fun e => (.ofOrder early e.1, .remove))) = .error .ub := by
  have key : ∀ l : List (Nat × Nat), Spec.Sorted l → l.length = 270465 → ∃ t : Tree Nat Nat Count,
      Tree.bulkLoad l = .ok t ∧
      t.urunR (l.reverse.map (fun e => (.ofOrder early e.1, .remove))) = .error .ub := by
    intro l hs hl
    have e := insertAll_of_sorted hs
    obtain ⟨t, h1, -, h2, -⟩ := C55_release_refuted (A := Count) early _ (hs.imp (fun h => h.le))
      (by rw [hl]; omega) rfl (by rw [e, hl]; simp [leavesFor])
      (by rw [e, hl]; simp [leavesFor, parents]) (by rw [e, hl]; simp [leavesFor, parents])
    rw [e] at h2
    exact ⟨t, h1, h2⟩
  refine key _ ?_ (by rw [List.length_map, List.length_range])
  unfold Spec.Sorted
  rw [List.pairwise_map]
  exact List.pairwise_lt_range

private theorem lawless_fine : (Tree.new : Tree Nat Nat Count).urun lawlessHistory ≠ .error .panic := by
  have h : (match (Tree.new : Tree Nat Nat Count).urun lawlessHistory with
    | .ok _ => true | .error _ => false) = true := by decide +kernel
  intro h1
  rw [h1] at h
  cases h

example := C55_same (Tree.new : Tree Nat Nat Count) lawlessHistory lawless_fine
example := C55_history (A := Count) lawlessHistory (by decide)
example := C55_load (A := Count) oddEq oddData (by decide +kernel)
example := C55_even (A := Count) oddEq oddData lawlessHistory (by decide +kernel)
  (evenlyGrouped_small (by
    rw [show (Spec.survivors oddEq oddData).length = 76 by decide +kernel]; decide))
example := C55_loaded_partial (A := Count) oddEq oddData lawlessHistory (by decide +kernel)

private theorem demo_call_fine : demo.call (.remove 3) ≠ .error .panic := by
  have h : (match demo.call (.remove 3) with | .ok _ => true | .error _ => false) = true := by
    decide +kernel
  intro h1
  rw [h1] at h
  cases h

example := C55_lawful demo_reach.mut.bulk true (.remove 3) demo_call_fine

end Bpt
