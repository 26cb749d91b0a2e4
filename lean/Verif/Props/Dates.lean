import Verif.Props.Demo
import Verif.Proofs.Dates
import Verif.Proofs.ReachInv

/-!
# C52: the date statistics of `examples/date_statistic.rs`

`Date.statistic l a b` and `Date.tally` are defined in `Verif/DateSpec.lean` by counting in the list of
dates. The model replaces the `unwrap` of an empty slice by the default value; C53 says when the crate
passes an empty slice.
-/

namespace Bpt
open Spec
variable {V : Type}

/-- The statistics look at keys only. -/
theorem DateStatistic.keyOnly : KeyOnly Date V DateStatistic := fun _ _ _ _ => rfl

/-- **C52.** `root_augmentation()` of any reachable nonempty map of dates: the first and the last date
of the map, each with the number of entries in its year, in its month and on its day. -/
theorem C52_root {t : Tree Date V DateStatistic} (h : ReachableBulk t) {l : List (Date × V)}
    (hl : Shows t l) {a b : Date × V} (ha : l.head? = some a) (hb : l.getLast? = some b) :
    t.rootAug = Date.statistic (l.map (·.1)) a.1 b.1 := by
  obtain ⟨l', hi⟩ := h.invA DateStatistic.keyOnly
  cases hi.inv.unique hl
  obtain ⟨H, g, w, rfl, _, hg⟩ := hi
  have hn : g.toL ≠ [] := by intro h0; rw [h0] at ha; cases ha
  rcases hg.root with h1 | h1
  · obtain ⟨a', b', e1, e2, e3⟩ := topAug_stat w.shape hg.ok w.sorted hn
    rw [List.head?_map, ha] at e1
    rw [List.getLast?_map, hb] at e2
    cases e1; cases e2
    rw [h1, e3]
  · exact absurd h1.1 hn

/-- **C52.** `CountForYear` returns the number of entries of that year, in any reachable map; its
`unreachable!()` is not reached. -/
theorem C52_count_for_year {t : Tree Date V DateStatistic} (h : ReachableBulk t)
    {l : List (Date × V)} (hl : Shows t l) (year : Nat) :
    t.descendVisit (countForYear year) 0 =
      .ok (some (.ok (l.countP (fun e => e.1.year = year)))) := by
  obtain ⟨l', hi⟩ := h.invA DateStatistic.keyOnly
  cases hi.inv.unique hl
  obtain ⟨H, g, w, rfl, hlen, hg⟩ := hi
  rw [descendVisit_ok w, year_visit w.shape hg.ok w.sorted, Nat.zero_add, inYear, List.countP_map]
  rfl

/-! ### A map of 100 dates in two leaves -/

/-- 100 dates over three years, in scattered order. -/
def someDates : List (Date × Nat) :=
  (List.range 100).map (fun i => let j := i * 37 % 100; (⟨2011 + j / 40, 1 + j % 40 / 10, j % 10⟩, i))

example : ∃ t : Tree Date Nat DateStatistic, ReachableBulk t ∧
    t.rootAug = ⟨⟨⟨2011, 1, 0⟩, ⟨40, 10, 1⟩⟩, ⟨⟨2013, 2, 9⟩, ⟨20, 10, 1⟩⟩⟩ ∧
    t.descendVisit (countForYear 2012) 0 = .ok (some (.ok 40)) ∧
    t.descendVisit (countForYear 2013) 0 = .ok (some (.ok 20)) ∧
    t.descendVisit (countForYear 2014) 0 = .ok (some (.ok 0)) := by
  obtain ⟨t, h1, h2⟩ := reach_insertAll (A := DateStatistic) someDates
    (by show (List.map _ _).length < _; rw [List.length_map, List.length_range]; omega)
  have hs := h2.shows
  have hr : ReachableBulk t := h1.mut.bulk
  refine ⟨t, hr, ?_, ?_, ?_, ?_⟩
  · have e1 : (insertAll [] someDates).head? = some (⟨2011, 1, 0⟩, 0) := by decide +kernel
    have e2 : (insertAll [] someDates).getLast? = some (⟨2013, 2, 9⟩, 27) := by decide +kernel
    rw [C52_root hr hs e1 e2]
    decide +kernel
  · have e : (insertAll [] someDates).countP (fun e => e.1.year = 2012) = 40 := by decide +kernel
    rw [C52_count_for_year hr hs, e]
  · have e : (insertAll [] someDates).countP (fun e => e.1.year = 2013) = 20 := by decide +kernel
    rw [C52_count_for_year hr hs, e]
  · have e : (insertAll [] someDates).countP (fun e => e.1.year = 2014) = 0 := by decide +kernel
    rw [C52_count_for_year hr hs, e]

end Bpt
