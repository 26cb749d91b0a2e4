import Verif.Model.Dates

/-!
# Specification: statistics of a list of dates

What `examples/date_statistic.rs` should compute, said without the tree.
-/

namespace Bpt

/-- A date with the number of dates of `l` in the same year, in the same month of the same year, and
on the same day. -/
def Date.tally (l : List Date) (d : Date) : DateEntry :=
  ⟨d, ⟨l.countP (fun x => x.year = d.year),
    l.countP (fun x => x.year = d.year ∧ x.month = d.month),
    l.countP (fun x => x.year = d.year ∧ x.month = d.month ∧ x.day = d.day)⟩⟩

/-- The statistics of a list of dates with first date `a` and last date `b`. -/
def Date.statistic (l : List Date) (a b : Date) : DateStatistic := ⟨a.tally l, b.tally l⟩

end Bpt
