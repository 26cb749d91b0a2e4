import Mathlib.Order.Lex
import Mathlib.Data.Prod.Lex
import Verif.Model.Visit

/-!
# examples/date_statistic.rs

The statistics of a map keyed by dates: an augmentation with the first and the last date and how many
entries share their year, month and day, and a visitor that counts the entries of a year.
-/

namespace Bpt
variable {V : Type}

/-- `Date`, examples/date_statistic.rs:10-15 (fields of any size). -/
structure Date where
  year : Nat
  month : Nat
  day : Nat
deriving DecidableEq, Repr

/-- `#[derive(PartialOrd, Ord)]` of `Date`, examples/date_statistic.rs:10: field by field. -/
instance : LinearOrder Date :=
  LinearOrder.lift' (fun d => toLex (d.year, toLex (d.month, d.day))) (by
    rintro ⟨y, m, d⟩ ⟨y', m', d'⟩ h
    simpa using h)

/-- `DateCompare`, examples/date_statistic.rs:101-106. -/
inductive DateCompare where
  | sameDay
  | sameMonth
  | sameYear
  | differentYear

/-- `Date::compare`, examples/date_statistic.rs:18-29. -/
def Date.compare (a b : Date) : DateCompare :=
  match a.year == b.year, a.month == b.month, a.day == b.day with
  | true, true, true => .sameDay
  | true, true, _ => .sameMonth
  | true, _, _ => .sameYear
  | _, _, _ => .differentYear

/-- `Counter`, examples/date_statistic.rs:108-113. -/
structure DateCounter where
  year : Nat
  month : Nat
  day : Nat
deriving DecidableEq, Repr

/-- `DateStatisticEntry`, examples/date_statistic.rs:115-120. -/
structure DateEntry where
  date : Date
  counter : DateCounter
deriving DecidableEq, Repr

/-- `DateStatistic`, examples/date_statistic.rs:122-127. -/
structure DateStatistic where
  min : DateEntry
  max : DateEntry
deriving DecidableEq, Repr

/-- The update of `min` in `from_inner`, examples/date_statistic.rs:141-155. -/
def DateEntry.innerMin (min a : DateEntry) : DateEntry :=
  match min.date.compare a.date with
  | .sameDay => { min with counter :=
      ⟨min.counter.year + a.counter.year, min.counter.month + a.counter.month,
        min.counter.day + a.counter.day⟩ }
  | .sameMonth => { min with counter :=
      ⟨min.counter.year + a.counter.year, min.counter.month + a.counter.month, min.counter.day⟩ }
  | .sameYear => { min with counter :=
      ⟨min.counter.year + a.counter.year, min.counter.month, min.counter.day⟩ }
  | .differentYear => min

/-- The update of `max` in `from_inner`, examples/date_statistic.rs:157-178. -/
def DateEntry.innerMax (max a : DateEntry) : DateEntry :=
  match max.date.compare a.date with
  | .sameDay => { max with counter :=
      ⟨max.counter.year + a.counter.year, max.counter.month + a.counter.month,
        max.counter.day + a.counter.day⟩ }
  | .sameMonth => ⟨a.date,
      ⟨max.counter.year + a.counter.year, max.counter.month + a.counter.month, a.counter.day⟩⟩
  | .sameYear => ⟨a.date, ⟨max.counter.year + a.counter.year, a.counter.month, a.counter.day⟩⟩
  | .differentYear => a

/-- The update of `min` in `from_leaf`, examples/date_statistic.rs:200-214. -/
def DateEntry.leafMin (min : DateEntry) (key : Date) : DateEntry :=
  match min.date.compare key with
  | .sameDay => { min with counter :=
      ⟨min.counter.year + 1, min.counter.month + 1, min.counter.day + 1⟩ }
  | .sameMonth => { min with counter :=
      ⟨min.counter.year + 1, min.counter.month + 1, min.counter.day⟩ }
  | .sameYear => { min with counter := ⟨min.counter.year + 1, min.counter.month, min.counter.day⟩ }
  | .differentYear => min

/-- The update of `max` in `from_leaf`, examples/date_statistic.rs:215-241. -/
def DateEntry.leafMax (max : DateEntry) (key : Date) : DateEntry :=
  match max.date.compare key with
  | .sameDay => { max with counter :=
      ⟨max.counter.year + 1, max.counter.month + 1, max.counter.day + 1⟩ }
  | .sameMonth => ⟨key, ⟨max.counter.year + 1, max.counter.month + 1, 1⟩⟩
  | .sameYear => ⟨key, ⟨max.counter.year + 1, 1, 1⟩⟩
  | .differentYear => ⟨key, ⟨1, 1, 1⟩⟩

/-- `#[derive(Default)]` of `DateStatistic`, examples/date_statistic.rs:123. -/
def DateStatistic.zero : DateStatistic :=
  ⟨⟨⟨0, 0, 0⟩, ⟨0, 0, 0⟩⟩, ⟨⟨0, 0, 0⟩, ⟨0, 0, 0⟩⟩⟩

/-- `Augmentation for DateStatistic`, examples/date_statistic.rs:130-246. Both functions unwrap the
first element of their slice. On an empty slice the code panics; here it is the default value. When
that can happen is the subject of C53. -/
instance : Augmentation Date V DateStatistic where
  dflt := .zero
  fromLeaf keys _ :=
    match keys with
    | [] => .zero
    | k :: ks =>
      ks.foldl (fun s k => ⟨s.min.leafMin k, s.max.leafMax k⟩)
        ⟨⟨k, ⟨1, 1, 1⟩⟩, ⟨k, ⟨1, 1, 1⟩⟩⟩
  fromInner _ as :=
    match as with
    | [] => .zero
    | a :: as => as.foldl (fun s a => ⟨s.min.innerMin a.min, s.max.innerMax a.max⟩) a

/-- The loop of `CountForYear::visit_inner`, examples/date_statistic.rs:57-85. The state of the visitor
is `count`. The outer result is the answer of the visitor, which may be a panic (`unreachable!()`). -/
def countForYearInner (year : Nat) : Nat → Nat → List DateStatistic → VisitResult (Res Nat) × Nat
  | _, count, [] => (.complete (.ok count), count)
  | idx, count, a :: as =>
    match compare a.min.date.year year with
    | .lt =>
      match compare a.max.date.year year with
      | .lt => countForYearInner year (idx + 1) count as
      | .eq => countForYearInner year (idx + 1) (count + a.max.counter.year) as
      | .gt => (.goDown idx, count)
    | .eq =>
      match compare a.max.date.year year with
      | .lt => (.complete (.error .panic), count)
      | .eq => countForYearInner year (idx + 1) (count + a.max.counter.year) as
      | .gt => (.complete (.ok (count + a.min.counter.year)), count + a.min.counter.year)
    | .gt => (.complete (.ok count), count)

/-- `DescendVisit for CountForYear`, examples/date_statistic.rs:43-99; the loop of `visit_leaf` is
written as a fold. -/
def countForYear (year : Nat) : Visitor Date V DateStatistic Nat (Res Nat) where
  visitInner count _ as := countForYearInner year 0 count as
  visitLeaf count keys _ :=
    some (.ok (keys.foldl (fun c k => if k.year = year then c + 1 else c) count))

end Bpt
