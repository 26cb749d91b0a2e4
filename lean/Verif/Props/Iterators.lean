import Verif.Props.Demo

/-!
# Properties of iterators: C07, C08 and the part of C36 about entries

`Spec.pulls l ds` (`Verif/Spec.lean`) is what a double-ended queue with content `l` answers to the
calls `ds`, with the number of items left after each call, and what is left at the end.
-/

namespace Bpt
open Spec
variable {K V A : Type} [LinearOrder K] [Augmentation K V A]

/-! ## Facts about double-ended queues -/

theorem pull_perm {α : Type} (l : List α) (d : Dir) :
    ((pull l d).1.toList ++ (pull l d).2).Perm l := by
  cases d with
  | front => cases l <;> simp [pull]
  | back =>
    rcases List.eq_nil_or_concat' l with rfl | ⟨l', x, rfl⟩
    · simp [pull]
    · simp only [pull, List.getLast?_append, List.getLast?_singleton, Option.some_or,
        Option.toList_some, List.dropLast_concat]
      exact List.perm_append_comm

/-- The specification itself is "exactly once": answers and rest together are the content. -/
theorem pulls_perm {α : Type} (l : List α) (ds : List Dir) :
    (((pulls l ds).1.filterMap (·.1)) ++ (pulls l ds).2).Perm l := by
  induction ds generalizing l with
  | nil => exact List.Perm.refl _
  | cons d ds ih =>
    have h1 := pull_perm l d
    have h2 := ih (pull l d).2
    simp only [pulls]
    cases h : (pull l d).1 with
    | none =>
      rw [h] at h1
      simp only [List.filterMap_cons_none]
      exact h2.trans (by simpa using h1)
    | some x =>
      rw [h] at h1
      rw [List.filterMap_cons_some (by rfl)]
      exact (h2.cons x).trans (by simpa using h1)

theorem pulls_nil {α : Type} (ds : List Dir) :
    (pulls ([] : List α) ds) = (List.replicate ds.length (none, 0), []) := by
  induction ds with
  | nil => rfl
  | cons d ds ih =>
    cases d <;> simp only [pulls, pull, List.head?_nil, List.tail_nil, List.getLast?_nil,
      List.dropLast_nil, List.length_nil, ih, List.length_cons, List.replicate_succ]

theorem pulls_append {α : Type} (l : List α) (ds ds' : List Dir) :
    pulls l (ds ++ ds') = ((pulls l ds).1 ++ (pulls (pulls l ds).2 ds').1, (pulls (pulls l ds).2 ds').2) := by
  induction ds generalizing l with
  | nil => rfl
  | cons d ds ih => simp only [List.cons_append, pulls, ih]

theorem pulls_length {α : Type} (l : List α) (ds : List Dir) :
    (pulls l ds).2.length = l.length - ds.length := by
  induction ds generalizing l with
  | nil => rfl
  | cons d ds ih =>
    simp only [pulls, ih, List.length_cons]
    cases d <;> simp only [pull, List.length_tail, List.length_dropLast] <;> omega

/-! ## C08 -/

/-- **C08.** `into_iter()` under any interleaving of `next` and `next_back` answers like a
double-ended queue with the content, its length is exact before the first call and after each call,
and dropping it then destroys exactly what is left. -/
theorem C08_into_iter {t : Tree K V A} (h : ReachableBulk t) {l : List (K × V)} (hl : Shows t l)
    (ds : List Dir) :
    ∃ it it', t.intoIter = .ok it ∧ it.sizeHint = l.length ∧
      it.runCalls ds = .ok ((pulls l ds).1, it') ∧ it'.drop = .ok (pulls l ds).2 := by
  obtain ⟨_, hi⟩ := h.inv
  cases hi.unique hl
  obtain ⟨L, r, e⟩ := hi.reads
  have := intoIter_ok r.base ds
  rw [e] at this
  exact this

/-- **C08.** The items yielded and the items destroyed by dropping the iterator midway are, together,
the content, each exactly once. -/
theorem C08_exactly_once {t : Tree K V A} (h : ReachableBulk t) {l : List (K × V)} (hl : Shows t l)
    (ds : List Dir) :
    ∃ it it' answers dropped, t.intoIter = .ok it ∧ it.runCalls ds = .ok (answers, it') ∧
      it'.drop = .ok dropped ∧ (answers.filterMap (·.1) ++ dropped).Perm l := by
  obtain ⟨it, it', h1, _, h2, h3⟩ := C08_into_iter h hl ds
  exact ⟨it, it', _, _, h1, h2, h3, pulls_perm l ds⟩

/-- **C08.** Once as many calls were made as there were items, every further call answers `None`. -/
theorem C08_then_none {t : Tree K V A} (h : ReachableBulk t) {l : List (K × V)} (hl : Shows t l)
    (ds ds' : List Dir) (hd : l.length ≤ ds.length) :
    ∃ it it' answers, t.intoIter = .ok it ∧
      it.runCalls (ds ++ ds') = .ok (answers ++ List.replicate ds'.length (none, 0), it') := by
  obtain ⟨it, it', h1, _, h2, _⟩ := C08_into_iter h hl (ds ++ ds')
  have : (pulls l ds).2 = [] := by
    rw [← List.length_eq_zero_iff, pulls_length]; omega
  rw [pulls_append, this, pulls_nil] at h2
  exact ⟨it, it', _, h1, h2⟩

/-- **C36 (entries).** Dropping a map destroys each stored entry exactly once, in key order. -/
theorem C36_drop_entries {t : Tree K V A} (h : ReachableBulk t) {l : List (K × V)} (hl : Shows t l) :
    t.drop = .ok l := by
  obtain ⟨_, hi⟩ := h.inv
  cases hi.unique hl
  obtain ⟨L, r, e⟩ := hi.reads
  rw [← e]
  exact drop_ok r.base

example : ∃ it it', demo.intoIter = .ok it ∧ it.sizeHint = 100 ∧
    it.runCalls [.front, .back, .front] =
      .ok ([(some (0, 0), 99), (some (99, 57), 98), (some (1, 43), 97)], it') := by
  obtain ⟨it, it', h1, h2, h3, _⟩ := C08_into_iter demo_reach.mut.bulk demo_shows
    [.front, .back, .front]
  refine ⟨it, it', h1, h2.trans (by decide), h3.trans ?_⟩
  have : (pulls demoContent [.front, .back, .front]).1
      = [(some (0, 0), 99), (some (99, 57), 98), (some (1, 43), 97)] := by decide +kernel
  rw [this]

example : demo.drop = .ok demoContent := C36_drop_entries demo_reach.mut.bulk demo_shows

/-! ## C07 -/

/-- What `iter()` answers after `f` calls of `next` and `b` calls of `next_back`, on content `l`:
`next` counts from the front and stops only at the end of the content; `next_back` counts from the back
and stops at the beginning of the content or once `next` has yielded everything; only `next` is counted in
`size_hint`. -/
def iterAnswers (l : List (K × V)) : Nat → Nat → List Dir → List (Option (K × V) × Nat)
  | _, _, [] => []
  | f, b, .front :: ds => (l[f]?, l.length - (f + 1)) :: iterAnswers l (f + 1) b ds
  | f, b, .back :: ds =>
    (if f < l.length then l.reverse[b]? else none, l.length - f) :: iterAnswers l f (b + 1) ds

omit [LinearOrder K] in
theorem iterAnswers_eq (l : List (K × V)) (f b : Nat) (ds : List Dir) :
    iterAnswers l f b ds = borrowedSpec l f b ds := by
  induction ds generalizing f b with
  | nil => rfl
  | cons d ds ih => cases d <;> simp only [iterAnswers, borrowedSpec, ih]

/-- The exact behaviour of `iter()` under any interleaving: it never faults. -/
theorem C07_exact_behaviour {t : Tree K V A} (h : ReachableBulk t) {l : List (K × V)} (hl : Shows t l)
    (ds : List Dir) :
    ∃ it, t.iter = .ok it ∧ it.runCalls t ds = .ok (iterAnswers l 0 0 ds) := by
  obtain ⟨_, hi⟩ := h.inv
  cases hi.unique hl
  obtain ⟨L, r, e⟩ := hi.reads
  obtain ⟨it, h1, _, h2⟩ := iter_runCalls_ok r.base ds
  rw [e] at h2
  exact ⟨it, h1, by rw [h2, iterAnswers_eq]⟩

omit [LinearOrder K] in
theorem iterAnswers_pulls (l : List (K × V)) (f b : Nat) (ds : List Dir)
    (h : f + b + ds.length ≤ l.length) :
    (iterAnswers l f b ds).map (·.1) = (pulls ((l.take (l.length - b)).drop f) ds).1.map (·.1) := by
  induction ds generalizing f b with
  | nil => rfl
  | cons d ds ih =>
    rw [List.length_cons] at h
    cases d with
    | front =>
      simp only [iterAnswers, pulls, pull, List.map_cons, ih (f + 1) b (by omega), List.tail_drop]
      congr 1
      rw [List.head?_drop, List.getElem?_take_of_lt (by omega)]
    | back =>
      simp only [iterAnswers, pulls, pull, List.map_cons, ih f (b + 1) (by omega)]
      have e : l.take (l.length - b) = l.take (l.length - (b + 1)) ++ [l[l.length - (b + 1)]] := by
        rw [← List.take_succ_eq_append_getElem (by omega)]
        congr 1; omega
      rw [e, List.drop_append_of_le_length (by simp; omega), List.dropLast_concat,
        List.getLast?_concat, if_pos (by omega), List.getElem?_reverse (by omega)]
      congr 1
      rw [List.getElem?_eq_getElem (by omega)]
      congr 2; omega

/-- **C07 (partial).** As long as no more calls are made than there are entries, any interleaving of
`next` and `next_back` on `iter()` answers like a double-ended queue. Missing from the full property:
schedules with more calls than entries, and the exactness of `size_hint` once `next_back` was called;
both fail (next theorems). -/
theorem C07_iter_both_ends_partial {t : Tree K V A} (h : ReachableBulk t) {l : List (K × V)}
    (hl : Shows t l) (ds : List Dir) (hd : ds.length ≤ l.length) :
    ∃ it, t.iter = .ok it ∧
      (it.runCalls t ds).map (·.map (·.1)) = .ok ((pulls l ds).1.map (·.1)) := by
  obtain ⟨it, h1, h2⟩ := C07_exact_behaviour h hl ds
  refine ⟨it, h1, ?_⟩
  rw [h2]
  have := iterAnswers_pulls l 0 0 ds (by omega)
  rw [Nat.sub_zero, List.take_length, List.drop_zero] at this
  exact congrArg Except.ok this

example : ∃ it, demo.iter = .ok it ∧
    (it.runCalls demo [.front, .back, .front]).map (·.map (·.1))
      = .ok [some (0, 0), some (99, 57), some (1, 43)] := by
  obtain ⟨it, h1, h2⟩ := C07_iter_both_ends_partial demo_reach.mut.bulk demo_shows
    [.front, .back, .front] (by decide)
  refine ⟨it, h1, h2.trans ?_⟩
  have : (pulls demoContent [.front, .back, .front]).1.map (·.1)
      = [some (0, 0), some (99, 57), some (1, 43)] := by decide +kernel
  rw [this]

/-- **C07 is false of the code**, on every non-empty map: after `next_back` has yielded all entries,
`next` yields the first entry again. -/
theorem C07_yielded_twice_refuted {t : Tree K V A} (h : ReachableBulk t) {e : K × V}
    {l : List (K × V)} (hl : Shows t (e :: l)) :
    ∃ it, t.iter = .ok it ∧
      (it.runCalls t (List.replicate (l.length + 1) .back ++ [.front])).map (·.map (·.1))
        = .ok ((e :: l).reverse.map some ++ [some e]) := by
  obtain ⟨it, h1, h2⟩ := C07_exact_behaviour h hl (List.replicate (l.length + 1) .back ++ [.front])
  refine ⟨it, h1, ?_⟩
  rw [h2]
  have key : ∀ (n b : Nat) (l : List (K × V)), b + n = l.length → l ≠ [] →
      (iterAnswers l 0 b (List.replicate n .back ++ [.front])).map (·.1)
        = (l.reverse.drop b).map some ++ [l.head?] := by
    intro n
    induction n with
    | zero =>
      intro b l hb hne
      have : l.reverse.drop b = [] := by rw [List.drop_eq_nil_iff, List.length_reverse]; omega
      rw [this]
      cases l <;> simp [iterAnswers]
    | succ n ih =>
      intro b l hb hne
      have hlt : b < l.reverse.length := by rw [List.length_reverse]; omega
      rw [List.drop_eq_getElem_cons hlt]
      simp only [List.replicate_succ, List.cons_append, iterAnswers, List.map_cons]
      rw [if_pos (by omega), ih (b + 1) l (by omega) hne, List.getElem?_eq_getElem hlt]
  have := key (l.length + 1) 0 (e :: l) (by simp) (by simp)
  exact congrArg Except.ok this

/-- **C07 is false of the code**, on every non-empty map: after one `next_back`, `size_hint` still
reports all entries. -/
theorem C07_size_hint_refuted {t : Tree K V A} (h : ReachableBulk t) {l : List (K × V)}
    (hl : Shows t l) (hne : l ≠ []) :
    ∃ it, t.iter = .ok it ∧ it.runCalls t [.back] = .ok [(l.getLast?, l.length)] := by
  obtain ⟨it, h1, h2⟩ := C07_exact_behaviour h hl [.back]
  refine ⟨it, h1, ?_⟩
  rw [h2]
  have := List.length_pos_of_ne_nil hne
  simp only [iterAnswers, if_pos this, Nat.sub_zero]
  rw [List.getLast?_eq_getElem?, List.getElem?_reverse this, Nat.sub_zero]

example : ∃ it, demo.iter = .ok it ∧ it.runCalls demo [.back] = .ok [(some (99, 57), 100)] := by
  obtain ⟨it, h1, h2⟩ := C07_size_hint_refuted demo_reach.mut.bulk demo_shows (by decide)
  exact ⟨it, h1, h2⟩

/-- A concrete case of the double yield. -/
example : ((Tree.new : Tree Nat Nat Unit).insert 1 10).bind (fun p =>
    p.2.iter.bind (fun it => it.runCalls p.2 [.back, .front]))
    = .ok [(some (1, 10), 1), (some (1, 10), 0)] := by decide

example := C08_exactly_once demo_reach.mut.bulk demo_shows [.front, .back, .back]
example := C08_then_none demo_reach.mut.bulk demo_shows (List.replicate 100 .front) [.back, .front]
  (by decide +kernel)
example := C07_exact_behaviour demo_reach.mut.bulk demo_shows [.back, .front, .back]

end Bpt
