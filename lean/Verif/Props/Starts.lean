import Verif.Props.Loads
import Verif.Props.Crash
import Verif.Props.Arguments
import Verif.Props.Count

/-!
# Histories that start from a bulk load: the theorems of C45, C46, C48 and C53 applied to one

Beside these theorems stand instances with a new map. Here the map starts from the 150 items of
`Verif/Props/Loads.lean`, which are out of order and which `==` partly calls equal; 76 of them stay.
-/

namespace Bpt

/-- The load is a start in the sense of `Fresh`. -/
theorem odd_fresh : ∃ t : Tree Nat Nat Count, Fresh t (Spec.survivors oddEq oddData) := by
  obtain ⟨t, h, -⟩ := C54_load (A := Count) oddEq oddData (by decide +kernel)
  exact ⟨t, .load (by decide +kernel) oddData_even h⟩

theorem odd_length : (Spec.survivors oddEq oddData).length = 76 := by decide +kernel

/-- Remove something, then insert something. -/
def oddCalls : List (Answers Nat × UCall Nat Nat) :=
  [(.ofOrder false 198, .remove), (alwaysLess, .insert 5 6)]

example : ∃ t0 : Tree Nat Nat Count, ∃ as t' l', t0.urun oddCalls = .ok (as, t') ∧
    Effects (oddCalls.map (·.2)) as (Spec.survivors oddEq oddData) l' ∧ Contents t' l' := by
  obtain ⟨t, h⟩ := odd_fresh
  exact ⟨t, C46_history h oddCalls (by rw [odd_length]; decide)⟩

example : ∃ t0 : Tree Nat Nat Count, ∃ as t l, t0.urun oddCalls = .ok (as, t) ∧ Contents t l ∧
    ∃ a t' l', t.ucall alwaysEqual .remove = .ok (a, t') ∧ Contents t' l' ∧ Effect .remove a l l' := by
  obtain ⟨t, h⟩ := odd_fresh
  exact ⟨t, C46_step h oddCalls (by rw [odd_length]; decide) alwaysEqual .remove⟩

example : ∃ t0 : Tree Nat Nat Count, ∃ as t l, t0.urun oddCalls = .ok (as, t) ∧ Contents t l ∧
    ∀ cb t', (cb, t') ∈ (t.ucallT alwaysEqual .get).trace → Contents t' l := by
  obtain ⟨t, h⟩ := odd_fresh
  obtain ⟨as, t1, l, h1, h2, h3⟩ := C45_comparison h oddCalls alwaysEqual .get (by rw [odd_length]; decide)
  exact ⟨t, as, t1, l, h1, h2, fun cb t' hm =>
    (h3 cb t' hm (.inr ⟨(by intro _ _ e; cases e), (by intro e; cases e)⟩)).1⟩

example : ∃ t0 : Tree Nat Nat Count, ∃ as t l, t0.urun oddCalls = .ok (as, t) ∧ Contents t l ∧
    ∃ a t1 l1, t.ucall alwaysLess (.insert 1 2) = .ok (a, t1) ∧ Contents t1 l1 ∧
      Effect (.insert 1 2) a l l1 ∧
      ∀ cb t', (cb, t') ∈ (t.ucallT alwaysLess (.insert 1 2)).trace → cb.isFromLeaf ∨ cb.isFromInner →
        t'.drop = .ok (l1.take l.length) := by
  obtain ⟨t, h⟩ := odd_fresh
  exact ⟨t, C45_insert_partial h oddCalls alwaysLess 1 2 (by rw [odd_length]; decide)⟩

example : ∃ t0 : Tree Nat Nat Count, ∃ as t l, t0.urun oddCalls = .ok (as, t) ∧ Contents t l ∧
    ∀ cb t', (cb, t') ∈ (t.ucallT alwaysEqual .remove).trace → cb ≠ .compare →
      (cb.isFromLeaf → (t'.st.mergeWithLeftLeaf = t.st.mergeWithLeftLeaf ∧
        t'.st.mergeWithRightLeaf = t.st.mergeWithRightLeaf) ∨ t'.root ≠ t.root) →
      t'.drop = .error .panic := by
  obtain ⟨t, h⟩ := odd_fresh
  exact ⟨t, C45_remove_partial h oddCalls alwaysEqual (by rw [odd_length]; decide)⟩

example : ∃ t0 : Tree Nat Nat Count, ∃ as t l, t0.urun oddCalls = .ok (as, t) ∧ Contents t l ∧
    ∀ cb t', (cb, t') ∈ (t.ucallT alwaysEqual .remove).trace →
      cb.ArgsOk ∨ (cb = .fromLeaf 0 ∧ UCall.remove = (.remove : UCall Nat Nat) ∧ l.length = 1) := by
  obtain ⟨t, h⟩ := odd_fresh
  exact ⟨t, C53_arguments h oddCalls alwaysEqual .remove (by rw [odd_length]; decide)⟩

example : ∃ t0 : Tree Nat Nat Count, ∃ as t l, t0.urun oddCalls = .ok (as, t) ∧ Contents t l ∧
    ∀ v t1, t.ucall alwaysEqual .remove = .ok (.value (some v), t1) → l.length = 1 →
      ∃ t', (.fromLeaf 0, t') ∈ (t.ucallT alwaysEqual .remove).trace ∧ t'.len = 1 ∧
        t'.drop = .error .panic := by
  obtain ⟨t, h⟩ := odd_fresh
  exact ⟨t, C53_last_removal h oddCalls alwaysEqual (by rw [odd_length]; decide)⟩

example : ∃ t0 : Tree Nat Nat Count, ∃ as t l, t0.urun oddCalls = .ok (as, t) ∧ Contents t l ∧
    (t.ucallC alwaysEqual .remove).cost ≤ 19 + 7 * Nat.log 17 (l.length / 16) := by
  obtain ⟨t, h⟩ := odd_fresh
  exact ⟨t, C48_comparisons h oddCalls (by rw [odd_length]; decide) alwaysEqual .remove⟩

example : ∃ t0 : Tree Nat Nat Count, (t0.urunC oddCalls).cost ≤ 2 * (19 + 7 * Nat.log 17 ((76 + 2) / 16)) := by
  obtain ⟨t, h⟩ := odd_fresh
  have := C48_total h oddCalls (by rw [odd_length]; decide)
  rw [odd_length] at this
  exact ⟨t, this⟩

example : ∃ t0 : Tree Nat Nat Count, ∃ as t l, t0.urun oddCalls = .ok (as, t) ∧ Contents t l ∧
    ((t.ucallT alwaysEqual .remove).trace.filter (fun e => decide (e.1 ≠ .compare))).length ≤
      6 + 2 * Nat.log 17 (l.length / 16) := by
  obtain ⟨t, h⟩ := odd_fresh
  exact ⟨t, C48_summaries h oddCalls (by rw [odd_length]; decide) alwaysEqual .remove⟩

end Bpt
