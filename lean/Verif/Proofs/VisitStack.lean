import Verif.Model.VisitStack
import Verif.Proofs.Ghost
namespace Bpt

/-- The stored stack holds the list. -/
structure VisitStack.Holds (s : VisitStack) (l : List StackEntry) : Prop where
  size : s.stack.length = maxDepth
  len : s.len = l.length
  le : l.length ≤ maxDepth
  items : s.stack.take s.len = l.reverse

theorem VisitStack.holds_new : VisitStack.new.Holds [] :=
  ⟨by simp [new], rfl, by simp, by simp [new]⟩

theorem VisitStack.Holds.run {s : VisitStack} {l : List StackEntry} (h : s.Holds l) (cs : List StackCall) :
    (s.run cs).map (fun r => (r.1, r.2.len)) = (stackRun l cs).map (fun r => (r.1, r.2.length)) ∧
      ∀ rs s' l', s.run cs = .ok (rs, s') → stackRun l cs = .ok (rs, l') → s'.Holds l' := by
  induction cs generalizing s l with
  | nil =>
    refine ⟨by simp [VisitStack.run, stackRun, pure_ok, Except.map, h.len], fun rs s' l' h1 h2 => ?_⟩
    simp only [VisitStack.run, stackRun, pure_ok, Except.ok.injEq, Prod.mk.injEq] at h1 h2
    obtain ⟨_, rfl⟩ := h1; obtain ⟨_, rfl⟩ := h2
    exact h
  | cons c cs ih =>
    obtain ⟨hs, hl, hle, hi⟩ := h
    cases c with
    | push e =>
      unfold VisitStack.run stackRun VisitStack.push pushStack
      by_cases hm : l.length < maxDepth
      · have h1 : s.len < maxDepth := by omega
        have h2 : s.len < s.stack.length := by omega
        have h3 : s.len + 1 < 2 ^ 16 := by simp only [maxDepth] at h1; omega
        simp only [h1, h2, h3, hm, not_true_eq_false, if_false, if_true, pure_ok, ok_bind]
        refine ih ⟨by simp [hs], by simp [hl], hm, ?_⟩
        rw [List.take_add_one, List.take_set_of_le (by omega), hi]
        simp [h2]
      · have h1 : ¬ s.len < maxDepth := by omega
        simp only [h1, hm, not_false_eq_true, if_false, if_true, error_bind]
        exact ⟨rfl, fun _ _ _ h => nomatch h⟩
    | pop =>
      unfold VisitStack.run stackRun VisitStack.pop
      cases l with
      | nil =>
        have h0 : s.len = 0 := by simpa using hl
        simp only [h0, if_true, pure_ok, ok_bind, List.tail_nil, List.head?_nil]
        obtain ⟨i1, i2⟩ := ih (s := s) (l := []) ⟨hs, hl, hle, hi⟩
        cases e1 : s.run cs with
        | error f =>
          cases e2 : stackRun [] cs with
          | error f' => rw [e1, e2] at i1; simp only [Except.map] at i1; cases i1; exact ⟨rfl, fun _ _ _ h => nomatch h⟩
          | ok r => rw [e1, e2] at i1; cases i1
        | ok r =>
          cases e2 : stackRun [] cs with
          | error f' => rw [e1, e2] at i1; cases i1
          | ok r' =>
            rw [e1, e2] at i1
            simp only [Except.map, Except.ok.injEq, Prod.mk.injEq] at i1
            obtain ⟨j1, j2⟩ := i1
            refine ⟨by simp [ok_bind, Except.map, j1, j2], fun rs s' l' k1 k2 => ?_⟩
            simp only [ok_bind, Except.ok.injEq, Prod.mk.injEq] at k1 k2
            obtain ⟨_, rfl⟩ := k1; obtain ⟨_, rfl⟩ := k2
            exact i2 r.1 _ _ e1 (by rw [e2, j1])
      | cons e l =>
        have h0 : s.len = l.length + 1 := by simpa using hl
        have hn : ¬ s.len = 0 := by omega
        have hp : s.len ≤ maxDepth := by simp only [List.length_cons] at hle; omega
        have hg : s.stack[s.len - 1]? = some e := by
          have := congrArg (fun x => x[s.len - 1]?) hi
          simp only [List.getElem?_take, List.reverse_cons] at this
          rw [if_pos (by omega)] at this
          rw [this, h0]
          simp
        simp only [hn, hp, not_true_eq_false, if_false, hg, pure_ok, ok_bind, List.tail_cons, List.head?_cons]
        obtain ⟨i1, i2⟩ := ih (s := { s with len := s.len - 1 }) (l := l) ⟨hs, by simp [h0], by simp only [List.length_cons] at hle; omega, by
          have := congrArg (fun x => x.take (s.len - 1)) hi
          simp only [List.take_take, List.reverse_cons] at this
          rw [Nat.min_eq_left (by omega)] at this
          rw [h0, Nat.add_sub_cancel] at this
          simp only [h0, Nat.add_sub_cancel, this]
          simp⟩
        cases e1 : VisitStack.run { s with len := s.len - 1 } cs with
        | error f =>
          cases e2 : stackRun l cs with
          | error f' => rw [e1, e2] at i1; simp only [Except.map] at i1; cases i1; exact ⟨rfl, fun _ _ _ h => nomatch h⟩
          | ok r => rw [e1, e2] at i1; cases i1
        | ok r =>
          cases e2 : stackRun l cs with
          | error f' => rw [e1, e2] at i1; cases i1
          | ok r' =>
            rw [e1, e2] at i1
            simp only [Except.map, Except.ok.injEq, Prod.mk.injEq] at i1
            obtain ⟨j1, j2⟩ := i1
            refine ⟨by simp [ok_bind, Except.map, j1, j2], fun rs s' l' k1 k2 => ?_⟩
            simp only [ok_bind, Except.ok.injEq, Prod.mk.injEq] at k1 k2
            obtain ⟨_, rfl⟩ := k1; obtain ⟨_, rfl⟩ := k2
            exact i2 r.1 _ _ e1 (by rw [e2, j1])
end Bpt
