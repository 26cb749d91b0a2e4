import Verif.OwnershipSpec
import Verif.Proofs.Unordered
import Verif.Proofs.PermTac

/-!
# C36: over a whole life of a map, every value is handed back or destroyed exactly once
-/

namespace Bpt
variable {K V A : Type}

section
variable [Augmentation K V A]

theorem pulls_perm' {α : Type} (l : List α) (ds : List Dir) :
    ((Spec.pulls l ds).1.filterMap (·.1) ++ (Spec.pulls l ds).2).Perm l := by
  induction ds generalizing l with
  | nil => exact List.Perm.refl _
  | cons d ds ih =>
    cases l with
    | nil =>
      cases d <;>
      · have := ih (l := ([] : List α))
        simpa [Spec.pulls, Spec.pull] using this
    | cons x l =>
      cases d with
      | front =>
        have := ih (l := l)
        simpa [Spec.pulls, Spec.pull] using this
      | back =>
        have h := ih (l := (x :: l).dropLast)
        have e : (x :: l).getLast? = some ((x :: l).getLast (by simp)) :=
          List.getLast?_eq_some_getLast (by simp)
        simp only [Spec.pulls, Spec.pull, e, List.filterMap_cons_some, List.cons_append]
        refine (h.cons _).trans ?_
        have := List.dropLast_concat_getLast (l := x :: l) (by simp)
        conv => rhs; rw [← this]
        exact (List.perm_append_singleton _ _).symm

/-- The items among `l` a call destroys. -/
def UCall.clears : UCall K V → List (K × V) → List (K × V)
  | .clear, l => l
  | _, _ => []

/-- The books of one call balance. -/
theorem Effect.balance {c : UCall K V} {a : Answer K V} {l l' : List (K × V)} (h : Effect c a l l') :
    (c.gives a ++ l.map (·.2)).Perm
      (c.takes a ++ (c.clears l).map (·.2) ++ l'.map (·.2)) := by
  cases h <;> simp [UCall.gives, UCall.takes, UCall.clears] <;> perm

theorem life_or {μ : Nat} {t : Tree K V A} {l : List (K × V)} (h : UInvM μ t l)
    (cs : List (Answers K × UCall K V)) (hl : t.len + cs.length < 2 ^ 64) (e : Ending) :
    (∃ s, t.life cs e = .ok s ∧ (s.given ++ l.map (·.2)).Perm (s.back ++ s.destroyed)) ∨
    (μ = 0 ∧ t.life cs e = .error .panic ∧ UCall.remove ∈ cs.map (·.2)) := by
  induction cs generalizing t l with
  | nil =>
    cases e with
    | drop =>
      refine .inl ⟨⟨[], [], l.map (·.2)⟩, ?_, List.Perm.refl _⟩
      rw [Tree.life, h.contents.drop]; rfl
    | intoIter ds =>
      obtain ⟨it, it', h1, h2, h3⟩ := h.contents.into ds
      refine .inl ⟨⟨[], ((Spec.pulls l ds).1.filterMap (·.1)).map (·.2), (Spec.pulls l ds).2.map (·.2)⟩,
        ?_, ?_⟩
      · rw [Tree.life, h1, ok_bind, h2, ok_bind]; dsimp only; rw [h3]; rfl
      · rw [← List.map_append]
        exact ((pulls_perm' l ds).map _).symm
  | cons c cs ih =>
    obtain ⟨o, c⟩ := c
    rw [List.length_cons] at hl
    have hg : t.destroys c = .ok (c.clears l) := by
      cases c <;> first | rfl | exact h.contents.drop
    rcases ucall_or h (by omega) o c with ⟨a, t', l', h1, h2, h3⟩ | ⟨h0, rfl, h1⟩
    swap
    · refine .inr ⟨h0, ?_, by simp⟩
      rw [Tree.life, hg, ok_bind, h1]
      rfl
    have := h3.length_le
    rcases ih h2 (by rw [h2.len]; have := h.len; omega) with ⟨s, h4, h5⟩ | ⟨h0, h4, h5⟩
    swap
    · refine .inr ⟨h0, ?_, by simp [h5]⟩
      rw [Tree.life, hg, ok_bind, h1, ok_bind]
      dsimp only
      rw [h4]
      rfl
    refine .inl ⟨⟨c.gives a ++ s.given, c.takes a ++ s.back,
      (c.clears l).map (·.2) ++ s.destroyed⟩, ?_, ?_⟩
    · rw [Tree.life, hg, ok_bind, h1, ok_bind]
      dsimp only
      rw [h4, ok_bind]
      rfl
    · have := h3.balance
      dsimp only
      refine (?_ : List.Perm _ (s.given ++ (c.gives a ++ l.map (·.2)))).trans
        ((List.Perm.append_left _ this).trans ?_)
      · perm
      · refine (?_ : List.Perm _ ((s.given ++ l'.map (·.2)) ++
          (c.takes a ++ (c.clears l).map (·.2)))).trans ((List.Perm.append_right _ h5).trans ?_) <;> perm

theorem life_ok {t : Tree K V A} {l : List (K × V)} (h : UInv t l)
    (cs : List (Answers K × UCall K V)) (hl : t.len + cs.length < 2 ^ 64) (e : Ending) :
    ∃ s, t.life cs e = .ok s ∧ (s.given ++ l.map (·.2)).Perm (s.back ++ s.destroyed) :=
  (life_or h cs hl e).resolve_right (by simp)

end

/-! ## C36 -/

/-- **C36 (values).** Whatever the comparisons of the keys answer: a new map lives through any calls
without a fault and then is dropped, or turned into an iterator that is dropped after any calls on it.
The values given to it over its life are, counted with multiplicity, exactly those handed back to the
caller and those destroyed: none is lost, none twice. -/
theorem C36_values [Augmentation K V A] (cs : List (Answers K × UCall K V))
    (hn : cs.length < 2 ^ 64) (e : Ending) :
    ∃ s, (Tree.new : Tree K V A).life cs e = .ok s ∧ s.given.Perm (s.back ++ s.destroyed) := by
  obtain ⟨s, h1, h2⟩ := life_ok (A := A) UInv.new cs (by show 0 + _ < _; omega) e
  refine ⟨s, h1, ?_⟩
  simpa using h2

/-- Three keys inserted, one replaced, one changed in place, one removed, a `clear`, two more keys, and
an iterator dropped after one item. -/
example : ((Tree.new : Tree Nat Nat Unit).life
    [(.ofOrder false 1, .insert 1 10), (.ofOrder false 2, .insert 2 20), (.ofOrder true 3, .insert 3 30),
      (.ofOrder false 2, .insert 2 21), (.ofOrder false 3, .getMut (· + 5)), (.ofOrder false 1, .remove),
      (.ofOrder false 0, .clear), (.ofOrder false 7, .insert 7 70), (.ofOrder false 8, .insert 8 80)]
    (.intoIter [.back])).toOption
    = some ⟨[10, 20, 30, 21, 35, 70, 80], [20, 30, 10, 80], [21, 35, 70]⟩ := by decide +kernel

example := C36_values (A := Count) (V := Nat) (K := Nat)
  [(.ofOrder false 3, .insert 3 30), (.ofOrder false 1, .insert 1 10), (.ofOrder true 3, .insert 3 31),
    (.ofOrder false 1, .remove)] (by decide) .drop

end Bpt
