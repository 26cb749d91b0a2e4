import Verif.EvenHistory
import Verif.Proofs.ReachInv

/-!
# The invariant of maps from evenly sized bulk loads
-/

namespace Bpt
open Spec
variable {K V A : Type} [LinearOrder K] [Augmentation K V A]

theorem EvenlyGrouped.noLone {n : Nat} (h : EvenlyGrouped n) (fuel : Nat) : noLone fuel n := by
  induction h generalizing fuel with
  | root h => cases fuel with
    | zero => trivial
    | succ f => exact .inl h
  | layer h1 _ ih => cases fuel with
    | zero => trivial
    | succ f => exact .inr ⟨h1, ih f⟩

/-- With enough fuel `noLone` decides the grouping. -/
theorem evenlyGrouped_of_noLone {n fuel : Nat} (hf : n ≤ fuel) (h : noLone fuel n) :
    EvenlyGrouped n := by
  induction fuel generalizing n with
  | zero => exact .root (by omega)
  | succ fuel ih =>
    by_cases h1 : n ≤ 1
    · exact .root h1
    · have h2 := h.resolve_left h1
      exact .layer h2.1 (ih (by unfold parents; omega) h2.2)

/-- Up to 65 nodes one layer suffices. -/
theorem evenlyGrouped_small {n : Nat} (h : n ≤ 65) : EvenlyGrouped n := by
  by_cases h1 : n ≤ 1
  · exact .root h1
  · refine .layer ?_ (.root ?_)
    · rcases Nat.lt_or_ge n 65 with h2 | h2
      · rw [Nat.mod_eq_of_lt h2]; omega
      · have : n = 65 := by omega
        subst this; decide
    · unfold parents; omega

theorem evenlyLoaded_start (t : Tree K V A) (h : EvenlyLoaded t) (_ : t.len < 2 ^ 64) :
    ∃ (H : Nat) (g : T K V A H), WF 1 t g ∧ AugWF t g := by
  obtain ⟨data, hd, he, hb⟩ := h
  obtain ⟨t', H, g, h1, h2, h3, _⟩ := bulkLoad_ok (A := A) (μ := 1) (by omega) data hd (.inr (he.noLone _))
  rw [hb] at h1
  cases h1
  exact ⟨H, g, h2, h3⟩

theorem ReachableEven.wf {t : Tree K V A} (h : ReachableEven t) :
    ∃ (H : Nat) (g : T K V A H), WF 1 t g ∧ t.len < 2 ^ 64 ∧ (KeyOnly K V A → AugWF t g) := by
  obtain ⟨H, g, h1, h2, h3⟩ := reach_inv (by omega) evenlyLoaded_start h
  exact ⟨H, g, h1, h2, fun hk => h3 fun _ => hk⟩

theorem ReachableEven.inv {t : Tree K V A} (h : ReachableEven t) : ∃ l, Inv 1 t l := by
  obtain ⟨H, g, h1, h2, _⟩ := h.wf
  exact ⟨g.toL, H, g, h1, rfl, h2⟩

theorem ReachableEven.invA {t : Tree K V A} (h : ReachableEven t) (hk : KeyOnly K V A) :
    ∃ l, InvA 1 t l := by
  obtain ⟨H, g, h1, h2, h3⟩ := h.wf
  exact ⟨g.toL, H, g, h1, rfl, h2, h3 hk⟩

theorem ReachableEven.bulk {t : Tree K V A} (h : ReachableEven t) : ReachableBulk t :=
  h.mono (fun _ ⟨data, h1, _, h2⟩ => ⟨data, h1, h2⟩) id

theorem Reachable.even {t : Tree K V A} (h : Reachable t) : ReachableEven t :=
  h.mono (fun _ h => ⟨[], .nil, .root (by simp [insertAll, leavesFor]), by rw [h]; rfl⟩) id

end Bpt
