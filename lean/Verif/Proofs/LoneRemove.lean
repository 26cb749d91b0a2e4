import Verif.Proofs.Lone
import Verif.Proofs.Hom
import Verif.Proofs.ReachInv

/-!
# Removing the last entries of a tree with a lone node on the right spine
-/

namespace Bpt
open Spec
variable {K V A : Type}

/-- A path with no entry to its right follows the right spine. -/
theorem Ctx.right_of_last {μ h H : Nat} {c : Ctx K V A h H} (hs : c.Shape μ)
    (hl : c.lvR.flatMap (·.2) = []) : c.Right := by
  induction c with
  | nil => trivial
  | cons f c ih =>
    obtain ⟨hS, -, -, -, hcs⟩ := hs
    rw [Ctx.lvR, List.flatMap_append, List.append_eq_nil_iff] at hl
    refine ⟨?_, ih hcs hl.2⟩
    cases hk : f.kidsR with
    | nil => rfl
    | cons z zs =>
      exfalso
      have h1 := hS.2
      rw [hk, SpineL_cons] at h1
      have h2 : z.toL ≠ [] := by
        have h1 := h1.1
        split at h1
        · refine toL_ne_nil h1 ?_
          rintro rfl
          cases c.flag <;> simp [mnAt]
        · exact toL_ne_nil h1 (by omega)
      have h3 := hl.1
      rw [Frame.lvR, hk, List.flatMap_cons, List.flatMap_append, List.append_eq_nil_iff] at h3
      exact h2 h3.1

theorem T.LoneR.toL_ne {h m : Nat} {r : Bool} {x : T K V A h} (hl : x.LoneR)
    (hx : T.ShapeTop 0 m r x) : x.toL ≠ [] := by
  refine toL_ne_nil hx ?_
  rintro rfl
  exact hl.elim

variable [LinearOrder K] [Augmentation K V A]

/-- Removing the last entry: a panic, or the lone node is still there. -/
theorem remove_last_lone {t : Tree K V A} {H : Nat} {g : T K V A H} (w : WF 0 t g)
    (hH : H ≤ maxDepth) (hlone : g.LoneR) {l : List (K × V)} {k : K} {v : V}
    (hl : g.toL = l ++ [(k, v)]) :
    (∃ (t' : Tree K V A) (H' : Nat) (g' : T K V A H'),
      t.remove k = .ok (some v, t') ∧ WF 0 t' g' ∧ g'.toL = l ∧ g'.LoneR) ∨
    t.remove k = .error .panic := by
  obtain ⟨c, x, hp, hdesc, hloc⟩ := descend_stack w hH k
  have hcut := hloc.cut w hp
  obtain ⟨i, d⟩ := x
  have hsort := w.sorted
  have hmax : ∀ e ∈ g.toL, ¬ k < e.1 := by
    have hs : Sorted g.toL := w.sorted
    intro e he
    rw [hl] at he hs
    rcases List.mem_append.1 he with he | he
    · exact not_lt.2 ((List.pairwise_append.1 hs).2.2 e he _ (List.mem_singleton_self _)).le
    · rw [List.mem_singleton.1 he]; exact lt_irrefl _
  unfold Tree.remove Tree.removeImpl Tree.keyToRef
  rw [hdesc]
  simp only [ok_bind]
  rw [w.flat.get hcut.eq]
  rcases hcut.split w.sorted with ⟨a, v', b, h0, h1, h2, h3, h4, h5⟩ | ⟨a, b, h0, h1, h2, h3, h4, h5⟩
  · simp only at h0
    subst h0
    have h3' : g.toL = _ := h3
    have hnil : b ++ c.lvR.flatMap (·.2) = [] := by
      rw [List.eq_nil_iff_forall_not_mem]
      intro e he
      exact hmax e (by rw [h3']; simp only [List.mem_append, List.mem_cons] at he ⊢; tauto) (h5 e he)
    have heq := h3'
    rw [hnil, hl] at heq
    obtain ⟨hla, he2⟩ := List.append_inj' heq rfl
    simp only [List.cons.injEq, Prod.mk.injEq, true_and, and_true] at he2
    subst he2
    rw [List.append_eq_nil_iff] at hnil
    have hcS := (Ctx.shape_plug.1 ⟨hp ▸ w.shape, hloc.lenOK⟩).1
    have hright := Ctx.right_of_last hcS hnil.2
    have hclone : c.Lone := by
      rw [← hp, Ctx.loneR_plug hright] at hlone
      exact hlone.resolve_right (fun h => h)
    simp only [ok_bind, locateSlot_found h1, pure_ok]
    rcases removeByRef_ok0 (by omega) w.base hp hloc.lenOK with ⟨t', H', g', r1, r2, r3, r4, -, -, -, -, r5, -⟩ | ⟨-, r1, -⟩
    · refine .inl ⟨t', H', g', ?_, r2.ordered (r3 w.ord), ?_, r5 hright hclone⟩
      · simp only [r1, ok_bind, Option.map_some]
      · rw [r4, hnil.1, hnil.2, hla]; simp
    · right
      simp only [r1, error_bind]
  · exfalso
    have h3' : g.toL = _ := h3
    have : (k, v) ∈ g.toL := by rw [hl]; simp
    rw [h3'] at this
    rcases List.mem_append.1 this with h | h
    · exact lt_irrefl _ (h4 _ h)
    · exact lt_irrefl _ (h5 _ h)

/-- Removing all entries from the last to the first ends in a panic. -/
theorem run_removals_lone (r : List (K × V)) {t : Tree K V A} {H : Nat} {g : T K V A H}
    (w : WF 0 t g) (hn : t.len < 2 ^ 64) (hlone : g.LoneR) (hl : g.toL = r.reverse) :
    t.run (r.map (fun e => .remove e.1)) = .error .panic := by
  induction r generalizing t H with
  | nil => exact absurd hl (hlone.toL_ne w.shape)
  | cons e r ih =>
    rw [List.reverse_cons] at hl
    rcases remove_last_lone w (w.depth hn) hlone hl with ⟨t', H', g', h1, h2, h3, h4⟩ | h1
    · have := ih h2 (by
        rw [h2.len, h3]; rw [w.len, hl] at hn
        simp only [List.length_append, List.length_singleton] at hn; omega) h4 h3
      simp only [List.map_cons, Tree.run, Tree.call, h1, ok_bind, pure_ok, this, error_bind]
    · simp only [List.map_cons, Tree.run, Tree.call, h1, error_bind]

end Bpt
