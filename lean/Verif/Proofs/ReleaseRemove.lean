import Verif.Proofs.Lawful
import Verif.Proofs.LoneRemove
import Verif.Proofs.Release

/-!
# Removals in a release build from a tree with a lone inner node

The last but one node of the right spine has a single child, and that child has at least two leaves.
-/

namespace Bpt
open Spec
variable {K V A : Type} [LinearOrder K] [Augmentation K V A]

/-- Removing the last entry: the shape is still there, or the release build reads a child that does not
exist. -/
theorem remove_last_deep {t : Tree K V A} {H : Nat} {g : T K V A H} (w : WF 0 t g)
    (hH : H ≤ maxDepth) {rest : List Nat} {n : Nat} (hs : g.spine = rest ++ [0, n]) (hn : 1 ≤ n)
    {l : List (K × V)} {k : K} {v : V} (hl : g.toL = l ++ [(k, v)]) (early : Bool) :
    (∃ (t' : Tree K V A) (H' : Nat) (g' : T K V A H') (n' : Nat),
      t.removeUR (.ofOrder early k) = .ok (some v, t') ∧ WF 0 t' g' ∧ g'.toL = l ∧
      g'.spine = rest ++ [0, n'] ∧ 1 ≤ n') ∨
    (t.remove k = .error .panic ∧ t.removeUR (.ofOrder early k) = .error .ub) := by
  have hkey := keyToRefU_lawful w hH early k
  have hlaw := removeU_lawful w hH early k
  obtain ⟨c, x, hp, hdesc, hloc⟩ := descend_stack w hH k
  have hcut := hloc.cut w hp
  obtain ⟨i, d⟩ := x
  have hmax : ∀ e ∈ g.toL, ¬ k < e.1 := by
    have hs : Sorted g.toL := w.sorted
    intro e he
    rw [hl] at he hs
    rcases List.mem_append.1 he with he | he
    · exact not_lt.2 ((List.pairwise_append.1 hs).2.2 e he _ (List.mem_singleton_self _)).le
    · rw [List.mem_singleton.1 he]; exact lt_irrefl _
  rcases hcut.split w.sorted with ⟨a, v', b, h0, h1, h2, h3, h4, h5⟩ | ⟨a, b, h0, h1, h2, h3, h4, h5⟩
  · simp only at h0
    subst h0
    have h3' : g.toL = _ := h3
    have hnil : b ++ c.lvR.flatMap (·.2) = [] := by
      rw [List.eq_nil_iff_forall_not_mem]
      intro e he
      exact hmax e (by rw [h3']; simp only [List.mem_append, List.mem_cons] at he ⊢; tauto) (h5 e he)
    have heq := h3'
    rw [hnil, hl] at heq
    obtain ⟨hla, he2⟩ := List.append_inj' heq rfl
    simp only [List.cons.injEq, Prod.mk.injEq, true_and, and_true] at he2
    subst he2
    rw [List.append_eq_nil_iff] at hnil
    have hcS := (Ctx.shape_plug.1 ⟨hp ▸ w.shape, hloc.lenOK⟩).1
    have hright := Ctx.right_of_last hcS hnil.2
    have hsp : c.spine = rest ++ [0, n] := by
      rw [← hs, ← hp, Ctx.spine_plug hright]; simp [T.spine]
    have hkr : t.keyToRef k = .ok (some ⟨c.stack (.leaf i), i, a.length⟩) := by
      unfold Tree.keyToRef
      rw [hdesc]
      simp only [ok_bind]
      rw [w.flat.get hcut.eq]
      simp only [ok_bind, locateSlot_found h1, pure_ok]
    rcases removeByRef_ok0 (by omega) w.base hp hloc.lenOK with
      ⟨t', H', g', r1, r2, r3, r4, -, -, -, -, -, r5, -⟩ | ⟨-, r1, r2⟩
    · obtain ⟨n', hn', hsp'⟩ := r5 hright rest n hsp hn
      have hrem : t.remove k = .ok (some v, t') := by
        simp only [Tree.remove, Tree.removeImpl, hkr, ok_bind, r1, Option.map_some, pure_ok]
      refine .inl ⟨t', H', g', n', ?_, r2.ordered (r3 w.ord), ?_, hsp', hn'⟩
      · rw [(Tree.removeU_agree _ t).eq (by rw [hlaw, hrem]; simp), hlaw, hrem]
      · rw [r4, hnil.1, hnil.2, hla]; simp
    · right
      rw [if_neg (by rw [hsp]; simp; omega)] at r2
      constructor
      · simp only [Tree.remove, Tree.removeImpl, hkr, ok_bind, r1, error_bind]
      · simp only [Tree.removeUR, Tree.removeImplUR, hkey, hkr, ok_bind, r2, error_bind]
  · exfalso
    have h3' : g.toL = _ := h3
    have : (k, v) ∈ g.toL := by rw [hl]; simp
    rw [h3'] at this
    rcases List.mem_append.1 this with h | h
    · exact lt_irrefl _ (h4 _ h)
    · exact lt_irrefl _ (h5 _ h)

theorem spine_toL_ne {H : Nat} {g : T K V A H} {m : Nat} {r : Bool} {rest : List Nat} {n : Nat}
    (hs : g.spine = rest ++ [0, n]) (hx : T.ShapeTop 0 m r g) : g.toL ≠ [] := by
  refine toL_ne_nil hx ?_
  rintro rfl
  simp [T.spine] at hs

/-- Removing all entries from the last to the first ends in undefined behaviour. -/
theorem run_removals_deep (early : Bool) (r : List (K × V)) {t : Tree K V A} {H : Nat} {g : T K V A H}
    (w : WF 0 t g) (hlt : t.len < 2 ^ 64) {rest : List Nat} {n : Nat} (hs : g.spine = rest ++ [0, n])
    (hn : 1 ≤ n) (hl : g.toL = r.reverse) :
    t.urunR (r.map (fun e => (.ofOrder early e.1, .remove))) = .error .ub := by
  induction r generalizing t H n with
  | nil => exact absurd hl (spine_toL_ne hs w.shape)
  | cons e r ih =>
    rw [List.reverse_cons] at hl
    rcases remove_last_deep w (w.depth hlt) hs hn hl early with ⟨t', H', g', n', h1, h2, h3, h4, h5⟩ | ⟨-, h1⟩
    · have := ih h2 (by
        rw [h2.len, h3]; rw [w.len, hl] at hlt
        simp only [List.length_append, List.length_singleton] at hlt; omega) h4 h5 h3
      simp only [List.map_cons, Tree.urunR, Tree.ucallR, h1, ok_bind, pure_ok, this, error_bind]
    · simp only [List.map_cons, Tree.urunR, Tree.ucallR, h1, error_bind]

/-- The shape arises when the leaves group evenly and the groups do not. -/
theorem layerSpine_deep {m : Nat} (h1 : m % 65 ≠ 1) (h2 : 1 < (m + 64) / 65)
    (h3 : ((m + 64) / 65) % 65 = 1) :
    ∃ rest n, layerSpine (m + 1) m [] = rest ++ [0, n] ∧ 1 ≤ n := by
  have key : ∀ fuel k l, ∃ rest, layerSpine fuel k l = rest ++ l := by
    intro fuel
    induction fuel with
    | zero => exact fun k l => ⟨[], rfl⟩
    | succ fuel ih =>
      intro k l
      rw [layerSpine]
      split
      · exact ⟨[], rfl⟩
      · obtain ⟨rest, h⟩ := ih ((k + 64) / 65) ((k - 1) % 65 :: l)
        exact ⟨rest ++ [(k - 1) % 65], by rw [h]; simp⟩
  obtain ⟨f, hf⟩ : ∃ f, m + 1 = f + 2 := ⟨m - 1, by omega⟩
  rw [hf, layerSpine, if_neg (by omega), layerSpine, if_neg (by omega)]
  obtain ⟨rest, h⟩ := key f (((m + 64) / 65 + 64) / 65) [((m + 64) / 65 - 1) % 65, (m - 1) % 65]
  refine ⟨rest, (m - 1) % 65, ?_, by omega⟩
  rw [h]
  congr 2
  omega

end Bpt
