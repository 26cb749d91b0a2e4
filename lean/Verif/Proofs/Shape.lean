import Verif.ShapeSpec
import Verif.Proofs.Structure
import Verif.Proofs.BulkLedger
import Verif.Proofs.Start

/-!
# The tree a bulk load makes
-/

namespace Bpt
variable {K V A : Type}

/-! ## Pieces -/

section
variable {α : Type} {n : Nat} {l : List α} {ps : List (α × List α)}

theorem CutInto.tail {p : α × List α} (h : CutInto n l (p :: ps)) :
    CutInto n (ps.flatMap (fun p => p.1 :: p.2)) ps := by
  refine ⟨rfl, fun q hq => ?_, fun q hq => h.fits q (by simp [hq])⟩
  cases ps with
  | nil => simp at hq
  | cons a ps =>
    exact h.full q (by rw [List.dropLast_cons_of_ne_nil (by simp)]; exact List.mem_cons_of_mem _ hq)

theorem CutInto.length_le (h : CutInto n l ps) : l.length ≤ n * ps.length := by
  induction ps generalizing l with
  | nil => rw [← h.all]; simp
  | cons p ps ih =>
    have h1 := ih h.tail
    have h2 := h.fits p (by simp)
    rw [← h.all, List.flatMap_cons, List.length_append, List.length_cons, List.length_cons, Nat.mul_succ]
    omega

theorem CutInto.lt_length (h : CutInto n l ps) (hne : ps ≠ []) : n * (ps.length - 1) < l.length := by
  induction ps generalizing l with
  | nil => exact absurd rfl hne
  | cons p ps ih =>
    rw [← h.all, List.flatMap_cons, List.length_append, List.length_cons, List.length_cons]
    cases ps with
    | nil => simp
    | cons q ps =>
      have h1 := ih h.tail (by simp)
      have h2 := h.full p (by simp)
      simp only [List.length_cons, Nat.add_sub_cancel] at h1 ⊢
      rw [Nat.mul_succ]
      omega

theorem CutInto.unique {ps' : List (α × List α)} (h : CutInto n l ps) (h' : CutInto n l ps') :
    ps = ps' := by
  induction ps generalizing l ps' with
  | nil =>
    cases ps' with
    | nil => rfl
    | cons p' ps' =>
      have h1 := h.all
      rw [← h'.all] at h1
      simp at h1
  | cons p ps ih =>
    cases ps' with
    | nil =>
      have h1 := h.all
      rw [← h'.all] at h1
      simp at h1
    | cons p' ps' =>
      have e : p.1 :: p.2 ++ ps.flatMap (fun p => p.1 :: p.2)
          = p'.1 :: p'.2 ++ ps'.flatMap (fun p => p.1 :: p.2) := by
        have h1 := h.all
        rw [← h'.all] at h1
        exact h1
      have hl : (p.1 :: p.2).length = (p'.1 :: p'.2).length := by
        have e1 := congrArg List.length e
        simp only [List.length_append, List.length_cons] at e1 ⊢
        have f1 := h.fits p (by simp)
        have f2 := h'.fits p' (by simp)
        cases ps with
        | nil =>
          cases ps' with
          | nil => simpa using e1
          | cons q' ps' =>
            have := h'.full p' (by simp)
            simp only [List.flatMap_nil, List.length_nil, List.flatMap_cons, List.length_append,
              List.length_cons] at e1
            omega
        | cons q ps =>
          have := h.full p (by simp)
          cases ps' with
          | nil =>
            simp only [List.flatMap_nil, List.length_nil, List.flatMap_cons, List.length_append,
              List.length_cons] at e1
            omega
          | cons q' ps' =>
            have := h'.full p' (by simp)
            omega
      obtain ⟨e1, e2⟩ := List.append_inj e hl
      have e3 : p = p' := by
        cases p; cases p'; simp only [List.cons.injEq] at e1; rw [e1.1, e1.2]
      have h'' := h'.tail
      rw [← e2] at h''
      rw [e3, ih h.tail h'']

end

/-! ## Packed trees -/

section
variable [Augmentation K V A]

theorem PackedOver.unique {l : List (STree K V A × K)} {s s' : STree K V A} (h : PackedOver l s)
    (h' : PackedOver l s') : s = s' := by
  induction h with
  | root =>
    cases h' with
    | root => rfl
    | layer _ h2 _ => simp at h2
  | layer h1 h2 _ ih =>
    cases h' with
    | root => simp at h2
    | layer g1 g2 g3 =>
      cases h1.unique g1
      exact ih g3

theorem PackedOver.ne_nil {l : List (STree K V A × K)} {s : STree K V A} (h : PackedOver l s) :
    l ≠ [] := by
  cases h with
  | root => simp
  | layer _ h2 _ => rintro rfl; simp at h2

theorem Packed.unique {items : List (K × V)} {s s' : STree K V A} (h : Packed items s)
    (h' : Packed items s') : s = s' := by
  have nil : ∀ {ps : List ((K × V) × List (K × V))} {s : STree K V A}, CutInto 64 [] ps →
      PackedOver (ps.map leafOver) s → False := by
    intro ps s h1 h2
    cases ps with
    | nil => exact h2.ne_nil rfl
    | cons p ps => have := h1.all; simp at this
  cases h with
  | empty =>
    cases h' with
    | empty => rfl
    | some h1 h2 => exact (nil h1 h2).elim
  | some h1 h2 =>
    cases h' with
    | empty => exact (nil h1 h2).elim
    | some g1 g2 =>
      cases h1.unique g1
      exact h2.unique g2

theorem PackedOver.levels {l : List (STree K V A × K)} {s : STree K V A} (h : PackedOver l s) {d : Nat}
    (hl : ∀ c ∈ l, c.1.LeavesAt d) :
    ∃ j, s.LeavesAt (d + j) ∧ l.length ≤ 65 ^ j ∧ (j = 0 ∨ 65 ^ (j - 1) < l.length) := by
  induction h generalizing d with
  | root => exact ⟨0, hl _ (by simp), by simp, .inl rfl⟩
  | @layer l ps s h1 h2 h3 ih =>
    have hmem : ∀ p ∈ ps, ∀ c ∈ p.1 :: p.2, c ∈ l := by
      intro p hp c hc
      rw [← h1.all]
      exact List.mem_flatMap.2 ⟨p, hp, hc⟩
    obtain ⟨j, g1, g2, g3⟩ := ih (d := d + 1) (by
      intro c hc
      obtain ⟨p, hp, rfl⟩ := List.mem_map.1 hc
      refine .node fun c hc => ?_
      obtain ⟨c, hc', rfl⟩ := List.mem_map.1 hc
      exact hl c (hmem p hp c hc'))
    have hne : ps ≠ [] := by
      rintro rfl
      exact h3.ne_nil rfl
    have l1 := h1.length_le
    have l2 := h1.lt_length hne
    rw [List.length_map] at g2 g3
    refine ⟨j + 1, by rw [show d + (j + 1) = d + 1 + j by omega]; exact g1, ?_, .inr ?_⟩
    · rw [Nat.pow_succ]; omega
    · rw [Nat.add_sub_cancel]
      rcases g3 with rfl | g3
      · simp only [Nat.pow_zero]; omega
      · cases j with
        | zero => simp only [Nat.pow_zero]; omega
        | succ j => rw [Nat.add_sub_cancel] at g3; rw [Nat.pow_succ]; omega

theorem Packed.levels {items : List (K × V)} {s : STree K V A} (h : Packed items s) :
    ∃ j, s.LeavesAt j ∧ items.length ≤ 64 * 65 ^ j ∧ (j = 0 ∨ 64 * 65 ^ (j - 1) < items.length) := by
  cases h with
  | empty => exact ⟨0, .leaf, by simp, .inl rfl⟩
  | @some _ ps _ h1 h2 =>
    obtain ⟨j, g1, g2, g3⟩ := h2.levels (d := 0) (by
      intro c hc
      obtain ⟨p, _, rfl⟩ := List.mem_map.1 hc
      exact .leaf)
    rw [Nat.zero_add] at g1
    rw [List.length_map] at g2 g3
    have hne : ps ≠ [] := by
      rintro rfl
      exact h2.ne_nil rfl
    have l1 := h1.length_le
    have l2 := h1.lt_length hne
    refine ⟨j, g1, by omega, ?_⟩
    rcases g3 with rfl | g3
    · exact .inl rfl
    · right
      have : 64 * 65 ^ (j - 1) ≤ 64 * (ps.length - 1) := Nat.mul_le_mul_left _ (by omega)
      omega

/-! ## From the trees of the proofs -/

theorem Built.packed {h H : Nat} {ps : List (T K V A h × K)} {g : T K V A H} (hb : Built ps g) :
    PackedOver (ps.map (fun p => (p.1.toS, p.2))) g.toS := by
  induction hb with
  | root => exact .root
  | @layer h H gs g h1 h2 h3 ih =>
    let f : T K V A h × K → STree K V A × K := fun p => (p.1.toS, p.2)
    refine .layer (ps := gs.map (fun g => (f g.2.1, g.2.2.map f))) ⟨?_, ?_, ?_⟩ (by simpa using h2) ?_
    · rw [List.flatMap_map, List.map_flatMap]
      rfl
    · intro p hp
      rw [← List.map_dropLast] at hp
      obtain ⟨g, hg, rfl⟩ := List.mem_map.1 hp
      have := h1.1 g hg
      simp only [List.length_map]; omega
    · intro p hp
      obtain ⟨g, hg, rfl⟩ := List.mem_map.1 hp
      have := h1.2 g hg
      simp only [List.length_map]; omega
    · have e : (gs.map (fun g => (f g.2.1, g.2.2.map f))).map nodeOver
          = (gs.map (fun g => up g.1 g.2.1 g.2.2)).map (fun p => (T.toS (h := h + 1) p.1, p.2)) := by
        rw [List.map_map, List.map_map]
        refine List.map_congr_left fun g _ => ?_
        simp only [Function.comp_apply, nodeOver, up, T.toS, List.map_cons, List.map_map, f]
        simp only [Function.comp_def, T.toS_aug]
      rw [e]
      exact ih

theorem Built.packed_items {H : Nat} {ps : List (T K V A 0 × K)} {g : T K V A H} {items : List (K × V)}
    (hb : Built ps g) (h1 : ps.flatMap (fun p => GLeaf.data p.1) = items)
    (h2 : ∀ p ∈ ps, (GLeaf.data p.1).head?.map (·.1) = some p.2 ∧ (GLeaf.data p.1).length ≤ 64)
    (h3 : ∀ p ∈ ps.dropLast, (GLeaf.data p.1).length = 64) : Packed items g.toS := by
  have key : ∀ ps : List (T K V A 0 × K),
      (∀ p ∈ ps, (GLeaf.data p.1).head?.map (·.1) = some p.2 ∧ (GLeaf.data p.1).length ≤ 64) →
      (∀ p ∈ ps.dropLast, (GLeaf.data p.1).length = 64) →
      ∃ qs : List ((K × V) × List (K × V)), CutInto 64 (ps.flatMap (fun p => GLeaf.data p.1)) qs ∧
        ps.map (fun p => (p.1.toS, p.2)) = qs.map leafOver ∧ qs.length = ps.length := by
    intro ps
    induction ps with
    | nil => intro _ _; exact ⟨[], ⟨rfl, by simp, by simp⟩, rfl, rfl⟩
    | cons p ps ih =>
      intro h2 h3
      obtain ⟨qs, g1, g2, g4⟩ := ih (fun q hq => h2 q (by simp [hq])) (fun q hq => h3 q (by
        cases ps with
        | nil => simp at hq
        | cons a ps =>
          rw [List.dropLast_cons_of_ne_nil (by simp)]; exact List.mem_cons_of_mem _ hq))
      obtain ⟨g5, g6⟩ := h2 p (by simp)
      cases hd : GLeaf.data p.1 with
      | nil => rw [hd] at g5; simp at g5
      | cons e d =>
        rw [hd] at g5 g6
        simp only [List.head?_cons, Option.map_some, Option.some.injEq] at g5
        refine ⟨(e, d) :: qs, ⟨?_, ?_, ?_⟩, ?_, by simp [g4]⟩
        · rw [List.flatMap_cons, List.flatMap_cons, g1.all, hd]
        · intro q hq
          cases qs with
          | nil => simp at hq
          | cons q' qs =>
            rw [List.dropLast_cons_of_ne_nil (by simp)] at hq
            rcases List.mem_cons.1 hq with rfl | hq
            · have := h3 p (by
                cases ps with
                | nil => simp at g4
                | cons a ps => simp)
              rw [hd] at this
              exact this
            · exact g1.full q hq
        · intro q hq
          rcases List.mem_cons.1 hq with rfl | hq
          · exact g6
          · exact g1.fits q hq
        · rw [List.map_cons, List.map_cons, g2]
          congr 1
          rw [leafOver, T.toS, hd, g5]
  obtain ⟨qs, g1, g2, -⟩ := key ps h2 h3
  have := hb.packed
  rw [g2] at this
  rw [h1] at g1
  exact .some g1 this

theorem bulkLoadU_packed (eq : Nat → K → K → Bool) (data : List (K × V)) :
    ∃ (t : Tree K V A) (s : STree K V A), Tree.bulkLoadU eq data = .ok t ∧ Explored t s ∧
      Packed (Spec.survivors eq data) s ∧ s.Fits := by
  cases data with
  | nil =>
    refine ⟨Tree.new, .leaf [], rfl, ?_, .empty, .leaf (by simp)⟩
    intro σ R v st
    rw [STree.visit]
    rfl
  | cons x data =>
    obtain ⟨t, H, g, h1, h2, -, -, -, -, -, -, ps, h3, h4, h5, h6, -⟩ := bulk_items_ok0 (A := A)
      (Nat.zero_le 1) (dedupU_ne eq 0 (data := x :: data) (by simp)) (.inl rfl)
    refine ⟨t, g.toS, h1, h2.explored, ?_, T.toS_fits h2.shape⟩
    have e : (dedupU eq 0 (x :: data)).1 = Spec.survivors eq (x :: data) := by rw [dedupU_eq]
    rw [← e]
    exact h3.packed_items h4 h5 h6

end
end Bpt
