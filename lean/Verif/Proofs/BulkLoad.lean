import Verif.Proofs.Bulk
import Verif.Proofs.SpecLemmas

/-!
# New trees, bulk loading and `from_iter`
-/

namespace Bpt
open Spec
variable {K V A : Type} [LinearOrder K]

/-! ## Deduplication -/

theorem dedup_ok (data : List (K × V)) (hd : data.Pairwise (fun a b => a.1 ≤ b.1)) :
    Sorted (dedupKeepLast data) ∧ (∀ k, lookup k (dedupKeepLast data) = lookup k data.reverse) ∧
    (∀ e ∈ dedupKeepLast data, e ∈ data) := by
  induction data with
  | nil => exact ⟨List.Pairwise.nil, fun _ => rfl, by simp [dedupKeepLast]⟩
  | cons x data ih =>
    rw [List.pairwise_cons] at hd
    cases data with
    | nil =>
      exact ⟨List.pairwise_singleton _ _, fun _ => rfl, by simp [dedupKeepLast]⟩
    | cons y rest =>
      obtain ⟨h1, h2, h3⟩ := ih hd.2
      rw [dedupKeepLast]
      have hrev : ∀ k, lookup k (x :: y :: rest).reverse
          = (lookup k (y :: rest).reverse).or (if x.1 = k then some x.2 else none) := by
        intro k
        rw [List.reverse_cons, lookup_append, lookup_cons]; rfl
      by_cases hxy : x.1 = y.1
      · rw [if_pos hxy]
        refine ⟨h1, ?_, fun e he => List.mem_cons_of_mem _ (h3 e he)⟩
        intro k
        rw [h2, hrev]
        by_cases hk : x.1 = k
        · cases hl : lookup k (y :: rest).reverse with
          | none =>
            rw [lookup_eq_none] at hl
            exact absurd (hxy.symm.trans hk) (hl y (by simp))
          | some v => simp
        · simp [hk]
      · rw [if_neg hxy]
        have hlt : ∀ e ∈ y :: rest, x.1 < e.1 := by
          intro e he
          have hxy' : x.1 < y.1 := lt_of_le_of_ne (hd.1 y (by simp)) hxy
          rcases List.mem_cons.1 he with rfl | he
          · exact hxy'
          · exact lt_of_lt_of_le hxy' ((List.pairwise_cons.1 hd.2).1 e he)
        refine ⟨List.pairwise_cons.2 ⟨fun e he => hlt e (h3 e he), h1⟩, ?_, ?_⟩
        · intro k
          rw [lookup_cons, hrev, h2]
          by_cases hk : x.1 = k
          · have : lookup k (y :: rest).reverse = none := by
              rw [lookup_eq_none]
              intro e he
              rw [← hk]
              exact (hlt e (List.mem_reverse.1 he)).ne'
            rw [this, if_pos hk]; rfl
          · simp [hk]
        · intro e he
          rcases List.mem_cons.1 he with rfl | he
          · simp
          · exact List.mem_cons_of_mem _ (h3 e he)

/-- On sorted data deduplication is the same as inserting the items one by one. -/
theorem dedup_insertAll (data : List (K × V)) (hd : data.Pairwise (fun a b => a.1 ≤ b.1)) :
    dedupKeepLast data = insertAll [] data := by
  obtain ⟨h1, h2, _⟩ := dedup_ok data hd
  refine sorted_ext h1 (insertAll_sorted List.Pairwise.nil) ?_
  intro k
  rw [h2, lookup_insertAll]
  simp

theorem insertAll_mergeSort (items : List (K × V)) :
    insertAll [] (items.mergeSort (fun a b => decide (a.1 ≤ b.1))) = insertAll [] items := by
  refine sorted_ext (insertAll_sorted List.Pairwise.nil) (insertAll_sorted List.Pairwise.nil) ?_
  intro k
  rw [lookup_insertAll, lookup_insertAll, mergeSort_lookup_reverse]

/-! ## New trees -/

section
variable [Augmentation K V A]

theorem new_ok (μ : Nat) : ∃ g : T K V A 0, WF μ (Tree.new : Tree K V A) g ∧
    AugWF (Tree.new : Tree K V A) g ∧ g.toL = [] := by
  refine ⟨(⟨0, []⟩ : GLeaf K V), ?_, ⟨trivial, .inr ⟨rfl, rfl⟩⟩, rfl⟩
  refine ⟨rfl, by simp [T.nodes], by simp [T.nodes], ?_, by simp [T.leaves], ?_, by simp [T.inorder],
    ⟨Nat.zero_le _, by simp⟩, rfl⟩
  · exact ⟨rfl, trivial⟩
  · intro i l hi
    have : i < 1 := by
      rcases Nat.lt_or_ge i 1 with h | h
      · exact h
      · have : (Tree.new : Tree K V A).store.leaves.length ≤ i := h
        simp [List.getElem?_eq_none this] at hi
    have : i = 0 := by omega
    subst this
    simp [T.leaves]

/-- Bulk loading sorted data. -/
theorem bulkLoad_ok {μ : Nat} (hμ1 : μ ≤ 1) (data : List (K × V))
    (hd : data.Pairwise (fun a b => a.1 ≤ b.1))
    (hμ : μ = 0 ∨ noLone (((insertAll [] data).length + 63) / 64 + 1)
      (((insertAll [] data).length + 63) / 64)) :
    ∃ (t : Tree K V A) (H : Nat) (g : T K V A H), Tree.bulkLoad data = .ok t ∧ WF μ t g ∧
      AugWF t g ∧ g.toL = insertAll [] data ∧
      (¬ noLone (((insertAll [] data).length + 63) / 64 + 1)
        (((insertAll [] data).length + 63) / 64) → g.LoneR) ∧ t.st = {} ∧
      g.spine = layerSpine (((insertAll [] data).length + 63) / 64 + 1)
        (((insertAll [] data).length + 63) / 64) [] := by
  unfold Tree.bulkLoad
  cases data with
  | nil =>
    obtain ⟨g, h1, h2, h3⟩ := new_ok (K := K) (V := V) (A := A) μ
    exact ⟨Tree.new, 0, g, rfl, h1, h2, h3, fun h => absurd (.inl (by simp [insertAll])) h, rfl,
      by simp [T.spine, insertAll, layerSpine]⟩
  | cons e data =>
    have he := dedup_insertAll _ hd
    have hne : dedupKeepLast (e :: data) ≠ [] := by
      intro h
      have := (dedup_ok _ hd).2.1 e.1
      rw [h] at this
      have := this.symm
      rw [lookup_nil, lookup_eq_none] at this
      exact this e (by simp) rfl
    obtain ⟨t, H, g, h1, h2, h3, h4, h6, h5, h7⟩ := bulk_items_ok (A := A) hμ1 hne (dedup_ok _ hd).1 (by rw [he]; exact hμ)
    refine ⟨t, H, g, ?_, h2, h3, h4.trans he, he ▸ h6, h5, he ▸ h7⟩
    rw [← h1]; rfl

/-- `from_iter`. -/
theorem fromIter_ok {μ : Nat} (hμ1 : μ ≤ 1) (items : List (K × V))
    (hμ : μ = 0 ∨ noLone (((insertAll [] items).length + 63) / 64 + 1)
      (((insertAll [] items).length + 63) / 64)) :
    ∃ (t : Tree K V A) (H : Nat) (g : T K V A H), Tree.fromIter items = .ok t ∧ WF μ t g ∧
      AugWF t g ∧ g.toL = insertAll [] items ∧
      (¬ noLone (((insertAll [] items).length + 63) / 64 + 1)
        (((insertAll [] items).length + 63) / 64) → g.LoneR) ∧ t.st = {} ∧
      g.spine = layerSpine (((insertAll [] items).length + 63) / 64 + 1)
        (((insertAll [] items).length + 63) / 64) [] := by
  unfold Tree.fromIter
  obtain ⟨t, H, g, h⟩ := bulkLoad_ok (A := A) hμ1 _ (mergeSort_sorted items)
    (by rw [insertAll_mergeSort]; exact hμ)
  rw [insertAll_mergeSort] at h
  exact ⟨t, H, g, h⟩

end
end Bpt
