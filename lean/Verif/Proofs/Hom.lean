import Verif.AugSpec
import Verif.Proofs.Reads

/-!
# Augmentations that only depend on the content
-/

namespace Bpt
open Bpt.Spec
variable {K V A : Type}

theorem toL_ne_nil {μ : Nat} {h : Nat} {m : Nat} {r : Bool} {x : T K V A h}
    (hx : T.ShapeTop μ m r x) (hm : h = 0 → 1 ≤ m) : x.toL ≠ [] := by
  induction h generalizing m r with
  | zero =>
    have h1 := hx.1
    have := hm rfl
    simp only [T.toL, T.leaves, List.flatMap_cons, List.flatMap_nil, List.append_nil]
    intro h0
    rw [h0] at h1
    simp at h1
    omega
  | succ h ih =>
    obtain ⟨h1, h2, h3, h4, h5⟩ := hx
    cases hk : GNode.kids x with
    | nil => simp [hk] at h3
    | cons c cs =>
      rw [hk, SpineL_cons] at h5
      have : c.toL ≠ [] := by
        have h5 := h5.1
        split at h5
        · refine ih h5 ?_
          rintro rfl
          cases r <;> simp [mnAt]
        · exact ih h5 (by omega)
      simp only [T.toL, T.leaves, hk, List.flatMap_cons, List.flatMap_append]
      intro h0
      rw [List.append_eq_nil_iff] at h0
      exact this h0.1

theorem toL_succ {h : Nat} {x : GNode K A (T K V A h)} :
    T.toL (h := h + 1) x = (x.kids.map T.toL).flatten := by
  simp only [T.toL, T.leaves, List.flatMap_assoc]
  rw [List.flatMap_def]; rfl

theorem kid_shape {μ : Nat} {h : Nat} {m : Nat} {r : Bool} {x : GNode K A (T K V A h)}
    (hx : T.ShapeTop μ (h := h + 1) m r x) {c : T K V A h} (hc : c ∈ x.kids) :
    ∃ m r, T.ShapeTop μ m r c ∧ 1 ≤ m ∨ (∃ r, T.ShapeTop μ (mnAt μ h r) r c) := by
  obtain ⟨h1, h2, h3, h4, h5⟩ := hx
  obtain ⟨l1, l2, hl⟩ := List.append_of_mem hc
  rw [hl, SpineL_append (by simp), SpineL_cons] at h5
  have := h5.2.1
  split at this
  · exact ⟨0, true, .inr ⟨r, this⟩⟩
  · exact ⟨16, false, .inl ⟨this, by omega⟩⟩

theorem kid_ne_nil {μ : Nat} {h : Nat} {m : Nat} {r : Bool} {x : GNode K A (T K V A h)}
    (hx : T.ShapeTop μ (h := h + 1) m r x) {c : T K V A h} (hc : c ∈ x.kids) : c.toL ≠ [] := by
  obtain ⟨m, r, ⟨h1, h2⟩ | ⟨r, h1⟩⟩ := kid_shape hx hc
  · exact toL_ne_nil h1 (fun _ => h2)
  · refine toL_ne_nil h1 ?_
    rintro rfl
    cases r <;> simp [mnAt]

theorem kid_shape' {μ : Nat} {h : Nat} {m : Nat} {r : Bool} {x : GNode K A (T K V A h)}
    (hx : T.ShapeTop μ (h := h + 1) m r x) {c : T K V A h} (hc : c ∈ x.kids) :
    ∃ m r, T.ShapeTop μ m r c := by
  obtain ⟨m, r, ⟨h1, h2⟩ | ⟨r, h1⟩⟩ := kid_shape hx hc
  · exact ⟨m, r, h1⟩
  · exact ⟨_, r, h1⟩

theorem kid_sublist {h : Nat} {x : GNode K A (T K V A h)} {c : T K V A h} (hc : c ∈ x.kids) :
    c.toL.Sublist (T.toL (h := h + 1) x) := by
  rw [toL_succ]
  exact List.sublist_flatten_of_mem (List.mem_map_of_mem hc)

section
variable [LinearOrder K] [Augmentation K V A]

theorem topAug_hom (hh : Homomorphic K V A) {μ : Nat} {h : Nat} {m : Nat} {r : Bool}
    {x : T K V A h} (hx : T.ShapeTop μ m r x) (ha : x.AugOK) (hs : Sorted x.toL) :
    x.topAug = leafOf A x.toL := by
  induction h generalizing m r with
  | zero => simp [T.topAug, T.toL, T.leaves, leafOf]
  | succ h ih =>
    have h3 := (T.ShapeTop.lens hx).1
    have hs' := hs
    rw [toL_succ] at hs
    rw [toL_succ, ← hh (GNode.keys x) _ (by simpa using h3) ?_ hs]
    · simp only [T.topAug]
      rw [ha.1, List.map_map]
      congr 1
      apply List.map_congr_left
      intro c hc
      obtain ⟨m, r, hm⟩ := kid_shape' hx hc
      exact ih hm (ha.2 c hc) (hs'.sublist (kid_sublist hc))
    · intro p hp
      rw [List.mem_map] at hp
      obtain ⟨c, hc, rfl⟩ := hp
      exact kid_ne_nil hx hc

end
end Bpt
