import Verif.Proofs.ReachEven

/-!
# Concrete maps used in the examples beside the property theorems
-/

namespace Bpt
open Spec

/-- 100 insertions in scattered order. -/
def demoItems : List (Nat × Nat) := (List.range 100).map (fun i => (i * 7 % 100, i))

/-- The map they build (several leaves, an inner root), with the `Count` augmentation. -/
def demo : Tree Nat Nat Count :=
  match (Tree.new : Tree Nat Nat Count).run (demoItems.map (fun e => .insert e.1 e.2)) with
  | .ok (_, t) => t
  | .error _ => Tree.new

theorem reach_run_inserts {K V A : Type} [LinearOrder K] [Augmentation K V A]
    (items : List (K × V)) {t t' : Tree K V A} {as} (h : ReachableNoMut t)
    (hl : t.len + items.length < 2 ^ 64)
    (hr : t.run (items.map (fun e => .insert e.1 e.2)) = .ok (as, t')) : ReachableNoMut t' := by
  induction items generalizing t as with
  | nil => cases hr; exact h
  | cons e items ih =>
    rw [List.length_cons] at hl
    obtain ⟨H, g, h1, h2, _⟩ := h.wf
    have hi : Inv 16 t g.toL := ⟨H, g, h1, rfl, h2⟩
    obtain ⟨t1, h3, h4, _⟩ := hi.insert (by omega) (by omega) e.1 e.2
    have := call_length g.toL (.insert e.1 e.2)
    simp only [List.map_cons, Tree.run, Tree.call, h3, ok_bind, pure_ok] at hr
    cases hr2 : t1.run (items.map (fun e => .insert e.1 e.2)) with
    | error f => rw [hr2] at hr; cases hr
    | ok r =>
      rw [hr2] at hr
      cases hr
      refine ih (.insert h (by omega) h3) ?_ hr2
      rw [h4.len]
      rw [hi.len] at hl
      simp only [Spec.call] at this
      omega

theorem demo_reach : ReachableNoMut demo := by
  obtain ⟨t', h1, _⟩ := run_ok (μ := 16) (by omega) (by omega) (Inv.new (A := Count))
    (demoItems.map (fun e => Call.insert e.1 e.2))
    (by simp only [List.length_map, demoItems, List.length_range]; show (0 : Nat) + _ < _; omega)
  have : demo = t' := by unfold demo; rw [h1]
  rw [this]
  refine reach_run_inserts demoItems (.start rfl (by show (0 : Nat) < _; omega)) ?_ h1
  simp only [demoItems, List.length_map, List.length_range]; show (0 : Nat) + _ < _; omega

/-- The content of `demo`. -/
def demoContent : List (Nat × Nat) := (List.range 100).map (fun i => (i, i * 43 % 100))

theorem demo_shows : Shows demo demoContent := by
  obtain ⟨t', h1, h2⟩ := run_ok (μ := 16) (by omega) (by omega) (Inv.new (A := Count))
    (demoItems.map (fun e => Call.insert e.1 e.2))
    (by simp only [List.length_map, demoItems, List.length_range]; show (0 : Nat) + _ < _; omega)
  have : demo = t' := by unfold demo; rw [h1]
  rw [this]
  have e : (Spec.run [] (demoItems.map (fun e => Call.insert e.1 e.2))).2 = demoContent := by
    decide +kernel
  rw [e] at h2
  exact h2.shows

/-- Its root is an inner node. -/
example : ∃ i, demo.root = .inner i := ⟨0, by decide +kernel⟩

/-- 500 sorted items. -/
def demoBulkItems : List (Nat × Nat) := (List.range 500).map (fun i => (i, i))

theorem demoBulkItems_sorted : Sorted demoBulkItems := by
  unfold demoBulkItems Sorted
  rw [List.pairwise_map]
  exact List.pairwise_lt_range

/-- A map loaded in bulk from them. -/
def demoBulk : Tree Nat Nat Count :=
  match Tree.bulkLoad demoBulkItems with
  | .ok t => t
  | .error _ => Tree.new

theorem demoBulk_load : Tree.bulkLoad demoBulkItems = .ok demoBulk ∧
    Inv 0 demoBulk demoBulkItems := by
  obtain ⟨t, H, g, h1, h2, h3, h4, -, h5⟩ := bulkLoad_ok (A := Count) (μ := 0) (by omega)
    demoBulkItems (demoBulkItems_sorted.imp (fun h => h.le)) (.inl rfl)
  have e : demoBulk = t := by unfold demoBulk; rw [h1]
  rw [insertAll_of_sorted demoBulkItems_sorted] at h4
  rw [e]
  refine ⟨h1, H, g, h2, h4, ?_⟩
  rw [h2.len, h4, demoBulkItems, List.length_map, List.length_range]
  omega

theorem demoBulk_reach : ReachableBulkNoMut demoBulk :=
  .start ⟨demoBulkItems, demoBulkItems_sorted.imp (fun h => h.le), demoBulk_load.1⟩ demoBulk_load.2.lt

theorem demoBulk_even : ReachableEven demoBulk :=
  .start ⟨demoBulkItems, demoBulkItems_sorted.imp (fun h => h.le),
    by rw [insertAll_of_sorted demoBulkItems_sorted]; exact evenlyGrouped_small (by decide +kernel),
    demoBulk_load.1⟩ demoBulk_load.2.lt

end Bpt
