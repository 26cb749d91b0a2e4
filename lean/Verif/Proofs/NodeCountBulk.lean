import Verif.Proofs.NodeCount
import Verif.Proofs.ReachInv

/-!
# The nodes of bulk-loaded trees
-/

namespace Bpt
open Spec
variable {K V A : Type}

section Shape

/-- In a tree whose nodes off the right spine are well filled, the leaves are few. -/
theorem leaves_le_spine {μ h m : Nat} {r : Bool} {x : T K V A h} (hx : T.ShapeTop μ m r x)
    (hm : r = false → 16 ≤ m) (hm' : r = true → h = 0 → 1 ≤ m) :
    16 * x.leaves.length ≤ (x.leaves.flatMap (·.2)).length + (if r then 15 else 0) := by
  induction h generalizing m r with
  | zero =>
    have h1 := hx.1
    simp only [T.leaves, List.length_singleton, List.flatMap_cons, List.flatMap_nil, List.append_nil]
    cases r with
    | false => have := hm rfl; simp; omega
    | true => have := hm' rfl rfl; simp; omega
  | succ h ih =>
    have key : ∀ (kids : List (T K V A h)) (r : Bool),
        SpineL (fun c => T.ShapeTop μ 16 false c) (fun c => T.ShapeTop μ (mnAt μ h r) r c) kids →
        16 * (kids.flatMap (fun c => c.leaves)).length
          ≤ ((kids.flatMap (fun c => c.leaves)).flatMap (·.2)).length + (if r then 15 else 0) := by
      intro kids r
      induction kids with
      | nil => simp
      | cons c kids ihk =>
        intro hs
        rw [SpineL_cons] at hs
        obtain ⟨h1, h2⟩ := hs
        simp only [List.flatMap_cons, List.length_append, List.flatMap_append]
        split at h1
        · next hn =>
          subst hn
          have := ih h1 (by rintro rfl; simp [mnAt]) (by rintro rfl rfl; simp [mnAt])
          simpa using this
        · have a1 := ih h1 (by simp) (by simp)
          have a2 := ihk h2
          simp only [Bool.false_eq_true, if_false] at a1
          omega
    have := key (GNode.kids x) r hx.2.2.2.2
    exact this

/-- And so are the inner nodes. -/
theorem nodes_le_spine {μ h m : Nat} {r : Bool} {x : T K V A h} (hx : T.ShapeTop μ m r x)
    (hm : r = false → 16 ≤ m) :
    16 * x.nodes.length + 1 ≤ x.leaves.length + (if r then 16 * h else 0) := by
  induction h generalizing m r with
  | zero => simp [T.nodes, T.leaves]
  | succ h ih =>
    have key : ∀ (kids : List (T K V A h)) (r : Bool),
        SpineL (fun c => T.ShapeTop μ 16 false c) (fun c => T.ShapeTop μ (mnAt μ h r) r c) kids →
        16 * (kids.flatMap (fun c => c.nodes)).length + kids.length
          ≤ (kids.flatMap (fun c => c.leaves)).length + (if r then 16 * h else 0) := by
      intro kids r
      induction kids with
      | nil => simp
      | cons c kids ihk =>
        intro hs
        rw [SpineL_cons] at hs
        obtain ⟨h1, h2⟩ := hs
        simp only [List.flatMap_cons, List.length_append, List.length_cons]
        split at h1
        · next hn =>
          subst hn
          have := ih h1 (by rintro rfl; simp [mnAt])
          simpa using this
        · have a1 := ih h1 (by simp)
          have a2 := ihk h2
          simp only [Bool.false_eq_true, if_false] at a1
          omega
    have h1 := key (GNode.kids x) r hx.2.2.2.2
    have h2 := hx.1
    have h3 := hx.2.2.1
    simp only [T.nodes, T.leaves, List.length_cons]
    cases r with
    | false =>
      have := hm rfl
      simp only [Bool.false_eq_true, if_false] at h1 ⊢
      omega
    | true =>
      simp only [if_true] at h1 ⊢
      omega

theorem WF.leaves_spine [LinearOrder K] {μ H : Nat} {t : Tree K V A} {g : T K V A H} (w : WF μ t g) :
    t.store.allocatedLeaves ≤ max 1 ((t.len + 15) / 16) := by
  rw [w.allocatedLeaves, w.len]
  cases H with
  | zero => simp [T.leaves]
  | succ H =>
    have := leaves_le_spine w.shape (by simp) (by simp)
    simp only [if_true] at this
    have e : g.toL.length = (g.leaves.flatMap (·.2)).length := rfl
    omega

theorem WF.inners_spine [LinearOrder K] {μ H : Nat} {t : Tree K V A} {g : T K V A H} (w : WF μ t g)
    (hl : t.len < 2 ^ 64) :
    16 * t.innersInTree < t.store.allocatedLeaves + 16 * t.levels := by
  rw [w.allocatedLeaves, w.innersInTree hl, w.levels hl]
  have := nodes_le_spine w.shape (by simp)
  simp only [if_true] at this
  omega

end Shape

variable [LinearOrder K] [Augmentation K V A]

/-- A bulk load leaves no slot empty and no node outside the tree. -/
theorem bulkLoad_account {data : List (K × V)} {t : Tree K V A}
    (hd : data.Pairwise (fun a b => a.1 ≤ b.1)) (hb : Tree.bulkLoad data = .ok t)
    (hl : t.len < 2 ^ 64) : Inv 0 t (insertAll [] data) ∧ Account 0 t := by
  have hinv : Inv 0 t (insertAll [] data) := by
    obtain ⟨t', H, g, h1, h2, -, h3, -⟩ := bulkLoad_ok (A := A) (μ := 0) (by omega) data hd (.inl rfl)
    rw [hb] at h1
    cases h1
    exact ⟨H, g, h2, h3, hl⟩
  refine ⟨hinv, ?_⟩
  cases data with
  | nil => cases hb; exact Account.new
  | cons e data =>
    have hne : dedupKeepLast (e :: data) ≠ [] := by
      intro h
      have := (dedup_ok _ hd).2.1 e.1
      rw [h] at this
      have := this.symm
      rw [lookup_nil, lookup_eq_none] at this
      exact this e (by simp) rfl
    obtain ⟨t', H, g, h1, h2, -, -, -, h3, h4, -, ps, -, -, -, -, h5, h6⟩ :=
      bulk_items_ok0 (A := A) (μ := 0) (by omega) hne (.inl rfl)
    have hb' : Tree.bulkLoad (e :: data) = .ok t' := h1
    rw [hb] at hb'
    cases hb'
    have w := h2.ordered (h4 (dedup_ok _ hd).1)
    have hi : t.store.allocatedInners = g.nodes.length := by
      refine Nat.le_antisymm (h5 ▸ List.countP_le_length) ?_
      rw [← List.length_map (f := (·.1)) (as := g.nodes)]
      refine countP_ge_of_mem w.inodup fun i hi => ?_
      obtain ⟨p, hp, rfl⟩ := List.mem_map.1 hi
      exact ⟨_, w.imem p hp⟩
    refine ⟨?_, ?_, ?_⟩
    · rw [hi, w.innersInTree hl]; rfl
    · rw [hi, h5, Tree.mergedInners, h3]; rfl
    · rw [w.allocatedLeaves, h6, Tree.mergedLeaves, h3]; rfl

/-- What a history that does not fail leads to. -/
theorem run_ok_wf {μ : Nat} (hμ : μ ≤ 16) {t t' : Tree K V A} {l : List (K × V)} {cs : List (Call K V)}
    {as} (hi : Inv μ t l) (hl : t.len + cs.length < 2 ^ 64) (e : t.run cs = .ok (as, t')) :
    Inv μ t' (Spec.run l cs).2 := by
  induction cs generalizing t l as with
  | nil => cases e; exact hi
  | cons c cs ih =>
    rw [Tree.run] at e
    obtain ⟨⟨a, t1⟩, h1, e1⟩ := bind_ok e
    obtain ⟨⟨as', t2⟩, h2, e2⟩ := bind_ok e1
    cases e2
    rw [List.length_cons] at hl
    rcases call_ok hμ hi (by omega) c with ⟨t1', h3, h4⟩ | ⟨-, k, -, h3⟩
    · rw [h1] at h3
      cases h3
      have hlen := call_length l c
      exact ih h4 (by rw [h4.len]; rw [hi.len] at hl; omega) h2
    · rw [h1] at h3; cases h3

end Bpt
