import Verif.Proofs.MergeCount

/-!
# C36: the lives in which augmentations are dropped too often
-/

namespace Bpt
variable {K V A : Type} [LinearOrder K] [Augmentation K V A]

/-- Insert all the entries, one by one, and then remove them, one by one, the keys being compared by their
order. (`early` chooses the binary search of the standard library.) -/
def fillAndEmpty (early : Bool) (kvs : List (K × V)) : List (Answers K × UCall K V) :=
  kvs.map (fun e => (.ofOrder early e.1, .insert e.1 e.2))
    ++ kvs.map (fun e => (.ofOrder early e.1, .remove))

/-- **C36 (augmentations), refuted.** For every augmentation and every 4161 or more entries with
different keys: a map that is filled with the entries, emptied again and dropped goes through its life
without a fault, and drops more augmentations than it has made. So some augmentation is dropped twice.
(4160 entries fit under a single inner node, which has no sibling to merge with.) -/
theorem C36_augmentations_refuted (early : Bool) (kvs : List (K × V)) (hd : (kvs.map (·.1)).Nodup)
    (h1 : 4161 ≤ kvs.length) (h2 : 2 * kvs.length < 2 ^ 64) :
    ∃ b : Books K A, (wholeLife V (fillAndEmpty early kvs) .drop).result = .ok b ∧
      (Event.made (wholeLife (A := A) V (fillAndEmpty early kvs) .drop).log).length
        < (Event.droppedAugs (wholeLife (A := A) V (fillAndEmpty early kvs) .drop).log).length := by
  have hn : (fillAndEmpty early kvs).length < 2 ^ 64 := by
    simp only [fillAndEmpty, List.length_append, List.length_map]; omega
  obtain ⟨b, e1, e2, e3, e4, -⟩ := C36_augmentations_partial (A := A) (fillAndEmpty early kvs) hn .drop
  refine ⟨b, e1, ?_⟩
  have hp := e2.length_eq
  rw [List.length_append, List.length_append, e3, e4] at hp
  have hf : b.merges ≠ 0 := by
    obtain ⟨as, t', h3, h4⟩ := fill_empty_merges (A := A) kvs hd (by omega) h2
    have hcs : fillAndEmpty early kvs = (kvs.map (fun e : K × V => (Call.insert e.1 e.2 : Call K V))
        ++ (kvs.map (fun e : K × V => e.1)).map (fun k => (Call.remove k : Call K V))).map
          (fun c : Call K V => (c.answers early, c.lawless)) := by
      simp only [fillAndEmpty, List.map_append, List.map_map]
      rfl
    have hb : ((Tree.new : Tree K V A).lifeL (fillAndEmpty early kvs) .drop).result = .ok b := by
      rw [wholeLife, Logged.result_bind, Logged.result_emit] at e1
      exact e1
    rw [hcs] at hb
    have := life_merges (by omega) (Nat.le_refl 16) _ (by simp) early Inv.new UInv.new (by
      have : (Tree.new : Tree K V A).len = 0 := rfl
      simp only [List.length_append, List.length_map]; omega) h3 hb
    omega
  have : Ending.drop.forgets = 0 := rfl
  omega

/-- The hypotheses are met by the numbers 0 to 4160. -/
example : ∃ b : Books Nat Count, (wholeLife Nat (fillAndEmpty true
      ((List.range 4161).map (fun i => (i, i)))) .drop).result = .ok b ∧
      (Event.made (wholeLife (A := Count) Nat (fillAndEmpty true
        ((List.range 4161).map (fun i => (i, i)))) .drop).log).length
        < (Event.droppedAugs (wholeLife (A := Count) Nat (fillAndEmpty true
          ((List.range 4161).map (fun i => (i, i)))) .drop).log).length :=
  C36_augmentations_refuted true _ (by
    rw [List.map_map]
    exact (List.nodup_range).map (fun a b h => h)) (by simp) (by simp)

end Bpt
