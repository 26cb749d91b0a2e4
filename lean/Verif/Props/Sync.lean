import Verif.Proofs.Sync
import Verif.Proofs.Structure
import Verif.Proofs.WeightedTree
import Verif.Props.Starts
import Verif.Props.OrderStatistics

/-!
# C20, C22, C24 under any comparisons

The summaries of a map and the selection by index do not depend on the order of keys. They hold after
histories in which every comparison of keys may answer anything (`Verif/LawlessHistory.lean`).
-/

namespace Bpt
variable {K V A : Type} [Augmentation K V A]

/-! ## C24 -/

/-- **C24.** Whatever the comparisons answered: every augmentation shown to a visitor is the one computed
from the child as it is now, at every level, and so is the one of the root. Values may have been changed
in place if the augmentation looks at keys only. -/
theorem C24_lawless {t0 : Tree K V A} {l0 : List (K × V)} (h0 : Fresh t0 l0)
    (cs : List (Answers K × UCall K V)) (hn : l0.length + cs.length < 2 ^ 64)
    (hc : KeyOnly K V A ∨ ∀ c ∈ cs, c.2.keepsValues) :
    ∃ as t, t0.urun cs = .ok (as, t) ∧ ∃ s : STree K V A, Contents t s.items ∧ Explored t s ∧
      s.InSync ∧ (t.rootAug = s.aug ∨ (s.items = [] ∧ t.rootAug = Augmentation.dflt K V)) := by
  obtain ⟨as, t, H, g, h1, -, w, ha, hlt⟩ := h0.run_sync cs hn hc
  have e : UInvM 1 t g.toL := ⟨⟨H, g, w, rfl⟩, hlt, by omega⟩
  refine ⟨as, t, h1, g.toS, by rw [g.toS_items]; exact e.contents, w.explored, T.toS_inSync ha.ok, ?_⟩
  rw [T.toS_aug, g.toS_items]
  exact ha.root

/-- **C24.** If `from_inner` over children equals `from_leaf` over their concatenated items, the
augmentation of the root is `from_leaf` of all items that are left, in the order they are in. -/
theorem C24_lawless_root (hh : HomomorphicAny K V A) {t0 : Tree K V A} {l0 : List (K × V)}
    (h0 : Fresh t0 l0) (cs : List (Answers K × UCall K V)) (hn : l0.length + cs.length < 2 ^ 64)
    (hc : KeyOnly K V A ∨ ∀ c ∈ cs, c.2.keepsValues) :
    ∃ as t l, t0.urun cs = .ok (as, t) ∧ Effects (cs.map (·.2)) as l0 l ∧ Contents t l ∧
      (t.rootAug = leafOf A l ∨ (l = [] ∧ t.rootAug = Augmentation.dflt K V)) := by
  obtain ⟨as, t, H, g, h1, h2, w, ha, hlt⟩ := h0.run_sync cs hn hc
  have e : UInvM 1 t g.toL := ⟨⟨H, g, w, rfl⟩, hlt, by omega⟩
  refine ⟨as, t, _, h1, h2, e.contents, ?_⟩
  rcases ha.root with h3 | h3
  · exact .inl (h3.trans (topAug_hom_any hh w.shape ha.ok))
  · exact .inr h3

/-! ## C20 and C22 -/

/-- **C20.** Whatever the comparisons answered: with `Count`, the root's count is `len()`, and
`get_by_augmentation(i)` is the i-th item in iteration order, nothing if there are fewer. -/
theorem C20_lawless {t0 : Tree K V Count} {l0 : List (K × V)} (h0 : Fresh t0 l0)
    (cs : List (Answers K × UCall K V)) (hn : l0.length + cs.length < 2 ^ 64) :
    ∃ as t l, t0.urun cs = .ok (as, t) ∧ Effects (cs.map (·.2)) as l0 l ∧ Contents t l ∧
      t.rootAug.count = t.len ∧ ∀ i : Nat, t.getByAugmentation i = .ok l[i]? := by
  obtain ⟨as, t, H, g, h1, h2, w, ha, hlt⟩ := h0.run_sync cs hn (.inl Count.keyOnly)
  have e : UInvM 1 t g.toL := ⟨⟨H, g, w, rfl⟩, hlt, by omega⟩
  refine ⟨as, t, _, h1, h2, e.contents, ?_, fun i => ?_⟩
  · rw [e.len]
    rcases ha.root with h3 | ⟨h3, h4⟩
    · rw [h3, Count.weighted.topAug ha.ok]
      simp
    · rw [h3, h4]; rfl
  · rw [(getBy_ok0 w (w.depth hlt) Count.weightedSearch.inRange i).2,
      Count.weighted.search Count.weightedSearch ha.ok, wfind_one_bind]

/-- **C22.** Whatever the comparisons answered: with `Count`, `remove_by_augmentation(i)` takes out exactly
the i-th item and returns it. -/
theorem C22_lawless_remove {t0 : Tree K V Count} {l0 : List (K × V)} (h0 : Fresh t0 l0)
    (cs : List (Answers K × UCall K V)) (hn : l0.length + cs.length < 2 ^ 64) (i : Nat) :
    ∃ as t l, t0.urun cs = .ok (as, t) ∧ Effects (cs.map (·.2)) as l0 l ∧ Contents t l ∧
      ∃ t', t.removeByAugmentation i = .ok (l[i]?, t') ∧ Contents t' (l.eraseIdx i) ∧
        t'.rootAug.count = t'.len := by
  obtain ⟨as, t, H, g, h1, h2, w, ha, hlt⟩ := h0.run_sync cs hn (.inl Count.keyOnly)
  have e : UInvM 1 t g.toL := ⟨⟨H, g, w, rfl⟩, hlt, by omega⟩
  obtain ⟨t', H', g', r1, r2, r3, r4⟩ := removeBy_ok0 w (w.depth hlt) Count.weightedSearch.inRange i
  rw [Count.weighted.search Count.weightedSearch ha.ok] at r1 r3
  rw [wfind_one_bind] at r1
  have r3 : g'.toL = g.toL.eraseIdx i := by
    rw [r3, wfind_one]
    by_cases hi : i < g.toL.length
    · rw [if_pos hi]
    · rw [if_neg hi, List.eraseIdx_of_length_le (by omega)]
  have hlen : t'.len < 2 ^ 64 := by
    have h3 := w.len
    have := List.length_eraseIdx_le (l := g.toL) (i := i)
    rw [r2.len, r3]
    omega
  have e' : UInvM 1 t' g'.toL := ⟨⟨H', g', r2, rfl⟩, hlen, by omega⟩
  refine ⟨as, t, _, h1, h2, e.contents, t', r1, r3 ▸ e'.contents, ?_⟩
  rw [e'.len]
  rcases (r4 ha).root with h3 | ⟨h3, h4⟩
  · rw [h3, Count.weighted.topAug (r4 ha).ok]
    simp
  · rw [h3, h4]; rfl

/-- **C22.** Whatever the comparisons answered: with `Count`, `get_mut_by_augmentation(i)` is a reference
to the value of the i-th item; writing through it changes nothing else. -/
theorem C22_lawless_update {t0 : Tree K V Count} {l0 : List (K × V)} (h0 : Fresh t0 l0)
    (cs : List (Answers K × UCall K V)) (hn : l0.length + cs.length < 2 ^ 64) (i : Nat) (f : V → V) :
    ∃ as t l, t0.urun cs = .ok (as, t) ∧ Effects (cs.map (·.2)) as l0 l ∧ Contents t l ∧
      ∃ t', t.getMutByAugmentation i f = .ok (l[i]?.map (·.2), t') ∧
        Contents t' (l.modify i (fun e => (e.1, f e.2))) ∧ t'.rootAug = t.rootAug := by
  obtain ⟨as, t, H, g, h1, h2, w, ha, hlt⟩ := h0.run_sync cs hn (.inl Count.keyOnly)
  have e : UInvM 1 t g.toL := ⟨⟨H, g, w, rfl⟩, hlt, by omega⟩
  obtain ⟨t', g', r1, r2, r3, r4⟩ := getMutBy_ok0 w (w.depth hlt) Count.weightedSearch.inRange i f
  rw [Count.weighted.search Count.weightedSearch ha.ok] at r1 r3
  rw [wfind_one_bind] at r1
  have r3 : g'.toL = g.toL.modify i (fun e => (e.1, f e.2)) := by
    rw [r3, wfind_one]
    by_cases hi : i < g.toL.length
    · rw [if_pos hi]
    · rw [if_neg hi, List.modify_eq_self (by omega)]
  have hlen : t'.len < 2 ^ 64 := by
    have h3 := w.len
    rw [r2.len, r3, List.length_modify]
    omega
  have e' : UInvM 1 t' g'.toL := ⟨⟨H, g', r2, rfl⟩, hlen, by omega⟩
  exact ⟨as, t, _, h1, h2, e.contents, t', r1, r3 ▸ e'.contents, r4⟩

/-! ## Instances -/

theorem Count.homomorphicAny : HomomorphicAny K V Count := by
  intro ks parts _ _
  simp only [leafOf, Augmentation.fromInner, Augmentation.fromLeaf, List.map_map, List.length_map,
    List.length_flatten]
  congr 2
  exact List.map_congr_left (fun p _ => List.length_map _)

example : ∃ t0 : Tree Nat Nat Count, ∃ as t, t0.urun oddCalls = .ok (as, t) ∧
    ∃ s : STree Nat Nat Count, Contents t s.items ∧ Explored t s ∧ s.InSync ∧
      (t.rootAug = s.aug ∨ (s.items = [] ∧ t.rootAug = Augmentation.dflt Nat Nat)) := by
  obtain ⟨t, h⟩ := odd_fresh
  exact ⟨t, C24_lawless h oddCalls (by rw [odd_length]; decide) (.inl Count.keyOnly)⟩

example : ∃ t0 : Tree Nat Nat Count, ∃ as t l, t0.urun oddCalls = .ok (as, t) ∧
    Effects (oddCalls.map (·.2)) as (Spec.survivors oddEq oddData) l ∧ Contents t l ∧
      (t.rootAug = leafOf Count l ∨ (l = [] ∧ t.rootAug = Augmentation.dflt Nat Nat)) := by
  obtain ⟨t, h⟩ := odd_fresh
  exact ⟨t, C24_lawless_root Count.homomorphicAny h oddCalls (by rw [odd_length]; decide)
    (.inl Count.keyOnly)⟩

example : ∃ t0 : Tree Nat Nat Count, ∃ as t l, t0.urun oddCalls = .ok (as, t) ∧
    Effects (oddCalls.map (·.2)) as (Spec.survivors oddEq oddData) l ∧ Contents t l ∧
      t.rootAug.count = t.len ∧ ∀ i : Nat, t.getByAugmentation i = .ok l[i]? := by
  obtain ⟨t, h⟩ := odd_fresh
  exact ⟨t, C20_lawless h oddCalls (by rw [odd_length]; decide)⟩

example : ∃ t0 : Tree Nat Nat Count, ∃ as t l, t0.urun oddCalls = .ok (as, t) ∧
    Effects (oddCalls.map (·.2)) as (Spec.survivors oddEq oddData) l ∧ Contents t l ∧
      ∃ t', t.removeByAugmentation (40 : Nat) = .ok (l[40]?, t') ∧ Contents t' (l.eraseIdx 40) ∧
        t'.rootAug.count = t'.len := by
  obtain ⟨t, h⟩ := odd_fresh
  exact ⟨t, C22_lawless_remove h oddCalls (by rw [odd_length]; decide) 40⟩

example : ∃ t0 : Tree Nat Nat Count, ∃ as t l, t0.urun oddCalls = .ok (as, t) ∧
    Effects (oddCalls.map (·.2)) as (Spec.survivors oddEq oddData) l ∧ Contents t l ∧
      ∃ t', t.getMutByAugmentation (40 : Nat) (· + 1) = .ok (l[40]?.map (·.2), t') ∧
        Contents t' (l.modify 40 (fun e => (e.1, e.2 + 1))) ∧ t'.rootAug = t.rootAug := by
  obtain ⟨t, h⟩ := odd_fresh
  exact ⟨t, C22_lawless_update h oddCalls (by rw [odd_length]; decide) 40 (· + 1)⟩

end Bpt
