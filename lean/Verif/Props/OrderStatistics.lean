import Verif.Props.Demo
import Verif.Proofs.WeightedTree

/-!
# Order statistics with `Count`: C20, C21, C22, and the rest of C33

`l` is always the content of the map, as a list sorted by key (`Shows t l`).
-/

namespace Bpt
open Spec
variable {K V : Type} [LinearOrder K]

theorem wfind_one_bind {α : Type} (l : List α) (i : Nat) :
    (wfind (fun _ => 1) l i).bind (fun n => l[n]?) = l[i]? := by
  rw [wfind_one]
  by_cases h : i < l.length
  · rw [if_pos h]; rfl
  · rw [if_neg h, List.getElem?_eq_none (by omega)]; rfl

/-! ## C20 -/

/-- **C20.** The root's count is `len()`, and selecting by index `i` gives the `i`-th entry in key
order, `None` exactly if `i ≥ len()`. -/
theorem C20_count_select {t : Tree K V Count} (h : ReachableBulk t) {l : List (K × V)}
    (hl : Shows t l) :
    t.rootAug.count = t.len ∧ t.len = l.length ∧
      ∀ i : Nat, t.getByAugmentation i = .ok l[i]? := by
  obtain ⟨l', hi⟩ := h.invA Count.keyOnly
  cases hi.inv.unique hl
  refine ⟨?_, hi.inv.len, ?_⟩
  · rw [hi.rootVal Count.weighted rfl, hi.inv.len]
    simp
  · intro i
    rw [hi.getBy Count.weighted Count.weightedSearch, wfind_one_bind]

example : demo.rootAug.count = 100 ∧ demo.getByAugmentation 42 = .ok (some (42, 6)) ∧
    demo.getByAugmentation 100 = .ok none := by
  obtain ⟨h1, h2, h3⟩ := C20_count_select demo_reach.mut.bulk demo_shows
  refine ⟨by rw [h1, h2]; decide, (h3 42).trans ?_, (h3 100).trans ?_⟩
  · have : demoContent[42]? = some (42, 6) := by decide +kernel
    rw [this]
  · have : demoContent[100]? = none := by decide +kernel
    rw [this]

/-! ## C21 -/

/-- **C21.** The rank of `k` is the number of smaller keys, `Ok` if `k` is stored and `Err`
otherwise. -/
theorem C21_rank {t : Tree K V Count} (h : ReachableBulk t) {l : List (K × V)} (hl : Shows t l)
    (k : K) :
    t.rankByAugmentation k = .ok (
      if k ∈ l.map (·.1) then .ok (l.filter (fun e => e.1 < k)).length
      else .error (l.filter (fun e => e.1 < k)).length) := by
  obtain ⟨l', hi⟩ := h.invA Count.keyOnly
  cases hi.inv.unique hl
  obtain ⟨H, g, w, rfl, hlen, ha⟩ := hi
  rw [count_rank_ok w ha.ok]
  congr 1
  have : (lookup k g.toL).isSome = true ↔ k ∈ g.toL.map (·.1) := by
    constructor
    · intro h
      obtain ⟨v, hv⟩ := Option.isSome_iff_exists.1 h
      exact List.mem_map_of_mem (f := (·.1)) (lookup_mem hv)
    · intro h
      obtain ⟨⟨k', v⟩, hv, rfl⟩ := List.mem_map.1 h
      rw [lookup_of_mem w.sorted hv]; rfl
  simp only [this]

/-- **C21.** Rank and select are inverse: the rank of the `i`-th key is `Ok(i)`, and if the rank of
`k` is `Ok(i)` then the `i`-th key is `k`. -/
theorem C21_rank_select_inverse {t : Tree K V Count} (h : ReachableBulk t) :
    (∀ (i : Nat) (k : K) (v : V), t.getByAugmentation i = .ok (some (k, v)) →
      t.rankByAugmentation k = .ok (Except.ok i)) ∧
    (∀ (i : Nat) (k : K), t.rankByAugmentation k = .ok (Except.ok i) →
      ∃ v, t.getByAugmentation i = .ok (some (k, v))) := by
  obtain ⟨l, hi⟩ := h.inv
  obtain ⟨_, _, hsel⟩ := C20_count_select h hi.shows
  have hrank := C21_rank h hi.shows
  have hs := hi.sorted
  -- in a sorted list, the number of keys smaller than the i-th is i
  have key : ∀ (l : List (K × V)), Sorted l → ∀ (i : Nat) (k : K) (v : V), l[i]? = some (k, v) →
      (l.filter (fun e => e.1 < k)).length = i := by
    intro l hs i k v hg
    obtain ⟨hlt, hv⟩ := List.getElem?_eq_some_iff.1 hg
    have e : l = l.take i ++ (k, v) :: l.drop (i + 1) := by
      rw [← hv, List.cons_getElem_drop_succ, List.take_append_drop]
    rw [e] at hs
    unfold Sorted at hs
    rw [List.pairwise_append, List.pairwise_cons] at hs
    have e2 : l.filter (fun e => decide (e.1 < k)) = l.take i := by
      conv_lhs => rw [e]
      rw [List.filter_append, List.filter_eq_self.2, List.filter_eq_nil_iff.2, List.append_nil]
      · intro x hx
        rcases List.mem_cons.1 hx with rfl | hx
        · simp
        · simpa using (hs.2.1.1 x hx).le
      · intro x hx
        simpa using hs.2.2 x hx (k, v) (by simp)
    rw [e2, List.length_take]; omega
  constructor
  · intro i k v hg
    rw [hsel] at hg
    have hg := Except.ok.inj hg
    rw [hrank, if_pos (List.mem_map_of_mem (f := (·.1)) (List.mem_of_getElem? hg)), key l hs i k v hg]
  · intro i k hg
    rw [hrank] at hg
    split at hg
    · rename_i hv
      obtain ⟨⟨k', v⟩, hm, rfl⟩ := List.mem_map.1 hv
      obtain ⟨j, hj⟩ := List.getElem?_of_mem hm
      have := key l hs j k' v hj
      have hg := Except.ok.inj (Except.ok.inj hg)
      refine ⟨v, ?_⟩
      rw [hsel, ← hg, this, hj]
    · cases Except.ok.inj hg

example : demo.rankByAugmentation 42 = .ok (Except.ok 42) ∧
    demo.rankByAugmentation 1000 = .ok (Except.error 100) := by
  have h := C21_rank demo_reach.mut.bulk demo_shows
  constructor
  · rw [h, if_pos (by decide +kernel)]
    have : (demoContent.filter (fun e => e.1 < 42)).length = 42 := by decide +kernel
    rw [this]
  · rw [h, if_neg]
    · have : (demoContent.filter (fun e => e.1 < 1000)).length = 100 := by decide +kernel
      rw [this]
    · decide +kernel

/-! ## C22 -/

/-- **C22.** Removing by index removes and returns exactly the `i`-th entry; with `i ≥ len()` it
returns `None` and leaves the map alone. -/
theorem C22_remove_by_index {t : Tree K V Count} (h : ReachableEven t) {l : List (K × V)}
    (hl : Shows t l) (i : Nat) :
    ∃ t', t.removeByAugmentation i = .ok (l[i]?, t') ∧ Shows t' (l.eraseIdx i) ∧
      (l.length ≤ i → t' = t) := by
  obtain ⟨l', hi⟩ := h.invA Count.keyOnly
  cases hi.inv.unique hl
  rcases hi.removeBy (by omega) Count.weighted Count.weightedSearch i with ⟨t', h1, h2, h3⟩ | ⟨h0, _⟩
  · rw [wfind_one_bind] at h1
    rw [wfind_one] at h2 h3
    refine ⟨t', h1, ?_, ?_⟩
    · by_cases hlt : i < l.length
      · rw [if_pos hlt] at h2
        exact h2.inv.shows
      · rw [if_neg hlt] at h2
        rw [List.eraseIdx_of_length_le (by omega)]
        exact h2.inv.shows
    · intro hle
      exact h3 (if_neg (by omega))
  · omega

/-- **C22.** Updating by index changes the `i`-th value and nothing else. -/
theorem C22_update_by_index {t : Tree K V Count} (h : ReachableBulk t) {l : List (K × V)}
    (hl : Shows t l) (i : Nat) (f : V → V) :
    ∃ t', t.getMutByAugmentation i f = .ok (l[i]?.map (·.2), t') ∧
      Shows t' (l.modify i (fun e => (e.1, f e.2))) ∧ t'.rootAug = t.rootAug ∧
      (l.length ≤ i → t' = t) := by
  obtain ⟨l', hi⟩ := h.invA Count.keyOnly
  cases hi.inv.unique hl
  obtain ⟨t', h1, h2, h3, h4⟩ := hi.getMutBy Count.weighted Count.weightedSearch i f
  rw [wfind_one_bind] at h1
  rw [wfind_one] at h2 h4
  refine ⟨t', h1, ?_, h3, fun hle => h4 (if_neg (by omega))⟩
  by_cases hlt : i < l.length
  · rw [if_pos hlt] at h2
    exact h2.shows
  · rw [if_neg hlt] at h2
    rw [List.modify_eq_self (by omega)]
    exact h2.shows

example : ∃ t', demo.removeByAugmentation 42 = .ok (some (42, 6), t') ∧
    Shows t' (demoContent.eraseIdx 42) := by
  obtain ⟨t', h1, h2, _⟩ := C22_remove_by_index demo_reach.mut.even demo_shows 42
  have : demoContent[42]? = some (42, 6) := by decide +kernel
  rw [this] at h1
  exact ⟨t', h1, h2⟩

example : ∃ t', demo.getMutByAugmentation 7 (· + 1) = .ok (some 1, t') := by
  obtain ⟨t', h1, _⟩ := C22_update_by_index demo_reach.mut.bulk demo_shows 7 (· + 1)
  have : demoContent[7]?.map (·.2) = some 1 := by decide +kernel
  rw [this] at h1
  exact ⟨t', h1⟩

/-! ## C33, order statistics -/

/-- **C33.** Maps with the same content give the same counts, selections and ranks. -/
theorem C33_order_statistics {t t' : Tree K V Count} (h : ReachableBulk t) (h' : ReachableBulk t')
    {l : List (K × V)} (hl : Shows t l) (hl' : Shows t' l) :
    t.rootAug = t'.rootAug ∧ (∀ i : Nat, t.getByAugmentation i = t'.getByAugmentation i) ∧
      (∀ k, t.rankByAugmentation k = t'.rankByAugmentation k) := by
  obtain ⟨h1, h2, h3⟩ := C20_count_select h hl
  obtain ⟨h1', h2', h3'⟩ := C20_count_select h' hl'
  refine ⟨?_, fun i => by rw [h3, h3'], fun k => by rw [C21_rank h hl, C21_rank h' hl']⟩
  have e : t.rootAug.count = t'.rootAug.count := by rw [h1, h1', h2, h2']
  cases h5 : t.rootAug; cases h6 : t'.rootAug
  rw [h5, h6] at e
  exact congrArg _ e

example : ∃ t' : Tree Nat Nat Count, ReachableBulk t' ∧ t'.rootAug = demo.rootAug := by
  obtain ⟨_, hi⟩ := demo_reach.mut.inv
  cases hi.unique demo_shows
  obtain ⟨t', h1, h2, _⟩ := hi.get 5
  have r : ReachableBulk t' := .get demo_reach.mut.bulk h1
  exact ⟨t', r, (C33_order_statistics r demo_reach.mut.bulk h2.shows demo_shows).1⟩

example : demo.rankByAugmentation 42 = .ok (Except.ok 42) :=
  (C21_rank_select_inverse demo_reach.mut.bulk).1 42 42 6 (by decide +kernel)

end Bpt
