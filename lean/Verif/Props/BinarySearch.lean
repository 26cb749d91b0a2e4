import Verif.Model.BinarySearch
import Mathlib.Data.List.Sort
import Verif.Proofs.Mem

/-!
# C38: binary search agrees with its specification
-/

namespace Bpt
variable {K : Type} [LinearOrder K]

/-- What a search for `k` in `keys` should return. -/
inductive Locates (keys : List K) (k : K) : Slot → Prop
  | found {i : Nat} : keys[i]? = some k → Locates keys k (.found i)
  | vacant {i : Nat} : i ≤ keys.length → (∀ x ∈ keys.take i, x < k) → (∀ x ∈ keys.drop i, k < x) →
      Locates keys k (.vacant i)

theorem sorted_get {keys : List K} (hs : keys.Pairwise (· < ·)) {i j : Nat} {x y : K}
    (hi : keys[i]? = some x) (hj : keys[j]? = some y) : x < y ↔ i < j := by
  obtain ⟨hi', rfl⟩ := List.getElem?_eq_some_iff.1 hi
  obtain ⟨hj', rfl⟩ := List.getElem?_eq_some_iff.1 hj
  have key : ∀ {i j : Nat} (hi : i < keys.length) (hj : j < keys.length), i < j →
      keys[i] < keys[j] := fun hi hj h => List.pairwise_iff_getElem.1 hs _ _ hi hj h
  constructor
  · intro h
    rcases lt_trichotomy i j with h' | h' | h'
    · exact h'
    · subst h'; exact absurd h (lt_irrefl _)
    · exact absurd (h.trans (key hj' hi' h')) (lt_irrefl _)
  · exact key hi' hj'

/-- The specification determines the result. -/
theorem Locates.unique {keys : List K} (hs : keys.Pairwise (· < ·)) {k : K} {s s' : Slot}
    (h : Locates keys k s) (h' : Locates keys k s') : s = s' := by
  have nv : ∀ {i j : Nat}, keys[i]? = some k → j ≤ keys.length → (∀ x ∈ keys.take j, x < k) →
      (∀ x ∈ keys.drop j, k < x) → False := by
    intro i j hi hj h1 h2
    have hm : k ∈ keys := List.mem_of_getElem? hi
    rw [← List.take_append_drop j keys, List.mem_append] at hm
    rcases hm with hm | hm
    · exact lt_irrefl _ (h1 _ hm)
    · exact lt_irrefl _ (h2 _ hm)
  have vv : ∀ {i j : Nat}, i ≤ keys.length → (∀ x ∈ keys.drop i, k < x) → j ≤ keys.length →
      (∀ x ∈ keys.take j, x < k) → j ≤ i := by
    intro i j hi h1 hj h2
    by_contra hlt
    have hij : i < j := by omega
    have hil : i < keys.length := by omega
    have a := h1 keys[i] (by rw [List.mem_drop_iff_getElem]; exact ⟨0, by omega, by simp⟩)
    have b := h2 keys[i] (by rw [List.mem_take_iff_getElem]; exact ⟨i, by omega, rfl⟩)
    exact lt_irrefl _ (a.trans b)
  cases h with
  | found h1 =>
    cases h' with
    | found h2 =>
      congr 1
      have a := sorted_get hs h1 h2
      have b := sorted_get hs h2 h1
      simp only [lt_irrefl, false_iff] at a b
      omega
    | vacant a b c => exact (nv h1 a b c).elim
  | vacant a b c =>
    cases h' with
    | found h1 => exact (nv h1 a b c).elim
    | vacant a' b' c' =>
      congr 1
      have := vv a c a' b'
      have := vv a' c' a b
      omega

theorem bsearch_locates {keys : List K} (hs : keys.Pairwise (· < ·)) (k : K) :
    Locates keys k (bsearch keys k) := by
  unfold bsearch
  simp only []
  split
  · rename_i h; exact .found h
  · rename_i h
    have e : keys.takeWhile (· < k) = keys.take (keys.takeWhile (· < k)).length :=
      List.prefix_iff_eq_take.1 (List.takeWhile_prefix _)
    refine .vacant (List.IsPrefix.length_le (List.takeWhile_prefix _)) ?_ ?_
    · intro x hx
      rw [← e] at hx
      simpa using (List.all_eq_true.1 (List.all_takeWhile (p := (· < k)) (l := keys))) x hx
    · generalize hi : (keys.takeWhile (· < k)).length = i at *
      intro x hx
      rw [List.mem_drop_iff_getElem] at hx
      obtain ⟨j, hj, rfl⟩ := hx
      have hil : i < keys.length := by omega
      have hge : ¬ keys[i] < k := by
        have : keys[i] = (keys.dropWhile (· < k)).head (by
            intro h0
            have := congrArg List.length (List.takeWhile_append_dropWhile (p := (· < k)) (l := keys))
            rw [h0, List.length_append, hi] at this
            simp at this
            omega) := by
          have := congrArg (fun l => l[i]?) (List.takeWhile_append_dropWhile (p := (· < k)) (l := keys))
          simp only [List.getElem?_append, hi, lt_irrefl, if_false, Nat.sub_self] at this
          rw [List.head_eq_getElem]
          rw [List.getElem?_eq_getElem hil] at this
          exact (Option.some.inj ((List.getElem?_eq_getElem _).symm.trans this)).symm
        rw [this]
        simpa using List.head_dropWhile_not (p := (· < k)) (l := keys) _
      have hk : k < keys[i] := by
        rcases lt_trichotomy keys[i] k with h' | h' | h'
        · exact absurd h' hge
        · exact absurd (by rw [List.getElem?_eq_getElem hil, h']) h
        · exact h'
      rcases Nat.eq_zero_or_pos j with rfl | hp
      · simpa using hk
      · exact hk.trans (List.pairwise_iff_getElem.1 hs _ _ hil (by omega) (by omega))

/-- `bsearch`, used by the model of every node, returns `found i` iff the `i`-th key is the query,
and otherwise `vacant i` with the smaller keys before `i` and the larger ones from `i` on. -/
theorem C38_bsearch {keys : List K} (hs : keys.Pairwise (· < ·)) (k : K) (s : Slot) :
    bsearch keys k = s ↔ Locates keys k s :=
  ⟨fun h => h ▸ bsearch_locates hs k, fun h => (bsearch_locates hs k).unique hs h⟩

theorem probe_ok {keys : List K} {i : Nat} (h : i < keys.length) : probe keys i = .ok keys[i] := by
  simp only [probe, List.getElem?_eq_getElem h]
  rfl

theorem vacant_of {keys : List K} {k : K} {i : Nat} (hi : i ≤ keys.length)
    (h1 : ∀ j (h : j < keys.length), j < i → keys[j] < k)
    (h2 : ∀ j (h : j < keys.length), i ≤ j → k < keys[j]) : Locates keys k (.vacant i) := by
  refine .vacant hi ?_ ?_
  · intro x hx
    rw [List.mem_take_iff_getElem] at hx
    obtain ⟨j, hj, rfl⟩ := hx
    exact h1 j (by omega) (by omega)
  · intro x hx
    rw [List.mem_drop_iff_getElem] at hx
    obtain ⟨j, hj, rfl⟩ := hx
    exact h2 _ (by omega) (by omega)

theorem halvingLoop_ok {keys : List K} (hs : keys.Pairwise (· < ·)) (k : K) (base size : Nat)
    (h0 : 0 < size) (h1 : base + size ≤ keys.length)
    (h2 : base = 0 ∨ ∃ h : base < keys.length, keys[base] ≤ k)
    (h3 : ∀ j (h : j < keys.length), base + size ≤ j → k < keys[j]) :
    ∃ b, halvingLoop keys k base size = .ok b ∧ b < keys.length ∧
      (b = 0 ∨ ∃ h : b < keys.length, keys[b] ≤ k) ∧
      ∀ j (h : j < keys.length), b < j → k < keys[j] := by
  induction size using Nat.strong_induction_on generalizing base with
  | _ size ih =>
    unfold halvingLoop
    split
    · rename_i hlt
      have hm : base + size / 2 < keys.length := by omega
      simp only [probe_ok hm, ok_bind]
      refine ih (size - size / 2) (by omega) _ (by omega) ?_ ?_ ?_
      · split <;> omega
      · split
        · exact h2
        · rename_i h; exact .inr ⟨hm, not_lt.1 h⟩
      · intro j hj hle
        split at hle
        · rename_i h
          rcases Nat.lt_or_ge (base + size / 2) j with h' | h'
          · exact h.trans (List.pairwise_iff_getElem.1 hs _ _ hm hj h')
          · have : j = base + size / 2 := by omega
            subst this; exact h
        · exact h3 j hj (by omega)
    · refine ⟨base, rfl, by omega, h2, ?_⟩
      intro j hj hlt
      exact h3 j hj (by omega)

theorem halvingSearch_ok {keys : List K} (hs : keys.Pairwise (· < ·)) (k : K) :
    ∃ s, halvingSearch keys k = .ok s ∧ Locates keys k s := by
  unfold halvingSearch
  split
  · rename_i h
    have : keys = [] := List.length_eq_zero_iff.1 h
    subst this
    exact ⟨_, rfl, .vacant (by simp) (by simp) (by simp)⟩
  · rename_i h
    obtain ⟨b, h1, h2, h3, h4⟩ := halvingLoop_ok hs k 0 keys.length (by omega) (by omega) (.inl rfl)
      (fun j h h' => by omega)
    simp only [h1, ok_bind, probe_ok h2]
    refine ⟨_, rfl, ?_⟩
    split
    · rename_i e; exact .found (by rw [List.getElem?_eq_getElem h2, e])
    · rename_i hne
      split
      · rename_i hlt
        refine vacant_of (by omega) ?_ (fun j hj hle => h4 j hj (by omega))
        intro j hj hle
        rcases Nat.lt_or_ge j b with h' | h'
        · exact (List.pairwise_iff_getElem.1 hs _ _ hj h2 h').trans hlt
        · have : j = b := by omega
          subst this; exact hlt
      · rename_i hnlt
        have hgt : k < keys[b] := lt_of_le_of_ne (not_lt.1 hnlt) (Ne.symm hne)
        rcases h3 with rfl | ⟨_, hle⟩
        · refine vacant_of (by omega) (fun j _ h => by omega) ?_
          intro j hj _
          rcases Nat.eq_zero_or_pos j with rfl | hp
          · exact hgt
          · exact h4 j hj hp
        · exact absurd hle (not_le.2 hgt)

theorem earlyLoop_ok {keys : List K} (hs : keys.Pairwise (· < ·)) (k : K) (n left right : Nat)
    (hn : right - left = n) (h1 : left ≤ right) (h2 : right ≤ keys.length)
    (h3 : ∀ j (h : j < keys.length), j < left → keys[j] < k)
    (h4 : ∀ j (h : j < keys.length), right ≤ j → k < keys[j]) :
    ∃ s, earlyLoop keys k left right = .ok s ∧ Locates keys k s := by
  induction n using Nat.strong_induction_on generalizing left right with
  | _ n ih =>
    unfold earlyLoop
    split
    · rename_i hlt
      have hm : left + (right - left) / 2 < keys.length := by omega
      simp only [probe_ok hm, ok_bind]
      split
      · rename_i h
        refine ih _ ?_ _ _ rfl (by omega) h2 ?_ h4
        · omega
        · intro j hj hle
          rcases Nat.lt_or_ge j (left + (right - left) / 2) with h' | h'
          · exact (List.pairwise_iff_getElem.1 hs _ _ hj hm h').trans h
          · have : j = left + (right - left) / 2 := by omega
            subst this; exact h
      · rename_i h
        split
        · rename_i h'
          refine ih _ ?_ _ _ rfl (by omega) (by omega) h3 ?_
          · omega
          · intro j hj hle
            rcases Nat.lt_or_ge (left + (right - left) / 2) j with h'' | h''
            · exact h'.trans (List.pairwise_iff_getElem.1 hs _ _ hm hj h'')
            · have : j = left + (right - left) / 2 := by omega
              subst this; exact h'
        · rename_i h'
          refine ⟨_, rfl, .found ?_⟩
          rw [List.getElem?_eq_getElem hm, le_antisymm (not_lt.1 h') (not_lt.1 h)]
    · refine ⟨_, rfl, vacant_of (by omega) h3 ?_⟩
      intro j hj hle
      exact h4 j hj (by omega)

/-- The halving search of the standard library (both loops it has had) never reads outside the slice
and returns what the specification says. -/
theorem C38_halving {keys : List K} (hs : keys.Pairwise (· < ·)) (k : K) :
    ∃ s, halvingSearch keys k = .ok s ∧ earlySearch keys k = .ok s ∧ bsearch keys k = s ∧
      Locates keys k s := by
  obtain ⟨s, h1, h2⟩ := halvingSearch_ok hs k
  obtain ⟨s', h3, h4⟩ := earlyLoop_ok hs k _ 0 keys.length rfl (by omega) (by omega)
    (fun j _ h => by omega) (fun j _ h => by omega)
  cases h2.unique hs h4
  exact ⟨s, h1, h3, (C38_bsearch hs k s).2 h2, h2⟩

/-- As `C38_halving`, as an equation for the model: the search of a node is the halving search. -/
theorem C38_node_search {keys : List K} (hs : keys.Pairwise (· < ·)) (k : K) :
    halvingSearch keys k = .ok (bsearch keys k) ∧ earlySearch keys k = .ok (bsearch keys k) := by
  obtain ⟨s, h1, h2, h3, _⟩ := C38_halving hs k
  exact ⟨h3 ▸ h1, h3 ▸ h2⟩

example : halvingSearch ((List.range 61).map (3 * ·)) 90 = .ok (.found 30) := by
  have hs : ((List.range 61).map (3 * ·)).Pairwise (· < ·) := by decide
  have := (C38_node_search hs 90).1
  rwa [(C38_bsearch hs 90 (.found 30)).2 (.found (by decide))] at this

example : halvingSearch ((List.range 61).map (3 * ·)) 91 = .ok (.vacant 31) := by
  have hs : ((List.range 61).map (3 * ·)).Pairwise (· < ·) := by decide
  have := (C38_node_search hs 91).1
  rwa [(C38_bsearch hs 91 (.vacant 31)).2 (.vacant (by decide) (by decide) (by decide))] at this

example := C38_halving (K := Nat) (keys := (List.range 61).map (3 * ·)) (by decide) 91

end Bpt
