import Verif.Proofs.Remove

/-!
# What reading operations rely on
-/

namespace Bpt
variable {K V A : Type}
open Spec

section
variable [LinearOrder K]

/-- Leaf `x` is the place of key `k` among the leaves `LA ++ x :: LB`. -/
structure Cut (L : List (Nat × List (K × V))) (k : K) (LA : List (Nat × List (K × V)))
    (x : Nat × List (K × V)) (LB : List (Nat × List (K × V))) : Prop where
  eq : L = LA ++ x :: LB
  before : ∀ e ∈ LA.flatMap (·.2), e.1 < k
  after : ∀ e ∈ LB.flatMap (·.2), k < e.1

/-- The leaves of a store, in order. -/
structure Flat0 (s : Store K V A) (L : List (Nat × List (K × V))) : Prop where
  seg : Seg s.leaves none L none
  nodup : (L.map (·.1)).Nodup
  live : ∀ i l, s.leaves[i]? = some (some l) → i ∈ L.map (·.1)
  ne : L ≠ []
  nonempty : 2 ≤ L.length → ∀ x ∈ L, x.2 ≠ []

/-- The leaves of a store, in order, with sorted content. -/
structure Flat (s : Store K V A) (L : List (Nat × List (K × V))) : Prop extends Flat0 s L where
  sorted : Sorted (L.flatMap (·.2))

/-- What reading operations use about a tree that do not compare keys. -/
structure Reads0 (t : Tree K V A) (L : List (Nat × List (K × V))) : Prop where
  flat : Flat0 t.store L
  len : t.len = (L.flatMap (·.2)).length
  first : ∃ x L', L = x :: L' ∧ t.firstLeaf = .ok x.1
  last : ∃ L' x, L = L' ++ [x] ∧ t.lastLeaf = .ok x.1

/-- Everything reading operations use about a tree. -/
structure Reads (t : Tree K V A) (L : List (Nat × List (K × V))) : Prop where
  flat : Flat t.store L
  len : t.len = (L.flatMap (·.2)).length
  first : ∃ x L', L = x :: L' ∧ t.firstLeaf = .ok x.1
  last : ∃ L' x, L = L' ++ [x] ∧ t.lastLeaf = .ok x.1
  find : ∀ k, ∃ LA x LB, Cut L k LA x LB ∧ findDescendLeaf t.store t.root k = .ok x.1

theorem Reads.base {t : Tree K V A} {L} (r : Reads t L) : Reads0 t L :=
  ⟨r.flat.toFlat0, r.len, r.first, r.last⟩

omit [LinearOrder K] in
/-- Descents only read inner nodes. -/
theorem descend_congr {σ β : Type} {s s' : Store K V A} (h : s.inners = s'.inners)
    (step : σ → Nat → Inner K A → Res (β ⊕ (σ × NodeId))) (fuel : Nat) (st : σ) (n : NodeId) :
    descend s step fuel st n = descend s' step fuel st n := by
  induction fuel generalizing st n with
  | zero => cases n <;> rfl
  | succ fuel ih =>
    cases n with
    | leaf i => rfl
    | inner i =>
      have : s.getInner i = s'.getInner i := by simp [Store.getInner, h]
      simp only [descend, this, ih]

omit [LinearOrder K] in
theorem descendLeaf_congr {σ : Type} {s s' : Store K V A} (h : s.inners = s'.inners)
    (step : σ → Nat → Inner K A → Res (σ × NodeId)) (st : σ) (n : NodeId) :
    descendLeaf s step st n = descendLeaf s' step st n := by
  simp only [descendLeaf, Store.fuel, h, descend_congr h]

theorem Reads.cached {t : Tree K V A} {L} (r : Reads t L) (c : Option Nat) :
    Reads { t with store := { t.store with cached := c } } L :=
  ⟨⟨⟨r.flat.seg, r.flat.nodup, r.flat.live, r.flat.ne, r.flat.nonempty⟩, r.flat.sorted⟩,
    r.len,
    by
      obtain ⟨x, L', h1, h2⟩ := r.first
      refine ⟨x, L', h1, ?_⟩
      rw [← h2]
      simp only [Tree.firstLeaf, descendLeaf_congr (s := { t.store with cached := c }) (s' := t.store) rfl],
    by
      obtain ⟨x, L', h1, h2⟩ := r.last
      refine ⟨x, L', h1, ?_⟩
      rw [← h2]
      simp only [Tree.lastLeaf, descendLeaf_congr (s := { t.store with cached := c }) (s' := t.store) rfl],
    by
      intro k
      obtain ⟨LA, x, LB, h1, h2⟩ := r.find k
      refine ⟨LA, x, LB, h1, ?_⟩
      rw [← h2]
      simp only [findDescendLeaf, descendLeaf_congr (s := { t.store with cached := c }) (s' := t.store) rfl]⟩

theorem sorted_data {L LA LB : List (Nat × List (K × V))} {x} (hs : Sorted (L.flatMap (·.2)))
    (hL : L = LA ++ x :: LB) : Sorted x.2 := by
  subst hL
  unfold Sorted at hs ⊢
  simp only [List.flatMap_append, List.flatMap_cons] at hs
  exact (List.pairwise_append.1 (List.pairwise_append.1 hs).2.1).1

theorem data_cases {d : List (K × V)} (hd : Sorted d) (k : K) :
    (∃ a v b, d = a ++ (k, v) :: b ∧ (∀ e ∈ a, e.1 < k) ∧ (∀ e ∈ b, k < e.1)) ∨
    (∃ a b, d = a ++ b ∧ (∀ e ∈ a, e.1 < k) ∧ (∀ e ∈ b, k < e.1)) := by
  have hp : (d.map (·.1)).Pairwise (· < ·) := by
    rw [List.pairwise_map]; exact hd
  rcases sorted_cases hp k with ⟨a, b, h, h1, h2⟩ | ⟨a, b, h, h1, h2⟩
  · rw [List.map_eq_append_iff] at h
    obtain ⟨d1, d2, rfl, rfl, h⟩ := h
    rw [List.map_eq_cons_iff] at h
    obtain ⟨⟨k', v⟩, d3, rfl, rfl, rfl⟩ := h
    exact .inl ⟨d1, v, d3, rfl, fun e he => h1 _ (List.mem_map_of_mem he),
      fun e he => h2 _ (List.mem_map_of_mem he)⟩
  · rw [List.map_eq_append_iff] at h
    obtain ⟨d1, d2, rfl, rfl, rfl⟩ := h
    exact .inr ⟨d1, d2, rfl, fun e he => h1 _ (List.mem_map_of_mem he),
      fun e he => h2 _ (List.mem_map_of_mem he)⟩

omit [LinearOrder K] in
theorem readAt_mid {α : Type} {a b : List α} {x : α} : readAt (a ++ x :: b) a.length = .ok x := by
  simp [readAt]

theorem lswv_found {a b : List (K × V)} {k : K} {v : V} {p n : Option Nat}
    (ha : ∀ e ∈ a, e.1 < k) :
    (⟨a ++ (k, v) :: b, p, n⟩ : Leaf K V).locateSlotWithValue k = .ok (a.length, some v) := by
  simp only [Leaf.locateSlotWithValue, locateSlot_found ha, Leaf.dataAt, readAt_mid, ok_bind, pure_ok]

theorem lswv_vacant {a b : List (K × V)} {k : K} {p n : Option Nat}
    (ha : ∀ e ∈ a, e.1 < k) (hb : ∀ e ∈ b, k < e.1) :
    (⟨a ++ b, p, n⟩ : Leaf K V).locateSlotWithValue k = .ok (a.length, none) := by
  simp only [Leaf.locateSlotWithValue, locateSlot_vacant ha hb, pure_ok]

/-- Where a key is in its leaf and in the whole content. -/
theorem Cut.split {L LA LB : List (Nat × List (K × V))} {x} {k : K}
    (hs : Sorted (L.flatMap (·.2))) (hc : Cut L k LA x LB) :
    (∃ a v b, x.2 = a ++ (k, v) :: b ∧ (∀ e ∈ a, e.1 < k) ∧ (∀ e ∈ b, k < e.1) ∧
      L.flatMap (·.2) = (LA.flatMap (·.2) ++ a) ++ (k, v) :: (b ++ LB.flatMap (·.2)) ∧
      (∀ e ∈ LA.flatMap (·.2) ++ a, e.1 < k) ∧ (∀ e ∈ b ++ LB.flatMap (·.2), k < e.1)) ∨
    (∃ a b, x.2 = a ++ b ∧ (∀ e ∈ a, e.1 < k) ∧ (∀ e ∈ b, k < e.1) ∧
      L.flatMap (·.2) = (LA.flatMap (·.2) ++ a) ++ (b ++ LB.flatMap (·.2)) ∧
      (∀ e ∈ LA.flatMap (·.2) ++ a, e.1 < k) ∧ (∀ e ∈ b ++ LB.flatMap (·.2), k < e.1)) := by
  have hb : ∀ a : List (K × V), (∀ e ∈ a, e.1 < k) → ∀ e ∈ LA.flatMap (·.2) ++ a, e.1 < k := by
    intro a ha e he
    rcases List.mem_append.1 he with he | he
    · exact hc.before e he
    · exact ha e he
  have hb' : ∀ a : List (K × V), (∀ e ∈ a, k < e.1) → ∀ e ∈ a ++ LB.flatMap (·.2), k < e.1 := by
    intro a ha e he
    rcases List.mem_append.1 he with he | he
    · exact ha e he
    · exact hc.after e he
  rcases data_cases (sorted_data hs hc.eq) k with ⟨a, v, b, h, h1, h2⟩ | ⟨a, b, h, h1, h2⟩
  · refine .inl ⟨a, v, b, h, h1, h2, ?_, hb a h1, hb' b h2⟩
    rw [hc.eq]; simp [h]
  · refine .inr ⟨a, b, h, h1, h2, ?_, hb a h1, hb' b h2⟩
    rw [hc.eq]; simp [h]

omit [LinearOrder K] in
/-- A live leaf is one of the leaves of the tree. -/
theorem Flat0.tryGet {s : Store K V A} {L} (f : Flat0 s L) {i : Nat} {l : Leaf K V}
    (h : s.tryGetLeaf i = some l) :
    ∃ LA x LB, L = LA ++ x :: LB ∧ x.1 = i ∧ l = ⟨x.2, lstId none LA, hdId LB none⟩ := by
  have hi : s.leaves[i]? = some (some l) := by
    unfold Store.tryGetLeaf at h
    split at h
    · next h' => cases h; exact h'
    · cases h
  obtain ⟨x, hx, rfl⟩ := List.mem_map.1 (f.live _ _ hi)
  obtain ⟨LA, LB, hL⟩ := List.append_of_mem hx
  have hseg := f.seg
  rw [hL] at hseg
  have := hseg.get
  rw [this] at hi
  cases hi
  exact ⟨LA, x, LB, hL, rfl, rfl⟩

omit [LinearOrder K] in
theorem Flat0.get {s : Store K V A} {L LA LB : List (Nat × List (K × V))} {x} (f : Flat0 s L)
    (hL : L = LA ++ x :: LB) : s.getLeaf x.1 = .ok ⟨x.2, lstId none LA, hdId LB none⟩ := by
  have hseg := f.seg
  rw [hL] at hseg
  exact hseg.getLeaf

omit [LinearOrder K] in
theorem lstId_isNone {L : List (Nat × List (K × V))} : lstId none L = none ↔ L = [] := by
  rcases List.eq_nil_or_concat L with rfl | ⟨L', x, rfl⟩
  · simp
  · simp

omit [LinearOrder K] in
theorem hdId_isNone {L : List (Nat × List (K × V))} : hdId L none = none ↔ L = [] := by
  cases L <;> simp

omit [LinearOrder K] in
theorem Flat0.data_ne {s : Store K V A} {L LA LB : List (Nat × List (K × V))} {x} (f : Flat0 s L)
    (hL : L = LA ++ x :: LB) (h : LA ≠ [] ∨ LB ≠ []) : x.2 ≠ [] := by
  refine f.nonempty ?_ x (by rw [hL]; simp)
  rw [hL]
  simp only [List.length_append, List.length_cons]
  rcases h with h | h
  · have := List.length_pos_of_ne_nil h; omega
  · have := List.length_pos_of_ne_nil h; omega

/-- The range test on any leaf of the tree runs without fault, and a leaf passing it is the place of
the key. -/
theorem Flat.inRange {s : Store K V A} {L LA LB : List (Nat × List (K × V))} {x} (f : Flat s L)
    (hL : L = LA ++ x :: LB) (k : K) :
    ∃ b, (⟨x.2, lstId none LA, hdId LB none⟩ : Leaf K V).inRange k = .ok b ∧
      (b = true → Cut L k LA x LB) := by
  have hs := f.sorted
  unfold Sorted at hs
  rw [hL] at hs
  simp only [List.flatMap_append, List.flatMap_cons] at hs
  obtain ⟨h1, h2, h3⟩ := List.pairwise_append.1 hs
  obtain ⟨h4, h5, h6⟩ := List.pairwise_append.1 h2
  cases hp : lstId none LA with
  | none =>
    rw [lstId_isNone] at hp
    cases hq : hdId LB none with
    | none =>
      rw [hdId_isNone] at hq
      exact ⟨true, rfl, fun _ => ⟨hL, by simp [hp], by simp [hq]⟩⟩
    | some q =>
      have hB : LB ≠ [] := by
        rintro rfl; simp at hq
      obtain ⟨d, kv, hd⟩ := (List.eq_nil_or_concat' x.2).resolve_left (f.data_ne hL (.inr hB))
      refine ⟨!decide (kv.1 < k), ?_, fun hb => ⟨hL, by simp [hp], fun e he => ?_⟩⟩
      · simp [Leaf.inRange, Leaf.dataAt, readAt, hd, Leaf.len]
      · have hk' : ¬ kv.1 < k := by simpa using hb
        exact lt_of_le_of_lt (not_lt.1 hk') (h6 kv (by rw [hd]; simp) e he)
  | some p =>
    have hA : LA ≠ [] := by
      rintro rfl; simp at hp
    obtain ⟨kv0, d0, hd0⟩ := List.exists_cons_of_ne_nil (f.data_ne hL (.inl hA))
    have hk0 : ¬ k < kv0.1 → ∀ e ∈ LA.flatMap (·.2), e.1 < k := fun hk e he =>
      lt_of_lt_of_le (h3 e he kv0 (List.mem_append_left _ (by rw [hd0]; simp))) (not_lt.1 hk)
    have hr0 : readAt x.2 0 = .ok kv0 := by simp [readAt, hd0]
    by_cases hk : k < kv0.1
    · exact ⟨false, by simp [Leaf.inRange, Leaf.dataAt, hr0, hk], by simp⟩
    · cases hq : hdId LB none with
      | none =>
        rw [hdId_isNone] at hq
        exact ⟨true, by simp [Leaf.inRange, Leaf.dataAt, hr0, hk],
          fun _ => ⟨hL, hk0 hk, by simp [hq]⟩⟩
      | some q =>
        have hB : LB ≠ [] := by
          rintro rfl; simp at hq
        obtain ⟨d, kv, hd⟩ := (List.eq_nil_or_concat' x.2).resolve_left (f.data_ne hL (.inr hB))
        have hr1 : readAt x.2 (x.2.length - 1) = .ok kv := by simp [readAt, hd]
        have hl : x.2.length ≠ 0 := by simp [hd]
        refine ⟨!decide (kv.1 < k), ?_, fun hb => ⟨hL, hk0 hk, fun e he => ?_⟩⟩
        · simp only [Leaf.inRange, Leaf.dataAt, hr0, hk, ok_bind, Leaf.len, hl, hr1, if_false,
            decide_false, Bool.false_eq_true, pure_ok]
        · have hk' : ¬ kv.1 < k := by simpa using hb
          exact lt_of_le_of_lt (not_lt.1 hk') (h6 kv (by rw [hd]; simp) e he)

/-- Whatever the cached id is, a cache hit yields the place of the key. -/
theorem Flat.tryCacheAt {s : Store K V A} {L} (f : Flat s L) (c : Option Nat) (k : K) :
    ∃ r, s.tryCacheAt c k = .ok r ∧
      ∀ i, r = some i → ∃ LA x LB, Cut L k LA x LB ∧ x.1 = i := by
  unfold Store.tryCacheAt
  cases c with
  | none => exact ⟨none, rfl, by simp⟩
  | some id =>
    simp only []
    cases hg : s.tryGetLeaf id with
    | none => exact ⟨none, rfl, by simp⟩
    | some l =>
      obtain ⟨LA, x, LB, hL, rfl, rfl⟩ := f.tryGet hg
      obtain ⟨b, hb, hc⟩ := f.inRange hL k
      simp only [hb, ok_bind]
      refine ⟨_, rfl, ?_⟩
      cases b with
      | true =>
        intro i hi
        simp at hi
        exact ⟨LA, x, LB, hc rfl, hi⟩
      | false => simp

/-- Reading a key in its leaf. -/
theorem findInLeaf_ok {s : Store K V A} {L LA LB : List (Nat × List (K × V))} {x} {k : K}
    (f : Flat s L) (hc : Cut L k LA x LB) :
    findInLeaf s x.1 k = .ok (lookup k (L.flatMap (·.2))) := by
  unfold findInLeaf
  rw [f.get hc.eq]
  obtain ⟨i, d⟩ := x
  rcases hc.split f.sorted with ⟨a, v, b, rfl, h1, h2, h3, h4, h5⟩ | ⟨a, b, rfl, h1, h2, h3, h4, h5⟩
  · rw [h3, lookup_found h4]
    simp only [ok_bind, lswv_found h1, pure_ok]
  · rw [h3, lookup_none h4 h5]
    simp only [ok_bind, lswv_vacant h1 h2, pure_ok]

theorem get_ok {t : Tree K V A} {L} (r : Reads t L) (k : K) :
    ∃ c, t.get k = .ok (lookup k (L.flatMap (·.2)),
      { t with store := { t.store with cached := c } }) := by
  obtain ⟨o, ho, hh⟩ := r.flat.tryCacheAt t.store.cached k
  unfold Tree.get Store.tryCache
  rw [ho]
  cases o with
  | some i =>
    obtain ⟨LA, x, LB, hc, rfl⟩ := hh i rfl
    refine ⟨t.store.cached, ?_⟩
    simp only [ok_bind, findInLeaf_ok r.flat hc, pure_ok]
  | none =>
    obtain ⟨LA, x, LB, hc, hf⟩ := r.find k
    refine ⟨some x.1, ?_⟩
    simp only [ok_bind, hf, Store.cacheLeaf]
    rw [findInLeaf_ok (r.cached (some x.1)).flat hc]
    simp only [ok_bind, pure_ok]

theorem locateLeaf_ok {t : Tree K V A} {L} (r : Reads t L) (k : K) :
    ∃ LA x LB, Cut L k LA x LB ∧ t.locateLeaf k = .ok x.1 := by
  obtain ⟨o, ho, hh⟩ := r.flat.tryCacheAt t.store.cached k
  unfold Tree.locateLeaf Store.tryCache
  rw [ho]
  cases o with
  | some i =>
    obtain ⟨LA, x, LB, hc, rfl⟩ := hh i rfl
    exact ⟨LA, x, LB, hc, rfl⟩
  | none =>
    obtain ⟨LA, x, LB, hc, hf⟩ := r.find k
    exact ⟨LA, x, LB, hc, by simp only [ok_bind, hf]⟩

omit [LinearOrder K] in
theorem first_ok {t : Tree K V A} {L} (r : Reads0 t L) :
    t.first = .ok (L.flatMap (·.2)).head? := by
  unfold Tree.first Tree.isEmpty
  by_cases h : t.len = 0
  · have : L.flatMap (·.2) = [] := List.length_eq_zero_iff.1 (r.len ▸ h)
    simp [h, this]
  · obtain ⟨x, L', hL, hf⟩ := r.first
    have hx : x.2 ≠ [] := by
      rcases L' with _ | ⟨y, L'⟩
      · rw [r.len, hL] at h
        intro h0
        simp [h0] at h
      · exact r.flat.data_ne (LA := []) (LB := y :: L') hL (.inr (by simp))
    obtain ⟨kv, d, hd⟩ := List.exists_cons_of_ne_nil hx
    have h0 : (t.len == 0) = false := by simpa using h
    simp only [h0, Bool.false_eq_true, if_false, hf, ok_bind,
      r.flat.get (LA := []) (LB := L') hL, Leaf.dataAt, hd]
    rw [hL]
    simp [readAt, hd]

omit [LinearOrder K] in
theorem last_ok {t : Tree K V A} {L} (r : Reads0 t L) :
    t.last = .ok (L.flatMap (·.2)).getLast? := by
  unfold Tree.last Tree.isEmpty
  by_cases h : t.len = 0
  · have : L.flatMap (·.2) = [] := List.length_eq_zero_iff.1 (r.len ▸ h)
    simp [h, this]
  · obtain ⟨L', x, hL, hf⟩ := r.last
    have hx : x.2 ≠ [] := by
      by_cases h' : L' = []
      · subst h'
        rw [r.len, hL] at h
        intro h0
        simp [h0] at h
      · exact r.flat.data_ne (LA := L') (LB := []) hL (.inl h')
    obtain ⟨d, kv, hd⟩ := (List.eq_nil_or_concat x.2).resolve_left hx
    have h0 : (t.len == 0) = false := by simpa using h
    simp only [h0, Bool.false_eq_true, if_false, hf, ok_bind,
      r.flat.get (LA := L') (LB := []) hL, Leaf.dataAt, Leaf.len, hd]
    rw [hL]
    simp [readAt, hd]

/-! ## Well-formed trees can be read -/

omit [LinearOrder K] in
theorem leaf_lower {μ : Nat} {h : Nat} {m : Nat} {r : Bool} {x : T K V A h}
    (hx : T.ShapeTop μ m r x) (h1 : 0 < h ∨ 1 ≤ m) : ∀ y ∈ x.leaves, y.2 ≠ [] := by
  induction h generalizing m r with
  | zero =>
    intro y hy
    simp only [T.leaves, List.mem_singleton] at hy
    subst hy
    have h2 := hx.1
    intro h0
    simp only at h0
    rw [h0] at h2
    simp at h2 h1
    omega
  | succ h ih =>
    intro y hy
    simp only [T.leaves, List.mem_flatMap] at hy
    obtain ⟨c, hc, hy⟩ := hy
    have h5 := hx.2.2.2.2
    have : ∃ m r, T.ShapeTop μ m r c ∧ (0 < h ∨ 1 ≤ m) := by
      rcases List.eq_nil_or_concat' (GNode.kids x) with h0 | ⟨cs, c0, h0⟩
      · rw [h0] at hc; simp at hc
      · rw [h0] at h5 hc
        have h5' : SpineL (fun c => T.ShapeTop μ 16 false c)
            (fun c => T.ShapeTop μ (mnAt μ h r) r c) (cs ++ [c0]) := h5
        rw [SpineL_append (by simp)] at h5'
        rcases List.mem_append.1 hc with hc | hc
        · exact ⟨16, false, h5'.1 c hc, .inr (by omega)⟩
        · rw [List.mem_singleton] at hc
          subst hc
          refine ⟨mnAt μ h r, r, ?_, ?_⟩
          · have := h5'.2; exact this
          · cases h with
            | succ h => exact .inl (by omega)
            | zero => right; cases r <;> simp [mnAt]
    obtain ⟨m, r, hs, hm⟩ := this
    exact ih hs hm y hy

omit [LinearOrder K] in
theorem leaves_ne {μ : Nat} {h : Nat} {m : Nat} {r : Bool} {x : T K V A h}
    (hx : T.ShapeTop μ m r x) : x.leaves ≠ [] := by
  induction h generalizing m r with
  | zero => simp [T.leaves]
  | succ h ih =>
    obtain ⟨c, cs, hk⟩ : ∃ c cs, GNode.kids x = c :: cs := by
      have := hx.2.2.1
      cases hk : GNode.kids x with
      | nil => simp [hk] at this
      | cons c cs => exact ⟨c, cs, rfl⟩
    obtain ⟨m', r', hc⟩ := T.ShapeTop.kids hx c (by rw [hk]; simp)
    have := ih hc
    simp only [T.leaves, hk, List.flatMap_cons]
    intro h0
    exact this (List.append_eq_nil_iff.1 h0).1

omit [LinearOrder K] in
theorem WF0.flat {μ : Nat} {t : Tree K V A} {H : Nat} {g : T K V A H} (w : WF0 μ t g) :
    Flat0 t.store g.leaves := by
  refine ⟨w.seg, w.lnodup, w.live, leaves_ne w.shape, ?_⟩
  intro h2
  cases H with
  | zero => simp [T.leaves] at h2
  | succ H => exact leaf_lower w.shape (.inl (by omega))

theorem WF.flat {μ : Nat} {t : Tree K V A} {H : Nat} {g : T K V A H} (w : WF μ t g) :
    Flat t.store g.leaves := ⟨w.base.flat, w.sorted⟩

omit [LinearOrder K] in
/-- Descent along the first children. -/
theorem firstLeaf_ok {μ : Nat} {t : Tree K V A} {H : Nat} {g : T K V A H} (w : WF0 μ t g) :
    ∃ x L', g.leaves = x :: L' ∧ t.firstLeaf = .ok x.1 := by
  obtain ⟨c, x, st, h1, h2, h3⟩ := descendLeaf_ok w (step := firstStep)
    (fun h c x st => c.LenOK ∧ c.lvL = [])
    (by
      rintro h c x st hp ⟨hl, h0⟩
      have hs := (Ctx.shape_plug.1 ⟨hp ▸ w.shape, hl⟩).2
      obtain ⟨f, y, rfl, h2, h3, -⟩ := exists_frame (x := x) (T.ShapeTop.lens hs).1
        (T.ShapeTop.lens hs).2 (i := 0) (by omega)
      have hk : f.kidsL = [] := List.length_eq_zero_iff.1 h3
      refine ⟨f, y, (), rfl, ?_, ⟨h2, hl⟩, ?_⟩
      · have := childId_fill (f := f) (i := T.nid y)
        rw [h3] at this
        simp only [firstStep, GNode.inner_fill, this, ok_bind, pure_ok]
      · simp [Ctx.lvL, h0, Frame.lvL, hk])
    (st := ()) ⟨trivial, rfl⟩
  refine ⟨(x.id, x.data), c.lvR, ?_, ?_⟩
  · rw [← h1, Ctx.leaves_plug, h3.2]; simp [T.leaves]
  · simp [Tree.firstLeaf, h2]

omit [LinearOrder K] in
/-- Descent along the last children. -/
theorem lastLeaf_ok {μ : Nat} {t : Tree K V A} {H : Nat} {g : T K V A H} (w : WF0 μ t g) :
    ∃ L' x, g.leaves = L' ++ [x] ∧ t.lastLeaf = .ok x.1 := by
  obtain ⟨c, x, st, h1, h2, h3⟩ := descendLeaf_ok w (step := lastStep)
    (fun h c x st => c.LenOK ∧ c.lvR = [])
    (by
      rintro h c x st hp ⟨hl, h0⟩
      have hs := (Ctx.shape_plug.1 ⟨hp ▸ w.shape, hl⟩).2
      obtain ⟨f, y, rfl, h2, h3, h4, h5⟩ := exists_frame (x := x) (T.ShapeTop.lens hs).1
        (T.ShapeTop.lens hs).2 (i := x.keys.length) (by omega)
      have hk : f.kidsR = [] := by
        have := h2.2.2.1
        rw [h5] at this
        simpa using this.symm
      refine ⟨f, y, (), rfl, ?_, ⟨h2, hl⟩, ?_⟩
      · have := childId_fill (f := f) (i := T.nid y)
        rw [h3] at this
        simp only [lastStep, GNode.inner_fill, Inner.len, this, ok_bind, pure_ok]
        have e : (f.inner y.nid).keys.length = (f.fill y).keys.length := rfl
        simp only [e, this, ok_bind]
      · simp [Ctx.lvR, h0, Frame.lvR, hk])
    (st := ()) ⟨trivial, rfl⟩
  refine ⟨c.lvL, (x.id, x.data), ?_, ?_⟩
  · rw [← h1, Ctx.leaves_plug, h3.2]; simp [T.leaves]
  · simp [Tree.lastLeaf, h2]

theorem Located.cut {μ : Nat} {t : Tree K V A} {H : Nat} {g : T K V A H} (w : WF μ t g) {k : K}
    {c : Ctx K V A 0 H} {x : GLeaf K V} (hp : Ctx.plug c x = g) (hl : Located k g (h := 0) c x) :
    Cut g.leaves k c.lvL (x.id, x.data) c.lvR := by
  have hc := (Ctx.shape_plug.1 ⟨hp ▸ w.shape, hl.lenOK⟩).1
  have := hl.keys hc
  exact ⟨by rw [← hp, Ctx.leaves_plug]; simp [T.leaves], this.1, this.2⟩

omit [LinearOrder K] in
theorem WF0.reads {μ : Nat} {t : Tree K V A} {H : Nat} {g : T K V A H} (w : WF0 μ t g) :
    Reads0 t g.leaves := ⟨w.flat, w.len, firstLeaf_ok w, lastLeaf_ok w⟩

theorem WF.reads {μ : Nat} {t : Tree K V A} {H : Nat} {g : T K V A H} (w : WF μ t g) :
    Reads t g.leaves := by
  refine ⟨w.flat, w.len, firstLeaf_ok w.base, lastLeaf_ok w.base, ?_⟩
  intro k
  obtain ⟨c, x, hp, hf, hl⟩ := findDescendLeaf_ok w k
  exact ⟨_, _, _, hl.cut w hp, hf⟩

omit [LinearOrder K] in
theorem WF0.cached {μ : Nat} {t : Tree K V A} {H : Nat} {g : T K V A H} (w : WF0 μ t g)
    (c : Option Nat) : WF0 μ { t with store := { t.store with cached := c } } g :=
  ⟨w.root, w.imem, w.inodup, w.seg, w.lnodup, w.live, w.shape, w.len⟩

theorem WF.cached {μ : Nat} {t : Tree K V A} {H : Nat} {g : T K V A H} (w : WF μ t g)
    (c : Option Nat) : WF μ { t with store := { t.store with cached := c } } g :=
  ⟨w.root, w.imem, w.inodup, w.seg, w.lnodup, w.live, w.ord, w.shape, w.len⟩

end
end Bpt
