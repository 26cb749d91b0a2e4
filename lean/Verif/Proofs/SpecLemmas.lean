import Verif.Proofs.Content

/-!
# Facts about the specification of ordered maps, and about stable sorting
-/

namespace Bpt.Spec
variable {K V : Type} [LinearOrder K]

@[simp] theorem lookup_nil (k : K) : lookup k ([] : List (K × V)) = none := rfl

theorem lookup_cons (k : K) (e : K × V) (l : List (K × V)) :
    lookup k (e :: l) = if e.1 = k then some e.2 else lookup k l := by
  unfold lookup
  by_cases h : e.1 = k <;> simp [List.find?_cons, h]

theorem lookup_append (k : K) (l l' : List (K × V)) :
    lookup k (l ++ l') = (lookup k l).or (lookup k l') := by
  induction l with
  | nil => simp
  | cons e l ih =>
    rw [List.cons_append, lookup_cons, lookup_cons, ih]
    split <;> simp

theorem lookup_eq_none {k : K} {l : List (K × V)} : lookup k l = none ↔ ∀ e ∈ l, e.1 ≠ k := by
  induction l with
  | nil => simp
  | cons e l ih =>
    rw [lookup_cons]
    by_cases h : e.1 = k <;> simp [h, ih]

theorem lookup_mem {k : K} {v : V} {l : List (K × V)} (h : lookup k l = some v) : (k, v) ∈ l := by
  induction l with
  | nil => simp at h
  | cons e l ih =>
    rw [lookup_cons] at h
    by_cases hk : e.1 = k
    · rw [if_pos hk, Option.some.injEq] at h
      subst hk; subst h; simp
    · rw [if_neg hk] at h
      exact List.mem_cons_of_mem _ (ih h)

theorem lookup_of_mem {k : K} {v : V} {l : List (K × V)} (hs : Sorted l) (h : (k, v) ∈ l) :
    lookup k l = some v := by
  induction l with
  | nil => simp at h
  | cons e l ih =>
    unfold Sorted at hs ih
    rw [List.pairwise_cons] at hs
    rw [lookup_cons]
    rcases List.mem_cons.1 h with h | h
    · rw [← h]; simp
    · rw [if_neg (ne_of_lt (hs.1 _ h)), ih hs.2 h]

theorem lookup_iff {k : K} {v : V} {l : List (K × V)} (hs : Sorted l) :
    lookup k l = some v ↔ (k, v) ∈ l := ⟨lookup_mem, lookup_of_mem hs⟩

/-- Two ordered maps with the same lookups are the same list. -/
theorem sorted_ext {l l' : List (K × V)} (h : Sorted l) (h' : Sorted l')
    (he : ∀ k, lookup k l = lookup k l') : l = l' := by
  have hn : ∀ {m : List (K × V)}, Sorted m → m.Nodup := by
    intro m hm
    exact List.Pairwise.imp (fun {a b} hab hh => by rw [hh] at hab; exact lt_irrefl _ hab) hm
  have hp : l.Perm l' := by
    rw [List.perm_ext_iff_of_nodup (hn h) (hn h')]
    rintro ⟨k, v⟩
    rw [← lookup_iff h, ← lookup_iff h', he]
  refine List.Perm.eq_of_pairwise ?_ h h' hp
  intro a b _ _ hab hba
  exact absurd (lt_trans hab hba) (lt_irrefl _)

theorem upsert_sorted {k : K} {v : V} {l : List (K × V)} (h : Sorted l) : Sorted (upsert k v l) := by
  unfold upsert Sorted
  rw [List.pairwise_append]
  refine ⟨List.Pairwise.filter _ h, ?_, ?_⟩
  · rw [List.pairwise_cons]
    refine ⟨?_, List.Pairwise.filter _ h⟩
    intro e he
    simpa using (List.mem_filter.1 he).2
  · intro a ha b hb
    have ha : a.1 < k := by simpa using (List.mem_filter.1 ha).2
    rcases List.mem_cons.1 hb with rfl | hb
    · exact ha
    · have : k < b.1 := by simpa using (List.mem_filter.1 hb).2
      exact ha.trans this

theorem erase_sorted {k : K} {l : List (K × V)} (h : Sorted l) : Sorted (erase k l) :=
  List.Pairwise.filter _ h

theorem modify_sorted {k : K} {f : V → V} {l : List (K × V)} (h : Sorted l) :
    Sorted (modify k f l) := by
  unfold Sorted modify
  rw [List.pairwise_map]
  refine List.Pairwise.imp ?_ h
  intro a b hab
  split <;> split <;> exact hab

theorem lookup_filter_true {k : K} {p : K × V → Bool} {l : List (K × V)}
    (h : ∀ v, p (k, v) = true) : lookup k (l.filter p) = lookup k l := by
  induction l with
  | nil => rfl
  | cons e l ih =>
    obtain ⟨k', v'⟩ := e
    rw [List.filter_cons, lookup_cons]
    by_cases hk : k' = k
    · subst hk
      simp [h, lookup_cons]
    · split
      · rw [lookup_cons, ih, if_neg hk]
      · rw [ih]

theorem lookup_filter_false {k : K} {p : K × V → Bool} {l : List (K × V)}
    (h : ∀ v, p (k, v) = false) : lookup k (l.filter p) = none := by
  rw [lookup_eq_none]
  rintro ⟨k', v⟩ he rfl
  have := (List.mem_filter.1 he).2
  rw [h] at this
  cases this

theorem lookup_upsert (j k : K) (v : V) (l : List (K × V)) :
    lookup j (upsert k v l) = if k = j then some v else lookup j l := by
  unfold upsert
  rw [lookup_append, lookup_cons]
  rcases lt_trichotomy j k with h | h | h
  · rw [lookup_filter_true (fun _ => by simpa using h), if_neg h.ne', if_neg h.ne',
      lookup_filter_false (p := fun e => decide (k < e.1)) (fun _ => by simpa using h.le)]
    simp
  · subst h
    rw [lookup_filter_false (by simp)]
    simp
  · rw [lookup_filter_false (fun _ => by simpa using h.le), if_neg h.ne, if_neg h.ne,
      lookup_filter_true (p := fun e => decide (k < e.1)) (fun _ => by simpa using h)]
    simp

theorem lookup_erase (j k : K) (l : List (K × V)) :
    lookup j (erase k l) = if k = j then none else lookup j l := by
  unfold erase
  split
  · next h => subst h; exact lookup_filter_false (by simp)
  · next h => exact lookup_filter_true (fun _ => by simpa using fun e => h (Eq.symm e))

theorem lookup_modify (j k : K) (f : V → V) (l : List (K × V)) :
    lookup j (modify k f l) = if k = j then (lookup j l).map f else lookup j l := by
  induction l with
  | nil => simp [modify]
  | cons e l ih =>
    have : modify k f (e :: l) = (if e.1 = k then (e.1, f e.2) else e) :: modify k f l := rfl
    rw [this, lookup_cons, lookup_cons, ih]
    by_cases h1 : e.1 = k <;> by_cases h2 : k = j
    · subst h1; subst h2; simp
    · subst h1; simp [h2]
    · subst h2; simp [h1]
    · simp [h1, h2]

theorem insertAll_sorted {l items : List (K × V)} (h : Sorted l) : Sorted (insertAll l items) := by
  unfold insertAll
  induction items generalizing l with
  | nil => exact h
  | cons e items ih => exact ih (upsert_sorted h)

/-- The value of a key is the one inserted last. -/
theorem lookup_insertAll (j : K) (l items : List (K × V)) :
    lookup j (insertAll l items) = (lookup j items.reverse).or (lookup j l) := by
  unfold insertAll
  induction items generalizing l with
  | nil => simp
  | cons e items ih =>
    rw [List.foldl_cons, ih, lookup_upsert, List.reverse_cons, lookup_append, lookup_cons]
    by_cases h : e.1 = j
    · simp [h, Option.or_assoc]
    · simp [h]

/-- Reading a strictly sorted list from either end finds the same value. -/
theorem lookup_reverse_sorted {l : List (K × V)} (h : Sorted l) (k : K) :
    lookup k l.reverse = lookup k l := by
  induction l with
  | nil => rfl
  | cons e l ih =>
    unfold Sorted at h ih
    rw [List.pairwise_cons] at h
    rw [List.reverse_cons, lookup_append, ih h.2, lookup_cons, lookup_cons]
    by_cases hk : e.1 = k
    · have : lookup k l = none := by
        rw [lookup_eq_none]
        intro e' he'
        rw [← hk]; exact (h.1 e' he').ne'
      simp [hk, this]
    · simp [hk]

theorem insertAll_of_sorted {l : List (K × V)} (h : Sorted l) : insertAll [] l = l := by
  refine sorted_ext (insertAll_sorted List.Pairwise.nil) h ?_
  intro k
  rw [lookup_insertAll, lookup_reverse_sorted h]
  simp

end Bpt.Spec

namespace Bpt
open Spec
variable {K V : Type} [LinearOrder K]

/-- A stable sort does not change the order of items with equal keys. -/
theorem mergeSort_filter (l : List (K × V)) (k : K) :
    (l.mergeSort (fun a b => decide (a.1 ≤ b.1))).filter (fun e => e.1 = k)
      = l.filter (fun e => e.1 = k) := by
  symm
  have hp : (l.filter (fun e => e.1 = k)).Pairwise (fun a b => decide (a.1 ≤ b.1) = true) := by
    refine List.Pairwise.imp_of_mem ?_ (List.pairwise_of_forall (R := fun _ _ => True) (by simp))
    intro a b ha hb _
    have ha : a.1 = k := by simpa using (List.mem_filter.1 ha).2
    have hb : b.1 = k := by simpa using (List.mem_filter.1 hb).2
    simp [ha, hb]
  have hs := List.sublist_mergeSort (le := fun (a b : K × V) => decide (a.1 ≤ b.1))
    (by intro a b c; simpa using le_trans) (by intro a b; simpa using le_total a.1 b.1)
    hp List.filter_sublist
  have hs2 := hs.filter (fun e => decide (e.1 = k))
  rw [List.filter_filter] at hs2
  simp only [Bool.and_self] at hs2
  refine hs2.eq_of_length ?_
  exact (((List.mergeSort_perm l (fun a b => decide (a.1 ≤ b.1))).filter _).length_eq).symm

theorem lookup_reverse (k : K) (l : List (K × V)) :
    lookup k l.reverse = (l.filter (fun e => e.1 = k)).getLast?.map (·.2) := by
  unfold lookup
  rw [← List.head?_filter, List.filter_reverse, List.head?_reverse]

theorem mergeSort_lookup_reverse (l : List (K × V)) (k : K) :
    lookup k (l.mergeSort (fun a b => decide (a.1 ≤ b.1))).reverse = lookup k l.reverse := by
  rw [lookup_reverse, lookup_reverse, mergeSort_filter]

theorem mergeSort_sorted (l : List (K × V)) :
    (l.mergeSort (fun a b => decide (a.1 ≤ b.1))).Pairwise (fun a b => a.1 ≤ b.1) := by
  have := List.pairwise_mergeSort (le := fun (a b : K × V) => decide (a.1 ≤ b.1))
    (by intro a b c; simpa using le_trans) (by intro a b; simpa using le_total a.1 b.1) l
  simpa using this

end Bpt
