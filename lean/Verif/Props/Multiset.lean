import Verif.Props.Augmentations
import Mathlib.Data.List.Sort

/-!
# examples/duplicate_key.rs: a multiset with order statistics (C42)

The specification of the multiset is the sorted list of its elements with repetitions.
-/

namespace Bpt
open Spec
variable {K : Type} [LinearOrder K]

/-- The two operations of examples/duplicate_key.rs. -/
inductive DupCall (K : Type) where
  | insert (k : K)
  | delete (k : K)

/-- The operations on the sorted list of elements with repetitions; deleting an absent element is not
allowed. -/
def Spec.dupRun : List K → List (DupCall K) → Option (List K)
  | m, [] => some m
  | m, .insert k :: cs => Spec.dupRun (m.orderedInsert (· ≤ ·) k) cs
  | m, .delete k :: cs => if k ∈ m then Spec.dupRun (m.erase k) cs else none

/-- The operations of the example, in sequence. -/
def dupRun (t : Tree K Nat DupCount) : List (DupCall K) → Res (Tree K Nat DupCount)
  | [] => return t
  | .insert k :: cs => do
    let t ← dupInsert t k
    dupRun t cs
  | .delete k :: cs => do
    let t ← dupDelete t k
    dupRun t cs

/-- Elements with repetitions. -/
def expand (l : List (K × Nat)) : List K := l.flatMap (fun e => List.replicate e.2 e.1)

theorem count_expand {l : List (K × Nat)} (hs : Sorted l) (k : K) :
    (expand l).count k = (lookup k l).getD 0 := by
  induction l with
  | nil => rfl
  | cons e l ih =>
    unfold Sorted at hs
    rw [List.pairwise_cons] at hs
    simp only [expand, List.flatMap_cons, List.count_append]
    have ih := ih hs.2
    simp only [expand] at ih
    rw [ih, lookup_cons, List.count_replicate]
    by_cases hk : e.1 = k
    · have : lookup k l = none := by
        rw [lookup_eq_none]
        intro x hx
        have := hs.1 x hx
        rw [hk] at this
        exact this.ne'
      simp [hk, this]
    · simp [hk]

theorem expand_sorted {l : List (K × Nat)} (hs : Sorted l) : (expand l).Pairwise (· ≤ ·) := by
  induction l with
  | nil => exact List.Pairwise.nil
  | cons e l ih =>
    unfold Sorted at hs
    rw [List.pairwise_cons] at hs
    simp only [expand, List.flatMap_cons]
    rw [List.pairwise_append]
    refine ⟨?_, ih hs.2, ?_⟩
    · exact List.pairwise_replicate.2 (.inr le_rfl)
    · intro a ha b hb
      rw [List.mem_flatMap] at hb
      obtain ⟨x, hx, hb⟩ := hb
      rw [List.eq_of_mem_replicate ha, List.eq_of_mem_replicate hb]
      exact (hs.1 x hx).le

theorem sorted_count_ext {a b : List K} (ha : a.Pairwise (· ≤ ·)) (hb : b.Pairwise (· ≤ ·))
    (h : ∀ k, a.count k = b.count k) : a = b :=
  (List.perm_iff_count.2 h).eq_of_pairwise (fun _ _ _ _ h1 h2 => le_antisymm h1 h2) ha hb

theorem expand_upsert {l : List (K × Nat)} (hs : Sorted l) (k : K) :
    expand (upsert k ((lookup k l).getD 0 + 1) l) = (expand l).orderedInsert (· ≤ ·) k := by
  refine sorted_count_ext (expand_sorted (upsert_sorted hs))
    ((expand_sorted hs).orderedInsert k _) ?_
  intro j
  rw [count_expand (upsert_sorted hs), lookup_upsert,
    (List.perm_orderedInsert (· ≤ ·) k (expand l)).count_eq, List.count_cons, count_expand hs]
  by_cases h : k = j
  · subst h; simp
  · simp [h]

theorem expand_decrement {l : List (K × Nat)} (hs : Sorted l) (k : K)
    (hk : 2 ≤ (lookup k l).getD 0) :
    expand (upsert k ((lookup k l).getD 0 - 1) l) = (expand l).erase k := by
  refine sorted_count_ext (expand_sorted (upsert_sorted hs)) ((expand_sorted hs).erase k) ?_
  intro j
  rw [count_expand (upsert_sorted hs), lookup_upsert, List.count_erase, count_expand hs]
  by_cases h : k = j
  · subst h; simp
  · simp [h]

theorem expand_erase {l : List (K × Nat)} (hs : Sorted l) (k : K)
    (hk : (lookup k l).getD 0 = 1) :
    expand (Spec.erase k l) = (expand l).erase k := by
  refine sorted_count_ext (expand_sorted (erase_sorted hs)) ((expand_sorted hs).erase k) ?_
  intro j
  rw [count_expand (erase_sorted hs), lookup_erase, List.count_erase, count_expand hs]
  by_cases h : k = j
  · subst h; simp [hk]
  · simp [h]

theorem wfind_expand (l : List (K × Nat)) (q : Nat) :
    ((wfind (·.2) l q).bind (fun n => l[n]?)).map (·.1) = (expand l)[q]? := by
  induction l generalizing q with
  | nil => simp [wfind, expand]
  | cons e l ih =>
    have step : ∀ o : Option Nat, (o.map (· + 1)).bind (fun n => (e :: l)[n]?)
        = o.bind (fun n => l[n]?) := by
      intro o; cases o <;> simp
    simp only [wfind, expand, List.flatMap_cons]
    by_cases h : q < e.2
    · rw [if_pos h, List.getElem?_append_left (by simpa using h)]
      simp [h]
    · rw [if_neg h, step, ih, List.getElem?_append_right (by simp; omega)]
      simp [expand]

theorem expand_length (l : List (K × Nat)) : (expand l).length = (l.map (·.2)).sum := by
  induction l with
  | nil => rfl
  | cons e l ih =>
    simp only [expand, List.flatMap_cons, List.length_append, List.length_replicate, List.map_cons,
      List.sum_cons]
    rw [← ih]; rfl

theorem dupRun_ok (cs : List (DupCall K)) {t : Tree K Nat DupCount} {l : List (K × Nat)}
    (hr : ReachableNoMut t) (hi : Inv 16 t l) (hn : t.len + cs.length < 2 ^ 64) {m : List K}
    (hm : Spec.dupRun (expand l) cs = some m) :
    ∃ t' l', dupRun t cs = .ok t' ∧ ReachableNoMut t' ∧ Inv 16 t' l' ∧ expand l' = m := by
  induction cs generalizing t l with
  | nil =>
    simp only [Spec.dupRun, Option.some.injEq] at hm
    exact ⟨t, l, rfl, hr, hi, hm⟩
  | cons c cs ih =>
    rw [List.length_cons] at hn
    cases c with
    | insert k =>
      obtain ⟨t1, h1, h2, _⟩ := hi.get k
      have e1 : t1.len = t.len := by rw [h2.len, hi.len]
      obtain ⟨t2, h3, h4, _⟩ := h2.insert (by omega) (by omega) k ((lookup k l).getD 0 + 1)
      have r2 : ReachableNoMut t2 := .insert (.get hr h1) (by omega) h3
      have e2 : t2.len ≤ t.len + 1 := by
        rw [h4.len, hi.len]
        exact call_length l (.insert k ((lookup k l).getD 0 + 1))
      simp only [Spec.dupRun] at hm
      rw [← expand_upsert hi.sorted] at hm
      obtain ⟨t', l', h5, h6⟩ := ih r2 h4 (by omega) hm
      refine ⟨t', l', ?_, h6⟩
      simp only [dupRun, dupInsert, h1, h3, ok_bind, pure_ok, h5]
    | delete k =>
      simp only [Spec.dupRun] at hm
      split at hm
      · rename_i hk
        have hc := List.count_pos_iff.2 hk
        rw [count_expand hi.sorted] at hc
        obtain ⟨t1, h1, h2, _⟩ := hi.get k
        have e1 : t1.len = t.len := by rw [h2.len, hi.len]
        by_cases h1' : (lookup k l).getD 0 = 1
        · rcases h2.remove (by omega) k with ⟨t2, h3, h4, _⟩ | ⟨h0, _⟩
          · have r2 : ReachableNoMut t2 := .remove (.get hr h1) h3
            have e2 : t2.len ≤ t.len := by
              rw [h4.len, hi.len]
              exact List.length_filter_le _ _
            rw [← expand_erase hi.sorted k h1'] at hm
            obtain ⟨t', l', h5, h6⟩ := ih r2 h4 (by omega) hm
            refine ⟨t', l', ?_, h6⟩
            simp only [dupRun, dupDelete, h1, h1', h3, ok_bind, pure_ok, h5, if_true]
          · omega
        · obtain ⟨t2, h3, h4, _⟩ := h2.insert (by omega) (by omega) k ((lookup k l).getD 0 - 1)
          have r2 : ReachableNoMut t2 := .insert (.get hr h1) (by omega) h3
          have e2 : t2.len ≤ t.len + 1 := by
            rw [h4.len, hi.len]
            exact call_length l (.insert k ((lookup k l).getD 0 - 1))
          rw [← expand_decrement hi.sorted k (by omega)] at hm
          obtain ⟨t', l', h5, h6⟩ := ih r2 h4 (by omega) hm
          refine ⟨t', l', ?_, h6⟩
          simp only [dupRun, dupDelete, h1, h3, ok_bind, pure_ok, h5, if_neg h1',
            if_neg (show ¬ (lookup k l).getD 0 = 0 by omega)]
      · cases hm

/-- **C42.** After any sequence of the example's insertions and (allowed) deletions, starting from an
empty tree, the root holds the number of elements with repetitions and searching for `q` finds the
`q`-th smallest element, counted with repetitions. -/
theorem C42_duplicate_key (cs : List (DupCall K)) (hn : cs.length < 2 ^ 64) {m : List K}
    (hm : Spec.dupRun [] cs = some m) :
    ∃ t, dupRun (Tree.new : Tree K Nat DupCount) cs = .ok t ∧ t.rootAug.val = m.length ∧
      ∀ q : Nat, (t.getByAugmentation q).map (·.map (·.1)) = .ok m[q]? := by
  obtain ⟨t, l, h1, h2, h3, rfl⟩ := dupRun_ok cs (t := Tree.new) (l := [])
    (.start rfl (by show 0 < _; omega)) Inv.new (by show 0 + _ < _; omega) hm
  obtain ⟨l', hi⟩ := h2.invA
  cases hi.inv.unique h3.shows
  refine ⟨t, h1, ?_, ?_⟩
  · rw [hi.rootVal DupCount.weighted rfl, expand_length]
  · intro q
    rw [hi.getBy DupCount.weighted DupCount.weightedSearch]
    exact congrArg Except.ok (wfind_expand l q)

example : Spec.dupRun [] [.insert 3, .insert 1, .insert 3, .insert 2, .delete 1, .insert 3, .delete 3]
    = some [2, 3, 3] := by decide

/-- Deleting an absent element underflows in the example, as the specification excludes. -/
example : (dupDelete (Tree.new : Tree Nat Nat DupCount) 1) = .error .panic := by decide

example := C42_duplicate_key [.insert 3, .insert 1, .insert 3, .insert 2, .delete 1, .insert 3, .delete 3]
  (by decide) (m := [2, 3, 3]) (by decide)

end Bpt
