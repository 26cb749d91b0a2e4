import Verif.SetHistory
import Verif.Props.Iterators

/-!
# Sets and their union
-/

namespace Bpt
open Spec
variable {K : Type} [LinearOrder K]

/-- The elements of a list of entries of a set. -/
def elems (l : List (K × Unit)) : Finset K := (l.map (·.1)).toFinset

theorem mem_elems {l : List (K × Unit)} {k : K} : k ∈ elems l ↔ lookup k l = some () := by
  unfold elems
  rw [List.mem_toFinset, List.mem_map]
  constructor
  · rintro ⟨e, he, rfl⟩
    cases h : lookup e.1 l with
    | none => exact absurd rfl (lookup_eq_none.1 h e he)
    | some u => rfl
  · intro h
    exact ⟨_, lookup_mem h, rfl⟩

theorem mem_elems_isSome {l : List (K × Unit)} {k : K} :
    (lookup k l).isSome = decide (k ∈ elems l) := by
  rw [Bool.eq_iff_iff, decide_eq_true_eq, mem_elems]
  cases lookup k l <;> simp

theorem setKeys_sorted {l : List (K × Unit)} (h : Sorted l) : (l.map (·.1)).Pairwise (· < ·) :=
  List.pairwise_map.2 h

theorem ascending_toFinset {l : List K} (h : l.Pairwise (· < ·)) :
    ascending l.toFinset = l := by
  have hn : l.Nodup := h.imp (fun h => h.ne)
  exact (List.toFinset_sort (· ≤ ·) hn).2 (h.imp (fun h => h.le))

theorem ascending_elems {l : List (K × Unit)} (h : Sorted l) : ascending (elems l) = l.map (·.1) :=
  ascending_toFinset (setKeys_sorted h)

theorem card_elems {l : List (K × Unit)} (h : Sorted l) : (elems l).card = l.length := by
  rw [← Finset.length_sort (· ≤ ·)]
  have := ascending_elems h
  unfold ascending at this
  rw [this, List.length_map]

theorem elems_upsert {l : List (K × Unit)} (k : K) :
    elems (upsert k () l) = insert k (elems l) := by
  ext j
  rw [mem_elems, lookup_upsert, Finset.mem_insert, mem_elems]
  by_cases h : k = j
  · simp [h]
  · simp [h, Ne.symm h]

theorem elems_erase {l : List (K × Unit)} (k : K) :
    elems (Spec.erase k l) = (elems l).erase k := by
  ext j
  rw [mem_elems, lookup_erase, Finset.mem_erase, mem_elems]
  by_cases h : k = j
  · simp [h]
  · simp [h, Ne.symm h]

theorem pull_map {α β : Type} (f : α → β) (l : List α) (d : Dir) :
    pull (l.map f) d = ((pull l d).1.map f, (pull l d).2.map f) := by
  cases d <;> simp [pull, List.map_dropLast]

theorem pulls_map {α β : Type} (f : α → β) (l : List α) (ds : List Dir) :
    (pulls (l.map f) ds).1 = (pulls l ds).1.map (fun p => (p.1.map f, p.2)) := by
  induction ds generalizing l with
  | nil => rfl
  | cons d ds ih =>
    simp only [pulls, pull_map, ih, List.map_cons, List.length_map]

theorem borrowed_pulls_front {V : Type} (l : List (K × V)) (f n : Nat) :
    borrowedSpec l f 0 (List.replicate n .front) = (pulls (l.drop f) (List.replicate n .front)).1 := by
  induction n generalizing f with
  | zero => rfl
  | succ n ih =>
    simp only [List.replicate_succ, borrowedSpec, pulls, pull, List.tail_drop, ih, List.head?_drop,
      List.length_drop]

theorem setCall_ok {μ : Nat} (hμ : μ ≤ 16) {t : TreeSet K} {l : List (K × Unit)} (h : Inv μ t l)
    (hl : t.len + 1 < 2 ^ 64) (c : SetCall K) :
    (∃ t' l', t.call c = .ok ((Spec.setCall (elems l) c).1, t') ∧ Inv μ t' l' ∧
      elems l' = (Spec.setCall (elems l) c).2 ∧ t'.len ≤ t.len + 1) ∨
    (μ = 0 ∧ ∃ k, c = .remove k ∧ t.call c = .error .panic) := by
  have hl' : Tree.len t + 1 < 2 ^ 64 := hl
  have hlen := h.len
  obtain ⟨L, r, e⟩ := h.reads
  have hb : t.len ≤ t.len + 1 := by omega
  cases c with
  | insert k =>
    obtain ⟨t', h1, h2, _⟩ := h.insert hμ hl' k ()
    refine .inl ⟨t', _, ?_, h2, elems_upsert k, ?_⟩
    · simp only [TreeSet.call, TreeSet.insert, h1, ok_bind, pure_ok, Spec.setCall]
      congr 3
      rw [← Option.not_isSome, mem_elems_isSome]
      simp
    · show Tree.len t' ≤ Tree.len t + 1
      rw [h2.len, hlen]
      exact call_length l (.insert k ())
  | remove k =>
    rcases h.remove hμ k with ⟨t', h1, h2, _⟩ | ⟨h0, h1⟩
    · refine .inl ⟨t', _, ?_, h2, elems_erase k, ?_⟩
      · simp only [TreeSet.call, TreeSet.remove, h1, ok_bind, pure_ok, Spec.setCall, mem_elems_isSome]
      · show Tree.len t' ≤ Tree.len t + 1
        rw [h2.len, hlen]
        exact (List.length_filter_le _ _).trans (by omega)
    · refine .inr ⟨h0, k, rfl, ?_⟩
      simp only [TreeSet.call, TreeSet.remove, h1]
      rfl
  | contains k =>
    obtain ⟨t', h1, h2, _⟩ := h.get k
    refine .inl ⟨t', l, ?_, h2, rfl, ?_⟩
    · simp only [TreeSet.call, TreeSet.contains, h1, ok_bind, pure_ok, Spec.setCall, mem_elems_isSome]
    · show Tree.len t' ≤ Tree.len t + 1
      rw [h2.len, hlen]; omega
  | len =>
    refine .inl ⟨t, l, ?_, h, rfl, hb⟩
    simp only [TreeSet.call, pure_ok, Spec.setCall, card_elems h.sorted, TreeSet.len, hlen]
  | isEmpty =>
    refine .inl ⟨t, l, ?_, h, rfl, hb⟩
    simp only [TreeSet.call, pure_ok, Spec.setCall, TreeSet.isEmpty, isEmpty_ok h]
    congr 3
    rw [Bool.eq_iff_iff, List.isEmpty_iff, decide_eq_true_eq, ← Finset.card_eq_zero,
      card_elems h.sorted, List.length_eq_zero_iff]
  | first =>
    refine .inl ⟨t, l, ?_, h, rfl, hb⟩
    simp only [TreeSet.call, TreeSet.first, first_ok r.base, ok_bind, pure_ok, Spec.setCall,
      ascending_elems h.sorted, e, List.head?_map]
  | last =>
    refine .inl ⟨t, l, ?_, h, rfl, hb⟩
    simp only [TreeSet.call, TreeSet.last, last_ok r.base, ok_bind, pure_ok, Spec.setCall,
      ascending_elems h.sorted, e, List.getLast?_map]
  | iter n =>
    refine .inl ⟨t, l, ?_, h, rfl, hb⟩
    obtain ⟨it, h1, _, h2⟩ := iter_runCalls_ok r.base (List.replicate n .front)
    rw [e, borrowed_pulls_front, List.drop_zero] at h2
    simp only [TreeSet.call, TreeSet.iterCalls, h1, h2, ok_bind, pure_ok, Spec.setCall,
      ascending_elems h.sorted, pulls_map]
  | intoIter ds =>
    refine .inl ⟨t, l, ?_, h, rfl, hb⟩
    obtain ⟨it, it', h1, _, h2, _⟩ := intoIter_ok r.base ds
    rw [e] at h2
    simp only [TreeSet.call, TreeSet.intoIterCalls, h1, h2, ok_bind, pure_ok, Spec.setCall,
      ascending_elems h.sorted, pulls_map]
  | clear =>
    exact .inl ⟨_, [], rfl, Inv.new, rfl, Nat.zero_le _⟩

theorem setRun_ok {μ : Nat} (h0 : 0 < μ) (hμ : μ ≤ 16) {t : TreeSet K} {l : List (K × Unit)}
    (h : Inv μ t l) (cs : List (SetCall K)) (hl : t.len + cs.length < 2 ^ 64) :
    ∃ t' l', t.run cs = .ok ((Spec.setRun (elems l) cs).1, t') ∧ Inv μ t' l' ∧
      elems l' = (Spec.setRun (elems l) cs).2 := by
  induction cs generalizing t l with
  | nil => exact ⟨t, l, rfl, h, rfl⟩
  | cons c cs ih =>
    rw [List.length_cons] at hl
    rcases setCall_ok hμ h (by omega) c with ⟨t1, l1, h1, h2, h3, h4⟩ | ⟨h0', _⟩
    · obtain ⟨t2, l2, h5, h6, h7⟩ := ih h2 (by omega)
      rw [h3] at h5 h7
      exact ⟨t2, l2, by simp only [TreeSet.run, h1, h5, ok_bind, pure_ok, Spec.setRun], h6, h7⟩
    · omega

/-! ## Union -/

/-- The pending elements of one side. -/
def pendA (u : Union K) (ra : List (K × Unit)) : List K :=
  match u.peeked with
  | some (.a k) => k :: ra.map (·.1)
  | _ => ra.map (·.1)

/-- The pending elements of the other side. -/
def pendB (u : Union K) (rb : List (K × Unit)) : List K :=
  match u.peeked with
  | some (.b k) => k :: rb.map (·.1)
  | _ => rb.map (·.1)

theorem iterNext_ok {s : TreeSet K} {L} (r : Reads s L) {it : Iter K Unit} {rem : List (K × Unit)}
    (h : FInv L it rem) :
    ∃ it', TreeSet.iterNext s it = .ok (rem.head?.map (·.1), it') ∧ FInv L it' rem.tail := by
  cases rem with
  | nil =>
    refine ⟨it, ?_, h⟩
    simp only [TreeSet.iterNext, iter_next_none (t := s) h.len, ok_bind, pure_ok]
    rfl
  | cons e rem =>
    obtain ⟨it', h1, h2, _⟩ := iter_next_ok r.base h
    exact ⟨it', by simp only [TreeSet.iterNext, h1, ok_bind, pure_ok]; rfl, h2⟩

theorem pairwise_tail {α : Type} {R : α → α → Prop} {x : α} {l : List α} (h : (x :: l).Pairwise R) :
    l.Pairwise R := (List.pairwise_cons.1 h).2

/-- One step: the smallest pending element, or `None` if nothing is pending. -/
theorem union_next_ok {sa sb : TreeSet K} {La Lb} (ra : Reads sa La) (rb : Reads sb Lb)
    {u : Union K} {xa xb : List (K × Unit)} (ha : FInv La u.a xa) (hb : FInv Lb u.b xb)
    (hsa : (pendA u xa).Pairwise (· < ·)) (hsb : (pendB u xb).Pairwise (· < ·)) :
    ∃ u' xa' xb', Union.next sa sb u
        = .ok ((ascending ((pendA u xa).toFinset ∪ (pendB u xb).toFinset)).head?, u') ∧
      FInv La u'.a xa' ∧ FInv Lb u'.b xb' ∧
      (pendA u' xa').Pairwise (· < ·) ∧ (pendB u' xb').Pairwise (· < ·) ∧
      ascending ((pendA u' xa').toFinset ∪ (pendB u' xb').toFinset)
        = (ascending ((pendA u xa).toFinset ∪ (pendB u xb).toFinset)).tail := by
  -- fetching
  have fetch : ∃ ia ib ya yb,
      Union.fetch sa sb u
        = .ok ((pendA u xa).head?, (pendB u xb).head?, ia, ib) ∧
      FInv La ia ya ∧ FInv Lb ib yb ∧ (pendA u xa).tail = ya.map (·.1) ∧
      (pendB u xb).tail = yb.map (·.1) := by
    obtain ⟨ia, h1, h2⟩ := iterNext_ok ra ha
    obtain ⟨ib, h3, h4⟩ := iterNext_ok rb hb
    unfold pendA pendB Union.fetch
    cases hp : u.peeked with
    | none =>
      refine ⟨ia, ib, xa.tail, xb.tail, ?_, h2, h4, by simp, by simp⟩
      simp only [h1, h3, ok_bind, pure_ok, List.head?_map]
    | some p =>
      cases p with
      | a k =>
        refine ⟨u.a, ib, xa, xb.tail, ?_, ha, h4, by simp, by simp⟩
        simp only [h3, ok_bind, pure_ok, List.head?_map, List.head?_cons]
      | b k =>
        refine ⟨ia, u.b, xa.tail, xb, ?_, h2, hb, by simp, by simp⟩
        simp only [h1, ok_bind, pure_ok, List.head?_map, List.head?_cons]
  obtain ⟨ia, ib, ya, yb, hf, fa, fb, ta, tb⟩ := fetch
  unfold Union.next Union.nexts
  rw [hf]
  simp only [ok_bind]
  generalize pendA u xa = A at *
  generalize pendB u xb = B at *
  clear hf
  have sortHead : ∀ (x : K) (s : Finset K), (∀ y ∈ s, x < y) → ascending (insert x s) = x :: ascending s := by
    intro x s h
    exact Finset.sort_insert (· ≤ ·) (fun y hy => (h y hy).le) (fun hx => lt_irrefl _ (h x hx))
  cases A with
  | nil =>
    cases B with
    | nil =>
      simp only [List.head?_nil, pure_ok]
      have e : ascending (([] : List K).toFinset ∪ ([] : List K).toFinset) = [] := by simp [ascending]
      refine ⟨⟨ia, ib, none⟩, ya, yb, by rw [e]; rfl, fa, fb, ?_, ?_, ?_⟩ <;>
        simp only [List.tail_nil] at ta tb <;> simp [pendA, pendB, ← ta, ← tb, ascending]
    | cons b B =>
      simp only [List.head?_nil, List.head?_cons, pure_ok, List.tail_nil, List.tail_cons] at ta tb ⊢
      rw [List.pairwise_cons] at hsb
      have e : ascending (([] : List K).toFinset ∪ (b :: B).toFinset) = b :: ascending B.toFinset := by
        rw [List.toFinset_nil, Finset.empty_union, List.toFinset_cons]
        exact sortHead _ _ (fun y hy => hsb.1 y (List.mem_toFinset.1 hy))
      refine ⟨_, ya, yb, by rw [e]; rfl, fa, fb, ?_, ?_, ?_⟩
      · simp [pendA, ← ta]
      · simpa [pendB, ← tb] using hsb.2
      · rw [e]; simp [pendA, pendB, ← ta, ← tb]
  | cons a A =>
    rw [List.pairwise_cons] at hsa
    cases B with
    | nil =>
      simp only [List.head?_nil, List.head?_cons, pure_ok, List.tail_nil, List.tail_cons] at ta tb ⊢
      have e : ascending ((a :: A).toFinset ∪ ([] : List K).toFinset) = a :: ascending A.toFinset := by
        rw [List.toFinset_nil, Finset.union_empty, List.toFinset_cons]
        exact sortHead _ _ (fun y hy => hsa.1 y (List.mem_toFinset.1 hy))
      refine ⟨_, ya, yb, by rw [e]; rfl, fa, fb, ?_, ?_, ?_⟩
      · simpa [pendA, ← ta] using hsa.2
      · simp [pendB, ← tb]
      · rw [e]; simp [pendA, pendB, ← ta, ← tb]
    | cons b B =>
      simp only [List.head?_cons, pure_ok, List.tail_cons] at ta tb ⊢
      have hsb' := hsb
      have hsa' : (a :: A).Pairwise (· < ·) := List.pairwise_cons.2 hsa
      rw [List.pairwise_cons] at hsb
      rcases lt_trichotomy a b with hlt | rfl | hgt
      · have e : ascending ((a :: A).toFinset ∪ (b :: B).toFinset)
            = a :: ascending (A.toFinset ∪ (b :: B).toFinset) := by
          rw [List.toFinset_cons, Finset.insert_union]
          refine sortHead _ _ ?_
          intro y hy
          rcases Finset.mem_union.1 hy with hy | hy
          · exact hsa.1 y (List.mem_toFinset.1 hy)
          · rcases List.mem_cons.1 (List.mem_toFinset.1 hy) with rfl | hy
            · exact hlt
            · exact hlt.trans (hsb.1 y hy)
        rw [if_pos hlt]
        refine ⟨_, ya, yb, by rw [e]; rfl, fa, fb, ?_, ?_, ?_⟩
        · simpa [pendA, ← ta] using hsa.2
        · simpa [pendB, ← tb] using hsb'
        · rw [e]; simp [pendA, pendB, ← ta, ← tb]
      · have e : ascending ((a :: A).toFinset ∪ (a :: B).toFinset)
            = a :: ascending (A.toFinset ∪ B.toFinset) := by
          rw [List.toFinset_cons, List.toFinset_cons, Finset.insert_union, Finset.union_insert,
            Finset.insert_idem]
          refine sortHead _ _ ?_
          intro y hy
          rcases Finset.mem_union.1 hy with hy | hy
          · exact hsa.1 y (List.mem_toFinset.1 hy)
          · exact hsb.1 y (List.mem_toFinset.1 hy)
        rw [if_neg (lt_irrefl _), if_neg (lt_irrefl _)]
        refine ⟨_, ya, yb, by rw [e]; rfl, fa, fb, ?_, ?_, ?_⟩
        · simpa [pendA, ← ta] using hsa.2
        · simpa [pendB, ← tb] using hsb.2
        · rw [e]; simp [pendA, pendB, ← ta, ← tb]
      · have e : ascending ((a :: A).toFinset ∪ (b :: B).toFinset)
            = b :: ascending ((a :: A).toFinset ∪ B.toFinset) := by
          rw [List.toFinset_cons (a := b), Finset.union_insert]
          refine sortHead _ _ ?_
          intro y hy
          rcases Finset.mem_union.1 hy with hy | hy
          · rcases List.mem_cons.1 (List.mem_toFinset.1 hy) with rfl | hy
            · exact hgt
            · exact hgt.trans (hsa.1 y hy)
          · exact hsb.1 y (List.mem_toFinset.1 hy)
        rw [if_neg hgt.not_gt, if_pos hgt]
        refine ⟨_, ya, yb, by rw [e]; rfl, fa, fb, ?_, ?_, ?_⟩
        · simpa [pendA, ← ta] using hsa'
        · simpa [pendB, ← tb] using hsb.2
        · rw [e]; simp [pendA, pendB, ← ta, ← tb]

theorem union_hint {La Lb : List (Nat × List (K × Unit))} {u : Union K} {xa xb : List (K × Unit)}
    (ha : FInv La u.a xa) (hb : FInv Lb u.b xb)
    (hsa : (pendA u xa).Pairwise (· < ·)) (hsb : (pendB u xb).Pairwise (· < ·)) :
    u.sizeHint.1 ≤ (ascending ((pendA u xa).toFinset ∪ (pendB u xb).toFinset)).length ∧
    (ascending ((pendA u xa).toFinset ∪ (pendB u xb).toFinset)).length ≤ u.sizeHint.2 := by
  have hl : u.lens = ((pendA u xa).length, (pendB u xb).length) := by
    unfold Union.lens pendA pendB Iter.sizeHint
    rw [ha.len, hb.len]
    cases u.peeked with
    | none => simp
    | some p => cases p <;> simp <;> omega
  unfold Union.sizeHint
  rw [hl]
  simp only [ascending, Finset.length_sort]
  have ca : (pendA u xa).toFinset.card = (pendA u xa).length :=
    List.toFinset_card_of_nodup (hsa.imp (fun h => h.ne))
  have cb : (pendB u xb).toFinset.card = (pendB u xb).length :=
    List.toFinset_card_of_nodup (hsb.imp (fun h => h.ne))
  have h1 := Finset.card_le_card (Finset.subset_union_left (s₁ := (pendA u xa).toFinset)
    (s₂ := (pendB u xb).toFinset))
  have h2 := Finset.card_le_card (Finset.subset_union_right (s₁ := (pendA u xa).toFinset)
    (s₂ := (pendB u xb).toFinset))
  have h3 := Finset.card_union_le (pendA u xa).toFinset (pendB u xb).toFinset
  omega

theorem union_run_ok {sa sb : TreeSet K} {La Lb} (ra : Reads sa La) (rb : Reads sb Lb) (n : Nat)
    {u : Union K} {xa xb : List (K × Unit)} (ha : FInv La u.a xa) (hb : FInv Lb u.b xb)
    (hsa : (pendA u xa).Pairwise (· < ·)) (hsb : (pendB u xb).Pairwise (· < ·)) :
    ∃ rs, Union.runNext sa sb n u = .ok rs ∧
      rs.map (·.1) = (pulls (ascending ((pendA u xa).toFinset ∪ (pendB u xb).toFinset))
        (List.replicate n .front)).1.map (·.1) ∧
      ∀ i (p : Option K × Nat × Nat), rs[i]? = some p →
        p.2.1 ≤ (ascending ((pendA u xa).toFinset ∪ (pendB u xb).toFinset)).length - i ∧
        (ascending ((pendA u xa).toFinset ∪ (pendB u xb).toFinset)).length - i ≤ p.2.2 := by
  induction n generalizing u xa xb with
  | zero => exact ⟨[], rfl, rfl, by simp⟩
  | succ n ih =>
    obtain ⟨u', xa', xb', h1, ha', hb', hsa', hsb', ht⟩ := union_next_ok ra rb ha hb hsa hsb
    obtain ⟨rs, h2, h3, h4⟩ := ih ha' hb' hsa' hsb'
    refine ⟨_, by simp only [Union.runNext, h1, h2, ok_bind, pure_ok]; rfl, ?_, ?_⟩
    · simp only [List.replicate_succ, pulls, pull, List.map_cons, h3, ht]
    · intro i p hp
      cases i with
      | zero =>
        simp only [List.getElem?_cons_zero, Option.some.injEq] at hp
        subst hp
        exact union_hint ha hb hsa hsb
      | succ i =>
        rw [List.getElem?_cons_succ] at hp
        have := h4 i p hp
        rw [ht, List.length_tail] at this
        omega

theorem union_advance_ok {sa sb : TreeSet K} {La Lb} (ra : Reads sa La) (rb : Reads sb Lb) (n : Nat)
    {u : Union K} {xa xb : List (K × Unit)} (ha : FInv La u.a xa) (hb : FInv Lb u.b xb)
    (hsa : (pendA u xa).Pairwise (· < ·)) (hsb : (pendB u xb).Pairwise (· < ·)) :
    ∃ u' xa' xb', Union.advance sa sb n u = .ok u' ∧
      FInv La u'.a xa' ∧ FInv Lb u'.b xb' ∧
      (pendA u' xa').Pairwise (· < ·) ∧ (pendB u' xb').Pairwise (· < ·) ∧
      ascending ((pendA u' xa').toFinset ∪ (pendB u' xb').toFinset)
        = (ascending ((pendA u xa).toFinset ∪ (pendB u xb).toFinset)).drop n := by
  induction n generalizing u xa xb with
  | zero => exact ⟨u, xa, xb, rfl, ha, hb, hsa, hsb, rfl⟩
  | succ n ih =>
    obtain ⟨u', xa', xb', h1, ha', hb', hsa', hsb', ht⟩ := union_next_ok ra rb ha hb hsa hsb
    obtain ⟨u'', ya, yb, h2, fa, fb, ga, gb, h3⟩ := ih ha' hb' hsa' hsb'
    refine ⟨u'', ya, yb, by rw [Union.advance, h1, ok_bind]; exact h2, fa, fb, ga, gb, ?_⟩
    rw [h3, ht, List.drop_tail]

theorem pulls_front {α : Type} (l : List α) (n : Nat) :
    (pulls l (List.replicate n .front)).1.map (·.1) = (List.range n).map (fun i => l[i]?) := by
  induction n generalizing l with
  | zero => rfl
  | succ n ih =>
    rw [List.range_succ_eq_map, List.map_cons, List.map_map]
    simp only [List.replicate_succ, pulls, pull, List.map_cons, ih, List.head?_eq_getElem?]
    congr 1
    refine List.map_congr_left ?_
    intro i _
    simp

end Bpt
