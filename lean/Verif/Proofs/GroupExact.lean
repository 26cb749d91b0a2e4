import Verif.Proofs.GroupTree
import Verif.Proofs.Structure
import Verif.GroupSpec

/-!
# `GroupCount`: the exact answers

The summary of a leaf is the right summary of another list: the groups of the leaf with some copies of the
last group added (`inflate`). So all summaries are right for the inflated leaves.
-/

namespace Bpt
open Bpt.Spec

section Lists
variable {G : Type} [LinearOrder G]

/-- `surplus` on groups. -/
def surp (p : List G) (g : G) : Nat :=
  match p with
  | [] => 0
  | a :: _ => (p.filter (fun x => a < x ∧ x < g)).length - (p.filter (fun x => a < x ∧ x < g)).toFinset.card

/-- The leaf with the surplus added to its last group. -/
def inflate (p : List G) : List G :=
  match p.getLast? with
  | none => []
  | some b => p ++ List.replicate (surp p b) b

theorem inflate_nil : inflate ([] : List G) = [] := rfl

theorem inflate_of_last {p : List G} {b : G} (h : p.getLast? = some b) :
    inflate p = p ++ List.replicate (surp p b) b := by
  simp [inflate, h]

theorem mem_inflate {p : List G} {x : G} : x ∈ inflate p ↔ x ∈ p := by
  cases h : p.getLast? with
  | none =>
    have : p = [] := by simpa using h
    subst this; rfl
  | some b =>
    rw [inflate_of_last h, List.mem_append]
    constructor
    · rintro (h1 | h1)
      · exact h1
      · rw [List.eq_of_mem_replicate h1]; exact getLast?_mem h
    · exact .inl

theorem inflate_asc {p : List G} (hs : Asc p) : Asc (inflate p) := by
  cases h : p.getLast? with
  | none =>
    have : p = [] := by simpa using h
    subst this; exact .nil
  | some b =>
    rw [inflate_of_last h]
    refine List.pairwise_append.2 ⟨hs, List.pairwise_replicate.2 (.inr le_rfl), ?_⟩
    intro x hx y hy
    rw [List.eq_of_mem_replicate hy]
    exact hs.le_last h hx

theorem inflate_eq_nil {p : List G} : inflate p = [] ↔ p = [] := by
  constructor
  · intro h
    rw [List.eq_nil_iff_forall_not_mem] at h ⊢
    exact fun x hx => h x (mem_inflate.2 hx)
  · rintro rfl; rfl

theorem inflate_last {p : List G} : (inflate p).getLast? = p.getLast? := by
  cases h : p.getLast? with
  | none =>
    have : p = [] := by simpa using h
    subst this; rfl
  | some b =>
    rw [inflate_of_last h, List.getLast?_append, List.getLast?_replicate, h]
    split <;> rfl

theorem inflate_head {p : List G} : (inflate p).head? = p.head? := by
  cases h : p.getLast? with
  | none =>
    have : p = [] := by simpa using h
    subst this; rfl
  | some b =>
    rw [inflate_of_last h]
    cases p with
    | nil => simp at h
    | cons => rfl

theorem count_inflate {p : List G} (g : G) :
    (inflate p).count g = p.count g + if p.getLast? = some g then surp p g else 0 := by
  cases h : p.getLast? with
  | none =>
    have : p = [] := by simpa using h
    subst this; simp [inflate_nil]
  | some b =>
    rw [inflate_of_last h, List.count_append, List.count_replicate]
    by_cases e : b = g
    · subst e; simp
    · simp [e]

theorem surp_head {p : List G} {g : G} (h : p.head? = some g) : surp p g = 0 := by
  cases p with
  | nil => rfl
  | cons a p =>
    simp at h; subst h
    have : (a :: p).filter (fun x => a < x ∧ x < a) = [] := by
      rw [List.filter_eq_nil_iff]
      intro x _
      simp only [decide_eq_true_eq, not_and, not_lt]
      exact fun h => h.le
    simp only [surp, this]
    rfl

/-- A list between its smallest and largest member. -/
theorem length_mid {p : List G} (hs : Asc p) {a b : G} (hab : a < b) (ha : p.head? = some a)
    (hb : p.getLast? = some b) :
    p.length = p.count a + (p.filter (fun x => a < x ∧ x < b)).length + p.count b ∧
      p.toFinset.card = (p.filter (fun x => a < x ∧ x < b)).toFinset.card + 2 := by
  have hall : ∀ x ∈ p, a ≤ x ∧ x ≤ b := fun x hx => ⟨hs.head_le ha hx, hs.le_last hb hx⟩
  constructor
  · clear ha hb hs
    induction p with
    | nil => rfl
    | cons x p ih =>
      have ih := ih (fun x hx => hall x (by simp [hx]))
      obtain ⟨h1, h2⟩ := hall x (by simp)
      rw [List.length_cons, ih, List.count_cons, List.count_cons, List.filter_cons]
      by_cases e1 : x = a
      · subst e1
        simp [hab.ne]; omega
      · by_cases e2 : x = b
        · subst e2
          simp [hab.ne', e1]; omega
        · have : a < x ∧ x < b := ⟨lt_of_le_of_ne h1 (Ne.symm e1), lt_of_le_of_ne h2 e2⟩
          simp [this, e1, e2]; omega
  · have e : p.toFinset = insert a (insert b (p.filter (fun x => a < x ∧ x < b)).toFinset) := by
      ext x
      simp only [List.mem_toFinset, Finset.mem_insert, List.mem_filter, decide_eq_true_eq]
      constructor
      · intro hx
        obtain ⟨h1, h2⟩ := hall x hx
        by_cases e1 : x = a
        · exact .inl e1
        · by_cases e2 : x = b
          · exact .inr (.inl e2)
          · exact .inr (.inr ⟨hx, lt_of_le_of_ne h1 (Ne.symm e1), lt_of_le_of_ne h2 e2⟩)
      · rintro (rfl | rfl | h)
        · exact head?_mem ha
        · exact getLast?_mem hb
        · exact h.1
    rw [e, Finset.card_insert_of_notMem, Finset.card_insert_of_notMem]
    · simp
    · simp [hab.ne]

theorem toFinset_card_le (l : List G) : l.toFinset.card ≤ l.length := l.toFinset_card_le

theorem inflate_toFinset {p : List G} : (inflate p).toFinset = p.toFinset := by
  ext x; simp [mem_inflate]

theorem Summary.inflate_leaf {gs : List G} (hs : Asc gs) :
    Summary True (GroupCount.scanLeaf gs) (inflate gs) := by
  cases gs with
  | nil => rfl
  | cons g0 gs =>
    have hi := scan_inv g0 gs hs
    simp only [GroupCount.scanLeaf]
    generalize gs.foldl GroupCount.leafScanStep ⟨g0, true, 1, 1, 1⟩ = st at hi
    obtain ⟨i1, i2, i3, i4, i4', i5, i6⟩ := hi
    cases hin : st.inFirst with
    | true =>
      obtain ⟨j1, j2, j3⟩ := i4 hin
      rw [if_pos j2, j3]
      refine ⟨by omega, ?_⟩
      have : surp (g0 :: gs) g0 = 0 := surp_head rfl
      rw [j1] at i1
      rw [inflate_of_last i1, this, List.replicate_zero, List.append_nil, List.eq_replicate_iff]
      exact ⟨rfl, fun x hx => le_antisymm (hs.le_last i1 hx) (hs.head_le rfl hx)⟩
    | false =>
      obtain ⟨j1, j2⟩ := i5 hin
      have hne : st.last ≠ g0 := fun h => by rw [i4'.2 h] at hin; simp at hin
      rw [if_neg (by omega)]
      have hlt : g0 < st.last := lt_of_le_of_ne (hs.head_le rfl (getLast?_mem i1)) (Ne.symm hne)
      obtain ⟨c1, c2⟩ := length_mid hs hlt rfl i1
      have c3 := toFinset_card_le ((g0 :: gs).filter (fun x => g0 < x ∧ x < st.last))
      have hcnt : List.count st.last (inflate (g0 :: gs)) = st.lastCount := by
        rw [count_inflate, if_pos i1]
        simp only [surp]
        rw [List.length_cons] at c1
        omega
      refine ⟨hlt, by rw [inflate_head]; rfl, by rw [inflate_last]; exact i1, ?_, hcnt.le,
        fun _ => hcnt, by rw [inflate_toFinset]; exact i2.symm⟩
      rw [count_inflate, if_neg (by rw [i1]; simpa using hne)]
      exact i3.symm

/-- All leaves inflated. -/
abbrev inflAll (ls : List (List G)) : List G := ls.flatMap inflate

theorem inflAll_asc {ls : List (List G)} (hs : Asc ls.flatten) : Asc (inflAll ls) := by
  rw [← List.flatMap_id, Asc, List.pairwise_flatMap] at hs
  rw [Asc, List.pairwise_flatMap]
  refine ⟨fun p hp => inflate_asc (hs.1 p hp), hs.2.imp ?_⟩
  intro p q h x hx y hy
  exact h x (mem_inflate.1 hx) y (mem_inflate.1 hy)

theorem mem_inflAll {ls : List (List G)} {x : G} : x ∈ inflAll ls ↔ x ∈ ls.flatten := by
  simp [mem_inflate, List.mem_flatten]

/-! ### Search -/

/-- What the search finds: it counts inflated leaves, but looks into the real one. -/
def pick (g : G) : Nat → List (List G) → Option Nat
  | _, [] => none
  | o, p :: ps =>
    if o < (inflate p).count g then wfind (inGroup g) p o
    else (pick g (o - (inflate p).count g) ps).map (p.length + ·)

theorem pick_none {g : G} {o : Nat} {ls : List (List G)} (h : (inflAll ls).count g ≤ o) :
    pick g o ls = none := by
  induction ls generalizing o with
  | nil => rfl
  | cons p ps ih =>
    rw [inflAll, List.flatMap_cons, List.count_append] at h
    rw [pick, if_neg (by omega), ih (by show List.count g (ps.flatMap inflate) ≤ _; omega)]
    rfl

theorem pick_append (g : G) (o : Nat) (l1 l2 : List (List G)) :
    pick g o (l1 ++ l2) = if o < (inflAll l1).count g then pick g o l1
      else (pick g (o - (inflAll l1).count g) l2).map (l1.flatten.length + ·) := by
  induction l1 generalizing o with
  | nil => simp
  | cons p ps ih =>
    rw [List.cons_append, pick, pick, inflAll, List.flatMap_cons, List.count_append]
    by_cases h1 : o < (inflate p).count g
    · rw [if_pos h1, if_pos h1, if_pos (by omega)]
    · rw [if_neg h1, if_neg h1, ih]
      by_cases h2 : o - (inflate p).count g < (inflAll ps).count g
      · rw [if_pos h2, if_pos]
        have : (inflAll ps).count g = (ps.flatMap inflate).count g := rfl
        omega
      · rw [if_neg h2, if_neg, Option.map_map]
        · have : (inflAll ps).count g = (ps.flatMap inflate).count g := rfl
          rw [this, Nat.sub_sub]
          congr 1
          funext n
          simp only [Function.comp, List.flatten_cons, List.length_append]
          omega
        · have : (inflAll ps).count g = (ps.flatMap inflate).count g := rfl
          omega

/-- Where the search goes, when the summaries are right. -/
theorem locateInnerLoop_ix {g : G} {o : Nat} {idx : Nat} {as : List (GroupCount G)}
    {ps : List (List G)} (h : List.Forall₂ (Summary True) as ps) (hs : Asc ps.flatten) :
    match GroupCount.locateInnerLoop g idx o as with
    | none => ps.flatten.count g ≤ o
    | some (i, q) => q.1 = g ∧ idx ≤ i ∧ ∃ a p b, ps = a ++ p :: b ∧ a.length = i - idx ∧
        o = a.flatten.count g + q.2 ∧ (q.2 < p.count g ∨ b.flatten.count g = 0) := by
  induction h generalizing idx o with
  | nil => exact Nat.zero_le _
  | @cons a p as ps h1 h2 ih =>
    rw [List.flatten_cons] at hs
    have skip : p.count g ≤ o →
        match GroupCount.locateInnerLoop g (idx + 1) (o - p.count g) as with
        | none => (p :: ps).flatten.count g ≤ o
        | some (i, q) => q.1 = g ∧ idx ≤ i ∧ ∃ a p' b, p :: ps = a ++ p' :: b ∧ a.length = i - idx ∧
            o = a.flatten.count g + q.2 ∧ (q.2 < p'.count g ∨ b.flatten.count g = 0) := by
      intro ho
      have := ih (idx := idx + 1) (o := o - p.count g) hs.right
      cases hl : GroupCount.locateInnerLoop g (idx + 1) (o - p.count g) as with
      | none =>
        rw [hl] at this
        simp only [List.flatten_cons, List.count_append] at this ⊢
        omega
      | some r =>
        obtain ⟨i, q⟩ := r
        rw [hl] at this
        obtain ⟨c1, c2, a', p', b', c3, c4, c5, c6⟩ := this
        refine ⟨c1, by omega, p :: a', p', b', by rw [c3]; rfl, by simp; omega, ?_, c6⟩
        rw [List.flatten_cons, List.count_append]
        omega
    have choose : o < p.count g ∨ ps.flatten.count g = 0 →
        True ∧ idx ≤ idx ∧ ∃ a p' b, p :: ps = a ++ p' :: b ∧ a.length = idx - idx ∧
          o = a.flatten.count g + o ∧ (o < p'.count g ∨ b.flatten.count g = 0) := by
      intro ho
      exact ⟨trivial, le_rfl, [], p, ps, rfl, by simp, by simp, ho⟩
    cases a with
    | zero =>
      simp only [Summary] at h1; subst h1
      simp only [GroupCount.locateInnerLoop]
      simpa using skip (by simp)
    | one g' c =>
      obtain ⟨hc, rfl⟩ := h1
      simp only [GroupCount.locateInnerLoop]
      by_cases e1 : g' < g
      · simp only [if_pos e1]
        have : (List.replicate c g').count g = 0 := by rw [List.count_replicate]; simp [e1.ne]
        rw [this] at skip
        simpa using skip (by omega)
      · simp only [if_neg e1]
        by_cases e2 : g' = g
        · subst e2
          rw [List.count_replicate_self] at skip choose
          simp only [if_true]
          by_cases e3 : o < c
          · simp only [if_pos e3]
            exact choose (.inl e3)
          · simp only [if_neg e3]
            exact skip (by omega)
        · simp only [if_neg e2]
          rw [List.flatten_cons, count_zero_of_gt]
          · omega
          · intro y hy
            have hlt : g < g' := lt_of_le_of_ne (not_lt.1 e1) (Ne.symm e2)
            exact lt_of_lt_of_le hlt (hs.head_le (head?_append_some (replicate_head hc g')) hy)
    | multiple mn mx n =>
      obtain ⟨b1, b2, b3, b4, b5, b6, b7⟩ := h1
      simp only [GroupCount.locateInnerLoop]
      by_cases e1 : mx.1 < g
      · simp only [if_pos e1]
        have : p.count g = 0 :=
          count_zero_of_lt (fun x hx => lt_of_le_of_lt (hs.left.le_last b3 hx) e1)
        rw [this] at skip
        simpa using skip (by omega)
      · simp only [if_neg e1]
        by_cases e2 : mx.1 = g
        · subst e2
          simp only [if_true]
          rw [b6 trivial] at skip choose
          by_cases e3 : o < mx.2
          · simp only [if_pos e3]
            exact choose (.inl e3)
          · simp only [if_neg e3]
            exact skip (by omega)
        · simp only [if_neg e2]
          have hlt : g < mx.1 := lt_of_le_of_ne (not_lt.1 e1) (Ne.symm e2)
          refine choose (.inr (count_zero_of_gt ?_))
          intro y hy
          exact lt_of_lt_of_le hlt (hs.cross (getLast?_mem b3) hy)

/-! ### The leaf in which a group begins -/

theorem pick_eq_wfind {g : G} {ls : List (List G)} (h : ∀ p ∈ ls, (inflate p).count g = p.count g)
    (o : Nat) : pick g o ls = wfind (inGroup g) ls.flatten o := by
  induction ls generalizing o with
  | nil => rfl
  | cons p ps ih =>
    rw [pick, h p (by simp), ih (fun q hq => h q (by simp [hq])), List.flatten_cons, wfind_append,
      sum_inGroup]

theorem inflAll_count_eq {g : G} {ls : List (List G)} (h : ∀ p ∈ ls, (inflate p).count g = p.count g) :
    (inflAll ls).count g = ls.flatten.count g := by
  induction ls with
  | nil => rfl
  | cons p ps ih =>
    rw [inflAll, List.flatMap_cons, List.count_append, List.flatten_cons, List.count_append,
      h p (by simp)]
    exact congrArg _ (ih (fun q hq => h q (by simp [hq])))

/-- `homeLeaf` on groups. -/
def homeG (ls : List (List G)) (g : G) : Option (List G) := ls.find? (fun p => decide (0 < p.count g))

theorem homeG_none {ls : List (List G)} {g : G} (h : homeG ls g = none) : ls.flatten.count g = 0 := by
  rw [homeG, List.find?_eq_none] at h
  rw [List.count_eq_zero]
  intro hg
  obtain ⟨p, hp, hgp⟩ := List.mem_flatten.1 hg
  exact h p hp (by simpa using hgp)

theorem homeG_some {ls : List (List G)} {g : G} {p : List G} (h : homeG ls g = some p)
    (hs : Asc ls.flatten) :
    ∃ a b, ls = a ++ p :: b ∧ 0 < p.count g ∧ a.flatten.count g = 0 ∧
      (∀ q ∈ a, (inflate q).count g = q.count g) ∧ (∀ q ∈ b, (inflate q).count g = q.count g) ∧
      (p.getLast? = some g ∨ b.flatten.count g = 0) ∧
      (p.getLast? = some g ↔ ∃ q ∈ ls, q.getLast? = some g) := by
  rw [homeG, List.find?_eq_some_iff_append] at h
  obtain ⟨h1, a, b, rfl, h3⟩ := h
  have hgp : g ∈ p := by simpa using h1
  have ha : ∀ q ∈ a, g ∉ q := by
    intro q hq
    have := h3 q hq
    simpa using this
  rw [List.flatten_append, List.flatten_cons] at hs
  have hb : ∀ q ∈ b, ∀ x ∈ q, g ≤ x := by
    intro q hq x hx
    exact hs.right.cross hgp (List.mem_flatten.2 ⟨q, hq, hx⟩)
  obtain ⟨m, hm⟩ : ∃ m, p.getLast? = some m := by
    cases h : p.getLast? with
    | none =>
      have : p = [] := by simpa using h
      rw [this] at hgp; simp at hgp
    | some m => exact ⟨m, rfl⟩
  have hgm : g ≤ m := hs.right.left.le_last hm hgp
  refine ⟨a, b, rfl, List.count_pos_iff.2 hgp, ?_, ?_, ?_, ?_, ?_⟩
  · rw [List.count_eq_zero]
    intro hg
    obtain ⟨q, hq, hgq⟩ := List.mem_flatten.1 hg
    exact ha q hq hgq
  · intro q hq
    rw [count_inflate, if_neg]
    · rfl
    · intro h; exact ha q hq (getLast?_mem h)
  · intro q hq
    rw [count_inflate]
    split
    · rename_i hl
      rw [surp_head]
      · rfl
      · cases q with
        | nil => simp at hl
        | cons x q =>
          have hq' : Asc (x :: q) := by
            obtain ⟨b1, b2, rfl⟩ := List.append_of_mem hq
            rw [List.flatten_append, List.flatten_cons] at hs
            exact hs.right.right.right.left
          have h1 := hb _ hq x (by simp)
          have h2 := hq'.le_last hl (x := x) (by simp)
          rw [List.head?_cons, le_antisymm h2 h1]
    · rfl
  · by_cases e : m = g
    · left; rw [hm, e]
    · right
      apply count_zero_of_gt
      intro x hx
      exact lt_of_lt_of_le (lt_of_le_of_ne hgm (Ne.symm e)) (hs.right.cross (getLast?_mem hm) hx)
  · constructor
    · intro h; exact ⟨p, by simp, h⟩
    · rintro ⟨q, hq, hl⟩
      rw [List.mem_append, List.mem_cons] at hq
      rcases hq with hq | rfl | hq
      · exact absurd (getLast?_mem hl) (ha q hq)
      · exact hl
      · have := hs.right.cross (getLast?_mem hm) (List.mem_flatten.2 ⟨q, hq, getLast?_mem hl⟩)
        rw [hm, le_antisymm this hgm]

/-- `sizeAtHome` and `overcount` on groups. -/
def homeCnt (ls : List (List G)) (g : G) : Nat :=
  match homeG ls g with
  | none => 0
  | some p => p.count g

@[inherit_doc homeCnt] def over (ls : List (List G)) (g : G) : Nat :=
  match homeG ls g with
  | none => 0
  | some p => surp p g

theorem pick_exact {ls : List (List G)} (hs : Asc ls.flatten) (g : G) (o : Nat) :
    pick g o ls = if o < homeCnt ls g then wfind (inGroup g) ls.flatten o
      else if o < homeCnt ls g + over ls g then none
      else wfind (inGroup g) ls.flatten (o - over ls g) := by
  unfold homeCnt over
  cases hh : homeG ls g with
  | none =>
    have h0 := homeG_none hh
    simp only [Nat.not_lt_zero, if_false, Nat.add_zero, Nat.sub_zero]
    rw [(wfind_none _ _ _).2 (by rw [sum_inGroup]; omega), pick_none]
    rw [inflAll_count_eq]
    · omega
    · intro p hp
      rw [count_inflate, if_neg]
      · rfl
      · intro hl
        rw [List.count_eq_zero] at h0
        exact h0 (List.mem_flatten.2 ⟨p, hp, getLast?_mem hl⟩)
  | some p =>
    obtain ⟨a, b, rfl, h1, h2, h3, h4, h5, h6⟩ := homeG_some hh hs
    simp only
    have ea := inflAll_count_eq h3
    have key : ∀ n, wfind (inGroup g) (a ++ p :: b).flatten n =
        (if n < p.count g then wfind (inGroup g) p n
          else (wfind (inGroup g) b.flatten (n - p.count g)).map (p.length + ·)).map
            (a.flatten.length + ·) := by
      intro n
      rw [List.flatten_append, List.flatten_cons, wfind_append, sum_inGroup, h2, if_neg (by omega),
        Nat.sub_zero, wfind_append, sum_inGroup]
    rw [key, key, pick_append, if_neg (by omega), ea, h2, Nat.sub_zero, pick, count_inflate,
      pick_eq_wfind h4]
    by_cases c1 : o < p.count g
    · rw [if_pos c1, if_pos c1, if_pos (by omega)]
    · rw [if_neg c1]
      have wb : ∀ n, b.flatten.count g = 0 → wfind (inGroup g) b.flatten n = none := by
        intro n hn
        rw [wfind_none, sum_inGroup]; omega
      by_cases c2 : o < p.count g + surp p g
      · rw [if_pos c2]
        rcases h5 with h5 | h5
        · rw [if_pos h5, if_pos c2, (wfind_none _ _ _).2 (by rw [sum_inGroup]; omega)]; rfl
        · rw [wb _ h5, (wfind_none _ p _).2 (by rw [sum_inGroup]; omega)]
          simp
      · rw [if_neg c2]
        rcases h5 with h5 | h5
        · rw [if_pos h5, if_neg c2, if_neg (by omega), Nat.sub_sub, Nat.add_comm (surp p g)]
        · rw [wb _ h5, wb _ h5, if_neg (by split <;> omega), if_neg (by omega)]

theorem infl_count_exact {ls : List (List G)} (hs : Asc ls.flatten) (g : G) :
    (inflAll ls).count g = ls.flatten.count g +
      if ∃ q ∈ ls, q.getLast? = some g then over ls g else 0 := by
  unfold over
  cases hh : homeG ls g with
  | none =>
    have h0 := homeG_none hh
    simp only [ite_self, Nat.add_zero]
    apply inflAll_count_eq
    intro p hp
    rw [count_inflate, if_neg]
    · rfl
    · intro hl
      rw [List.count_eq_zero] at h0
      exact h0 (List.mem_flatten.2 ⟨p, hp, getLast?_mem hl⟩)
  | some p =>
    obtain ⟨a, b, rfl, h1, h2, h3, h4, h5, h6⟩ := homeG_some hh hs
    have e : inflAll (a ++ p :: b) = inflAll a ++ (inflate p ++ inflAll b) := by
      simp [inflAll]
    simp only [← h6, e]
    rw [List.count_append, List.count_append, inflAll_count_eq h3, inflAll_count_eq h4, count_inflate,
      List.flatten_append, List.flatten_cons, List.count_append, List.count_append]
    omega

/-- If the group is the last one present, or absent, the surplus counts. -/
theorem infl_count_last {ls : List (List G)} (hs : Asc ls.flatten) {g : G}
    (hg : ∀ x ∈ ls.flatten, x ≤ g) : (inflAll ls).count g = ls.flatten.count g + over ls g := by
  rw [infl_count_exact hs]
  split
  · rfl
  · rename_i h0
    have : over ls g = 0 := by
      unfold over
      cases hh : homeG ls g with
      | none => rfl
      | some p =>
        obtain ⟨a, b, rfl, h1, h2, h3, h4, h5, h6⟩ := homeG_some hh hs
        exfalso
        apply h0
        refine ⟨p, by simp, ?_⟩
        have hgp := List.count_pos_iff.1 h1
        obtain ⟨m, hm⟩ : ∃ m, p.getLast? = some m := by
          cases h : p.getLast? with
          | none =>
            have : p = [] := by simpa using h
            rw [this] at hgp; simp at hgp
          | some m => exact ⟨m, rfl⟩
        rw [hm, le_antisymm (hg m (by simp [getLast?_mem hm])) ?_]
        rw [List.flatten_append, List.flatten_cons] at hs
        exact hs.right.left.le_last hm hgp
    rw [this]

/-! ### The visitor -/

/-- What the visitor leaves out: the surplus of the last leaf. -/
def ph (g : G) (ls : List (List G)) : Nat :=
  match ls.getLast? with
  | none => 0
  | some p => if p.getLast? = some g then surp p g else 0

theorem extractInnerLoop_ix {g : G} {ci idx prev cnt : Nat} {as : List (GroupCount G)}
    {ps : List (List G)} (h : List.Forall₂ (Summary True) as ps) (hn : ∀ p ∈ ps, p ≠ [])
    (hs : Asc ps.flatten) (hprev : prev = 0 ∨ ∀ x ∈ ps.flatten, g ≤ x) (hne : as ≠ []) :
    ∃ i cnt' a p b, GroupCount.extractInnerLoop g ci idx prev cnt as = some (i, cnt') ∧ idx ≤ i ∧
      ps = a ++ p :: b ∧ a.length = i - idx ∧
      cnt' + p.count g = cnt + prev + ps.flatten.count g ∧
      (b = [] ∨ ∃ m, p.getLast? = some m ∧ g < m) := by
  induction h generalizing ci idx prev cnt with
  | nil => exact absurd rfl hne
  | @cons a p as ps h1 h2 ih =>
    rw [List.flatten_cons] at hs hprev ⊢
    obtain ⟨m, c, e1, e2, e3, e4, e5⟩ := h1.max (hn p (by simp))
    have c5 := e5 trivial
    have hlast := fun x (hx : x ∈ p) => hs.left.le_last e2 hx
    -- the rest of the loop, with the state after this part
    have rest : ∀ prev' cnt', (prev' = 0 ∨ ∀ x ∈ ps.flatten, g ≤ x) →
        (cnt' + p.count g = cnt + prev + p.count g) →
        cnt' + prev' = cnt + prev + p.count g →
        ∃ i cnt'' a p' b, GroupCount.extractInnerLoop g idx (idx + 1) prev' cnt' as = some (i, cnt'') ∧
          idx ≤ i ∧ p :: ps = a ++ p' :: b ∧ a.length = i - idx ∧
          cnt'' + p'.count g = cnt + prev + (p ++ ps.flatten).count g ∧
          (b = [] ∨ ∃ m, p'.getLast? = some m ∧ g < m) := by
      intro prev' cnt' hp' hc hc'
      cases h2 with
      | nil =>
        refine ⟨idx, cnt', [], p, [], rfl, le_rfl, rfl, by simp, ?_, .inl rfl⟩
        simpa using hc
      | @cons a' p2 as' ps' h3 h4 =>
        obtain ⟨i, cnt'', a, p', b, i1, i2, i3, i4, i5, i6⟩ := ih (ci := idx) (idx := idx + 1)
          (prev := prev') (cnt := cnt') (fun p hp => hn p (List.mem_cons_of_mem _ hp)) hs.right hp'
          (by simp)
        refine ⟨i, cnt'', p :: a, p', b, i1, by omega, by rw [i3]; rfl, by simp; omega, ?_, i6⟩
        rw [List.count_append]; omega
    simp only [GroupCount.extractInnerLoop, e1]
    by_cases l1 : m < g
    · rw [if_pos l1]
      have z : p.count g = 0 := count_zero_of_lt (fun x hx => lt_of_le_of_lt (hlast x hx) l1)
      have hp0 : prev = 0 := by
        rcases hprev with h | h
        · exact h
        · exact absurd (h m (List.mem_append.2 (.inl (getLast?_mem e2)))) (not_le.2 l1)
      exact rest prev cnt (.inl hp0) (by omega) (by omega)
    · rw [if_neg l1]
      by_cases l2 : m = g
      · subst l2
        rw [if_pos rfl]
        refine rest c (cnt + prev) (.inr ?_) (by omega) (by omega)
        intro x hx
        exact hs.cross (getLast?_mem e2) hx
      · rw [if_neg l2]
        have hlt : g < m := lt_of_le_of_ne (not_lt.1 l1) (Ne.symm l2)
        refine ⟨idx, cnt + prev, [], p, ps, rfl, le_rfl, rfl, by simp, ?_, .inr ⟨m, e2, hlt⟩⟩
        rw [List.count_append, count_zero_of_gt (gs := ps.flatten)]
        · omega
        · intro x hx
          exact lt_of_lt_of_le hlt (hs.cross (getLast?_mem e2) hx)

end Lists

/-! ## Trees -/

section
variable {K V G : Type} [LinearOrder G] [FromRef K G]

/-- The groups in each leaf. -/
abbrev leafGroups (G : Type) [LinearOrder G] [FromRef K G] {h : Nat} (x : T K V (GroupCount G) h) :
    List (List G) := x.leaves.map (fun p => groupsOf G p.2)

theorem leafGroups_flatten {h : Nat} (x : T K V (GroupCount G) h) :
    (leafGroups G x).flatten = groupsOf G x.toL := by
  rw [leafGroups, T.toL, groupsOf, List.map_flatMap, List.flatMap_def]

theorem leafGroups_succ {h : Nat} {x : GNode K (GroupCount G) (T K V (GroupCount G) h)} :
    leafGroups G (h := h + 1) x = x.kids.flatMap (leafGroups G) := by
  rw [leafGroups, T.leaves, List.map_flatMap]

theorem inflAll_succ {h : Nat} {x : GNode K (GroupCount G) (T K V (GroupCount G) h)} :
    inflAll (leafGroups G (h := h + 1) x) = (x.kids.map (fun c => inflAll (leafGroups G c))).flatten := by
  rw [leafGroups_succ, inflAll, List.flatMap_assoc, List.flatMap_def]

theorem Summary.topAug_infl {h : Nat} {x : T K V (GroupCount G) h} (hx : x.AugOK)
    (hs : Asc (groupsOf G x.toL)) : Summary True x.topAug (inflAll (leafGroups G x)) := by
  induction h with
  | zero =>
    have e : T.topAug x = GroupCount.scanLeaf (groupsOf G (GLeaf.data x)) := by
      simp [T.topAug, Augmentation.fromLeaf, List.map_map, Function.comp_def]
    have e2 : inflAll (leafGroups G x) = inflate (groupsOf G (GLeaf.data x)) := by
      simp [inflAll, leafGroups, T.leaves]
    rw [e, e2]
    simp only [T.toL, T.leaves, List.flatMap_cons, List.flatMap_nil, List.append_nil] at hs
    exact Summary.inflate_leaf hs
  | succ h ih =>
    obtain ⟨h1, h2⟩ := hx
    have e : T.topAug x = (GNode.augs x).foldl GroupCount.mergeWith .zero := rfl
    have hs' := inflAll_asc (ls := leafGroups G x) (by rw [leafGroups_flatten]; exact hs)
    rw [inflAll_succ] at hs' ⊢
    rw [e, h1]
    refine Summary.foldl (gs := []) ?_ rfl hs'
    rw [List.forall₂_map_left_iff, List.forall₂_map_right_iff, List.forall₂_same]
    intro c hc
    exact ih (h2 c hc) (kid_part_asc hs hc)

theorem kids_infl {h : Nat} {x : GNode K (GroupCount G) (T K V (GroupCount G) h)}
    (hx : T.AugOK (h := h + 1) x) (hs : Asc (groupsOf G (T.toL (h := h + 1) x))) :
    List.Forall₂ (Summary True) x.augs (x.kids.map (fun c => inflAll (leafGroups G c))) := by
  rw [hx.1, List.forall₂_map_left_iff, List.forall₂_map_right_iff, List.forall₂_same]
  intro c hc
  exact Summary.topAug_infl (hx.2 c hc) (kid_part_asc hs hc)

theorem group_search_exact {h : Nat} {x : T K V (GroupCount G) h} (hx : x.AugOK)
    (hs : Asc (groupsOf G x.toL)) (g : G) (o : Nat) :
    x.search (g, o) = pick g o (leafGroups G x) := by
  induction h generalizing o with
  | zero =>
    simp only [T.toL, T.leaves, List.flatMap_cons, List.flatMap_nil, List.append_nil] at hs
    have e : T.search (Q := G × Nat) x (g, o) =
        GroupCount.locateLeafLoop g o 0 0 (groupsOf G (GLeaf.data x)) := by
      simp [T.search, SearchAugmentation.locateInLeaf, List.map_map, Function.comp_def]
    rw [e, locateLeafLoop_eq _ _ _ _ _ hs (Nat.zero_le _)]
    simp only [leafGroups, T.leaves, List.map_cons, List.map_nil, pick, Option.map_none]
    rw [Nat.sub_zero]
    split
    · simp
    · rename_i h0
      rw [(wfind_none _ _ _).2]
      · rfl
      · rw [sum_inGroup]
        rw [count_inflate] at h0
        omega
  | succ h ih =>
    have hk := kids_infl hx hs
    have hs' := inflAll_asc (ls := leafGroups G x) (by rw [leafGroups_flatten]; exact hs)
    rw [inflAll_succ] at hs'
    have := locateInnerLoop_ix (g := g) (idx := 0) (o := o) hk hs'
    simp only [T.search, SearchAugmentation.locateInInner]
    cases hl : GroupCount.locateInnerLoop g 0 o (GNode.augs x) with
    | none =>
      rw [hl] at this
      simp only at this ⊢
      rw [pick_none]
      rw [inflAll_succ]
      exact this
    | some r =>
      obtain ⟨i, g', o'⟩ := r
      rw [hl] at this
      obtain ⟨c1, c3, a, p, b, c4, c5, c6, c7⟩ := this
      replace c1 : g' = g := c1
      subst c1
      simp only [Nat.sub_zero] at c5 c6 ⊢
      obtain ⟨ka, kr, hkk, rfl, hkr⟩ := List.map_eq_append_iff.1 c4
      obtain ⟨c, kb, rfl, rfl, rfl⟩ := List.map_eq_cons_iff.1 hkr
      have hc : (GNode.kids x)[i]? = some c := by
        rw [hkk, List.getElem?_append_right (by simp at c5; omega)]
        simp at c5
        simp [c5]
      have hi : i = ka.length := by simpa using c5.symm
      have hc' := List.mem_of_getElem? hc
      simp only [hc]
      rw [ih (hx.2 c hc') (kid_part_asc hs hc') o', leafGroups_succ, hkk, List.flatMap_append,
        List.flatMap_cons]
      have e1 : ∀ l : List (T K V (GroupCount G) h), (l.map (fun c => inflAll (leafGroups G c))).flatten =
          inflAll (l.flatMap (leafGroups G)) := by
        intro l
        rw [inflAll, List.flatMap_assoc, List.flatMap_def]
      rw [e1] at c6 c7
      replace c7 : o' < (inflAll (leafGroups G c)).count g' ∨
        (inflAll (kb.flatMap (leafGroups G))).count g' = 0 := c7
      rw [pick_append, if_neg (by omega), show o - List.count g' (inflAll (List.flatMap (leafGroups G) ka)) = o' by omega]
      rw [pick_append]
      have e2 : (List.flatMap (leafGroups G) ka).flatten.length = ((List.take i (ka ++ c :: kb)).flatMap T.toL).length := by
        rw [hi, List.take_left, List.flatMap_def, List.flatten_flatten, List.map_map, List.flatMap_def,
          List.length_flatten, List.length_flatten, List.map_map, List.map_map]
        congr 2
        funext y
        simp only [Function.comp, leafGroups_flatten]
        simp
      rw [e2]
      split
      · rfl
      · rename_i h0
        rw [pick_none (by omega), pick_none (ls := List.flatMap (leafGroups G) kb) (by omega)]
        rfl

theorem ph_of_last {ls : List (List G)} {g m : G} {p : List G} (h : ls.getLast? = some p)
    (hp : p.getLast? = some m) (hm : g < m) : ph g ls = 0 := by
  simp only [ph, h, hp]
  rw [if_neg]
  simp [hm.ne']

theorem T.leaves_ne_nil {A : Type} {μ : Nat} {h : Nat} {m : Nat} {r : Bool} {x : T K V A h}
    (hx : T.ShapeTop μ m r x) : x.leaves ≠ [] := by
  induction h generalizing m r with
  | zero => simp [T.leaves]
  | succ h ih =>
    have h1 := T.ShapeTop.lens hx
    cases hk : GNode.kids x with
    | nil =>
      have := h1.1
      rw [hk] at this
      simp at this
    | cons c cs =>
      obtain ⟨m', r', hm⟩ := kid_shape' hx (c := c) (by rw [hk]; simp)
      rw [T.leaves, hk, List.flatMap_cons]
      simp [ih hm]

/-- The last entry of a part is in its last leaf. -/
theorem last_leaf {ls : List (List G)} {m : G} (h : ls.flatten.getLast? = some m)
    (hn : ∀ p ∈ ls, p ≠ []) : ∃ p, ls.getLast? = some p ∧ p.getLast? = some m := by
  rcases List.eq_nil_or_concat ls with rfl | ⟨l, p, rfl⟩
  · simp at h
  · refine ⟨p, by simp, ?_⟩
    have hp := hn p (by simp)
    rw [List.concat_eq_append, List.flatten_append, List.getLast?_append] at h
    cases hl : p.getLast? with
    | none => exact absurd (by simpa using hl) hp
    | some m' => simp [hl] at h; rw [h]

theorem inflAll_last {ls : List (List G)} (hn : ∀ p ∈ ls, p ≠ []) :
    (inflAll ls).getLast? = ls.flatten.getLast? := by
  rcases List.eq_nil_or_concat ls with rfl | ⟨l, p, rfl⟩
  · rfl
  · have hp := hn p (by simp)
    rw [List.concat_eq_append, inflAll, List.flatMap_append, List.flatten_append,
      List.getLast?_append, List.getLast?_append]
    simp only [List.flatMap_cons, List.flatMap_nil, List.append_nil, List.flatten_cons,
      List.flatten_nil, inflate_last]
    cases hl : p.getLast? with
    | none => exact absurd (by simpa using hl) hp
    | some m' => simp

/-- Leaves below a node are not empty. -/
theorem leaf_ne_nil {A : Type} {μ : Nat} {h : Nat} {m : Nat} {r : Bool} {x : T K V A h}
    (hx : T.ShapeTop μ m r x) (h0 : h = 0 → 0 < m) : ∀ p ∈ x.leaves, p.2 ≠ [] := by
  induction h generalizing m r with
  | zero =>
    intro p hp
    simp only [T.leaves, List.mem_singleton] at hp
    subst hp
    have := hx.1
    have h1 := h0 rfl
    simp only
    intro h2
    rw [h2] at this
    simp at this
    omega
  | succ h ih =>
    intro p hp
    simp only [T.leaves, List.mem_flatMap] at hp
    obtain ⟨c, hc, hp⟩ := hp
    obtain ⟨m', r', ⟨h1, h2⟩ | ⟨r', h1⟩⟩ := kid_shape hx hc
    · exact ih h1 (fun _ => h2) p hp
    · refine ih h1 ?_ p hp
      rintro rfl
      cases r' <;> simp [mnAt]

/-- The group size visitor: all leaves count with their surplus, the last one without. -/
theorem group_visit_exact {μ : Nat} {h : Nat} {m : Nat} {r : Bool} {x : T K V (GroupCount G) h}
    (hsh : T.ShapeTop μ m r x) (hx : x.AugOK) (hs : Asc (groupsOf G x.toL)) (g : G) (cnt : Nat) :
    ∃ n, x.visit (GroupCount.extractGroupSize g) cnt = .ok (some n) ∧
      n + ph g (leafGroups G x) = cnt + (inflAll (leafGroups G x)).count g := by
  induction h generalizing m r cnt with
  | zero =>
    simp only [T.toL, T.leaves, List.flatMap_cons, List.flatMap_nil, List.append_nil] at hs
    refine ⟨cnt + (groupsOf G (GLeaf.data x)).count g, ?_, ?_⟩
    · simp only [T.visit, GroupCount.extractGroupSize, List.map_map]
      rw [← extractLeafLoop_eq g cnt _ hs]
      rfl
    · simp only [leafGroups, T.leaves, List.map_cons, List.map_nil, ph, List.getLast?_singleton,
        inflAll, List.flatMap_cons, List.flatMap_nil, List.append_nil]
      rw [count_inflate]
      omega
  | succ h ih =>
    have hk := kids_infl hx hs
    have hs' := inflAll_asc (ls := leafGroups G x) (by rw [leafGroups_flatten]; exact hs)
    rw [inflAll_succ] at hs'
    obtain ⟨i, cnt', a, p, b, e1, e2, e3, e4, e5, e6⟩ := extractInnerLoop_ix (g := g) (ci := 0)
      (idx := 0) (prev := 0) (cnt := cnt) hk
      (by
        intro p hp
        rw [List.mem_map] at hp
        obtain ⟨c, hc, rfl⟩ := hp
        have := kid_ne_nil hsh hc
        obtain ⟨e, he⟩ := List.exists_mem_of_ne_nil _ this
        refine List.ne_nil_of_mem (a := FromRef.fromRef e.1) (mem_inflAll.2 ?_)
        rw [leafGroups_flatten]
        exact List.mem_map_of_mem (f := fun e : K × V => (FromRef.fromRef e.1 : G)) he) hs' (.inl rfl)
      (by
        intro h0
        have := hsh.2.2.2.1
        rw [h0] at this
        simp at this)
    obtain ⟨ka, kr, hkk, rfl, hkr⟩ := List.map_eq_append_iff.1 e3
    obtain ⟨c, kb, rfl, rfl, rfl⟩ := List.map_eq_cons_iff.1 hkr
    have hi : i = ka.length := by simpa using e4.symm
    have hc : (GNode.kids x)[i]? = some c := by
      rw [hkk, hi, List.getElem?_append_right le_rfl]
      simp
    have hc' := List.mem_of_getElem? hc
    obtain ⟨m', r', hm⟩ := kid_shape' hsh hc'
    obtain ⟨n, n1, n2⟩ := ih hm (hx.2 c hc') (kid_part_asc hs hc') cnt'
    refine ⟨n, ?_, ?_⟩
    · simp only [T.visit, GroupCount.extractGroupSize, e1, hc]
      exact n1
    · rw [inflAll_succ]
      have hne : ∀ q ∈ leafGroups G x, q ≠ [] := by
        intro q hq
        obtain ⟨p, hp, rfl⟩ := List.mem_map.1 hq
        have := leaf_ne_nil (h := h + 1) hsh (by simp) p hp
        simpa using this
      have hph : ph g (leafGroups G c) = ph g (leafGroups G x) := by
        have el : leafGroups G x = ka.flatMap (leafGroups G) ++ (leafGroups G c ++
            kb.flatMap (leafGroups G)) := by
          rw [leafGroups_succ, hkk, List.flatMap_append, List.flatMap_cons]
        rcases e6 with e6 | ⟨mm, e6, e7⟩
        · have : kb = [] := by simpa using e6
          subst this
          have hcl : leafGroups G c ≠ [] := by simpa using T.leaves_ne_nil hm
          rw [el]
          simp only [ph, List.flatMap_nil, List.append_nil, List.getLast?_append]
          cases hl : (leafGroups G c).getLast? with
          | none => exact absurd (by simpa using hl) hcl
          | some q => rfl
        · have hnc : ∀ q ∈ leafGroups G c, q ≠ [] := fun q hq => hne q (by rw [el]; simp [hq])
          rw [inflAll_last hnc] at e6
          obtain ⟨q, q1, q2⟩ := last_leaf e6 hnc
          rw [ph_of_last q1 q2 e7]
          have hxf : (leafGroups G x).flatten ≠ [] := by
            rw [el]
            intro h0
            have : (leafGroups G c).flatten = [] := by
              simp only [List.flatten_append, List.append_eq_nil_iff] at h0
              exact h0.2.1
            rw [this] at e6
            simp at e6
          obtain ⟨mx, hmx⟩ : ∃ mx, (leafGroups G x).flatten.getLast? = some mx := by
            cases hl : (leafGroups G x).flatten.getLast? with
            | none => exact absurd (by simpa using hl) hxf
            | some mx => exact ⟨mx, rfl⟩
          obtain ⟨q', q3, q4⟩ := last_leaf hmx hne
          rw [ph_of_last q3 q4]
          refine lt_of_lt_of_le e7 ?_
          have hax : Asc (leafGroups G x).flatten := by rw [leafGroups_flatten]; exact hs
          refine hax.le_last hmx ?_
          rw [el]
          simp only [List.flatten_append, List.mem_append]
          exact .inr (.inl (getLast?_mem e6))
      omega

/-! ### Rank -/

theorem leavesAll_eq {A : Type} (l : List (STree K V A)) :
    STree.leavesAll l = l.flatMap STree.leaves := by
  induction l with
  | nil => rw [STree.leavesAll]; rfl
  | cons a l ih => rw [STree.leavesAll, ih]; rfl

theorem T.toS_leaves {A : Type} {h : Nat} (x : T K V A h) : x.toS.leaves = x.leaves.map (·.2) := by
  induction h with
  | zero => rw [T.toS, STree.leaves]; simp [T.leaves]
  | succ h ih =>
    rw [T.toS, STree.leaves, leavesAll_eq, T.leaves, List.flatMap_map, List.map_flatMap]
    simp only [ih]

theorem rankSeesNth_eq {A : Type} [LinearOrder K] (k : K) (seen : List (List (K × V))) (i : Nat)
    (l : List (STree K V A)) :
    STree.rankSeesNth k seen i l = match l[i]? with
      | some c => c.rankSees k seen
      | none => (seen, []) := by
  induction l generalizing i with
  | nil => rw [STree.rankSeesNth]; rfl
  | cons a l ih =>
    cases i with
    | zero => rw [STree.rankSeesNth]; rfl
    | succ i => rw [STree.rankSeesNth, ih]; rfl

end

section
variable {K V G : Type} [LinearOrder K] [LinearOrder G] [FromRef K G]

theorem frame_index {A : Type} {h : Nat} {f : Frame K A (T K V A h)} (hf : f.LenOK) {k : K}
    (h1 : Before k f.inL) (h2 : After k f.inR) :
    ((f.keysL ++ f.keysR).filter (fun x => x ≤ k)).length = f.kidsL.length := by
  have e1 : f.keysL.filter (fun x => x ≤ k) = f.keysL := by
    rw [List.filter_eq_self]
    intro a ha
    rw [decide_eq_true_eq]
    have : E.sep a ∈ f.inL := by
      rw [Frame.inL, interL, List.mem_flatten]
      obtain ⟨i, hi, rfl⟩ := List.getElem_of_mem ha
      refine ⟨(f.kidsL.map T.inorder)[i]'(by simp [← hf.1, hi]) ++ [E.sep f.keysL[i]], ?_, by simp⟩
      rw [List.mem_iff_getElem]
      exact ⟨i, by simp [hi, ← hf.1], by simp⟩
    exact h1 _ this
  have e2 : f.keysR.filter (fun x => x ≤ k) = [] := by
    rw [List.filter_eq_nil_iff]
    intro a ha
    rw [decide_eq_true_eq, not_le]
    have : E.sep a ∈ f.inR :=
      (seps_sublist_interR (by simp [hf.2.2.1])).subset (List.mem_map_of_mem ha)
    exact h2 _ this
  rw [List.filter_append, e1, e2, List.append_nil, hf.1]

/-- What the descent has collected. -/
def Collected (G : Type) [LinearOrder G] [FromRef K G] (k : K) {H : Nat} (g : T K V (GroupCount G) H)
    (h : Nat) (c : Ctx K V (GroupCount G) h H) (r : Option (G × Nat)) : Prop :=
  ∃ acc : List (List (K × V)), r = lastGroup (inflAll (acc.map (groupsOf G))) ∧
    (∃ pre, c.lvL.map (·.2) = pre ++ acc) ∧
    ∀ x, c.plug x = g → g.toS.rankSees k [] = x.toS.rankSees k acc

theorem group_rank_exact {μ : Nat} {t : Tree K V (GroupCount G)} {H : Nat}
    {g : T K V (GroupCount G) H} (w : WF μ t g) (ha : g.AugOK)
    (hm : ∀ a b : K, a ≤ b → (FromRef.fromRef a : G) ≤ FromRef.fromRef b) (k : K) :
    ∃ (c : Ctx K V (GroupCount G) 0 H) (x : GLeaf K V) (r : Option (G × Nat)),
      Ctx.plug c x = g ∧ Located k g c x ∧ Collected G k g 0 c r ∧
      t.rankByAugmentation k = .ok (GroupCount.foldLeaf (FromRef.fromRef k) r
        (bsearch (x.data.map (·.1)) k) (groupsOf G x.data)) := by
  have hs : Sorted g.toL := w.flat.sorted
  have hasc := monotone_asc (G := G) hm hs
  obtain ⟨c, x, r, hp, hl, hr, e⟩ := rank_inv w k (Collected G k g)
    ⟨[], rfl, ⟨[], rfl⟩, fun x hx => by rw [← hx]; rfl⟩
    (by
      rintro h c f y r hp hl ⟨acc, hr, ⟨pre, hpre⟩, hsee⟩
      have hbef := Before.append.1 hl.before
      have haft := After.append.1 hl.after
      have hidx := frame_index hl.lenOK.1 hbef.2 haft.1
      have hx := (Ctx.augOK_of_plug hl.lenOK.2 (x := (f.fill y : T K V (GroupCount G) (h + 1)))
        (hp ▸ ha)).2
      rw [T.augOK_fill hl.lenOK.1] at hx
      have hsh := (Ctx.shape_plug.1 ⟨hp ▸ w.shape, hl.lenOK.2⟩).2
      have hstep : ∀ z, (Ctx.cons f c).plug z = g → g.toS.rankSees k [] = z.toS.rankSees k
          (if f.kidsL.length = 0 then [] else acc ++ f.lvL.map (·.2)) := by
        intro z hz
        rw [hsee (f.fill z) hz, T.toS, STree.rankSees, rankSeesNth_eq]
        have e1 : (GNode.keys (f.fill z)).filter (fun x => x ≤ k) =
            (f.keysL ++ f.keysR).filter (fun x => x ≤ k) := rfl
        have e2 : GNode.kids (f.fill z) = f.kidsL ++ z :: f.kidsR := rfl
        simp only [e1, hidx, e2, List.map_append, List.map_cons]
        rw [List.getElem?_append_right (by simp)]
        simp only [List.length_map, Nat.sub_self, List.getElem?_cons_zero]
        rw [leavesAll_eq, List.take_left' (by simp), List.flatMap_map, Frame.lvL, List.map_flatMap]
        simp only [T.toS_leaves]
      by_cases h0 : f.kidsL = []
      · refine ⟨[], ?_, ⟨_, (List.append_nil _).symm⟩, ?_⟩
        · have : f.augsL = [] := by rw [hx.1.1, h0]; rfl
          rw [this]; rfl
        · intro z hz
          rw [hstep z hz, if_pos (by simp [h0])]
      · refine ⟨acc ++ f.lvL.map (·.2), ?_, ⟨pre, ?_⟩, ?_⟩
        · have hparts : inflAll ((acc ++ f.lvL.map (·.2)).map (groupsOf G)) =
              inflAll (acc.map (groupsOf G)) ++
                (f.kidsL.map (fun c => inflAll (leafGroups G c))).flatten := by
            rw [inflAll, List.map_append, List.flatMap_append, inflAll, Frame.lvL, List.map_map]
            congr 1
            simp only [leafGroups, inflAll]
            rw [List.map_flatMap, List.flatMap_assoc, List.flatMap_def]
            rfl
          have hsub : Asc ((acc ++ f.lvL.map (·.2)).map (groupsOf G)).flatten := by
            rw [← List.map_flatten (f := fun e : K × V => (FromRef.fromRef e.1 : G))]
            refine hasc.sublist (List.Sublist.map _ ?_)
            rw [T.toL, ← hp, Ctx.leaves_plug, T.leaves_fill, List.flatMap_def]
            refine List.Sublist.flatten ?_
            rw [List.map_append, List.map_append, hpre]
            simp only [List.map_append, List.append_assoc]
            exact (List.sublist_append_right _ _).trans
              (by rw [← List.append_assoc, ← List.append_assoc, ← List.append_assoc]
                  exact List.sublist_append_left _ _)
          have hasc' := inflAll_asc hsub
          rw [hparts] at hasc' ⊢
          rw [hr]
          refine foldInner_eq ?_ ?_ hasc' ?_
          · rw [hx.1.1, List.forall₂_map_left_iff, List.forall₂_map_right_iff, List.forall₂_same]
            intro c' hc'
            refine Summary.topAug_infl (hx.1.2.2.1 c' hc') ?_
            refine kid_part_asc (x := f.fill y) ?_ (List.mem_append.2 (.inl hc'))
            refine hasc.sublist (List.Sublist.map _ ?_)
            rw [T.toL, T.toL, ← hp, Ctx.leaves_plug, List.flatMap_append, List.flatMap_append]
            exact (List.sublist_append_right _ _).trans (List.sublist_append_left _ _)
          · intro p hp'
            rw [List.mem_map] at hp'
            obtain ⟨c', hc', rfl⟩ := hp'
            have := kid_ne_nil hsh (c := c') (List.mem_append.2 (.inl hc'))
            obtain ⟨e, he⟩ := List.exists_mem_of_ne_nil _ this
            refine List.ne_nil_of_mem (a := FromRef.fromRef e.1) (mem_inflAll.2 ?_)
            rw [leafGroups_flatten]
            exact List.mem_map_of_mem (f := fun e : K × V => (FromRef.fromRef e.1 : G)) he
          · rw [hx.1.1]; simpa using h0
        · rw [Ctx.lvL, List.map_append, hpre, List.append_assoc]
        · intro z hz
          rw [hstep z hz, if_neg (by simpa using h0)])
  refine ⟨c, x, r, hp, hl, hr, ?_⟩
  rw [e]
  show Except.ok (GroupCount.foldLeaf _ _ _ _) = _
  rw [List.map_map]
  rfl

end
end Bpt
