import Mathlib.Data.Finset.Card
import Mathlib.Algebra.Order.BigOperators.Group.Finset
import Verif.Proofs.Weighted
import Verif.Proofs.Hom

/-!
# `GroupCount`: what the summaries say about the groups of the stored keys
-/

namespace Bpt
open Bpt.Spec

section Lists
variable {G : Type} [LinearOrder G]

/-- Ascending list of groups. -/
abbrev Asc (gs : List G) : Prop := gs.Pairwise (· ≤ ·)

omit [LinearOrder G] in
theorem head?_mem {gs : List G} {m : G} (h : gs.head? = some m) : m ∈ gs :=
  List.mem_of_mem_head? h

omit [LinearOrder G] in
theorem getLast?_mem {gs : List G} {m : G} (h : gs.getLast? = some m) : m ∈ gs :=
  List.mem_of_mem_getLast? h

theorem Asc.head_le {gs : List G} (h : Asc gs) {m x : G} (hm : gs.head? = some m) (hx : x ∈ gs) :
    m ≤ x := by
  cases gs with
  | nil => simp at hx
  | cons g gs =>
    simp at hm; subst hm
    rcases List.mem_cons.1 hx with rfl | hx
    · exact le_rfl
    · exact (List.pairwise_cons.1 h).1 _ hx

theorem Asc.le_last {gs : List G} (h : Asc gs) {m x : G} (hm : gs.getLast? = some m) (hx : x ∈ gs) :
    x ≤ m := by
  obtain ⟨gs', rfl⟩ := List.getLast?_eq_some_iff.1 hm
  rcases List.mem_append.1 hx with hx | hx
  · exact (List.pairwise_append.1 h).2.2 _ hx _ (by simp)
  · simp at hx; exact hx.le

theorem Asc.cross {gs gs' : List G} (h : Asc (gs ++ gs')) {x y : G} (hx : x ∈ gs) (hy : y ∈ gs') :
    x ≤ y := (List.pairwise_append.1 h).2.2 _ hx _ hy

theorem Asc.left {gs gs' : List G} (h : Asc (gs ++ gs')) : Asc gs := (List.pairwise_append.1 h).1
theorem Asc.right {gs gs' : List G} (h : Asc (gs ++ gs')) : Asc gs' := (List.pairwise_append.1 h).2.1

theorem count_zero_of_lt {gs : List G} {g : G} (h : ∀ x ∈ gs, x < g) : gs.count g = 0 :=
  List.count_eq_zero.2 (fun hg => lt_irrefl _ (h _ hg))

theorem count_zero_of_gt {gs : List G} {g : G} (h : ∀ x ∈ gs, g < x) : gs.count g = 0 :=
  List.count_eq_zero.2 (fun hg => lt_irrefl _ (h _ hg))

theorem Asc.card_append {gs gs' : List G} (h : Asc (gs ++ gs')) {m m' : G}
    (hm : gs.getLast? = some m) (hm' : gs'.head? = some m') :
    (gs ++ gs').toFinset.card =
      if m = m' then gs.toFinset.card + gs'.toFinset.card - 1
      else gs.toFinset.card + gs'.toFinset.card := by
  have hu := Finset.card_union_add_card_inter gs.toFinset gs'.toFinset
  rw [List.toFinset_append]
  have h1 : ∀ x, x ∈ gs.toFinset ∩ gs'.toFinset ↔ x = m ∧ m = m' := by
    intro x
    simp only [Finset.mem_inter, List.mem_toFinset]
    constructor
    · rintro ⟨h1, h2⟩
      have a := h.left.le_last hm h1
      have b := h.right.head_le hm' h2
      have c := h.cross (getLast?_mem hm) (head?_mem hm')
      have d := h.cross (getLast?_mem hm) h2
      exact ⟨le_antisymm a d, le_antisymm c (b.trans a)⟩
    · rintro ⟨rfl, rfl⟩
      exact ⟨getLast?_mem hm, head?_mem hm'⟩
  split
  · rename_i e
    have : gs.toFinset ∩ gs'.toFinset = {m} := by
      ext x; rw [h1]; simp [e]
    rw [this, Finset.card_singleton] at hu
    omega
  · rename_i e
    have : gs.toFinset ∩ gs'.toFinset = ∅ := by
      ext x; rw [h1]; simp [e]
    rw [this, Finset.card_empty] at hu
    omega

end Lists

/-- What a `GroupCount` says about the (ascending) list of groups it summarises. `ex` stands for
exactness of the size of the last group. -/
def Summary {G : Type} [LinearOrder G] (ex : Prop) : GroupCount G → List G → Prop
  | .zero, gs => gs = []
  | .one g c, gs => 0 < c ∧ gs = List.replicate c g
  | .multiple mn mx n, gs => mn.1 < mx.1 ∧ gs.head? = some mn.1 ∧ gs.getLast? = some mx.1 ∧
      gs.count mn.1 = mn.2 ∧ gs.count mx.1 ≤ mx.2 ∧ (ex → gs.count mx.1 = mx.2) ∧
      gs.toFinset.card = n

section
variable {G : Type} [LinearOrder G] {ex : Prop}

theorem replicate_head {c : Nat} (h : 0 < c) (g : G) : (List.replicate c g).head? = some g := by
  cases c with
  | zero => omega
  | succ c => rfl

theorem replicate_last {c : Nat} (h : 0 < c) (g : G) : (List.replicate c g).getLast? = some g := by
  rw [List.getLast?_replicate, if_neg (by omega)]

theorem replicate_card {c : Nat} (h : 0 < c) (g : G) : (List.replicate c g).toFinset.card = 1 := by
  rw [List.toFinset_replicate_of_ne_zero (by omega), Finset.card_singleton]

theorem head?_append_some {gs gs' : List G} {m : G} (h : gs.head? = some m) :
    (gs ++ gs').head? = some m := by
  cases gs with
  | nil => simp at h
  | cons => simpa using h

theorem getLast?_append_some {gs gs' : List G} {m : G} (h : gs'.getLast? = some m) :
    (gs ++ gs').getLast? = some m := by
  rw [List.getLast?_append, h]; rfl

theorem Summary.merge {a b : GroupCount G} {gs gs' : List G} (ha : Summary ex a gs)
    (hb : Summary ex b gs') (hs : Asc (gs ++ gs')) : Summary ex (a.mergeWith b) (gs ++ gs') := by
  cases a with
  | zero =>
    simp only [Summary] at ha; subst ha
    simpa [GroupCount.mergeWith] using hb
  | one g1 c1 =>
    obtain ⟨h1, rfl⟩ := ha
    have hh := replicate_head h1 g1
    have hl := replicate_last h1 g1
    cases b with
    | zero => simp only [Summary] at hb; subst hb; simpa [GroupCount.mergeWith] using ⟨h1, rfl⟩
    | one g2 c2 =>
      obtain ⟨h2, rfl⟩ := hb
      have hc := hs.card_append hl (replicate_head h2 g2)
      have hle := hs.cross (getLast?_mem hl) (head?_mem (replicate_head h2 g2))
      simp only [replicate_card h1, replicate_card h2] at hc
      by_cases e : g1 = g2
      · subst e
        simp only [GroupCount.mergeWith, if_true, Summary]
        exact ⟨by omega, by rw [List.replicate_append_replicate]⟩
      · simp only [GroupCount.mergeWith, if_neg e, Summary]
        rw [if_neg e] at hc
        refine ⟨lt_of_le_of_ne hle e, head?_append_some hh,
          getLast?_append_some (replicate_last h2 g2), ?_, ?_, ?_, hc⟩ <;>
        simp [List.count_append, List.count_replicate, e, Ne.symm e]
    | multiple mn mx n =>
      obtain ⟨b1, b2, b3, b4, b5, b6, b7⟩ := hb
      have hc := hs.card_append hl b2
      have hle := hs.cross (getLast?_mem hl) (head?_mem b2)
      simp only [replicate_card h1, b7] at hc
      by_cases e : g1 = mn.1
      · simp only [GroupCount.mergeWith, if_pos e, Summary]
        rw [if_pos e] at hc
        have e' : g1 ≠ mx.1 := by rw [e]; exact b1.ne
        refine ⟨e ▸ b1, head?_append_some hh, getLast?_append_some b3, ?_, ?_, ?_, by omega⟩
        · rw [List.count_append, List.count_replicate_self, e, b4]
        · rw [List.count_append, List.count_replicate]; simpa [e'] using b5
        · rw [List.count_append, List.count_replicate]; simpa [e'] using b6
      · simp only [GroupCount.mergeWith, if_neg e, Summary]
        rw [if_neg e] at hc
        have lt := lt_of_le_of_ne hle e
        have e' : g1 ≠ mx.1 := (lt.trans b1).ne
        refine ⟨lt.trans b1, head?_append_some hh, getLast?_append_some b3, ?_, ?_, ?_, by omega⟩
        · rw [List.count_append, List.count_replicate_self,
            count_zero_of_gt (fun x hx => lt_of_lt_of_le lt (hs.right.head_le b2 hx))]; rfl
        · rw [List.count_append, List.count_replicate]; simpa [e'] using b5
        · rw [List.count_append, List.count_replicate]; simpa [e'] using b6
  | multiple mn mx n =>
    obtain ⟨a1, a2, a3, a4, a5, a6, a7⟩ := ha
    cases b with
    | zero =>
      simp only [Summary] at hb; subst hb
      simpa [GroupCount.mergeWith] using ⟨a1, a2, a3, a4, a5, a6, a7⟩
    | one g2 c2 =>
      obtain ⟨h2, rfl⟩ := hb
      have hc := hs.card_append a3 (replicate_head h2 g2)
      have hle := hs.cross (getLast?_mem a3) (head?_mem (replicate_head h2 g2))
      simp only [replicate_card h2, a7] at hc
      by_cases e : g2 = mx.1
      · simp only [GroupCount.mergeWith, if_pos e, Summary]
        rw [if_pos e.symm] at hc
        have e' : g2 ≠ mn.1 := by rw [e]; exact a1.ne'
        refine ⟨a1, head?_append_some a2, getLast?_append_some (e ▸ replicate_last h2 g2), ?_, ?_, ?_,
          by omega⟩
        · rw [List.count_append, List.count_replicate, a4]; simp [e']
        · rw [List.count_append, e, List.count_replicate_self]; omega
        · intro h; rw [List.count_append, e, List.count_replicate_self, a6 h]
      · simp only [GroupCount.mergeWith, if_neg e, Summary]
        rw [if_neg (Ne.symm e)] at hc
        have lt := lt_of_le_of_ne hle (Ne.symm e)
        have e' : g2 ≠ mn.1 := (a1.trans lt).ne'
        have z := count_zero_of_lt (fun x hx => lt_of_le_of_lt (hs.left.le_last a3 hx) lt)
        refine ⟨a1.trans lt, head?_append_some a2, getLast?_append_some (replicate_last h2 g2),
          ?_, ?_, ?_, by omega⟩
        · rw [List.count_append, List.count_replicate, a4]; simp [e']
        · rw [List.count_append, List.count_replicate_self, z]; simp
        · intro _; rw [List.count_append, List.count_replicate_self, z]; simp
    | multiple mn2 mx2 n2 =>
      obtain ⟨b1, b2, b3, b4, b5, b6, b7⟩ := hb
      have hc := hs.card_append a3 b2
      have hle := hs.cross (getLast?_mem a3) (head?_mem b2)
      simp only [b7, a7] at hc
      simp only [GroupCount.mergeWith, Summary]
      have z := count_zero_of_lt
        (fun x hx => lt_of_le_of_lt ((hs.left.le_last a3 hx).trans hle) b1)
      refine ⟨a1.trans_le (hle.trans b1.le), head?_append_some a2, getLast?_append_some b3,
        ?_, ?_, ?_, hc⟩
      · rw [List.count_append, a4, count_zero_of_gt (fun x hx =>
          lt_of_lt_of_le (a1.trans_le hle) (hs.right.head_le b2 hx))]; rfl
      · rw [List.count_append, z]; omega
      · intro h; rw [List.count_append, z, b6 h]; omega

theorem Summary.foldl {as : List (GroupCount G)} {ps : List (List G)}
    (h : List.Forall₂ (Summary ex) as ps) {a : GroupCount G} {gs : List G} (ha : Summary ex a gs)
    (hs : Asc (gs ++ ps.flatten)) :
    Summary ex (as.foldl GroupCount.mergeWith a) (gs ++ ps.flatten) := by
  induction h generalizing a gs with
  | nil => simpa using ha
  | cons h1 h2 ih =>
    simp only [List.foldl_cons, List.flatten_cons]
    rw [← List.append_assoc]
    rw [List.flatten_cons, ← List.append_assoc] at hs
    exact ih (ha.merge h1 hs.left) hs

/-- Only the first and the last group of the list may have several members. -/
def InteriorSingle (gs : List G) : Prop :=
  ∀ g ∈ gs, gs.head? ≠ some g → gs.getLast? ≠ some g → gs.count g = 1

theorem count_split {gs : List G} {a b : G} (hab : a ≠ b) (ha : a ∈ gs) (hb : b ∈ gs) :
    gs.count a + gs.count b + (gs.toFinset.card - 2) ≤ gs.length ∧
    ((∀ g ∈ gs, g ≠ a → g ≠ b → gs.count g = 1) →
      gs.count a + gs.count b + (gs.toFinset.card - 2) = gs.length) := by
  have hsum := Multiset.toFinset_sum_count_eq (gs : Multiset G)
  simp only [Multiset.coe_count, Multiset.coe_card] at hsum
  have hf : (gs : Multiset G).toFinset = gs.toFinset := rfl
  rw [hf] at hsum
  have ha' : a ∈ gs.toFinset := by simpa using ha
  have hb' : b ∈ gs.toFinset.erase a := by simp [Ne.symm hab, hb]
  rw [← Finset.add_sum_erase _ _ ha', ← Finset.add_sum_erase _ _ hb'] at hsum
  have hcard : ((gs.toFinset.erase a).erase b).card = gs.toFinset.card - 2 := by
    rw [Finset.card_erase_of_mem hb', Finset.card_erase_of_mem ha']; omega
  rw [← hsum, ← hcard]
  constructor
  · have : ((gs.toFinset.erase a).erase b).card ≤ ∑ x ∈ (gs.toFinset.erase a).erase b, gs.count x := by
      rw [Finset.card_eq_sum_ones]
      apply Finset.sum_le_sum
      intro i hi
      simp at hi
      exact List.count_pos_iff.2 hi.2.2
    omega
  · intro h
    have : ((gs.toFinset.erase a).erase b).card = ∑ x ∈ (gs.toFinset.erase a).erase b, gs.count x := by
      rw [Finset.card_eq_sum_ones]
      apply Finset.sum_congr rfl
      intro i hi
      simp at hi
      exact (h i hi.2.2 hi.2.1 hi.1).symm
    omega

theorem scan_inv (g0 : G) (gs : List G) (hs : Asc (g0 :: gs)) :
    let st := gs.foldl GroupCount.leafScanStep ⟨g0, true, 1, 1, 1⟩
    (g0 :: gs).getLast? = some st.last ∧ st.groupCount = (g0 :: gs).toFinset.card ∧
      st.minCount = (g0 :: gs).count g0 ∧
      (st.inFirst = true → st.last = g0 ∧ st.groupCount = 1 ∧ st.minCount = gs.length + 1) ∧
      (st.inFirst = true ↔ st.last = g0) ∧
      (st.inFirst = false → 2 ≤ st.groupCount ∧
        st.lastCount + st.groupCount + st.minCount = gs.length + 3) ∧
      (st.inFirst = true → st.lastCount = 1) := by
  induction gs using List.reverseRecOn with
  | nil => simp
  | append_singleton gs g ih =>
    rw [← List.cons_append] at hs
    have ih := ih hs.left
    simp only [List.foldl_append, List.foldl_cons, List.foldl_nil] at ih ⊢
    generalize gs.foldl GroupCount.leafScanStep ⟨g0, true, 1, 1, 1⟩ = st at ih
    obtain ⟨i1, i2, i3, i4, i4', i5, i6⟩ := ih
    have hc := hs.card_append i1 (m' := g) rfl
    have hle := hs.cross (getLast?_mem i1) (y := g) (by simp)
    have h0 := hs.cross (x := g0) (y := g) (by simp) (by simp)
    rw [← List.cons_append]
    have hcnt : ((g0 :: gs) ++ [g]).count g0 = (g0 :: gs).count g0 + if g = g0 then 1 else 0 := by
      rw [List.count_append, List.count_singleton]
      by_cases e : g = g0 <;> simp [e]
    have h1 : [g].toFinset.card = 1 := by simp
    rw [h1] at hc
    have hlast : ((g0 :: gs) ++ [g]).getLast? = some g := getLast?_append_some rfl
    unfold GroupCount.leafScanStep
    by_cases e : st.last = g
    · subst e
      simp only [ne_eq, not_true, if_false]
      simp only [if_true] at hc
      cases hin : st.inFirst with
      | true =>
        obtain ⟨j1, j2, j3⟩ := i4 hin
        simp only [if_true]
        refine ⟨hlast, ?_, ?_, ?_, ?_, ?_, ?_⟩
        · rw [hc, i2]; omega
        · rw [hcnt, j1, i3]; simp
        · intro _; exact ⟨j1, j2, by simp [j3]⟩
        · simp [hin, j1]
        · simp [hin]
        · intro _; exact i6 hin
      | false =>
        obtain ⟨j1, j2⟩ := i5 hin
        have hne : st.last ≠ g0 := fun h => by rw [i4'.2 h] at hin; simp at hin
        simp only [Bool.false_eq_true, if_false]
        refine ⟨hlast, ?_, ?_, ?_, ?_, ?_, ?_⟩
        · rw [hc, i2]; omega
        · rw [hcnt, if_neg hne, i3]; rfl
        · simp [hin]
        · simp [hin, hne]
        · intro _; exact ⟨j1, by simp; omega⟩
        · simp [hin]
    · have hne : g ≠ g0 := by
        rintro rfl
        exact e (le_antisymm hle (hs.left.head_le rfl (getLast?_mem i1)))
      simp only [ne_eq, e, not_false_eq_true, if_true]
      rw [if_neg e] at hc
      refine ⟨hlast, ?_, ?_, ?_, ?_, ?_, ?_⟩
      · rw [hc, i2]
      · rw [hcnt, if_neg hne, i3]; rfl
      · simp
      · simpa using hne
      · intro _
        cases hin : st.inFirst with
        | true =>
          obtain ⟨j1, j2, j3⟩ := i4 hin
          have := i6 hin
          simp
          omega
        | false =>
          obtain ⟨j1, j2⟩ := i5 hin
          simp
          omega
      · simp

theorem Summary.leaf {gs : List G} (hs : Asc gs) (hex : ex → InteriorSingle gs) :
    Summary ex (GroupCount.scanLeaf gs) gs := by
  cases gs with
  | nil => rfl
  | cons g0 gs =>
    have hi := scan_inv g0 gs hs
    simp only [GroupCount.scanLeaf]
    generalize gs.foldl GroupCount.leafScanStep ⟨g0, true, 1, 1, 1⟩ = st at hi
    obtain ⟨i1, i2, i3, i4, i4', i5, i6⟩ := hi
    cases hin : st.inFirst with
    | true =>
      obtain ⟨j1, j2, j3⟩ := i4 hin
      rw [if_pos j2, j3]
      refine ⟨by omega, ?_⟩
      rw [List.eq_replicate_iff]
      refine ⟨rfl, fun x hx => le_antisymm ?_ (hs.head_le rfl hx)⟩
      exact j1 ▸ hs.le_last i1 hx
    | false =>
      obtain ⟨j1, j2⟩ := i5 hin
      have hne : st.last ≠ g0 := fun h => by rw [i4'.2 h] at hin; simp at hin
      rw [if_neg (by omega)]
      have hlt : g0 < st.last := lt_of_le_of_ne (hs.head_le rfl (getLast?_mem i1)) (Ne.symm hne)
      obtain ⟨c1, c2⟩ := count_split hne (getLast?_mem i1) (head?_mem rfl)
      simp only [List.length_cons] at c1 c2
      refine ⟨hlt, rfl, i1, i3.symm, ?_, ?_, i2.symm⟩
      · show List.count st.last (g0 :: gs) ≤ st.lastCount
        omega
      · intro h
        have := c2 (fun g hg h1 h2 => hex h g hg (by simpa using Ne.symm h2)
          (by rw [i1]; simpa using Ne.symm h1))
        show List.count st.last (g0 :: gs) = st.lastCount
        omega

end
end Bpt
