import Verif.Proofs.Group
import Verif.Proofs.Rank
import Verif.Proofs.ReachInv

/-!
# `GroupCount` on trees: search, rank, the group size visitor
-/

namespace Bpt
open Bpt.Spec

section Loops
variable {G : Type} [LinearOrder G] {ex : Prop}

/-- One for the members of the group. -/
abbrev inGroup (g : G) (x : G) : Nat := if x = g then 1 else 0

theorem sum_inGroup (g : G) (gs : List G) : (gs.map (inGroup g)).sum = gs.count g := by
  induction gs with
  | nil => rfl
  | cons x gs ih =>
    simp only [List.map_cons, List.sum_cons, ih, List.count_cons, inGroup]
    by_cases h : x = g <;> simp [h, Nat.add_comm]

theorem locateLeafLoop_eq (g : G) (o : Nat) (idx n : Nat) (gs : List G) (hs : Asc gs) (hn : n ≤ o) :
    GroupCount.locateLeafLoop g o idx n gs = (wfind (inGroup g) gs (o - n)).map (idx + ·) := by
  induction gs generalizing idx n with
  | nil => rfl
  | cons x gs ih =>
    have hs' := (List.pairwise_cons.1 hs).2
    simp only [GroupCount.locateLeafLoop, wfind, inGroup]
    by_cases h1 : x < g
    · rw [if_pos h1, if_neg h1.ne, if_neg (by omega), ih _ _ hs' hn, Option.map_map, Nat.sub_zero]
      congr 1
      funext m; simp only [Function.comp]; omega
    · rw [if_neg h1]
      by_cases h2 : x = g
      · rw [if_pos h2, if_pos h2]
        by_cases h3 : n = o
        · rw [if_pos h3, if_pos (by omega)]; rfl
        · rw [if_neg h3, if_neg (by omega), ih _ _ hs' (by omega), Option.map_map, Nat.sub_sub]
          congr 1
          funext m; simp only [Function.comp]; omega
      · rw [if_neg h2, if_neg h2, if_neg (by omega)]
        have : wfind (inGroup g) gs (o - n - 0) = none := by
          rw [wfind_none, sum_inGroup, count_zero_of_gt]
          · omega
          · intro y hy
            have := (List.pairwise_cons.1 hs).1 y hy
            exact lt_of_lt_of_le (lt_of_le_of_ne (not_lt.1 h1) (Ne.symm h2)) this
        rw [this]; rfl

theorem locateLeafLoop_lt {g : G} {o : Nat} {idx n : Nat} {gs : List G} {i : Nat}
    (h : GroupCount.locateLeafLoop g o idx n gs = some i) :
    idx ≤ i ∧ gs[i - idx]? = some g := by
  induction gs generalizing idx n with
  | nil => simp [GroupCount.locateLeafLoop] at h
  | cons x gs ih =>
    have step : ∀ n, GroupCount.locateLeafLoop g o (idx + 1) n gs = some i →
        idx ≤ i ∧ (x :: gs)[i - idx]? = some g := by
      intro n h
      obtain ⟨h1, h2⟩ := ih h
      refine ⟨by omega, ?_⟩
      rw [show i - idx = i - (idx + 1) + 1 by omega]
      simpa using h2
    simp only [GroupCount.locateLeafLoop] at h
    split at h
    · exact step _ h
    · split at h
      · split at h
        · cases h; simp_all
        · exact step _ h
      · simp at h

theorem Summary.max {a : GroupCount G} {gs : List G} (h : Summary ex a gs) (hn : gs ≠ []) :
    ∃ m c, a.maxGroup? = some (m, c) ∧ gs.getLast? = some m ∧ 0 < gs.count m ∧ gs.count m ≤ c ∧
      (ex → gs.count m = c) := by
  cases a with
  | zero => exact absurd h hn
  | one g c =>
    obtain ⟨h1, rfl⟩ := h
    exact ⟨g, c, rfl, replicate_last h1 g, by simpa using h1, by simp, by simp⟩
  | multiple mn mx n =>
    obtain ⟨h1, h2, h3, h4, h5, h6, h7⟩ := h
    exact ⟨mx.1, mx.2, rfl, h3, List.count_pos_iff.2 (getLast?_mem h3), h5, h6⟩

/-- Pass over a part without members of the group. -/
theorem wfind_skip {g : G} {p : List G} (hp : p.count g = 0) (rest : List G) (o : Nat) :
    wfind (inGroup g) (p ++ rest) o = (wfind (inGroup g) rest o).map (p.length + ·) := by
  rw [wfind_append, sum_inGroup, hp, if_neg (by omega), Nat.sub_zero]

theorem locateInnerLoop_eq {g : G} {o : Nat} {idx : Nat} {as : List (GroupCount G)}
    {ps : List (List G)} (h : List.Forall₂ (Summary ex) as ps) (hs : Asc ps.flatten)
    (hex : ex ∨ o = 0) :
    match GroupCount.locateInnerLoop g idx o as with
    | none => wfind (inGroup g) ps.flatten o = none
    | some (i, q) => q.1 = g ∧ (ex ∨ q.2 = 0) ∧ idx ≤ i ∧ ∃ p, ps[i - idx]? = some p ∧
        wfind (inGroup g) ps.flatten o =
          (wfind (inGroup g) p q.2).map ((ps.take (i - idx)).flatten.length + ·) := by
  induction h generalizing idx o with
  | nil => rfl
  | @cons a p as ps h1 h2 ih =>
    rw [List.flatten_cons] at hs
    -- skipping a part
    have skip : ∀ o', (ex ∨ o' = 0) →
        wfind (inGroup g) (p ++ ps.flatten) o = (wfind (inGroup g) ps.flatten o').map (p.length + ·) →
        match GroupCount.locateInnerLoop g (idx + 1) o' as with
        | none => wfind (inGroup g) (p :: ps).flatten o = none
        | some (i, q) => q.1 = g ∧ (ex ∨ q.2 = 0) ∧ idx ≤ i ∧ ∃ p', (p :: ps)[i - idx]? = some p' ∧
            wfind (inGroup g) (p :: ps).flatten o =
              (wfind (inGroup g) p' q.2).map (((p :: ps).take (i - idx)).flatten.length + ·) := by
      intro o' hex' ho
      have := ih (idx := idx + 1) hs.right hex'
      rw [List.flatten_cons, ho]
      cases hl : GroupCount.locateInnerLoop g (idx + 1) o' as with
      | none => rw [hl] at this; simp only at this ⊢; rw [this]; rfl
      | some r =>
        obtain ⟨i, q⟩ := r
        rw [hl] at this
        obtain ⟨c1, c2, c3, p', c4, c5⟩ := this
        refine ⟨c1, c2, by omega, p', ?_, ?_⟩
        · rw [show i - idx = i - (idx + 1) + 1 by omega]; simpa using c4
        · rw [c5, Option.map_map, show i - idx = i - (idx + 1) + 1 by omega]
          simp only [List.take_succ_cons, List.flatten_cons, List.length_append]
          congr 1
          funext m; simp only [Function.comp]; omega
    -- choosing the part
    have choose : wfind (inGroup g) (p ++ ps.flatten) o = wfind (inGroup g) p o →
        True ∧ (ex ∨ o = 0) ∧ idx ≤ idx ∧ ∃ p', (p :: ps)[idx - idx]? = some p' ∧
            wfind (inGroup g) (p :: ps).flatten o =
              (wfind (inGroup g) p' o).map (((p :: ps).take (idx - idx)).flatten.length + ·) := by
      intro ho
      refine ⟨trivial, hex, le_rfl, p, by simp, ?_⟩
      rw [List.flatten_cons, ho]
      simp
    cases a with
    | zero =>
      simp only [Summary] at h1; subst h1
      simp only [GroupCount.locateInnerLoop]
      exact skip o hex (by simp)
    | one g' c =>
      obtain ⟨hc, rfl⟩ := h1
      simp only [GroupCount.locateInnerLoop]
      by_cases e1 : g' < g
      · simp only [if_pos e1]
        refine skip o hex (wfind_skip ?_ _ _)
        rw [List.count_replicate]; simp [e1.ne]
      · simp only [if_neg e1]
        by_cases e2 : g' = g
        · subst e2
          simp only [if_true]
          by_cases e3 : o < c
          · simp only [if_pos e3]
            refine choose ?_
            rw [wfind_append, sum_inGroup, if_pos (by simpa using e3)]
          · simp only [if_neg e3]
            refine skip (o - c) (hex.imp id (by omega)) ?_
            rw [wfind_append, sum_inGroup, if_neg (by simpa using e3)]
            simp
        · simp only [if_neg e2]
          rw [List.flatten_cons, wfind_none, sum_inGroup, count_zero_of_gt]
          · omega
          · intro y hy
            have hlt : g < g' := lt_of_le_of_ne (not_lt.1 e1) (Ne.symm e2)
            exact lt_of_lt_of_le hlt (hs.head_le (head?_append_some (replicate_head hc g')) hy)
    | multiple mn mx n =>
      obtain ⟨b1, b2, b3, b4, b5, b6, b7⟩ := h1
      simp only [GroupCount.locateInnerLoop]
      by_cases e1 : mx.1 < g
      · simp only [if_pos e1]
        refine skip o hex (wfind_skip ?_ _ _)
        exact count_zero_of_lt (fun x hx => lt_of_le_of_lt (hs.left.le_last b3 hx) e1)
      · simp only [if_neg e1]
        by_cases e2 : mx.1 = g
        · subst e2
          simp only [if_true]
          have hpos : 0 < p.count mx.1 := List.count_pos_iff.2 (getLast?_mem b3)
          by_cases e3 : o < mx.2
          · simp only [if_pos e3]
            refine choose ?_
            rw [wfind_append, sum_inGroup, if_pos]
            rcases hex with hex | rfl
            · rw [b6 hex]; exact e3
            · exact hpos
          · simp only [if_neg e3]
            rcases hex with hex | rfl
            · refine skip (o - mx.2) (.inl hex) ?_
              rw [wfind_append, sum_inGroup, if_neg (by rw [b6 hex]; exact e3), b6 hex]
            · omega
        · simp only [if_neg e2]
          refine choose ?_
          have hlt : g < mx.1 := lt_of_le_of_ne (not_lt.1 e1) (Ne.symm e2)
          rw [wfind_append, sum_inGroup]
          split
          · rfl
          · rename_i e3
            have : wfind (inGroup g) ps.flatten (o - p.count g) = none := by
              rw [wfind_none, sum_inGroup, count_zero_of_gt]
              · omega
              · intro y hy
                exact lt_of_lt_of_le hlt (hs.cross (getLast?_mem b3) hy)
            rw [this]
            symm
            rw [Option.map_none, wfind_none, sum_inGroup]
            omega

theorem locateInnerLoop_lt {g : G} {o : Nat} {idx : Nat} {as : List (GroupCount G)} {i : Nat}
    {q : G × Nat} (h : GroupCount.locateInnerLoop g idx o as = some (i, q)) :
    idx ≤ i ∧ i < idx + as.length ∧ q.1 = g := by
  induction as generalizing idx o with
  | nil => simp [GroupCount.locateInnerLoop] at h
  | cons a as ih =>
    have step : ∀ o, GroupCount.locateInnerLoop g (idx + 1) o as = some (i, q) →
        idx ≤ i ∧ i < idx + (a :: as).length ∧ q.1 = g := by
      intro o h
      obtain ⟨h1, h2, h3⟩ := ih h
      exact ⟨by omega, by simp; omega, h3⟩
    have here : ∀ o, (some (idx, (g, o)) : Option (Nat × (G × Nat))) = some (i, q) →
        idx ≤ i ∧ i < idx + (a :: as).length ∧ q.1 = g := by
      intro o h
      cases h
      exact ⟨le_rfl, by simp, rfl⟩
    cases a with
    | zero => exact step _ h
    | one g' c =>
      simp only [GroupCount.locateInnerLoop] at h
      split at h
      · exact step _ h
      · split at h
        · split at h
          · exact here _ h
          · exact step _ h
        · simp at h
    | multiple mn mx n =>
      simp only [GroupCount.locateInnerLoop] at h
      split at h
      · exact step _ h
      · split at h
        · split at h
          · exact here _ h
          · exact step _ h
        · exact here _ h

theorem forall₂_snoc {α β : Type} {R : α → β → Prop} {as : List α} {a : α} {bs : List β}
    (h : List.Forall₂ R (as ++ [a]) bs) :
    ∃ bs' b, bs = bs' ++ [b] ∧ List.Forall₂ R as bs' ∧ R a b := by
  induction as generalizing bs with
  | nil =>
    cases h with
    | cons h1 h2 => cases h2; exact ⟨[], _, rfl, .nil, h1⟩
  | cons a' as ih =>
    cases h with
    | cons h1 h2 =>
      obtain ⟨bs', b, rfl, h3, h4⟩ := ih h2
      exact ⟨_ :: bs', b, rfl, .cons h1 h3, h4⟩

/-- The last group and its size. -/
def lastGroup (gs : List G) : Option (G × Nat) := gs.getLast?.map (fun g => (g, gs.count g))

theorem lastGroup_of_last {gs : List G} {m : G} (h : gs.getLast? = some m) :
    lastGroup gs = some (m, gs.count m) := by simp [lastGroup, h]

theorem sumSameGroup_eq {m : G} {as : List (GroupCount G)} {ps : List (List G)}
    (h : List.Forall₂ (Summary True) as ps) (hn : ∀ p ∈ ps, p ≠ []) (hs : Asc ps.flatten)
    (hm : ∀ x ∈ ps.flatten, x ≤ m) :
    GroupCount.sumSameGroup m as.reverse = ps.flatten.count m := by
  induction as using List.reverseRecOn generalizing ps with
  | nil => cases h; rfl
  | append_singleton as a ih =>
    obtain ⟨ps', p, rfl, h1, h2⟩ := forall₂_snoc h
    have hp : p ≠ [] := hn p (by simp)
    obtain ⟨m', c, e1, e2, e3, e4, e5⟩ := h2.max hp
    simp only [List.flatten_append, List.flatten_cons, List.flatten_nil, List.append_nil] at hs hm ⊢
    simp only [List.reverse_append, List.reverse_cons, List.reverse_nil, List.nil_append,
      List.cons_append, GroupCount.sumSameGroup, e1]
    by_cases e : m' = m
    · subst e
      rw [if_pos rfl, ih h1 (fun p hp => hn p (by simp [hp])) hs.left
        (fun x hx => hm x (by simp only [List.mem_append]; exact .inl hx)), List.count_append,
        ← e5 trivial]
      omega
    · rw [if_neg e, count_zero_of_lt]
      intro x hx
      have h1 := hs.le_last (getLast?_append_some e2) hx
      exact lt_of_le_of_lt h1 (lt_of_le_of_ne
        (hm m' (List.mem_append.2 (.inr (getLast?_mem e2)))) e)

theorem foldInner_eq {L : List G} {as : List (GroupCount G)} {ps : List (List G)}
    (h : List.Forall₂ (Summary True) as ps) (hn : ∀ p ∈ ps, p ≠ []) (hs : Asc (L ++ ps.flatten))
    (hne : as ≠ []) :
    GroupCount.foldInner (lastGroup L) as = lastGroup (L ++ ps.flatten) := by
  obtain ⟨as', a, rfl⟩ : ∃ as' a, as = as' ++ [a] :=
    ⟨as.dropLast, as.getLast hne, (List.dropLast_append_getLast hne).symm⟩
  obtain ⟨ps', p, rfl, h1, h2⟩ := forall₂_snoc h
  have hp : p ≠ [] := hn p (by simp)
  obtain ⟨m, c, e1, e2, e3, e4, e5⟩ := h2.max hp
  simp only [List.flatten_append, List.flatten_cons, List.flatten_nil, List.append_nil] at hs ⊢
  have hsum := sumSameGroup_eq (m := m) h1 (fun p hp => hn p (by simp [hp])) hs.right.left
    (fun x hx => hs.right.cross hx (getLast?_mem e2))
  rw [lastGroup_of_last (getLast?_append_some (getLast?_append_some e2))]
  simp only [GroupCount.foldInner, List.reverse_append, List.reverse_cons, List.reverse_nil,
    List.nil_append, List.cons_append, e1, hsum]
  rw [List.count_append, List.count_append, e5 trivial]
  cases hL : L.getLast? with
  | none =>
    have : L = [] := by simpa using hL
    subst this
    simp [lastGroup, Nat.add_comm]
  | some gl =>
    rw [lastGroup_of_last hL]
    simp only
    by_cases e : gl = m
    · rw [if_pos e, e]; congr 2; omega
    · rw [if_neg e]
      have hle := hs.cross (getLast?_mem hL) (y := m)
        (List.mem_append.2 (.inr (getLast?_mem e2)))
      have : L.count m = 0 := count_zero_of_lt (fun x hx =>
        lt_of_le_of_lt (hs.left.le_last hL hx) (lt_of_le_of_ne hle e))
      rw [this]; congr 2; omega

theorem extractInnerLoop_eq {g : G} {ci idx prev cnt : Nat} {as : List (GroupCount G)}
    {ps : List (List G)} (h : List.Forall₂ (Summary True) as ps) (hn : ∀ p ∈ ps, p ≠ [])
    (hs : Asc ps.flatten) (hprev : prev = 0 ∨ ∀ x ∈ ps.flatten, g ≤ x) (hne : as ≠ []) :
    ∃ i cnt' p, GroupCount.extractInnerLoop g ci idx prev cnt as = some (i, cnt') ∧ idx ≤ i ∧
      ps[i - idx]? = some p ∧ cnt' + p.count g = cnt + prev + ps.flatten.count g := by
  induction h generalizing ci idx prev cnt with
  | nil => exact absurd rfl hne
  | @cons a p as ps h1 h2 ih =>
    rw [List.flatten_cons] at hs hprev ⊢
    obtain ⟨m, c, e1, e2, e3, e4, e5⟩ := h1.max (hn p (by simp))
    have c5 := e5 trivial
    have hlast := fun x (hx : x ∈ p) => hs.left.le_last e2 hx
    -- the rest of the loop, with the state after this part
    have rest : ∀ prev' cnt', (prev' = 0 ∨ ∀ x ∈ ps.flatten, g ≤ x) →
        (cnt' + p.count g = cnt + prev + p.count g) →
        cnt' + prev' = cnt + prev + p.count g →
        ∃ i cnt'' p', GroupCount.extractInnerLoop g idx (idx + 1) prev' cnt' as = some (i, cnt'') ∧
          idx ≤ i ∧ (p :: ps)[i - idx]? = some p' ∧
          cnt'' + p'.count g = cnt + prev + (p ++ ps.flatten).count g := by
      intro prev' cnt' hp' hc hc'
      cases h2 with
      | nil =>
        refine ⟨idx, cnt', p, rfl, le_rfl, by simp, ?_⟩
        simpa using hc
      | @cons a' p2 as' ps' h3 h4 =>
        obtain ⟨i, cnt'', p', i1, i2, i3, i4⟩ := ih (ci := idx) (idx := idx + 1) (prev := prev')
          (cnt := cnt') (fun p hp => hn p (List.mem_cons_of_mem _ hp)) hs.right hp' (by simp)
        refine ⟨i, cnt'', p', i1, by omega, ?_, ?_⟩
        · rw [show i - idx = i - (idx + 1) + 1 by omega]; simpa using i3
        · rw [List.count_append]; omega
    simp only [GroupCount.extractInnerLoop, e1]
    by_cases l1 : m < g
    · rw [if_pos l1]
      have z : p.count g = 0 := count_zero_of_lt (fun x hx => lt_of_le_of_lt (hlast x hx) l1)
      have hp0 : prev = 0 := by
        rcases hprev with h | h
        · exact h
        · exact absurd (h m (List.mem_append.2 (.inl (getLast?_mem e2)))) (not_le.2 l1)
      exact rest prev cnt (.inl hp0) (by omega) (by omega)
    · rw [if_neg l1]
      by_cases l2 : m = g
      · subst l2
        rw [if_pos rfl]
        refine rest c (cnt + prev) (.inr ?_) (by omega) (by omega)
        intro x hx
        exact hs.cross (getLast?_mem e2) hx
      · rw [if_neg l2]
        have hlt : g < m := lt_of_le_of_ne (not_lt.1 l1) (Ne.symm l2)
        refine ⟨idx, cnt + prev, p, rfl, le_rfl, by simp, ?_⟩
        rw [List.count_append, count_zero_of_gt (gs := ps.flatten)]
        · omega
        · intro x hx
          exact lt_of_lt_of_le hlt (hs.cross (getLast?_mem e2) hx)

theorem extractLeafLoop_eq (g : G) (cnt : Nat) (gs : List G) (hs : Asc gs) :
    GroupCount.extractLeafLoop g cnt gs = cnt + gs.count g := by
  induction gs generalizing cnt with
  | nil => rfl
  | cons x gs ih =>
    have hs' := (List.pairwise_cons.1 hs).2
    simp only [GroupCount.extractLeafLoop]
    by_cases h1 : x < g
    · rw [if_pos h1, ih _ hs', List.count_cons_of_ne h1.ne]
    · rw [if_neg h1]
      by_cases h2 : x = g
      · rw [if_pos h2, ih _ hs', h2, List.count_cons_self]; omega
      · rw [if_neg h2, count_zero_of_gt]
        · rfl
        · intro y hy
          exact lt_of_lt_of_le (lt_of_le_of_ne (not_lt.1 h1) (Ne.symm h2)) (hs.head_le rfl hy)

/-- `fold_leaf` after the exact rank of everything on the left. -/
theorem foldLeaf_eq {L a b : List G} {gk : G} (hs : Asc (L ++ (a ++ b)))
    (hle : ∀ x ∈ L ++ a, x ≤ gk) (hne : a ++ b = [] → L = []) {r : Option (G × Nat)}
    (hr : r = lastGroup L) :
    GroupCount.foldLeaf gk r (.vacant a.length) (a ++ b) = .error (some (gk, (L ++ a).count gk)) ∧
    (b ≠ [] → GroupCount.foldLeaf gk r (.found a.length) (a ++ b) =
      .ok (some (gk, (L ++ a).count gk))) := by
  subst hr
  cases hab : a ++ b with
  | nil =>
    obtain ⟨rfl, rfl⟩ := List.append_eq_nil_iff.1 hab
    rw [hne rfl]
    exact ⟨rfl, fun h => absurd rfl h⟩
  | cons g0 rest =>
    have hfil : (((g0 :: rest).take a.length).filter (· = gk)).length = a.count gk := by
      rw [← hab, List.take_left, List.count_eq_length_filter]
      congr 1
    rw [List.count_append]
    have hall : ∀ m, m = gk → (∀ x ∈ a, m ≤ x) → a.count gk = a.length := by
      rintro m rfl h
      rw [List.count_eq_length]
      intro x hx
      exact le_antisymm (h x hx) (hle x (by simp [hx]))
    cases hL : L.getLast? with
    | none =>
      have : L = [] := by simpa using hL
      subst this
      have e0 : lastGroup ([] : List G) = none := rfl
      rw [e0]
      simp only [GroupCount.foldLeaf, Option.getD_none, List.count_nil, hfil]
      by_cases e : g0 = gk
      · simp only [if_pos e]
        have := hall g0 e (by
          intro x hx
          refine hs.head_le (m := g0) ?_ (by simp [hx])
          rw [List.nil_append, hab]; rfl)
        simp [this]
      · simp only [if_neg e]; simp
    | some gl =>
      rw [lastGroup_of_last hL]
      simp only [GroupCount.foldLeaf, Option.getD_some, hfil]
      by_cases e : gl = gk
      · simp only [if_pos e]
        have := hall gl e (fun x hx => hs.cross (getLast?_mem hL) (by simp [hx]))
        rw [this, e]
        simp [Nat.add_comm]
      · simp only [if_neg e]
        have : L.count gk = 0 := count_zero_of_lt (fun x hx =>
          lt_of_le_of_lt (hs.left.le_last hL hx) (lt_of_le_of_ne
            (hle gl (by simp [getLast?_mem hL])) e))
        simp [this]

end Loops

/-! ## Trees -/

section
variable {K V G : Type} [LinearOrder G] [FromRef K G]

/-- Groups of the items, in order. -/
abbrev groupsOf (G : Type) [FromRef K G] (l : List (K × V)) : List G :=
  l.map (fun e => FromRef.fromRef e.1)

variable {ex : Prop}

theorem kid_parts {h : Nat} {x : GNode K (GroupCount G) (T K V (GroupCount G) h)} :
    groupsOf G (T.toL (h := h + 1) x) =
      (x.kids.map (fun c => groupsOf G c.toL)).flatten := by
  rw [toL_succ, groupsOf, List.map_flatten, List.map_map]
  rfl

theorem kid_part_asc {h : Nat} {x : GNode K (GroupCount G) (T K V (GroupCount G) h)}
    (hs : Asc (groupsOf G (T.toL (h := h + 1) x))) {c : T K V (GroupCount G) h} (hc : c ∈ x.kids) :
    Asc (groupsOf G c.toL) :=
  hs.sublist ((kid_sublist hc).map _)

theorem Summary.topAug {h : Nat} {x : T K V (GroupCount G) h} (hx : x.AugOK)
    (hs : Asc (groupsOf G x.toL))
    (hex : ex → ∀ p ∈ x.leaves, InteriorSingle (groupsOf G p.2)) :
    Summary ex x.topAug (groupsOf G x.toL) := by
  induction h with
  | zero =>
    simp only [T.toL, T.leaves, List.flatMap_cons, List.flatMap_nil, List.append_nil] at hs hex ⊢
    have e : T.topAug x = GroupCount.scanLeaf (groupsOf G (GLeaf.data x)) := by
      simp [T.topAug, Augmentation.fromLeaf, List.map_map, Function.comp_def]
    rw [e]
    exact Summary.leaf hs (fun h => hex h (GLeaf.id x, GLeaf.data x) (by simp))
  | succ h ih =>
    obtain ⟨h1, h2⟩ := hx
    have e : T.topAug x = (GNode.augs x).foldl GroupCount.mergeWith .zero := rfl
    have hs' := hs
    rw [kid_parts] at hs
    rw [e, h1, kid_parts]
    refine Summary.foldl (gs := []) ?_ rfl hs
    rw [List.forall₂_map_left_iff, List.forall₂_map_right_iff, List.forall₂_same]
    intro c hc
    refine ih (h2 c hc) (kid_part_asc hs' hc) ?_
    intro he p hp
    exact hex he p (by simp only [T.leaves, List.mem_flatMap]; exact ⟨c, hc, hp⟩)

theorem kids_summary {h : Nat} {x : GNode K (GroupCount G) (T K V (GroupCount G) h)}
    (hx : T.AugOK (h := h + 1) x) (hs : Asc (groupsOf G (T.toL (h := h + 1) x)))
    (hex : ex → ∀ p ∈ T.leaves (h := h + 1) x, InteriorSingle (groupsOf G p.2)) :
    List.Forall₂ (Summary ex) x.augs (x.kids.map (fun c => groupsOf G c.toL)) := by
  rw [hx.1, List.forall₂_map_left_iff, List.forall₂_map_right_iff, List.forall₂_same]
  intro c hc
  refine Summary.topAug (hx.2 c hc) (kid_part_asc hs hc) ?_
  intro he p hp
  exact hex he p (by simp only [T.leaves, List.mem_flatMap]; exact ⟨c, hc, hp⟩)

theorem GroupCount.keyOnly : KeyOnly K V (GroupCount G) := by
  intro ks vs vs' h
  rfl

theorem GroupCount.inRange : SearchInRange K V (GroupCount G) (Q := G × Nat) := by
  refine ⟨?_, ?_⟩
  · intro q d i h
    have := (locateLeafLoop_lt h).2
    rw [List.getElem?_eq_some_iff] at this
    obtain ⟨h, _⟩ := this
    simpa using h
  · intro q ks as i q' h
    have := locateInnerLoop_lt h
    omega

/-- Searching a group: the position of its `o`-th member. -/
theorem group_search {h : Nat} {x : T K V (GroupCount G) h} (hx : x.AugOK)
    (hs : Asc (groupsOf G x.toL))
    (hex : ex → ∀ p ∈ x.leaves, InteriorSingle (groupsOf G p.2)) (g : G) (o : Nat)
    (ho : ex ∨ o = 0) :
    x.search (g, o) = wfind (inGroup g) (groupsOf G x.toL) o := by
  induction h generalizing o with
  | zero =>
    simp only [T.toL, T.leaves, List.flatMap_cons, List.flatMap_nil, List.append_nil] at hs ⊢
    have e : T.search (Q := G × Nat) x (g, o) =
        GroupCount.locateLeafLoop g o 0 0 (groupsOf G (GLeaf.data x)) := by
      simp [T.search, SearchAugmentation.locateInLeaf, List.map_map, Function.comp_def]
    rw [e, locateLeafLoop_eq _ _ _ _ _ hs (Nat.zero_le _)]
    simp
  | succ h ih =>
    have hk := kids_summary hx hs hex
    have hs' := hs
    rw [kid_parts] at hs ⊢
    have := locateInnerLoop_eq (g := g) (idx := 0) hk hs ho
    simp only [T.search, SearchAugmentation.locateInInner]
    cases hl : GroupCount.locateInnerLoop g 0 o (GNode.augs x) with
    | none => rw [hl] at this; exact this.symm
    | some r =>
      obtain ⟨i, g', o'⟩ := r
      rw [hl] at this
      obtain ⟨rfl, c2, c3, p, c4, c5⟩ := this
      simp only [Nat.sub_zero, List.getElem?_map, Option.map_eq_some_iff] at c4 c5
      obtain ⟨c, hc, rfl⟩ := c4
      have hc' := List.mem_of_getElem? hc
      simp only [hc]
      rw [ih (hx.2 c hc') (kid_part_asc hs' hc') ?_ o' c2, c5]
      · congr 1
        funext n
        congr 1
        rw [← List.map_take, List.flatMap_def, List.length_flatten, List.length_flatten,
          List.map_map, List.map_map]
        congr 2
        funext y
        simp
      · intro he p hp
        exact hex he p (by simp only [T.leaves, List.mem_flatMap]; exact ⟨c, hc', hp⟩)

/-- Whatever is found is in the group. -/
theorem group_search_mem {h : Nat} {x : T K V (GroupCount G) h} (g : G) (o : Nat) {n : Nat}
    (hn : x.search (g, o) = some n) : (groupsOf G x.toL)[n]? = some g := by
  induction h generalizing o n with
  | zero =>
    have := (locateLeafLoop_lt hn).2
    simp only [T.toL, T.leaves, List.flatMap_cons, List.flatMap_nil, List.append_nil]
    simpa using this
  | succ h ih =>
    simp only [T.search, SearchAugmentation.locateInInner] at hn
    cases hl : GroupCount.locateInnerLoop g 0 o (GNode.augs x) with
    | none => rw [hl] at hn; simp at hn
    | some r =>
      obtain ⟨i, g', o'⟩ := r
      rw [hl] at hn
      obtain ⟨_, _, rfl⟩ := locateInnerLoop_lt hl
      simp only at hn
      cases hc : (GNode.kids x)[i]? with
      | none => rw [hc] at hn; simp at hn
      | some c =>
        rw [hc] at hn
        simp only [Option.map_eq_some_iff] at hn
        obtain ⟨m, hm, rfl⟩ := hn
        have := ih o' hm
        have e : T.toL (h := h + 1) x = ((GNode.kids x).take i).flatMap T.toL ++
            (c.toL ++ ((GNode.kids x).drop (i + 1)).flatMap T.toL) := by
          rw [toL_succ, ← List.flatMap_def]
          conv_lhs => rw [← List.take_append_drop i (GNode.kids x)]
          rw [List.flatMap_append]
          obtain ⟨hi, hc⟩ := List.getElem?_eq_some_iff.1 hc
          rw [List.drop_eq_getElem_cons hi, hc, List.flatMap_cons]
        rw [e, groupsOf, List.map_append, List.getElem?_append_right (by simp),
          List.length_map, Nat.add_sub_cancel_left, List.map_append]
        rw [List.getElem?_append_left]
        · exact this
        · exact (List.getElem?_eq_some_iff.1 this).1

/-- The group size visitor. -/
theorem group_visit {μ : Nat} {h : Nat} {m : Nat} {r : Bool} {x : T K V (GroupCount G) h}
    (hsh : T.ShapeTop μ m r x) (hx : x.AugOK) (hs : Asc (groupsOf G x.toL))
    (hex : ∀ p ∈ x.leaves, InteriorSingle (groupsOf G p.2)) (g : G) (cnt : Nat) :
    x.visit (GroupCount.extractGroupSize g) cnt = .ok (some (cnt + (groupsOf G x.toL).count g)) := by
  induction h generalizing m r cnt with
  | zero =>
    simp only [T.toL, T.leaves, List.flatMap_cons, List.flatMap_nil, List.append_nil] at hs ⊢
    simp only [T.visit, GroupCount.extractGroupSize, List.map_map]
    rw [← extractLeafLoop_eq g cnt _ hs]
    rfl
  | succ h ih =>
    have hk := kids_summary (ex := True) hx hs (fun _ => hex)
    have hs' := hs
    rw [kid_parts] at hs ⊢
    have hlen := (T.ShapeTop.lens hsh)
    obtain ⟨i, cnt', p, e1, e2, e3, e4⟩ := extractInnerLoop_eq (g := g) (ci := 0) (idx := 0)
      (prev := 0) (cnt := cnt) hk
      (by
        intro p hp
        rw [List.mem_map] at hp
        obtain ⟨c, hc, rfl⟩ := hp
        simpa using kid_ne_nil hsh hc) hs (.inl rfl)
      (by
        intro h0
        have := hsh.2.2.2.1
        rw [h0] at this
        simp at this)
    simp only [T.visit, GroupCount.extractGroupSize, e1]
    simp only [Nat.sub_zero, List.getElem?_map, Option.map_eq_some_iff] at e3
    obtain ⟨c, hc, rfl⟩ := e3
    have hc' := List.mem_of_getElem? hc
    obtain ⟨m', r', hm⟩ := kid_shape' hsh hc'
    simp only [hc]
    have := ih hm (hx.2 c hc') (kid_part_asc hs' hc')
      (fun p hp => hex p (by simp only [T.leaves, List.mem_flatMap]; exact ⟨c, hc', hp⟩)) cnt'
    simp only [GroupCount.extractGroupSize] at this
    rw [this, e4, Nat.add_zero]

/-- If every group between two others has one member, or at least 63, then a group strictly inside a leaf
has one member. -/
theorem interiorSingle_of_sparse {a p b : List G} (hs : Asc (a ++ p ++ b)) (hp : p.length ≤ 64)
    (h : ∀ x ∈ a ++ p ++ b, ∀ g ∈ a ++ p ++ b, ∀ y ∈ a ++ p ++ b, x < g → g < y →
      (a ++ p ++ b).count g = 1 ∨ 63 ≤ (a ++ p ++ b).count g) :
    InteriorSingle p := by
  intro g hg h1 h2
  cases p with
  | nil => simp at hg
  | cons g0 p' =>
    obtain ⟨gl, hgl⟩ : ∃ gl, (g0 :: p').getLast? = some gl := by
      rw [List.getLast?_cons]; exact ⟨_, rfl⟩
    have hp0 : Asc (g0 :: p') := hs.left.right
    have l1 : g0 < g := lt_of_le_of_ne (hp0.head_le rfl hg) (by simpa using h1)
    have l2 : g < gl := lt_of_le_of_ne (hp0.le_last hgl hg) (by rw [hgl] at h2; simpa using Ne.symm h2)
    have za : a.count g = 0 := count_zero_of_lt (fun x hx =>
      lt_of_le_of_lt (hs.left.cross hx (by simp)) l1)
    have zb : b.count g = 0 := count_zero_of_gt (fun x hx =>
      lt_of_lt_of_le l2 (hs.cross (List.mem_append.2 (.inr (getLast?_mem hgl))) hx))
    have hin : ∀ z ∈ g0 :: p', z ∈ a ++ (g0 :: p') ++ b := fun z hz => by
      simp only [List.mem_append]; exact .inl (.inr hz)
    have := h g0 (hin g0 (by simp)) g (hin g hg) gl (hin gl (getLast?_mem hgl)) l1 l2
    rw [List.count_append, List.count_append, za, zb] at this
    have hc := (count_split (l1.trans l2).ne (head?_mem (gs := g0 :: p') rfl) (getLast?_mem hgl)).1
    have hc3 : (g0 :: p').count g0 + (g0 :: p').count gl + (g0 :: p').count g ≤ (g0 :: p').length := by
      have hsum := Multiset.toFinset_sum_count_eq ((g0 :: p' : List G) : Multiset G)
      simp only [Multiset.coe_count, Multiset.coe_card] at hsum
      rw [← hsum]
      have hsub : ({g0, gl, g} : Finset G) ⊆ ((g0 :: p' : List G) : Multiset G).toFinset := by
        intro y hy
        simp only [Finset.mem_insert, Finset.mem_singleton] at hy
        simp only [Multiset.mem_toFinset, Multiset.mem_coe]
        rcases hy with rfl | rfl | rfl
        · simp
        · exact getLast?_mem hgl
        · exact hg
      refine le_trans (le_of_eq ?_) (Finset.sum_le_sum_of_subset hsub)
      rw [Finset.sum_insert, Finset.sum_insert, Finset.sum_singleton]
      · omega
      · simpa using l2.ne'
      · simp [(l1.trans l2).ne, l1.ne]
    have p1 : 0 < (g0 :: p').count g0 := List.count_pos_iff.2 (by simp)
    have p2 : 0 < (g0 :: p').count gl := List.count_pos_iff.2 (getLast?_mem hgl)
    omega

theorem leaf_le {A : Type} {μ : Nat} {h : Nat} {m : Nat} {r : Bool} {x : T K V A h}
    (hx : T.ShapeTop μ m r x) : ∀ p ∈ x.leaves, p.2.length ≤ 64 := by
  induction h generalizing m r with
  | zero =>
    intro p hp
    simp only [T.leaves, List.mem_singleton] at hp
    subst hp
    exact hx.2
  | succ h ih =>
    intro p hp
    simp only [T.leaves, List.mem_flatMap] at hp
    obtain ⟨c, hc, hp⟩ := hp
    obtain ⟨m', r', hm⟩ := kid_shape' hx hc
    exact ih hm p hp

theorem leaves_interior {μ : Nat} {h : Nat} {m : Nat} {r : Bool} {x : T K V (GroupCount G) h}
    (hx : T.ShapeTop μ m r x) (hs : Asc (groupsOf G x.toL))
    (hsp : ∀ a ∈ groupsOf G x.toL, ∀ g ∈ groupsOf G x.toL, ∀ b ∈ groupsOf G x.toL, a < g → g < b →
      (groupsOf G x.toL).count g = 1 ∨ 63 ≤ (groupsOf G x.toL).count g) :
    ∀ p ∈ x.leaves, InteriorSingle (groupsOf G p.2) := by
  intro p hp
  have h64 := leaf_le hx p hp
  obtain ⟨l1, l2, hl⟩ := List.append_of_mem hp
  have e : groupsOf G x.toL =
      groupsOf G (l1.flatMap (·.2)) ++ groupsOf G p.2 ++ groupsOf G (l2.flatMap (·.2)) := by
    simp [T.toL, hl, groupsOf]
  rw [e] at hs hsp
  exact interiorSingle_of_sparse hs (by simpa using h64) hsp

/-! ## Rank -/

theorem filter_count {pre post : List (K × V)} [LinearOrder K] {k : K} (h1 : ∀ e ∈ pre, e.1 < k)
    (h2 : ∀ e ∈ post, k ≤ e.1) (g : G) :
    ((pre ++ post).filter (fun e => e.1 < k ∧ FromRef.fromRef e.1 = g)).length =
      (groupsOf G pre).count g := by
  have h0 : post.filter (fun e => e.1 < k ∧ FromRef.fromRef e.1 = g) = [] := by
    rw [List.filter_eq_nil_iff]
    intro e he
    have := h2 e he
    simp [not_lt.2 this]
  · rw [List.filter_append, h0, List.append_nil, List.count_eq_length_filter, groupsOf, List.filter_map, List.length_map]
    congr 1
    apply List.filter_congr
    intro e he
    simp only [h1 e he, true_and, Function.comp]
    by_cases h : FromRef.fromRef e.1 = g <;> simp [h]

variable [LinearOrder K]

theorem monotone_asc (hm : ∀ a b : K, a ≤ b → (FromRef.fromRef a : G) ≤ FromRef.fromRef b)
    {l : List (K × V)} (hs : Sorted l) : Asc (groupsOf G l) := by
  rw [Asc, List.pairwise_map]
  exact hs.imp (fun h => hm _ _ (le_of_lt h))

/-- Rank in trees with at most one inner level. -/
theorem group_rank {μ : Nat} {t : Tree K V (GroupCount G)} {H : Nat} {g : T K V (GroupCount G) H}
    (w : WF μ t g) (ha : g.AugOK) (hH : H ≤ 1)
    (hm : ∀ a b : K, a ≤ b → (FromRef.fromRef a : G) ≤ FromRef.fromRef b)
    (hex : 1 ≤ H → ∀ p ∈ g.leaves, InteriorSingle (groupsOf G p.2)) (k : K) :
    t.rankByAugmentation k = .ok (
      if (lookup k g.toL).isSome then
        .ok (some ((FromRef.fromRef k : G),
          (g.toL.filter (fun e => e.1 < k ∧ (FromRef.fromRef e.1 : G) = FromRef.fromRef k)).length))
      else .error (some ((FromRef.fromRef k : G),
          (g.toL.filter (fun e => e.1 < k ∧ (FromRef.fromRef e.1 : G) = FromRef.fromRef k)).length))) := by
  have hs : Sorted g.toL := w.flat.sorted
  obtain ⟨c, x, r, hp, hl, hr, e⟩ := rank_inv w k
    (fun h c r => r = lastGroup (groupsOf G (c.lvL.flatMap (·.2)))) rfl
    (by
      intro h c f y r hp hl hr
      have hnil : c.lvL = [] := by
        cases c with
        | nil => rfl
        | cons f' c' => have := c'.le; omega
      have h1 : 1 ≤ H := by have := c.le; omega
      simp only [Ctx.lvL, hnil, List.nil_append, List.flatMap_nil] at hr ⊢
      have hx := (Ctx.augOK_of_plug hl.lenOK.2 (x := (f.fill y : T K V (GroupCount G) (h + 1)))
        (hp ▸ ha)).2
      rw [T.augOK_fill hl.lenOK.1] at hx
      have hsh := (Ctx.shape_plug.1 ⟨hp ▸ w.shape, hl.lenOK.2⟩).2
      have hlv : ∀ c' ∈ f.kidsL, ∀ p ∈ c'.leaves, p ∈ g.leaves := by
        intro c' hc' p hp'
        rw [← hp, Ctx.leaves_plug, T.leaves_fill]
        simp only [List.mem_append, Frame.lvL, List.mem_flatMap]
        exact .inl (.inr (.inl (.inl ⟨c', hc', hp'⟩)))
      have hparts : groupsOf G (f.lvL.flatMap (·.2)) =
          (f.kidsL.map (fun c => groupsOf G c.toL)).flatten := by
        rw [Frame.lvL, List.flatMap_assoc, List.flatMap_def, groupsOf, List.map_flatten, List.map_map]
        rfl
      have hasc : Asc (groupsOf G (f.lvL.flatMap (·.2))) := by
        refine (monotone_asc hm hs).sublist (List.Sublist.map _ ?_)
        rw [T.toL, ← hp, Ctx.leaves_plug, T.leaves_fill, hnil]
        simp only [List.nil_append, List.append_assoc, List.flatMap_append]
        exact List.sublist_append_left _ _
      by_cases h0 : f.kidsL = []
      · have : f.augsL = [] := by rw [hx.1.1, h0]; rfl
        rw [this, Frame.lvL, h0]
        rfl
      · rw [hparts] at hasc ⊢
        subst hr
        refine foldInner_eq (L := []) ?_ ?_ hasc ?_
        · rw [hx.1.1, List.forall₂_map_left_iff, List.forall₂_map_right_iff, List.forall₂_same]
          intro c' hc'
          refine Summary.topAug (hx.1.2.2.1 c' hc') ?_ (fun _ p hp' => hex h1 p (hlv c' hc' p hp'))
          exact hasc.sublist (List.sublist_flatten_of_mem
            (List.mem_map_of_mem (f := fun c => groupsOf G (T.toL c)) hc'))
        · intro p hp'
          rw [List.mem_map] at hp'
          obtain ⟨c', hc', rfl⟩ := hp'
          have := kid_ne_nil hsh (c := c') (List.mem_append.2 (.inl hc'))
          simpa using this
        · rw [hx.1.1]; simpa using h0)
  rw [e]
  have hcut := hl.cut w hp
  have hg : g.toL = g.leaves.flatMap (·.2) := rfl
  have hasc := monotone_asc hm hs
  have hfold : ∀ (slot : Slot), RankAugmentation.foldLeaf V (GroupCount G) k r slot (x.data.map (·.1)) =
      GroupCount.foldLeaf (FromRef.fromRef k) r slot (groupsOf G x.data) := by
    intro slot
    show GroupCount.foldLeaf _ _ _ _ = _
    rw [List.map_map]
    rfl
  have hne : groupsOf G x.data = [] → groupsOf G (c.lvL.flatMap (·.2)) = [] := by
    intro h0
    by_cases h2 : 2 ≤ g.leaves.length
    · have := w.flat.nonempty h2 (x.id, x.data) (by rw [hcut.eq]; simp)
      simp at h0
      exact absurd h0 this
    · have hlen : g.leaves.length = c.lvL.length + (c.lvR.length + 1) := by
        rw [hcut.eq]; simp
      have : c.lvL = [] := List.length_eq_zero_iff.1 (by omega)
      rw [this]; rfl
  have hle : ∀ a : List (K × V), (∀ e ∈ c.lvL.flatMap (·.2) ++ a, e.1 < k) →
      ∀ y ∈ groupsOf G (c.lvL.flatMap (·.2)) ++ groupsOf G a, y ≤ FromRef.fromRef k := by
    intro a h y hy
    rw [← List.map_append, List.mem_map] at hy
    obtain ⟨e, he, rfl⟩ := hy
    exact hm _ _ (h e he).le
  have hbs : bsearch (x.data.map (·.1)) k = Leaf.locateSlot ⟨x.data, none, none⟩ k := rfl
  congr 1
  rw [hfold]
  rcases hcut.split (hg ▸ hs) with ⟨a, v, b, hx, h1, h2, h3, h4, h5⟩ | ⟨a, b, hx, h1, h2, h3, h4, h5⟩
  · simp only at hx
    have hslot : bsearch (x.data.map (·.1)) k = .found a.length := by
      rw [hx]; exact locateSlot_found (p := none) (n := none) h1
    have hlook : lookup k g.toL = some v := by rw [hg, h3]; exact lookup_found h4
    rw [hlook, hslot, hg, h3, filter_count h4 (by
      intro e he
      rcases List.mem_cons.1 he with rfl | he
      · exact le_rfl
      · exact (h5 e he).le)]
    have := (foldLeaf_eq (L := groupsOf G (c.lvL.flatMap (·.2))) (a := groupsOf G a)
      (b := groupsOf G ((k, v) :: b)) (gk := FromRef.fromRef k) (by
        rw [hg, h3] at hasc
        refine hasc.sublist ?_
        rw [groupsOf, groupsOf, groupsOf, groupsOf, ← List.map_append, ← List.map_append]
        refine List.Sublist.map _ ?_
        simp only [List.append_assoc, List.cons_append]
        exact (List.Sublist.refl _).append ((List.Sublist.refl _).append
          ((List.sublist_append_left _ _).cons_cons _))) (hle a h4) (by
        rw [← List.map_append, ← hx]; exact hne) hr).2 (by simp)
    rw [← List.map_append, ← List.map_append, ← hx] at this
    simpa using this
  · simp only at hx
    have hslot : bsearch (x.data.map (·.1)) k = .vacant a.length := by
      rw [hx]; exact locateSlot_vacant (p := none) (n := none) h1 h2
    have hlook : lookup k g.toL = none := by rw [hg, h3]; exact lookup_none h4 h5
    rw [hlook, hslot, hg, h3, filter_count h4 (fun e he => (h5 e he).le)]
    have := (foldLeaf_eq (L := groupsOf G (c.lvL.flatMap (·.2))) (a := groupsOf G a)
      (b := groupsOf G b) (gk := FromRef.fromRef k) (by
        rw [hg, h3] at hasc
        refine hasc.sublist ?_
        rw [groupsOf, groupsOf, groupsOf, groupsOf, ← List.map_append, ← List.map_append]
        refine List.Sublist.map _ ?_
        simp only [List.append_assoc]
        exact (List.Sublist.refl _).append ((List.Sublist.refl _).append
          (List.sublist_append_left _ _))) (hle a h4) (by
        rw [← List.map_append, ← hx]; exact hne) hr).1
    rw [← List.map_append, ← List.map_append, ← hx] at this
    simpa using this

/-- In every tree, the rank is `Ok` exactly for stored keys and names the group of the key. -/
theorem group_rank_group {μ : Nat} {t : Tree K V (GroupCount G)} {H : Nat}
    {g : T K V (GroupCount G) H} (w : WF μ t g) (k : K) :
    ∃ n, t.rankByAugmentation k = .ok (
      if (lookup k g.toL).isSome then .ok (some ((FromRef.fromRef k : G), n))
      else .error (some ((FromRef.fromRef k : G), n))) := by
  have hs : Sorted g.toL := w.flat.sorted
  obtain ⟨c, x, r, hp, hl, -, e⟩ := rank_inv w k (fun h c r => True) trivial
    (fun _ _ _ _ _ _ _ _ => trivial)
  rw [e]
  have hcut := hl.cut w hp
  have hg : g.toL = g.leaves.flatMap (·.2) := rfl
  have hfold : ∀ (slot : Slot), RankAugmentation.foldLeaf V (GroupCount G) k r slot (x.data.map (·.1)) =
      GroupCount.foldLeaf (FromRef.fromRef k) r slot (groupsOf G x.data) := by
    intro slot
    show GroupCount.foldLeaf _ _ _ _ = _
    rw [List.map_map]
    rfl
  have key : ∀ i (gs : List G), (∃ n, GroupCount.foldLeaf (FromRef.fromRef k) r (.vacant i) gs =
      .error (some (FromRef.fromRef k, n))) ∧ (gs ≠ [] → ∃ n,
      GroupCount.foldLeaf (FromRef.fromRef k) r (.found i) gs = .ok (some (FromRef.fromRef k, n))) := by
    intro i gs
    cases gs with
    | nil => exact ⟨⟨0, rfl⟩, fun h => absurd rfl h⟩
    | cons g0 gs =>
      simp only [GroupCount.foldLeaf]
      refine ⟨?_, fun _ => ?_⟩
      · split
        · exact ⟨_, rfl⟩
        · exact ⟨_, rfl⟩
      · split
        · exact ⟨_, rfl⟩
        · exact ⟨_, rfl⟩
  rw [hfold]
  rcases hcut.split (hg ▸ hs) with ⟨a, v, b, hx, h1, h2, h3, h4, h5⟩ | ⟨a, b, hx, h1, h2, h3, h4, h5⟩
  · simp only at hx
    have hslot : bsearch (x.data.map (·.1)) k = .found a.length := by
      rw [hx]; exact locateSlot_found (p := none) (n := none) h1
    have hlook : lookup k g.toL = some v := by rw [hg, h3]; exact lookup_found h4
    obtain ⟨n, hn⟩ := (key a.length (groupsOf G x.data)).2 (by rw [hx]; simp)
    exact ⟨n, by rw [hslot, hn, hlook]; rfl⟩
  · simp only at hx
    have hslot : bsearch (x.data.map (·.1)) k = .vacant a.length := by
      rw [hx]; exact locateSlot_vacant (p := none) (n := none) h1 h2
    have hlook : lookup k g.toL = none := by rw [hg, h3]; exact lookup_none h4 h5
    obtain ⟨n, hn⟩ := (key a.length (groupsOf G x.data)).1
    exact ⟨n, by rw [hslot, hn, hlook]; rfl⟩

end
end Bpt
