import Verif.Proofs.Reads
import Verif.Model.Cursor

/-!
# Cursors
-/

namespace Bpt.Spec
variable {K V : Type} [LinearOrder K]

theorem succ_split {a b : List (K × V)} {k : K} (ha : ∀ e ∈ a, e.1 ≤ k) (hb : ∀ e ∈ b, k < e.1) :
    succ k (a ++ b) = b.head? := by
  have h1 : a.filter (fun e => decide (k < e.1)) = [] := by
    rw [List.filter_eq_nil_iff]; intro e he; simpa using ha e he
  have h2 : b.filter (fun e => decide (k < e.1)) = b := by
    rw [List.filter_eq_self]; intro e he; simpa using hb e he
  simp only [succ, List.filter_append, h1, h2, List.nil_append]

theorem pred_split {a b : List (K × V)} {k : K} (ha : ∀ e ∈ a, e.1 < k) (hb : ∀ e ∈ b, k ≤ e.1) :
    pred k (a ++ b) = a.getLast? := by
  have h1 : b.filter (fun e => decide (e.1 < k)) = [] := by
    rw [List.filter_eq_nil_iff]; intro e he; simpa using hb e he
  have h2 : a.filter (fun e => decide (e.1 < k)) = a := by
    rw [List.filter_eq_self]; intro e he; simpa using ha e he
  simp only [pred, List.filter_append, h1, h2, List.append_nil]

/-- `succ` in words. -/
theorem succ_spec {l : List (K × V)} (hl : Sorted l) (k : K) :
    (∀ e, succ k l = some e ↔ e ∈ l ∧ k < e.1 ∧ ∀ e' ∈ l, k < e'.1 → e.1 ≤ e'.1) ∧
    (succ k l = none ↔ ∀ e ∈ l, e.1 ≤ k) := by
  have hf : Sorted (l.filter (fun e => decide (k < e.1))) := List.Pairwise.filter _ hl
  have hmem : ∀ e, e ∈ l.filter (fun e => decide (k < e.1)) ↔ e ∈ l ∧ k < e.1 := by
    intro e; simp
  unfold succ
  generalize l.filter (fun e => decide (k < e.1)) = m at hf hmem
  constructor
  · intro e
    cases m with
    | nil =>
      simp only [List.head?_nil, reduceCtorEq, false_iff]
      rintro ⟨h1, h2, -⟩
      have := (hmem e).2 ⟨h1, h2⟩
      simp at this
    | cons x m =>
      simp only [List.head?_cons, Option.some.injEq]
      have hx := (hmem x).1 (by simp)
      obtain ⟨hx1, -⟩ := List.pairwise_cons.1 hf
      constructor
      · rintro rfl
        refine ⟨hx.1, hx.2, ?_⟩
        intro e' h1 h2
        have := (hmem e').2 ⟨h1, h2⟩
        rcases List.mem_cons.1 this with rfl | h
        · exact le_refl _
        · exact (hx1 e' h).le
      · rintro ⟨h1, h2, h3⟩
        have := (hmem e).2 ⟨h1, h2⟩
        rcases List.mem_cons.1 this with rfl | h
        · rfl
        · exact absurd (hx1 e h) (not_lt.2 (h3 x hx.1 hx.2))
  · cases m with
    | nil =>
      simp only [List.head?_nil, true_iff]
      intro e he
      by_contra hc
      have := (hmem e).2 ⟨he, not_le.1 hc⟩
      simp at this
    | cons x m =>
      simp only [List.head?_cons, reduceCtorEq, false_iff]
      intro h
      have hx := (hmem x).1 (by simp)
      exact absurd hx.2 (not_lt.2 (h x hx.1))

/-- `pred` in words. -/
theorem pred_spec {l : List (K × V)} (hl : Sorted l) (k : K) :
    (∀ e, pred k l = some e ↔ e ∈ l ∧ e.1 < k ∧ ∀ e' ∈ l, e'.1 < k → e'.1 ≤ e.1) ∧
    (pred k l = none ↔ ∀ e ∈ l, k ≤ e.1) := by
  have hf : Sorted (l.filter (fun e => decide (e.1 < k))) := List.Pairwise.filter _ hl
  have hmem : ∀ e, e ∈ l.filter (fun e => decide (e.1 < k)) ↔ e ∈ l ∧ e.1 < k := by
    intro e; simp
  unfold pred
  generalize l.filter (fun e => decide (e.1 < k)) = m at hf hmem
  constructor
  · intro e
    rcases List.eq_nil_or_concat' m with rfl | ⟨m, x, rfl⟩
    · simp only [List.getLast?_nil, reduceCtorEq, false_iff]
      rintro ⟨h1, h2, -⟩
      have := (hmem e).2 ⟨h1, h2⟩
      simp at this
    · simp only [List.getLast?_concat, Option.some.injEq]
      have hx := (hmem x).1 (by simp)
      have hx1 := (List.pairwise_append.1 hf).2.2
      constructor
      · rintro rfl
        refine ⟨hx.1, hx.2, ?_⟩
        intro e' h1 h2
        have := (hmem e').2 ⟨h1, h2⟩
        rcases List.mem_append.1 this with h | h
        · exact (hx1 e' h x (by simp)).le
        · rw [List.mem_singleton.1 h]
      · rintro ⟨h1, h2, h3⟩
        have := (hmem e).2 ⟨h1, h2⟩
        rcases List.mem_append.1 this with h | h
        · exact absurd (hx1 e h x (by simp)) (not_lt.2 (h3 x hx.1 hx.2))
        · exact (List.mem_singleton.1 h).symm
  · rcases List.eq_nil_or_concat' m with rfl | ⟨m, x, rfl⟩
    · simp only [List.getLast?_nil, true_iff]
      intro e he
      by_contra hc
      have := (hmem e).2 ⟨he, not_le.1 hc⟩
      simp at this
    · simp only [List.getLast?_concat, reduceCtorEq, false_iff]
      intro h
      have hx := (hmem x).1 (by simp)
      exact absurd hx.2 (not_lt.2 (h x hx.1))

end Bpt.Spec

namespace Bpt
variable {K V A : Type} [LinearOrder K]
open Spec

/-- The leaf a cursor works on is the place of its key, whatever the hint. -/
theorem cursorLeaf_ok {t : Tree K V A} {L} (r : Reads t L) (c : Cursor K) :
    ∃ LA x LB, Cut L c.k LA x LB ∧
      c.locateLeaf t = .ok (x.1, ⟨x.2, lstId none LA, hdId LB none⟩) := by
  have slow : ∃ LA x LB, Cut L c.k LA x LB ∧ (do
      let leafId ← t.locateLeaf c.k
      let leaf ← t.store.getLeaf leafId
      return (leafId, leaf) : Res (Nat × Leaf K V))
        = .ok (x.1, ⟨x.2, lstId none LA, hdId LB none⟩) := by
    obtain ⟨LA, x, LB, hc, hl⟩ := locateLeaf_ok r c.k
    exact ⟨LA, x, LB, hc, by simp only [hl, ok_bind, r.flat.get hc.eq, pure_ok]⟩
  unfold Cursor.locateLeaf
  cases hg : t.store.tryGetLeaf c.leafIdHint with
  | none => simpa using slow
  | some l =>
    obtain ⟨LA, x, LB, hL, hx, rfl⟩ := r.flat.tryGet hg
    obtain ⟨b, hb, hc⟩ := r.flat.inRange hL c.k
    simp only [hb, ok_bind, pure_ok]
    cases b with
    | true => exact ⟨LA, x, LB, hc rfl, by simp [hx]⟩
    | false => simpa using slow

omit [LinearOrder K] in
theorem getElem?_split {α : Type} {a b : List α} {x y : α} {j : Nat}
    (h : (a ++ x :: b)[j]? = some y) : y ∈ a ∨ (j = a.length ∧ y = x) ∨ y ∈ b := by
  rcases Nat.lt_trichotomy j a.length with hj | rfl | hj
  · rw [List.getElem?_append_left hj] at h
    exact .inl (List.mem_of_getElem? h)
  · simp at h; exact .inr (.inl ⟨rfl, h.symm⟩)
  · rw [List.getElem?_append_right (by omega)] at h
    obtain ⟨m, hm⟩ : ∃ m, j - a.length = m + 1 := ⟨j - a.length - 1, by omega⟩
    rw [hm, List.getElem?_cons_succ] at h
    exact .inr (.inr (List.mem_of_getElem? h))

/-- An offset hint that hits is the position of the key. -/
theorem hint_found {a b : List (K × V)} {k : K} {v : V} {j : Nat} {e : K × V}
    (ha : ∀ e ∈ a, e.1 < k) (hb : ∀ e ∈ b, k < e.1)
    (h : (a ++ (k, v) :: b)[j]? = some e) (hk : e.1 = k) : j = a.length ∧ e = (k, v) := by
  rcases getElem?_split h with h | h | h
  · exact absurd hk (ha e h).ne
  · exact h
  · exact absurd hk (hb e h).ne'

theorem hint_vacant {a b : List (K × V)} {k : K} {j : Nat} {e : K × V}
    (ha : ∀ e ∈ a, e.1 < k) (hb : ∀ e ∈ b, k < e.1) (h : (a ++ b)[j]? = some e) : e.1 ≠ k := by
  rcases List.mem_append.1 (List.mem_of_getElem? h) with h | h
  · exact (ha e h).ne
  · exact (hb e h).ne'

omit [LinearOrder K] in
theorem getLast?_append_ne {α : Type} {a b : List α} (hb : b ≠ []) :
    (a ++ b).getLast? = b.getLast? := by
  obtain ⟨b', x, rfl⟩ := (List.eq_nil_or_concat' b).resolve_left hb
  rw [← List.append_assoc]; simp

omit [LinearOrder K] in
/-- Moving on from position `P.length` of the leaf. -/
theorem cursor_forward {t : Tree K V A} {L LA LB : List (Nat × List (K × V))} {i : Nat}
    {P Q : List (K × V)} (r : Reads0 t L) (hL : L = LA ++ (i, P ++ Q) :: LB) :
    ∃ o, forwardFrom t i ⟨P ++ Q, lstId none LA, hdId LB none⟩ P.length = .ok o ∧
      o.map (fun p => (p.1.k, p.2)) = (Q ++ LB.flatMap (·.2)).head? := by
  unfold forwardFrom
  cases Q with
  | cons q Q =>
    refine ⟨some (⟨q.1, i, P.length⟩, q.2), ?_, by simp⟩
    simp [Leaf.len, Leaf.dataAt, readAt]
  | nil =>
    rw [if_neg (by simp [Leaf.len])]
    cases LB with
    | nil => exact ⟨none, by simp, by simp⟩
    | cons y LB =>
      have hL' : L = (LA ++ [(i, P ++ [])]) ++ y :: LB := by simp [hL]
      obtain ⟨e, d, hd⟩ := List.exists_cons_of_ne_nil (r.flat.data_ne hL' (.inl (by simp)))
      refine ⟨some (⟨e.1, y.1, 0⟩, e.2), ?_, by simp [hd]⟩
      simp only [hdId_cons, r.flat.get hL', ok_bind, Leaf.dataAt, hd]
      simp [readAt]

/-- What the offset hint says. -/
theorem hintHits_found {c : Cursor K} {a b : List (K × V)} {v : V} {p n : Option Nat}
    (h1 : ∀ e ∈ a, e.1 < c.k) (h2 : ∀ e ∈ b, c.k < e.1)
    (h : c.hintHits (⟨a ++ (c.k, v) :: b, p, n⟩ : Leaf K V) = true) : c.offsetHint = a.length := by
  unfold Cursor.hintHits Leaf.tryDataAt at h
  simp only at h
  cases hx : (a ++ (c.k, v) :: b)[c.offsetHint]? with
  | none => simp [hx] at h
  | some e =>
    simp only [hx, decide_eq_true_eq] at h
    exact (hint_found h1 h2 hx h).1

theorem hintHits_vacant {c : Cursor K} {a b : List (K × V)} {p n : Option Nat}
    (h1 : ∀ e ∈ a, e.1 < c.k) (h2 : ∀ e ∈ b, c.k < e.1) :
    c.hintHits (⟨a ++ b, p, n⟩ : Leaf K V) = false := by
  unfold Cursor.hintHits Leaf.tryDataAt
  simp only
  cases hx : (a ++ b)[c.offsetHint]? with
  | none => rfl
  | some e => simpa using hint_vacant h1 h2 hx

theorem nextWithValue_ok {t : Tree K V A} {L} (r : Reads t L) (c : Cursor K) :
    ∃ o, c.nextWithValue t = .ok o ∧
      o.map (fun p => (p.1.k, p.2)) = succ c.k (L.flatMap (·.2)) := by
  obtain ⟨LA, ⟨i, d⟩, LB, hc, hl⟩ := cursorLeaf_ok r c
  unfold Cursor.nextWithValue
  rw [hl]
  simp only [ok_bind]
  rcases hc.split r.flat.sorted with ⟨a, v, b, h0, h1, h2, h3, h4, h5⟩ | ⟨a, b, h0, h1, h2, h3, h4, h5⟩
  · simp only at h0
    subst h0
    have hoff : c.nextOffset (⟨a ++ (c.k, v) :: b, lstId none LA, hdId LB none⟩ : Leaf K V)
        = .ok (a.length + 1) := by
      unfold Cursor.nextOffset
      split
      · next hh => rw [hintHits_found h1 h2 hh]; rfl
      · simp only [lswv_found h1, ok_bind, pure_ok]
    simp only [hoff, ok_bind]
    have hL : L = LA ++ (i, (a ++ [(c.k, v)]) ++ b) :: LB := by rw [hc.eq]; simp
    obtain ⟨o, ho, hr⟩ := cursor_forward r.base hL
    refine ⟨o, ?_, ?_⟩
    · rw [← ho]; simp
    · rw [hr, h3]
      have : LA.flatMap (·.2) ++ a ++ (c.k, v) :: (b ++ LB.flatMap (·.2))
          = (LA.flatMap (·.2) ++ a ++ [(c.k, v)]) ++ (b ++ LB.flatMap (·.2)) := by simp
      rw [this, succ_split _ h5]
      intro e he
      rcases List.mem_append.1 he with he | he
      · exact (h4 e he).le
      · rw [List.mem_singleton.1 he]
  · simp only at h0
    subst h0
    have hoff : c.nextOffset (⟨a ++ b, lstId none LA, hdId LB none⟩ : Leaf K V) = .ok a.length := by
      unfold Cursor.nextOffset
      rw [hintHits_vacant h1 h2]
      simp only [Bool.false_eq_true, if_false, lswv_vacant h1 h2, ok_bind, pure_ok]
    simp only [hoff, ok_bind]
    obtain ⟨o, ho, hr⟩ := cursor_forward r.base hc.eq
    exact ⟨o, ho, by rw [hr, h3, succ_split (fun e he => (h4 e he).le) h5]⟩

omit [LinearOrder K] in
/-- Moving back from position `P.length` of the leaf. -/
theorem prevLeafEnd_ok {t : Tree K V A} {L LA LB : List (Nat × List (K × V))} {x}
    (r : Reads0 t L) (hL : L = LA ++ x :: LB) :
    (LA = [] ∧ prevLeafEnd t ⟨x.2, lstId none LA, hdId LB none⟩ = .ok none) ∨
    (∃ LA' y d e p n, LA = LA' ++ [y] ∧ y.2 = d ++ [e] ∧
      prevLeafEnd t ⟨x.2, lstId none LA, hdId LB none⟩ = .ok (some (d.length, ⟨d ++ [e], p, n⟩))) := by
  rcases List.eq_nil_or_concat' LA with rfl | ⟨LA, y, rfl⟩
  · exact .inl ⟨rfl, rfl⟩
  · have hL' : L = LA ++ y :: (x :: LB) := by simp [hL]
    obtain ⟨d, e, hd⟩ := (List.eq_nil_or_concat' y.2).resolve_left (r.flat.data_ne hL' (.inr (by simp)))
    refine .inr ⟨LA, y, d, e, lstId none LA, hdId (x :: LB) none, rfl, hd, ?_⟩
    unfold prevLeafEnd
    simp only [lstId_concat, r.flat.get hL', ok_bind, hd, Leaf.len]
    simp

theorem prevWithValue_ok {t : Tree K V A} {L} (r : Reads t L) (c : Cursor K) :
    ∃ o, c.prevWithValue t = .ok o ∧
      o.map (fun p => (p.1.k, p.2)) = pred c.k (L.flatMap (·.2)) := by
  obtain ⟨LA, ⟨i, d⟩, LB, hc, hl⟩ := cursorLeaf_ok r c
  unfold Cursor.prevWithValue
  rw [hl]
  simp only [ok_bind]
  have hpos : ∃ a q, d = a ++ q ∧ c.prevPos t ⟨d, lstId none LA, hdId LB none⟩
      = (if 0 < a.length then .ok (some (a.length - 1, ⟨d, lstId none LA, hdId LB none⟩))
         else prevLeafEnd t ⟨d, lstId none LA, hdId LB none⟩) ∧
      pred c.k (L.flatMap (·.2)) = (LA.flatMap (·.2) ++ a).getLast? := by
    unfold Cursor.prevPos
    rcases hc.split r.flat.sorted with ⟨a, v, b, h0, h1, h2, h3, h4, h5⟩ | ⟨a, b, h0, h1, h2, h3, h4, h5⟩
    · simp only at h0
      subst h0
      refine ⟨a, (c.k, v) :: b, rfl, ?_, ?_⟩
      · split
        · next hh => rw [hintHits_found h1 h2 hh]; rfl
        · simp only [locateSlot_found h1, pure_ok]
      · rw [h3, pred_split h4]
        intro e he
        rcases List.mem_cons.1 he with rfl | he
        · exact le_refl _
        · exact (h5 e he).le
    · simp only at h0
      subst h0
      refine ⟨a, b, rfl, ?_, ?_⟩
      · rw [hintHits_vacant h1 h2]
        simp only [Bool.false_eq_true, if_false, locateSlot_vacant h1 h2, pure_ok]
      · rw [h3, pred_split h4 (fun e he => (h5 e he).le)]
  obtain ⟨a, q, rfl, hp, hr⟩ := hpos
  rw [hp, hr]
  rcases List.eq_nil_or_concat' a with rfl | ⟨a, e, rfl⟩
  · rw [if_neg (by simp)]
    rcases prevLeafEnd_ok r.base hc.eq with ⟨rfl, h⟩ | ⟨LA', y, d, e, p, n, rfl, hd, h⟩
    · refine ⟨none, ?_, by simp⟩
      simp only at h
      rw [h]; rfl
    · refine ⟨some (⟨e.1, i, d.length⟩, e.2), ?_, ?_⟩
      · simp only at h
        rw [h]
        simp [Leaf.dataAt, readAt]
      · simp [hd, ← List.append_assoc]
  · rw [if_pos (by simp)]
    refine ⟨some (⟨e.1, i, a.length⟩, e.2), ?_, ?_⟩
    · simp [Leaf.dataAt, readAt]
    · simp [← List.append_assoc]

theorem cursorValue_ok {t : Tree K V A} {L} (r : Reads t L) (c : Cursor K) :
    c.value t = .ok (lookup c.k (L.flatMap (·.2))) := by
  obtain ⟨LA, ⟨i, d⟩, LB, hc, hl⟩ := cursorLeaf_ok r c
  unfold Cursor.value
  rw [hl]
  simp only [ok_bind, Leaf.tryDataAt]
  rcases hc.split r.flat.sorted with ⟨a, v, b, h0, h1, h2, h3, h4, h5⟩ | ⟨a, b, h0, h1, h2, h3, h4, h5⟩
  · simp only at h0
    subst h0
    rw [h3, lookup_found h4]
    cases hx : (a ++ (c.k, v) :: b)[c.offsetHint]? with
    | none => simp only [lswv_found h1, ok_bind, pure_ok]
    | some e =>
      by_cases hk : e.1 = c.k
      · have := (hint_found h1 h2 hx hk).2
        subst this
        simp
      · simp only [hk, if_false, lswv_found h1, ok_bind, pure_ok]
  · simp only at h0
    subst h0
    rw [h3, lookup_none h4 h5]
    cases hx : (a ++ b)[c.offsetHint]? with
    | none => simp only [lswv_vacant h1 h2, ok_bind, pure_ok]
    | some e =>
      have := hint_vacant h1 h2 hx
      simp only [this, if_false, lswv_vacant h1 h2, ok_bind, pure_ok]

theorem getCursor_ok {t : Tree K V A} {L} (r : Reads t L) (k : K) :
    ∃ c : Cursor K, t.getCursor k = .ok (some (c, lookup k (L.flatMap (·.2)))) ∧ c.k = k := by
  obtain ⟨LA, ⟨i, d⟩, LB, hc, hf⟩ := r.find k
  unfold Tree.getCursor
  simp only [hf, ok_bind, r.flat.get hc.eq]
  rcases hc.split r.flat.sorted with ⟨a, v, b, h0, h1, h2, h3, h4, h5⟩ | ⟨a, b, h0, h1, h2, h3, h4, h5⟩
  · simp only at h0
    subst h0
    rw [h3, lookup_found h4]
    simp only [lswv_found h1, ok_bind, pure_ok]
    exact ⟨_, rfl, rfl⟩
  · simp only at h0
    subst h0
    rw [h3, lookup_none h4 h5]
    simp only [lswv_vacant h1 h2, ok_bind, pure_ok]
    exact ⟨_, rfl, rfl⟩

theorem cursorFirst_ok {t : Tree K V A} {L} (r : Reads t L) (hne : L.flatMap (·.2) ≠ []) :
    ∃ (c : Cursor K) (v : V), t.cursorFirst = .ok (some (c, v)) ∧
      (L.flatMap (·.2)).head? = some (c.k, v) := by
  obtain ⟨x, L', hL, hf⟩ := r.first
  have hx : x.2 ≠ [] := by
    rcases L' with _ | ⟨y, L'⟩
    · rw [hL] at hne
      simpa using hne
    · exact r.flat.data_ne (LA := []) (LB := y :: L') hL (.inr (by simp))
  obtain ⟨e, d, hd⟩ := List.exists_cons_of_ne_nil hx
  refine ⟨⟨e.1, x.1, 0⟩, e.2, ?_, ?_⟩
  · unfold Tree.cursorFirst
    simp only [hf, ok_bind, r.flat.get (LA := []) (LB := L') hL, Leaf.dataAt, hd]
    simp [readAt]
  · rw [hL]; simp [hd]

theorem cursorLast_ok {t : Tree K V A} {L} (r : Reads t L) (hne : L.flatMap (·.2) ≠ []) :
    ∃ (c : Cursor K) (v : V), t.cursorLast = .ok (some (c, v)) ∧
      (L.flatMap (·.2)).getLast? = some (c.k, v) := by
  obtain ⟨L', x, hL, hf⟩ := r.last
  have hx : x.2 ≠ [] := by
    by_cases h' : L' = []
    · subst h'
      rw [hL] at hne
      simpa using hne
    · exact r.flat.data_ne (LA := L') (LB := []) hL (.inl h')
  obtain ⟨d, e, hd⟩ := (List.eq_nil_or_concat' x.2).resolve_left hx
  refine ⟨⟨e.1, x.1, d.length⟩, e.2, ?_, ?_⟩
  · unfold Tree.cursorLast
    simp only [hf, ok_bind, r.flat.get (LA := L') (LB := []) hL, Leaf.dataAt, Leaf.len, hd]
    simp [readAt]
  · rw [hL]; simp [hd]

end Bpt
