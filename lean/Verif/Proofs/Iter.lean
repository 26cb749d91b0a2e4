import Verif.Proofs.Reads
import Verif.Model.Iter

/-!
# Iterators
-/

namespace Bpt
variable {K V A : Type}

/-! ## The borrowed iterator -/

/-- The front part of the borrowed iterator has `rem` left. -/
structure FInv (L : List (Nat × List (K × V))) (it : Iter K V) (rem : List (K × V)) : Prop where
  len : it.len = rem.length
  pos : rem ≠ [] → ∃ LA x LB P Q, L = LA ++ x :: LB ∧ x.2 = P ++ Q ∧ Q ≠ [] ∧
    it.leaf = some ⟨x.2, lstId none LA, hdId LB none⟩ ∧ it.leafOffset = P.length ∧
    rem = Q ++ LB.flatMap (·.2)

/-- The back part of the borrowed iterator has `rem` left. -/
def BInv (L : List (Nat × List (K × V))) (it : Iter K V) (rem : List (K × V)) : Prop :=
  (it.end_ = none ∧ rem = L.flatMap (·.2)) ∨
  ∃ LA x LB P Q, L = LA ++ x :: LB ∧ x.2 = P ++ Q ∧
    it.end_ = some (⟨x.2, lstId none LA, hdId LB none⟩, P.length) ∧ rem = LA.flatMap (·.2) ++ P

theorem iter_new_ok {t : Tree K V A} {L} (r : Reads0 t L) :
    ∃ it, t.iter = .ok it ∧ FInv L it (L.flatMap (·.2)) ∧ BInv L it (L.flatMap (·.2)) := by
  obtain ⟨x, L', hL, hf⟩ := r.first
  refine ⟨{ len := t.len, leaf := some ⟨x.2, none, hdId L' none⟩, leafOffset := 0, end_ := none },
    ?_, ⟨r.len, ?_⟩, .inl ⟨rfl, rfl⟩⟩
  · unfold Tree.iter
    simp only [hf, ok_bind, r.flat.get (LA := []) (LB := L') hL, lstId_nil, pure_ok]
  · intro hne
    refine ⟨[], x, L', [], x.2, hL, rfl, ?_, by simp, rfl, by rw [hL]; simp⟩
    rcases L' with _ | ⟨y, L'⟩
    · rw [hL] at hne
      simpa using hne
    · exact r.flat.data_ne (LA := []) (LB := y :: L') hL (.inr (by simp))

theorem iter_next_ok {t : Tree K V A} {L} (r : Reads0 t L) {it : Iter K V} {e : K × V}
    {rem : List (K × V)} (h : FInv L it (e :: rem)) :
    ∃ it', it.next t = .ok (some e, it') ∧ FInv L it' rem ∧ it'.end_ = it.end_ := by
  obtain ⟨LA, x, LB, P, Q, hL, hx, hQ, hl, ho, hr⟩ := h.pos (by simp)
  obtain ⟨q, Q, rfl⟩ := List.exists_cons_of_ne_nil hQ
  simp only [List.cons_append, List.cons.injEq] at hr
  obtain ⟨rfl, hr⟩ := hr
  have hlen := h.len
  simp only [List.length_cons] at hlen
  unfold Iter.next
  rw [if_neg (by omega)]
  simp only [hl, ho, Leaf.dataAt, hx, readAt_mid, ok_bind, Leaf.len, List.length_append,
    List.length_cons]
  rcases Q with _ | ⟨q, Q⟩
  · rw [if_neg (by simp)]
    simp only [List.nil_append] at hr
    rcases LB with _ | ⟨y, LB⟩
    · simp only [hdId_nil, pure_ok]
      refine ⟨_, rfl, ⟨by simp; omega, ?_⟩, rfl⟩
      intro hne
      simp [hr] at hne
    · have hL' : L = (LA ++ [x]) ++ y :: LB := by simp [hL]
      simp only [hdId_cons, r.flat.get hL', ok_bind, pure_ok]
      refine ⟨_, rfl, ⟨by simp; omega, ?_⟩, rfl⟩
      intro hne
      exact ⟨LA ++ [x], y, LB, [], y.2, hL', rfl, r.flat.data_ne hL' (.inl (by simp)), rfl, rfl,
        by rw [hr]; simp⟩
  · rw [if_pos (by simp)]
    refine ⟨_, rfl, ⟨by simp; omega, ?_⟩, rfl⟩
    intro hne
    refine ⟨LA, x, LB, P ++ [e], q :: Q, hL, by simp [hx], by simp, ?_, by simp, hr⟩
    simp [hx]

theorem iter_next_none {t : Tree K V A} {it : Iter K V} (h : it.len = 0) :
    it.next t = .ok (none, it) := by
  simp [Iter.next, h]

theorem iter_back_ok {t : Tree K V A} {L} (r : Reads0 t L) {it : Iter K V} {e : K × V}
    {rem : List (K × V)} (h0 : it.len ≠ 0) (h : BInv L it (rem ++ [e])) :
    ∃ it', it.nextBack t = .ok (some e, it') ∧ BInv L it' rem ∧ it'.len = it.len ∧
      it'.leaf = it.leaf ∧ it'.leafOffset = it.leafOffset := by
  unfold Iter.nextBack
  rw [if_neg h0]
  rcases h with ⟨he, hrem⟩ | ⟨LA, x, LB, P, Q, hL, hx, he, hrem⟩
  · obtain ⟨L', x, hL, hf⟩ := r.last
    have hx : x.2 ≠ [] := by
      by_cases h' : L' = []
      · subst h'
        rw [hL] at hrem
        intro h0
        simp [h0] at hrem
      · exact r.flat.data_ne (LA := L') (LB := []) hL (.inl h')
    obtain ⟨d, q, hd⟩ := (List.eq_nil_or_concat' x.2).resolve_left hx
    have hq : rem = L'.flatMap (·.2) ++ d ∧ e = q := by
      have : rem ++ [e] = (L'.flatMap (·.2) ++ d) ++ [q] := by rw [hrem, hL]; simp [hd]
      have := List.append_inj' this rfl
      exact ⟨this.1, by simpa using this.2⟩
    obtain ⟨hr, rfl⟩ := hq
    simp only [he, hf, ok_bind, r.flat.get (LA := L') (LB := []) hL, Leaf.len, hd, Leaf.dataAt]
    refine ⟨{ it with end_ := some (⟨d ++ [e], lstId none L', none⟩, d.length) }, ?_, ?_, rfl, rfl,
      rfl⟩
    · simp [readAt]
    · exact .inr ⟨L', x, [], d, [e], hL, hd, by simp [hd], hr⟩
  · rcases List.eq_nil_or_concat' P with rfl | ⟨P, q, rfl⟩
    · simp only [he, List.length_nil, Nat.lt_irrefl, if_false]
      rcases List.eq_nil_or_concat' LA with rfl | ⟨LA, y, rfl⟩
      · simp at hrem
      · have hL' : L = LA ++ y :: (x :: LB) := by simp [hL]
        obtain ⟨d, q, hd⟩ := (List.eq_nil_or_concat' y.2).resolve_left
          (r.flat.data_ne hL' (.inr (by simp)))
        have hq : rem = LA.flatMap (·.2) ++ d ∧ e = q := by
          have : rem ++ [e] = (LA.flatMap (·.2) ++ d) ++ [q] := by rw [hrem]; simp [hd]
          have := List.append_inj' this rfl
          exact ⟨this.1, by simpa using this.2⟩
        obtain ⟨hr, rfl⟩ := hq
        simp only [lstId_concat, r.flat.get hL', ok_bind, Leaf.len, hd, Leaf.dataAt]
        refine ⟨{ it with end_ := some (⟨d ++ [e], lstId none LA, hdId (x :: LB) none⟩, d.length) },
          ?_, ?_, rfl, rfl, rfl⟩
        · simp [readAt]
        · exact .inr ⟨LA, y, x :: LB, d, [e], hL', hd, by simp [hd], hr⟩
    · have hq : rem = LA.flatMap (·.2) ++ P ∧ e = q := by
        rw [← List.append_assoc] at hrem
        have := List.append_inj' hrem rfl
        exact ⟨this.1, by simpa using this.2⟩
      obtain ⟨hr, rfl⟩ := hq
      simp only [he, List.length_append, List.length_cons, List.length_nil]
      rw [if_pos (by omega)]
      refine ⟨{ it with end_ := some (⟨x.2, lstId none LA, hdId LB none⟩, P.length) }, ?_, ?_, rfl, rfl,
        rfl⟩
      · simp [Leaf.dataAt, readAt, hx]
      · exact .inr ⟨LA, x, LB, P, e :: Q, hL, by simp [hx], rfl, hr⟩

theorem iter_back_none {t : Tree K V A} {L} (r : Reads0 t L) {it : Iter K V}
    (h : it.len = 0 ∨ BInv L it []) : it.nextBack t = .ok (none, it) := by
  unfold Iter.nextBack
  by_cases h0 : it.len = 0
  · simp [h0]
  · rw [if_neg h0]
    rcases h.resolve_left h0 with ⟨he, hrem⟩ | ⟨LA, x, LB, P, Q, hL, hx, he, hrem⟩
    · obtain ⟨L', x, hL, hf⟩ := r.last
      have hx : x.2 = [] := by
        rw [hL] at hrem
        simp at hrem
        exact hrem.2
      simp only [he, hf, ok_bind, r.flat.get (LA := L') (LB := []) hL, Leaf.len, hx, List.length_nil,
        if_true, pure_ok]
    · have hrem := hrem.symm
      rw [List.append_eq_nil_iff] at hrem
      obtain ⟨h1, rfl⟩ := hrem
      have hA : LA = [] := by
        rcases LA with _ | ⟨y, LA⟩
        · rfl
        · have := r.flat.data_ne (LA := []) (LB := LA ++ x :: LB) (by simpa using hL) (.inr (by simp))
          simp at h1
          exact absurd h1.1 this
      subst hA
      simp [he]

/-- What the borrowed iterator answers on a schedule of calls, on content `l`, after `f` calls of
`next` and `b` calls of `next_back`. -/
def borrowedSpec (l : List (K × V)) : Nat → Nat → List Dir → List (Option (K × V) × Nat)
  | _, _, [] => []
  | f, b, .front :: ds => (l[f]?, l.length - (f + 1)) :: borrowedSpec l (f + 1) b ds
  | f, b, .back :: ds =>
    (if f < l.length then l.reverse[b]? else none, l.length - f) :: borrowedSpec l f (b + 1) ds

theorem iter_run_ok {t : Tree K V A} {L} (r : Reads0 t L) {it : Iter K V} {f b : Nat}
    (hf : FInv L it ((L.flatMap (·.2)).drop f))
    (hb : it.len ≠ 0 → BInv L it ((L.flatMap (·.2)).take ((L.flatMap (·.2)).length - b)))
    (ds : List Dir) :
    it.runCalls t ds = .ok (borrowedSpec (L.flatMap (·.2)) f b ds) := by
  generalize hl : L.flatMap (·.2) = l at *
  induction ds generalizing it f b with
  | nil => rfl
  | cons d ds ih =>
    have hlen := hf.len
    rw [List.length_drop] at hlen
    cases d with
    | front =>
      simp only [Iter.runCalls, Iter.call, borrowedSpec]
      by_cases h : f < l.length
      · rw [List.drop_eq_getElem_cons h] at hf
        obtain ⟨it', h1, h2, h3⟩ := iter_next_ok r hf
        have hlen' := h2.len
        rw [List.length_drop] at hlen'
        have hb' : it'.len ≠ 0 → BInv L it' (l.take (l.length - b)) := by
          intro h0
          have := hb (by omega)
          unfold BInv at this ⊢
          rw [h3]; exact this
        simp only [h1, ok_bind, ih h2 hb', pure_ok, Iter.sizeHint, hlen', List.getElem?_eq_getElem h]
      · have h0 : it.len = 0 := by omega
        have hf' : FInv L it (l.drop (f + 1)) := by
          rw [List.drop_eq_nil_of_le (by omega)] at hf ⊢; exact hf
        simp only [iter_next_none h0, ok_bind, ih hf' hb, pure_ok, Iter.sizeHint, h0,
          List.getElem?_eq_none (Nat.le_of_not_lt h)]
        rw [show l.length - (f + 1) = 0 by omega]
    | back =>
      simp only [Iter.runCalls, Iter.call, borrowedSpec]
      by_cases h : f < l.length
      · rw [if_pos h]
        have h0 : it.len ≠ 0 := by omega
        by_cases hbl : b < l.length
        · have e1 : l.take (l.length - b) = l.take (l.length - (b + 1)) ++ [l[l.length - 1 - b]] := by
            rw [show l.length - b = (l.length - (b + 1)) + 1 by omega,
              List.take_succ_eq_append_getElem (by omega)]
            congr 3
            omega
          have hb0 := hb h0
          rw [e1] at hb0
          obtain ⟨it', h1, h2, h3, h4, h5⟩ := iter_back_ok r h0 hb0
          have hf' : FInv L it' (l.drop f) := by
            refine ⟨h3.trans hf.len, ?_⟩
            rw [h4, h5]; exact hf.pos
          simp only [h1, ok_bind, ih hf' (fun _ => h2), pure_ok, Iter.sizeHint, h3, hlen]
          rw [List.getElem?_reverse hbl, List.getElem?_eq_getElem]
        · have hb0 := hb h0
          rw [show l.length - b = 0 by omega, List.take_zero] at hb0
          have hb' : it.len ≠ 0 → BInv L it (l.take (l.length - (b + 1))) := by
            intro _
            rw [show l.length - (b + 1) = 0 by omega, List.take_zero]; exact hb0
          simp only [iter_back_none r (.inr hb0), ok_bind, ih hf hb', pure_ok, Iter.sizeHint, hlen]
          rw [List.getElem?_eq_none (by simp; omega)]
      · rw [if_neg h]
        have h0 : it.len = 0 := by omega
        simp only [iter_back_none r (.inl h0), ok_bind, ih hf (b := b + 1) (fun h => absurd h0 h),
          pure_ok, Iter.sizeHint, hlen]

/-- Any schedule of calls on a fresh borrowed iterator. -/
theorem iter_runCalls_ok {t : Tree K V A} {L} (r : Reads0 t L) (ds : List Dir) :
    ∃ it, t.iter = .ok it ∧ it.sizeHint = (L.flatMap (·.2)).length ∧
      it.runCalls t ds = .ok (borrowedSpec (L.flatMap (·.2)) 0 0 ds) := by
  obtain ⟨it, h1, h2, h3⟩ := iter_new_ok r
  refine ⟨it, h1, h2.len, iter_run_ok r (by simpa using h2) (fun _ => by
    rw [Nat.sub_zero, List.take_length]; exact h3) ds⟩

theorem borrowedSpec_front (l : List (K × V)) (f n : Nat) :
    borrowedSpec l f 0 (List.replicate n .front)
      = (List.range n).map (fun i => (l[f + i]?, l.length - (f + i + 1))) := by
  induction n generalizing f with
  | zero => rfl
  | succ n ih =>
    rw [List.replicate_succ, borrowedSpec, ih, List.range_succ_eq_map, List.map_cons, List.map_map]
    congr 1
    apply List.map_congr_left
    intro i _
    simp only [Function.comp]
    rw [show f + 1 + i = f + (i + 1) by omega]

theorem borrowedSpec_back (l : List (K × V)) (b n : Nat) :
    (borrowedSpec l 0 b (List.replicate n .back)).map (·.1)
      = (List.range n).map (fun i => l.reverse[b + i]?) := by
  induction n generalizing b with
  | zero => rfl
  | succ n ih =>
    rw [List.replicate_succ, borrowedSpec, List.map_cons, ih, List.range_succ_eq_map, List.map_cons,
      List.map_map]
    congr 1
    · split
      · rfl
      · rw [List.getElem?_eq_none (by simp; omega)]
    · apply List.map_congr_left
      intro i _
      simp only [Function.comp]
      rw [show b + 1 + i = b + (i + 1) by omega]

/-! ## The owning iterator -/

/-- Slot `s` of leaf `i` is the position `n` of the whole content. -/
def At (L : List (Nat × List (K × V))) (i s n : Nat) : Prop :=
  ∃ LA x LB, L = LA ++ x :: LB ∧ x.1 = i ∧ s ≤ x.2.length ∧ n = (LA.flatMap (·.2)).length + s

theorem split_unique {L LA LB LA' LB' : List (Nat × List (K × V))} {x x'}
    (hn : (L.map (·.1)).Nodup) (h : L = LA ++ x :: LB) (h' : L = LA' ++ x' :: LB')
    (hx : x.1 = x'.1) : LA = LA' := by
  subst h
  induction LA generalizing LA' with
  | nil =>
    cases LA' with
    | nil => rfl
    | cons y LA' =>
      simp only [List.nil_append, List.cons_append, List.cons.injEq] at h'
      obtain ⟨rfl, rfl⟩ := h'
      simp [hx] at hn
  | cons z LA ih =>
    cases LA' with
    | nil =>
      simp only [List.nil_append, List.cons_append, List.cons.injEq] at h'
      obtain ⟨rfl, rfl⟩ := h'
      simp [hx] at hn
    | cons y LA' =>
      simp only [List.cons_append, List.cons.injEq] at h'
      obtain ⟨rfl, h'⟩ := h'
      rw [ih (List.Nodup.of_cons (by simpa using hn)) h']

theorem At.unique {L : List (Nat × List (K × V))} {i s n n' : Nat} (hn : (L.map (·.1)).Nodup)
    (h : At L i s n) (h' : At L i s n') : n = n' := by
  obtain ⟨LA, x, LB, hL, hx, _, rfl⟩ := h
  obtain ⟨LA', x', LB', hL', hx', _, rfl⟩ := h'
  rw [split_unique hn hL hL' (hx.trans hx'.symm)]

/-- The owning iterator still has the positions `a ≤ n < b` of the content. -/
structure II (L : List (Nat × List (K × V))) (it : IntoIter K V A) (a b : Nat) : Prop where
  flat : Flat0 it.store L
  le : a ≤ b
  bound : b ≤ (L.flatMap (·.2)).length
  len : it.len = b - a
  pos : At L it.pos.1 it.pos.2 a
  fin : At L it.end_.1 it.end_.2 b
  taken : ∀ i s, (i, s) ∈ it.taken → ∀ n, At L i s n → n < a ∨ b ≤ n

theorem II.store_pos {L : List (Nat × List (K × V))} {it : IntoIter K V A} {a b} (h : II L it a b) :
    1 ≤ it.store.leaves.length := by
  obtain ⟨LA, x, LB, hL, hx, _, _⟩ := h.pos
  have := h.flat.get hL
  unfold Store.getLeaf at this
  by_contra h0
  have : it.store.leaves = [] := List.eq_nil_of_length_eq_zero (by omega)
  simp [this] at *

theorem nextAux_in {L : List (Nat × List (K × V))} {it : IntoIter K V A} {a b : Nat}
    (h : II L it a b) (hab : a < b) {LA x LB} (hL : L = LA ++ x :: LB) (hx : x.1 = it.pos.1)
    (hs : it.pos.2 < x.2.length) (ha : a = (LA.flatMap (·.2)).length + it.pos.2) (fuel : Nat) :
    ∃ it', it.nextAux (fuel + 1) = .ok ((L.flatMap (·.2))[a]?, it') ∧ II L it' (a + 1) b := by
  have hlen := h.len
  have hat : At L it.pos.1 it.pos.2 a := ⟨LA, x, LB, hL, hx, hs.le, ha⟩
  have hnt : (it.pos.1, it.pos.2) ∉ it.taken := by
    intro hm
    have := h.taken _ _ hm a hat
    omega
  have hget : (L.flatMap (·.2))[a]? = some x.2[it.pos.2] := by
    rw [hL, ha]
    simp only [List.flatMap_append, List.flatMap_cons]
    rw [List.getElem?_append_right (by omega), List.getElem?_append_left (by omega)]
    simp [hs]
  unfold IntoIter.nextAux
  rw [if_neg (by omega)]
  simp only [← hx, h.flat.get hL, ok_bind, Leaf.len]
  rw [if_pos hs]
  simp only [IntoIter.takeData, List.getElem?_eq_getElem hs, hx]
  rw [if_neg hnt]
  simp only [ok_bind, pure_ok, hget]
  refine ⟨_, rfl, ⟨h.flat, hab, h.bound, by simp only; omega, ?_, h.fin, ?_⟩⟩
  · exact ⟨LA, x, LB, hL, hx, hs, by simp only; omega⟩
  · intro i s hm n hn
    simp only [List.mem_cons, Prod.mk.injEq] at hm
    rcases hm with ⟨rfl, rfl⟩ | hm
    · have := hat.unique h.flat.nodup hn
      omega
    · have := h.taken _ _ hm _ hn
      omega

theorem into_next_ok {L : List (Nat × List (K × V))} {it : IntoIter K V A} {a b : Nat}
    (h : II L it a b) (hab : a < b) :
    ∃ it', it.next = .ok ((L.flatMap (·.2))[a]?, it') ∧ II L it' (a + 1) b := by
  have hp := h.store_pos
  have hlen := h.len
  obtain ⟨LA, x, LB, hL, hx, hs, ha⟩ := h.pos
  unfold IntoIter.next
  by_cases hs' : it.pos.2 < x.2.length
  · exact nextAux_in h hab hL hx hs' ha _
  · rcases LB with _ | ⟨y, LB⟩
    · have := h.bound
      rw [hL] at this
      simp only [List.flatMap_append, List.flatMap_cons, List.flatMap_nil, List.length_append,
        List.length_nil] at this
      omega
    · have hL' : L = (LA ++ [x]) ++ y :: LB := by simp [hL]
      have hy : y.2 ≠ [] := h.flat.data_ne hL' (.inl (by simp))
      have hy' := List.length_pos_of_ne_nil hy
      have ha' : a = ((LA ++ [x]).flatMap (·.2)).length + 0 := by simp [← List.length_flatMap]; omega
      obtain ⟨m, hm⟩ : ∃ m, it.store.leaves.length = m + 1 := ⟨it.store.leaves.length - 1, by omega⟩
      unfold IntoIter.nextAux
      rw [if_neg (by omega)]
      simp only [← hx, h.flat.get hL, ok_bind, Leaf.len]
      rw [if_neg hs', hm]
      simp only [hdId_cons]
      have h' : II L { it with pos := (y.1, 0) } a b :=
        ⟨h.flat, h.le, h.bound, h.len, ⟨LA ++ [x], y, LB, hL', rfl, Nat.zero_le _, ha'⟩, h.fin, h.taken⟩
      exact nextAux_in h' hab hL' rfl hy' ha' _

theorem into_next_none {it : IntoIter K V A} (h : it.len = 0) : it.next = .ok (none, it) := by
  simp [IntoIter.next, IntoIter.nextAux, h]

theorem backAux_in {L : List (Nat × List (K × V))} {it : IntoIter K V A} {a b : Nat}
    (h : II L it a (b + 1)) (hab : a ≤ b) {LA x LB} (hL : L = LA ++ x :: LB) (hx : x.1 = it.end_.1)
    (hs : it.end_.2 ≤ x.2.length) (h0 : 0 < it.end_.2)
    (ha : b + 1 = (LA.flatMap (·.2)).length + it.end_.2) (fuel : Nat) :
    ∃ it', it.nextBackAux (fuel + 1) = .ok ((L.flatMap (·.2))[b]?, it') ∧ II L it' a b := by
  have hlen := h.len
  have hs' : it.end_.2 - 1 < x.2.length := by omega
  have hat : At L it.end_.1 (it.end_.2 - 1) b := ⟨LA, x, LB, hL, hx, by omega, by omega⟩
  have hnt : (it.end_.1, it.end_.2 - 1) ∉ it.taken := by
    intro hm
    have := h.taken _ _ hm b hat
    omega
  have hget : (L.flatMap (·.2))[b]? = some x.2[it.end_.2 - 1] := by
    rw [hL, show b = (LA.flatMap (·.2)).length + (it.end_.2 - 1) by omega]
    simp only [List.flatMap_append, List.flatMap_cons]
    rw [List.getElem?_append_right (by omega), List.getElem?_append_left (by omega)]
    simp [hs']
  unfold IntoIter.nextBackAux
  rw [if_neg (by omega)]
  simp only [← hx, h.flat.get hL, ok_bind]
  rw [if_pos h0]
  simp only [IntoIter.takeData, List.getElem?_eq_getElem hs', hx]
  rw [if_neg hnt]
  simp only [ok_bind, pure_ok, hget]
  refine ⟨_, rfl, ⟨h.flat, hab, (Nat.le_succ b).trans h.bound, by simp only; omega, h.pos, ?_, ?_⟩⟩
  · exact ⟨LA, x, LB, hL, hx, hs'.le, by simp only; omega⟩
  · intro i s hm n hn
    simp only [List.mem_cons, Prod.mk.injEq] at hm
    rcases hm with ⟨rfl, rfl⟩ | hm
    · have := hat.unique h.flat.nodup hn
      omega
    · have := h.taken _ _ hm _ hn
      omega

theorem into_back_ok {L : List (Nat × List (K × V))} {it : IntoIter K V A} {a b : Nat}
    (h : II L it a (b + 1)) (hab : a ≤ b) :
    ∃ it', it.nextBack = .ok ((L.flatMap (·.2))[b]?, it') ∧ II L it' a b := by
  have hp := h.store_pos
  have hlen := h.len
  obtain ⟨LA, x, LB, hL, hx, hs, ha⟩ := h.fin
  unfold IntoIter.nextBack
  by_cases hs' : 0 < it.end_.2
  · exact backAux_in h hab hL hx hs hs' ha _
  · rcases List.eq_nil_or_concat' LA with rfl | ⟨LA, y, rfl⟩
    · simp only [List.flatMap_nil, List.length_nil] at ha
      omega
    · have hL' : L = LA ++ y :: (x :: LB) := by simp [hL]
      have hy : y.2 ≠ [] := h.flat.data_ne hL' (.inr (by simp))
      have hy' := List.length_pos_of_ne_nil hy
      have ha' : b + 1 = (LA.flatMap (·.2)).length + y.2.length := by
        simp only [List.flatMap_append, List.flatMap_cons, List.flatMap_nil, List.length_append,
          List.length_nil] at ha
        omega
      obtain ⟨m, hm⟩ : ∃ m, it.store.leaves.length = m + 1 := ⟨it.store.leaves.length - 1, by omega⟩
      unfold IntoIter.nextBackAux
      rw [if_neg (by omega)]
      simp only [← hx, h.flat.get hL, ok_bind]
      rw [if_neg hs', hm]
      simp only [lstId_concat, h.flat.get hL', ok_bind, Leaf.len]
      have h' : II L { it with end_ := (y.1, y.2.length) } a (b + 1) :=
        ⟨h.flat, h.le, h.bound, h.len, h.pos, ⟨LA, y, x :: LB, hL', rfl, le_rfl, ha'⟩, h.taken⟩
      exact backAux_in h' hab hL' rfl le_rfl hy' ha' _

theorem into_back_none {it : IntoIter K V A} (h : it.len = 0) : it.nextBack = .ok (none, it) := by
  simp [IntoIter.nextBack, IntoIter.nextBackAux, h]

theorem into_new_ok {t : Tree K V A} {L} (r : Reads0 t L) :
    ∃ it, t.intoIter = .ok it ∧ II L it 0 (L.flatMap (·.2)).length := by
  obtain ⟨x, L', hL, hf⟩ := r.first
  obtain ⟨L'', y, hL2, hl⟩ := r.last
  unfold Tree.intoIter
  simp only [hf, hl, ok_bind, r.flat.get (LA := L'') (LB := []) hL2, Leaf.len, pure_ok]
  refine ⟨_, rfl, ⟨r.flat, Nat.zero_le _, le_rfl, r.len, ⟨[], x, L', hL, rfl, Nat.zero_le _, rfl⟩,
    ⟨L'', y, [], hL2, rfl, le_rfl, ?_⟩, by simp⟩⟩
  rw [hL2]; simp

theorem into_run_ok {L : List (Nat × List (K × V))} {it : IntoIter K V A} {a b : Nat}
    (h : II L it a b) (ds : List Dir) :
    ∃ it' a' b', it.runCalls ds = .ok ((Spec.pulls (((L.flatMap (·.2)).take b).drop a) ds).1, it') ∧
      II L it' a' b' ∧
      ((L.flatMap (·.2)).take b').drop a' = (Spec.pulls (((L.flatMap (·.2)).take b).drop a) ds).2 := by
  induction ds generalizing it a b with
  | nil => exact ⟨it, a, b, rfl, h, rfl⟩
  | cons d ds ih =>
    have hle := h.le
    have hbd := h.bound
    have hlen := h.len
    generalize hl : L.flatMap (·.2) = l at *
    have hempty : ¬ a < b → (l.take b).drop a = [] := by
      intro hn
      rw [List.drop_eq_nil_iff, List.length_take]; omega
    cases d with
    | front =>
      by_cases hab : a < b
      · obtain ⟨it1, h1, h2⟩ := into_next_ok h hab
        obtain ⟨it2, a', b', h3, h4, h5⟩ := ih h2
        rw [hl] at h1
        have e : (l.take b).drop a = l[a] :: (l.take b).drop (a + 1) := by
          rw [List.drop_eq_getElem_cons (by simp; omega)]
          simp
        refine ⟨it2, a', b', ?_, h4, ?_⟩
        · simp only [IntoIter.runCalls, IntoIter.call, h1, ok_bind, h3, pure_ok, IntoIter.sizeHint,
            h2.len, e, Spec.pulls, Spec.pull, List.head?_cons, List.tail_cons]
          rw [List.getElem?_eq_getElem (by omega)]
          simp only [List.length_drop, List.length_take]
          rw [Nat.min_eq_left hbd]
        · rw [e]; exact h5
      · obtain ⟨it2, a', b', h3, h4, h5⟩ := ih h
        rw [hempty hab] at h3 h5 ⊢
        refine ⟨it2, a', b', ?_, h4, h5⟩
        have h0 : it.len = 0 := by omega
        simp only [IntoIter.runCalls, IntoIter.call, into_next_none h0, ok_bind, h3, pure_ok,
          IntoIter.sizeHint, h0]
        rfl
    | back =>
      by_cases hab : a < b
      · obtain ⟨b, rfl⟩ : ∃ m, b = m + 1 := ⟨b - 1, by omega⟩
        obtain ⟨it1, h1, h2⟩ := into_back_ok h (by omega)
        obtain ⟨it2, a', b', h3, h4, h5⟩ := ih h2
        rw [hl] at h1
        have e : (l.take (b + 1)).drop a = (l.take b).drop a ++ [l[b]] := by
          rw [List.take_succ_eq_append_getElem (by omega), List.drop_append_of_le_length (by simp; omega)]
        refine ⟨it2, a', b', ?_, h4, ?_⟩
        · simp only [IntoIter.runCalls, IntoIter.call, h1, ok_bind, h3, pure_ok, IntoIter.sizeHint,
            h2.len, e, Spec.pulls, Spec.pull, List.getLast?_append, List.dropLast_concat,
            List.getLast?_singleton, Option.some_or]
          rw [List.getElem?_eq_getElem (by omega)]
          simp only [List.length_drop, List.length_take]
          rw [Nat.min_eq_left (by omega)]
        · rw [e]
          simp only [Spec.pulls, Spec.pull, List.dropLast_concat]
          exact h5
      · obtain ⟨it2, a', b', h3, h4, h5⟩ := ih h
        rw [hempty hab] at h3 h5 ⊢
        refine ⟨it2, a', b', ?_, h4, h5⟩
        have h0 : it.len = 0 := by omega
        simp only [IntoIter.runCalls, IntoIter.call, into_back_none h0, ok_bind, h3, pure_ok,
          IntoIter.sizeHint, h0]
        rfl

theorem into_dropAux_ok {L : List (Nat × List (K × V))} (n : Nat) {it : IntoIter K V A} {a b : Nat}
    (h : II L it a b) (hn : b - a < n) :
    it.dropAux n = .ok (((L.flatMap (·.2)).take b).drop a) := by
  induction n generalizing it a b with
  | zero => omega
  | succ n ih =>
    have hle := h.le
    have hbd := h.bound
    have hlen := h.len
    unfold IntoIter.dropAux
    by_cases hab : a < b
    · obtain ⟨it1, h1, h2⟩ := into_next_ok h hab
      rw [List.getElem?_eq_getElem (by omega)] at h1
      simp only [h1, ok_bind, ih h2 (by omega), pure_ok]
      rw [List.drop_eq_getElem_cons (i := a) (by simp [← List.length_flatMap]; omega)]
      simp
    · have h0 : it.len = 0 := by omega
      have hempty : ((L.flatMap (·.2)).take b).drop a = [] := by
        rw [List.drop_eq_nil_iff, List.length_take]; omega
      simp only [into_next_none h0, ok_bind, pure_ok, hempty]

theorem into_drop_ok {L : List (Nat × List (K × V))} {it : IntoIter K V A} {a b : Nat}
    (h : II L it a b) : it.drop = .ok (((L.flatMap (·.2)).take b).drop a) :=
  into_dropAux_ok _ h (by rw [h.len]; omega)

/-- Any schedule of calls on a fresh owning iterator, and what dropping it midway destroys. -/
theorem intoIter_ok {t : Tree K V A} {L} (r : Reads0 t L) (ds : List Dir) :
    ∃ it it', t.intoIter = .ok it ∧ it.sizeHint = (L.flatMap (·.2)).length ∧
      it.runCalls ds = .ok ((Spec.pulls (L.flatMap (·.2)) ds).1, it') ∧
      it'.drop = .ok (Spec.pulls (L.flatMap (·.2)) ds).2 := by
  obtain ⟨it, h1, h2⟩ := into_new_ok r
  obtain ⟨it', a', b', h3, h4, h5⟩ := into_run_ok h2 ds
  have := into_drop_ok h4
  rw [h5] at this
  rw [List.take_length, List.drop_zero] at h3 this
  exact ⟨it, it', h1, by simp [IntoIter.sizeHint, h2.len, List.length_flatMap], h3, this⟩

/-- Dropping the tree destroys every entry exactly once. -/
theorem drop_ok {t : Tree K V A} {L} (r : Reads0 t L) : t.drop = .ok (L.flatMap (·.2)) := by
  obtain ⟨it, h1, h2⟩ := into_new_ok r
  have := into_drop_ok h2
  rw [List.take_length, List.drop_zero] at this
  simp only [Tree.drop, h1, ok_bind, this]

end Bpt
