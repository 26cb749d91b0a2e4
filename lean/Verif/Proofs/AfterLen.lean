import Verif.LenSpec
import Verif.Proofs.AfterCalls

/-!
# Histories on a map whose `len` is not the number of items
-/

namespace Bpt
open Spec
variable {K V A : Type}

section
variable [LinearOrder K] [Augmentation K V A]

theorem remove_len {t u : Tree K V A} {k : K} {w : V} (h : t.remove k = .ok (some w, u)) : u.len + 1 = t.len := by
  unfold Tree.remove at h
  obtain ⟨⟨r, u1⟩, h1, h2⟩ := bind_ok h
  unfold Tree.removeImpl at h1
  obtain ⟨e, h3, h4⟩ := bind_ok h1
  cases e with
  | none => cases h4; cases h2
  | some e =>
    obtain ⟨⟨kv, u2⟩, h5, h6⟩ := bind_ok h4
    cases h6
    cases h2
    unfold Tree.removeByRef at h5
    obtain ⟨lf, h7, h8⟩ := bind_ok h5
    obtain ⟨⟨lf', dr⟩, h9, h10⟩ := bind_ok h8
    dsimp only at h10
    obtain ⟨⟨r, s, st⟩, h11, h12⟩ := bind_ok h10
    dsimp only at h12
    obtain ⟨⟨kv', s', root⟩, h13, h14⟩ := bind_ok h12
    dsimp only at h14
    obtain ⟨a, h15, h16⟩ := bind_ok h14
    split at h16
    · cases h16
    · cases h16; dsimp only; omega

/-! ### Iterators with another `len` -/

omit [LinearOrder K] [Augmentation K V A] in
theorem runCalls_zero {t : Tree K V A} {it : Iter K V} (h : it.len = 0) (ds : List Dir) :
    ∃ as, it.runCalls t ds = .ok as ∧ as.map (·.1) = List.replicate ds.length none := by
  induction ds with
  | nil => exact ⟨[], rfl, rfl⟩
  | cons d ds ih =>
    obtain ⟨as, h1, h2⟩ := ih
    have : it.call t d = .ok (none, it) := by
      cases d <;> simp only [Iter.call, Iter.next, Iter.nextBack, h, if_true, pure_ok]
    refine ⟨(none, it.sizeHint) :: as, by simp only [Iter.runCalls, this, ok_bind, h1, pure_ok], ?_⟩
    simp [h2, List.replicate_succ]

omit [LinearOrder K] [Augmentation K V A] in
theorem next_len {t t' : Tree K V A} (ht : t'.store = t.store) {it it1 : Iter K V} {o : Option (K × V)}
    (h : it.next t = .ok (o, it1)) (h0 : it.len ≠ 0) {b : Nat} (hb : b ≠ 0) :
    ({ it with len := b } : Iter K V).next t' = .ok (o, { it1 with len := if it.leaf = none then b else b - 1 }) ∧
      it1.len = if it.leaf = none then it.len else it.len - 1 := by
  unfold Iter.next at h ⊢
  rw [if_neg h0] at h
  rw [if_neg hb]
  dsimp only
  cases hl : it.leaf with
  | none => rw [hl] at h; cases h; simp [hl]
  | some lf =>
    rw [hl] at h
    dsimp only at h ⊢
    obtain ⟨kv, h1, h2⟩ := bind_ok h
    simp only [h1, ok_bind]
    split at h2
    · next hc => rw [if_pos hc]; cases h2; simp
    · next hc =>
      rw [if_neg hc]
      cases hn : lf.next with
      | none => rw [hn] at h2; cases h2; simp
      | some j =>
        rw [hn] at h2
        dsimp only at h2 ⊢
        obtain ⟨nl, h3, h4⟩ := bind_ok h2
        cases h4
        rw [ht, h3]
        simp

omit [LinearOrder K] [Augmentation K V A] in
theorem runCalls_length {t : Tree K V A} {it : Iter K V} {ds : List Dir} {as : List (Option (K × V) × Nat)}
    (h : it.runCalls t ds = .ok as) : as.length = ds.length := by
  induction ds generalizing it as with
  | nil => cases h; rfl
  | cons d ds ih =>
    simp only [Iter.runCalls] at h
    obtain ⟨⟨o, it1⟩, -, h⟩ := bind_ok h
    obtain ⟨rs, h1, h⟩ := bind_ok h
    cases h
    simp [ih h1]

omit [LinearOrder K] [Augmentation K V A] in
theorem runCalls_done {t : Tree K V A} {it : Iter K V} (h : it.leaf = none) (m : Nat) :
    ∃ as, it.runCalls t (List.replicate m .front) = .ok as ∧ as.map (·.1) = List.replicate m none := by
  induction m with
  | zero => exact ⟨[], rfl, rfl⟩
  | succ m ih =>
    obtain ⟨as, h1, h2⟩ := ih
    have : it.call t .front = .ok (none, it) := by
      simp only [Iter.call, Iter.next, h, pure_ok, ite_self]
    refine ⟨(none, it.sizeHint) :: as, ?_, ?_⟩
    · simp only [List.replicate_succ, Iter.runCalls, this, ok_bind, h1, pure_ok]
    · simp [h2, List.replicate_succ]

omit [LinearOrder K] [Augmentation K V A] in
/-- After the last item a forward iteration has no leaf any more. -/
theorem iter_next_last {t : Tree K V A} {L} (r : Reads0 t L) {it : Iter K V} {e : K × V}
    (h : FInv L it [e]) {o : Option (K × V)} {it' : Iter K V} (hn : it.next t = .ok (o, it')) : it'.leaf = none := by
  obtain ⟨LA, x, LB, P, Q, hL, hx, hQ, hl, ho, hr⟩ := h.pos (by simp)
  obtain ⟨q, Q, rfl⟩ := List.exists_cons_of_ne_nil hQ
  simp only [List.cons_append, List.cons.injEq] at hr
  obtain ⟨rfl, hr⟩ := hr
  have hQ0 : Q = [] := (List.append_eq_nil_iff.1 hr.symm).1
  subst hQ0
  have hLB : LB = [] := by
    cases LB with
    | nil => rfl
    | cons y LB =>
      have hL' : L = (LA ++ [x]) ++ y :: LB := by simp [hL]
      have hy := r.flat.data_ne hL' (.inl (by simp))
      simp [hy] at hr
  subst hLB
  have hlen := h.len
  simp only [List.length_cons, List.length_nil] at hlen
  unfold Iter.next at hn
  rw [if_neg (by omega)] at hn
  simp only [hl, ho, Leaf.dataAt, hx, readAt_mid, ok_bind, Leaf.len, List.length_append,
    List.length_cons, List.length_nil, Nat.zero_add, Nat.lt_irrefl, if_false, hdId_nil, pure_ok] at hn
  cases hn
  rfl

omit [LinearOrder K] [Augmentation K V A] in
theorem front_len {t t' : Tree K V A} {L} (r : Reads0 t L) (ht : t'.store = t.store) (m : Nat) {it : Iter K V}
    {rem : List (K × V)} (h : FInv L it rem) (hrem : rem = [] → it.leaf = none) (b : Nat) :
    ∃ as, ({ it with len := b } : Iter K V).runCalls t' (List.replicate m .front) = .ok as ∧
      as.map (·.1) = (List.range m).map (fun i => if i < b then rem[i]? else none) := by
  induction m generalizing it rem b with
  | zero => exact ⟨[], rfl, rfl⟩
  | succ m ih =>
    by_cases hb0 : b = 0
    · subst hb0
      obtain ⟨as', h1, h2⟩ := runCalls_zero (t := t') (it := { it with len := 0 }) rfl (List.replicate (m + 1) .front)
      refine ⟨as', h1, ?_⟩
      rw [h2, List.length_replicate]
      simp
    · cases rem with
      | nil =>
        obtain ⟨as', h3, h4⟩ := runCalls_done (t := t') (it := { it with len := b }) (hrem rfl) (m + 1)
        refine ⟨as', h3, ?_⟩
        rw [h4]
        simp
      | cons e rem =>
        obtain ⟨it1, h1, h2, -⟩ := iter_next_ok r h
        have hl : it.leaf ≠ none := by
          obtain ⟨LA, x, LB, P, Q, -, -, -, hl, -⟩ := h.pos (by simp)
          rw [hl]; simp
        have h0 : it.len ≠ 0 := by rw [h.len]; simp
        obtain ⟨e1, -⟩ := next_len ht h1 h0 hb0
        rw [if_neg hl] at e1
        obtain ⟨as', h3, h4⟩ := ih h2 (fun e0 => by subst e0; exact iter_next_last r h h1) (b - 1)
        refine ⟨(some e, b - 1) :: as', ?_, ?_⟩
        · have e1' : ({ it with len := b } : Iter K V).call t' .front = _ := e1
          simp only [List.replicate_succ, Iter.runCalls, e1', ok_bind, h3, pure_ok, Iter.sizeHint]
        · rw [List.range_succ_eq_map, List.map_cons, List.map_cons, h4, List.map_map]
          congr 1
          · simp [Nat.pos_of_ne_zero hb0]
          · refine List.map_congr_left fun i _ => ?_
            simp only [Function.comp, List.getElem?_cons_succ]
            by_cases hi : i < b - 1
            · rw [if_pos hi, if_pos (by omega)]
            · rw [if_neg hi, if_neg (by omega)]

omit [LinearOrder K] [Augmentation K V A] in
theorem nextBack_len {t t' : Tree K V A} (ht : t'.store = t.store) (hr : t'.root = t.root) {it it1 : Iter K V}
    {o : Option (K × V)} (h : it.nextBack t = .ok (o, it1)) (h0 : it.len ≠ 0) {b : Nat} (hb : b ≠ 0) :
    ({ it with len := b } : Iter K V).nextBack t' = .ok (o, { it1 with len := b }) ∧ it1.len = it.len := by
  have hlast : t'.lastLeaf = t.lastLeaf := by unfold Tree.lastLeaf; rw [ht, hr]
  unfold Iter.nextBack at h ⊢
  rw [if_neg h0] at h
  rw [if_neg hb]
  dsimp only
  rw [hlast, ht]
  cases he : it.end_ with
  | none =>
    rw [he] at h
    dsimp only at h ⊢
    obtain ⟨i, h1, h⟩ := bind_ok h
    obtain ⟨ll, h2, h⟩ := bind_ok h
    simp only [h1, h2, ok_bind]
    split at h
    · next hc => rw [if_pos hc]; cases h; simp [he]
    · next hc =>
      rw [if_neg hc]
      obtain ⟨kv, h3, h⟩ := bind_ok h
      cases h
      simp [h3]
  | some p =>
    obtain ⟨lf, off⟩ := p
    rw [he] at h
    dsimp only at h ⊢
    split at h
    · next hc =>
      rw [if_pos hc]
      obtain ⟨kv, h1, h⟩ := bind_ok h
      cases h
      simp [h1]
    · next hc =>
      rw [if_neg hc]
      cases hp : lf.prev with
      | none => rw [hp] at h; cases h; simp [he]
      | some j =>
        rw [hp] at h
        dsimp only at h ⊢
        obtain ⟨pl, h1, h⟩ := bind_ok h
        simp only [h1, ok_bind]
        by_cases hz : pl.len = 0
        · rw [if_pos hz] at h; cases h
        · rw [if_neg hz] at h ⊢
          obtain ⟨kv, h3, h⟩ := bind_ok h
          cases h
          simp [h3]

omit [LinearOrder K] [Augmentation K V A] in
theorem runCalls_stuck {t : Tree K V A} {it : Iter K V} (h : it.nextBack t = .ok (none, it)) (m : Nat) :
    ∃ as, it.runCalls t (List.replicate m .back) = .ok as ∧ as.map (·.1) = List.replicate m none := by
  induction m with
  | zero => exact ⟨[], rfl, rfl⟩
  | succ m ih =>
    obtain ⟨as, h1, h2⟩ := ih
    have : it.call t .back = .ok (none, it) := h
    refine ⟨(none, it.sizeHint) :: as, ?_, ?_⟩
    · simp only [List.replicate_succ, Iter.runCalls, this, ok_bind, h1, pure_ok]
    · simp [h2, List.replicate_succ]

omit [LinearOrder K] [Augmentation K V A] in
theorem back_len {t t' : Tree K V A} (ht : t'.store = t.store) (hr : t'.root = t.root) (m : Nat) {it : Iter K V}
    {as : List (Option (K × V) × Nat)} (h : it.runCalls t (List.replicate m .back) = .ok as) (h0 : it.len ≠ 0)
    {b : Nat} (hb : b ≠ 0) :
    ∃ as', ({ it with len := b } : Iter K V).runCalls t' (List.replicate m .back) = .ok as' ∧
      as'.map (·.1) = as.map (·.1) := by
  induction m generalizing it as with
  | zero => cases h; exact ⟨[], rfl, rfl⟩
  | succ m ih =>
    simp only [List.replicate_succ, Iter.runCalls] at h
    obtain ⟨⟨o, it1⟩, h1, h⟩ := bind_ok h
    obtain ⟨rs, h2, h⟩ := bind_ok h
    cases h
    obtain ⟨e1, e2⟩ := nextBack_len ht hr h1 h0 hb
    dsimp only at h2
    obtain ⟨as', h3, h4⟩ := ih h2 (by omega)
    have e1' : ({ it with len := b } : Iter K V).call t' .back = _ := e1
    refine ⟨(o, b) :: as', ?_, by simp [h4]⟩
    simp only [List.replicate_succ, Iter.runCalls, e1', ok_bind, h3, pure_ok, Iter.sizeHint]

theorem callLen_ok {μ : Nat} (h0 : 0 < μ) (hμ : μ ≤ 16) {t : Tree K V A} {l : List (K × V)} (h : Inv μ t l)
    (hl : t.len + 1 < 2 ^ 64) {n : Nat} {c : Call K V} {a : Answer K V} {l' : List (K × V)} {n' : Nat}
    (hs : Spec.callLen l n c = some (a, l', n')) :
    ∃ u, (t.withLen n).call c = .ok (a, u.withLen n') ∧ Inv μ u l' := by
  have plain : c.plain → (¬ ∃ k, c = .remove k) → (¬ ∃ k v, c = .insert k v) →
      a = (Spec.call l c).1 → l' = (Spec.call l c).2 → n' = n → (Spec.call l c).2.length = l.length →
      ∃ u, (t.withLen n).call c = .ok (a, u.withLen n') ∧ Inv μ u l' := by
    rintro hp hr - rfl rfl rfl hlen
    rcases call_ok hμ h hl c with ⟨u, h1, h2⟩ | ⟨e, -⟩
    · obtain ⟨m, e1, e2⟩ := call_withLen (n := n') hp h1 (fun hh => (hr hh).elim)
      have : m = n' := by rw [h2.len, hlen, h.len] at e2; omega
      subst this
      exact ⟨u, e1, h2⟩
    · omega
  have hne : l ≠ [] → t.isEmpty = false := by
    intro hh
    rw [isEmpty_ok h]; cases l <;> simp_all
  obtain ⟨L, r, e⟩ := h.reads
  cases c with
  | insert k v =>
    obtain ⟨u, h1, h2, -⟩ := h.insert hμ hl k v
    obtain ⟨m, e1, e2⟩ := insert_withLen n h1
    simp only [Spec.callLen, Option.some.injEq, Prod.mk.injEq] at hs
    obtain ⟨rfl, rfl, rfl⟩ := hs
    refine ⟨u, ?_, h2⟩
    have : m = if (lookup k l).isNone then n + 1 else n := by
      cases hk : lookup k l with
      | none =>
        have := upsert_new_length (v := v) hk
        rw [h2.len, h.len] at e2
        simp only [Option.isNone_none, if_true]
        omega
      | some x =>
        rw [hk] at h1
        have := (insert_updated h1).2
        simp only [Option.isNone_some, Bool.false_eq_true, if_false]
        omega
    rw [← this]
    simp only [Tree.call, e1, ok_bind, pure_ok]
  | remove k =>
    simp only [Spec.callLen] at hs
    rcases h.remove hμ k with ⟨u, h1, h2, -, -, -, h3⟩ | ⟨e, -⟩
    · cases hk : lookup k l with
      | none =>
        rw [hk] at hs h1
        simp only [Option.isNone_none, if_true, Option.some.injEq, Prod.mk.injEq] at hs
        obtain ⟨rfl, rfl, rfl⟩ := hs
        obtain rfl := h3 hk
        obtain ⟨m, e1, e2⟩ := remove_withLen (n := n) h1 (fun hh => (hh rfl).elim)
        obtain rfl : m = n := by omega
        exact ⟨u, by simp only [Tree.call, e1, ok_bind, pure_ok], h⟩
      | some x =>
        rw [hk] at hs h1
        simp only [Option.isNone_some, Bool.false_eq_true, if_false] at hs
        split at hs
        · cases hs
        · next hn =>
          simp only [Option.some.injEq, Prod.mk.injEq] at hs
          obtain ⟨rfl, rfl, rfl⟩ := hs
          obtain ⟨m, e1, e2⟩ := remove_withLen (n := n) h1 (fun _ => hn)
          have := remove_len h1
          obtain rfl : m = n - 1 := by omega
          exact ⟨u, by simp only [Tree.call, e1, ok_bind, pure_ok], h2⟩
    · omega
  | len =>
    simp only [Spec.callLen, Option.some.injEq, Prod.mk.injEq] at hs
    obtain ⟨rfl, rfl, rfl⟩ := hs
    exact ⟨t, rfl, h⟩
  | isEmpty =>
    simp only [Spec.callLen, Option.some.injEq, Prod.mk.injEq] at hs
    obtain ⟨rfl, rfl, rfl⟩ := hs
    exact ⟨t, rfl, h⟩
  | first =>
    simp only [Spec.callLen] at hs
    split at hs
    · next hn =>
      simp only [Option.some.injEq, Prod.mk.injEq] at hs
      obtain ⟨rfl, rfl, rfl⟩ := hs
      subst hn
      exact ⟨t, rfl, h⟩
    · next hn =>
      split at hs
      · cases hs
      · next hl' =>
        simp only [Option.some.injEq, Prod.mk.injEq] at hs
        obtain ⟨rfl, rfl, rfl⟩ := hs
        refine ⟨t, ?_, h⟩
        have h1 : t.first = .ok l.head? := by rw [first_ok r.base, e]
        have h2 := hne (by simpa using hl')
        have h3 : (t.withLen n).isEmpty = false := by simpa [Tree.isEmpty, Tree.withLen] using hn
        have h4 : (t.withLen n).first = t.first := by
          unfold Tree.first; rw [h2, h3]; rfl
        simp only [Tree.call, h4, h1, ok_bind, pure_ok]
  | last =>
    simp only [Spec.callLen] at hs
    split at hs
    · next hn =>
      simp only [Option.some.injEq, Prod.mk.injEq] at hs
      obtain ⟨rfl, rfl, rfl⟩ := hs
      subst hn
      exact ⟨t, rfl, h⟩
    · next hn =>
      split at hs
      · cases hs
      · next hl' =>
        simp only [Option.some.injEq, Prod.mk.injEq] at hs
        obtain ⟨rfl, rfl, rfl⟩ := hs
        refine ⟨t, ?_, h⟩
        have h1 : t.last = .ok l.getLast? := by rw [last_ok r.base, e]
        have h2 := hne (by simpa using hl')
        have h3 : (t.withLen n).isEmpty = false := by simpa [Tree.isEmpty, Tree.withLen] using hn
        have h4 : (t.withLen n).last = t.last := by
          unfold Tree.last; rw [h2, h3]; rfl
        simp only [Tree.call, h4, h1, ok_bind, pure_ok]
  | clear =>
    simp only [Spec.callLen, Option.some.injEq, Prod.mk.injEq] at hs
    obtain ⟨rfl, rfl, rfl⟩ := hs
    exact ⟨Tree.new, rfl, Inv.new⟩
  | iter m =>
    simp only [Spec.callLen] at hs
    split at hs
    · cases hs
    · next hm =>
      simp only [Option.some.injEq, Prod.mk.injEq] at hs
      obtain ⟨rfl, rfl, rfl⟩ := hs
      refine ⟨t, ?_, h⟩
      obtain ⟨it, h1, h2, -⟩ := iter_new_ok r.base
      have h5 : (t.withLen n).iter = .ok { it with len := n } := by
        unfold Tree.iter at h1 ⊢
        obtain ⟨i, g1, h1⟩ := bind_ok h1
        obtain ⟨lf, g2, h1⟩ := bind_ok h1
        cases h1
        have g1' : (t.withLen n).firstLeaf = .ok i := g1
        have g2' : (t.withLen n).store.getLeaf i = .ok lf := g2
        simp only [g1', g2', ok_bind, pure_ok]
        rfl
      rw [e] at h2
      by_cases hm0 : m = 0
      · subst hm0
        simp only [Tree.call, h5, ok_bind, List.replicate_zero, Iter.runCalls, pure_ok]
        rfl
      by_cases hl' : l = []
      · have hn : n = 0 := by
          by_contra hn
          exact hm ⟨hn, hm0, by simp [hl']⟩
        obtain ⟨as', h3, h4⟩ := runCalls_zero (t := t.withLen n) (it := { it with len := n }) hn
          (List.replicate m .front)
        simp only [Tree.call, h5, h3, ok_bind, pure_ok, h4, List.length_replicate]
        simp [hn]
      · obtain ⟨as', h3, h4⟩ := front_len (t := t) (t' := t.withLen n) r.base rfl m h2 (fun h => (hl' h).elim) n
        simp only [Tree.call, h5, h3, ok_bind, pure_ok, h4]
  | iterBack m =>
    simp only [Spec.callLen] at hs
    obtain ⟨it, h1, h1', h2⟩ := iter_runCalls_ok r.base (List.replicate m .back)
    have hlt : it.len = t.len := by
      unfold Tree.iter at h1
      obtain ⟨i, -, h1⟩ := bind_ok h1
      obtain ⟨lf, -, h1⟩ := bind_ok h1
      cases h1; rfl
    have h5 : (t.withLen n).iter = .ok { it with len := n } := by
      unfold Tree.iter at h1 ⊢
      obtain ⟨i, g1, h1⟩ := bind_ok h1
      obtain ⟨lf, g2, h1⟩ := bind_ok h1
      cases h1
      have g1' : (t.withLen n).firstLeaf = .ok i := g1
      have g2' : (t.withLen n).store.getLeaf i = .ok lf := g2
      simp only [g1', g2', ok_bind, pure_ok]
      rfl
    split at hs
    · next hn =>
      simp only [Option.some.injEq, Prod.mk.injEq] at hs
      obtain ⟨rfl, rfl, rfl⟩ := hs
      refine ⟨t, ?_, h⟩
      obtain ⟨as', h3, h4⟩ := runCalls_zero (t := t.withLen n) (it := { it with len := n }) hn
        (List.replicate m .back)
      simp only [Tree.call, h5, h3, ok_bind, pure_ok, h4, List.length_replicate]
    · next hn =>
      simp only [Option.some.injEq, Prod.mk.injEq] at hs
      obtain ⟨rfl, rfl, rfl⟩ := hs
      refine ⟨t, ?_, h⟩
      by_cases hl' : l = []
      · have hend : it.end_ = none := by
          unfold Tree.iter at h1
          obtain ⟨i, -, h1⟩ := bind_ok h1
          obtain ⟨lf, -, h1⟩ := bind_ok h1
          cases h1; rfl
        obtain ⟨L', x, hL, hf⟩ := r.last
        have hx : x.2 = [] := by
          rw [hl', hL] at e; simp at e; exact e.2
        have hf' : (t.withLen n).lastLeaf = .ok x.1 := hf
        have hg : (t.withLen n).store.getLeaf x.1 = .ok ⟨x.2, lstId none L', hdId [] none⟩ :=
          r.base.flat.get (LA := L') (LB := []) hL
        have hnb : ({ it with len := n } : Iter K V).nextBack (t.withLen n) = .ok (none, { it with len := n }) := by
          unfold Iter.nextBack
          rw [if_neg hn]
          simp only [hend, hf', ok_bind, hg, Leaf.len, hx, List.length_nil, if_true, pure_ok]
        obtain ⟨as', h3, h4⟩ := runCalls_stuck hnb m
        simp only [Tree.call, h5, h3, ok_bind, pure_ok, h4]
        simp [hl']
      · have hpos : it.len ≠ 0 := by
          rw [hlt, h.len]
          intro hz
          exact hl' (List.length_eq_zero_iff.1 hz)
        obtain ⟨as', h3, h4⟩ := back_len (t := t) (t' := t.withLen n) rfl rfl m h2 hpos hn
        simp only [Tree.call, h5, h3, ok_bind, pure_ok, h4, e, borrowed_back]
  | getMut k f =>
    simp only [Spec.callLen, Option.some.injEq, Prod.mk.injEq] at hs
    exact plain trivial (by simp) (by simp) hs.1.symm hs.2.1.symm hs.2.2.symm (by simp [Spec.call, Spec.modify])
  | _ =>
    simp only [Spec.callLen, Option.some.injEq, Prod.mk.injEq] at hs
    exact plain trivial (by simp) (by simp) hs.1.symm hs.2.1.symm hs.2.2.symm rfl

omit [Augmentation K V A] in
theorem callLen_length {l l1 : List (K × V)} {n n1 : Nat} {c : Call K V} {a : Answer K V}
    (e1 : Spec.callLen l n c = some (a, l1, n1)) : l1.length ≤ l.length + 1 := by
  have := call_length l c
  have key : l1 = (Spec.call l c).2 ∨ l1 = l := by
    cases c <;> simp only [Spec.callLen] at e1 <;>
      first
      | (cases e1; exact .inl rfl)
      | (split at e1 <;> first | (cases e1; exact .inr rfl) | cases e1)
      | (split at e1
         · cases e1; exact .inr rfl
         · split at e1 <;> cases e1; first | exact .inl rfl | exact .inr rfl)
      | cases e1
  rcases key with rfl | rfl <;> omega

/-- Where the specification has no answer the call does not return. -/
theorem callLen_fault {μ : Nat} (h0 : 0 < μ) (hμ : μ ≤ 16) {t : Tree K V A} {l : List (K × V)} (h : Inv μ t l)
    {n : Nat} {c : Call K V} (hs : Spec.callLen l n c = none) : ∃ f, (t.withLen n).call c = .error f := by
  obtain ⟨L, r, e⟩ := h.reads
  cases c with
  | remove k =>
    simp only [Spec.callLen] at hs
    cases hk : lookup k l with
    | none => rw [hk] at hs; simp at hs
    | some x =>
      rw [hk] at hs
      simp only [Option.isNone_some, Bool.false_eq_true, if_false] at hs
      split at hs
      · next hn =>
        subst hn
        rcases h.remove hμ k with ⟨u, h1, -⟩ | ⟨e, -⟩
        · rw [hk] at h1
          exact ⟨.panic, by simp only [Tree.call, remove_withLen_zero h1, error_bind]⟩
        · omega
      · cases hs
  | first =>
    simp only [Spec.callLen] at hs
    split at hs
    · cases hs
    · next hn =>
      split at hs
      · next hl' =>
        obtain ⟨x, L', hL, hf⟩ := r.first
        have hx : x.2 = [] := by
          rw [List.isEmpty_iff.1 hl', hL] at e; simp at e; exact e.1
        have hf' : (t.withLen n).firstLeaf = .ok x.1 := hf
        have hg : (t.withLen n).store.getLeaf x.1 = .ok ⟨x.2, lstId none [], hdId L' none⟩ :=
          r.base.flat.get (LA := []) (LB := L') hL
        have h3 : (t.withLen n).isEmpty = false := by simpa [Tree.isEmpty, Tree.withLen] using hn
        refine ⟨.ub, ?_⟩
        simp only [Tree.call, Tree.first, h3, Bool.false_eq_true, if_false, hf', hg, ok_bind, Leaf.dataAt, hx, readAt,
          List.getElem?_nil, error_bind]
      · cases hs
  | last =>
    simp only [Spec.callLen] at hs
    split at hs
    · cases hs
    · next hn =>
      split at hs
      · next hl' =>
        obtain ⟨L', x, hL, hf⟩ := r.last
        have hx : x.2 = [] := by
          rw [List.isEmpty_iff.1 hl', hL] at e; simp at e; exact e.2
        have hf' : (t.withLen n).lastLeaf = .ok x.1 := hf
        have hg : (t.withLen n).store.getLeaf x.1 = .ok ⟨x.2, lstId none L', hdId [] none⟩ :=
          r.base.flat.get (LA := L') (LB := []) hL
        have h3 : (t.withLen n).isEmpty = false := by simpa [Tree.isEmpty, Tree.withLen] using hn
        refine ⟨.panic, ?_⟩
        simp only [Tree.call, Tree.last, h3, Bool.false_eq_true, if_false, hf', hg, ok_bind, Leaf.len, hx,
          List.length_nil, if_true, error_bind]
      · cases hs
  | iter m =>
    simp only [Spec.callLen] at hs
    split at hs
    · next hm =>
      obtain ⟨hn, hm, hl'⟩ := hm
      obtain ⟨x, L', hL, hf⟩ := r.first
      have hx : x.2 = [] := by
        rw [List.isEmpty_iff.1 hl', hL] at e; simp at e; exact e.1
      have hf' : (t.withLen n).firstLeaf = .ok x.1 := hf
      have hg : (t.withLen n).store.getLeaf x.1 = .ok ⟨x.2, lstId none [], hdId L' none⟩ :=
        r.base.flat.get (LA := []) (LB := L') hL
      obtain ⟨m, rfl⟩ := Nat.exists_eq_succ_of_ne_zero hm
      refine ⟨.ub, ?_⟩
      have hn' : (t.withLen n).len ≠ 0 := hn
      simp only [Tree.call, Tree.iter, hf', hg, ok_bind, pure_ok, List.replicate_succ, Iter.runCalls, Iter.call,
        Iter.next, hn', if_false, Leaf.dataAt, hx, readAt, List.getElem?_nil, error_bind]
    · cases hs
  | iterBack m =>
    simp only [Spec.callLen] at hs
    split at hs <;> cases hs
  | _ => cases hs

theorem runLen_fault {μ : Nat} (h0 : 0 < μ) (hμ : μ ≤ 16) {t : Tree K V A} {l : List (K × V)} (h : Inv μ t l)
    {n : Nat} (cs : List (Call K V)) (hl : t.len + cs.length < 2 ^ 64) (hs : Spec.runLen l n cs = none) :
    ∃ f, (t.withLen n).run cs = .error f := by
  induction cs generalizing t l n with
  | nil => cases hs
  | cons c cs ih =>
    rw [List.length_cons] at hl
    simp only [Spec.runLen] at hs
    split at hs
    · next e1 =>
      obtain ⟨f, h1⟩ := callLen_fault h0 hμ h e1
      exact ⟨f, by simp only [Tree.run, h1, error_bind]⟩
    · next a l1 n1 e1 =>
      split at hs
      · next e2 =>
        obtain ⟨u, h1, h2⟩ := callLen_ok h0 hμ h (by omega) e1
        have hlen := callLen_length e1
        obtain ⟨f, h3⟩ := ih h2 (by rw [h2.len]; rw [h.len] at hl; omega) e2
        exact ⟨f, by simp only [Tree.run, h1, ok_bind, h3, error_bind]⟩
      · cases hs

theorem runLen_ok {μ : Nat} (h0 : 0 < μ) (hμ : μ ≤ 16) {t : Tree K V A} {l : List (K × V)} (h : Inv μ t l)
    {n : Nat} (cs : List (Call K V)) (hl : t.len + cs.length < 2 ^ 64) {as : List (Answer K V)}
    {l' : List (K × V)} {n' : Nat} (hs : Spec.runLen l n cs = some (as, l', n')) :
    ∃ u, (t.withLen n).run cs = .ok (as, u.withLen n') ∧ Inv μ u l' := by
  induction cs generalizing t l n as with
  | nil => cases hs; exact ⟨t, rfl, h⟩
  | cons c cs ih =>
    rw [List.length_cons] at hl
    simp only [Spec.runLen] at hs
    split at hs
    · cases hs
    · next a l1 n1 e1 =>
      split at hs
      · cases hs
      · next as' l2 n2 e2 =>
        cases hs
        obtain ⟨u, h1, h2⟩ := callLen_ok h0 hμ h (by omega) e1
        have hlen := callLen_length e1
        obtain ⟨u', h3, h4⟩ := ih h2 (by rw [h2.len]; rw [h.len] at hl; omega) e2
        exact ⟨u', by simp only [Tree.run, h1, ok_bind, h3, pure_ok], h4⟩

end
end Bpt
