import Verif.Props.Demo

/-!
# Properties of maps: C01-C06, C09, C14-C18, C23, C32, C33

`Reachable`, `ReachableBulk`, `Shows`, `Call` are defined in `Verif/History.lean`, `lookup`, `upsert`,
… in `Verif/Spec.lean`. `Shows t l` says that `get` answers according to the sorted list `l`.
-/

namespace Bpt
open Spec
variable {K V A : Type} [LinearOrder K] [Augmentation K V A]

/-- The observed content is unique (for any tree), so "the `l` with `Shows t l`" below is the content
of the map. -/
theorem content_unique {t : Tree K V A} {l l' : List (K × V)} (h : Shows t l) (h' : Shows t l') :
    l = l' := by
  refine sorted_ext h.1 h'.1 ?_
  intro k
  obtain ⟨_, h1⟩ := h.2 k
  obtain ⟨_, h2⟩ := h'.2 k
  rw [h1] at h2
  exact congrArg Prod.fst (Except.ok.inj h2)

/-- Every reachable map has an observed content. -/
theorem content_exists {t : Tree K V A} (h : ReachableBulk t) : ∃ l, Shows t l := by
  obtain ⟨l, hl⟩ := h.inv
  exact ⟨l, hl.shows⟩

/-! ## C01 -/

/-- **C01.** From an empty map, every finite history of calls is answered, call by call, as by a
sorted association list, and the final content is that of the list. -/
theorem C01_history_refines (cs : List (Call K V)) (hn : cs.length < 2 ^ 64) :
    ∃ t : Tree K V A, (Tree.new : Tree K V A).run cs = .ok ((Spec.run [] cs).1, t) ∧
      Shows t (Spec.run [] cs).2 := by
  obtain ⟨t, h1, h2⟩ := run_ok (μ := 16) (by omega) (by omega) (Inv.new (A := A)) cs
    (by show 0 + _ < _; omega)
  exact ⟨t, h1, h2.shows⟩

/-- A history with all kinds of calls, evaluated. -/
example : ((Tree.new : Tree Nat Nat Unit).run
    [.insert 3 30, .insert 1 10, .insert 3 31, .get 3, .getMut 1 (· + 5), .remove 3, .remove 3, .first,
      .insert 9 90, .last, .len, .isEmpty, .iter 3, .iterBack 2, .cursorNext ⟨1, 7, 7⟩,
      .cursorPrev ⟨9, 0, 0⟩, .cursorValue ⟨9, 0, 0⟩, .getCursor 4, .clear, .isEmpty]).map (·.1)
    = .ok [.value none, .value none, .value (some 30), .value (some 31), .value (some 10),
        .value (some 31), .value none, .entry (some (1, 15)), .value none, .entry (some (9, 90)),
        .number 2, .flag false, .entries [some (1, 15), some (9, 90), none],
        .entries [some (9, 90), some (1, 15)], .entry (some (9, 90)), .entry (some (1, 15)),
        .value (some 90), .keyValue 4 none, .done, .flag true] := by decide +kernel

/-! ## C02 -/

/-- **C02.** `insert(k, v)` returns what `get(k)` would have returned; afterwards `get(k)` is `v` and
`get` of every other key is unchanged. -/
theorem C02_insert {t : Tree K V A} (h : ReachableBulk t) (hl : t.len + 1 < 2 ^ 64) (k : K) (v : V) :
    ∃ o t', t.insert k v = .ok (o, t') ∧
      (∃ t1, t.get k = .ok (o, t1)) ∧
      (∃ t1, t'.get k = .ok (some v, t1)) ∧
      (∀ j, j ≠ k → ∃ oj t1 t2, t.get j = .ok (oj, t1) ∧ t'.get j = .ok (oj, t2)) := by
  obtain ⟨l, hi⟩ := h.inv
  obtain ⟨t', h1, h2, _⟩ := hi.insert (by omega) hl k v
  refine ⟨_, t', h1, ?_, ?_, ?_⟩
  · obtain ⟨t1, g1, _⟩ := hi.get k
    exact ⟨t1, g1⟩
  · obtain ⟨t1, g1, _⟩ := h2.get k
    rw [lookup_upsert, if_pos rfl] at g1
    exact ⟨t1, g1⟩
  · intro j hj
    obtain ⟨t1, g1, _⟩ := hi.get j
    obtain ⟨t2, g2, _⟩ := h2.get j
    rw [lookup_upsert, if_neg (fun e => hj e.symm)] at g2
    exact ⟨_, t1, t2, g1, g2⟩

example : ∃ o t', demo.insert 50 7 = .ok (o, t') ∧ o = some 50 := by
  obtain ⟨o, t', h1, ⟨t1, h2⟩, _⟩ := C02_insert demo_reach.mut.bulk
    (by decide +kernel : demo.len + 1 < 2 ^ 64) 50 7
  obtain ⟨t2, h3⟩ := demo_shows.2 50
  rw [h2] at h3
  refine ⟨o, t', h1, ?_⟩
  have := congrArg Prod.fst (Except.ok.inj h3)
  simp only at this
  rw [this]; decide +kernel

/-! ## C03 -/

/-- **C03.** `remove(k)` returns what `get(k)` would have returned; afterwards `get(k)` is `None` and
`get` of every other key is unchanged; if `k` is absent the map is untouched. -/
theorem C03_remove {t : Tree K V A} (h : ReachableEven t) (k : K) :
    ∃ o t', t.remove k = .ok (o, t') ∧
      (∃ t1, t.get k = .ok (o, t1)) ∧
      (∃ t1, t'.get k = .ok (none, t1)) ∧
      (∀ j, j ≠ k → ∃ oj t1 t2, t.get j = .ok (oj, t1) ∧ t'.get j = .ok (oj, t2)) ∧
      (o = none → t' = t) := by
  obtain ⟨l, hi⟩ := h.inv
  rcases hi.remove (by omega) k with ⟨t', h1, h2, _, _, _, h3⟩ | ⟨h0, _⟩
  · refine ⟨_, t', h1, ?_, ?_, ?_, h3⟩
    · obtain ⟨t1, g1, _⟩ := hi.get k
      exact ⟨t1, g1⟩
    · obtain ⟨t1, g1, _⟩ := h2.get k
      rw [lookup_erase, if_pos rfl] at g1
      exact ⟨t1, g1⟩
    · intro j hj
      obtain ⟨t1, g1, _⟩ := hi.get j
      obtain ⟨t2, g2, _⟩ := h2.get j
      rw [lookup_erase, if_neg (fun e => hj e.symm)] at g2
      exact ⟨_, t1, t2, g1, g2⟩
  · omega

example : ∃ t', demo.remove 50 = .ok (some 50, t') := by
  obtain ⟨o, t', h1, ⟨t1, h2⟩, _⟩ := C03_remove demo_reach.mut.even 50
  obtain ⟨t2, h3⟩ := demo_shows.2 50
  rw [h2] at h3
  have := congrArg Prod.fst (Except.ok.inj h3)
  simp only at this
  rw [this] at h1
  have e : lookup 50 demoContent = some 50 := by decide +kernel
  rw [e] at h1
  exact ⟨t', h1⟩

/-! ## C04 -/

/-- **C04.** `len()` is the number of stored keys, `is_empty()` says whether it is zero. -/
theorem C04_len {t : Tree K V A} (h : ReachableBulk t) {l : List (K × V)} (hl : Shows t l) :
    t.len = l.length ∧ (t.isEmpty = true ↔ l = []) := by
  obtain ⟨l', hi⟩ := h.inv
  cases hi.unique hl
  refine ⟨hi.len, ?_⟩
  rw [isEmpty_ok hi, List.isEmpty_iff]

example : demo.len = 100 ∧ demo.isEmpty = false := by
  obtain ⟨h1, h2⟩ := C04_len demo_reach.mut.bulk demo_shows
  refine ⟨by rw [h1]; decide, ?_⟩
  by_contra h
  simp only [Bool.not_eq_false] at h
  exact absurd (h2.1 h) (by decide)

/-! ## C05, C06 -/

/-- **C05.** Driving `iter()` with `next` lists the content in key order, then `None` forever; the
size hint is exact before the first call and after each call. -/
theorem C05_iter_forward {t : Tree K V A} (h : ReachableBulk t) {l : List (K × V)} (hl : Shows t l) :
    ∃ it, t.iter = .ok it ∧ it.sizeHint = l.length ∧
      ∀ n, it.runCalls t (List.replicate n .front)
        = .ok ((List.range n).map (fun i => (l[i]?, l.length - (i + 1)))) := by
  obtain ⟨l', hi⟩ := h.inv
  cases hi.unique hl
  obtain ⟨L, r, e⟩ := hi.reads
  obtain ⟨it, h1, h2, _⟩ := iter_runCalls_ok r.base []
  refine ⟨it, h1, by rw [h2, e], ?_⟩
  intro n
  obtain ⟨it', g1, _, g2⟩ := iter_runCalls_ok r.base (List.replicate n .front)
  rw [h1] at g1
  cases g1
  rw [g2, borrowedSpec_front, e]
  simp

example : ∃ it, demo.iter = .ok it ∧ it.sizeHint = 100 ∧
    it.runCalls demo [.front, .front] = .ok [(some (0, 0), 99), (some (1, 43), 98)] := by
  obtain ⟨it, h1, h2, h3⟩ := C05_iter_forward demo_reach.mut.bulk demo_shows
  exact ⟨it, h1, by rw [h2]; decide, h3 2⟩

/-- **C06.** Driving `iter()` with `next_back` only lists the content in reverse, then `None`
forever. -/
theorem C06_iter_backward {t : Tree K V A} (h : ReachableBulk t) {l : List (K × V)} (hl : Shows t l) :
    ∃ it, t.iter = .ok it ∧
      ∀ n, (it.runCalls t (List.replicate n .back)).map (·.map (·.1))
        = .ok ((List.range n).map (fun i => l.reverse[i]?)) := by
  obtain ⟨l', hi⟩ := h.inv
  cases hi.unique hl
  obtain ⟨L, r, e⟩ := hi.reads
  obtain ⟨it, h1, h2, _⟩ := iter_runCalls_ok r.base []
  refine ⟨it, h1, ?_⟩
  intro n
  obtain ⟨it', g1, _, g2⟩ := iter_runCalls_ok r.base (List.replicate n .back)
  rw [h1] at g1
  cases g1
  rw [g2, e]
  exact congrArg Except.ok (borrowed_back _ n)

example : ∃ it, demo.iter = .ok it ∧
    (it.runCalls demo [.back, .back]).map (·.map (·.1)) = .ok [some (99, 57), some (98, 14)] := by
  obtain ⟨it, h1, h3⟩ := C06_iter_backward demo_reach.mut.bulk demo_shows
  exact ⟨it, h1, h3 2⟩

/-! ## C09 -/

/-- **C09.** `first()` is the entry with the smallest key, `last()` the one with the largest; both are
`None` exactly on an empty map. -/
theorem C09_first_last {t : Tree K V A} (h : ReachableBulk t) {l : List (K × V)} (hl : Shows t l) :
    ∃ a b, t.first = .ok a ∧ t.last = .ok b ∧
      (∀ e, a = some e ↔ e ∈ l ∧ ∀ e' ∈ l, e.1 ≤ e'.1) ∧
      (∀ e, b = some e ↔ e ∈ l ∧ ∀ e' ∈ l, e'.1 ≤ e.1) ∧
      (a = none ↔ l = []) ∧ (b = none ↔ l = []) := by
  obtain ⟨l', hi⟩ := h.inv
  cases hi.unique hl
  obtain ⟨L, r, eL⟩ := hi.reads
  refine ⟨_, _, first_ok r.base, last_ok r.base, ?_⟩
  rw [eL]
  have hs := hi.sorted
  unfold Sorted at hs
  have huniq : ∀ e ∈ l, ∀ e' ∈ l, e.1 = e'.1 → e = e' := by
    rintro ⟨k, v⟩ h1 ⟨k', v'⟩ h2 (rfl : k = k')
    have a := lookup_of_mem hi.sorted h1
    rw [lookup_of_mem hi.sorted h2] at a
    cases a; rfl
  refine ⟨?_, ?_, by simp [List.head?_eq_none_iff], by simp [List.getLast?_eq_none_iff]⟩
  · intro e
    cases l with
    | nil => simp
    | cons x l =>
      rw [List.pairwise_cons] at hs
      constructor
      · intro h
        simp only [List.head?_cons, Option.some.injEq] at h
        subst h
        refine ⟨by simp, ?_⟩
        intro e' he'
        rcases List.mem_cons.1 he' with rfl | he'
        · exact le_rfl
        · exact (hs.1 e' he').le
      · rintro ⟨h1, h2⟩
        have h3 := h2 x (by simp)
        rcases List.mem_cons.1 h1 with rfl | h1'
        · rfl
        · exact absurd h3 (not_le.2 (hs.1 e h1'))
  · intro e
    rcases List.eq_nil_or_concat' l with rfl | ⟨l', x, rfl⟩
    · simp
    · rw [List.pairwise_append] at hs
      constructor
      · intro h
        simp only [List.getLast?_append, List.getLast?_singleton, Option.some_or,
          Option.some.injEq] at h
        subst h
        refine ⟨by simp, ?_⟩
        intro e' he'
        rcases List.mem_append.1 he' with he' | he'
        · exact (hs.2.2 e' he' x (by simp)).le
        · simp only [List.mem_singleton] at he'; subst he'; exact le_rfl
      · rintro ⟨h1, h2⟩
        have h3 := h2 x (by simp)
        rcases List.mem_append.1 h1 with h1' | h1'
        · exact absurd h3 (not_le.2 (hs.2.2 e h1' x (by simp)))
        · simp only [List.mem_singleton] at h1'; subst h1'; simp

example : ∃ a b, demo.first = .ok a ∧ demo.last = .ok b ∧ a = some (0, 0) ∧ b = some (99, 57) := by
  obtain ⟨a, b, h1, h2, h3, h4, _⟩ := C09_first_last demo_reach.mut.bulk demo_shows
  refine ⟨a, b, h1, h2, (h3 _).2 ?_, (h4 _).2 ?_⟩ <;> decide +kernel

/-! ## C14, C15, C16, C17: cursors -/

/-- **C14.** From any cursor whatsoever, `next_with_value` gives the entry with the smallest key
greater than the cursor's key, or `None` if there is none. -/
theorem C14_cursor_next {t : Tree K V A} (h : ReachableBulk t) {l : List (K × V)} (hl : Shows t l)
    (c : Cursor K) :
    ∃ o, c.nextWithValue t = .ok o ∧ c.next t = .ok (o.map (·.1)) ∧
      (∀ c' v, o = some (c', v) →
        (c'.k, v) ∈ l ∧ c.k < c'.k ∧ ∀ e ∈ l, c.k < e.1 → c'.k ≤ e.1) ∧
      (o = none ↔ ∀ e ∈ l, e.1 ≤ c.k) := by
  obtain ⟨l', hi⟩ := h.inv
  cases hi.unique hl
  obtain ⟨L, r, e⟩ := hi.reads
  obtain ⟨o, h1, h2⟩ := nextWithValue_ok r c
  rw [e] at h2
  obtain ⟨s1, s2⟩ := succ_spec hi.sorted c.k
  refine ⟨o, h1, by simp only [Cursor.next, h1, ok_bind, pure_ok], ?_, ?_⟩
  · rintro c' v rfl
    exact (s1 (c'.k, v)).1 h2.symm
  · rw [← s2, ← h2]; simp

example : ∃ o, (⟨41, 12345, 7⟩ : Cursor Nat).nextWithValue demo = .ok o ∧
    o.map (fun p => (p.1.k, p.2)) = some (42, 6) := by
  obtain ⟨o, h1, _, h2, h3⟩ := C14_cursor_next demo_reach.mut.bulk demo_shows ⟨41, 12345, 7⟩
  refine ⟨o, h1, ?_⟩
  cases o with
  | none => exact absurd (h3.1 rfl) (by decide +kernel)
  | some p =>
    obtain ⟨a1, a2, a3⟩ := h2 p.1 p.2 rfl
    have hk : p.1.k = 42 := le_antisymm (a3 (42, 6) (by decide +kernel) (by decide)) a2
    rw [hk] at a1
    have hv : p.2 = 6 := by
      have h5 := lookup_of_mem demo_shows.1 a1
      have h6 : lookup 42 demoContent = some 6 := by decide +kernel
      rw [h5] at h6
      exact Option.some.inj h6
    simp [hk, hv]

/-- **C15.** From any cursor whatsoever, `prev_with_value` gives the entry with the largest key
smaller than the cursor's key, or `None` if there is none. -/
theorem C15_cursor_prev {t : Tree K V A} (h : ReachableBulk t) {l : List (K × V)} (hl : Shows t l)
    (c : Cursor K) :
    ∃ o, c.prevWithValue t = .ok o ∧ c.prev t = .ok (o.map (·.1)) ∧
      (∀ c' v, o = some (c', v) →
        (c'.k, v) ∈ l ∧ c'.k < c.k ∧ ∀ e ∈ l, e.1 < c.k → e.1 ≤ c'.k) ∧
      (o = none ↔ ∀ e ∈ l, c.k ≤ e.1) := by
  obtain ⟨l', hi⟩ := h.inv
  cases hi.unique hl
  obtain ⟨L, r, e⟩ := hi.reads
  obtain ⟨o, h1, h2⟩ := prevWithValue_ok r c
  rw [e] at h2
  obtain ⟨s1, s2⟩ := pred_spec hi.sorted c.k
  refine ⟨o, h1, by simp only [Cursor.prev, h1, ok_bind, pure_ok], ?_, ?_⟩
  · rintro c' v rfl
    exact (s1 (c'.k, v)).1 h2.symm
  · rw [← s2, ← h2]; simp

example : ∃ o, (⟨0, 3, 0⟩ : Cursor Nat).prevWithValue demo = .ok o ∧ o = none := by
  obtain ⟨o, h1, _, _, h3⟩ := C15_cursor_prev demo_reach.mut.bulk demo_shows ⟨0, 3, 0⟩
  exact ⟨o, h1, h3.2 (fun e _ => Nat.zero_le _)⟩

/-- **C16.** `Cursor::value` of any cursor is the value currently stored under its key, `exists` says
whether there is one, and `get_cursor(k)` gives a cursor on `k` with the value currently stored. -/
theorem C16_cursor_value {t : Tree K V A} (h : ReachableBulk t) {l : List (K × V)} (hl : Shows t l) :
    (∀ c : Cursor K, c.value t = .ok (lookup c.k l) ∧ c.exists? t = .ok (lookup c.k l).isSome) ∧
    (∀ k, ∃ c, t.getCursor k = .ok (some (c, lookup k l)) ∧ c.k = k) := by
  obtain ⟨l', hi⟩ := h.inv
  cases hi.unique hl
  obtain ⟨L, r, e⟩ := hi.reads
  constructor
  · intro c
    have := cursorValue_ok r c
    rw [e] at this
    exact ⟨this, by simp only [Cursor.exists?, this, ok_bind, pure_ok]⟩
  · intro k
    obtain ⟨c, h1, h2⟩ := getCursor_ok r k
    rw [e] at h1
    exact ⟨c, h1, h2⟩

example : (⟨41, 99, 99⟩ : Cursor Nat).value demo = .ok (some 63) := by
  rw [((C16_cursor_value demo_reach.mut.bulk demo_shows).1 _).1]
  decide +kernel

/-- **C17 (partial).** On a non-empty map `Cursor::first` / `cursor_first` give the entry with the
smallest key and `Cursor::last` the one with the largest. Missing from the full property: the empty
map, where the code faults (next two theorems). -/
theorem C17_cursor_first_last_partial {t : Tree K V A} (h : ReachableBulk t) {l : List (K × V)}
    (hl : Shows t l) (hne : l ≠ []) :
    (∃ c v, t.cursorFirst = .ok (some (c, v)) ∧ l.head? = some (c.k, v)) ∧
    (∃ c v, t.cursorLast = .ok (some (c, v)) ∧ l.getLast? = some (c.k, v)) := by
  obtain ⟨l', hi⟩ := h.inv
  cases hi.unique hl
  obtain ⟨L, r, e⟩ := hi.reads
  subst e
  obtain ⟨c, v, h1, h2⟩ := cursorFirst_ok r hne
  obtain ⟨c', v', h3, h4⟩ := cursorLast_ok r hne
  exact ⟨⟨c, v, h1, h2⟩, ⟨c', v', h3, h4⟩⟩

example : ∃ c v, demo.cursorFirst = .ok (some (c, v)) ∧ demoContent.head? = some (c.k, v) :=
  (C17_cursor_first_last_partial demo_reach.mut.bulk demo_shows (by decide)).1

/-- **C17 is false of the code.** On an empty map `Cursor::first` reads an uninitialised slot. -/
theorem C17_cursor_first_empty_refuted :
    (Tree.new : Tree K V A).cursorFirst = .error .ub := rfl

/-- **C17 is false of the code.** On an empty map `Cursor::last` computes `0 - 1`. -/
theorem C17_cursor_last_empty_refuted :
    (Tree.new : Tree K V A).cursorLast = .error .panic := rfl

/-- The same on every reachable empty map, not only on a new one. -/
theorem C17_cursor_empty_refuted {t : Tree K V A} (h : ReachableBulk t) (hl : Shows t []) :
    t.cursorFirst = .error .ub ∧ t.cursorLast = .error .panic := by
  obtain ⟨H, g, w, h1, _⟩ := h.wf
  have hg : g.toL = [] := (Inv.unique ⟨H, g, w, rfl, h1⟩ hl).symm
  obtain ⟨x, L', hx, hf⟩ := w.reads.first
  obtain ⟨L'', y, hy, hla⟩ := w.reads.last
  have hgx : g.leaves.flatMap (·.2) = [] := hg
  have hsx := w.seg
  have hx2 : x.2 = [] := by
    rw [hx, List.flatMap_cons, List.append_eq_nil_iff] at hgx; exact hgx.1
  have hy2 : y.2 = [] := by
    rw [hy, List.flatMap_append, List.append_eq_nil_iff] at hgx; simpa using hgx.2
  have gx := w.flat.get (LA := []) (x := x) (LB := L') hx
  have gy := w.flat.get (LA := L'') (x := y) (LB := []) hy
  rw [hx2] at gx
  rw [hy2] at gy
  constructor
  · simp only [Tree.cursorFirst, hf, gx, ok_bind, Leaf.dataAt, readAt]
    rfl
  · simp only [Tree.cursorLast, hla, gy, ok_bind, Leaf.len]
    rfl

/-- A reachable empty map that is not new: insert, then remove. -/
example : ∃ t : Tree Nat Nat Unit, Reachable t ∧ Shows t [] ∧ t ≠ Tree.new := by
  obtain ⟨t1, h1, h2, _⟩ := (Inv.new (K := Nat) (V := Nat) (A := Unit) (μ := 16)).insert (by omega)
    (by show 0 + 1 < _; omega) 5 6
  have r0 : Reachable (Tree.new : Tree Nat Nat Unit) := .start rfl (by show 0 < _; omega)
  rcases h2.remove (by omega) 5 with ⟨t2, h3, h4, _⟩ | ⟨h0, _⟩
  · refine ⟨t2, .remove (.insert r0 (by show 0 + 1 < _; omega) h1) h3, h4.shows, ?_⟩
    rintro rfl
    revert h3
    cases h1
    decide
  · omega

/-! ## C18 -/

/-- **C18.** Bulk loading sorted data succeeds and gives the content that inserting the pairs one by
one gives (so the last of equal keys wins); every read call is answered accordingly. -/
theorem C18_bulk_load (data : List (K × V)) (hd : data.Pairwise (fun a b => a.1 ≤ b.1))
    (hn : data.length < 2 ^ 64 - 1) :
    ∃ t : Tree K V A, Tree.bulkLoad data = .ok t ∧ Shows t (insertAll [] data) ∧
      ∀ c : Call K V, (∀ k, c ≠ .remove k) →
        (t.call c).map (·.1) = .ok (Spec.call (insertAll [] data) c).1 := by
  obtain ⟨t, H, g, h1, h2, _, h4, _⟩ := bulkLoad_ok (A := A) (μ := 0) (by omega) data hd (.inl rfl)
  have hlen : (insertAll [] data).length ≤ data.length := insertAll_length data
  have hi : Inv 0 t (insertAll [] data) := ⟨H, g, h2, h4, by rw [h2.len, h4]; omega⟩
  refine ⟨t, h1, hi.shows, ?_⟩
  intro c hc
  rcases call_ok (by omega) hi (by rw [hi.len]; omega) c with ⟨t', h5, _⟩ | ⟨_, k, hk, _⟩
  · rw [h5]; rfl
  · exact absurd hk (hc k)

/-- **C18.** The same for `from_iter` of an arbitrary list. -/
theorem C18_from_iter (items : List (K × V)) (hn : items.length < 2 ^ 64 - 1) :
    ∃ t : Tree K V A, Tree.fromIter items = .ok t ∧ Shows t (insertAll [] items) ∧
      ∀ c : Call K V, (∀ k, c ≠ .remove k) →
        (t.call c).map (·.1) = .ok (Spec.call (insertAll [] items) c).1 := by
  obtain ⟨t, H, g, h1, h2, _, h4, _⟩ := fromIter_ok (A := A) (μ := 0) (by omega) items (.inl rfl)
  have hlen : (insertAll [] items).length ≤ items.length := insertAll_length items
  have hi : Inv 0 t (insertAll [] items) := ⟨H, g, h2, h4, by rw [h2.len, h4]; omega⟩
  refine ⟨t, h1, hi.shows, ?_⟩
  intro c hc
  rcases call_ok (by omega) hi (by rw [hi.len]; omega) c with ⟨t', h5, _⟩ | ⟨_, k, hk, _⟩
  · rw [h5]; rfl
  · exact absurd hk (hc k)

/-- The content is also that of the map built by the insertions themselves. -/
theorem C18_same_as_inserting (items : List (K × V)) (hn : items.length < 2 ^ 64 - 1) :
    ∃ (t t' : Tree K V A) (as : List (Answer K V)), Tree.fromIter items = .ok t ∧
      (Tree.new : Tree K V A).run (items.map (fun e => .insert e.1 e.2)) = .ok (as, t') ∧
      ∀ l, Shows t l ↔ Shows t' l := by
  obtain ⟨t, h1, h2, _⟩ := C18_from_iter (A := A) items hn
  obtain ⟨t', h3, h4⟩ := C01_history_refines (A := A) (items.map (fun e => Call.insert e.1 e.2))
    (by simp only [List.length_map]; omega)
  have e : ∀ l : List (K × V), (Spec.run l (items.map (fun e => Call.insert e.1 e.2))).2
      = insertAll l items := by
    clear * -
    induction items with
    | nil => intro l; rfl
    | cons e items ih => intro l; exact ih _
  rw [e] at h4
  refine ⟨t, t', _, h1, h3, fun l => ⟨fun h => ?_, fun h => ?_⟩⟩
  · rw [content_unique h h2]; exact h4
  · rw [content_unique h h4]; exact h2

example : insertAll [] [(2, 'a'), (1, 'b'), (2, 'c')] = [(1, 'b'), (2, 'c')] := by decide

example : ∃ t : Tree Nat Char Unit, Tree.fromIter [(2, 'a'), (1, 'b'), (2, 'c')] = .ok t ∧
    (t.call (.iter 3)).map (·.1) = .ok (.entries [some (1, 'b'), some (2, 'c'), none]) := by
  obtain ⟨t, h1, _, h2⟩ := C18_from_iter (A := Unit) [(2, 'a'), (1, 'b'), (2, 'c')] (by decide)
  exact ⟨t, h1, h2 (.iter 3) (by simp)⟩

example : ((Tree.bulkLoad [(1, 'b'), (2, 'a'), (2, 'c')] : Res (Tree Nat Char Unit)).bind
    (fun t => (t.call (.iter 3)).map (·.1))) = .ok (.entries [some (1, 'b'), some (2, 'c'), none]) := by
  decide +kernel

/-! ## C23 -/

/-- **C23.** Updating through `get_mut(k)` changes the value of `k` and nothing else; `get_mut(k)` is
`None` exactly if `k` is absent. Keys, order and length are those of `modify`. -/
theorem C23_get_mut {t : Tree K V A} (h : ReachableBulk t) {l : List (K × V)} (hl : Shows t l)
    (k : K) (f : V → V) :
    ∃ o t', t.getMut k f = .ok (o, t') ∧ o = lookup k l ∧
      (∃ t1, t'.get k = .ok (o.map f, t1)) ∧
      (∀ j, j ≠ k → ∃ oj t1 t2, t.get j = .ok (oj, t1) ∧ t'.get j = .ok (oj, t2)) ∧
      t'.len = t.len ∧
      (∃ l', Shows t' l' ∧ l'.map (·.1) = l.map (·.1)) ∧
      t'.rootAug = t.rootAug := by
  obtain ⟨l', hi⟩ := h.inv
  cases hi.unique hl
  obtain ⟨t', h1, h2, _, h3⟩ := hi.getMut k f
  refine ⟨_, t', h1, rfl, ?_, ?_, ?_, ⟨_, h2.shows, ?_⟩, h3⟩
  · obtain ⟨t1, g1, _⟩ := h2.get k
    rw [lookup_modify, if_pos rfl] at g1
    exact ⟨t1, g1⟩
  · intro j hj
    obtain ⟨t1, g1, _⟩ := hi.get j
    obtain ⟨t2, g2, _⟩ := h2.get j
    rw [lookup_modify, if_neg (fun e => hj e.symm)] at g2
    exact ⟨_, t1, t2, g1, g2⟩
  · rw [h2.len, hi.len, Spec.modify, List.length_map]
  · rw [Spec.modify, List.map_map]
    refine List.map_congr_left ?_
    intro e _
    simp only [Function.comp]
    split <;> rfl

example : ∃ t', demo.getMut 50 (· + 1) = .ok (some 50, t') := by
  obtain ⟨o, t', h1, h2, _⟩ := C23_get_mut demo_reach.mut.bulk demo_shows 50 (· + 1)
  have e : lookup 50 demoContent = some 50 := by decide +kernel
  rw [h2, e] at h1
  exact ⟨t', h1⟩

/-! ## C32 -/

/-- **C32.** After `clear()` the map is empty, and every later history behaves as from a new map. -/
theorem C32_clear {t : Tree K V A} (_ : ReachableBulk t) :
    Shows t.clear [] ∧ t.clear.len = 0 ∧ t.clear.first = .ok none ∧ t.clear.last = .ok none ∧
      Reachable t.clear ∧
      ∀ cs : List (Call K V), cs.length < 2 ^ 64 →
        ∃ t', t.clear.run cs = .ok ((Spec.run [] cs).1, t') ∧ Shows t' (Spec.run [] cs).2 :=
  ⟨(Inv.new (μ := 16)).shows, rfl, rfl, rfl, .start rfl (by show 0 < _; omega),
    fun cs hn => C01_history_refines cs hn⟩

example : Shows demo.clear [] := (C32_clear demo_reach.mut.bulk).1

/-! ## C33 -/

/-- **C33.** Two maps with the same content, however they were obtained, give the same answers to
every call, now and later: the whole later history is answered identically (removals on maps that
were bulk loaded apart, see C19). -/
theorem C33_history_independence {t t' : Tree K V A} (h : ReachableEven t) (h' : ReachableEven t')
    {l : List (K × V)} (hl : Shows t l) (hl' : Shows t' l)
    (cs : List (Call K V)) (hn : l.length + cs.length < 2 ^ 64) :
    (t.run cs).map (·.1) = (t'.run cs).map (·.1) := by
  obtain ⟨_, hi⟩ := h.inv
  obtain ⟨_, hi'⟩ := h'.inv
  cases hi.unique hl
  cases hi'.unique hl'
  obtain ⟨_, h1, _⟩ := run_ok (by omega) (by omega) hi cs (by rw [hi.len]; exact hn)
  obtain ⟨_, h2, _⟩ := run_ok (by omega) (by omega) hi' cs (by rw [hi'.len]; exact hn)
  rw [h1, h2]; rfl

/-- … and on bulk-loaded maps every call other than a removal. -/
theorem C33_history_independence_bulk {t t' : Tree K V A} (h : ReachableBulk t)
    (h' : ReachableBulk t') {l : List (K × V)} (hl : Shows t l) (hl' : Shows t' l)
    (c : Call K V) (hc : ∀ k, c ≠ .remove k) (hn : l.length + 1 < 2 ^ 64) :
    (t.call c).map (·.1) = (t'.call c).map (·.1) := by
  obtain ⟨_, hi⟩ := h.inv
  obtain ⟨_, hi'⟩ := h'.inv
  cases hi.unique hl
  cases hi'.unique hl'
  rcases call_ok (by omega) hi (by rw [hi.len]; exact hn) c with ⟨_, h1, _⟩ | ⟨_, k, hk, _⟩
  · rcases call_ok (by omega) hi' (by rw [hi'.len]; exact hn) c with ⟨_, h2, _⟩ | ⟨_, k, hk, _⟩
    · rw [h1, h2]; rfl
    · exact absurd hk (hc k)
  · exact absurd hk (hc k)

/-- Two different trees with the same content: `demo` before and after a `get` that moves the cache. -/
example : ∃ t t' : Tree Nat Nat Count, Reachable t ∧ Reachable t' ∧ Shows t demoContent ∧
    Shows t' demoContent ∧ t ≠ t' := by
  obtain ⟨_, hi⟩ := demo_reach.mut.inv
  cases hi.unique demo_shows
  obtain ⟨t', h1, h2, _⟩ := hi.get 5
  refine ⟨demo, t', demo_reach.mut, .get demo_reach.mut h1, demo_shows, h2.shows, ?_⟩
  have key : ∀ (r : Res (Option Nat × Tree Nat Nat Count)) (d t' : Tree Nat Nat Count) o,
      r.map (·.2.store.cached) ≠ .ok d.store.cached → r = .ok (o, t') → d ≠ t' := by
    rintro r d t' o h rfl rfl
    exact h rfl
  have h : (demo.get 5).map (·.2.store.cached) ≠ .ok demo.store.cached := by decide +kernel
  exact key _ _ _ _ h h1

/-! ## The hypotheses of the theorems on whole histories -/

example := C01_history_refines (A := Count) (demoItems.map (fun e => .insert e.1 e.2) ++ [.remove 3])
  (by decide +kernel)
example := C18_bulk_load (A := Count) demoBulkItems (demoBulkItems_sorted.imp (fun h => h.le))
  (by decide +kernel)
example := C33_history_independence demoBulk_even demoBulk_even demoBulk_load.2.shows demoBulk_load.2.shows
  [.remove 3, .iter 4] (by decide +kernel)
example := C18_same_as_inserting (A := Count) demoItems (by decide +kernel)
-- a lookup changes the cache, not the answers
example (t' : Tree Nat Nat Count) {o} (h : demo.get 5 = .ok (o, t')) :
    (demo.run [.remove 3, .iter 4]).map (·.1) = (t'.run [.remove 3, .iter 4]).map (·.1) := by
  obtain ⟨_, hi⟩ := demo_reach.mut.inv
  cases hi.unique demo_shows
  obtain ⟨t1, h1, h2, _⟩ := hi.get 5
  rw [h1] at h
  cases h
  exact C33_history_independence demo_reach.mut.even (.get demo_reach.mut.even h1) demo_shows h2.shows _
    (by decide +kernel)
example (t' : Tree Nat Nat Count) {o} (h : demo.get 5 = .ok (o, t')) :
    (demo.call (.iter 4)).map (·.1) = (t'.call (.iter 4)).map (·.1) := by
  obtain ⟨_, hi⟩ := demo_reach.mut.inv
  cases hi.unique demo_shows
  obtain ⟨t1, h1, h2, _⟩ := hi.get 5
  rw [h1] at h
  cases h
  exact C33_history_independence_bulk demo_reach.mut.bulk (.get demo_reach.mut.bulk h1) demo_shows
    h2.shows _ (by simp) (by decide +kernel)

end Bpt
