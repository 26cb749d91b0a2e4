import Verif.PublicSpec
import Verif.Props.Slots
import Verif.Props.InnerSlots

/-!
# The safe public methods of nodes do what `Verif/PublicSpec.lean` says
-/

namespace Bpt
open Slots

/-! ## Arrays whose first slots are initialised -/

section Arrays
variable {α β : Type}

theorem mapM_error {f : α → Res β} {e : Fault} {x : α} (l1 l2 : List α) (h1 : ∀ y ∈ l1, ∃ z, f y = .ok z)
    (hx : f x = .error e) : (l1 ++ x :: l2).mapM f = .error e := by
  induction l1 with
  | nil => simp [List.mapM_cons, hx, error_bind]
  | cons y l1 ih =>
    obtain ⟨z, hz⟩ := h1 y List.mem_cons_self
    rw [List.cons_append, List.mapM_cons, hz, ok_bind, ih (fun y hy => h1 y (List.mem_cons_of_mem _ hy)), error_bind]

theorem range_split {m k : Nat} (h : m < k) : ∃ l, List.range k = List.range m ++ m :: l := by
  obtain ⟨r, rfl⟩ : ∃ r, k = m + (r + 1) := ⟨k - m - 1, by omega⟩
  refine ⟨((List.range r).map Nat.succ).map (m + ·), ?_⟩
  rw [List.range_add, List.range_succ_eq_map]
  rfl

theorem read_pre {l : List α} {rest : Slots α} {i : Nat} (h : i < l.length) :
    read (l.map some ++ rest) i = .ok l[i] := by
  unfold Slots.read
  rw [List.getElem?_append_left (by simpa using h)]
  simp [h]

theorem mapM_pre {l : List α} {rest : Slots α} {k : Nat} (h : k ≤ l.length) :
    (List.range k).mapM (fun i => read (l.map some ++ rest) i) = .ok (l.take k) := by
  induction k with
  | zero => rfl
  | succ k ih =>
    rw [List.range_succ, List.mapM_append, ih (by omega), ok_bind, List.mapM_cons, read_pre (by omega), ok_bind,
      List.mapM_nil, pure_ok, ok_bind, pure_ok, ok_bind, pure_ok, List.take_succ_eq_append_getElem (by omega)]

theorem mapM_hole {l : List α} {rest : Slots α} {k : Nat} (h : l.length < k)
    (hr : read (l.map some ++ rest) l.length = .error .ub) :
    (List.range k).mapM (fun i => read (l.map some ++ rest) i) = .error .ub := by
  obtain ⟨l2, e⟩ := range_split h
  rw [e]
  refine mapM_error _ _ ?_ hr
  intro y hy
  exact ⟨_, read_pre (List.mem_range.1 hy)⟩

theorem clone_pre {l : List α} {rest : Slots α} {k cap : Nat} (h : k ≤ l.length) (hc : k ≤ cap) :
    clonePrefix (l.map some ++ rest) k cap = .ok (pad cap (l.take k)) := by
  unfold clonePrefix
  induction k with
  | zero => rw [List.take_zero, pad_nil]; rfl
  | succ k ih =>
    have ht : (l.take k).length = k := by rw [List.length_take]; omega
    rw [List.range_succ, List.foldlM_append, ih (by omega) (by omega), ok_bind, List.foldlM_cons, read_pre (by omega),
      ok_bind, write_pad_end ht.symm (by omega), ok_bind, List.foldlM_nil, pure_ok,
      List.take_succ_eq_append_getElem (by omega)]

theorem clone_hole {l : List α} {rest : Slots α} {k cap : Nat} (h : l.length < k) (hc : l.length ≤ cap)
    (hr : read (l.map some ++ rest) l.length = .error .ub) :
    clonePrefix (l.map some ++ rest) k cap = .error .ub := by
  have := clone_pre (rest := rest) (Nat.le_refl l.length) hc
  unfold clonePrefix at this ⊢
  obtain ⟨l2, e⟩ := range_split h
  rw [e, List.foldlM_append, this, ok_bind, List.foldlM_cons, hr, error_bind, error_bind]

theorem read_pad_opt {n : Nat} {l : List α} (i : Nat) : read (pad n l) i = Spec.orUB l[i]? := by
  by_cases h : i < l.length
  · rw [read_pad h, List.getElem?_eq_getElem h]; rfl
  · rw [List.getElem?_eq_none (by omega)]
    unfold Slots.read pad
    rw [List.getElem?_append_right (by rw [List.length_map]; omega)]
    unfold uninit
    rw [List.getElem?_replicate]
    split <;> first | rfl | (split at * <;> simp_all)

theorem write_pad_le {n : Nat} {l : List α} {i : Nat} (h : i ≤ l.length) (hi : i < n) (x : α) :
    write (pad n l) i x = .ok (pad n (l.take i ++ x :: l.drop (i + 1))) := by
  rcases Nat.lt_or_ge i l.length with h1 | h1
  · rw [write_pad h1, List.set_eq_take_append_cons_drop, if_pos h1]
  · have : i = l.length := by omega
    subst this
    rw [write_pad_end rfl hi, List.take_length, List.drop_eq_nil_of_le (by omega)]

/-- Both succeed with related results, or both fail in the same way. -/
def Both (R : α → β → Prop) (x : Res α) (y : Res β) : Prop :=
  (∃ a b, x = .ok a ∧ y = .ok b ∧ R a b) ∨ ∃ e, x = .error e ∧ y = .error e

theorem Both.bind {γ δ : Type} {R : α → β → Prop} {S : γ → δ → Prop} {x : Res α} {y : Res β} {f : α → Res γ}
    {g : β → Res δ} (h : Both R x y) (hf : ∀ a b, R a b → Both S (f a) (g b)) : Both S (x >>= f) (y >>= g) := by
  rcases h with ⟨a, b, rfl, rfl, h⟩ | ⟨e, rfl, rfl⟩
  · exact hf a b h
  · exact .inr ⟨e, rfl, rfl⟩

theorem Both.ok {R : α → β → Prop} {a : α} {b : β} (h : R a b) : Both R (.ok a) (.ok b) := .inl ⟨a, b, rfl, rfl, h⟩

theorem Both.error {R : α → β → Prop} (e : Fault) : Both R (.error e) (.error e) := .inr ⟨e, rfl, rfl⟩

end Arrays

/-! ## Leaves -/

section Leaves
variable {K V : Type}

/-- The slots below `items.length` hold the items, the others nothing. -/
structure LeafIs (n : LeafS K V) (p : Spec.Leaf K V) : Prop where
  cap : p.items.length ≤ 64
  size : n.size = p.size
  le : p.items.length ≤ p.size
  pos : 0 < p.size → p.items ≠ []
  u16 : p.size < 2 ^ 16
  ks : n.ks = pad 64 (p.items.map (·.1))
  vs : n.vs = pad 64 (p.items.map (·.2))
  prev : n.prev = p.prev
  next : n.next = p.next

theorem LeafIs.new : LeafIs (.new : LeafS K V) {} :=
  ⟨by simp, rfl, by simp, by simp, by simp, by simp [LeafS.new, pad_nil], by simp [LeafS.new, pad_nil], rfl, rfl⟩

variable {n : LeafS K V} {p : Spec.Leaf K V}

theorem read_end_ub {α : Type} {m : Nat} {l : List α} : read (l.map some ++ uninit (m - l.length)) l.length = .error .ub := by
  have := read_pad_opt (n := m) (l := l) l.length
  rw [List.getElem?_eq_none (Nat.le_refl _)] at this
  exact this

theorem LeafIs.reads (h : LeafIs n p) {α : Type} (f : K × V → α) (a : Slots α) (ha : a = pad 64 (p.items.map f)) :
    (if n.size ≤ a.length then (List.range n.size).mapM (fun i => a.read i) else .error .ub : Res (List α)) =
      p.all.map (·.map f) := by
  have hl : a.length = 64 := by rw [ha, length_pad (by simpa using h.cap)]
  unfold Spec.Leaf.all
  by_cases he : p.size = p.items.length
  · rw [if_pos he, if_pos (by rw [hl, h.size, he]; exact h.cap), ha, mapM_read _ (by rw [h.size, he, List.length_map])]
    rfl
  · rw [if_neg he]
    split
    · rw [ha]
      unfold pad
      rw [mapM_hole (by rw [List.length_map, h.size]; have := h.le; omega) read_end_ub]
      rfl
    · rfl

theorem LeafIs.keys (h : LeafIs n p) : n.keys = p.all.map (·.map (·.1)) := h.reads _ _ h.ks

theorem LeafIs.values (h : LeafIs n p) : n.values = p.all.map (·.map (·.2)) := h.reads _ _ h.vs

theorem LeafIs.readK (h : LeafIs n p) (i : Nat) : n.ks.read i = (Spec.orUB p.items[i]?).map (·.1) := by
  rw [h.ks, read_pad_opt, List.getElem?_map]
  cases p.items[i]? <;> rfl

theorem LeafIs.readV (h : LeafIs n p) (i : Nat) : n.vs.read i = (Spec.orUB p.items[i]?).map (·.2) := by
  rw [h.vs, read_pad_opt, List.getElem?_map]
  cases p.items[i]? <;> rfl

theorem LeafIs.dataAt (h : LeafIs n p) (i : Nat) : n.dataAt i = Spec.orUB p.items[i]? := by
  unfold LeafS.dataAt
  rw [h.readK, h.readV]
  cases p.items[i]? <;> rfl

theorem LeafIs.setData (h : LeafIs n p) (data : List (K × V)) :
    Both LeafIs (n.setDataChecked data) (if p.size + (data.take 64).length < 2 ^ 16 then
      .ok { p with items := data.take 64 ++ p.items.drop (data.take 64).length, size := p.size + (data.take 64).length }
      else .error .panic) := by
  have key : ∀ (ys zs : List (K × V)) (n : LeafS K V) (old : List (K × V)), zs.length + ys.length ≤ 64 →
      LeafIs n { p with items := zs ++ old.drop zs.length, size := n.size } →
      Both LeafIs ((ys.zipIdx zs.length).foldlM (fun n (kv, i) => (do
        let ks ← n.ks.write i kv.1
        let vs ← n.vs.write i kv.2
        if n.size + 1 < 2 ^ 16 then return { n with ks, vs, size := n.size + 1 } else .error .panic :
          Res (LeafS K V))) n)
        (if n.size + ys.length < 2 ^ 16 then .ok { p with
          items := zs ++ ys ++ old.drop (zs ++ ys).length, size := n.size + ys.length } else .error .panic) := by
    intro ys
    induction ys with
    | nil =>
      intro zs n old _ hi
      have := hi.u16
      dsimp only at this
      rw [if_pos (by simpa using this)]
      refine .ok ?_
      simpa using hi
    | cons y ys ih =>
      intro zs n old hl hi
      rw [List.length_cons] at hl
      have e : ∀ {α : Type} (f : K × V → α), ((zs ++ old.drop zs.length).map f).take zs.length ++
          f y :: ((zs ++ old.drop zs.length).map f).drop (zs.length + 1)
          = ((zs ++ [y]) ++ old.drop (zs ++ [y]).length).map f := by
        intro α f
        have e1 : ((zs ++ old.drop zs.length).map f).take zs.length = zs.map f := by
          rw [← List.map_take, List.take_left]
        have e2 : ((zs ++ old.drop zs.length).map f).drop (zs.length + 1) = (old.drop (zs.length + 1)).map f := by
          rw [← List.map_drop, List.drop_append, List.drop_eq_nil_of_le (by omega), List.nil_append, List.drop_drop,
            show zs.length + (zs.length + 1 - zs.length) = zs.length + 1 by omega]
        rw [e1, e2]
        simp
      simp only [List.zipIdx_cons, List.foldlM_cons]
      rw [hi.ks, hi.vs]
      dsimp only
      rw [write_pad_le (by simp) (by omega), write_pad_le (by simp) (by omega), e (·.1), e (·.2)]
      rw [ok_bind, ok_bind]
      by_cases hs : n.size + 1 < 2 ^ 16
      · rw [if_pos hs, pure_ok, ok_bind]
        have hcap := hi.cap
        have hle := hi.le
        dsimp only at hcap hle
        rw [List.length_append, List.length_drop] at hcap hle
        have := ih (zs ++ [y]) ⟨n.size + 1, pad 64 (((zs ++ [y]) ++ old.drop (zs ++ [y]).length).map (·.1)),
            pad 64 (((zs ++ [y]) ++ old.drop (zs ++ [y]).length).map (·.2)), n.prev, n.next⟩ old
            (by rw [List.length_append, List.length_singleton]; omega) ?_
        · rw [show (zs ++ [y]).length = zs.length + 1 by simp] at this ⊢
          dsimp only at this
          rw [show n.size + (y :: ys).length = n.size + 1 + ys.length by rw [List.length_cons]; omega,
            show zs ++ y :: ys = zs ++ [y] ++ ys by simp]
          exact this
        · refine ⟨?_, rfl, ?_, ?_, hs, rfl, rfl, hi.prev, hi.next⟩
          · simp only [List.length_append, List.length_singleton, List.length_drop]; omega
          · simp only [List.length_append, List.length_singleton, List.length_drop]; omega
          · simp
      · rw [if_neg hs, error_bind, if_neg (by rw [List.length_cons]; omega)]
        exact .error _
  have h' : LeafIs n { p with items := [] ++ p.items.drop ([] : List (K × V)).length, size := n.size } := by
    rw [h.size]
    exact h
  have := key (data.take 64) [] n p.items (by simp only [List.length_nil, List.length_take]; omega) h'
  rw [List.length_nil, h.size, List.nil_append] at this
  exact this

theorem LeafIs.clone (h : LeafIs n p) : Both LeafIs n.clone (p.all.map (fun _ => p)) := by
  unfold LeafS.clone Spec.Leaf.all
  rw [h.ks, h.vs, h.size]
  by_cases he : p.size = p.items.length
  · rw [if_pos he, clonePrefix_pad (by simpa using he) (by simpa using h.cap),
      clonePrefix_pad (by simpa using he) (by simpa using h.cap)]
    exact .ok ⟨h.cap, rfl, h.le, h.pos, h.u16, rfl, rfl, h.prev, h.next⟩
  · rw [if_neg he]
    have := h.le
    unfold pad
    rw [clone_hole (by rw [List.length_map]; omega) (by simpa using h.cap) read_end_ub]
    exact .error _

theorem LeafIs.call (h : LeafIs n p) (o : Compare K) (c : LeafCall K V) :
    Both (fun a b => a.1 = b.1 ∧ LeafIs a.2 b.2) (n.publicCall o c) (p.call o c) := by
  have keep : ∀ {α : Type} {x : Res α} {y : Res α} (f : α → LeafAnswer K V), x = y →
      Both (fun a b => a.1 = b.1 ∧ LeafIs a.2 b.2) (x >>= fun r => pure (f r, n)) (y.map (fun r => (f r, p))) := by
    intro α x y f e
    subst e
    cases x with
    | error e => exact .error e
    | ok r => exact .ok ⟨rfl, h⟩
  have same : ∀ {α : Type} {x : Res α} {y : Res (LeafAnswer K V × Spec.Leaf K V)} (f : α → LeafAnswer K V),
      x.map (fun r => (f r, p)) = y →
      Both (fun a b => a.1 = b.1 ∧ LeafIs a.2 b.2) (x >>= fun r => pure (f r, n)) y := by
    intro α x y f e
    subst e
    cases x with
    | error e => exact .error e
    | ok r => exact .ok ⟨rfl, h⟩
  cases c with
  | len => exact .ok ⟨by dsimp only; rw [h.size], h⟩
  | isEmpty => exact .ok ⟨by dsimp only; rw [h.size], h⟩
  | isFull => exact .ok ⟨by dsimp only; rw [h.size], h⟩
  | ableToLend => exact .ok ⟨by dsimp only; rw [h.size], h⟩
  | isSizeMinimum => exact .ok ⟨by dsimp only; rw [h.size], h⟩
  | prev => exact .ok ⟨by dsimp only; rw [h.prev], h⟩
  | next => exact .ok ⟨by dsimp only; rw [h.next], h⟩
  | setPrev id => exact .ok ⟨rfl, h.cap, h.size, h.le, h.pos, h.u16, h.ks, h.vs, rfl, h.next⟩
  | setNext id => exact .ok ⟨rfl, h.cap, h.size, h.le, h.pos, h.u16, h.ks, h.vs, h.prev, rfl⟩
  | setData data =>
    have := h.setData data
    show Both _ (n.setDataChecked data >>= fun n => pure (LeafAnswer.done, n)) (if _ then _ else _)
    rcases this with ⟨a, b, h1, h2, h3⟩ | ⟨e, h1, h2⟩
    · rw [h1, ok_bind]
      split at h2
      · cases h2
        rw [if_pos ‹_›]
        exact .ok ⟨rfl, h3⟩
      · cases h2
    · rw [h1, error_bind]
      split at h2
      · cases h2
      · cases h2
        rw [if_neg ‹_›]
        exact .error _
  | dataAt i => exact keep _ (h.dataAt i)
  | tryDataAt i =>
    refine same _ ?_
    unfold LeafS.tryDataAt
    dsimp only [Spec.Leaf.call]
    rw [h.size]
    split
    · rfl
    · rw [h.dataAt]
      cases p.items[i]? <;> rfl
  | valueAtMut i f =>
    dsimp only [Spec.Leaf.call, LeafS.publicCall, LeafS.valueAtMut]
    rw [h.readV]
    cases hx : p.items[i]? with
    | none => exact .error _
    | some e =>
      obtain ⟨hi, he⟩ := List.getElem?_eq_some_iff.1 hx
      have hw : n.vs.write i (f e.2) = .ok (pad 64 ((p.items.set i (e.1, f e.2)).map (·.2))) := by
        rw [h.vs, write_pad (by simpa using hi), List.map_set]
      show Both _ ((n.vs.write i (f e.2) >>= fun vs => pure (e.2, { n with vs })) >>= _) _
      rw [hw]
      refine .ok ⟨rfl, ?_, h.size, ?_, ?_, h.u16, ?_, rfl, h.prev, h.next⟩
      · simpa using h.cap
      · simpa using h.le
      · intro hp he
        exact h.pos hp ((List.set_eq_nil_iff _ _).1 he)
      · show n.ks = pad 64 ((p.items.set i (e.1, f e.2)).map (·.1))
        rw [h.ks, List.map_set]
        congr 1
        refine (List.set_getElem_self (i := i) (by simpa using hi)).symm.trans ?_
        rw [List.getElem_map, he]
  | keys =>
    refine same _ ?_
    rw [h.keys]
    dsimp only [Spec.Leaf.call]
    cases p.all <;> rfl
  | values =>
    refine same _ ?_
    rw [h.values]
    dsimp only [Spec.Leaf.call]
    cases p.all <;> rfl
  | inRange k =>
    refine same _ ?_
    unfold LeafS.inRangeBy
    dsimp only [Spec.Leaf.call]
    rw [h.prev, h.next, h.readK, h.readK, h.size]
    have hp := h.pos
    cases hp1 : p.prev with
    | none =>
      cases hp2 : p.next with
      | none => simp [pure_ok, ok_bind, Except.map]
      | some b =>
        by_cases h0 : p.size = 0
        · simp [pure_ok, ok_bind, Except.map, h0, error_bind]
        · cases p.items[p.size - 1]? <;>
            simp [pure_ok, ok_bind, Except.map, h0, Spec.orUB, error_bind]
    | some a =>
      cases hi : p.items with
      | nil => simp [Spec.orUB, Except.map, error_bind]
      | cons e es =>
        cases hlt : o.lt k e.1 with
        | true => simp [Spec.orUB, Except.map, pure_ok, ok_bind, hlt]
        | false =>
          cases hp2 : p.next with
          | none => simp [Spec.orUB, Except.map, pure_ok, ok_bind, hlt]
          | some b =>
            by_cases h0 : p.size = 0
            · simp [pure_ok, ok_bind, Except.map, h0, error_bind, Spec.orUB, hlt]
            · cases (e :: es)[p.size - 1]? <;>
                simp [pure_ok, ok_bind, Except.map, h0, Spec.orUB, error_bind, hlt]
  | keyRange =>
    refine same _ ?_
    unfold Raw.keyRange
    dsimp only [Spec.Leaf.call]
    rw [h.prev, h.next, h.readK, h.readK, h.size]
    by_cases h0 : p.size = 0
    · simp [h0, error_bind, Except.map]
    · have hp := h.pos (by omega)
      cases hi : p.items with
      | nil => exact absurd hi hp
      | cons e es =>
        cases hp1 : p.prev with
        | none =>
          cases hp2 : p.next with
          | none => simp [h0, pure_ok, ok_bind, Except.map]
          | some b =>
            cases (e :: es)[p.size - 1]? <;>
              simp [pure_ok, ok_bind, Except.map, h0, Spec.orUB, error_bind]
        | some a =>
          cases hp2 : p.next with
          | none => simp [h0, pure_ok, ok_bind, Except.map, Spec.orUB]
          | some b =>
            cases (e :: es)[p.size - 1]? <;>
              simp [pure_ok, ok_bind, Except.map, h0, Spec.orUB, error_bind]
  | locateSlot k =>
    refine same _ ?_
    unfold LeafS.locateSlotBy
    rw [h.keys]
    dsimp only [Spec.Leaf.call]
    cases p.all <;> rfl
  | locateSlotWithValue k =>
    refine same _ ?_
    unfold LeafS.locateSlotWithValueBy LeafS.locateSlotBy
    rw [h.keys]
    dsimp only [Spec.Leaf.call]
    unfold Spec.Leaf.all
    by_cases he : p.size = p.items.length
    · rw [if_pos he]
      simp only [Except.map, ok_bind, pure_ok]
      cases hf : o.find (p.items.map (·.1)) k with
      | vacant i => rfl
      | found i =>
        have hi := o.found _ _ _ hf
        rw [List.length_map] at hi
        dsimp only
        rw [h.readV, List.getElem?_eq_getElem hi, List.getElem?_map, List.getElem?_eq_getElem hi]
        rfl
    · rw [if_neg he]
      rfl
  | clone =>
    have := h.clone
    dsimp only [Spec.Leaf.call, LeafS.publicCall]
    rcases this with ⟨a, b, h1, h2, h3⟩ | ⟨e, h1, h2⟩
    · rw [h1, ok_bind]
      cases hx : p.all with
      | error e => rw [hx] at h2; cases h2
      | ok l => rw [hx] at h2; cases h2; exact .ok ⟨rfl, h3⟩
    · rw [h1, error_bind]
      cases hx : p.all with
      | error e => rw [hx] at h2; cases h2; exact .error _
      | ok l => rw [hx] at h2; cases h2

theorem LeafIs.run (h : LeafIs n p) (o : Compare K) (cs : List (LeafCall K V)) :
    (n.publicRun o cs).map (·.1) = p.run o cs := by
  induction cs generalizing n p with
  | nil => rfl
  | cons c cs ih =>
    unfold LeafS.publicRun Spec.Leaf.run
    rcases h.call o c with ⟨⟨a, n'⟩, ⟨b, p'⟩, h1, h2, rfl, h3⟩ | ⟨e, h1, h2⟩
    · rw [h1, h2, ok_bind]
      dsimp only
      rw [← ih h3]
      cases n'.publicRun o cs <;> rfl
    · rw [h1, h2]; rfl

end Leaves

/-! ## Inner nodes -/

section Inners
variable {K A : Type}

/-- The keys and children fill the first slots; the augmentations fill the first slots up to a hole. -/
structure InnerIs (n : InnerS K A) (p : Spec.Inner K A) : Prop where
  cap : p.keys.length ≤ 64
  clen : p.childs.length = p.keys.length + 1
  size : n.size = p.keys.length
  ks : n.ks = pad 64 p.keys
  cs : n.cs = pad 65 p.childs
  alen : n.as.length = 65
  as : ∃ rest : Slots A, n.as = p.augs.map some ++ rest ∧
    (p.augs.length ≤ p.keys.length → ∃ r, rest = none :: r)

theorem fill_eq {α : Type} (n : Nat) (xs : List α) :
    InnerS.fill (uninit n) xs = if xs.length ≤ n then .ok (pad n xs) else .error .panic := by
  have key : ∀ (ys zs : List α), zs.length ≤ n →
      (ys.zipIdx zs.length).foldlM (fun (a : Slots α) (x, i) =>
        if i < a.length then (.ok (a.set i (some x)) : Res (Slots α)) else .error .panic) (pad n zs) =
      if zs.length + ys.length ≤ n then .ok (pad n (zs ++ ys)) else .error .panic := by
    intro ys
    induction ys with
    | nil => intro zs h; simp [h, pure_ok]
    | cons y ys ih =>
      intro zs h
      simp only [List.zipIdx_cons, List.foldlM_cons]
      rw [length_pad h]
      by_cases hz : zs.length < n
      · have hw := write_pad_end (n := n) (l := zs) rfl hz y
        unfold Slots.write at hw
        rw [length_pad h, if_pos hz] at hw
        rw [if_pos hz, hw, ok_bind]
        have := ih (zs ++ [y]) (by simp; omega)
        rw [show (zs ++ [y]).length = zs.length + 1 by simp] at this
        rw [this, List.length_cons, show zs.length + 1 + ys.length = zs.length + (ys.length + 1) by omega]
        simp
      · rw [if_neg hz, error_bind, if_neg (by rw [List.length_cons]; omega)]
  have := key xs [] (by simp)
  rw [pad_nil] at this
  simpa [InnerS.fill] using this

theorem unwind_eq {β : Type} (n : InnerS K A) (h : n.size = 0) :
    (n.unwind : Res β) = match n.as.read 0 with
      | .ok _ => .error .panic
      | .error _ => .error .ub := by
  unfold InnerS.unwind InnerS.drop Slots.dropPrefix
  rw [h]
  have e : (List.range (0 + 1)) = [0] := rfl
  rw [e]
  simp only [List.range_zero, List.mapM_nil, pure_ok, ok_bind, List.mapM_cons]
  unfold Slots.read
  split <;> rfl

theorem newFromIter_is (keys : List K) (childs : List NodeId) (augs : List A) :
    Both InnerIs (InnerS.newFromIterPublic keys childs augs) (Spec.newInner keys childs augs) := by
  have r0 : ∀ l : List A, (pad 65 l).read 0 = Spec.orUB l.head? := by
    intro l
    rw [read_pad_opt, List.head?_eq_getElem?]
  have u0 : (uninit 65 : Slots A).read 0 = .error .ub := rfl
  unfold InnerS.newFromIterPublic Spec.newInner
  dsimp only [InnerS.empty]
  rw [show innerN = 64 from rfl, show 64 + 1 = 65 from rfl, fill_eq, fill_eq, fill_eq]
  by_cases h1 : keys.length ≤ 64
  · rw [if_pos h1]
    dsimp only
    by_cases h2 : childs.length ≤ 65
    · rw [if_pos h2]
      dsimp only
      rw [if_neg (c := 64 < keys.length ∨ 65 < childs.length) (by omega)]
      by_cases h3 : augs.length ≤ 65
      · rw [if_pos h3]
        dsimp only
        rw [if_neg (c := 65 < augs.length) (by omega)]
        by_cases h4 : keys.length + 1 = childs.length
        · rw [if_pos h4, if_pos h4]
          refine .ok ⟨h1, h4.symm, rfl, rfl, rfl, length_pad h3, uninit (65 - augs.length), rfl, ?_⟩
          intro hl
          dsimp only at hl
          exact ⟨uninit (65 - augs.length - 1), by
            rw [show 65 - augs.length = 65 - augs.length - 1 + 1 by omega, uninit_succ]; rfl⟩
        · rw [if_neg h4, if_neg h4, unwind_eq _ rfl]
          dsimp only
          rw [r0]
          cases augs with
          | nil => exact .error _
          | cons a as => rw [if_neg (by simp)]; exact .error _
      · rw [if_neg h3]
        dsimp only
        rw [if_pos (c := 65 < augs.length) (by omega), fill_eq, if_pos (by rw [List.length_take]; omega), ok_bind,
          unwind_eq _ rfl]
        dsimp only
        rw [r0]
        cases augs with
        | nil => simp at h3
        | cons a as => exact .error _
    · rw [if_neg h2]
      dsimp only
      rw [if_pos (by omega), unwind_eq _ rfl]
      exact .error _
  · rw [if_neg h1]
    dsimp only
    rw [if_pos (by omega), unwind_eq _ rfl]
    exact .error _

variable {n : InnerS K A} {p : Spec.Inner K A}

theorem InnerIs.keys (h : InnerIs n p) : n.keys = .ok p.keys := by
  unfold InnerS.keys
  rw [h.ks, h.size, length_pad h.cap, if_pos h.cap, mapM_read _ rfl]

theorem InnerIs.hole (h : InnerIs n p) (hl : p.augs.length ≤ p.keys.length) :
    ∃ rest, n.as = p.augs.map some ++ rest ∧ Slots.read (p.augs.map some ++ rest) p.augs.length = .error .ub := by
  obtain ⟨rest, h1, h2⟩ := h.as
  obtain ⟨r, rfl⟩ := h2 hl
  exact ⟨_, h1, read_append_none (by simp)⟩

theorem InnerIs.drop (h : InnerIs n p) : n.drop =
    if p.keys.length + 1 ≤ p.augs.length then .ok (p.keys, p.augs.take (p.keys.length + 1)) else .error .ub := by
  unfold InnerS.drop Slots.dropPrefix
  rw [h.ks, h.size, mapM_read _ rfl, ok_bind]
  by_cases hl : p.keys.length + 1 ≤ p.augs.length
  · obtain ⟨rest, h1, -⟩ := h.as
    rw [if_pos hl, h1, mapM_pre hl]
    rfl
  · obtain ⟨rest, h1, h2⟩ := h.hole (by omega)
    rw [if_neg hl, h1, mapM_hole (by omega) h2]
    rfl

theorem InnerIs.clone (h : InnerIs n p) : Both InnerIs n.clone
    (if p.keys.length + 1 ≤ p.augs.length then .ok ⟨p.keys, p.childs, p.augs.take (p.keys.length + 1)⟩
      else .error .ub) := by
  have hc := h.cap
  unfold InnerS.clone
  rw [h.ks, h.size, clonePrefix_pad rfl h.cap, ok_bind]
  by_cases hl : p.keys.length + 1 ≤ p.augs.length
  · obtain ⟨rest, h1, -⟩ := h.as
    have ht : (p.augs.take (p.keys.length + 1)).length = p.keys.length + 1 := by rw [List.length_take]; omega
    rw [if_pos hl, h1, clone_pre hl (by show _ ≤ 65; omega), ok_bind]
    refine .ok ⟨h.cap, h.clen, rfl, rfl, h.cs, length_pad (by rw [ht]; show _ ≤ 65; omega), _, rfl, ?_⟩
    intro hx
    dsimp only at hx
    omega
  · obtain ⟨rest, h1, h2⟩ := h.hole (by omega)
    rw [if_neg hl, h1, clone_hole (by omega) (by show _ ≤ 65; omega) h2]
    exact .error _

theorem InnerIs.push (h : InnerIs n p) (o : Compare K) (k : K) (c : NodeId) (a : A) :
    Both InnerIs (n.push k c a) ((p.call o (.push k c a)).map (·.2)) := by
  have hcl := h.clen
  have hc := h.cap
  have hal := h.alen
  unfold InnerS.push
  dsimp only [Spec.Inner.call]
  rw [h.ks, h.cs, h.size]
  by_cases hs : p.keys.length < 64
  · rw [if_pos hs, write_pad_end rfl hs, ok_bind, write_pad_end hcl.symm (by omega), ok_bind]
    unfold Slots.write
    rw [if_pos (by omega), ok_bind]
    obtain ⟨rest, h1, h2⟩ := h.as
    rw [h1, List.length_append, List.length_map] at hal
    refine .ok ⟨by simp; omega, by simp; omega, by simp, rfl, rfl, ?_, ?_⟩
    · dsimp only
      rw [List.length_set]
      exact h.alen
    dsimp only
    rw [h1]
    by_cases h3 : p.keys.length + 1 < p.augs.length
    · refine ⟨rest, ?_, ?_⟩
      · rw [if_pos h3, List.set_append_left _ _ (by simpa using h3), List.map_set]
      · rw [if_pos h3, List.length_set, List.length_append, List.length_singleton]
        intro; omega
    · rw [if_neg h3]
      by_cases h4 : p.keys.length + 1 = p.augs.length
      · obtain ⟨x, r, rfl⟩ : ∃ x r, rest = x :: r := by
          cases rest with
          | nil => simp at hal; omega
          | cons x r => exact ⟨x, r, rfl⟩
        refine ⟨r, ?_, ?_⟩
        · rw [if_pos h4, h4, List.set_append_right _ _ (by simp)]
          simp
        · rw [if_pos h4, List.length_append, List.length_append, List.length_singleton, List.length_singleton]
          intro; omega
      · obtain ⟨r, rfl⟩ := h2 (by omega)
        refine ⟨none :: r.set (p.keys.length - p.augs.length) (some a), ?_, fun _ => ⟨_, rfl⟩⟩
        rw [if_neg h4, List.set_append_right _ _ (by rw [List.length_map]; omega), List.length_map,
          show p.keys.length + 1 - p.augs.length = p.keys.length - p.augs.length + 1 by omega, List.set_cons_succ]
  · rw [if_neg hs]
    unfold Slots.write
    rw [length_pad h.cap, if_neg hs, error_bind]
    exact .error _

theorem InnerIs.call (h : InnerIs n p) (o : Compare K) (c : InnerCall K A) :
    Both (fun a b => a.1 = b.1 ∧ InnerIs a.2 b.2) (n.publicCall o c) (p.call o c) := by
  cases c with
  | len => exact .ok ⟨by dsimp only; rw [h.size], h⟩
  | isEmpty => exact .ok ⟨by dsimp only; rw [h.size], h⟩
  | isFull => exact .ok ⟨by dsimp only; rw [h.size], h⟩
  | ableToLend => exact .ok ⟨by dsimp only; rw [h.size], h⟩
  | key i =>
    dsimp only [InnerS.publicCall, InnerS.key, Spec.Inner.call]
    rw [h.ks, read_pad_opt]
    cases p.keys[i]? with
    | none => exact .error _
    | some k => exact .ok ⟨rfl, h⟩
  | locateChild k =>
    dsimp only [InnerS.publicCall, InnerS.locateChildBy, InnerS.childId, Spec.Inner.call]
    rw [h.keys, ok_bind, h.cs]
    cases o.find p.keys k with
    | found i =>
      dsimp only
      rw [read_pad_opt]
      cases p.childs[i + 1]? with
      | none => exact .error _
      | some k => exact .ok ⟨rfl, h⟩
    | vacant i =>
      dsimp only
      rw [read_pad_opt]
      cases p.childs[i]? with
      | none => exact .error _
      | some k => exact .ok ⟨rfl, h⟩
  | push k c a =>
    have := h.push o k c a
    dsimp only [InnerS.publicCall]
    dsimp only [Spec.Inner.call] at this ⊢
    split at this
    · rw [if_pos ‹_›]
      rcases this with ⟨x, y, h1, h2, h3⟩ | ⟨e, h1, h2⟩
      · cases h2
        rw [h1]
        exact .ok ⟨rfl, h3⟩
      · cases h2
    · rw [if_neg ‹_›]
      rcases this with ⟨x, y, h1, h2, h3⟩ | ⟨e, h1, h2⟩
      · cases h2
      · cases h2
        rw [h1]
        exact .error _
  | clone =>
    have := h.clone
    dsimp only [InnerS.publicCall, Spec.Inner.call]
    split at this
    · rw [if_pos ‹_›]
      rcases this with ⟨x, y, h1, h2, h3⟩ | ⟨e, h1, h2⟩
      · cases h2
        rw [h1]
        exact .ok ⟨rfl, h3⟩
      · cases h2
    · rw [if_neg ‹_›]
      rcases this with ⟨x, y, h1, h2, h3⟩ | ⟨e, h1, h2⟩
      · cases h2
      · cases h2
        rw [h1]
        exact .error _

theorem InnerIs.run (h : InnerIs n p) (o : Compare K) (cs : List (InnerCall K A)) :
    n.publicRun o cs = p.run o cs := by
  induction cs generalizing n p with
  | nil =>
    unfold InnerS.publicRun Spec.Inner.run
    rw [h.drop]
    split <;> rfl
  | cons c cs ih =>
    unfold InnerS.publicRun Spec.Inner.run
    rcases h.call o c with ⟨⟨a, n'⟩, ⟨b, p'⟩, h1, h2, rfl, h3⟩ | ⟨e, h1, h2⟩
    · rw [h1, h2, ok_bind]
      dsimp only
      rw [ih h3]
      cases p'.run o cs <;> rfl
    · rw [h1, h2]; rfl

end Inners

/-! ## The store -/

section Stores
variable {K V A : Type}

/-- The vectors hold the nodes of the map. -/
structure StoreIs (s : Raw.Store K V A) (p : Spec.Nodes K V A) : Prop where
  inner : ∀ i, p.inner i = (s.inners[i]?).join
  innerIds : p.innerIds = s.inners.length
  leaf : ∀ i, p.leaf i = (s.leaves[i]?).join
  leafIds : p.leafIds = s.leaves.length
  cached : p.cached = s.cached

theorem update_set {α : Type} {f : Nat → Option α} {l : List (Option α)} (h : ∀ i, f i = (l[i]?).join) {i : Nat}
    (hi : i < l.length) (x : Option α) (j : Nat) : Spec.update f i x j = ((l.set i x)[j]?).join := by
  unfold Spec.update
  rw [List.getElem?_set]
  by_cases e : j = i
  · subst e; simp [hi]
  · rw [if_neg e, if_neg (fun h => e h.symm), h]

theorem update_push {α : Type} {f : Nat → Option α} {l : List (Option α)} (h : ∀ i, f i = (l[i]?).join)
    (x : Option α) (j : Nat) : Spec.update f l.length x j = ((l ++ [x])[j]?).join := by
  unfold Spec.update
  by_cases e : j = l.length
  · subst e; simp
  · rw [if_neg e, h]
    by_cases hj : j < l.length
    · rw [List.getElem?_append_left hj]
    · rw [List.getElem?_eq_none (by omega), List.getElem?_eq_none (by simp; omega)]

variable {s : Raw.Store K V A} {p : Spec.Nodes K V A}

theorem StoreIs.getInner (h : StoreIs s p) (i : Nat) : s.getInner i = Spec.orUB (p.inner i) := by
  rw [h.inner]
  unfold Raw.Store.getInner
  rcases s.inners[i]? with _ | _ | n <;> rfl

theorem StoreIs.getLeaf (h : StoreIs s p) (i : Nat) : s.getLeaf i = Spec.orUB (p.leaf i) := by
  rw [h.leaf]
  unfold Raw.Store.getLeaf
  rcases s.leaves[i]? with _ | _ | n <;> rfl

theorem StoreIs.tryGetLeaf (h : StoreIs s p) (i : Nat) : s.tryGetLeaf i = p.leaf i := by
  rw [h.leaf]
  unfold Raw.Store.tryGetLeaf
  rcases s.leaves[i]? with _ | _ | n <;> rfl

theorem join_lt {α : Type} {l : List (Option α)} {i : Nat} {x : α} (h : (l[i]?).join = some x) : i < l.length := by
  by_contra hn
  rw [List.getElem?_eq_none (by omega)] at h
  cases h

theorem StoreIs.call (h : StoreIs s p) (o : Compare K) (c : StoreCall K V A) :
    Both (fun a b => a.1 = b.1 ∧ StoreIs a.2 b.2) (s.publicCall o c) (p.call o c) := by
  cases c with
  | newEmptyLeaf =>
    refine .ok ⟨by rw [h.leafIds], h.inner, h.innerIds, ?_, ?_, h.cached⟩
    · dsimp only; rw [h.leafIds]; exact update_push h.leaf _
    · dsimp only; rw [h.leafIds]; simp [Raw.Store.newEmptyLeaf]
  | reserveLeaf =>
    refine .ok ⟨by rw [h.leafIds], h.inner, h.innerIds, ?_, ?_, h.cached⟩
    · intro i
      dsimp only [Raw.Store.reserveLeaf]
      rw [h.leaf]
      rcases Nat.lt_trichotomy i s.leaves.length with hi | hi | hi
      · rw [List.getElem?_append_left hi]
      · subst hi; simp
      · rw [List.getElem?_eq_none (by omega), List.getElem?_eq_none (by simp; omega)]
    · dsimp only; rw [h.leafIds]; simp [Raw.Store.reserveLeaf]
  | addInner n =>
    refine .ok ⟨by rw [h.innerIds], ?_, ?_, h.leaf, h.leafIds, h.cached⟩
    · dsimp only; rw [h.innerIds]; exact update_push h.inner _
    · dsimp only; rw [h.innerIds]; simp [Raw.Store.addInner]
  | getInner id =>
    dsimp only [Raw.Store.publicCall, Spec.Nodes.call]
    rw [h.getInner]
    cases p.inner id with
    | none => exact .error _
    | some n => exact .ok ⟨rfl, h⟩
  | tryGetInner id =>
    refine .ok ⟨?_, h⟩
    dsimp only
    rw [h.inner]
    unfold Raw.Store.tryGetInner
    rcases s.inners[id]? with _ | _ | n <;> rfl
  | takeInner id =>
    dsimp only [Raw.Store.publicCall, Spec.Nodes.call]
    have e := h.inner id
    unfold Raw.Store.takeInner
    rcases hx : s.inners[id]? with _ | _ | n
    · rw [e, hx]; exact .error _
    · rw [e, hx]; exact .error _
    · rw [e, hx]
      refine .ok ⟨rfl, ?_, ?_, h.leaf, h.leafIds, h.cached⟩
      · exact update_set h.inner (join_lt (by rw [hx]; rfl)) _
      · dsimp only; rw [List.length_set, h.innerIds]
  | putBackInner id n =>
    dsimp only [Raw.Store.publicCall, Spec.Nodes.call, Raw.Store.putBackInner]
    rw [h.innerIds]
    split
    · refine .ok ⟨rfl, ?_, ?_, h.leaf, h.leafIds, h.cached⟩
      · exact update_set h.inner ‹_› _
      · dsimp only [Raw.Store.setInner]; rw [List.length_set]
    · exact .error _
  | getLeaf id =>
    dsimp only [Raw.Store.publicCall, Spec.Nodes.call]
    rw [h.getLeaf]
    cases p.leaf id with
    | none => exact .error _
    | some n => exact .ok ⟨rfl, h⟩
  | tryGetLeaf id =>
    refine .ok ⟨?_, h⟩
    dsimp only
    rw [h.tryGetLeaf]
  | takeLeaf id =>
    dsimp only [Raw.Store.publicCall, Spec.Nodes.call]
    have e := h.leaf id
    unfold Raw.Store.takeLeaf
    rcases hx : s.leaves[id]? with _ | _ | n
    · rw [e, hx]; exact .error _
    · rw [e, hx]; exact .error _
    · rw [e, hx]
      refine .ok ⟨rfl, h.inner, h.innerIds, ?_, ?_, h.cached⟩
      · exact update_set h.leaf (join_lt (by rw [hx]; rfl)) _
      · dsimp only; rw [List.length_set, h.leafIds]
  | assignLeaf id l =>
    dsimp only [Raw.Store.publicCall, Spec.Nodes.call, Raw.Store.assignLeaf]
    rw [h.leafIds]
    split
    · refine .ok ⟨rfl, h.inner, h.innerIds, ?_, ?_, h.cached⟩
      · exact update_set h.leaf ‹_› _
      · dsimp only [Raw.Store.setLeaf]; rw [List.length_set]
    · exact .error _
  | getMutLeaf id c =>
    dsimp only [Raw.Store.publicCall, Spec.Nodes.call]
    rw [h.getLeaf]
    cases hx : p.leaf id with
    | none => exact .error _
    | some l =>
      show Both _ (l.publicCall o c >>= _) ((l.publicCall o c).map _)
      cases l.publicCall o c with
      | error e => exact .error _
      | ok r =>
        refine .ok ⟨rfl, h.inner, h.innerIds, ?_, ?_, h.cached⟩
        · exact update_set h.leaf (join_lt (by rw [← h.leaf, hx])) _
        · dsimp only [Raw.Store.setLeaf]; rw [List.length_set, h.leafIds]
  | cacheLeaf id => exact .ok ⟨rfl, h.inner, h.innerIds, h.leaf, h.leafIds, rfl⟩
  | tryCache k =>
    dsimp only [Raw.Store.publicCall, Spec.Nodes.call, Raw.Store.tryCacheBy]
    rw [h.cached]
    cases s.cached with
    | none => exact .ok ⟨rfl, h⟩
    | some id =>
      dsimp only [Option.bind_some]
      rw [h.tryGetLeaf]
      cases p.leaf id with
      | none => exact .ok ⟨rfl, h⟩
      | some l =>
        dsimp only [LeafS.publicCall]
        cases l.inRangeBy o k with
        | error e => exact .error _
        | ok b => cases b <;> exact .ok ⟨rfl, h⟩

theorem StoreIs.run (h : StoreIs s p) (o : Compare K) (cs : List (StoreCall K V A)) :
    (s.publicRun o cs).map (·.1) = p.run o cs := by
  induction cs generalizing s p with
  | nil => rfl
  | cons c cs ih =>
    unfold Raw.Store.publicRun Spec.Nodes.run
    rcases h.call o c with ⟨⟨a, n'⟩, ⟨b, p'⟩, h1, h2, rfl, h3⟩ | ⟨e, h1, h2⟩
    · rw [h1, h2, ok_bind]
      dsimp only
      rw [← ih h3]
      cases n'.publicRun o cs <;> rfl
    · rw [h1, h2]; rfl

end Stores

/-! ## Careful callers -/

section Careful
variable {K V A : Type}

theorem leaf_careful (o : Compare K) (cs : List (LeafCall K V)) (p : Spec.Leaf K V) (hs : p.size = p.items.length)
    (hc : Spec.LeafCarefulRun p.size cs) : ∃ as, p.run o cs = .ok as := by
  induction cs generalizing p with
  | nil => exact ⟨[], rfl⟩
  | cons c cs ih =>
    obtain ⟨h1, h2⟩ := hc
    have key : ∃ a p', p.call o c = .ok (a, p') ∧ p'.size = p'.items.length ∧ p'.size = Spec.leafLenAfter p.size c := by
      have get : ∀ i, i < p.size → ∃ e, p.items[i]? = some e := fun i hi =>
        ⟨p.items[i]'(hs ▸ hi), List.getElem?_eq_getElem (hs ▸ hi)⟩
      have all : p.all = .ok p.items := by unfold Spec.Leaf.all; rw [if_pos hs]
      cases c with
      | setData data =>
        have h0 : p.items = [] := List.eq_nil_of_length_eq_zero (hs ▸ h1)
        have hl : (data.take 64).length = min 64 data.length := List.length_take
        dsimp only [Spec.Leaf.call]
        rw [show p.size = 0 from h1, if_pos (by rw [hl]; omega)]
        refine ⟨_, _, rfl, ?_, ?_⟩
        · simp [h0]
        · dsimp only [Spec.leafLenAfter]; rw [hl]
      | dataAt i =>
        obtain ⟨e, he⟩ := get i h1
        dsimp only [Spec.Leaf.call]; rw [he]
        exact ⟨_, _, rfl, hs, rfl⟩
      | tryDataAt i =>
        dsimp only [Spec.Leaf.call]
        split
        · exact ⟨_, _, rfl, hs, rfl⟩
        · obtain ⟨e, he⟩ := get i (by omega)
          rw [he]; exact ⟨_, _, rfl, hs, rfl⟩
      | valueAtMut i f =>
        obtain ⟨e, he⟩ := get i h1
        dsimp only [Spec.Leaf.call]; rw [he]
        exact ⟨_, _, rfl, by simpa using hs, rfl⟩
      | keys => dsimp only [Spec.Leaf.call]; rw [all]; exact ⟨_, _, rfl, hs, rfl⟩
      | values => dsimp only [Spec.Leaf.call]; rw [all]; exact ⟨_, _, rfl, hs, rfl⟩
      | locateSlot k => dsimp only [Spec.Leaf.call]; rw [all]; exact ⟨_, _, rfl, hs, rfl⟩
      | locateSlotWithValue k => dsimp only [Spec.Leaf.call]; rw [all]; exact ⟨_, _, rfl, hs, rfl⟩
      | clone => dsimp only [Spec.Leaf.call]; rw [all]; exact ⟨_, _, rfl, hs, rfl⟩
      | inRange k =>
        have h0 : 0 < p.size := h1
        obtain ⟨e, he⟩ := get (p.size - 1) (by omega)
        have hn : ¬ (p.prev ≠ none ∧ p.items = []) := by
          rintro ⟨-, h⟩; rw [h] at hs; simp at hs; omega
        dsimp only [Spec.Leaf.call]
        rw [if_neg hn]
        split
        · exact ⟨_, _, rfl, hs, rfl⟩
        · split
          · exact ⟨_, _, rfl, hs, rfl⟩
          · rw [if_neg (by omega), he]; exact ⟨_, _, rfl, hs, rfl⟩
      | keyRange =>
        have h0 : 0 < p.size := h1
        obtain ⟨e, he⟩ := get (p.size - 1) (by omega)
        dsimp only [Spec.Leaf.call]
        rw [if_neg (by omega)]
        split
        · exact ⟨_, _, rfl, hs, rfl⟩
        · rw [he]; exact ⟨_, _, rfl, hs, rfl⟩
      | _ => exact ⟨_, _, rfl, hs, rfl⟩
    obtain ⟨a, p', e1, e2, e3⟩ := key
    obtain ⟨as, e4⟩ := ih p' e2 (e3 ▸ h2)
    refine ⟨a :: as, ?_⟩
    dsimp only [Spec.Leaf.run]
    rw [e1]
    dsimp only
    rw [e4]
    rfl

theorem inner_careful (o : Compare K) (cs : List (InnerCall K A)) (p : Spec.Inner K A)
    (h1 : p.childs.length = p.keys.length + 1) (h2 : p.augs.length = p.keys.length + 1)
    (hc : Spec.InnerCarefulRun p.keys.length cs) :
    ∃ as, p.run o cs = .ok (as, p.keys ++ (Spec.pushed cs).1, p.augs ++ (Spec.pushed cs).2) := by
  induction cs generalizing p with
  | nil =>
    refine ⟨[], ?_⟩
    dsimp only [Spec.Inner.run, Spec.pushed]
    rw [if_pos (by omega), List.append_nil, List.append_nil, List.take_of_length_le (by omega)]
  | cons c cs ih =>
    obtain ⟨h3, h4⟩ := hc
    have step : ∀ a p', p.call o c = .ok (a, p') → p'.childs.length = p'.keys.length + 1 →
        p'.augs.length = p'.keys.length + 1 → p'.keys.length = Spec.innerLenAfter p.keys.length c →
        p'.keys ++ (Spec.pushed cs).1 = p.keys ++ (Spec.pushed (c :: cs)).1 →
        p'.augs ++ (Spec.pushed cs).2 = p.augs ++ (Spec.pushed (c :: cs)).2 →
        ∃ as, p.run o (c :: cs) = .ok (as, p.keys ++ (Spec.pushed (c :: cs)).1, p.augs ++ (Spec.pushed (c :: cs)).2) := by
      intro a p' e1 e2 e3 e4 e5 e6
      obtain ⟨as, e7⟩ := ih p' e2 e3 (e4 ▸ h4)
      refine ⟨a :: as, ?_⟩
      dsimp only [Spec.Inner.run]
      rw [e1]
      dsimp only
      rw [e7, e5, e6]
      rfl
    cases c with
    | push k c a =>
      have hl : p.keys.length < 64 := h3
      refine step .done ⟨p.keys ++ [k], p.childs ++ [c], p.augs ++ [a]⟩ ?_ ?_ ?_ ?_ ?_ ?_
      · dsimp only [Spec.Inner.call]
        rw [if_pos hl, if_neg (by omega), if_pos h2.symm]
      · simp; omega
      · simp; omega
      · simp [Spec.innerLenAfter]
      · simp [Spec.pushed]
      · simp [Spec.pushed]
    | key i =>
      refine step (.key (p.keys[i]'h3)) p ?_ h1 h2 rfl rfl rfl
      dsimp only [Spec.Inner.call]
      rw [List.getElem?_eq_getElem h3]
      rfl
    | locateChild k =>
      have hi : ∀ i, i ≤ p.keys.length → ∃ c, p.childs[i]? = some c := fun i hi =>
        ⟨_, List.getElem?_eq_getElem (by omega)⟩
      cases hf : o.find p.keys k with
      | found i =>
        obtain ⟨c, hc⟩ := hi (i + 1) (by have := o.found _ _ _ hf; omega)
        refine step (.child (i + 1, c)) p ?_ h1 h2 rfl rfl rfl
        dsimp only [Spec.Inner.call]
        rw [hf]
        dsimp only
        rw [hc]
        rfl
      | vacant i =>
        obtain ⟨c, hc⟩ := hi i (o.vacant _ _ _ hf)
        refine step (.child (i, c)) p ?_ h1 h2 rfl rfl rfl
        dsimp only [Spec.Inner.call]
        rw [hf]
        dsimp only
        rw [hc]
        rfl
    | clone =>
      refine step .done p ?_ h1 h2 rfl rfl rfl
      dsimp only [Spec.Inner.call]
      rw [if_pos (by omega), List.take_of_length_le (by omega)]
    | len => exact step _ p rfl h1 h2 rfl rfl rfl
    | isEmpty => exact step _ p rfl h1 h2 rfl rfl rfl
    | isFull => exact step _ p rfl h1 h2 rfl rfl rfl
    | ableToLend => exact step _ p rfl h1 h2 rfl rfl rfl

theorem store_checked (o : Compare K) (cs : List (StoreCall K V A)) (p : Spec.Nodes K V A)
    (hc : ∀ c ∈ cs, Spec.StoreChecked c) : p.run o cs ≠ .error .ub := by
  induction cs generalizing p with
  | nil => intro h; cases h
  | cons c cs ih =>
    have key : (∃ r, p.call o c = .ok r) ∨ p.call o c = .error .panic := by
      have := hc c (by simp)
      cases c with
      | getInner id => exact this.elim
      | getLeaf id => exact this.elim
      | getMutLeaf id c => exact this.elim
      | tryCache k => exact this.elim
      | takeInner id => dsimp only [Spec.Nodes.call]; cases p.inner id <;> first | exact .inr rfl | exact .inl ⟨_, rfl⟩
      | takeLeaf id => dsimp only [Spec.Nodes.call]; cases p.leaf id <;> first | exact .inr rfl | exact .inl ⟨_, rfl⟩
      | putBackInner id n =>
        dsimp only [Spec.Nodes.call]
        split
        · exact .inl ⟨_, rfl⟩
        · exact .inr rfl
      | assignLeaf id n =>
        dsimp only [Spec.Nodes.call]
        split
        · exact .inl ⟨_, rfl⟩
        · exact .inr rfl
      | _ => exact .inl ⟨_, rfl⟩
    dsimp only [Spec.Nodes.run]
    rcases key with ⟨⟨a, p'⟩, h⟩ | h
    · rw [h]
      dsimp only
      have := ih p' (fun c hm => hc c (by simp [hm]))
      revert this
      cases p'.run o cs with
      | ok r => intro _ h; cases h
      | error e => intro h1 h2; cases h2; exact h1 rfl
    · rw [h]; intro h; cases h

end Careful
end Bpt
