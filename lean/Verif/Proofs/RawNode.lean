import Verif.Props.InnerSlots
import Verif.Props.Slots
import Verif.Model.RawRemove
import Mathlib.Data.List.Forall2
import Mathlib.Data.Option.Basic

/-!
# Simulation of the list-level model by the slot-level model: nodes and store
-/

namespace Bpt
namespace Raw
open Slots

variable {α β γ δ : Type}

/-- Whenever the list-level run `x` succeeds, the slot-level run `y` succeeds with a related result. -/
def Sim (R : α → β → Prop) (x : Res α) (y : Res β) : Prop :=
  ∀ a, x = .ok a → ∃ b, y = .ok b ∧ R a b

theorem Sim.ok {R : α → β → Prop} {a : α} {b : β} (h : R a b) : Sim R (.ok a) (.ok b) := by
  intro a' e; cases e; exact ⟨b, rfl, h⟩

theorem Sim.pure {R : α → β → Prop} {a : α} {b : β} (h : R a b) :
    Sim R (Pure.pure a) (Pure.pure b) := Sim.ok h

theorem Sim.error {R : α → β → Prop} {e : Fault} {y : Res β} : Sim R (.error e) y := by
  intro a h; cases h

theorem Sim.error_bind {R : α → β → Prop} {e : Fault} {f : γ → Res α} {y : Res β} :
    Sim R ((Except.error e : Res γ) >>= f) y := by
  intro a h; cases h

theorem Sim.bind {R : α → β → Prop} {S : γ → δ → Prop} {x : Res α} {y : Res β} {f : α → Res γ}
    {g : β → Res δ} (h : Sim R x y) (hf : ∀ a b, R a b → Sim S (f a) (g b)) :
    Sim S (x >>= f) (y >>= g) := by
  intro c e
  cases hx : x with
  | error e' => rw [hx] at e; cases e
  | ok a =>
    obtain ⟨b, hy, hr⟩ := h a hx
    rw [hx] at e
    obtain ⟨d, hd, hs⟩ := hf a b hr c e
    exact ⟨d, by rw [hy]; exact hd, hs⟩

/-- The same step of both, whatever it is. -/
theorem Sim.bindEq {S : γ → δ → Prop} {x : Res α} {f : α → Res γ} {g : α → Res δ}
    (hf : ∀ a, Sim S (f a) (g a)) : Sim S (x >>= f) (x >>= g) := by
  cases x with
  | error e => exact Sim.error_bind
  | ok a => exact hf a

/-- A step that only the slot-level run makes. -/
theorem Sim.right {S : γ → δ → Prop} {x : Res γ} {y : Res β} {b : β} {g : β → Res δ} (hy : y = .ok b)
    (h : Sim S x (g b)) : Sim S x (y >>= g) := by
  rw [hy]; exact h

theorem Sim.mono {R R' : α → β → Prop} {x : Res α} {y : Res β} (h : Sim R x y)
    (hr : ∀ a b, R a b → R' a b) : Sim R' x y := by
  intro a e
  obtain ⟨b, h1, h2⟩ := h a e
  exact ⟨b, h1, hr _ _ h2⟩

theorem Sim.ite {R : α → β → Prop} {c c' : Prop} [Decidable c] [Decidable c'] {x x' : Res α}
    {y y' : Res β} (hc : c ↔ c') (h1 : c → Sim R x y) (h2 : ¬ c → Sim R x' y') :
    Sim R (if c then x else x') (if c' then y else y') := by
  by_cases h : c
  · rw [if_pos h, if_pos (hc.1 h)]; exact h1 h
  · rw [if_neg h, if_neg (fun h' => h (hc.2 h'))]; exact h2 h

theorem Sim.eq {x y : Res α} (h : Sim (· = ·) x y) {a : α} (e : x = .ok a) : y = .ok a := by
  obtain ⟨b, h1, rfl⟩ := h a e; exact h1

/-- Componentwise relation of pairs. -/
def PairR (R : α → β → Prop) (S : γ → δ → Prop) (p : α × γ) (q : β × δ) : Prop :=
  R p.1 q.1 ∧ S p.2 q.2

theorem readAt_sim {l : List α} {N i : Nat} :
    Sim (· = ·) (readAt l i) ((pad N l).read i) := by
  intro a e
  unfold readAt at e
  split at e
  · rename_i x hx
    cases e
    obtain ⟨hi, rfl⟩ := List.getElem?_eq_some_iff.1 hx
    exact ⟨_, read_pad hi, rfl⟩
  · cases e

/-- The list-level leaf `l` is stored in the arrays of `n`. -/
structure LeafRep {K V : Type} (l : Leaf K V) (n : LeafS K V) : Prop where
  holds : n.Holds l.data
  prev : n.prev = l.prev
  next : n.next = l.next

/-- The list-level inner node `m` is stored in the arrays of `n`. -/
structure InnerRep {K A : Type} (m : Inner K A) (n : InnerS K A) : Prop where
  holds : n.Holds m.keys m.childs m.augs

variable {K V A : Type}

section Leaf
variable {l r : Leaf K V} {n m : LeafS K V}

theorem LeafRep.new : LeafRep (Leaf.empty : Leaf K V) LeafS.new := ⟨LeafS.new_holds, rfl, rfl⟩

theorem LeafRep.size (h : LeafRep l n) : n.size = l.len := h.holds.size

theorem LeafRep.setPrev (h : LeafRep l n) (p : Option Nat) :
    LeafRep (l.setPrev p) { n with prev := p } :=
  ⟨⟨h.holds.size, h.holds.cap, h.holds.ks, h.holds.vs⟩, rfl, h.next⟩

theorem LeafRep.keys (h : LeafRep l n) : n.keys = .ok l.keys := h.holds.keys
theorem LeafRep.values (h : LeafRep l n) : n.values = .ok l.values := h.holds.values

theorem LeafRep.leafAug [Augmentation K V A] (h : LeafRep l n) :
    (Raw.leafAug n : Res A) = .ok (Bpt.leafAug l) := by
  unfold Raw.leafAug
  rw [h.keys, ok_bind, h.values, ok_bind]
  rfl

theorem dataAt_sim (h : LeafRep l n) (i : Nat) : Sim (· = ·) (l.dataAt i) (n.dataAt i) := by
  intro a e
  unfold Leaf.dataAt readAt at e
  split at e
  · rename_i x hx
    cases e
    obtain ⟨hi, rfl⟩ := List.getElem?_eq_some_iff.1 hx
    exact ⟨_, h.holds.dataAt hi, rfl⟩
  · cases e

theorem LeafRep.locateSlot [LinearOrder K] (h : LeafRep l n) (k : K) :
    n.locateSlot k = .ok (l.locateSlot k) := by
  unfold LeafS.locateSlot
  rw [h.keys]
  rfl

theorem LeafRep.ks_read (h : LeafRep l n) {i : Nat} (hi : i < l.data.length) :
    n.ks.read i = .ok l.data[i].1 := by
  rw [h.holds.ks, read_pad (by simpa using hi)]; simp

theorem LeafRep.vs_read (h : LeafRep l n) {i : Nat} (hi : i < l.data.length) :
    n.vs.read i = .ok l.data[i].2 := by
  rw [h.holds.vs, read_pad (by simpa using hi)]; simp

theorem leaf_dataAt_ok {i : Nat} {kv : K × V} (e : l.dataAt i = .ok kv) :
    ∃ hi : i < l.data.length, kv = l.data[i] := by
  unfold Leaf.dataAt readAt at e
  split at e
  · rename_i x hx
    cases e
    obtain ⟨hi, rfl⟩ := List.getElem?_eq_some_iff.1 hx
    exact ⟨hi, rfl⟩
  · cases e

theorem locateSlotWithValue_sim [LinearOrder K] (h : LeafRep l n) (k : K) :
    Sim (· = ·) (l.locateSlotWithValue k) (Raw.locateSlotWithValue n k) := by
  unfold Leaf.locateSlotWithValue Raw.locateSlotWithValue
  rw [h.locateSlot, ok_bind]
  cases hl : l.locateSlot k with
  | found i =>
    simp only []
    intro a e
    cases hd : l.dataAt i with
    | error _ => rw [hd] at e; cases e
    | ok kv =>
      rw [hd] at e
      obtain ⟨hi, rfl⟩ := leaf_dataAt_ok hd
      rw [h.vs_read hi]
      cases e
      exact ⟨_, rfl, rfl⟩
  | vacant i => exact Sim.pure rfl

theorem inRange_sim [LinearOrder K] (h : LeafRep l n) (k : K) :
    Sim (· = ·) (l.inRange k) (n.inRange k) := by
  unfold Leaf.inRange LeafS.inRange
  rw [h.prev, h.next]
  have hs := h.size
  refine Sim.bind (R := (· = ·)) ?_ ?_
  · cases l.prev with
    | none => exact Sim.pure rfl
    | some p =>
      intro a e
      cases hd : l.dataAt 0 with
      | error _ => simp only [hd] at e; cases e
      | ok kv =>
        simp only [hd] at e
        obtain ⟨hi, rfl⟩ := leaf_dataAt_ok hd
        simp only [h.ks_read hi]
        cases e
        exact ⟨_, rfl, rfl⟩
  · rintro a _ rfl
    refine Sim.ite Iff.rfl (fun _ => Sim.pure rfl) (fun _ => ?_)
    refine Sim.bind (R := (· = ·)) ?_ (by rintro a _ rfl; exact Sim.pure rfl)
    cases l.next with
    | none => exact Sim.pure rfl
    | some p =>
      simp only [hs]
      refine Sim.ite Iff.rfl (fun _ => Sim.error_bind) (fun _ => ?_)
      intro a e
      cases hd : l.dataAt (l.len - 1) with
      | error _ => simp only [hd] at e; cases e
      | ok kv =>
        simp only [hd] at e
        obtain ⟨hi, rfl⟩ := leaf_dataAt_ok hd
        simp only [h.ks_read hi]
        cases e
        exact ⟨_, rfl, rfl⟩

theorem sliceInsert_ok {l : List α} {i : Nat} {x : α} {l' : List α} (e : sliceInsert l i x = .ok l') :
    i ≤ l.length ∧ l' = l.take i ++ x :: l.drop i := by
  unfold sliceInsert at e
  split at e
  · cases e; exact ⟨‹_›, rfl⟩
  · cases e

theorem sliceRemove_ok {l : List α} {i : Nat} {x : α} {l' : List α} (e : sliceRemove l i = .ok (x, l')) :
    ∃ hi : i < l.length, x = l[i] ∧ l' = l.eraseIdx i := by
  unfold sliceRemove at e
  split at e
  · rename_i y hy
    cases e
    obtain ⟨hi, rfl⟩ := List.getElem?_eq_some_iff.1 hy
    exact ⟨hi, rfl, (List.eraseIdx_eq_take_drop_succ _ _).symm⟩
  · cases e

theorem tryUpsert_sim [LinearOrder K] (h : LeafRep l n) (k : K) (v : V) :
    Sim (PairR LeafRep (· = ·)) (l.tryUpsert k v) (n.tryUpsert k v) := by
  unfold Leaf.tryUpsert LeafS.tryUpsert
  rw [h.locateSlot, ok_bind]
  cases hl : l.locateSlot k with
  | found i =>
    simp only []
    intro a e
    cases hd : l.dataAt i with
    | error _ => rw [hd] at e; cases e
    | ok kv =>
      rw [hd] at e
      obtain ⟨hi, rfl⟩ := leaf_dataAt_ok hd
      rw [h.vs_read hi, ok_bind, h.holds.vs, write_pad (by simpa using hi), ok_bind]
      cases e
      refine ⟨_, rfl, ⟨⟨?_, ?_, ?_, ?_⟩, h.prev, h.next⟩, rfl⟩
      · simpa using h.holds.size
      · simpa using h.holds.cap
      · rw [h.holds.ks]
        congr 1
        rw [List.map_set]
        exact (List.set_getElem_self (as := l.data.map (·.1)) (i := i) (by simpa using hi) ▸ by simp)
      · simp
  | vacant i =>
    simp only []
    refine Sim.ite ?_ ?_ (fun _ => Sim.pure ⟨h, rfl⟩)
    · rw [h.size]; simp [Leaf.isFull]
    · intro hf a e
      have hf : l.data.length ≠ 64 := by simpa [Leaf.isFull, Leaf.len] using hf
      have hc := h.holds.cap
      cases hd : sliceInsert l.data i (k, v) with
      | error _ => rw [hd] at e; cases e
      | ok d =>
        rw [hd] at e
        obtain ⟨hi, rfl⟩ := sliceInsert_ok hd
        rw [h.holds.ks, h.holds.vs, h.holds.size,
          insert_pad (by simp) (by simpa using hi) (by rw [List.length_map]; omega), ok_bind,
          insert_pad (by simp) (by simpa using hi) (by rw [List.length_map]; omega), ok_bind]
        cases e
        refine ⟨_, rfl, ⟨⟨?_, ?_, ?_, ?_⟩, h.prev, h.next⟩, rfl⟩
        · simp only [List.length_append, List.length_cons, List.length_take, List.length_drop]; omega
        · simp only [List.length_append, List.length_cons, List.length_take, List.length_drop]; omega
        · simp
        · simp

theorem splitNewLeaf_sim (h : LeafRep l n) (i : Nat) (item : K × V) (a b : Nat) :
    Sim (PairR LeafRep LeafRep) (l.splitNewLeaf i item a b) (n.splitNewLeaf i item a b) := by
  intro r e
  unfold Leaf.splitNewLeaf at e
  split at e
  · cases e
  · rename_i hlen
    have hf : l.data.length = 64 := by simpa [Leaf.len] using hlen
    simp only [] at e
    split at e
    · rename_i hlt
      cases hd : sliceInsert (l.data.take splitOrigin) i item with
      | error _ => rw [hd] at e; cases e
      | ok d =>
        rw [hd] at e
        obtain ⟨hi, rfl⟩ := sliceInsert_ok hd
        have hlt : i < 32 := hlt
        obtain ⟨n', m, ys, zs, h1, h2, h3, h4, h5, h6, h7, h8, h9⟩ :=
          LeafS.C35_leaf_split h.holds hf (i := i) (by omega) item a b
        have hc := List.append_inj (h4.trans (InnerS.cut_low (l := l.data) (m := 32) (by omega) item).symm)
          (by rw [h5, if_pos hlt]; simp only [List.length_append, List.length_cons, List.length_take,
                List.length_drop]; omega)
        cases e
        refine ⟨_, h1, ⟨?_, ?_, h7⟩, ⟨?_, h8, ?_⟩⟩
        · rw [hc.1] at h2; exact h2
        · rw [h6, h.prev]
        · rw [hc.2] at h3; exact h3
        · rw [h9, h.next]
    · rename_i hlt
      cases hd : sliceInsert (l.data.drop splitOrigin) (i - splitOrigin) item with
      | error _ => rw [hd] at e; cases e
      | ok d =>
        rw [hd] at e
        obtain ⟨hi, rfl⟩ := sliceInsert_ok hd
        have hlt : ¬ i < 32 := hlt
        have hi : i - 32 ≤ (l.data.drop 32).length := hi
        rw [List.length_drop] at hi
        obtain ⟨n', m, ys, zs, h1, h2, h3, h4, h5, h6, h7, h8, h9⟩ :=
          LeafS.C35_leaf_split h.holds hf (i := i) (by omega) item a b
        have hcut := InnerS.cut_high (l := l.data) (m := 32) (j := i - 32) item
        rw [show 32 + (i - 32) = i by omega] at hcut
        have hc := List.append_inj (h4.trans hcut.symm)
          (by rw [h5, if_neg hlt, List.length_take]; omega)
        cases e
        refine ⟨_, h1, ⟨?_, ?_, h7⟩, ⟨?_, h8, ?_⟩⟩
        · rw [hc.1] at h2; exact h2
        · rw [h6, h.prev]
        · rw [hc.2] at h3; exact h3
        · rw [h9, h.next]

theorem deleteAt_sim (h : LeafRep l n) (i : Nat) :
    Sim (PairR (· = ·) LeafRep) (l.deleteAt i) (n.deleteAt i) := by
  intro r e
  unfold Leaf.deleteAt at e
  cases hd : sliceRemove l.data i with
  | error _ => rw [hd] at e; cases e
  | ok d =>
    rw [hd] at e
    obtain ⟨kv, d⟩ := d
    obtain ⟨hi, rfl, rfl⟩ := sliceRemove_ok hd
    obtain ⟨n', h1, h2, h3, h4⟩ := (LeafS.C35_leaf_delete h.holds hi).1
    cases e
    exact ⟨_, h1, rfl, h2, h3.trans h.prev, h4.trans h.next⟩

theorem tryDeleteAt_sim (h : LeafRep l n) (i : Nat) :
    Sim (PairR LeafRep (· = ·)) (l.tryDeleteAt i) (n.tryDeleteAt i) := by
  intro r e
  unfold Leaf.tryDeleteAt at e
  split at e
  · rename_i hl
    cases hd : sliceRemove l.data i with
    | error _ => rw [hd] at e; cases e
    | ok d =>
      rw [hd] at e
      obtain ⟨kv, d⟩ := d
      obtain ⟨hi, rfl, rfl⟩ := sliceRemove_ok hd
      obtain ⟨n', h1, h2, h3, h4⟩ := (LeafS.C35_leaf_delete h.holds hi).2.1
        (of_decide_eq_true hl)
      cases e
      exact ⟨_, h1, ⟨h2, h3.trans h.prev, h4.trans h.next⟩, rfl⟩
  · rename_i hl
    cases e
    have hl : ¬ minN < n.size := by
      rw [h.size]; exact fun hc => hl (decide_eq_true hc)
    have e : n.tryDeleteAt i = .ok (n, .underSize i) := by
      unfold LeafS.tryDeleteAt
      rw [if_neg hl]; rfl
    exact ⟨_, e, h, rfl⟩

theorem leaf_pop_sim (h : LeafRep l n) : Sim (PairR (· = ·) LeafRep) l.pop n.pop := by
  intro r e
  unfold Leaf.pop at e
  split at e
  · cases e
  · rename_i hl
    have hl : l.ableToLend = true := by simpa using hl
    have hl : 16 < l.data.length := of_decide_eq_true hl
    cases hd : sliceRemove l.data (l.len - 1) with
    | error _ => rw [hd] at e; cases e
    | ok d =>
      rw [hd] at e
      obtain ⟨kv, d⟩ := d
      obtain ⟨hi, rfl, rfl⟩ := sliceRemove_ok hd
      obtain ⟨n', h1, h2, h3, h4⟩ := (LeafS.C35_leaf_pop h.holds hl).1
      cases e
      refine ⟨_, h1, rfl, ?_, h3.trans h.prev, h4.trans h.next⟩
      show n'.Holds (l.data.eraseIdx (l.data.length - 1))
      rw [List.eraseIdx_length_sub_one]; exact h2

theorem leaf_popFront_sim (h : LeafRep l n) : Sim (PairR (· = ·) LeafRep) l.popFront n.popFront := by
  intro r e
  unfold Leaf.popFront at e
  split at e
  · cases e
  · rename_i hl
    have hl : l.ableToLend = true := by simpa using hl
    have hl : 16 < l.data.length := of_decide_eq_true hl
    cases hd : sliceRemove l.data 0 with
    | error _ => rw [hd] at e; cases e
    | ok d =>
      rw [hd] at e
      obtain ⟨kv, d⟩ := d
      obtain ⟨hi, rfl, rfl⟩ := sliceRemove_ok hd
      obtain ⟨n', h1, h2, h3, h4⟩ := (LeafS.C35_leaf_pop h.holds hl).2
      cases e
      refine ⟨_, h1, rfl, ?_, h3.trans h.prev, h4.trans h.next⟩
      show n'.Holds (l.data.eraseIdx 0)
      rw [List.eraseIdx_zero]; exact h2

theorem deleteWithPush_sim (h : LeafRep l n) (i : Nat) (item : K × V) :
    Sim (PairR (· = ·) LeafRep) (l.deleteWithPush i item) (n.deleteWithPush i item) := by
  intro r e
  unfold Leaf.deleteWithPush at e
  cases hd : sliceRemove l.data i with
  | error _ => rw [hd] at e; cases e
  | ok d =>
    rw [hd] at e
    obtain ⟨kv, d⟩ := d
    obtain ⟨hi, rfl, rfl⟩ := sliceRemove_ok hd
    obtain ⟨n', h1, h2, h3, h4⟩ := LeafS.C35_leaf_delete_with_push h.holds hi item
    cases e
    exact ⟨_, h1, rfl, h2, h3.trans h.prev, h4.trans h.next⟩

theorem deleteWithPushFront_sim (h : LeafRep l n) (i : Nat) (item : K × V) :
    Sim (PairR (· = ·) LeafRep) (l.deleteWithPushFront i item) (n.deleteWithPushFront i item) := by
  intro r e
  unfold Leaf.deleteWithPushFront at e
  split at e
  · cases e
  · cases hd : readAt l.data i with
    | error _ => rw [hd] at e; cases e
    | ok kv =>
      rw [hd] at e
      obtain ⟨hi, rfl⟩ := leaf_dataAt_ok (l := l) hd
      obtain ⟨n', h1, h2, h3, h4⟩ := LeafS.C35_leaf_delete_with_push_front h.holds hi item
      cases e
      refine ⟨_, h1, rfl, ?_, h3.trans h.prev, h4.trans h.next⟩
      rw [List.eraseIdx_eq_take_drop_succ] at h2; exact h2

theorem extend_ok {l l' : Leaf K V} {xs : List (K × V)} (e : l.extend xs = .ok l') :
    l.data.length + xs.length ≤ 64 ∧ l' = { l with data := l.data ++ xs } := by
  unfold Leaf.extend at e
  split at e
  · cases e; exact ⟨‹_›, rfl⟩
  · cases e

theorem mergeRight_sim (h : LeafRep l n) (hm : LeafRep r m) :
    Sim (fun a b => LeafRep a b.1) (l.mergeRight r) (n.mergeRight m) := by
  intro a e
  unfold Leaf.mergeRight at e
  cases hd : l.extend r.data with
  | error _ => rw [hd] at e; cases e
  | ok l' =>
    rw [hd] at e
    obtain ⟨hc, rfl⟩ := extend_ok hd
    obtain ⟨n', m', h1, h2, _, h3, h4⟩ := LeafS.C35_leaf_merge_right h.holds hm.holds hc
    cases e
    exact ⟨_, h1, h2, h3.trans h.prev, h4.trans hm.next⟩

theorem mergeRightDeleteFirst_sim (h : LeafRep l n) (hm : LeafRep r m) (i : Nat) :
    Sim (fun a b => a.1 = b.1 ∧ LeafRep a.2 b.2.1) (l.mergeRightDeleteFirst i r)
      (n.mergeRightDeleteFirst i m) := by
  intro a e
  unfold Leaf.mergeRightDeleteFirst at e
  cases h0 : readAt r.data i with
  | error _ => rw [h0] at e; cases e
  | ok kv =>
    rw [h0, ok_bind] at e
    obtain ⟨hi, rfl⟩ := leaf_dataAt_ok (l := r) h0
    cases hd : l.extend (r.data.take i) with
    | error _ => rw [hd] at e; cases e
    | ok l' =>
      rw [hd, ok_bind] at e
      obtain ⟨hc, rfl⟩ := extend_ok hd
      cases hd2 : Leaf.extend { l with data := l.data ++ r.data.take i } (r.data.drop (i + 1)) with
      | error _ => rw [hd2] at e; cases e
      | ok l' =>
        rw [hd2, ok_bind] at e
        obtain ⟨hc2, rfl⟩ := extend_ok hd2
        simp only [List.length_append, List.length_take, List.length_drop] at hc hc2
        obtain ⟨n', m', h1, h2, _, h3, h4⟩ :=
          LeafS.C35_leaf_merge_right_delete h.holds hm.holds hi (by omega)
        cases e
        refine ⟨_, h1, rfl, ?_, h3.trans h.prev, h4.trans hm.next⟩
        rw [List.eraseIdx_eq_take_drop_succ] at h2
        simpa using h2

end Leaf

section Inner
variable {m m' : Inner K A} {n n' : InnerS K A}

theorem InnerRep.size (h : InnerRep m n) : n.size = m.len := h.holds.size

theorem InnerRep.innerAug [Augmentation K V A] (h : InnerRep m n) :
    Raw.innerAug V n = .ok (Bpt.innerAug V m) := by
  unfold Raw.innerAug
  rw [h.holds.keys, ok_bind, (InnerS.C35_inner_read h.holds).2.1, ok_bind]
  rfl

theorem childId_sim (h : InnerRep m n) (i : Nat) : Sim (· = ·) (m.childId i) (n.childId i) := by
  unfold Inner.childId InnerS.childId
  rw [h.holds.hcs]
  exact readAt_sim

theorem locateChild_sim [LinearOrder K] (h : InnerRep m n) (k : K) :
    Sim (· = ·) (m.locateChild k) (n.locateChild k) := by
  unfold Inner.locateChild InnerS.locateChild
  rw [h.holds.keys, ok_bind]
  cases bsearch m.keys k with
  | found i => exact Sim.bind (childId_sim h _) (by rintro a _ rfl; exact Sim.pure rfl)
  | vacant i => exact Sim.bind (childId_sim h _) (by rintro a _ rfl; exact Sim.pure rfl)

theorem setAugmentation_sim (h : InnerRep m n) (i : Nat) (a : A) :
    Sim InnerRep (m.setAugmentation i a) (n.setAugmentation i a) := by
  intro r e
  unfold Inner.setAugmentation at e
  split at e
  · rename_i hi
    cases e
    obtain ⟨n', h1, h2⟩ := (InnerS.C35_inner_set h.holds).1 i hi a
    exact ⟨_, h1, ⟨h2⟩⟩
  · cases e

theorem setKey_sim (h : InnerRep m n) (i : Nat) (k : K) :
    Sim (PairR (· = ·) InnerRep) (m.setKey i k) (n.setKey i k) := by
  intro r e
  unfold Inner.setKey at e
  cases hd : readAt m.keys i with
  | error _ => rw [hd] at e; cases e
  | ok x =>
    rw [hd] at e
    unfold readAt at hd
    split at hd
    · rename_i y hy
      cases hd
      obtain ⟨hi, rfl⟩ := List.getElem?_eq_some_iff.1 hy
      obtain ⟨n', h1, h2⟩ := (InnerS.C35_inner_set h.holds).2 i hi k
      cases e
      exact ⟨_, h1, rfl, ⟨h2⟩⟩
    · cases hd

theorem newFromIter_sim {ks : List K} {cs : List NodeId} {as : List A} (ha : as.length = cs.length) :
    Sim InnerRep (Inner.newFromIter ks cs as) (InnerS.newFromIter ks cs as) := by
  intro r e
  unfold Inner.newFromIter at e
  split at e
  · rename_i hc
    split at e
    · rename_i he
      cases e
      obtain ⟨n, h1, h2⟩ := InnerS.C35_inner_new (ks := ks) (cs := cs) (as := as) hc.1 he.symm
        (ha.trans he.symm)
      exact ⟨_, h1, ⟨h2⟩⟩
    · cases e
  · cases e

theorem insertAt_sim (h : InnerRep m n) (slot : Nat) (k : K) (c : NodeId) (a : A) :
    Sim InnerRep (m.insertAt slot k c a) (n.insertAt slot k c a) := by
  intro r e
  unfold Inner.insertAt at e
  split at e
  · cases e
  · rename_i hc
    have hcap := h.holds.cap
    have hc : slot ≤ m.keys.length ∧ m.keys.length ≠ 64 := by
      simpa [Inner.isFull, Inner.len] using hc
    obtain ⟨n', h1, h2⟩ := InnerS.C35_inner_insert h.holds hc.1 (by omega) k c a
    have hcl := h.holds.clen
    have hal := h.holds.alen
    unfold sliceInsert at e
    rw [if_pos hc.1, if_pos (by omega), if_pos (by omega)] at e
    cases e
    exact ⟨_, h1, ⟨h2⟩⟩

theorem removeSlot_sim (h : InnerRep m n) (slot : Nat) :
    Sim (PairR (· = ·) (PairR (· = ·) InnerRep)) (m.removeSlotWithRight slot)
      (n.removeSlotWithRight slot) := by
  intro r e
  unfold Inner.removeSlotWithRight at e
  cases hd : sliceRemove m.keys slot with
  | error _ => rw [hd] at e; cases e
  | ok d =>
    rw [hd, ok_bind] at e
    obtain ⟨k, ks⟩ := d
    obtain ⟨hi, rfl, rfl⟩ := sliceRemove_ok hd
    have hcl := h.holds.clen
    have hal := h.holds.alen
    simp only [] at e
    obtain ⟨n', h1, h2⟩ := InnerS.C35_inner_remove_slot h.holds hi
    cases hd1 : sliceRemove m.childs (slot + 1) with
    | error _ => rw [hd1] at e; cases e
    | ok d1 =>
      rw [hd1, ok_bind] at e
      obtain ⟨c, cs⟩ := d1
      obtain ⟨hi1, rfl, rfl⟩ := sliceRemove_ok hd1
      simp only [] at e
      cases hd2 : sliceRemove m.augs (slot + 1) with
      | error _ => rw [hd2] at e; cases e
      | ok d2 =>
        rw [hd2, ok_bind] at e
        obtain ⟨c, cs⟩ := d2
        obtain ⟨hi2, rfl, rfl⟩ := sliceRemove_ok hd2
        cases e
        refine ⟨_, h1, ?_, rfl, ⟨h2⟩⟩
        simp only [List.length_eraseIdx_of_lt hi]

theorem mergeNext_sim (h : InnerRep m n) (h' : InnerRep m' n') (k : K) :
    Sim (fun a b => InnerRep a b.1) (m.mergeNext k m') (n.mergeNext k n') := by
  intro r e
  unfold Inner.mergeNext at e
  split at e
  · cases e
  · split at e
    · cases e
    · rename_i hc
      have hc : m.keys.length + 1 + m'.keys.length ≤ 64 := by simpa [Inner.len] using hc
      cases e
      obtain ⟨x, h1, h2⟩ := InnerS.merge_next_ok h.holds h'.holds hc k
      exact ⟨_, h1, ⟨h2⟩⟩

theorem readAt_ok {l : List α} {i : Nat} {x : α} (e : readAt l i = .ok x) :
    ∃ hi : i < l.length, x = l[i] := by
  unfold readAt at e
  split at e
  · rename_i y hy
    cases e
    obtain ⟨hi, rfl⟩ := List.getElem?_eq_some_iff.1 hy
    exact ⟨hi, rfl⟩
  · cases e

theorem inner_pop_sim (h : InnerRep m n) : Sim (PairR (· = ·) InnerRep) m.pop n.pop := by
  intro r e
  unfold Inner.pop at e
  split at e
  · cases e
  · rename_i h0
    have h0 : m.keys.length ≠ 0 := h0
    have hcl := h.holds.clen
    have hal := h.holds.alen
    obtain ⟨n', h1, h2⟩ := (InnerS.C35_inner_pop h.holds (by omega)).1
    cases hk : readAt m.keys (m.len - 1) with
    | error _ => rw [hk] at e; cases e
    | ok k =>
      obtain ⟨_, rfl⟩ := readAt_ok hk
      rw [hk, ok_bind] at e
      cases hc : readAt m.childs m.len with
      | error _ => rw [hc] at e; cases e
      | ok c =>
        obtain ⟨_, rfl⟩ := readAt_ok hc
        rw [hc, ok_bind] at e
        cases ha : readAt m.augs m.len with
        | error _ => rw [ha] at e; cases e
        | ok a =>
          obtain ⟨_, rfl⟩ := readAt_ok ha
          rw [ha, ok_bind] at e
          cases e
          refine ⟨_, h1, rfl, ⟨?_⟩⟩
          rw [List.dropLast_eq_take, List.dropLast_eq_take, List.dropLast_eq_take, hcl, hal] at h2
          exact h2

theorem inner_popFront_sim (h : InnerRep m n) :
    Sim (PairR (· = ·) InnerRep) m.popFront n.popFront := by
  intro r e
  unfold Inner.popFront at e
  cases hk : sliceRemove m.keys 0 with
  | error _ => rw [hk] at e; cases e
  | ok d =>
    rw [hk, ok_bind] at e
    obtain ⟨k, ks⟩ := d
    obtain ⟨hi, rfl, rfl⟩ := sliceRemove_ok hk
    obtain ⟨n', h1, h2⟩ := (InnerS.C35_inner_pop h.holds hi).2
    simp only [] at e
    cases hc : sliceRemove m.childs 0 with
    | error _ => rw [hc] at e; cases e
    | ok d =>
      rw [hc, ok_bind] at e
      obtain ⟨k, ks⟩ := d
      obtain ⟨_, rfl, rfl⟩ := sliceRemove_ok hc
      simp only [] at e
      cases ha : sliceRemove m.augs 0 with
      | error _ => rw [ha] at e; cases e
      | ok d =>
        rw [ha, ok_bind] at e
        obtain ⟨k, ks⟩ := d
        obtain ⟨_, rfl, rfl⟩ := sliceRemove_ok ha
        cases e
        refine ⟨_, h1, rfl, ⟨?_⟩⟩
        simp only [List.eraseIdx_zero]
        exact h2

theorem inner_push_sim (h : InnerRep m n) (k : K) (c : NodeId) (a : A) :
    Sim InnerRep (m.push k c a) (n.push k c a) := by
  intro r e
  unfold Inner.push at e
  split at e
  · rename_i hk
    cases e
    obtain ⟨n', h1, h2⟩ := (InnerS.C35_inner_push h.holds hk k c a).1
    exact ⟨_, h1, ⟨h2⟩⟩
  · cases e

theorem inner_pushFront_sim (h : InnerRep m n) (k : K) (c : NodeId) (a : A) :
    Sim InnerRep (m.pushFront k c a) (n.pushFront k c a) := by
  intro r e
  unfold Inner.pushFront at e
  split at e
  · rename_i hk
    cases e
    obtain ⟨n', h1, h2⟩ := (InnerS.C35_inner_push h.holds hk k c a).2
    exact ⟨_, h1, ⟨h2⟩⟩
  · cases e

theorem split_sim (h : InnerRep m n) (i : Nat) (k : K) (c : NodeId) (a : A) :
    Sim (PairR (· = ·) (PairR InnerRep InnerRep)) (m.split i k c a) (n.split i k c a) := by
  intro r e
  unfold Inner.split at e
  split at e
  · cases e
  rename_i hfull
  have hf : m.keys.length = 64 := by simpa [Inner.isFull, Inner.len] using hfull
  have hcl := h.holds.clen
  have hal := h.holds.alen
  split at e
  · cases e
  rename_i hle
  have hi : i ≤ 64 := Nat.not_lt.1 hle
  obtain ⟨up, n1, n2, ks1, cs1, as1, ks2, cs2, as2, h1, h2, h3, l1, l2, e1, e2, e3⟩ :=
    InnerS.C35_inner_split h.holds hf hi k c a
  -- it is enough that the list-level halves have the right lengths and the right concatenation
  have fin : ∀ (up' : K) (a1 a2 : Inner K A), r = (up', a1, a2) → a1.keys.length = 32 →
      a1.childs.length = 33 → a1.augs.length = 33 →
      a1.keys ++ up' :: a2.keys = m.keys.take i ++ k :: m.keys.drop i →
      a1.childs ++ a2.childs = m.childs.take (i + 1) ++ c :: m.childs.drop (i + 1) →
      a1.augs ++ a2.augs = m.augs.take (i + 1) ++ a :: m.augs.drop (i + 1) →
      ∃ b, n.split i k c a = .ok b ∧ PairR (· = ·) (PairR InnerRep InnerRep) r b := by
    rintro up' ⟨ka, ca, aa⟩ ⟨kb, cb, ab⟩ rfl g1 g2 g3 g4 g5 g6
    obtain ⟨q1, q2⟩ := List.append_inj (g4.trans e1.symm) (g1.trans l1.symm)
    have lc : cs1.length = 33 := by rw [h2.clen, l1]
    have la : as1.length = 33 := by rw [h2.alen, l1]
    obtain ⟨q3, q4⟩ := List.append_inj (g5.trans e2.symm) (g2.trans lc.symm)
    obtain ⟨q5, q6⟩ := List.append_inj (g6.trans e3.symm) (g3.trans la.symm)
    simp only at q1 q2 q3 q4 q5 q6
    subst q1 q3 q4 q5 q6
    cases q2
    exact ⟨_, h1, rfl, ⟨h2⟩, ⟨h3⟩⟩
  split at e
  · rename_i hlt
    have hlt : i < 32 := hlt
    have hr : readAt m.keys (splitOrigin - 1) = .ok (m.keys[31]'(by omega)) := by
      unfold readAt
      rw [show splitOrigin - 1 = 31 from rfl, List.getElem?_eq_getElem (by omega)]
    have s1 : sliceInsert (m.keys.take (splitOrigin - 1)) i k =
        .ok ((m.keys.take 31).take i ++ k :: (m.keys.take 31).drop i) := by
      unfold sliceInsert
      rw [if_pos (by rw [List.length_take]; show i ≤ min 31 _; omega)]
      rfl
    have s2 : sliceInsert (m.childs.take splitOrigin) (i + 1) c =
        .ok ((m.childs.take 32).take (i + 1) ++ c :: (m.childs.take 32).drop (i + 1)) := by
      unfold sliceInsert
      rw [if_pos (by rw [List.length_take]; show i + 1 ≤ min 32 _; omega)]
    have s3 : sliceInsert (m.augs.take splitOrigin) (i + 1) a =
        .ok ((m.augs.take 32).take (i + 1) ++ a :: (m.augs.take 32).drop (i + 1)) := by
      unfold sliceInsert
      rw [if_pos (by rw [List.length_take]; show i + 1 ≤ min 32 _; omega)]
    rw [hr, ok_bind, s1, ok_bind, s2, ok_bind, s3, ok_bind] at e
    cases e
    refine fin _ _ _ rfl ?_ ?_ ?_ ?_ ?_ ?_
    · simp only [List.length_append, List.length_cons, List.length_take, List.length_drop]; omega
    · simp only [List.length_append, List.length_cons, List.length_take, List.length_drop]; omega
    · simp only [List.length_append, List.length_cons, List.length_take, List.length_drop]; omega
    · show _ ++ _ :: m.keys.drop (31 + 1) = _
      rw [List.getElem_cons_drop, InnerS.cut_low (by omega)]
    · exact InnerS.cut_low (by omega) _
    · exact InnerS.cut_low (by omega) _
  · rename_i hlt
    have hlt : ¬ i < 32 := hlt
    split at e
    · rename_i hgt
      have hgt : 32 < i := hgt
      have hr : readAt m.keys splitOrigin = .ok (m.keys[32]'(by omega)) := by
        unfold readAt
        rw [show splitOrigin = 32 from rfl, List.getElem?_eq_getElem (by omega)]
      rw [hr, ok_bind] at e
      cases e
      refine fin _ _ _ rfl ?_ ?_ ?_ ?_ ?_ ?_
      · rw [List.length_take]; show min 32 _ = _; omega
      · rw [List.length_take]; show min 33 _ = _; omega
      · rw [List.length_take]; show min 33 _ = _; omega
      · have := InnerS.cut_high (l := m.keys) (m := 33) (j := i - 1 - 32) k
        rw [show 33 + (i - 1 - 32) = i by omega] at this
        have t : m.keys.take 33 = m.keys.take 32 ++ [m.keys[32]'(by omega)] := by
          rw [show (33 : Nat) = 32 + 1 from rfl, List.take_add_one,
            List.getElem?_eq_getElem (by omega)]
          rfl
        rw [← this, t, List.append_assoc, List.drop_drop]
        show _ ++ _ :: ((m.keys.drop 33).take (i - 1 - 32) ++ k :: m.keys.drop (32 + (i - 1 - 32) + 1)) = _
        rw [show 32 + (i - 1 - 32) + 1 = 33 + (i - 1 - 32) by omega]
        rfl
      · have := InnerS.cut_high (l := m.childs) (m := 33) (j := i - 32) c
        rw [show 33 + (i - 32) = i + 1 by omega, List.drop_drop] at this
        rw [← this]
      · have := InnerS.cut_high (l := m.augs) (m := 33) (j := i - 32) a
        rw [show 33 + (i - 32) = i + 1 by omega, List.drop_drop] at this
        rw [← this]
    · rename_i hgt
      have hgt : ¬ 32 < i := hgt
      have hi32 : i = 32 := by omega
      subst hi32
      cases e
      refine fin _ _ _ rfl ?_ ?_ ?_ rfl rfl rfl
      · rw [List.length_take]; show min 32 _ = _; omega
      · rw [List.length_take]; show min 33 _ = _; omega
      · rw [List.length_take]; show min 33 _ = _; omega

end Inner
end Raw
end Bpt
