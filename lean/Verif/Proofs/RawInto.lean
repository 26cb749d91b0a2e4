import Verif.Proofs.RawBulk
import Verif.RawHistory

/-!
# Simulation of the owning iterator; what is left in the arrays when it is dropped
-/

namespace Bpt
namespace Raw
open Slots

variable {K V A : Type}

/-- The list-level leaf `l`, from which the items in the slots `taken` were moved out, is stored in
the arrays of `n`. -/
structure LeafRepX (taken : List Nat) (l : Leaf K V) (n : LeafS K V) : Prop where
  holds : n.HoldsExcept l.data taken
  prev : n.prev = l.prev
  next : n.next = l.next

/-- The slots of leaf `id` that were moved out. -/
def takenOf (taken : List (Nat × Nat)) (id : Nat) : List Nat :=
  taken.filterMap (fun p => if p.1 = id then some p.2 else none)

theorem mem_takenOf {taken : List (Nat × Nat)} {id s : Nat} : s ∈ takenOf taken id ↔ (id, s) ∈ taken := by
  unfold takenOf
  rw [List.mem_filterMap]
  constructor
  · rintro ⟨⟨a, b⟩, h1, h2⟩
    dsimp only at h2
    split at h2
    · rename_i h; cases h2; rw [← h]; exact h1
    · cases h2
  · intro h; exact ⟨_, h, by simp⟩

/-- Related states of the owning iterator. -/
structure IntoRep (a : Bpt.IntoIter K V A) (b : IntoIter K V A) : Prop where
  len : b.len = a.len
  pos : b.pos = a.pos
  end_ : b.end_ = a.end_
  length : b.store.leaves.length = a.store.leaves.length
  leaves : ∀ id : Nat, Option.Rel (Option.Rel (LeafRepX (takenOf a.taken id)))
    a.store.leaves[id]? b.store.leaves[id]?

theorem intoIter_sim {t : Bpt.Tree K V A} {u : Tree K V A} (h : TreeRep t u) :
    Sim IntoRep t.intoIter u.intoIter := by
  unfold Bpt.Tree.intoIter Tree.intoIter
  refine Sim.bind (firstLeaf_sim h) ?_
  rintro a _ rfl
  refine Sim.bind (lastLeaf_sim h) ?_
  rintro b _ rfl
  refine Sim.bind (getLeaf_sim h.store b) (fun l n hln => ?_)
  refine Sim.pure ⟨h.len, rfl, by dsimp only; rw [hln.size], h.store.leaves.length_eq.symm, ?_⟩
  intro id
  have := forall₂_get h.store.leaves id
  dsimp only
  revert this
  cases t.store.leaves[id]? <;> cases u.store.leaves[id]? <;> intro hr <;> cases hr
  · exact Option.Rel.none
  · rename_i hr
    cases hr with
    | none => exact Option.Rel.some Option.Rel.none
    | some hr => exact Option.Rel.some (Option.Rel.some ⟨hr.holds.except, hr.prev, hr.next⟩)

theorem into_getLeaf_sim {a : Bpt.IntoIter K V A} {b : IntoIter K V A} (h : IntoRep a b) (i : Nat) :
    Sim (fun l n => LeafRepX (takenOf a.taken i) l n ∧ a.store.leaves[i]? = some (some l))
      (a.store.getLeaf i) (b.store.getLeaf i) := by
  unfold Bpt.Store.getLeaf Store.getLeaf
  have := h.leaves i
  intro x e
  revert this e
  cases a.store.leaves[i]? with
  | none => intro _ e; cases e
  | some o =>
    cases o with
    | none => intro _ e; cases e
    | some n =>
      intro hr e
      cases e
      cases h' : b.store.leaves[i]? with
      | none => rw [h'] at hr; cases hr
      | some o =>
        rw [h'] at hr
        cases hr with
        | some hr => cases hr with
          | some hr => exact ⟨_, rfl, hr, rfl⟩

/-- Taking an item out of a leaf. -/
theorem into_take_sim {a : Bpt.IntoIter K V A} {b : IntoIter K V A} (h : IntoRep a b) {i s : Nat}
    {l : Leaf K V} {n : LeafS K V} (hl : LeafRepX (takenOf a.taken i) l n)
    (hi : a.store.leaves[i]? = some (some l)) {kv : K × V} {a' : Bpt.IntoIter K V A}
    (e : a.takeData i l s = .ok (kv, a')) :
    ∃ n', n.takeData s = .ok (kv, n') ∧
      a' = { a with taken := (i, s) :: a.taken } ∧
      ∀ id : Nat, Option.Rel (Option.Rel (LeafRepX (takenOf ((i, s) :: a.taken) id)))
        a.store.leaves[id]? (b.store.setLeaf i n').leaves[id]? := by
  unfold Bpt.IntoIter.takeData at e
  split at e
  · cases e
  · rename_i kv' hkv
    split at e
    · cases e
    · rename_i ht
      cases e
      obtain ⟨hs, rfl⟩ := List.getElem?_eq_some_iff.1 hkv
      obtain ⟨n', h1, h2, h3, h4⟩ := (LeafS.C35_leaf_take hl.holds hs).1
        (fun hm => ht (mem_takenOf.1 hm))
      refine ⟨n', h1, rfl, ?_⟩
      intro id
      by_cases hid : id = i
      · subst hid
        have hb : id < b.store.leaves.length := by
          rw [h.length]; exact (List.getElem?_eq_some_iff.1 hi).1
        have : (b.store.setLeaf id n').leaves[id]? = some (some n') := by
          unfold Store.setLeaf
          dsimp only
          rw [List.getElem?_set_self hb]
        rw [this, hi]
        refine Option.Rel.some (Option.Rel.some ⟨?_, h3.trans hl.prev, h4.trans hl.next⟩)
        simpa [takenOf] using h2
      · have : (b.store.setLeaf i n').leaves[id]? = b.store.leaves[id]? := by
          unfold Store.setLeaf
          dsimp only
          rw [List.getElem?_set_ne (fun h => hid h.symm)]
        rw [this]
        have e2 : takenOf ((i, s) :: a.taken) id = takenOf a.taken id := by
          unfold takenOf
          rw [List.filterMap_cons, if_neg (fun h => hid h.symm)]
        rw [e2]
        exact h.leaves id

theorem LeafRepX.size {taken : List Nat} {l : Leaf K V} {n : LeafS K V} (h : LeafRepX taken l n) :
    n.size = l.len := h.holds.size

theorem into_nextAux_sim : ∀ (fuel : Nat) {a : Bpt.IntoIter K V A} {b : IntoIter K V A}
    (_ : IntoRep a b), Sim (PairR (· = ·) IntoRep) (Bpt.IntoIter.nextAux fuel a)
      (IntoIter.nextAux fuel b) := by
  intro fuel
  induction fuel with
  | zero => intro a b h; exact Sim.error
  | succ fuel ih =>
    intro a b h
    unfold Bpt.IntoIter.nextAux IntoIter.nextAux
    refine Sim.ite (by rw [h.len]) (fun _ => Sim.pure ⟨rfl, h⟩) (fun _ => ?_)
    rw [h.pos]
    refine Sim.bind (into_getLeaf_sim h _) ?_
    rintro l n ⟨hln, hli⟩
    refine Sim.ite (by rw [hln.size]) (fun _ => ?_) (fun _ => ?_)
    · intro x e
      cases ht : a.takeData a.pos.1 l a.pos.2 with
      | error _ => rw [ht] at e; cases e
      | ok y =>
        obtain ⟨kv, a'⟩ := y
        rw [ht] at e
        obtain ⟨n', h1, h2, h3⟩ := into_take_sim h hln hli ht
        subst h2
        rw [h1]
        cases e
        refine ⟨_, rfl, rfl, ?_, rfl, h.end_, ?_, h3⟩
        · dsimp only; rw [h.len]
        · show (b.store.leaves.set _ _).length = _
          rw [List.length_set]; exact h.length
    · rw [hln.next]
      cases l.next with
      | none => exact Sim.error
      | some nx => exact ih ⟨h.len, rfl, h.end_, h.length, h.leaves⟩

theorem into_nextBackAux_sim : ∀ (fuel : Nat) {a : Bpt.IntoIter K V A} {b : IntoIter K V A}
    (_ : IntoRep a b), Sim (PairR (· = ·) IntoRep) (Bpt.IntoIter.nextBackAux fuel a)
      (IntoIter.nextBackAux fuel b) := by
  intro fuel
  induction fuel with
  | zero => intro a b h; exact Sim.error
  | succ fuel ih =>
    intro a b h
    unfold Bpt.IntoIter.nextBackAux IntoIter.nextBackAux
    refine Sim.ite (by rw [h.len]) (fun _ => Sim.pure ⟨rfl, h⟩) (fun _ => ?_)
    rw [h.end_]
    refine Sim.bind (into_getLeaf_sim h _) ?_
    rintro l n ⟨hln, hli⟩
    refine Sim.ite Iff.rfl (fun _ => ?_) (fun _ => ?_)
    · intro x e
      cases ht : a.takeData a.end_.1 l (a.end_.2 - 1) with
      | error _ => rw [ht] at e; cases e
      | ok y =>
        obtain ⟨kv, a'⟩ := y
        rw [ht] at e
        obtain ⟨n', h1, h2, h3⟩ := into_take_sim h hln hli ht
        subst h2
        rw [h1]
        cases e
        refine ⟨_, rfl, rfl, ?_, h.pos, rfl, ?_, h3⟩
        · dsimp only; rw [h.len]
        · show (b.store.leaves.set _ _).length = _
          rw [List.length_set]; exact h.length
    · rw [hln.prev]
      cases l.prev with
      | none => exact Sim.error
      | some nx =>
        refine Sim.bind (into_getLeaf_sim h _) ?_
        rintro l n ⟨hln, hli⟩
        exact ih ⟨h.len, h.pos, by dsimp only; rw [hln.size], h.length, h.leaves⟩

theorem into_call_sim {a : Bpt.IntoIter K V A} {b : IntoIter K V A} (h : IntoRep a b) (d : Dir) :
    Sim (PairR (· = ·) IntoRep) (a.call d) (b.call d) := by
  cases d with
  | front =>
    show Sim _ (Bpt.IntoIter.nextAux _ a) (IntoIter.nextAux _ b)
    rw [h.length]
    exact into_nextAux_sim _ h
  | back =>
    show Sim _ (Bpt.IntoIter.nextBackAux _ a) (IntoIter.nextBackAux _ b)
    rw [h.length]
    exact into_nextBackAux_sim _ h

theorem into_runCalls_sim : ∀ (ds : List Dir) {a : Bpt.IntoIter K V A} {b : IntoIter K V A}
    (_ : IntoRep a b), Sim (PairR (· = ·) IntoRep) (a.runCalls ds) (b.runCalls ds) := by
  intro ds
  induction ds with
  | nil => intro a b h; exact Sim.pure ⟨rfl, h⟩
  | cons d ds ih =>
    intro a b h
    unfold Bpt.IntoIter.runCalls IntoIter.runCalls
    refine Sim.bind (into_call_sim h d) ?_
    rintro ⟨x, a⟩ ⟨_, b⟩ ⟨rfl, h⟩
    dsimp only at h ⊢
    refine Sim.bind (ih h) ?_
    rintro ⟨x, a⟩ ⟨_, b⟩ ⟨rfl, h'⟩
    refine Sim.pure ⟨?_, h'⟩
    dsimp only
    rw [h.len]
    rfl

theorem into_drop_sim {a : Bpt.IntoIter K V A} {b : IntoIter K V A} (h : IntoRep a b) :
    Sim (fun x y => x = y.1 ∧ y.2.len = 0) a.drop b.drop := by
  unfold Bpt.IntoIter.drop IntoIter.drop
  rw [h.len]
  generalize a.len + 1 = fuel
  induction fuel generalizing a b with
  | zero => exact Sim.error
  | succ fuel ih =>
    unfold Bpt.IntoIter.dropAux IntoIter.dropAux
    have hn : Sim (fun x y => PairR (· = ·) IntoRep x y ∧ (y.1 = none → y.2.len = 0)) a.next b.next := by
      have h0 := into_call_sim h .front
      intro x e
      obtain ⟨y, h1, h2⟩ := h0 x e
      refine ⟨y, h1, h2, ?_⟩
      intro hy
      have h1' : IntoIter.nextAux (b.store.leaves.length + 1) b = .ok y := h1
      clear h0 h1 h2 e ih h
      generalize b.store.leaves.length + 1 = f at h1'
      induction f generalizing b with
      | zero => cases h1'
      | succ f ih =>
        unfold IntoIter.nextAux at h1'
        split at h1'
        · cases h1'; assumption
        · cases hg : b.store.getLeaf b.pos.1 with
          | error _ => rw [hg] at h1'; cases h1'
          | ok l =>
            rw [hg, ok_bind] at h1'
            split at h1'
            · cases ht : l.takeData b.pos.2 with
              | error _ => rw [ht] at h1'; cases h1'
              | ok z => rw [ht, ok_bind] at h1'; cases h1'; cases hy
            · split at h1'
              · exact ih h1'
              · cases h1'
    refine Sim.bind hn ?_
    rintro ⟨x, a⟩ ⟨_, b⟩ ⟨⟨rfl, h⟩, hl⟩
    dsimp only at h hl ⊢
    cases x with
    | none => exact Sim.pure ⟨rfl, hl rfl⟩
    | some kv =>
      refine Sim.bind (ih h) ?_
      rintro r ⟨r', b'⟩ ⟨h1, h2⟩
      dsimp only at h1 h2
      subst h1
      exact Sim.pure ⟨rfl, h2⟩

/-! ## The number of initialised slots -/

/-- Number of initialised slots of an array. -/
def initCount {α : Type} (a : Slots α) : Nat := a.countP (·.isSome)

/-- Number of initialised key slots in all leaves of a store. -/
def Store.initKeys (s : Store K V A) : Nat :=
  (s.leaves.map (fun o => match o with | some l => initCount l.ks | none => 0)).sum

/-- Number of initialised value slots in all leaves of a store. -/
def Store.initValues (s : Store K V A) : Nat :=
  (s.leaves.map (fun o => match o with | some l => initCount l.vs | none => 0)).sum

theorem initCount_take {α : Type} {a a' : Slots α} {i : Nat} {x : α} (h : a.take i = .ok (x, a')) :
    initCount a = initCount a' + 1 := by
  unfold Slots.take Slots.read at h
  split at h
  · rename_i y hy
    cases h
    obtain ⟨hi, he⟩ := List.getElem?_eq_some_iff.1 hy
    unfold initCount
    have e1 : a = List.take i a ++ some x :: List.drop (i + 1) a := by
      rw [← he, ← List.drop_eq_getElem_cons hi, List.take_append_drop]
    have e2 : a.set i none = List.take i a ++ none :: List.drop (i + 1) a := by
      rw [List.set_eq_take_append_cons_drop, if_pos hi]
    have e3 : List.countP (·.isSome) a = List.countP (·.isSome) (List.take i a)
        + (List.countP (·.isSome) (List.drop (i + 1) a) + 1) := by
      conv_lhs => rw [e1]
      rw [List.countP_append, List.countP_cons_of_pos (by rfl)]
    rw [e3, e2, List.countP_append, List.countP_cons_of_neg (by simp)]
    omega
  · cases h

theorem sum_set_option {α : Type} (f : Option α → Nat) (l : List (Option α)) (i : Nat) (x y : Option α)
    (h : l[i]? = some x) (d : Nat) (hf : f x = f y + d) :
    (l.map f).sum = ((l.set i y).map f).sum + d := by
  obtain ⟨hi, rfl⟩ := List.getElem?_eq_some_iff.1 h
  rw [List.set_eq_take_append_cons_drop, if_pos hi]
  conv_lhs => rw [← List.take_append_drop i l, List.drop_eq_getElem_cons hi]
  simp only [List.map_append, List.map_cons, List.sum_append, List.sum_cons]
  omega

theorem take_inits {s : Store K V A} {i j : Nat} {l l' : LeafS K V} {kv : K × V}
    (hg : s.getLeaf i = .ok l) (ht : l.takeData j = .ok (kv, l')) :
    s.initKeys = (s.setLeaf i l').initKeys + 1 ∧ s.initValues = (s.setLeaf i l').initValues + 1 := by
  have hl : s.leaves[i]? = some (some l) := by
    unfold Store.getLeaf at hg
    split at hg <;> cases hg
    next h => exact h
  unfold LeafS.takeData at ht
  split at ht
  · cases ht
  · cases hk : l.ks.take j with
    | error _ => rw [hk] at ht; cases ht
    | ok x =>
      obtain ⟨k, ks⟩ := x
      rw [hk, ok_bind] at ht
      dsimp only at ht
      cases hv : l.vs.take j with
      | error _ => rw [hv] at ht; cases ht
      | ok y =>
        rw [hv, ok_bind] at ht
        cases ht
        exact ⟨sum_set_option _ _ _ _ _ hl 1 (initCount_take hk),
          sum_set_option _ _ _ _ _ hl 1 (initCount_take hv)⟩

/-- The length of the owning iterator is the number of initialised slots. -/
def Counted (b : IntoIter K V A) : Prop := b.store.initKeys = b.len ∧ b.store.initValues = b.len

theorem counted_nextAux : ∀ (fuel : Nat) {b b' : IntoIter K V A} {o} (_ : Counted b)
    (_ : IntoIter.nextAux fuel b = .ok (o, b')), Counted b' := by
  intro fuel
  induction fuel with
  | zero => intro b b' o _ e; cases e
  | succ fuel ih =>
    intro b b' o hc e
    unfold IntoIter.nextAux at e
    split at e
    · cases e; exact hc
    · rename_i h0
      cases hg : b.store.getLeaf b.pos.1 with
      | error _ => rw [hg] at e; cases e
      | ok l =>
        rw [hg, ok_bind] at e
        split at e
        · cases ht : l.takeData b.pos.2 with
          | error _ => rw [ht] at e; cases e
          | ok z =>
            obtain ⟨kv, l'⟩ := z
            rw [ht, ok_bind] at e
            cases e
            have := take_inits hg ht
            have h1 := hc.1
            have h2 := hc.2
            constructor
            · show (b.store.setLeaf b.pos.1 l').initKeys = b.len - 1
              omega
            · show (b.store.setLeaf b.pos.1 l').initValues = b.len - 1
              omega
        · split at e
          · rename_i p _
            exact ih (b := { b with pos := (p, 0) }) hc e
          · cases e

theorem counted_nextBackAux : ∀ (fuel : Nat) {b b' : IntoIter K V A} {o} (_ : Counted b)
    (_ : IntoIter.nextBackAux fuel b = .ok (o, b')), Counted b' := by
  intro fuel
  induction fuel with
  | zero => intro b b' o _ e; cases e
  | succ fuel ih =>
    intro b b' o hc e
    unfold IntoIter.nextBackAux at e
    split at e
    · cases e; exact hc
    · rename_i h0
      cases hg : b.store.getLeaf b.end_.1 with
      | error _ => rw [hg] at e; cases e
      | ok l =>
        rw [hg, ok_bind] at e
        split at e
        · cases ht : l.takeData (b.end_.2 - 1) with
          | error _ => rw [ht] at e; cases e
          | ok z =>
            obtain ⟨kv, l'⟩ := z
            rw [ht, ok_bind] at e
            cases e
            have := take_inits hg ht
            have h1 := hc.1
            have h2 := hc.2
            constructor
            · show (b.store.setLeaf b.end_.1 l').initKeys = b.len - 1
              omega
            · show (b.store.setLeaf b.end_.1 l').initValues = b.len - 1
              omega
        · split at e
          · rename_i p _
            cases hp : b.store.getLeaf p with
            | error _ => rw [hp] at e; cases e
            | ok pl =>
              rw [hp, ok_bind] at e
              exact ih (b := { b with end_ := (p, pl.size) }) hc e
          · cases e

theorem counted_runCalls : ∀ (ds : List Dir) {b b' : IntoIter K V A} {as} (_ : Counted b)
    (_ : b.runCalls ds = .ok (as, b')), Counted b' := by
  intro ds
  induction ds with
  | nil => intro b b' as hc e; cases e; exact hc
  | cons d ds ih =>
    intro b b' as hc e
    unfold IntoIter.runCalls at e
    cases h1 : b.call d with
    | error _ => rw [h1] at e; cases e
    | ok x =>
      obtain ⟨o, b1⟩ := x
      rw [h1, ok_bind] at e
      have hc1 : Counted b1 := by
        cases d
        · exact counted_nextAux _ hc h1
        · exact counted_nextBackAux _ hc h1
      dsimp only at e
      cases h2 : b1.runCalls ds with
      | error _ => rw [h2] at e; cases e
      | ok y =>
        obtain ⟨as', b2⟩ := y
        rw [h2, ok_bind] at e
        cases e
        exact ih hc1 h2

theorem counted_dropAux : ∀ (fuel : Nat) {b b' : IntoIter K V A} {r} (_ : Counted b)
    (_ : IntoIter.dropAux fuel b = .ok (r, b')), Counted b' := by
  intro fuel
  induction fuel with
  | zero => intro b b' r _ e; cases e
  | succ fuel ih =>
    intro b b' r hc e
    unfold IntoIter.dropAux at e
    cases h1 : b.next with
    | error _ => rw [h1] at e; cases e
    | ok x =>
      obtain ⟨o, b1⟩ := x
      rw [h1, ok_bind] at e
      have hc1 : Counted b1 := counted_nextAux _ hc h1
      dsimp only at e
      cases o with
      | none => cases e; exact hc1
      | some kv =>
        dsimp only at e
        cases h2 : IntoIter.dropAux fuel b1 with
        | error _ => rw [h2] at e; cases e
        | ok y =>
          rw [h2, ok_bind] at e
          cases e
          exact ih hc1 h2

theorem initCount_zero {α : Type} {a : Slots α} (h : initCount a = 0) : ∀ x ∈ a, x = none := by
  intro x hx
  unfold initCount at h
  rw [List.countP_eq_zero] at h
  have := h x hx
  cases x with
  | none => rfl
  | some _ => exact absurd rfl this

theorem Counted.empty {b : IntoIter K V A} (h : Counted b) (h0 : b.len = 0) : b.store.LeavesEmpty := by
  intro i l hl
  have hm : some l ∈ b.store.leaves := List.mem_of_getElem? hl
  have h1 := h.1
  have h2 := h.2
  rw [h0] at h1 h2
  unfold Store.initKeys at h1
  unfold Store.initValues at h2
  have zero : ∀ (ns : List Nat), ns.sum = 0 → ∀ x ∈ ns, x = 0 := by
    intro ns
    induction ns with
    | nil => intro _ x hx; cases hx
    | cons n ns ih =>
      intro h x hx
      rw [List.sum_cons] at h
      rcases List.mem_cons.1 hx with rfl | hx
      · omega
      · exact ih (by omega) x hx
  replace h1 := zero _ h1
  replace h2 := zero _ h2
  exact ⟨initCount_zero (h1 _ (List.mem_map.2 ⟨_, hm, rfl⟩)),
    initCount_zero (h2 _ (List.mem_map.2 ⟨_, hm, rfl⟩))⟩

theorem initCount_pad {α : Type} (n : Nat) (l : List α) : initCount (pad n l) = l.length := by
  unfold initCount pad uninit
  rw [List.countP_append, List.countP_map, List.countP_replicate]
  simp [Function.comp_def]

/-- In a store that represents a list-level store, the initialised slots are as many as the items. -/
theorem inits_rep {s : Bpt.Store K V A} {t : Store K V A} (h : StoreRep s t) :
    t.initKeys = (s.leaves.map (fun o => match o with | some l => l.data.length | none => 0)).sum ∧
    t.initValues = (s.leaves.map (fun o => match o with | some l => l.data.length | none => 0)).sum := by
  unfold Store.initKeys Store.initValues
  generalize hs : s.leaves = ls
  generalize ht : t.leaves = lt
  have hf := h.leaves
  rw [hs, ht] at hf
  clear h hs ht
  induction hf with
  | nil => exact ⟨rfl, rfl⟩
  | cons hr _ ih =>
    simp only [List.map_cons, List.sum_cons]
    rw [ih.1, ih.2]
    cases hr with
    | none => exact ⟨rfl, rfl⟩
    | some hr =>
      simp only [hr.holds.ks, hr.holds.vs, initCount_pad, List.length_map]
      exact ⟨trivial, trivial⟩

end Raw
end Bpt
