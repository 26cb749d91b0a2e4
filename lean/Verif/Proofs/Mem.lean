import Verif.Proofs.Ghost
import Mathlib.Data.List.Nodup
import Batteries.Data.List.Perm

/-!
# What a store holds: inner nodes and the linked list of leaves
-/

namespace Bpt
variable {K V A : Type}

/-- The slots `m` hold the nodes `L`. -/
def IMem (m : List (Option (Inner K A))) (L : List (Nat × Inner K A)) : Prop :=
  ∀ p ∈ L, m[p.1]? = some (some p.2)

namespace IMem
variable {m : List (Option (Inner K A))} {L L' : List (Nat × Inner K A)}

theorem append : IMem m (L ++ L') ↔ IMem m L ∧ IMem m L' := by
  simp only [IMem, List.mem_append]
  constructor
  · intro h; exact ⟨fun p hp => h p (.inl hp), fun p hp => h p (.inr hp)⟩
  · rintro ⟨h1, h2⟩ p (hp | hp)
    · exact h1 p hp
    · exact h2 p hp

theorem cons {p : Nat × Inner K A} : IMem m (p :: L) ↔ m[p.1]? = some (some p.2) ∧ IMem m L := by
  simp [IMem]

@[simp] theorem nil : IMem m [] := by simp [IMem]

theorem perm (h : L.Perm L') (hm : IMem m L) : IMem m L' := fun p hp => hm p (h.mem_iff.2 hp)

theorem set {i : Nat} {v : Option (Inner K A)} (hi : i ∉ L.map (·.1)) (hm : IMem m L) :
    IMem (m.set i v) L := by
  intro p hp
  have : i ≠ p.1 := by
    rintro rfl
    exact hi (List.mem_map_of_mem hp)
  rw [List.getElem?_set_ne this]
  exact hm p hp

theorem lt (hm : IMem m L) {i : Nat} (hi : i ∈ L.map (·.1)) : i < m.length := by
  obtain ⟨p, hp, rfl⟩ := List.mem_map.1 hi
  have := hm p hp
  rcases Nat.lt_or_ge p.1 m.length with h | h
  · exact h
  · simp [List.getElem?_eq_none h] at this

theorem push {v : Option (Inner K A)} (hm : IMem m L) : IMem (m ++ [v]) L := by
  intro p hp
  rw [List.getElem?_append_left (hm.lt (List.mem_map_of_mem hp))]
  exact hm p hp

theorem get {s : Store K V A} {p : Nat × Inner K A} (hm : IMem s.inners L) (hp : p ∈ L) :
    s.getInner p.1 = .ok p.2 := by
  simp [Store.getInner, hm p hp]

theorem length_le (hm : IMem m L) (hn : (L.map (·.1)).Nodup) : L.length ≤ m.length := by
  have h1 : L.map (·.1) ⊆ List.range m.length := by
    intro i hi
    simpa using hm.lt hi
  have := (List.subperm_of_subset hn h1).length_le
  simpa using this

end IMem

/-- First id of a run of leaves, or the fallback. -/
def hdId (L : List (Nat × List (K × V))) (n : Option Nat) : Option Nat :=
  (L.head?.map (·.1)).or n

/-- Last id of a run of leaves, or the fallback. -/
def lstId (p : Option Nat) (L : List (Nat × List (K × V))) : Option Nat :=
  (L.getLast?.map (·.1)).or p

/-- The slots `m` hold the leaves `L`, linked in order, with `p` before and `n` after. -/
def Seg (m : List (Option (Leaf K V))) :
    Option Nat → List (Nat × List (K × V)) → Option Nat → Prop
  | _, [], _ => True
  | p, x :: L, n => m[x.1]? = some (some ⟨x.2, p, hdId L n⟩) ∧ Seg m (some x.1) L n

@[simp] theorem hdId_nil {n : Option Nat} : hdId ([] : List (Nat × List (K × V))) n = n := by
  simp [hdId]
@[simp] theorem hdId_cons {x : Nat × List (K × V)} {L} {n : Option Nat} :
    hdId (x :: L) n = some x.1 := by
  simp [hdId]
@[simp] theorem lstId_nil {n : Option Nat} : lstId n ([] : List (Nat × List (K × V))) = n := by
  simp [lstId]
@[simp] theorem lstId_concat {x : Nat × List (K × V)} {L} {n : Option Nat} :
    lstId n (L ++ [x]) = some x.1 := by
  simp [lstId]
theorem lstId_cons {x : Nat × List (K × V)} {L} {n : Option Nat} :
    lstId n (x :: L) = lstId (some x.1) L := by
  cases L with
  | nil => simp [lstId]
  | cons y L => simp [lstId, List.getLast?_cons]
theorem hdId_append {L L' : List (Nat × List (K × V))} {n : Option Nat} :
    hdId (L ++ L') n = hdId L (hdId L' n) := by
  cases L <;> simp
theorem lstId_append {L L' : List (Nat × List (K × V))} {n : Option Nat} :
    lstId n (L ++ L') = lstId (lstId n L) L' := by
  induction L generalizing n with
  | nil => simp
  | cons x L ih => simp [lstId_cons, ih]

namespace Seg
variable {m : List (Option (Leaf K V))} {L L' : List (Nat × List (K × V))} {p n : Option Nat}

theorem append : Seg m p (L ++ L') n ↔ Seg m p L (hdId L' n) ∧ Seg m (lstId p L) L' n := by
  induction L generalizing p with
  | nil => simp [Seg]
  | cons x L ih =>
    simp only [List.cons_append, Seg, ih, hdId_append, lstId_cons]
    tauto

theorem cons {x : Nat × List (K × V)} : Seg m p (x :: L) n ↔
    m[x.1]? = some (some ⟨x.2, p, hdId L n⟩) ∧ Seg m (some x.1) L n := Iff.rfl

theorem set {i : Nat} {v : Option (Leaf K V)} (hi : i ∉ L.map (·.1)) (hm : Seg m p L n) :
    Seg (m.set i v) p L n := by
  induction L generalizing p with
  | nil => trivial
  | cons x L ih =>
    simp only [List.map_cons, List.mem_cons, not_or] at hi
    refine ⟨?_, ih hi.2 hm.2⟩
    rw [List.getElem?_set_ne hi.1]
    exact hm.1

theorem lt (hm : Seg m p L n) {i : Nat} (hi : i ∈ L.map (·.1)) : i < m.length := by
  induction L generalizing p with
  | nil => simp at hi
  | cons x L ih =>
    simp only [List.map_cons, List.mem_cons] at hi
    rcases hi with rfl | hi
    · have := hm.1
      rcases Nat.lt_or_ge x.1 m.length with h | h
      · exact h
      · simp [List.getElem?_eq_none h] at this
    · exact ih hm.2 hi

theorem push {v : Option (Leaf K V)} (hm : Seg m p L n) : Seg (m ++ [v]) p L n := by
  induction L generalizing p with
  | nil => trivial
  | cons x L ih =>
    refine ⟨?_, ih hm.2⟩
    have h1 : x.1 < m.length := hm.lt (by simp)
    rw [List.getElem?_append_left h1]
    exact hm.1

theorem get (hm : Seg m p (L ++ x :: L') n) :
    m[x.1]? = some (some ⟨x.2, lstId p L, hdId L' n⟩) := by
  rw [append] at hm
  exact hm.2.1

theorem getLeaf {s : Store K V A} {x : Nat × List (K × V)}
    (hm : Seg s.leaves p (L ++ x :: L') n) :
    s.getLeaf x.1 = .ok ⟨x.2, lstId p L, hdId L' n⟩ := by
  simp [Store.getLeaf, hm.get]

end Seg

/-! ## Well-formed trees -/

/-- The tree `t` represents the ghost tree `g`, whatever the order of the keys. `μ` is the minimum
number of keys of inner nodes on the right spine (16 for trees built by insertion and removal). -/
structure WF0 (μ : Nat) (t : Tree K V A) {H : Nat} (g : T K V A H) : Prop where
  root : t.root = g.nid
  imem : IMem t.store.inners g.nodes
  inodup : (g.nodes.map (·.1)).Nodup
  seg : Seg t.store.leaves none g.leaves none
  lnodup : (g.leaves.map (·.1)).Nodup
  live : ∀ i l, t.store.leaves[i]? = some (some l) → i ∈ g.leaves.map (·.1)
  shape : T.ShapeTop μ (rootMin H) true g
  len : t.len = g.toL.length

/-- The tree `t` represents the ghost tree `g`. `μ` is the minimum number of keys of inner nodes on
the right spine (16 for trees built by insertion and removal). -/
structure WF [LinearOrder K] (μ : Nat) (t : Tree K V A) {H : Nat} (g : T K V A H) : Prop where
  root : t.root = g.nid
  imem : IMem t.store.inners g.nodes
  inodup : (g.nodes.map (·.1)).Nodup
  seg : Seg t.store.leaves none g.leaves none
  lnodup : (g.leaves.map (·.1)).Nodup
  live : ∀ i l, t.store.leaves[i]? = some (some l) → i ∈ g.leaves.map (·.1)
  ord : g.inorder.Pairwise E.R
  shape : T.ShapeTop μ (rootMin H) true g
  len : t.len = g.toL.length

theorem WF.base [LinearOrder K] {μ : Nat} {t : Tree K V A} {H : Nat} {g : T K V A H}
    (w : WF μ t g) : WF0 μ t g :=
  ⟨w.root, w.imem, w.inodup, w.seg, w.lnodup, w.live, w.shape, w.len⟩

theorem WF0.ordered [LinearOrder K] {μ : Nat} {t : Tree K V A} {H : Nat} {g : T K V A H}
    (w : WF0 μ t g) (h : g.inorder.Pairwise E.R) : WF μ t g :=
  ⟨w.root, w.imem, w.inodup, w.seg, w.lnodup, w.live, h, w.shape, w.len⟩

/-- The stored augmentations are the ones computed from the items. -/
structure AugWF [Augmentation K V A] (t : Tree K V A) {H : Nat} (g : T K V A H) : Prop where
  ok : g.AugOK
  root : t.rootAug = g.topAug ∨ (g.toL = [] ∧ t.rootAug = Augmentation.dflt K V)

end Bpt
