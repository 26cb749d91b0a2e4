import Verif.MemorySpec
import Verif.Proofs.ReachInv
import Verif.Proofs.CrashInsert

/-!
# Slots and allocated nodes of the store
-/

namespace Bpt
open Spec
variable {K V A : Type}

/-- Every result of `x` satisfies `P`. -/
def Post {α : Type} (x : Res α) (P : α → Prop) : Prop := ∀ a, x = .ok a → P a

namespace Post
variable {α β : Type} {x : Res α} {f : α → Res β} {P Q : α → Prop} {R : β → Prop}

theorem bind (h : Post x P) (hf : ∀ a, P a → Post (f a) R) : Post (x >>= f) R := by
  intro b hb
  obtain ⟨a, h1, h2⟩ := bind_ok hb
  exact hf a (h a h1) b h2

theorem bind' (hf : ∀ a, x = .ok a → Post (f a) R) : Post (x >>= f) R := by
  intro b hb
  obtain ⟨a, h1, h2⟩ := bind_ok hb
  exact hf a h1 b h2

theorem any (hf : ∀ a, Post (f a) R) : Post (x >>= f) R := bind' (fun a _ => hf a)

theorem pure {a : α} (h : P a) : Post (Pure.pure a : Res α) P := by
  intro b hb; cases hb; exact h

theorem ok {a : α} (h : P a) : Post (.ok a : Res α) P := by
  intro b hb; cases hb; exact h

theorem error {e : Fault} : Post (.error e : Res α) P := by
  intro b hb; cases hb

theorem mono (h : Post x P) (hi : ∀ a, P a → Q a) : Post x Q := fun a ha => hi a (h a ha)

end Post

theorem countP_set {α : Type} {l : List (Option α)} {i : Nat} {x : α} :
    l.countP (·.isSome) ≤ (l.set i (some x)).countP (·.isSome) := by
  induction l generalizing i with
  | nil => simp
  | cons a l ih =>
    cases i with
    | zero => cases a <;> simp
    | succ i =>
      have := ih (i := i)
      simp only [List.set_cons_succ, List.countP_cons]; omega

theorem alloc_setInner {s : Store K V A} {i : Nat} {n : Inner K A} :
    s.allocatedInners ≤ (s.setInner i n).allocatedInners := countP_set

theorem alloc_addInner {s : Store K V A} {n : Inner K A} :
    (s.addInner n).1.allocatedInners = s.allocatedInners + 1 := by
  simp [Store.addInner, Store.allocatedInners]

section
variable [Augmentation K V A]

/-- What a call on the store leaves: as many leaf slots, and no fewer inner nodes. -/
structure Grows (s s' : Store K V A) : Prop where
  inners : s.allocatedInners ≤ s'.allocatedInners
  leaves : s.leaves.length ≤ s'.leaves.length

omit [Augmentation K V A] in
theorem Grows.refl {s : Store K V A} : Grows s s := ⟨Nat.le_refl _, Nat.le_refl _⟩
omit [Augmentation K V A] in
theorem Grows.trans {s s' s'' : Store K V A} (h : Grows s s') (h' : Grows s' s'') : Grows s s'' :=
  ⟨h.1.trans h'.1, h.2.trans h'.2⟩
omit [Augmentation K V A] in
theorem Grows.setInner {s : Store K V A} {i : Nat} {n : Inner K A} : Grows s (s.setInner i n) :=
  ⟨alloc_setInner, Nat.le_refl _⟩
omit [Augmentation K V A] in
theorem Grows.addInner {s : Store K V A} {n : Inner K A} : Grows s (s.addInner n).1 :=
  ⟨by rw [alloc_addInner]; omega, Nat.le_refl _⟩
omit [Augmentation K V A] in
theorem Grows.setLeaf {s : Store K V A} {i : Nat} {l : Leaf K V} : Grows s (s.setLeaf i l) :=
  ⟨Nat.le_refl _, by simp [Store.setLeaf]⟩
omit [Augmentation K V A] in
theorem Grows.cacheLeaf {s : Store K V A} {i : Nat} : Grows s (s.cacheLeaf i) :=
  ⟨Nat.le_refl _, Nat.le_refl _⟩
omit [Augmentation K V A] in
theorem Grows.takeLeaf {s : Store K V A} {i : Nat} : Post (s.takeLeaf i) (fun p => Grows s p.2) := by
  unfold Store.takeLeaf
  split
  · exact Post.ok ⟨Nat.le_refl _, by simp⟩
  · exact Post.error

/-! ## Insertion -/

section
variable [LinearOrder K]

/-- A split takes a new leaf slot. -/
theorem insertLeaf_grows {s : Store K V A} {id : Nat} {k : K} {v : V} :
    Post (insertLeaf s id k v) (fun p => Grows s p.1 ∧
      p.1.leaves.length ≤ s.leaves.length + 1 ∧ p.1.inners = s.inners ∧
      ∀ k' r, p.2 = .split k' r → s.leaves.length + 1 ≤ p.1.leaves.length) := by
  unfold insertLeaf
  refine Post.any fun leaf => Post.any fun q => ?_
  obtain ⟨leaf', _ | v0 | ⟨idx, k1, v1⟩⟩ := q
  · exact Post.pure ⟨Grows.setLeaf.trans Grows.cacheLeaf, by simp [Store.setLeaf, Store.cacheLeaf], rfl,
      by intro _ _ h; cases h⟩
  · exact Post.pure ⟨Grows.setLeaf, by simp [Store.setLeaf], rfl, by intro _ _ h; cases h⟩
  · simp only [Store.reserveLeaf]
    refine Post.any fun lLeaf => Post.any fun lr => Post.any fun kv => ?_
    have key : ∀ s2 : Store K V A, s2.inners = s.inners → s2.leaves.length = s.leaves.length + 1 →
        ∀ (c : Nat) k' r, Post (do
          let s ← s2.assignLeaf s.leaves.length lr.2
          return (s.cacheLeaf c, InsertResult.split (V := V) k' r) : Res (Store K V A × InsertResult K V))
        (fun p => Grows s p.1 ∧ p.1.leaves.length ≤ s.leaves.length + 1 ∧ p.1.inners = s.inners ∧
          ∀ k' r, p.2 = .split k' r → s.leaves.length + 1 ≤ p.1.leaves.length) := by
      intro s2 h1 h2 c k' r
      unfold Store.assignLeaf
      split
      · rw [ok_bind]
        refine Post.pure ⟨⟨?_, ?_⟩, ?_, ?_, ?_⟩
        · show s.inners.countP _ ≤ s2.inners.countP _; rw [h1]
        · simp only [Store.setLeaf, Store.cacheLeaf, List.length_set]; omega
        · simp only [Store.setLeaf, Store.cacheLeaf, List.length_set]; omega
        · simpa [Store.setLeaf, Store.cacheLeaf] using h1
        · intro _ _ _
          simp only [Store.setLeaf, Store.cacheLeaf, List.length_set]; omega
      · exact Post.bind' (fun a h => by cases h)
    cases lr.2.next with
    | none =>
      simp only [pure_ok, ok_bind]
      refine key _ ?_ ?_ _ _ _
      · rfl
      · simp [Store.setLeaf]
    | some next =>
      simp only [pure_ok]
      cases hn : Store.getLeaf (Store.setLeaf _ id lr.1) next with
      | error e => exact Post.bind' (fun a h => by cases h)
      | ok nl =>
        simp only [ok_bind]
        refine key _ ?_ ?_ _ _ _
        · rfl
        · simp [Store.setLeaf]

omit [LinearOrder K] in
theorem insertAscend_grows {stack : List StackEntry} {s : Store K V A} {r : InsertResult K V} :
    Post (insertAscend s stack r) (fun p => Grows s p.1 ∧ p.1.leaves.length = s.leaves.length) := by
  induction stack generalizing s r with
  | nil => unfold insertAscend; exact Post.pure ⟨Grows.refl, rfl⟩
  | cons e stack ih =>
    obtain ⟨id, idx, c⟩ := e
    cases r with
    | inserted =>
      unfold insertAscend
      exact Post.any fun a => Post.any fun n => Post.any fun n' => ih.mono
        (fun p h => ⟨Grows.setInner.trans h.1, h.2⟩)
    | updated v =>
      unfold insertAscend
      exact Post.any fun a => Post.any fun n => Post.any fun n' => ih.mono
        (fun p h => ⟨Grows.setInner.trans h.1, h.2⟩)
    | split k' r' =>
      unfold insertAscend
      refine Post.any fun a => Post.any fun a' => Post.any fun n => Post.any fun n' => ?_
      split
      · exact Post.any fun n'' => ih.mono (fun p h => ⟨Grows.setInner.trans h.1, h.2⟩)
      · refine Post.any fun p => ?_
        exact ih.mono (fun p h => ⟨(Grows.setInner.trans Grows.addInner).trans h.1, h.2⟩)

/-- An insertion frees nothing, takes at most one leaf slot, and allocates a node and a leaf when the
root was a leaf and is not any more. -/
theorem insert_grows {t : Tree K V A} {k : K} {v : V} :
    Post (t.insert k v) (fun p => Grows t.store p.2.store ∧
      p.2.store.leaves.length ≤ t.store.leaves.length + 1 ∧
      ∀ i j, t.root = .leaf i → p.2.root = .inner j →
        t.store.allocatedInners + 1 ≤ p.2.store.allocatedInners ∧
        t.store.leaves.length + 1 ≤ p.2.store.leaves.length) := by
  have hd : Post (descendInsert t.store t.root k v) (fun p => Grows t.store p.1 ∧
      p.1.leaves.length ≤ t.store.leaves.length + 1 ∧
      ∀ i, t.root = .leaf i → ∀ k' r, p.2 = .split k' r →
        t.store.leaves.length + 1 ≤ p.1.leaves.length) := by
    unfold descendInsert
    split
    · next id hr =>
      unfold insertInner
      refine Post.any fun p => ?_
      refine Post.bind insertLeaf_grows fun q hq => ?_
      refine insertAscend_grows.mono fun u hu => ⟨hq.1.trans hu.1, by rw [hu.2]; exact hq.2.1, ?_⟩
      intro i h; rw [hr] at h; cases h
    · next id hr => exact insertLeaf_grows.mono fun p hp => ⟨hp.1, hp.2.1, fun i _ => hp.2.2.2⟩
  unfold Tree.insert
  refine Post.bind hd ?_
  rintro ⟨s, r⟩ ⟨h1, h2, h3⟩
  cases r with
  | inserted =>
    exact Post.any fun a => Post.pure ⟨h1, h2, by intro i j e e'; simp only [e] at e'; cases e'⟩
  | updated v =>
    exact Post.any fun a => Post.pure ⟨h1, h2, by intro i j e e'; simp only [e] at e'; cases e'⟩
  | split k' r =>
    refine Post.any fun a => Post.any fun a' => Post.any fun n => Post.pure ⟨h1.trans Grows.addInner, h2, ?_⟩
    intro i j e e'
    refine ⟨?_, h3 i e k' r rfl⟩
    have : _ ≤ s.allocatedInners := h1.inners
    show _ ≤ (s.addInner n).1.allocatedInners
    rw [alloc_addInner]; omega

end

/-! ## Removal in a tree of height at most one -/

theorem relinkNext_grows {s : Store K V A} {l : Leaf K V} {i : Nat} :
    Post (relinkNext s l i) (fun p => Grows s p) := by
  unfold relinkNext
  split
  · exact Post.any fun a => Post.pure Grows.setLeaf
  · exact Post.pure Grows.refl

theorem handleLeaf_grows {s : Store K V A} {st : Statistic} {n : Inner K A} {i j : Nat} :
    Post (handleLeafUnderSize s st n i j) (fun p => Grows s p.2.1) := by
  unfold handleLeafUnderSize
  refine Post.any fun ps => Post.any fun ns => Post.any fun fx => ?_
  cases fx with
  | rotateRight =>
    refine Post.bind (P := fun p => Grows s p.2.1) ?_ fun p hp => Post.pure hp
    unfold rotateRightForLeaf
    refine Post.any fun a => Post.any fun b => Post.any fun c => Post.any fun d => Post.any fun e => ?_
    dsimp only
    split
    · exact Post.bind' (fun a h => by cases h)
    refine Post.any fun f => Post.any fun g => Post.any fun h => Post.any fun r => ?_
    refine Post.any fun r2 => Post.any fun r3 => Post.pure ?_
    exact (Grows.setLeaf.trans Grows.setLeaf).trans Grows.cacheLeaf
  | rotateLeft =>
    refine Post.bind (P := fun p => Grows s p.2.1) ?_ fun p hp => Post.pure hp
    unfold rotateLeftForLeaf
    refine Post.any fun a => Post.any fun b => Post.any fun c => Post.any fun d => Post.any fun e => ?_
    dsimp only
    split
    · exact Post.bind' (fun a h => by cases h)
    refine Post.any fun f => Post.any fun g => Post.any fun h => Post.any fun r => ?_
    refine Post.any fun r2 => Post.any fun r3 => Post.any fun r4 => Post.pure ?_
    exact (Grows.setLeaf.trans Grows.setLeaf).trans Grows.cacheLeaf
  | mergeLeft =>
    refine Post.bind (P := fun p => Grows s p.2.1) ?_ fun p hp => Post.pure hp
    unfold mergeLeafNodeLeft
    refine Post.any fun a => Post.any fun b => Post.any fun c => Post.any fun d => ?_
    refine Post.bind Grows.takeLeaf fun e he => Post.any fun f => Post.any fun g => Post.any fun h => ?_
    refine Post.bind relinkNext_grows fun u hu => Post.any fun w => Post.pure ?_
    exact ((he.trans Grows.setLeaf).trans hu).trans Grows.cacheLeaf
  | mergeRight =>
    refine Post.bind (P := fun p => Grows s p.2.1) ?_ fun p hp => Post.pure hp
    unfold mergeLeafNodeWithRight
    refine Post.any fun a => Post.any fun b => Post.any fun c => Post.any fun d => ?_
    refine Post.bind Grows.takeLeaf fun e he => Post.any fun f => Post.any fun g => Post.any fun h => ?_
    refine Post.any fun h' => Post.bind relinkNext_grows fun u hu => Post.any fun w => Post.pure ?_
    exact ((he.trans Grows.setLeaf).trans hu).trans Grows.cacheLeaf

theorem removeRoot_grows {s : Store K V A} {root : NodeId} {r : DeleteResult K V} :
    Post (removeRoot s root r) (fun p => Grows s p.2.1) := by
  unfold removeRoot
  split
  · exact Post.pure Grows.refl
  · refine Post.any fun a => Post.any fun b => ?_
    split
    · exact Post.any fun c => Post.pure Grows.refl
    · exact Post.pure Grows.refl
  · exact Post.any fun a => Post.any fun b => Post.any fun c => Post.pure Grows.setLeaf

/-- A removal with at most one inner node on its path frees no inner node. -/
theorem removeByRef_grows {t : Tree K V A} {e : EntryRef} (h : e.stack.length ≤ 1) :
    Post (t.removeByRef e) (fun p => Grows t.store p.2.store) := by
  unfold Tree.removeByRef
  refine Post.any fun l => Post.any fun p => ?_
  obtain ⟨l', dr⟩ := p
  have ha : Post (removeAscend (t.store.setLeaf e.leafId l') t.st e.stack
      (match dr with | .done kv => .done kv | .underSize idx => .leafUnderSize idx))
      (fun p => Grows t.store p.2.1) := by
    rcases hs : e.stack with _ | ⟨⟨id, idx, c⟩, _ | ⟨x, y⟩⟩
    · unfold removeAscend; exact Post.pure Grows.setLeaf
    · cases dr with
      | done kv =>
        simp only [removeAscend]
        exact Post.any fun a => Post.any fun b => Post.any fun c => Post.pure
          (Grows.setLeaf.trans Grows.setInner)
      | underSize i =>
        simp only [removeAscend]
        refine Post.any fun a => Post.bind handleLeaf_grows fun b hb => Post.pure
          ((Grows.setLeaf.trans hb).trans Grows.setInner)
    · rw [hs] at h; simp at h
  refine Post.bind ha ?_
  rintro ⟨r, s, st⟩ h1
  refine Post.bind removeRoot_grows ?_
  rintro ⟨kv, s', root⟩ h2
  refine Post.any fun a => ?_
  dsimp only
  split
  · exact Post.bind' (fun a h => by cases h)
  · exact Post.pure (h1.trans h2)

section
variable [LinearOrder K]

/-- In a map of fewer than 272 items no removal frees an inner node. -/
theorem remove_grows {t : Tree K V A} {l : List (K × V)} (h : Inv 16 t l) (hl : l.length < 272)
    (k : K) : Post (t.remove k) (fun p => Grows t.store p.2.store) := by
  obtain ⟨H, g, w, rfl, hn⟩ := h
  have hH : H ≤ 1 := by
    match H, g, w with
    | 0, _, _ => omega
    | 1, _, _ => omega
    | H + 2, g, w =>
      have := root_size w.shape
      have : 17 ^ 1 ≤ 17 ^ (H + 1) := Nat.pow_le_pow_right (by omega) (by omega)
      omega
  obtain ⟨c, x, hp, hdesc, -⟩ := descend_stack w (w.depth hn) k
  unfold Tree.remove Tree.removeImpl Tree.keyToRef
  refine Post.bind (P := fun p => Grows t.store p.2.store) ?_ fun p hp => Post.pure hp
  rw [hdesc, ok_bind]
  dsimp only
  cases t.store.getLeaf x.id with
  | error e => exact Post.bind' (fun a h => by cases h)
  | ok lf =>
    rw [ok_bind]
    cases lf.locateSlot k with
    | vacant i => simp only [pure_ok, ok_bind]; exact Post.ok Grows.refl
    | found i =>
      simp only [pure_ok, ok_bind]
      refine Post.bind (removeByRef_grows ?_) fun p hp => Post.ok hp
      simp only [Ctx.stack_length]; omega

end
end
end Bpt
