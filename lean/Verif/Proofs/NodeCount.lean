import Verif.MemoryLife
import Verif.Proofs.Memory

/-!
# How many nodes a well-formed tree has, and how many slots calls take
-/

namespace Bpt
open Spec
variable {K V A : Type}

/-! ## The counts of the tree itself -/

theorem levelsFrom_ok {μ : Nat} {s : Store K V A} {h n m : Nat} {r : Bool} {x : T K V A h}
    (hx : T.ShapeTop μ m r x) (hm : IMem s.inners x.nodes) (hn : h ≤ n) :
    s.levelsFrom (n + 1) x.nid = h := by
  induction h generalizing n m r with
  | zero => rfl
  | succ h ih =>
    cases n with
    | zero => omega
    | succ n =>
      have h0 := hm (GNode.id x, GNode.inner x) (by simp [T.nodes])
      have hl : (GNode.kids x).length = (GNode.keys x).length + 1 := hx.2.2.1
      show Store.levelsFrom s (n + 1 + 1) (.inner (GNode.id x)) = h + 1
      rw [Store.levelsFrom, h0]
      cases hk : GNode.kids x with
      | nil => rw [hk] at hl; simp at hl
      | cons c cs =>
        simp only [GNode.inner, hk, List.map_cons]
        obtain ⟨m', r', hc⟩ : ∃ m' r', T.ShapeTop μ m' r' c := by
          have : ∀ a ∈ GNode.kids x, (∃ m' r', T.ShapeTop μ m' r' a) := by
            refine SpineL_same.1 (SpineL_mono ?_ ?_ hx.2.2.2.2)
            · intro a _ ha; exact ⟨_, _, ha⟩
            · intro a _ ha; exact ⟨_, _, ha⟩
          exact this c (by rw [hk]; simp)
        rw [ih hc (fun p hp => hm p (by simp [T.nodes, hk, hp])) (by omega)]
        omega

theorem reachFrom_ok {s : Store K V A} {h n : Nat} {x : T K V A h}
    (hm : IMem s.inners x.nodes) (hn : h ≤ n) :
    s.reachFrom (n + 1) x.nid = x.nodes.length := by
  induction h generalizing n with
  | zero => rfl
  | succ h ih =>
    cases n with
    | zero => omega
    | succ n =>
      have h0 := hm (GNode.id x, GNode.inner x) (by simp [T.nodes])
      show Store.reachFrom s (n + 1 + 1) (.inner (GNode.id x)) = _
      rw [Store.reachFrom, h0]
      simp only [GNode.inner, T.nodes, List.length_cons, List.length_flatMap, List.map_map]
      rw [Nat.add_comm]
      congr 2
      refine List.map_congr_left fun c hc => ?_
      exact ih (fun p hp => hm p (by
        simp only [T.nodes, List.mem_cons, List.mem_flatMap]; exact .inr ⟨c, hc, hp⟩)) (by omega)

theorem countP_le_of_mem {α : Type} {m : List (Option α)} {L : List Nat}
    (h : ∀ i x, m[i]? = some (some x) → i ∈ L) : m.countP (·.isSome) ≤ L.length := by
  induction m using List.reverseRecOn generalizing L with
  | nil => simp
  | append_singleton m x ih =>
    rw [List.countP_append]
    cases x with
    | none =>
      have := ih (L := L) (fun i x hx => h i x (by
        rw [List.getElem?_append_left (List.getElem?_eq_some_iff.1 hx).1]; exact hx))
      simpa using this
    | some y =>
      have hy : m.length ∈ L := h _ y (by simp)
      have := ih (L := L.erase m.length) (fun i x hx => by
        have hl := (List.getElem?_eq_some_iff.1 hx).1
        exact (List.mem_erase_of_ne (by omega)).2
          (h i x (by rw [List.getElem?_append_left hl]; exact hx)))
      rw [List.length_erase_of_mem hy] at this
      have := List.length_pos_of_mem hy
      simp; omega

theorem countP_ge_of_mem {α : Type} {m : List (Option α)} {L : List Nat} (hd : L.Nodup)
    (h : ∀ i ∈ L, ∃ x, m[i]? = some (some x)) : L.length ≤ m.countP (·.isSome) := by
  induction m using List.reverseRecOn generalizing L with
  | nil =>
    cases L with
    | nil => simp
    | cons a L => obtain ⟨x, hx⟩ := h a (by simp); simp at hx
  | append_singleton m x ih =>
    have h1 := ih (L := L.erase m.length) (hd.erase _) (fun i hi => by
      obtain ⟨y, hy⟩ := h i (List.mem_of_mem_erase hi)
      have hne : i ≠ m.length := by
        rintro rfl; exact (hd.not_mem_erase) hi
      have hl := (List.getElem?_eq_some_iff.1 hy).1
      rw [List.length_append, List.length_singleton] at hl
      refine ⟨y, ?_⟩
      rw [List.getElem?_append_left (by omega)] at hy
      exact hy)
    rw [List.countP_append]
    by_cases hm : m.length ∈ L
    · obtain ⟨y, hy⟩ := h _ hm
      have : x = some y := by simpa using hy
      subst this
      rw [List.length_erase_of_mem hm] at h1
      simp; omega
    · rw [List.erase_of_not_mem hm] at h1
      omega

theorem Seg.some_of_mem {m : List (Option (Leaf K V))} {p n : Option Nat}
    {L : List (Nat × List (K × V))} (h : Seg m p L n) : ∀ i ∈ L.map (·.1), ∃ x, m[i]? = some (some x) := by
  induction L generalizing p with
  | nil => simp
  | cons y L ih =>
    intro i hi
    rw [List.map_cons, List.mem_cons] at hi
    rcases hi with rfl | hi
    · exact ⟨_, h.1⟩
    · exact ih h.2 i hi

section
variable [LinearOrder K] {μ : Nat} {t : Tree K V A} {H : Nat} {g : T K V A H}

theorem WF.levels (w : WF μ t g) (hl : t.len < 2 ^ 64) : t.levels = H := by
  rw [Tree.levels, w.root]
  exact levelsFrom_ok w.shape w.imem (w.depth hl)

theorem WF.innersInTree (w : WF μ t g) (hl : t.len < 2 ^ 64) : t.innersInTree = g.nodes.length := by
  rw [Tree.innersInTree, w.root]
  exact reachFrom_ok w.imem (w.depth hl)

theorem WF.allocatedLeaves (w : WF μ t g) : t.store.allocatedLeaves = g.leaves.length := by
  rw [← List.length_map (f := (·.1)) (as := g.leaves)]
  exact Nat.le_antisymm (countP_le_of_mem w.live) (countP_ge_of_mem w.lnodup w.seg.some_of_mem)

end

/-! ## Removal takes and gives back no slot -/

/-- The two tables keep their lengths. -/
structure SameSlots (s s' : Store K V A) : Prop where
  inners : s'.inners.length = s.inners.length
  leaves : s'.leaves.length = s.leaves.length

namespace SameSlots
variable {s s' s'' : Store K V A}

theorem refl : SameSlots s s := ⟨rfl, rfl⟩
theorem trans (h : SameSlots s s') (h' : SameSlots s' s'') : SameSlots s s'' := ⟨h'.1.trans h.1, h'.2.trans h.2⟩
theorem setInner {i : Nat} {n : Inner K A} : SameSlots s (s.setInner i n) :=
  ⟨by simp [Store.setInner], rfl⟩
theorem setLeaf {i : Nat} {l : Leaf K V} : SameSlots s (s.setLeaf i l) := ⟨rfl, by simp [Store.setLeaf]⟩
theorem cacheLeaf {i : Nat} : SameSlots s (s.cacheLeaf i) := ⟨rfl, rfl⟩
theorem takeLeaf {i : Nat} : Post (s.takeLeaf i) (fun p => SameSlots s p.2) := by
  unfold Store.takeLeaf
  split
  · exact Post.ok ⟨rfl, by simp⟩
  · exact Post.error
theorem takeInner {i : Nat} : Post (s.takeInner i) (fun p => SameSlots s p.2) := by
  unfold Store.takeInner
  split
  · exact Post.ok ⟨by simp, rfl⟩
  · exact Post.error

end SameSlots

section
variable [Augmentation K V A]

omit [Augmentation K V A] in
theorem relinkNext_slots {s : Store K V A} {l : Leaf K V} {i : Nat} :
    Post (relinkNext s l i) (fun p => SameSlots s p) := by
  unfold relinkNext
  split
  · exact Post.any fun a => Post.pure SameSlots.setLeaf
  · exact Post.pure SameSlots.refl

theorem handleLeaf_slots {s : Store K V A} {st : Statistic} {n : Inner K A} {i j : Nat} :
    Post (handleLeafUnderSize s st n i j) (fun p => SameSlots s p.2.1) := by
  unfold handleLeafUnderSize
  refine Post.any fun ps => Post.any fun ns => Post.any fun fx => ?_
  cases fx with
  | rotateRight =>
    refine Post.bind (P := fun p => SameSlots s p.2.1) ?_ fun p hp => Post.pure hp
    unfold rotateRightForLeaf
    refine Post.any fun a => Post.any fun b => Post.any fun c => Post.any fun d => Post.any fun e => ?_
    dsimp only
    split
    · exact Post.bind' (fun a h => by cases h)
    refine Post.any fun f => Post.any fun g => Post.any fun h => Post.any fun r => ?_
    refine Post.any fun r2 => Post.any fun r3 => Post.pure ?_
    exact (SameSlots.setLeaf.trans SameSlots.setLeaf).trans SameSlots.cacheLeaf
  | rotateLeft =>
    refine Post.bind (P := fun p => SameSlots s p.2.1) ?_ fun p hp => Post.pure hp
    unfold rotateLeftForLeaf
    refine Post.any fun a => Post.any fun b => Post.any fun c => Post.any fun d => Post.any fun e => ?_
    dsimp only
    split
    · exact Post.bind' (fun a h => by cases h)
    refine Post.any fun f => Post.any fun g => Post.any fun h => Post.any fun r => ?_
    refine Post.any fun r2 => Post.any fun r3 => Post.any fun r4 => Post.pure ?_
    exact (SameSlots.setLeaf.trans SameSlots.setLeaf).trans SameSlots.cacheLeaf
  | mergeLeft =>
    refine Post.bind (P := fun p => SameSlots s p.2.1) ?_ fun p hp => Post.pure hp
    unfold mergeLeafNodeLeft
    refine Post.any fun a => Post.any fun b => Post.any fun c => Post.any fun d => ?_
    refine Post.bind SameSlots.takeLeaf fun e he => Post.any fun f => Post.any fun g => Post.any fun h => ?_
    refine Post.bind relinkNext_slots fun u hu => Post.any fun w => Post.pure ?_
    exact ((he.trans SameSlots.setLeaf).trans hu).trans SameSlots.cacheLeaf
  | mergeRight =>
    refine Post.bind (P := fun p => SameSlots s p.2.1) ?_ fun p hp => Post.pure hp
    unfold mergeLeafNodeWithRight
    refine Post.any fun a => Post.any fun b => Post.any fun c => Post.any fun d => ?_
    refine Post.bind SameSlots.takeLeaf fun e he => Post.any fun f => Post.any fun g => Post.any fun h => ?_
    refine Post.any fun h' => Post.bind relinkNext_slots fun u hu => Post.any fun w => Post.pure ?_
    exact ((he.trans SameSlots.setLeaf).trans hu).trans SameSlots.cacheLeaf

theorem rotateRightInner_slots {s : Store K V A} {n : Inner K A} {i : Nat} :
    Post (tryRotateRightInner s n i) (fun p => ∀ q, p = some q → SameSlots s q.1) := by
  unfold tryRotateRightInner
  refine Post.any fun a => Post.any fun b => Post.any fun c => Post.any fun d => Post.any fun e => ?_
  split
  · refine Post.any fun f => Post.any fun g => Post.any fun h => Post.any fun r => ?_
    refine Post.any fun r2 => Post.any fun r3 => Post.pure ?_
    rintro q ⟨⟩
    exact SameSlots.setInner.trans SameSlots.setInner
  · exact Post.pure (by intro q h; cases h)

theorem rotateLeftInner_slots {s : Store K V A} {n : Inner K A} {i : Nat} :
    Post (tryRotateLeftInner s n i) (fun p => ∀ q, p = some q → SameSlots s q.1) := by
  unfold tryRotateLeftInner
  refine Post.any fun a => Post.any fun b => Post.any fun c => Post.any fun d => Post.any fun e => ?_
  split
  · refine Post.any fun f => Post.any fun g => Post.any fun h => Post.any fun r => ?_
    refine Post.any fun r2 => Post.any fun r3 => Post.pure ?_
    rintro q ⟨⟩
    exact SameSlots.setInner.trans SameSlots.setInner
  · exact Post.pure (by intro q h; cases h)

theorem mergeInner_slots {s : Store K V A} {n : Inner K A} {i : Nat} :
    Post (mergeInnerNode s n i) (fun p => SameSlots s p.2.1) := by
  unfold mergeInnerNode
  dsimp only
  split
  · exact Post.bind' (fun a h => by cases h)
  refine Post.any fun a => Post.any fun b => Post.any fun c => Post.any fun d => Post.any fun e => ?_
  refine Post.bind SameSlots.takeInner fun f hf => Post.any fun g => Post.any fun h => ?_
  exact Post.any fun r => Post.pure (hf.trans SameSlots.setInner)

theorem handleInner_slots {s : Store K V A} {st : Statistic} {n : Inner K A} {i : Nat} {kv : K × V} :
    Post (handleInnerUnderSize s st n i kv) (fun p => SameSlots s p.2.1) := by
  unfold handleInnerUnderSize
  refine Post.bind (P := fun p => ∀ q, p = some q → SameSlots s q.1) ?_ ?_
  · split
    · exact rotateRightInner_slots
    · exact Post.pure (by intro q h; cases h)
  rintro (_ | ⟨s1, n1⟩) h1
  · refine Post.bind (P := fun p => ∀ q, p = some q → SameSlots s q.1) ?_ ?_
    · split
      · exact rotateLeftInner_slots
      · exact Post.pure (by intro q h; cases h)
    rintro (_ | ⟨s1, n1⟩) h1
    · refine Post.bind mergeInner_slots ?_
      rintro ⟨ok, s1, n1⟩ h2
      dsimp only
      split
      · exact Post.pure h2
      · exact Post.pure h2
    · exact Post.pure (h1 _ rfl)
  · exact Post.pure (h1 _ rfl)

theorem removeAscend_slots {stack : List StackEntry} {s : Store K V A} {st : Statistic}
    {r : DeleteResult K V} : Post (removeAscend s st stack r) (fun p => SameSlots s p.2.1) := by
  induction stack generalizing s st r with
  | nil => unfold removeAscend; exact Post.pure SameSlots.refl
  | cons e stack ih =>
    obtain ⟨id, idx, c⟩ := e
    cases r with
    | done kv =>
      unfold removeAscend
      exact Post.any fun a => Post.any fun n => Post.any fun n' => ih.mono
        (fun p h => SameSlots.setInner.trans h)
    | innerUnderSize kv =>
      unfold removeAscend
      refine Post.any fun a => Post.bind handleInner_slots fun b hb => ih.mono
        (fun p h => (hb.trans SameSlots.setInner).trans h)
    | leafUnderSize i =>
      unfold removeAscend
      refine Post.any fun a => Post.bind handleLeaf_slots fun b hb => ih.mono
        (fun p h => (hb.trans SameSlots.setInner).trans h)

omit [Augmentation K V A] in
theorem removeRoot_slots {s : Store K V A} {root : NodeId} {r : DeleteResult K V} :
    Post (removeRoot s root r) (fun p => SameSlots s p.2.1) := by
  unfold removeRoot
  split
  · exact Post.pure SameSlots.refl
  · refine Post.any fun a => Post.any fun b => ?_
    split
    · exact Post.any fun c => Post.pure SameSlots.refl
    · exact Post.pure SameSlots.refl
  · exact Post.any fun a => Post.any fun b => Post.any fun c => Post.pure SameSlots.setLeaf

theorem removeByRef_slots {t : Tree K V A} {e : EntryRef} :
    Post (t.removeByRef e) (fun p => SameSlots t.store p.2.store) := by
  unfold Tree.removeByRef
  refine Post.any fun l => Post.any fun p => ?_
  obtain ⟨l', dr⟩ := p
  refine Post.bind removeAscend_slots ?_
  rintro ⟨r, s, st⟩ h1
  refine Post.bind removeRoot_slots ?_
  rintro ⟨kv, s', root⟩ h2
  refine Post.any fun a => ?_
  dsimp only
  split
  · exact Post.bind' (fun a h => by cases h)
  · exact Post.pure ((SameSlots.setLeaf.trans h1).trans h2)

theorem remove_slots [LinearOrder K] {t : Tree K V A} {k : K} :
    Post (t.remove k) (fun p => SameSlots t.store p.2.store) := by
  unfold Tree.remove Tree.removeImpl
  refine Post.bind (P := fun p => SameSlots t.store p.2.store) ?_ fun p hp => Post.pure hp
  refine Post.any fun o => ?_
  cases o with
  | none => exact Post.pure SameSlots.refl
  | some e => exact Post.bind removeByRef_slots fun p hp => Post.pure hp

/-! ## Calls that change values only -/

/-- Nothing but values, the cache and the root augmentation differ. -/
structure SameNodes (t t' : Tree K V A) : Prop where
  root : t'.root = t.root
  inners : t'.store.inners = t.store.inners
  slots : t'.store.leaves.length = t.store.leaves.length
  leaves : t'.store.allocatedLeaves = t.store.allocatedLeaves
  st : t'.st = t.st

omit [Augmentation K V A] in
theorem SameNodes.refl {t : Tree K V A} : SameNodes t t := ⟨rfl, rfl, rfl, rfl, rfl⟩

omit [Augmentation K V A] in
theorem countP_set_some' {α : Type} {m : List (Option α)} {i : Nat} {n n' : α}
    (h : m[i]? = some (some n)) :
    (m.set i (some n')).countP (·.isSome) = m.countP (·.isSome) := by
  induction m generalizing i with
  | nil => simp at h
  | cons a m ih =>
    cases i with
    | zero =>
      obtain rfl : a = some n := by simpa using h
      simp
    | succ i =>
      rw [List.set_cons_succ, List.countP_cons, List.countP_cons, ih (by simpa using h)]

omit [Augmentation K V A] in
theorem get_same [LinearOrder K] {t : Tree K V A} {k : K} :
    Post (t.get k) (fun p => SameNodes t p.2) := by
  unfold Tree.get
  refine Post.any fun o => ?_
  cases o with
  | some i => exact Post.any fun v => Post.pure SameNodes.refl
  | none => exact Post.any fun i => Post.any fun v => Post.pure ⟨rfl, rfl, rfl, rfl, rfl⟩

omit [Augmentation K V A] in
theorem updateInLeaf_same [LinearOrder K] {s : Store K V A} {i : Nat} {k : K} {f : V → V} :
    Post (updateInLeaf s i k f) (fun p => p.2.inners = s.inners ∧
      p.2.leaves.length = s.leaves.length ∧ p.2.allocatedLeaves = s.allocatedLeaves) := by
  unfold updateInLeaf
  refine Post.bind' fun l hl => ?_
  have hl' : s.leaves[i]? = some (some l) := by
    unfold Store.getLeaf at hl
    split at hl
    · next e => cases hl; exact e
    · cases hl
  split
  · exact Post.any fun kv => Post.pure ⟨rfl, by simp [Store.setLeaf], countP_set_some' hl'⟩
  · exact Post.pure ⟨rfl, rfl, rfl⟩

omit [Augmentation K V A] in
theorem getMut_same [LinearOrder K] {t : Tree K V A} {k : K} {f : V → V} :
    Post (t.getMut k f) (fun p => SameNodes t p.2) := by
  unfold Tree.getMut
  refine Post.any fun o => ?_
  cases o with
  | some i =>
    exact Post.bind updateInLeaf_same fun p hp => Post.pure ⟨rfl, hp.1, hp.2.1, hp.2.2, rfl⟩
  | none =>
    exact Post.any fun i => Post.bind updateInLeaf_same fun p hp =>
      Post.pure ⟨rfl, hp.1, hp.2.1, hp.2.2, rfl⟩

/-- Calls that neither insert, nor remove, nor clear. -/
def Call.keepsNodes : Call K V → Bool
  | .insert _ _ => false
  | .remove _ => false
  | .clear => false
  | _ => true

theorem call_same [LinearOrder K] {t : Tree K V A} {c : Call K V}
    (h : c.keepsNodes = true) :
    Post (t.call c) (fun p => SameNodes t p.2) := by
  cases c <;> first | (simp [Call.keepsNodes] at h; done) | unfold Tree.call
  case get => exact Post.bind get_same fun p hp => Post.pure hp
  case getMut => exact Post.bind getMut_same fun p hp => Post.pure hp
  case first => exact Post.any fun _ => Post.pure SameNodes.refl
  case last => exact Post.any fun _ => Post.pure SameNodes.refl
  case len => exact Post.pure SameNodes.refl
  case isEmpty => exact Post.pure SameNodes.refl
  case iter => exact Post.any fun _ => Post.any fun _ => Post.pure SameNodes.refl
  case iterBack => exact Post.any fun _ => Post.any fun _ => Post.pure SameNodes.refl
  case cursorNext => exact Post.any fun _ => Post.pure SameNodes.refl
  case cursorPrev => exact Post.any fun _ => Post.pure SameNodes.refl
  case cursorValue => exact Post.any fun _ => Post.pure SameNodes.refl
  case getCursor =>
    refine Post.any fun o => ?_
    cases o with
    | none => exact Post.pure SameNodes.refl
    | some p => exact Post.pure SameNodes.refl

omit [Augmentation K V A] in
theorem SameNodes.counts {t t' : Tree K V A} (h : SameNodes t t') :
    t'.levels = t.levels ∧ t'.innersInTree = t.innersInTree := by
  have h1 : ∀ n i, t'.store.levelsFrom n i = t.store.levelsFrom n i := by
    intro n
    induction n with
    | zero => intro i; rfl
    | succ n ih =>
      intro i
      cases i with
      | leaf i => rfl
      | inner i => simp only [Store.levelsFrom, h.inners, ih]
  have h2 : ∀ n i, t'.store.reachFrom n i = t.store.reachFrom n i := by
    intro n
    induction n with
    | zero => intro i; rfl
    | succ n ih =>
      intro i
      cases i with
      | leaf i => rfl
      | inner i => simp only [Store.reachFrom, h.inners, funext ih]
  exact ⟨by rw [Tree.levels, h1, h.root]; rfl, by rw [Tree.innersInTree, h2, h.root]; rfl⟩

/-! ## The account of a history -/

/-- The store's account: `n` inner nodes are allocated and not in the tree; the slots of the tables are
those of allocated nodes and one for every merge. -/
structure Account (n : Nat) (t : Tree K V A) : Prop where
  inners : t.store.allocatedInners = t.innersInTree + n
  innerSlots : t.store.inners.length = t.store.allocatedInners + t.mergedInners
  leafSlots : t.store.leaves.length = t.store.allocatedLeaves + t.mergedLeaves

variable [LinearOrder K]

theorem Account.same {n : Nat} {t t' : Tree K V A} (h : Account n t) (s : SameNodes t t') :
    Account n t' := by
  have h1 : t'.store.allocatedInners = t.store.allocatedInners := by
    rw [Store.allocatedInners, s.inners]; rfl
  have h2 : t'.mergedInners = t.mergedInners := by rw [Tree.mergedInners, s.st]; rfl
  have h3 : t'.mergedLeaves = t.mergedLeaves := by rw [Tree.mergedLeaves, s.st]; rfl
  refine ⟨?_, ?_, ?_⟩
  · rw [h1, s.counts.2]; exact h.inners
  · rw [h1, h2, s.inners]; exact h.innerSlots
  · rw [h3, s.slots, s.leaves]; exact h.leafSlots

theorem Account.new : Account 0 (Tree.new : Tree K V A) :=
  ⟨rfl, rfl, rfl⟩

/-- The account after an insertion. -/
theorem Account.insert {μ : Nat} (hμ : μ ≤ 16) {n : Nat} {t t' : Tree K V A} {l : List (K × V)}
    (hi : Inv μ t l) (hl : t.len + 1 < 2 ^ 64) {k : K} {v : V} {o : Option V} (h : Account n t)
    (e : t.insert k v = .ok (o, t')) : t.levels ≤ t'.levels ∧ Account n t' := by
  obtain ⟨t2, e2, hi2, -⟩ := hi.insert hμ hl k v
  obtain ⟨H, g, w, rfl, h1⟩ := hi
  obtain ⟨t1, H', g', h2, w', -, -, hst, ac⟩ := insert_ok hμ w (w.depth h1) k v
  rw [e] at h2 e2
  cases h2; cases e2
  have hm : t'.mergedInners = t.mergedInners := by rw [Tree.mergedInners, hst]; rfl
  have hm' : t'.mergedLeaves = t.mergedLeaves := by rw [Tree.mergedLeaves, hst]; rfl
  have a1 := h.inners
  have a2 := h.innerSlots
  have a3 := h.leafSlots
  rw [w.innersInTree h1] at a1
  rw [w.allocatedLeaves] at a3
  rw [w.levels h1, w'.levels hi2.lt]
  have := ac.nodes
  have := ac.alloc
  have := ac.leaves
  refine ⟨ac.low, ?_, ?_, ?_⟩
  · rw [w'.innersInTree hi2.lt]; omega
  · rw [hm]; omega
  · rw [hm', w'.allocatedLeaves]; omega

/-- The account after a removal. -/
theorem Account.remove {μ : Nat} (hμ : μ ≤ 16) {n : Nat} {t t' : Tree K V A} {l : List (K × V)}
    (hi : Inv μ t l) {k : K} {o : Option V} (h : Account n t)
    (e : t.remove k = .ok (o, t')) : t'.levels ≤ t.levels ∧ Account (n + (t.levels - t'.levels)) t' := by
  obtain ⟨t2, e2, hi2, -⟩ : ∃ t2, t.remove k = .ok (lookup k l, t2) ∧ Inv μ t2 (erase k l) ∧ True := by
    rcases hi.remove hμ k with ⟨t2, e2, h2, -⟩ | ⟨-, e2⟩
    · exact ⟨t2, e2, h2, trivial⟩
    · rw [e] at e2; cases e2
  obtain ⟨H, g, w, rfl, h1⟩ := hi
  have hs := remove_slots _ e
  rcases remove_ok hμ w (w.depth h1) k with ⟨t1, H', g', h2, w', -, -, -, -, -, -, ac⟩ | ⟨-, h2⟩
  · rw [e] at h2 e2
    cases h2; cases e2
    have a1 := h.inners
    have a2 := h.innerSlots
    have a3 := h.leafSlots
    rw [w.innersInTree h1] at a1
    rw [w.allocatedLeaves] at a3
    rw [w.levels h1, w'.levels hi2.lt]
    have b1 := ac.low
    have b2 : _ + _ + t'.mergedInners = _ + t.mergedInners := ac.nodes
    have b3 : _ + t'.mergedInners = _ + t.mergedInners := ac.alloc
    have b4 : _ + t'.mergedLeaves = _ + t.mergedLeaves := ac.leaves
    have b5 := hs.inners
    have b6 := hs.leaves
    dsimp only at b5 b6
    refine ⟨b1, ?_, ?_, ?_⟩
    · rw [w'.innersInTree hi2.lt]; omega
    · omega
    · rw [w'.allocatedLeaves]; omega
  · rw [e] at h2; cases h2

/-- The account after any history. -/
theorem Account.run {μ : Nat} (hμ : μ ≤ 16) {n : Nat} {t t' : Tree K V A} {l : List (K × V)}
    {cs : List (Call K V)} {as} (hi : Inv μ t l) (hl : t.len + cs.length < 2 ^ 64) (h : Account n t)
    (e : t.run cs = .ok (as, t')) : Account (t.lostLevels n cs) t' := by
  induction cs generalizing t l n as with
  | nil => cases e; exact h
  | cons c cs ih =>
    rw [Tree.run] at e
    obtain ⟨⟨a, t1⟩, h1, e1⟩ := bind_ok e
    obtain ⟨⟨as', t2⟩, h2, e2⟩ := bind_ok e1
    cases e2
    rw [List.length_cons] at hl
    rcases call_ok hμ hi (by omega) c with ⟨t1', h3, h4⟩ | ⟨-, k, -, h3⟩
    · rw [h1] at h3
      cases h3
      have hlen := call_length l c
      rw [Tree.lostLevels, h1]
      have hl2 : t1.len + cs.length < 2 ^ 64 := by rw [h4.len]; rw [hi.len] at hl; omega
      refine ih h4 hl2 ?_ h2
      have hsame : c.keepsNodes = true → Account (n + (t.levels - t1.levels)) t1 := by
        intro hc
        have hs := call_same hc _ h1
        rw [hs.counts.1, Nat.sub_self]
        exact h.same hs
      cases c with
      | insert k v =>
        rw [Tree.call] at h1
        obtain ⟨⟨o, t3⟩, h5, h6⟩ := bind_ok h1
        cases h6
        obtain ⟨h7, h8⟩ := h.insert hμ hi (by omega) h5
        dsimp only
        rw [Nat.sub_eq_zero_of_le h7]
        exact h8
      | remove k =>
        rw [Tree.call] at h1
        obtain ⟨⟨o, t3⟩, h5, h6⟩ := bind_ok h1
        cases h6
        exact (h.remove hμ hi h5).2
      | clear => rw [Tree.call] at h1; cases h1; exact Account.new
      | _ => exact hsame rfl
    · rw [h1] at h3; cases h3

end
end Bpt
