import Verif.Props.Demo
import Verif.Props.Iterators
import Verif.Props.Augmentations
import Verif.Props.Structure
import Verif.Proofs.Rank

/-!
# Absence of failures, storage of leaves, statistics: C12, C37, C40

A failure of the Rust code (panic, out-of-range or uninitialised access, access to a freed node, an
endless loop) is an `.error` in the model.
-/

namespace Bpt
open Spec
variable {K V A : Type} [LinearOrder K] [Augmentation K V A]

/-! ## C12 -/

/-- **C12.** On every map reachable from an empty one, or from a bulk load of even size (always so up to 4160
keys), no call fails: map calls and cursor calls (with
any cursor), iterators under any interleaving of `next` and `next_back`, consuming the map and dropping
the iterator at any point, dropping the map, searching / updating / removing with any search
augmentation that respects the slices it is given, ranks with any rank augmentation, and
`descend_visit` with any visitor that respects the number of keys it is shown. `insert` needs room for
the new length in a `usize`. -/
theorem C12_no_failure {t : Tree K V A} (h : ReachableEven t) :
    (∀ c : Call K V, t.len + 1 < 2 ^ 64 → ∃ a t', t.call c = .ok (a, t') ∧ ReachableEven t') ∧
    (∀ ds, ∃ it as, t.iter = .ok it ∧ it.runCalls t ds = .ok as) ∧
    (∀ ds, ∃ it as it' rest, t.intoIter = .ok it ∧ it.runCalls ds = .ok (as, it') ∧
      it'.drop = .ok rest) ∧
    (∃ l, t.drop = .ok l) ∧
    (∀ (Q : Type) [SearchAugmentation K V A Q] (q : Q), SearchInRange K V A →
      (∃ o, t.getByAugmentation q = .ok o) ∧
      (∃ o t', t.removeByAugmentation q = .ok (o, t') ∧ ReachableEven t') ∧
      (∀ f, ∃ o t', t.getMutByAugmentation q f = .ok (o, t') ∧ ReachableEven t')) ∧
    (∀ (R : Type) [RankAugmentation K V A R] (k : K), ∃ r, t.rankByAugmentation k = .ok r) ∧
    (∀ (σ R : Type) (v : Visitor K V A σ R) (st : σ),
      (∀ st ks as i, (v.visitInner st ks as).1 = .goDown i → i ≤ ks.length) →
      ∃ r, t.descendVisit v st = .ok r) := by
  obtain ⟨H, g, w, hlen, _⟩ := h.wf
  have hi : Inv 1 t g.toL := ⟨H, g, w, rfl, hlen⟩
  have hs := hi.shows
  refine ⟨?_, ?_, ?_, ?_, ?_, ?_, ?_⟩
  · intro c hl
    rcases call_ok (by omega) hi hl c with ⟨t', h1, h2⟩ | ⟨h1, _⟩
    · refine ⟨_, t', h1, ?_⟩
      cases c with
      | insert k v =>
        obtain ⟨t2, h3, _⟩ := hi.insert (by omega) hl k v
        simp only [Tree.call, h3, ok_bind, pure_ok, Except.ok.injEq, Prod.mk.injEq] at h1
        exact h1.2 ▸ .insert h hl h3
      | remove k =>
        rcases hi.remove (by omega) k with ⟨t2, h3, _⟩ | ⟨h3, _⟩
        · simp only [Tree.call, h3, ok_bind, pure_ok, Except.ok.injEq, Prod.mk.injEq] at h1
          exact h1.2 ▸ .remove h h3
        · omega
      | get k =>
        obtain ⟨t2, h3, _⟩ := hi.get k
        simp only [Tree.call, h3, ok_bind, pure_ok, Except.ok.injEq, Prod.mk.injEq] at h1
        exact h1.2 ▸ .get h h3
      | getMut k f =>
        obtain ⟨t2, h3, _⟩ := hi.getMut k f
        simp only [Tree.call, h3, ok_bind, pure_ok, Except.ok.injEq, Prod.mk.injEq] at h1
        exact h1.2 ▸ .getMut trivial h h3
      | clear =>
        simp only [Tree.call, pure_ok, Except.ok.injEq, Prod.mk.injEq] at h1
        exact h1.2 ▸ .clear h
      | len => simp only [Tree.call, pure_ok, Except.ok.injEq, Prod.mk.injEq] at h1; exact h1.2 ▸ h
      | isEmpty => simp only [Tree.call, pure_ok, Except.ok.injEq, Prod.mk.injEq] at h1; exact h1.2 ▸ h
      | first =>
        cases h3 : t.first with
        | error e => simp only [Tree.call, h3, error_bind] at h1; cases h1
        | ok o => simp only [Tree.call, h3, ok_bind, pure_ok, Except.ok.injEq, Prod.mk.injEq] at h1; exact h1.2 ▸ h
      | last =>
        cases h3 : t.last with
        | error e => simp only [Tree.call, h3, error_bind] at h1; cases h1
        | ok o => simp only [Tree.call, h3, ok_bind, pure_ok, Except.ok.injEq, Prod.mk.injEq] at h1; exact h1.2 ▸ h
      | iter n =>
        obtain ⟨it, h3, h4⟩ := C07_exact_behaviour h.bulk hs (List.replicate n .front)
        simp only [Tree.call, h3, h4, ok_bind, pure_ok, Except.ok.injEq, Prod.mk.injEq] at h1
        exact h1.2 ▸ h
      | iterBack n =>
        obtain ⟨it, h3, h4⟩ := C07_exact_behaviour h.bulk hs (List.replicate n .back)
        simp only [Tree.call, h3, h4, ok_bind, pure_ok, Except.ok.injEq, Prod.mk.injEq] at h1
        exact h1.2 ▸ h
      | cursorNext c =>
        cases h3 : c.nextWithValue t with
        | error e => simp only [Tree.call, h3, error_bind] at h1; cases h1
        | ok o => simp only [Tree.call, h3, ok_bind, pure_ok, Except.ok.injEq, Prod.mk.injEq] at h1; exact h1.2 ▸ h
      | cursorPrev c =>
        cases h3 : c.prevWithValue t with
        | error e => simp only [Tree.call, h3, error_bind] at h1; cases h1
        | ok o => simp only [Tree.call, h3, ok_bind, pure_ok, Except.ok.injEq, Prod.mk.injEq] at h1; exact h1.2 ▸ h
      | cursorValue c =>
        cases h3 : c.value t with
        | error e => simp only [Tree.call, h3, error_bind] at h1; cases h1
        | ok o => simp only [Tree.call, h3, ok_bind, pure_ok, Except.ok.injEq, Prod.mk.injEq] at h1; exact h1.2 ▸ h
      | getCursor k =>
        cases h3 : t.getCursor k with
        | error e => simp only [Tree.call, h3, error_bind] at h1; cases h1
        | ok o =>
          cases o <;> simp only [Tree.call, h3, ok_bind, pure_ok, Except.ok.injEq, Prod.mk.injEq] at h1 <;>
            exact h1.2 ▸ h
    · omega
  · intro ds
    obtain ⟨it, h1, h2⟩ := C07_exact_behaviour h.bulk hs ds
    exact ⟨it, _, h1, h2⟩
  · intro ds
    obtain ⟨it, it', h1, _, h2, h3⟩ := C08_into_iter h.bulk hs ds
    exact ⟨it, _, it', _, h1, h2, h3⟩
  · exact ⟨_, C36_drop_entries h.bulk hs⟩
  · intro Q _ q hr
    obtain ⟨o, h1, _, ⟨t', h2, _⟩, h3⟩ := C41_any_search hr h hs q
    refine ⟨⟨o, h1⟩, ⟨o, t', h2, .removeBy h h2⟩, ?_⟩
    intro f
    obtain ⟨t', h4, _⟩ := h3 f
    exact ⟨_, t', h4, .getMutBy trivial h h4⟩
  · intro R _ k
    obtain ⟨c, x, r, _, _, _, h1⟩ := rank_inv w k (fun _ _ _ => True) trivial (by intros; trivial)
    exact ⟨_, h1⟩
  · intro σ R v st hv
    exact (C34_no_failure h.bulk v st).2 hv

example : ∀ c : Call Nat Nat, ∃ a t', demo.call c = .ok (a, t') ∧ ReachableEven t' :=
  fun c => (C12_no_failure demo_reach.mut.even).1 c (by
    rw [show demo.len = 100 by decide +kernel]; omega)
-- after a bulk load
example := C12_no_failure demoBulk_even

/-! ## C37 -/

omit [LinearOrder K] [Augmentation K V A] in
/-- The nodes reached from the root by following child ids through the store. -/
inductive FromRoot (t : Tree K V A) : NodeId → Prop
  | root : FromRoot t t.root
  | child {i : Nat} {n : Inner K A} {c : NodeId} : FromRoot t (.inner i) →
      t.store.inners[i]? = some (some n) → c ∈ n.childs → FromRoot t c

omit [LinearOrder K] [Augmentation K V A] in
/-- The store holds a leaf under id `i`. -/
def LiveLeaf (t : Tree K V A) (i : Nat) : Prop := ∃ lf, t.store.leaves[i]? = some (some lf)

omit [LinearOrder K] [Augmentation K V A] in
/-- Ids of all nodes of a ghost tree. -/
def T.ids : {h : Nat} → T K V A h → List NodeId
  | 0, x => [.leaf (GLeaf.id x)]
  | _ + 1, x => .inner (GNode.id x) :: (GNode.kids x).flatMap T.ids

omit [LinearOrder K] [Augmentation K V A] in
theorem T.nid_mem_ids {h : Nat} (x : T K V A h) : x.nid ∈ x.ids := by
  cases h <;> simp [T.ids, T.nid]

omit [LinearOrder K] [Augmentation K V A] in
theorem T.ids_leaf {h : Nat} (x : T K V A h) (i : Nat) :
    NodeId.leaf i ∈ x.ids ↔ i ∈ x.leaves.map (·.1) := by
  induction h with
  | zero => simp [T.ids, T.leaves]
  | succ h ih =>
    simp only [T.ids, List.mem_cons, reduceCtorEq, false_or, List.mem_flatMap, T.leaves, List.mem_map]
    constructor
    · rintro ⟨c, hc, h1⟩
      obtain ⟨p, hp, e⟩ := List.mem_map.1 ((ih c).1 h1)
      exact ⟨p, ⟨c, hc, hp⟩, e⟩
    · rintro ⟨p, ⟨c, hc, hp⟩, e⟩
      exact ⟨c, hc, (ih c).2 (List.mem_map.2 ⟨p, hp, e⟩)⟩

omit [LinearOrder K] [Augmentation K V A] in
theorem T.ids_inner {h : Nat} (x : T K V A h) (i : Nat) (hi : NodeId.inner i ∈ x.ids) :
    ∃ n, (i, n) ∈ x.nodes ∧ ∀ c ∈ n.childs, c ∈ x.ids := by
  induction h with
  | zero => simp [T.ids] at hi
  | succ h ih =>
    simp only [T.ids, List.mem_cons, List.mem_flatMap, NodeId.inner.injEq] at hi
    rcases hi with rfl | ⟨c, hc, hi⟩
    · refine ⟨GNode.inner x, nodes_head, ?_⟩
      intro c hc
      obtain ⟨y, hy, rfl⟩ := List.mem_map.1 (show c ∈ (GNode.kids x).map T.nid from hc)
      simp only [T.ids, List.mem_cons, List.mem_flatMap]
      exact .inr ⟨y, hy, y.nid_mem_ids⟩
    · obtain ⟨n, h1, h2⟩ := ih c hi
      refine ⟨n, ?_, ?_⟩
      · simp only [T.nodes, List.mem_cons, List.mem_flatMap]
        exact .inr ⟨c, hc, h1⟩
      · intro d hd
        simp only [T.ids, List.mem_cons, List.mem_flatMap]
        exact .inr ⟨c, hc, h2 d hd⟩

omit [Augmentation K V A] in
theorem fromRoot_ids {μ : Nat} {t : Tree K V A} {H : Nat} {g : T K V A H} (w : WF μ t g) {i : NodeId} :
    FromRoot t i ↔ i ∈ g.ids := by
  constructor
  · intro h
    induction h with
    | root => rw [w.root]; exact g.nid_mem_ids
    | @child i n c _ hi hc ih =>
      obtain ⟨n', h1, h2⟩ := g.ids_inner i ih
      have := w.imem (i, n') h1
      rw [hi] at this
      cases this
      exact h2 c hc
  · have key : ∀ (h : Nat) (x : T K V A h), (∀ p ∈ x.nodes, p ∈ g.nodes) → FromRoot t x.nid →
        ∀ i ∈ x.ids, FromRoot t i := by
      intro h
      induction h with
      | zero =>
        intro x _ hx i hi
        simp only [T.ids, List.mem_singleton] at hi
        rw [hi]; exact hx
      | succ h ih =>
        intro x hn hx i hi
        simp only [T.ids, List.mem_cons, List.mem_flatMap] at hi
        rcases hi with rfl | ⟨c, hc, hi⟩
        · exact hx
        · refine ih c ?_ ?_ i hi
          · intro p hp
            refine hn p ?_
            simp only [T.nodes, List.mem_cons, List.mem_flatMap]
            exact .inr ⟨c, hc, hp⟩
          · exact .child hx (w.imem _ (hn _ nodes_head)) (List.mem_map_of_mem hc)
    exact key H g (fun _ h => h) (w.root ▸ .root) i

omit [LinearOrder K] [Augmentation K V A] in
theorem Seg.at {m : List (Option (Leaf K V))} {L : List (Nat × List (K × V))} {p n : Option Nat}
    (h : Seg m p L n) (j : Nat) {x : Nat × List (K × V)} (hx : L[j]? = some x) :
    m[x.1]? = some (some ⟨x.2, if j = 0 then p else (L[j - 1]?).map (·.1),
      if j + 1 = L.length then n else (L[j + 1]?).map (·.1)⟩) := by
  obtain ⟨hlt, hv⟩ := List.getElem?_eq_some_iff.1 hx
  have e1 : L = L.take j ++ x :: L.drop (j + 1) := by
    rw [← hv, List.cons_getElem_drop_succ, List.take_append_drop]
  have h' := h
  rw [e1] at h'
  have := h'.get
  rw [this]
  have ea : lstId p (L.take j) = if j = 0 then p else (L[j - 1]?).map (·.1) := by
    split
    · next h0 => subst h0; simp
    · next h0 =>
      unfold lstId
      rw [List.getLast?_eq_getElem?, List.length_take, Nat.min_eq_left (by omega),
        List.getElem?_take_of_lt (by omega)]
      rw [List.getElem?_eq_getElem (by omega)]; rfl
  have eb : hdId (L.drop (j + 1)) n = if j + 1 = L.length then n else (L[j + 1]?).map (·.1) := by
    unfold hdId
    rw [List.head?_drop]
    split
    · next h0 => rw [List.getElem?_eq_none (by omega)]; rfl
    · next h0 => rw [List.getElem?_eq_getElem (by omega)]; rfl
  rw [ea, eb]

/-- **C37.** There is a list `ids` of leaf ids, without repetition, such that: the store holds a leaf
under an id if and only if the id is in the list, if and only if it is reached from the root through
child ids; the leaves are linked in the order of the list in both directions, ending with no link; their
items, concatenated, are the content; and every inner node reached from the root is held by the store.
So nothing reachable was freed, and no leaf that was merged away is still held. -/
theorem C37_leaves {t : Tree K V A} (h : ReachableBulk t) {l : List (K × V)} (hl : Shows t l) :
    (∀ i, FromRoot t (.inner i) → ∃ n, t.store.inners[i]? = some (some n)) ∧
    ∃ ids : List Nat, ids.Nodup ∧
      (∀ i, LiveLeaf t i ↔ i ∈ ids) ∧
      (∀ i, FromRoot t (.leaf i) ↔ i ∈ ids) ∧
      t.firstLeaf.toOption = ids.head? ∧ t.lastLeaf.toOption = ids.getLast? ∧
      ∃ leaves : List (Leaf K V),
        (∀ (j i : Nat), ids[j]? = some i → ∃ lf, leaves[j]? = some lf ∧
          t.store.leaves[i]? = some (some lf) ∧
          lf.prev = (if j = 0 then none else ids[j - 1]?) ∧ lf.next = ids[j + 1]?) ∧
        leaves.length = ids.length ∧ leaves.flatMap (·.data) = l := by
  obtain ⟨H, g, w, hlt, _⟩ := h.wf
  have hi : Inv 0 t g.toL := ⟨H, g, w, rfl, hlt⟩
  cases hi.unique hl
  obtain ⟨x, L', hx, hf⟩ := w.reads.first
  obtain ⟨L'', y, hy, hla⟩ := w.reads.last
  refine ⟨?_, g.leaves.map (·.1), w.lnodup, ?_, ?_, ?_, ?_, ?_⟩
  · intro i hu
    obtain ⟨n, h1, _⟩ := g.ids_inner i ((fromRoot_ids w).1 hu)
    exact ⟨n, w.imem _ h1⟩
  · intro i
    constructor
    · rintro ⟨lf, h1⟩; exact w.live i lf h1
    · intro hm
      obtain ⟨p, hp, rfl⟩ := List.mem_map.1 hm
      obtain ⟨j, hj⟩ := List.mem_iff_getElem?.1 hp
      exact ⟨_, w.seg.at j hj⟩
  · intro i
    rw [fromRoot_ids w, T.ids_leaf]
  · rw [hf, List.head?_map, hx]; rfl
  · rw [hla, List.getLast?_map, hy, List.getLast?_concat]; rfl
  · let mk : Nat → Leaf K V := fun j =>
      ⟨((g.leaves[j]?).map (·.2)).getD [], if j = 0 then none else (g.leaves[j - 1]?).map (·.1),
        if j + 1 = g.leaves.length then none else (g.leaves[j + 1]?).map (·.1)⟩
    refine ⟨(List.range g.leaves.length).map mk, ?_, by simp, ?_⟩
    · intro j i hj
      rw [List.getElem?_map, Option.map_eq_some_iff] at hj
      obtain ⟨p, hp, rfl⟩ := hj
      have hlt : j < g.leaves.length := (List.getElem?_eq_some_iff.1 hp).1
      refine ⟨mk j, ?_, ?_, ?_, ?_⟩
      · rw [List.getElem?_map, List.getElem?_range hlt]; rfl
      · rw [w.seg.at j hp]
        simp only [mk, hp, Option.map_some, Option.getD_some]
      · simp only [mk, List.getElem?_map]
      · simp only [mk, List.getElem?_map]
        split
        · next e => rw [List.getElem?_eq_none (by omega)]; rfl
        · rfl
    · rw [List.flatMap_map]
      show (List.range g.leaves.length).flatMap (fun j => ((g.leaves[j]?).map (·.2)).getD []) = g.toL
      unfold T.toL
      generalize g.leaves = L
      induction L with
      | nil => rfl
      | cons a L ih =>
        rw [List.length_cons, List.range_succ_eq_map, List.flatMap_cons, List.flatMap_map]
        simp only [List.getElem?_cons_succ, ih]
        rfl

example : ∃ ids : List Nat, ids.Nodup ∧ (∀ i, LiveLeaf demo i ↔ i ∈ ids) ∧
    (∀ i, FromRoot demo (.leaf i) ↔ i ∈ ids) := by
  obtain ⟨_, ids, h1, h2, h3, _⟩ := C37_leaves demo_reach.mut.bulk demo_shows
  exact ⟨ids, h1, h2, h3⟩

/-! ## C40 -/

/-- Number of fixes at leaf level recorded by the statistic. -/
def Statistic.atLeaves (s : Statistic) : Nat :=
  s.rotateRightLeaf + s.rotateLeftLeaf + s.mergeWithLeftLeaf + s.mergeWithRightLeaf

/-- No counter is smaller than before. -/
def Statistic.Grows (s s' : Statistic) : Prop :=
  s.rotateRightInner ≤ s'.rotateRightInner ∧ s.rotateLeftInner ≤ s'.rotateLeftInner ∧
  s.mergeWithLeftInner ≤ s'.mergeWithLeftInner ∧ s.mergeWithRightInner ≤ s'.mergeWithRightInner ∧
  s.rotateRightLeaf ≤ s'.rotateRightLeaf ∧ s.rotateLeftLeaf ≤ s'.rotateLeftLeaf ∧
  s.mergeWithLeftLeaf ≤ s'.mergeWithLeftLeaf ∧ s.mergeWithRightLeaf ≤ s'.mergeWithRightLeaf

/-- **C40.** A removal never decreases a counter of `statistic()` and records at most one fix at leaf
level, and none at all if the key is absent; `clear` starts the counters at zero; no other call changes
them. -/
theorem C40_statistics {t : Tree K V A} (h : ReachableEven t) (hl : t.len + 1 < 2 ^ 64) (c : Call K V) :
    ∃ a t', t.call c = .ok (a, t') ∧
      match c with
      | .remove _ => t.st.Grows t'.st ∧ t'.st.atLeaves ≤ t.st.atLeaves + 1 ∧
          (a = .value none → t'.st = t.st)
      | .clear => t'.st = {}
      | _ => t'.st = t.st := by
  obtain ⟨l, hi⟩ := h.inv
  have hc := (C12_no_failure h).1 c hl
  obtain ⟨a, t', h1, _⟩ := hc
  refine ⟨a, t', h1, ?_⟩
  cases c with
  | insert k v =>
    obtain ⟨t2, h3, _, h4⟩ := hi.insert (by omega) hl k v
    simp only [Tree.call, h3, ok_bind, pure_ok, Except.ok.injEq, Prod.mk.injEq] at h1
    exact h1.2 ▸ h4
  | remove k =>
    rcases hi.remove (by omega) k with ⟨t2, h3, _, h4, h5, h6, h7⟩ | ⟨h3, _⟩
    · simp only [Tree.call, h3, ok_bind, pure_ok, Except.ok.injEq, Prod.mk.injEq] at h1
      obtain ⟨rfl, rfl⟩ := h1
      refine ⟨h4, ?_, ?_⟩
      · simp only [Statistic.leafFixes] at h6
        simp only [Statistic.atLeaves]; omega
      · intro e
        rw [h7 (by injection e)]
    · omega
  | get k =>
    obtain ⟨t2, h3, _, h4⟩ := hi.get k
    simp only [Tree.call, h3, ok_bind, pure_ok, Except.ok.injEq, Prod.mk.injEq] at h1
    exact h1.2 ▸ h4
  | getMut k f =>
    obtain ⟨t2, h3, _, h4, _⟩ := hi.getMut k f
    simp only [Tree.call, h3, ok_bind, pure_ok, Except.ok.injEq, Prod.mk.injEq] at h1
    exact h1.2 ▸ h4
  | clear =>
    simp only [Tree.call, pure_ok, Except.ok.injEq, Prod.mk.injEq] at h1
    rw [← h1.2]; rfl
  | len => simp only [Tree.call, pure_ok, Except.ok.injEq, Prod.mk.injEq] at h1; simp only [h1.2]
  | isEmpty => simp only [Tree.call, pure_ok, Except.ok.injEq, Prod.mk.injEq] at h1; simp only [h1.2]
  | first =>
    cases h3 : t.first with
    | error e => simp only [Tree.call, h3, error_bind] at h1; cases h1
    | ok o => simp only [Tree.call, h3, ok_bind, pure_ok, Except.ok.injEq, Prod.mk.injEq] at h1; simp only [h1.2]
  | last =>
    cases h3 : t.last with
    | error e => simp only [Tree.call, h3, error_bind] at h1; cases h1
    | ok o => simp only [Tree.call, h3, ok_bind, pure_ok, Except.ok.injEq, Prod.mk.injEq] at h1; simp only [h1.2]
  | iter n =>
    obtain ⟨it, h3, h4⟩ := C07_exact_behaviour h.bulk hi.shows (List.replicate n .front)
    simp only [Tree.call, h3, h4, ok_bind, pure_ok, Except.ok.injEq, Prod.mk.injEq] at h1
    simp only [h1.2]
  | iterBack n =>
    obtain ⟨it, h3, h4⟩ := C07_exact_behaviour h.bulk hi.shows (List.replicate n .back)
    simp only [Tree.call, h3, h4, ok_bind, pure_ok, Except.ok.injEq, Prod.mk.injEq] at h1
    simp only [h1.2]
  | cursorNext c =>
    cases h3 : c.nextWithValue t with
    | error e => simp only [Tree.call, h3, error_bind] at h1; cases h1
    | ok o => simp only [Tree.call, h3, ok_bind, pure_ok, Except.ok.injEq, Prod.mk.injEq] at h1; simp only [h1.2]
  | cursorPrev c =>
    cases h3 : c.prevWithValue t with
    | error e => simp only [Tree.call, h3, error_bind] at h1; cases h1
    | ok o => simp only [Tree.call, h3, ok_bind, pure_ok, Except.ok.injEq, Prod.mk.injEq] at h1; simp only [h1.2]
  | cursorValue c =>
    cases h3 : c.value t with
    | error e => simp only [Tree.call, h3, error_bind] at h1; cases h1
    | ok o => simp only [Tree.call, h3, ok_bind, pure_ok, Except.ok.injEq, Prod.mk.injEq] at h1; simp only [h1.2]
  | getCursor k =>
    cases h3 : t.getCursor k with
    | error e => simp only [Tree.call, h3, error_bind] at h1; cases h1
    | ok o =>
      cases o <;> simp only [Tree.call, h3, ok_bind, pure_ok, Except.ok.injEq, Prod.mk.injEq] at h1 <;>
        simp only [h1.2]

/-- **C40.** The same for removals through a search augmentation. -/
theorem C40_statistics_search {Q : Type} [SearchAugmentation K V A Q] (hr : SearchInRange K V A)
    {t : Tree K V A} (h : ReachableEven t) (q : Q) :
    ∃ o t', t.removeByAugmentation q = .ok (o, t') ∧ t.st.Grows t'.st ∧
      t'.st.atLeaves ≤ t.st.atLeaves + 1 ∧ (o = none → t'.st = t.st) := by
  obtain ⟨H, g, w, hlen, _⟩ := h.wf
  obtain ⟨o, h1, _, ⟨t', h2, _, h3⟩, _⟩ := C41_any_search hr h (Inv.shows ⟨H, g, w, rfl, hlen⟩) q
  rcases removeBy_ok (by omega) w (w.depth hlen) hr q with ⟨t2, H', g', r1, r2, r3, r4, r5, r6, r7, r8⟩ | ⟨r, _⟩
  · rw [r1] at h2
    cases h2
    refine ⟨_, t', r1, r5, ?_, fun e => by rw [h3 e]⟩
    simp only [Statistic.leafFixes] at r7
    simp only [Statistic.atLeaves]; omega
  · omega

/-- Removing keys 0..39 from the demo map: a leaf underflows and is fixed. -/
example : ∃ as t', demo.run ((List.range 40).map .remove) = .ok (as, t') ∧ t'.st ≠ demo.st := by
  refine ⟨(List.range 40).map (fun i => .value (some (i * 43 % 100))), ?_⟩
  have : ∃ t', demo.run ((List.range 40).map .remove)
      = .ok ((List.range 40).map (fun i => .value (some (i * 43 % 100))), t') ∧ t'.st ≠ demo.st := by
    have e : (demo.run ((List.range 40).map .remove)).map (fun r => (r.1, decide (r.2.st ≠ demo.st)))
      = .ok ((List.range 40).map (fun i => .value (some (i * 43 % 100))), true) := by decide +kernel
    cases hr : demo.run ((List.range 40).map .remove) with
    | error f => rw [hr] at e; cases e
    | ok r =>
      rw [hr] at e
      simp only [Except.map, Except.ok.injEq, Prod.mk.injEq] at e
      exact ⟨r.2, by rw [← e.1], of_decide_eq_true e.2⟩
  exact this

example := C40_statistics demo_reach.mut.even (by decide +kernel) (.remove 3)
example := C40_statistics_search (V := Nat) (A := Count) Count.weightedSearch.inRange demo_reach.mut.even 42

end Bpt
