import Verif.Proofs.NodeCount
import Verif.Proofs.NodeCountBulk
import Verif.Props.Demo

/-!
# C47: how much memory a map keeps

`allocatedLeaves` and `allocatedInners` count the nodes that the store has allocated; `leaves.length` and
`inners.length` count the slots of its two tables, in use or not. (Each allocated node has room for 64
entries or 65 children, each slot is one pointer.)
-/

namespace Bpt
open Spec
variable {K V A : Type} [LinearOrder K] [Augmentation K V A]

/-! ## Leaves -/

omit [LinearOrder K] [Augmentation K V A] in
theorem leaves_big {h m : Nat} {r : Bool} {x : T K V A h} (hx : T.ShapeTop 16 m r x) (hm : 16 ≤ m) :
    ∀ p ∈ x.leaves, 16 ≤ p.2.length := by
  induction h generalizing m r with
  | zero =>
    intro p hp
    simp only [T.leaves, List.mem_singleton] at hp
    subst hp
    exact hm.trans hx.1
  | succ h ih =>
    intro p hp
    obtain ⟨c, hc, hp⟩ := List.mem_flatMap.1 hp
    have hmn : ∀ r, 16 ≤ mnAt 16 h r := by intro r; cases h <;> cases r <;> simp [mnAt]
    have : ∀ a ∈ GNode.kids x, (∃ m' r', T.ShapeTop 16 m' r' a ∧ 16 ≤ m') := by
      refine SpineL_same.1 (SpineL_mono ?_ ?_ hx.2.2.2.2)
      · intro a _ ha; exact ⟨_, _, ha, by omega⟩
      · intro a _ ha; exact ⟨_, _, ha, hmn _⟩
    obtain ⟨m', r', h1, h2⟩ := this c hc
    exact ih h1 h2 p hp

omit [LinearOrder K] [Augmentation K V A] in
theorem leaves_le {H : Nat} {g : T K V A H} (h : T.ShapeTop 16 (rootMin H) true g) :
    g.leaves.length ≤ max 1 (g.toL.length / 16) := by
  cases H with
  | zero => simp [T.leaves]
  | succ H =>
    have hmn : ∀ r, 16 ≤ mnAt 16 H r := by intro r; cases H <;> cases r <;> simp [mnAt]
    have hk : ∀ a ∈ GNode.kids g, (∃ m' r', T.ShapeTop 16 m' r' a ∧ 16 ≤ m') := by
      refine SpineL_same.1 (SpineL_mono ?_ ?_ h.2.2.2.2)
      · intro a _ ha; exact ⟨_, _, ha, by omega⟩
      · intro a _ ha; exact ⟨_, _, ha, hmn _⟩
    have : g.leaves.length * 16 ≤ (g.leaves.flatMap (·.2)).length := by
      refine length_flatMap_ge fun p hp => ?_
      obtain ⟨c, hc, hp⟩ := List.mem_flatMap.1 hp
      obtain ⟨m', r', h1, h2⟩ := hk c hc
      exact leaves_big h1 h2 p hp
    have e : g.toL.length = (g.leaves.flatMap (·.2)).length := rfl
    omega

/-- **C47 (partial).** The leaves a map keeps allocated are at most one for every 16 entries it holds
now, whatever it held before. Missing from the full property: the inner nodes and the tables of slots,
for which it is false (`C47_memory_refuted`). -/
theorem C47_leaves_partial {t : Tree K V A} (h : Reachable t) :
    t.store.allocatedLeaves ≤ max 1 (t.len / 16) := by
  obtain ⟨H, g, w, -⟩ := h.wf
  have h1 : t.store.allocatedLeaves ≤ (g.leaves.map (·.1)).length := countP_le_of_mem w.live
  rw [List.length_map] at h1
  rw [w.len]
  exact h1.trans (leaves_le w.shape)

/-! ## The tables and the inner nodes -/

/-- Fill a map with the keys 0 to 64 and empty it again, `n` times. -/
def churn : Nat → List (Call Nat Nat)
  | 0 => []
  | n + 1 => (List.range 65).map (fun i => .insert i i) ++ (List.range 65).map (fun i => .remove i)
      ++ churn n

omit [LinearOrder K] in
theorem spec_run_append [LinearOrder K] (l : List (K × V)) (cs ds : List (Call K V)) :
    (Spec.run l (cs ++ ds)).2 = (Spec.run (Spec.run l cs).2 ds).2 := by
  induction cs generalizing l with
  | nil => rfl
  | cons c cs ih => exact ih _

theorem run_then {t t' t'' : Tree K V A} {cs ds : List (Call K V)} {as bs}
    (h1 : t.run cs = .ok (as, t')) (h2 : t'.run ds = .ok (bs, t'')) :
    ∃ cs', t.run (cs ++ ds) = .ok (cs', t'') := by
  induction cs generalizing t as with
  | nil => cases h1; exact ⟨_, h2⟩
  | cons c cs ih =>
    rw [Tree.run] at h1
    obtain ⟨⟨a, t1⟩, h3, h4⟩ := bind_ok h1
    obtain ⟨⟨as', t2⟩, h5, h6⟩ := bind_ok h4
    cases h6
    obtain ⟨cs', h7⟩ := ih h5
    refine ⟨a :: cs', ?_⟩
    rw [List.cons_append, Tree.run, h3, ok_bind]
    dsimp only
    rw [h7]; rfl

/-- At least `n` inner nodes are allocated, and at least `n` leaf slots are in the table; one more when
the root is an inner node. -/
def Kept (n : Nat) (t : Tree K V A) : Prop :=
  (n ≤ t.store.allocatedInners ∧ n ≤ t.store.leaves.length) ∧
  ∀ j, t.root = .inner j → n + 1 ≤ t.store.allocatedInners ∧ n + 1 ≤ t.store.leaves.length

theorem inserts_kept {n : Nat} (cs : List (K × V)) {t : Tree K V A} {l : List (K × V)}
    (h : Inv 16 t l) (hn : Kept n t) (hl : l.length + cs.length < 2 ^ 64) :
    ∃ as t', t.run (cs.map (fun e => .insert e.1 e.2)) = .ok (as, t') ∧
      Inv 16 t' (Spec.run l (cs.map (fun e => .insert e.1 e.2))).2 ∧ Kept n t' := by
  induction cs generalizing t l with
  | nil => exact ⟨[], t, rfl, h, hn⟩
  | cons e cs ih =>
    rw [List.length_cons] at hl
    have hlen := h.len
    obtain ⟨t1, h1, h2, -⟩ := h.insert (by omega) (by omega) e.1 e.2
    have hg := insert_grows _ h1
    have hk : Kept n t1 := by
      refine ⟨⟨hn.1.1.trans hg.1.inners, hn.1.2.trans hg.1.leaves⟩, ?_⟩
      intro j hj
      cases hr : t.root with
      | leaf i =>
        have := hg.2.2 i j hr hj
        have h3 := hn.1
        dsimp only at this
        exact ⟨by omega, by omega⟩
      | inner i =>
        have := hn.2 i hr
        exact ⟨this.1.trans hg.1.inners, this.2.trans hg.1.leaves⟩
    have hle := call_length l (.insert e.1 e.2)
    simp only [Spec.call] at hle
    obtain ⟨as, t', h3, h4, h5⟩ := ih h2 hk (by omega)
    refine ⟨.value (lookup e.1 l) :: as, t', ?_, h4, h5⟩
    rw [List.map_cons, Tree.run, Tree.call, h1]
    simp only [ok_bind, pure_ok]
    rw [h3]; rfl

theorem removes_kept {n : Nat} (ks : List K) {t : Tree K V A} {l : List (K × V)}
    (h : Inv 16 t l) (hn : n ≤ t.store.allocatedInners ∧ n ≤ t.store.leaves.length)
    (hl : l.length < 272) :
    ∃ as t', t.run (ks.map (fun k => .remove k)) = .ok (as, t') ∧
      Inv 16 t' (Spec.run l (ks.map (fun k => .remove k))).2 ∧
      n ≤ t'.store.allocatedInners ∧ n ≤ t'.store.leaves.length := by
  induction ks generalizing t l with
  | nil => exact ⟨[], t, rfl, h, hn⟩
  | cons k ks ih =>
    rcases h.remove (by omega) k with ⟨t1, h1, h2, -⟩ | ⟨h1, -⟩
    · have hg := remove_grows h hl k _ h1
      have hle : (erase k l).length ≤ l.length := List.length_filter_le _ _
      obtain ⟨as, t', h3, h4, h5⟩ := ih h2 ⟨hn.1.trans hg.inners, hn.2.trans hg.leaves⟩ (by omega)
      refine ⟨.value (lookup k l) :: as, t', ?_, h4, h5⟩
      rw [List.map_cons, Tree.run, Tree.call, h1]
      simp only [ok_bind, pure_ok]
      rw [h3]; rfl
    · omega

omit [Augmentation K V A] in
theorem root_empty {t : Tree K V A} (h : Inv 16 t []) : ∃ i, t.root = .leaf i := by
  obtain ⟨H, g, w, e, -⟩ := h
  cases H with
  | zero => exact ⟨_, w.root⟩
  | succ H =>
    have := root_size w.shape
    have : 0 < 17 ^ H := Nat.pow_pos (by omega)
    rw [e] at *
    simp at *

omit [Augmentation K V A] in
theorem root_big {t : Tree K V A} {l : List (K × V)} (h : Inv 16 t l) (hl : 64 < l.length) :
    ∃ i, t.root = .inner i := by
  obtain ⟨H, g, w, rfl, -⟩ := h
  cases H with
  | zero =>
    have := w.shape.2
    simp [T.toL, T.leaves] at hl; omega
  | succ H => exact ⟨_, w.root⟩

/-- What filling the map does to an empty map. -/
def filled : List (Nat × Nat) := (List.range 65).map (fun i => (i, i))

theorem filled_run : (Spec.run [] (filled.map (fun e => Call.insert e.1 e.2))).2 = filled ∧
    (Spec.run filled ((List.range 65).map (fun k => (Call.remove k : Call Nat Nat)))).2 = [] := by
  decide +kernel

theorem churn_kept {A : Type} [Augmentation Nat Nat A] (n : Nat) {m : Nat} {t : Tree Nat Nat A}
    (h : Inv 16 t []) (hn : m ≤ t.store.allocatedInners ∧ m ≤ t.store.leaves.length) :
    ∃ as t', t.run (churn n) = .ok (as, t') ∧ Inv 16 t' [] ∧
      m + n ≤ t'.store.allocatedInners ∧ m + n ≤ t'.store.leaves.length := by
  induction n generalizing m t with
  | zero => exact ⟨[], t, rfl, h, hn⟩
  | succ n ih =>
    obtain ⟨i, hi⟩ := root_empty h
    obtain ⟨as1, t1, h1, h2, h3⟩ := inserts_kept filled h
      ⟨hn, fun j hj => by rw [hi] at hj; cases hj⟩ (by simp [filled])
    rw [filled_run.1] at h2
    obtain ⟨j, hj⟩ := root_big h2 (by simp [filled])
    obtain ⟨as2, t2, h4, h5, h6⟩ := removes_kept (List.range 65) h2 (h3.2 j hj) (by simp [filled])
    rw [filled_run.2] at h5
    obtain ⟨as3, t3, h7, h8, h9⟩ := ih h5 h6
    obtain ⟨as4, h10⟩ := run_then h1 h4
    obtain ⟨as5, h11⟩ := run_then h10 h7
    refine ⟨as5, t3, ?_, h8, by omega, by omega⟩
    rw [churn, ← h11]
    congr 3

theorem churn_prefix (n : Nat) (p : List (Call Nat Nat)) (h : p <+: churn n) :
    (Spec.run [] p).2.length ≤ 65 := by
  have hc : ∀ i ≤ 130, (Spec.run [] (((List.range 65).map (fun i => Call.insert i i) ++
      (List.range 65).map (fun i => (Call.remove i : Call Nat Nat))).take i)).2.length ≤ 65 := by
    decide +kernel
  have he : (Spec.run [] ((List.range 65).map (fun i => Call.insert i i) ++
      (List.range 65).map (fun i => (Call.remove i : Call Nat Nat)))).2 = [] := by decide +kernel
  induction n generalizing p with
  | zero => rw [churn, List.prefix_nil] at h; subst h; simp [Spec.run]
  | succ n ih =>
    rw [churn] at h
    obtain ⟨r, e⟩ := h
    rcases List.append_eq_append_iff.1 e with ⟨q, e1, e2⟩ | ⟨q, e1, e2⟩
    · have := hc p.length (by
        have := congrArg List.length e1
        simp only [List.length_append, List.length_map, List.length_range] at this; omega)
      rw [e1, List.take_left] at this
      exact this
    · rw [e1, spec_run_append, he]
      exact ih q ⟨r, e2.symm⟩

/-- **C47 (refuted).** No bound on the number of entries bounds the memory: filling a map with 65 keys
and emptying it, `n` times over, leaves an empty map that keeps at least `n` inner nodes allocated and at
least `n` slots in its table of leaves, although it never held more than 65 entries. (When the root of a
tree becomes its only child, the old root node stays in the store; and a slot is never used again.) -/
theorem C47_memory_refuted {A : Type} [Augmentation Nat Nat A] (n : Nat) :
    (∀ p, p <+: churn n → (Spec.run [] p).2.length ≤ 65) ∧
    ∃ as t, (Tree.new : Tree Nat Nat A).run (churn n) = .ok (as, t) ∧ t.len = 0 ∧
      n ≤ t.store.allocatedInners ∧ n ≤ t.store.leaves.length := by
  refine ⟨churn_prefix n, ?_⟩
  obtain ⟨as, t, h1, h2, h3, h4⟩ := churn_kept (A := A) n (m := 0) Inv.new ⟨by omega, by omega⟩
  rw [Nat.zero_add] at h3 h4
  exact ⟨as, t, h1, h2.len, h3, h4⟩

/-- So no function of the largest length bounds the memory. -/
theorem C47_no_bound_refuted {A : Type} [Augmentation Nat Nat A] (bound : Nat → Nat) :
    ¬ ∀ (cs : List (Call Nat Nat)) (m : Nat) (as) (t : Tree Nat Nat A),
      (∀ p, p <+: cs → (Spec.run [] p).2.length ≤ m) → (Tree.new : Tree Nat Nat A).run cs = .ok (as, t) →
      t.store.allocatedInners ≤ bound m := by
  intro h
  obtain ⟨h1, as, t, h2, -, h3, -⟩ := C47_memory_refuted (A := A) (bound 65 + 1)
  have := h _ 65 as t h1 h2
  omega

/-! ## The exact account -/

omit [LinearOrder K] [Augmentation K V A] in
theorem sum_nodes {h : Nat} {xs : List (T K V A h)}
    (hx : ∀ x ∈ xs, 16 * x.nodes.length + 1 ≤ x.leaves.length) :
    16 * (xs.flatMap (fun c => c.nodes)).length + xs.length
      ≤ (xs.flatMap (fun c => c.leaves)).length := by
  induction xs with
  | nil => simp
  | cons x xs ih =>
    have h1 := hx x (by simp)
    have h2 := ih (fun y hy => hx y (by simp [hy]))
    simp only [List.flatMap_cons, List.length_append, List.length_cons]
    omega

omit [LinearOrder K] [Augmentation K V A] in
theorem nodes_le {h m : Nat} {r : Bool} {x : T K V A h} (hx : T.ShapeTop 16 m r x) (hm : 16 ≤ m) :
    16 * x.nodes.length + 1 ≤ x.leaves.length := by
  induction h generalizing m r with
  | zero => simp [T.nodes, T.leaves]
  | succ h ih =>
    have hmn : ∀ r, 16 ≤ mnAt 16 h r := by intro r; cases h <;> cases r <;> simp [mnAt]
    have hk : ∀ a ∈ GNode.kids x, (∃ m' r', T.ShapeTop 16 m' r' a ∧ 16 ≤ m') := by
      refine SpineL_same.1 (SpineL_mono ?_ ?_ hx.2.2.2.2)
      · intro a _ ha; exact ⟨_, _, ha, by omega⟩
      · intro a _ ha; exact ⟨_, _, ha, hmn _⟩
    have h1 := sum_nodes (xs := GNode.kids x) fun a ha => by
      obtain ⟨m', r', h1, h2⟩ := hk a ha
      exact ih h1 h2
    have h2 := hx.1
    have h3 := hx.2.2.1
    simp only [T.nodes, T.leaves, List.length_cons]
    omega

omit [LinearOrder K] [Augmentation K V A] in
theorem root_nodes_le {H : Nat} {g : T K V A H} (hx : T.ShapeTop 16 (rootMin H) true g) :
    16 * g.nodes.length ≤ g.leaves.length + 14 := by
  cases H with
  | zero => simp [T.nodes]
  | succ H =>
    have hmn : ∀ r, 16 ≤ mnAt 16 H r := by intro r; cases H <;> cases r <;> simp [mnAt]
    have hk : ∀ a ∈ GNode.kids g, (∃ m' r', T.ShapeTop 16 m' r' a ∧ 16 ≤ m') := by
      refine SpineL_same.1 (SpineL_mono ?_ ?_ hx.2.2.2.2)
      · intro a _ ha; exact ⟨_, _, ha, by omega⟩
      · intro a _ ha; exact ⟨_, _, ha, hmn _⟩
    have h1 := sum_nodes (xs := GNode.kids g) fun a ha => by
      obtain ⟨m', r', h1, h2⟩ := hk a ha
      exact nodes_le h1 h2
    have h2 : 1 ≤ (GNode.keys g).length := hx.1
    have h3 := hx.2.2.1
    simp only [T.nodes, T.leaves, List.length_cons]
    omega

/-- **C47 (partial): exactly what is kept.** After any history of calls on an empty map, the inner nodes
that are allocated are those of the tree, and one for every level the tree has ever lost (since the last
`clear`). The table of inner nodes has a slot for each of them and one for every merge of inner nodes; the
table of leaves has a slot for every leaf and one for every merge of leaves. The inner nodes of the tree
are few: at most `(leaves + 14) / 16`. Missing from the full property: it fails, by exactly the nodes and
slots named here. -/
theorem C47_account_partial {cs : List (Call K V)} {as} {t : Tree K V A} (hl : cs.length < 2 ^ 64)
    (h : (Tree.new : Tree K V A).run cs = .ok (as, t)) :
    t.store.allocatedInners = t.innersInTree + (Tree.new : Tree K V A).lostLevels 0 cs ∧
    t.store.inners.length = t.store.allocatedInners + t.mergedInners ∧
    t.store.leaves.length = t.store.allocatedLeaves + t.mergedLeaves ∧
    16 * t.innersInTree ≤ t.store.allocatedLeaves + 14 ∧
    t.store.allocatedLeaves ≤ max 1 (t.len / 16) := by
  have hl' : (Tree.new : Tree K V A).len + cs.length < 2 ^ 64 := by
    have : (Tree.new : Tree K V A).len = 0 := rfl
    omega
  have ha := Account.run (Nat.le_refl 16) Inv.new hl' Account.new h
  obtain ⟨t', h1, H, g, w, -, hn⟩ := run_ok (by omega) (Nat.le_refl 16) (Inv.new (K := K) (V := V) (A := A))
    cs hl'
  rw [h] at h1
  cases h1
  refine ⟨ha.inners, ha.innerSlots, ha.leafSlots, ?_, ?_⟩
  · rw [w.innersInTree hn, w.allocatedLeaves]; exact root_nodes_le w.shape
  · rw [w.allocatedLeaves, w.len]; exact leaves_le w.shape

/-- **C47 (partial), maps that begin with a bulk load**: one leaf for every 16 entries it holds now, and at
most one more. -/
theorem C47_leaves_bulk_partial {t : Tree K V A} (h : ReachableBulk t) :
    t.store.allocatedLeaves ≤ max 1 ((t.len + 15) / 16) := by
  obtain ⟨H, g, w, -⟩ := h.wf
  exact w.leaves_spine

/-- **C47 (partial): exactly what is kept, from a bulk load.** The account of `C47_account_partial` holds of
histories that begin with a bulk load of sorted data, of any size: the load itself leaves no slot empty and
no node outside the tree. The nodes of a bulk load at the right edge may have few children, so the inner
nodes of the tree are at most one for every 16 leaves and one for every level. -/
theorem C47_account_bulk_partial {data : List (K × V)} {t0 : Tree K V A}
    (hd : data.Pairwise (fun a b => a.1 ≤ b.1)) (h0 : Tree.bulkLoad data = .ok t0)
    {cs : List (Call K V)} {as} {t : Tree K V A} (hl : t0.len + cs.length < 2 ^ 64)
    (h : t0.run cs = .ok (as, t)) :
    t.store.allocatedInners = t.innersInTree + t0.lostLevels 0 cs ∧
    t.store.inners.length = t.store.allocatedInners + t.mergedInners ∧
    t.store.leaves.length = t.store.allocatedLeaves + t.mergedLeaves ∧
    16 * t.innersInTree < t.store.allocatedLeaves + 16 * t.levels ∧
    t.store.allocatedLeaves ≤ max 1 ((t.len + 15) / 16) := by
  obtain ⟨hi, ha0⟩ := bulkLoad_account hd h0 (by omega)
  have ha := Account.run (by omega) hi hl ha0 h
  obtain ⟨H, g, w, -, hn⟩ := run_ok_wf (by omega) hi hl h
  exact ⟨ha.inners, ha.innerSlots, ha.leafSlots, w.inners_spine hn, w.leaves_spine⟩

/-- Three rounds on the model: no inner node is in the tree, three levels have been lost, and three leaves
have been merged away. -/
example : (match (Tree.new : Tree Nat Nat Count).run (churn 3) with
    | .ok (_, t) => some (t.levels, t.innersInTree, (Tree.new : Tree Nat Nat Count).lostLevels 0 (churn 3),
        t.mergedInners, t.mergedLeaves)
    | .error _ => none) = some (0, 0, 3, 0, 3) := by decide +kernel

/-- Three rounds on the model: three inner nodes are kept by an empty map. -/
example : (match (Tree.new : Tree Nat Nat Count).run (churn 3) with
    | .ok (_, t) => some (t.len, t.store.allocatedInners, t.store.leaves.length, t.store.allocatedLeaves)
    | .error _ => none) = some (0, 3, 4, 1) := by decide +kernel

example : demoBulk.store.allocatedLeaves ≤ max 1 ((demoBulk.len + 15) / 16) :=
  C47_leaves_bulk_partial demoBulk_reach.mut

example : demo.store.allocatedLeaves ≤ max 1 (demo.len / 16) := C47_leaves_partial demo_reach.mut

/-- A bulk load of 200 entries, emptied: the root of the load is kept. -/
example : (match (Tree.bulkLoad ((List.range 200).map (fun i => (i, i))) : Res (Tree Nat Nat Count)) with
    | .ok t0 =>
      let cs := (List.range 200).map (fun i => (Call.remove i : Call Nat Nat))
      match t0.run cs with
      | .ok (_, t) => [t0.store.allocatedInners, t0.store.allocatedLeaves, t.len, t.innersInTree,
          t0.lostLevels 0 cs, t.store.allocatedInners, t.store.allocatedLeaves, t.mergedLeaves]
      | .error _ => []
    | .error _ => []) = [1, 4, 0, 0, 1, 1, 1, 3] := by decide +kernel

example {cs : List (Call Nat Nat)} {as} {t : Tree Nat Nat Count} (hl : demoBulk.len + cs.length < 2 ^ 64)
    (h : demoBulk.run cs = .ok (as, t)) :=
  C47_account_bulk_partial (demoBulkItems_sorted.imp (fun h => h.le)) demoBulk_load.1 hl h

example {as} {t : Tree Nat Nat Count} (h : (Tree.new : Tree Nat Nat Count).run (churn 3) = .ok (as, t)) :=
  C47_account_partial (by decide +kernel) h

end Bpt
