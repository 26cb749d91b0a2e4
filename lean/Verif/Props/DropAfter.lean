import Verif.Proofs.DropBare
import Verif.Props.Aftermath
import Verif.Props.DropRemove

/-!
# C59: what lookups see after a destructor panicked inside an insertion or a removal
-/

namespace Bpt
open Spec
variable {K V A : Type}

/-- A destructor that panics inside an insertion that splits no leaf, whichever it is: `get` answers, for
every key, as after the completed insertion, and `len` is still the old length.

Partial: insertions that split a leaf are excluded, see `C59_split_refuted`. -/
theorem C59_insert_shows_partial [LinearOrder K] [Augmentation K V A] {t : Tree K V A} (h : ReachableBulk t)
    {l : List (K × V)} (hl : Shows t l) (hn : t.len + 1 < 2 ^ 64) (early : Bool) (k : K) (v : V)
    {o : Option V} {t1 : Tree K V A} (h1 : t.insert k v = .ok (o, t1))
    (hleaf : t1.store.leaves.length = t.store.leaves.length) (cb : Callback) (t' : Tree K V A)
    (ht : (cb, t') ∈ (t.insertD ((Call.insert k v).answers early) k v).trace) :
    Shows t' (upsert k v l) ∧ t'.len = l.length := by
  obtain ⟨H, g, w, h2, -⟩ := h.wf
  obtain ⟨l', hi⟩ := h.inv
  obtain rfl := content_unique hi.shows hl
  obtain ⟨t2, g1, g2, -⟩ := hi.insert (by omega) hn k v
  rw [h1] at g1
  cases g1
  have hr : t.insertU (.ofOrder early k) k v = .ok (lookup k l', t1) := by
    rw [insertU_lawful w (w.depth h2), h1]
  obtain ⟨e1, e2, e3⟩ := insertD_bare _ t k v hr (by omega) cb t' ht
  exact ⟨e1.shows e2 g2.shows, e3.trans hi.len⟩

/-- A destructor that panics inside a removal that neither moves an item between nodes nor merges nodes,
whichever it is: `get` answers, for every key, as after the completed removal, and either the removal is
complete or `len` is still the old length.

Partial: removals that repair a node are excluded, see `C59_rotation_refuted`. -/
theorem C59_remove_shows_partial [LinearOrder K] [Augmentation K V A] {t : Tree K V A} (h : ReachableBulk t)
    {l : List (K × V)} (hl : Shows t l) (early : Bool) (k : K) {o : Option V} {t1 : Tree K V A}
    (h1 : t.remove k = .ok (o, t1)) (hst : t1.st = t.st) (cb : Callback) (t' : Tree K V A)
    (ht : (cb, t') ∈ (t.removeD ((Call.remove (V := V) k).answers early)).trace) :
    Shows t' (erase k l) ∧ (t' = t1 ∨ t'.len = l.length) := by
  obtain ⟨H, g, w, h2, -⟩ := h.wf
  obtain ⟨l', hi⟩ := h.inv
  obtain rfl := content_unique hi.shows hl
  rcases hi.remove (by omega) k with ⟨t2, g1, g2, -⟩ | ⟨-, g1⟩
  · rw [h1] at g1
    cases g1
    have hr : t.removeU (.ofOrder early k) = .ok (lookup k l', t1) := by
      rw [removeU_lawful w (w.depth h2), h1]
    obtain ⟨e1, e2, e3⟩ := removeD_bare _ t hr hst cb t' ht
    exact ⟨e1.shows e2 g2.shows, e3.imp id fun h => h.trans hi.len⟩
  · rw [h1] at g1; cases g1

/-! ## Items that become invisible -/

/-- Is some key `j` of the map, after `cs`, no longer found after a panic of one of the destructors? -/
def destructorLoses (cs : List (Call Nat Nat)) (f : Tree Nat Nat Count → List (Callback × Tree Nat Nat Count))
    (j : Nat) : Bool :=
  match (Tree.new : Tree Nat Nat Count).run cs with
  | .ok (_, t) => (match t.get j with | .ok (some _, _) => true | _ => false) &&
      (f t).any (fun e => match e.2.get j with | .ok (none, _) => true | _ => false)
  | .error _ => false

theorem destructorLoses_spec {cs : List (Call Nat Nat)}
    {f : Tree Nat Nat Count → List (Callback × Tree Nat Nat Count)} {j : Nat}
    (h : destructorLoses cs f j = true) :
    ∃ as t w u cb t' u', (Tree.new : Tree Nat Nat Count).run cs = .ok (as, t) ∧
      t.get j = .ok (some w, u) ∧ (cb, t') ∈ f t ∧ t'.get j = .ok (none, u') := by
  unfold destructorLoses at h
  split at h
  · next as t e =>
    rw [Bool.and_eq_true] at h
    obtain ⟨h0, h⟩ := h
    obtain ⟨⟨cb, t'⟩, h1, h3⟩ := List.any_eq_true.1 h
    split at h0
    · next w u e1 =>
      split at h3
      · next u' e2 => exact ⟨as, t, w, u, cb, t', u', e, e1, h1, e2⟩
      · cases h3
    · cases h0
  · cases h

/-- Two leaves, the left one full: the keys from 60 to 91 and from 100 to 131, and those from 132 to 164. -/
def leftLeafFull : List (Call Nat Nat) :=
  (List.range 65).map (fun i => .insert (i + 100) i) ++ (List.range 32).map (fun i => .insert (i + 60) i)

/-- If the destructor of an augmentation panics while an insertion splits a leaf, a key that was in the
map, and is not the one inserted, is no longer found. -/
theorem C59_split_refuted : ∃ (cs : List (Call Nat Nat)) (k v j : Nat) (as : _) (t : _) (w : Nat) (u : _)
    (cb : Callback) (t' u' : _), j ≠ k ∧
    (Tree.new : Tree Nat Nat Count).run cs = .ok (as, t) ∧ t.get j = .ok (some w, u) ∧
    (cb, t') ∈ (t.insertD ((Call.insert k v).answers false) k v).trace ∧ t'.get j = .ok (none, u') := by
  obtain ⟨as, t, w, u, cb, t', u', h⟩ := destructorLoses_spec (cs := leftLeafFull)
    (f := fun t => (t.insertD ((Call.insert 59 0).answers false) 59 0).trace) (j := 120) (by decide +kernel)
  exact ⟨leftLeafFull, 59, 0, 120, as, t, w, u, cb, t', u', by omega, h⟩

/-- If the destructor of an augmentation panics while a removal takes an item from the neighbouring leaf,
a key that was in the map, and is not the one removed, is no longer found. -/
theorem C59_rotation_refuted : ∃ (cs : List (Call Nat Nat)) (k j : Nat) (as : _) (t : _) (w : Nat) (u : _)
    (cb : Callback) (t' u' : _), j ≠ k ∧
    (Tree.new : Tree Nat Nat Count).run cs = .ok (as, t) ∧ t.get j = .ok (some w, u) ∧
    (cb, t') ∈ (t.removeD ((Call.remove (V := Nat) k).answers false)).trace ∧ t'.get j = .ok (none, u') := by
  obtain ⟨as, t, w, u, cb, t', u', h⟩ := destructorLoses_spec
    (cs := (List.range 65).map (fun i => .insert i i) ++ (List.range 16).map (fun i => .remove i))
    (f := fun t => (t.removeD ((Call.remove (V := Nat) 20).answers false)).trace) (j := 32) (by decide +kernel)
  exact ⟨_, 20, 32, as, t, w, u, cb, t', u', by omega, h⟩

/-! ## The hypotheses are met -/

example (cb : Callback) (t' : Tree Nat Nat Count)
    (ht : (cb, t') ∈ (demo.insertD ((Call.insert 1000 7).answers false) 1000 7).trace) :
    Shows t' (upsert 1000 7 demoContent) ∧ t'.len = 100 := by
  obtain ⟨o, t1, h1, -⟩ := C02_insert demo_reach.mut.bulk (by decide +kernel : demo.len + 1 < 2 ^ 64) 1000 7
  refine C59_insert_shows_partial demo_reach.mut.bulk demo_shows (by decide +kernel) false 1000 7 h1 ?_ cb t' ht
  have : (demo.insert 1000 7).map (fun p => p.2.store.leaves.length) = .ok demo.store.leaves.length := by
    decide +kernel
  rw [h1] at this
  exact Except.ok.inj this
example : (demo.insertD ((Call.insert 1000 7).answers false) 1000 7).trace.map (·.1) = [.dropAug, .dropAug] := by
  decide +kernel

example (cb : Callback) (t' : Tree Nat Nat Count)
    (ht : (cb, t') ∈ (demo.removeD ((Call.remove (V := Nat) 50).answers false)).trace) :
    Shows t' (erase 50 demoContent) := by
  obtain ⟨o, t1, h1, -⟩ := C03_remove demo_reach.mut.even 50
  refine (C59_remove_shows_partial demo_reach.mut.bulk demo_shows false 50 h1 ?_ cb t' ht).1
  have : (demo.remove 50).map (fun p => decide (p.2.st = demo.st)) = .ok true := by decide +kernel
  rw [h1] at this
  exact of_decide_eq_true (Except.ok.inj this)
example : (demo.removeD ((Call.remove (V := Nat) 50).answers false)).trace.map (·.1) =
    [.dropAug, .dropAug, .dropKey] := by decide +kernel

end Bpt
