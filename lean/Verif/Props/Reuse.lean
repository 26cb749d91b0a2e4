import Verif.Proofs.Reuse
import Verif.Props.Demo

/-!
# C58: a new tree on a store that was used before

`BPlusTree::new(store)` accepts any store, and `tree.node_store().clone()` is one with leaves in it. A new
tree should be empty whatever the store holds. This is false, `C58_refuted`: the store remembers the leaf
used last, and `get`, `get_mut` and cursors look there first. It is true when the leaf remembered is gone, or
from the first insertion on.
-/

namespace Bpt
open Spec
variable {K V A : Type} [LinearOrder K] [Augmentation K V A]

/-- **C58** (partial: only when the store does not remember a leaf it holds, and without cursors of the older
map). Every history of calls on a new tree on a used store answers like an empty map, and dropping the tree
destroys the entries of that history and nothing of what the store held before. -/
theorem C58_history_partial (s : Store K V A) (hc : ∀ i, s.cached = some i → ¬ s.HasLeaf i)
    (cs : List (Call K V)) (hh : NoOldCursor s cs) (hl : cs.length < 2 ^ 64) :
    ∃ t, (Tree.newOn s).run cs = .ok ((Spec.run [] cs).1, t) ∧ t.drop = .ok (Spec.run [] cs).2 := by
  obtain ⟨w, h1, h2⟩ := run_ok (by omega) (Nat.le_refl 16) (newOn_inv 16 s) cs (by simpa [Tree.newOn] using hl)
  obtain ⟨⟨a, t⟩, h3, rfl, J, -, h4⟩ := run_sim (newOn_rel s True fun _ => hc) cs hh _ h1
  obtain ⟨L, r, e⟩ := h2.reads
  have hd := drop_ok r.base
  rw [e] at hd
  obtain ⟨_, h5, rfl⟩ := drop_sim h4 _ hd
  exact ⟨t, h3, h5⟩

/-- **C58** (partial: only from the first insertion on, and without cursors of the older map). The same for
every store, when the first call is an insertion. -/
theorem C58_after_insert_partial (s : Store K V A) (k : K) (v : V) (cs : List (Call K V))
    (hh : NoOldCursor s cs) (hl : cs.length + 1 < 2 ^ 64) :
    ∃ t, (Tree.newOn s).run (.insert k v :: cs) = .ok ((Spec.run [] (.insert k v :: cs)).1, t) ∧
      t.drop = .ok (Spec.run [] (.insert k v :: cs)).2 := by
  have hi := newOn_inv 16 s
  obtain ⟨w1, h1, h2, -⟩ := hi.insert (Nat.le_refl 16) (by simp [Tree.newOn]) k v
  obtain ⟨w, h3, h4⟩ := run_ok (by omega) (Nat.le_refl 16) h2 cs (by
    rw [h2.len]
    have := call_length ([] : List (K × V)) (.insert k v)
    simp only [Spec.call, List.length_nil] at this
    omega)
  obtain ⟨⟨a, t1⟩, h5, rfl, h6⟩ := insert_first_sim (newOn_rel s False fun h => h.elim)
    (i := s.bare.leaves.length) rfl k v _ h1
  obtain ⟨⟨a, t⟩, h7, rfl, J, -, h8⟩ := run_sim (h6 rfl) cs hh _ h3
  obtain ⟨L, r, e⟩ := h4.reads
  have hd := drop_ok r.base
  rw [e] at hd
  obtain ⟨_, h9, rfl⟩ := drop_sim h8 _ hd
  exact ⟨t, by simp only [Tree.run, Tree.call, h5, ok_bind, pure_ok, h7, Spec.run, Spec.call], h9⟩

/-- **C58** is false in general: look any key up in any map that has it, and make a new tree on its store.
The new tree has length 0, iterates over nothing, and finds the key with its old value. -/
theorem C58_refuted {t : Tree K V A} (hr : ReachableBulk t) {l : List (K × V)} (hl : Shows t l) {k : K} {v : V}
    (hk : (k, v) ∈ l) :
    ∃ t1, t.get k = .ok (some v, t1) ∧ (Tree.newOn t1.store).len = 0 ∧
      (Tree.newOn t1.store).call (.iter 1) = .ok (.entries [none], Tree.newOn t1.store) ∧
      (Tree.newOn t1.store).get k = .ok (some v, Tree.newOn t1.store) := by
  obtain ⟨l', hi⟩ := hr.inv
  obtain rfl := hi.unique hl
  obtain ⟨L, r, -⟩ := hi.reads
  obtain ⟨t1, h1, -⟩ := hi.get k
  rw [lookup_of_mem hl.1 hk] at h1
  obtain ⟨i, h2, h3⟩ := get_caches r h1
  exact ⟨t1, h1, rfl, newOn_iter t1.store, newOn_get h2 h3⟩

/-- The same through a cursor of the older map: it reads the old value in the new tree. -/
theorem C58_refuted_cursor {t : Tree K V A} (hr : ReachableBulk t) {l : List (K × V)} (hl : Shows t l) {k : K}
    {v : V} (hk : (k, v) ∈ l) :
    ∃ c : Cursor K, t.getCursor k = .ok (some (c, some v)) ∧
      c.value (Tree.newOn t.store) = .ok (some v) := by
  obtain ⟨l', hi⟩ := hr.inv
  obtain rfl := hi.unique hl
  obtain ⟨L, r, e⟩ := hi.reads
  have hk' := lookup_of_mem hl.1 hk
  rw [← e] at hk'
  obtain ⟨c, lf, h1, rfl, h3, h4⟩ := getCursor_hint r hk'
  exact ⟨c, h1, by rw [newOn_cursor h3 h4, cursorValue_ok r c, hk']⟩

/-- A new tree on a used store does not own what the store held: dropping it destroys nothing. -/
theorem C58_leak (s : Store K V A) : (Tree.newOn s).drop = .ok [] := by
  have hd := drop_ok (newOn_inv 16 s).reads.choose_spec.1.base
  rw [(newOn_inv 16 s).reads.choose_spec.2] at hd
  obtain ⟨_, h, rfl⟩ := drop_sim (newOn_rel s False fun h => h.elim) _ hd
  exact h

/-! ## Examples -/

/-- On a default store this is the new tree of the other theorems. -/
example : (Tree.newOn Store.empty : Tree K V A) = Tree.new := rfl

-- a bulk-loaded map of 500 entries remembers no leaf
example : ∃ t, (Tree.newOn demoBulk.store).run [.get 3, .insert 3 30, .get 3, .get 4, .remove 3, .iter 1] =
    .ok ([.value none, .value none, .value (some 30), .value none, .value (some 30), .entries [none]], t) := by
  obtain ⟨t, h, -⟩ := C58_history_partial demoBulk.store
    (by intro i h; rw [show demoBulk.store.cached = none by decide +kernel] at h; cases h)
    [.get 3, .insert 3 30, .get 3, .get 4, .remove 3, .iter 1]
    (by
      intro c hc i hi
      simp only [List.mem_cons, List.not_mem_nil, or_false] at hc
      rcases hc with rfl | rfl | rfl | rfl | rfl | rfl <;> cases hi)
    (by simp)
  exact ⟨t, h⟩

-- a map of 100 entries does
example : ∃ t1, demo.get 7 = .ok (some 1, t1) ∧ (Tree.newOn t1.store).len = 0 ∧
    (Tree.newOn t1.store).get 7 = .ok (some 1, Tree.newOn t1.store) := by
  obtain ⟨t1, h1, h2, -, h3⟩ := C58_refuted demo_reach.mut.bulk demo_shows (k := 7) (v := 1)
    (by decide +kernel)
  exact ⟨t1, h1, h2, h3⟩

example := C58_after_insert_partial demoBulk.store 3 30 [.get 3, .remove 3, .iter 1]
  (by
    intro c hc i hi
    simp only [List.mem_cons, List.not_mem_nil, or_false] at hc
    rcases hc with rfl | rfl | rfl <;> cases hi) (by decide)
example : (Tree.newOn demo.store).drop = .ok [] := C58_leak _

end Bpt
