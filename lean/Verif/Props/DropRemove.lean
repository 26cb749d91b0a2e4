import Verif.Proofs.DropRemove
import Verif.Props.DropInsert

/-!
# C59: destructors that panic inside a removal

`removeD` runs a removal and lists the destructors it runs (of the removed key, of the keys of inner nodes
that are replaced or not needed any more, and of the augmentations that are replaced), each with the map as
it is in memory at that moment: the map a caller sees who catches the panic of that destructor. Not listed
is the augmentation destroyed in the middle of `remove_slot_with_right`, see `C59_remove_refuted`, and the
double drop at the end of `merge_inner_node`, see C36.
-/

namespace Bpt
variable {K V A : Type}

/-- The removal that lists its destructors is the removal of the model. -/
theorem C59_remove_program [Augmentation K V A] (t : Tree K V A) (o : Answers K) :
    (t.removeD o).result = t.removeU o := by
  rw [removeD_result, removeT_result]

/-- How many destructors a removal runs. None if the key is not found. Otherwise: of the removed key and
of one key for each rotation or merge of leaves; and of one augmentation for each inner node on the way to
the leaf, one for the root and one more for each rotation. -/
theorem C59_remove_points [Augmentation K V A] (t : Tree K V A) (o : Answers K)
    {r : Option V} {t1 : Tree K V A} (h : t.removeU o = .ok (r, t1))
    {stack : List StackEntry} {id : Nat}
    (hd : descendLeaf t.store (stackStepU o) [] t.root = .ok (stack, id)) :
    (r = none → (t.removeD o).trace = []) ∧
    (r.isSome →
      ((t.removeD o).trace.map (·.1)).count .dropKey + t.st.leafSteps = t1.st.leafSteps + 1 ∧
      ((t.removeD o).trace.map (·.1)).count .dropAug + t.st.rotations
        = t1.st.rotations + stack.length + 1) :=
  removeD_tally o t h hd

/-- What `len` and `root_augmentation` say after such a panic: the last two destructors of a removal are
that of the old root augmentation, when all of the map but its length is as after the removal, and that of
the removed key, when the removal is complete; at the destructors before them the root, its augmentation
and the length are as they were. -/
theorem C59_remove_last [Augmentation K V A] (t : Tree K V A) (o : Answers K) {w : V} {t1 : Tree K V A}
    (h : t.removeU o = .ok (some w, t1)) :
    ∃ pre, (t.removeD o).trace = pre ++ [(.dropAug, { t1 with len := t.len }), (.dropKey, t1)] ∧
      ∀ cb t', (cb, t') ∈ pre → t' = { t with store := t'.store, st := t'.st } :=
  removeD_last h

/-- What a destructor that panics inside a removal does, at every listed destructor after any history with
any comparisons. Either the removal is complete, or one item less is in the leaves than `len` says. In that
case dropping the map panics if the leaf that the last children lead to is still there, and is undefined
behaviour if it is gone. -/
theorem C59_remove_exact [Augmentation K V A] {t0 : Tree K V A} {l0 : List (K × V)}
    (h0 : Fresh t0 l0) (cs : List (Answers K × UCall K V)) (o : Answers K)
    (hn : l0.length + cs.length + 1 < 2 ^ 64) :
    ∃ as t l, t0.urun cs = .ok (as, t) ∧ Contents t l ∧
      ∃ a t1 l1, t.ucall o .remove = .ok (a, t1) ∧ Contents t1 l1 ∧ Effect .remove a l l1 ∧
        ∀ cb t', (cb, t') ∈ (t.removeD o).trace →
          (cb = .dropKey ∧ t' = t1) ∨
          ∃ j, t'.lastLeaf = .ok j ∧
            ((∃ leaf, t'.store.leaves[j]? = some (some leaf)) → t'.drop = .error .panic) ∧
            ((¬ ∃ leaf, t'.store.leaves[j]? = some (some leaf)) → t'.drop = .error .ub) := by
  obtain ⟨as, t, l, h1, h2, h3⟩ := urun_ok h0.inv cs (by rw [h0.inv.len]; omega)
  obtain ⟨a, t1, l1, e1, e2, e3⟩ := ucall_ok h2 (by
    have := h3.length_le
    simp only [List.length_map] at this
    rw [h2.len]; omega) o .remove
  refine ⟨as, t, l, h1, h2.contents, a, t1, l1, e1, e2.contents, e3, fun cb t' ht => ?_⟩
  rcases removeD_points (by omega) h2 o cb t' ht with ⟨hc, r, hr⟩ | ⟨⟨j, k1, k2⟩, -⟩
  · refine .inl ⟨hc, ?_⟩
    simp only [Tree.ucall, hr, ok_bind, pure_ok] at e1
    exact (Prod.mk.inj (Except.ok.inj e1)).2
  · refine .inr ⟨j, k1, fun h => ?_, fun h => ?_⟩
    · rw [k2, if_pos h]
    · rw [k2, if_neg h]

/-- The destructor of a key that panics inside a removal causes no undefined behaviour, and neither does
that of an augmentation as long as no leaves were merged, or when the root has been replaced: the removal
is complete, or dropping the map that is left behind panics, and any lookups in it run without a fault, each
answering `None` or the value of an item the map had before, whose key was found equal.

Partial: for the destructors of augmentations in a removal that merges leaves see `C59_remove_exact`,
`C59_remove_aug_refuted` and `C59_remove_refuted`. -/
theorem C59_remove_partial [Augmentation K V A] {t0 : Tree K V A} {l0 : List (K × V)}
    (h0 : Fresh t0 l0) (cs : List (Answers K × UCall K V)) (o : Answers K)
    (hn : l0.length + cs.length + 1 < 2 ^ 64) :
    ∃ as t l, t0.urun cs = .ok (as, t) ∧ Contents t l ∧
      ∃ a t1 l1, t.ucall o .remove = .ok (a, t1) ∧ Contents t1 l1 ∧ Effect .remove a l l1 ∧
        ∀ cb t', (cb, t') ∈ (t.removeD o).trace →
          (cb = .dropKey ∨ (t'.st.mergeWithLeftLeaf = t.st.mergeWithLeftLeaf ∧
            t'.st.mergeWithRightLeaf = t.st.mergeWithRightLeaf) ∨ t'.root ≠ t.root) →
          t' = t1 ∨
          (t'.drop = .error .panic ∧
            ∀ os : List (Answers K), ∃ rs u, t'.urun (os.map (·, .get)) = .ok (rs.map .value, u) ∧
              List.Forall₂ (fun o r => ∀ w, r = some w → ∃ x j, (x, w) ∈ l ∧ o.leaf j x = .eq) os rs) := by
  obtain ⟨as, t, l, h1, h2, h3⟩ := urun_ok h0.inv cs (by rw [h0.inv.len]; omega)
  obtain ⟨a, t1, l1, e1, e2, e3⟩ := ucall_ok h2 (by
    have := h3.length_le
    simp only [List.length_map] at this
    rw [h2.len]; omega) o .remove
  refine ⟨as, t, l, h1, h2.contents, a, t1, l1, e1, e2.contents, e3, fun cb t' ht hc => ?_⟩
  rcases removeD_points (by omega) h2 o cb t' ht with ⟨-, r, hr⟩ | ⟨-, hk⟩
  · refine .inl ?_
    simp only [Tree.ucall, hr, ok_bind, pure_ok] at e1
    exact (Prod.mk.inj (Except.ok.inj e1)).2
  · obtain ⟨k1, n, k2, -⟩ := hk (hc.imp id (Or.imp (fun h => by simp [Statistic.leafMerges, h]) id))
    exact .inr ⟨k1, k2.readable.urun⟩

/-! ## Instances -/

/-- What dropping the map does at each destructor of a removal after `cs`. -/
def removeDestructors (cs : List (Call Nat Nat)) (k : Nat) : List (Callback × Except Fault Nat) :=
  match (Tree.new : Tree Nat Nat Count).urun (lawfulHistory cs) with
  | .ok (_, t) => (t.removeD ((Call.remove (V := Nat) k).answers false)).trace.map (fun e =>
      (e.1, match e.2.drop with | .ok l => .ok l.length | .error e => .error e))
  | .error _ => []

/-- A removal that merges the only two leaves: the destructor of the replaced augmentation runs when the
last leaf is gone. -/
example : removeDestructors twoSmallLeaves 20 =
    [(.dropAug, .error .ub), (.dropKey, .error .panic), (.dropAug, .error .panic), (.dropKey, .ok 31)] := by
  decide +kernel

/-- A removal that moves an item from the right leaf to the left one. -/
example : removeDestructors ((List.range 65).map (fun i => .insert i i) ++
    (List.range 16).map (fun i => .remove i)) 20 =
    [(.dropAug, .error .panic), (.dropAug, .error .panic), (.dropKey, .error .panic),
      (.dropAug, .error .panic), (.dropKey, .ok 48)] := by decide +kernel

/-- A removal from a leaf that is large enough, and one of a key that is not there. -/
example : removeDestructors ((List.range 65).map (fun i => .insert i i)) 20 =
    [(.dropAug, .error .panic), (.dropAug, .error .panic), (.dropKey, .ok 64)] := by decide +kernel
example : removeDestructors ((List.range 65).map (fun i => .insert i i)) 100 = [] := by decide +kernel

/-- If the destructor of an augmentation panics while a removal merges two leaves, dropping the map can be
undefined behaviour. -/
theorem C59_remove_aug_refuted : ∃ (cs : List (Call Nat Nat)) (k : Nat) (as : _) (t t' : _),
    (Tree.new : Tree Nat Nat Count).urun (lawfulHistory cs) = .ok (as, t) ∧
    (.dropAug, t') ∈ (t.removeD ((Call.remove (V := Nat) k).answers false)).trace ∧ t'.drop = .error .ub := by
  have key : removeDestructors twoSmallLeaves 20 =
    [(.dropAug, .error .ub), (.dropKey, .error .panic), (.dropAug, .error .panic), (.dropKey, .ok 31)] := by
    decide +kernel
  unfold removeDestructors at key
  split at key
  · next as t e =>
    have hm : ((.dropAug, .error .ub) : Callback × Except Fault Nat) ∈
        (t.removeD ((Call.remove (V := Nat) 20).answers false)).trace.map (fun e =>
          (e.1, match e.2.drop with | .ok l => .ok l.length | .error e => .error e)) := by
      rw [key]; simp
    obtain ⟨⟨cb, t'⟩, h1, h2⟩ := List.mem_map.1 hm
    simp only [Prod.mk.injEq] at h2
    obtain ⟨rfl, h2⟩ := h2
    refine ⟨twoSmallLeaves, 20, as, t, t', e, h1, ?_⟩
    cases hd : t'.drop with
    | ok l => rw [hd] at h2; cases h2
    | error f => rw [hd] at h2; exact congrArg _ (Except.error.inj h2)
  · cases key

example := C59_remove_exact (A := Count) .new (lawfulHistory twoSmallLeaves)
  ((Call.remove (V := Nat) 20).answers false) (by decide)
example := C59_remove_partial (A := Count) .new (lawfulHistory twoSmallLeaves)
  ((Call.remove (V := Nat) 20).answers false) (by decide)
example := C59_remove_program (A := Count) demo ((Call.remove (V := Nat) 3).answers true)
example := fun w t1 h => C59_remove_last (A := Count) demo ((Call.remove (V := Nat) 3).answers true) (w := w)
  (t1 := t1) h
-- the hypotheses of `C59_remove_points` and `C59_remove_last`: the merge above
example : ((Tree.new : Tree Nat Nat Count).urun (lawfulHistory twoSmallLeaves)).toOption.bind (fun r =>
    ((r.2.removeU ((Call.remove (V := Nat) 20).answers false)).toOption.map (·.1)).bind fun p =>
    (descendLeaf r.2.store (stackStepU ((Call.remove (V := Nat) 20).answers false)) [] r.2.root).toOption.map
      fun d => (p, d.1.length)) = some (some 20, 1) := by decide +kernel

end Bpt
