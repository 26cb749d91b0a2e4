import Verif.Proofs.DropInsert
import Verif.Proofs.DropLast
import Verif.Props.Crash

/-!
# C59: destructors that panic inside an insertion

`insertD` runs an insertion and lists the destructors it runs (of the given key, and of the augmentations
that are replaced), each with the map as it is in memory at that moment: the map a caller sees who
catches the panic of that destructor.
-/

namespace Bpt
variable {K V A : Type}

/-- The insertion that lists its destructors is the insertion of the model. -/
theorem C59_insert_program [Augmentation K V A] (t : Tree K V A) (o : Answers K) (k : K) (v : V) :
    (t.insertD o k v).result = t.insertU o k v :=
  insertD_result o t k v

/-- How many destructors an insertion runs: that of the given key if a value was replaced, and of one
augmentation for each inner node on the way to the leaf and one for the root. -/
theorem C59_insert_points [Augmentation K V A] (t : Tree K V A) (o : Answers K) (k : K) (v : V)
    {prev : Option V} {t1 : Tree K V A} (h : t.insertU o k v = .ok (prev, t1))
    {stack : List StackEntry} {id : Nat}
    (hd : descendLeaf t.store (stackStepU o) [] t.root = .ok (stack, id)) :
    (t.insertD o k v).trace.map (·.1) =
      (if prev.isSome then [.dropKey] else []) ++ List.replicate (stack.length + 1) .dropAug :=
  insertD_points o t k v h hd

/-- What `len` and `root_augmentation` say after such a panic: the last destructor of an insertion is that
of the old root augmentation, when all of the map but its length is as after the insertion; at the
destructors before it the root, its augmentation, the length and the statistic are as they were. -/
theorem C59_insert_last [Augmentation K V A] (t : Tree K V A) (o : Answers K) (k : K) (v : V)
    {prev : Option V} {t1 : Tree K V A} (h : t.insertU o k v = .ok (prev, t1)) :
    ∃ pre, (t.insertD o k v).trace = pre ++ [(.dropAug, { t1 with len := t.len })] ∧
      ∀ cb t', (cb, t') ∈ pre → t' = { t with store := t'.store } :=
  insertD_last h

/-- A destructor that panics inside an insertion, after any history with any comparisons, causes no
undefined behaviour: the insertion would have given a map with the items `l1`; dropping the map that is
left behind drops these items, in order and once each, except that one item too many may be present, in
which case the last one is not dropped; and any lookups in it run without a fault, each answering `None`
or the value of an item of `l1` whose key was found equal. -/
theorem C59_insert [Augmentation K V A] {t0 : Tree K V A} {l0 : List (K × V)}
    (h0 : Fresh t0 l0) (cs : List (Answers K × UCall K V)) (o : Answers K)
    (k : K) (v : V) (hn : l0.length + cs.length + 1 < 2 ^ 64) :
    ∃ as t l, t0.urun cs = .ok (as, t) ∧ Contents t l ∧
      ∃ a t1 l1, t.ucall o (.insert k v) = .ok (a, t1) ∧ Contents t1 l1 ∧
        Effect (.insert k v) a l l1 ∧
        ∀ cb t', (cb, t') ∈ (t.insertD o k v).trace →
          t'.drop = .ok (l1.take l.length) ∧
          ∀ os : List (Answers K), ∃ rs u, t'.urun (os.map (·, .get)) = .ok (rs.map .value, u) ∧
            List.Forall₂ (fun o r => ∀ w, r = some w → ∃ x j, (x, w) ∈ l1 ∧ o.leaf j x = .eq) os rs := by
  obtain ⟨as, t, l, h1, h2, h3⟩ := urun_ok h0.inv cs (by rw [h0.inv.len]; omega)
  have hlen := h3.length_le
  obtain ⟨r, t1, l1, e1, e2, e3, e4⟩ := insertD_crash h2
    (by rw [h2.len]; simp only [List.length_map] at hlen; omega) o k v
  refine ⟨as, t, l, h1, h2.contents, .value r, t1, l1, ?_, e2.contents, e3, fun cb t' ht => ?_⟩
  · simp only [Tree.ucall, e1, ok_bind, pure_ok]
  · obtain ⟨e5, e6⟩ := e4 cb t' ht
    exact ⟨e5, e6.readable.urun⟩

/-! ## Instances -/

/-- What dropping the map does at each destructor of an insertion after `cs`. -/
def insertDestructors (cs : List (Call Nat Nat)) (k v : Nat) : List (Callback × Except Fault Nat) :=
  match (Tree.new : Tree Nat Nat Count).urun (lawfulHistory cs) with
  | .ok (_, t) => (t.insertD ((Call.insert k v).answers false) k v).trace.map (fun e =>
      (e.1, match e.2.drop with | .ok l => .ok l.length | .error e => .error e))
  | .error _ => []

/-- An insertion that splits the first leaf. -/
example : insertDestructors fullLeaf 64 64 = [(.dropAug, .ok 64)] := by decide +kernel

/-- An insertion that replaces a value in a map with one inner node. -/
example : insertDestructors ((List.range 65).map (fun i => .insert i i)) 3 4 =
    [(.dropKey, .ok 65), (.dropAug, .ok 65), (.dropAug, .ok 65)] := by decide +kernel

/-- An insertion that splits a leaf under that inner node. -/
example : insertDestructors ((List.range 96).map (fun i => .insert i i)) 96 96 =
    [(.dropAug, .ok 96), (.dropAug, .ok 96)] := by decide +kernel

example := C59_insert (A := Count) .new (lawfulHistory fullLeaf) ((Call.insert 64 64).answers false)
  64 64 (by decide)
-- the hypotheses of `C59_insert_points`: the first map of the examples with an inner node
example : ((Tree.new : Tree Nat Nat Count).urun (lawfulHistory ((List.range 65).map
      (fun i => .insert i i)))).toOption.bind (fun r =>
    ((r.2.insertU ((Call.insert 3 4).answers false) 3 4).toOption.map (·.1)).bind fun p =>
    (descendLeaf r.2.store (stackStepU ((Call.insert 3 4).answers false)) [] r.2.root).toOption.map
      fun d => (p, d.1.length)) = some (some 3, 1) := by decide +kernel
example := fun prev t1 h => C59_insert_last (A := Count) demo ((Call.insert 3 3).answers true) 3 3
  (prev := prev) (t1 := t1) h
example : (demo.insertU ((Call.insert 3 3).answers true) 3 3).toOption.isSome = true := by decide +kernel
example := C59_insert_program (A := Count) demo ((Call.insert 3 3).answers true) 3 3

end Bpt
