import Verif.Proofs.CrashExact
import Verif.Proofs.CrashLedger
import Verif.Props.Unordered

/-!
# C45: user code that panics in the middle of a call

`ucallT` runs a call and also lists the pieces of user code it calls, each with the map as it is in
memory at that moment: the map a caller sees who catches the panic.
-/

namespace Bpt
variable {K V A : Type}

/-- The traced calls are the calls of the model. -/
theorem C45_program [Augmentation K V A] (t : Tree K V A) (o : Answers K) (c : UCall K V) :
    (t.ucallT o c).result = t.ucall o c :=
  ucallT_result t o c

/-- No crash point of an insertion or a removal is forgotten: in any memory, the copies of keys and the
summaries of nodes that the ledger of objects records (the ledger that balances, C36) are made, in
this order, by the pieces of user code listed. -/
theorem C45_points [Augmentation K V A] (t : Tree K V A) (o : Answers K) (c : UCall K V)
    (hc : (∃ k v, c = .insert k v) ∨ c = .remove) :
    (t.ucallT o c).trace.filterMap (·.1.kind) = (t.ucallL o c).log.filterMap Event.kind := by
  rcases hc with ⟨k, v, rfl⟩ | rfl
  · exact (MadeAlike.bind (insert_made o t k v) fun x => .pure _).2
  · exact (MadeAlike.bind (remove_made o t) fun x => .pure _).2

/-- A panic in a comparison, at any point of any call after any history, and a panic in any user code
called by anything but an insertion or a removal, loses nothing: the map left behind holds exactly the
items it held before the call, and any further history of calls on it runs without a fault, with the
usual effects. -/
theorem C45_comparison [Augmentation K V A] {t0 : Tree K V A} {l0 : List (K × V)}
    (h0 : Fresh t0 l0) (cs : List (Answers K × UCall K V)) (o : Answers K)
    (c : UCall K V) (hn : l0.length + cs.length < 2 ^ 64) :
    ∃ as t l, t0.urun cs = .ok (as, t) ∧ Contents t l ∧
      ∀ cb t', (cb, t') ∈ (t.ucallT o c).trace →
        cb = .compare ∨ (∀ k v, c ≠ .insert k v) ∧ c ≠ .remove →
        Contents t' l ∧
        ∀ cs' : List (Answers K × UCall K V), l.length + cs'.length < 2 ^ 64 →
          ∃ as' t'' l'', t'.urun cs' = .ok (as', t'') ∧ Effects (cs'.map (·.2)) as' l l'' ∧
            Contents t'' l'' := by
  obtain ⟨as, t, l, h1, h2, h3⟩ := urun_ok h0.inv cs (by rw [h0.inv.len]; omega)
  refine ⟨as, t, l, h1, h2.contents, fun cb t' ht hc => ?_⟩
  have h' : UInvM 1 t' l := by
    rcases ucallT_compare h2 o c cb t' ht hc with rfl | ⟨r, hr⟩
    · exact h2
    · obtain ⟨r', t1, hg, hu, -⟩ := getU_ok h2 o
      simp only [Tree.ucall, hg, ok_bind, pure_ok] at hr
      rw [← (Prod.mk.inj (Except.ok.inj hr)).2]
      exact hu
  refine ⟨h'.contents, fun cs' hl => ?_⟩
  obtain ⟨as', t'', l'', e1, e2, e3⟩ := urun_ok h' cs' (by rw [h'.len]; exact hl)
  exact ⟨as', t'', l'', e1, e3, e2.contents⟩

/-- A panic in `from_leaf` or `from_inner` during an insertion, after any history: dropping the map
drops the items of the completed insertion, in order, except that one item too many may be present, in
which case the last one is not dropped. No item is dropped twice and nothing else is touched.

Partial: `K::clone` is not covered, see `C45_clone_refuted`. -/
theorem C45_insert_partial [Augmentation K V A] {t0 : Tree K V A} {l0 : List (K × V)}
    (h0 : Fresh t0 l0) (cs : List (Answers K × UCall K V)) (o : Answers K)
    (k : K) (v : V) (hn : l0.length + cs.length + 1 < 2 ^ 64) :
    ∃ as t l, t0.urun cs = .ok (as, t) ∧ Contents t l ∧
      ∃ a t1 l1, t.ucall o (.insert k v) = .ok (a, t1) ∧ Contents t1 l1 ∧
        Effect (.insert k v) a l l1 ∧
        ∀ cb t', (cb, t') ∈ (t.ucallT o (.insert k v)).trace → cb.isFromLeaf ∨ cb.isFromInner →
          t'.drop = .ok (l1.take l.length) := by
  obtain ⟨as, t, l, h1, h2, h3⟩ := urun_ok h0.inv cs (by rw [h0.inv.len]; omega)
  have hlen := h3.length_le
  obtain ⟨r, t1, l1, e1, e2, e3, e4⟩ := insertT_drop h2
    (by rw [h2.len]; simp only [List.length_nil, List.length_map] at hlen; omega) o k v
  refine ⟨as, t, l, h1, h2.contents, .value r, t1, l1, ?_, e2.contents, e3, ?_⟩
  · simp only [Tree.ucall, e1, ok_bind, pure_ok]
  · intro cb t' ht hc
    have : (t.ucallT o (.insert k v)).All (fun c t' => c.isFromLeaf ∨ c.isFromInner →
        t'.drop = .ok (l1.take l.length)) :=
      Traced.all_bind e4 fun _ _ => Traced.all_pure
    exact this cb t' ht hc

/-- A panic in `K::clone`, `from_leaf` or `from_inner` during a removal, after any history: dropping
the map panics (one item less is in the leaves than `len` says), and does nothing undefined.

Partial: not covered is `from_leaf` called while two leaves are merged, see `C45_merge_refuted`. That
call is the only one made with the statistics showing a leaf merge and with the root still unchanged. -/
theorem C45_remove_partial [Augmentation K V A] {t0 : Tree K V A} {l0 : List (K × V)}
    (h0 : Fresh t0 l0) (cs : List (Answers K × UCall K V)) (o : Answers K)
    (hn : l0.length + cs.length < 2 ^ 64) :
    ∃ as t l, t0.urun cs = .ok (as, t) ∧ Contents t l ∧
      ∀ cb t', (cb, t') ∈ (t.ucallT o .remove).trace → cb ≠ .compare →
        (cb.isFromLeaf → (t'.st.mergeWithLeftLeaf = t.st.mergeWithLeftLeaf ∧
          t'.st.mergeWithRightLeaf = t.st.mergeWithRightLeaf) ∨ t'.root ≠ t.root) →
        t'.drop = .error .panic := by
  obtain ⟨as, t, l, h1, h2, h3⟩ := urun_ok h0.inv cs (by rw [h0.inv.len]; omega)
  refine ⟨as, t, l, h1, h2.contents, fun cb t' ht hc hm => ?_⟩
  have : (t.ucallT o .remove).All (fun cb m => cb ≠ .compare →
      (cb.isFromLeaf → m.st.leafMerges = t.st.leafMerges ∨ m.root ≠ t.root) →
      m.drop = .error .panic) :=
    Traced.all_bind (removeT_drop (by omega) h2 o) fun _ _ => Traced.all_pure
  exact this cb t' ht hc fun h => (hm h).imp (fun h => by simp [Statistic.leafMerges, h]) id

/-! ### Crash points after which dropping the map is undefined behaviour -/

/-- A history with the comparisons of a linear order. -/
def lawfulHistory (cs : List (Call Nat Nat)) : List (Answers Nat × UCall Nat Nat) :=
  cs.map (fun c => (c.answers false, c.lawless))

/-- Does some crash point of the given kind in `c`, after `cs`, make dropping the map undefined? -/
def crashUB (cs : List (Call Nat Nat)) (c : Call Nat Nat) (kind : Callback → Bool) : Bool :=
  match (Tree.new : Tree Nat Nat Count).urun (lawfulHistory cs) with
  | .ok (_, t) => (t.ucallT (c.answers false) c.lawless).trace.any (fun e =>
      kind e.1 && match e.2.drop with | .error .ub => true | _ => false)
  | .error _ => false

theorem crashUB_spec {cs : List (Call Nat Nat)} {c : Call Nat Nat} {kind : Callback → Bool}
    (h : crashUB cs c kind = true) :
    ∃ as t cb t', (Tree.new : Tree Nat Nat Count).urun (lawfulHistory cs) = .ok (as, t) ∧
      kind cb ∧ (cb, t') ∈ (t.ucallT (c.answers false) c.lawless).trace ∧ t'.drop = .error .ub := by
  unfold crashUB at h
  split at h
  · next as t e =>
    obtain ⟨⟨cb', t'⟩, h1, h2⟩ := List.any_eq_true.1 h
    simp only [Bool.and_eq_true] at h2
    obtain ⟨h0, h2⟩ := h2
    refine ⟨as, t, cb', t', e, h0, h1, ?_⟩
    split at h2
    · next e => exact e
    · cases h2
  · cases h

/-- 64 insertions fill the first leaf; the next one splits it. -/
def fullLeaf : List (Call Nat Nat) := (List.range 64).map (fun i => .insert i i)

/-- Two leaves of 16 items: the next removal merges them. -/
def twoSmallLeaves : List (Call Nat Nat) :=
  (List.range 65).map (fun i => .insert i i) ++ (List.range 17).map (fun i => .remove (48 + i)) ++
    (List.range 16).map (fun i => .remove i)

/-- If `K::clone` panics while an insertion splits a leaf, dropping the map is undefined behaviour. -/
theorem C45_clone_refuted : ∃ (cs : List (Call Nat Nat)) (c : Call Nat Nat) (as : _) (t t' : _),
    (Tree.new : Tree Nat Nat Count).urun (lawfulHistory cs) = .ok (as, t) ∧
    (.cloneKey, t') ∈ (t.ucallT (c.answers false) c.lawless).trace ∧ t'.drop = .error .ub :=
  by
    obtain ⟨as, t, cb, t', h1, h2, h3, h4⟩ := crashUB_spec (cs := fullLeaf) (c := .insert 64 64)
      (kind := fun cb => decide (cb = .cloneKey)) (by decide +kernel)
    exact ⟨fullLeaf, .insert 64 64, as, t, t', h1, of_decide_eq_true h2 ▸ h3, h4⟩

/-- If `from_leaf` panics while a removal merges two leaves, dropping the map is undefined
behaviour. -/
theorem C45_merge_refuted : ∃ (cs : List (Call Nat Nat)) (c : Call Nat Nat) (as : _) (t : _)
    (cb : Callback) (t' : _),
    (Tree.new : Tree Nat Nat Count).urun (lawfulHistory cs) = .ok (as, t) ∧
    cb.isFromLeaf ∧ (cb, t') ∈ (t.ucallT (c.answers false) c.lawless).trace ∧
    t'.drop = .error .ub :=
  ⟨twoSmallLeaves, .remove 20, crashUB_spec (by decide +kernel)⟩

/-- It is always so: after any history, whenever `K::clone` is called by an insertion, a panic there
leaves a map that cannot be dropped without undefined behaviour. -/
theorem C45_clone_exact [Augmentation K V A] {t0 : Tree K V A} {l0 : List (K × V)}
    (h0 : Fresh t0 l0) (cs : List (Answers K × UCall K V)) (o : Answers K)
    (k : K) (v : V) (hn : l0.length + cs.length < 2 ^ 64) :
    ∃ as t l, t0.urun cs = .ok (as, t) ∧ Contents t l ∧
      ∀ t', (.cloneKey, t') ∈ (t.ucallT o (.insert k v)).trace → t'.drop = .error .ub := by
  obtain ⟨as, t, l, h1, h2, h3⟩ := urun_ok h0.inv cs (by rw [h0.inv.len]; omega)
  refine ⟨as, t, l, h1, h2.contents, fun t' ht => ?_⟩
  have : (t.ucallT o (.insert k v)).All (fun c t' => c = .cloneKey → t'.drop = .error .ub) :=
    Traced.all_bind (insertT_clone h2 o k v) fun _ _ => Traced.all_pure
  exact this _ t' ht rfl

/-- What a panic in `K::clone`, `from_leaf` or `from_inner` during a removal does, at every crash point
after any history: dropping the map panics if the leaf that the last children lead to is still there,
and is undefined behaviour if it is gone. (It is gone only while the last two leaves are merged, see
`C45_remove_partial` for all other crash points.) -/
theorem C45_remove_exact [Augmentation K V A] {t0 : Tree K V A} {l0 : List (K × V)}
    (h0 : Fresh t0 l0) (cs : List (Answers K × UCall K V)) (o : Answers K)
    (hn : l0.length + cs.length < 2 ^ 64) :
    ∃ as t l, t0.urun cs = .ok (as, t) ∧ Contents t l ∧
      ∀ cb t', (cb, t') ∈ (t.ucallT o .remove).trace → cb ≠ .compare →
        ∃ j, t'.lastLeaf = .ok j ∧
          ((∃ leaf, t'.store.leaves[j]? = some (some leaf)) → t'.drop = .error .panic) ∧
          ((¬ ∃ leaf, t'.store.leaves[j]? = some (some leaf)) → t'.drop = .error .ub) := by
  obtain ⟨as, t, l, h1, h2, h3⟩ := urun_ok h0.inv cs (by rw [h0.inv.len]; omega)
  refine ⟨as, t, l, h1, h2.contents, fun cb t' ht hc => ?_⟩
  obtain ⟨j, e1, e2⟩ := Traced.all_bind (removeT_exact (by omega) h2 o)
    (fun _ _ => Traced.all_pure) cb t' ht hc
  refine ⟨j, e1, fun h => ?_, fun h => ?_⟩
  · rw [e2, if_pos h]
  · rw [e2, if_neg h]

/-! ### The crash points of some calls -/

/-- What dropping the map does at each crash point of `c` after `cs`: the number of items dropped, or
the fault. -/
def crashes (cs : List (Call Nat Nat)) (c : Call Nat Nat) : List (Callback × Except Fault Nat) :=
  match (Tree.new : Tree Nat Nat Count).urun (lawfulHistory cs) with
  | .ok (_, t) => (t.ucallT (c.answers false) c.lawless).trace.map (fun e =>
      (e.1, match e.2.drop with | .ok l => .ok l.length | .error e => .error e))
  | .error _ => []

/-- Splitting the first leaf. -/
example : crashes fullLeaf (.insert 64 64) =
    [(.compare, .ok 64), (.cloneKey, .error .ub), (.fromLeaf 32, .ok 64), (.fromLeaf 33, .ok 64),
      (.fromInner 1 2, .ok 64)] := by decide +kernel

/-- Merging the only two leaves: the last leaf is gone. -/
example : crashes twoSmallLeaves (.remove 20) =
    [(.compare, .ok 32), (.fromLeaf 31, .error .ub), (.fromLeaf 31, .error .panic)] := by
  decide +kernel

/-- Merging the first two of three leaves: the last leaf is still there. -/
example : crashes ((List.range 97).map (fun i => .insert i i) ++
    (List.range 16).map (fun i => .remove i) ++ (List.range 16).map (fun i => .remove (32 + i)))
    (.remove 20) =
    [(.compare, .ok 65), (.fromLeaf 31, .error .panic), (.fromInner 1 2, .error .panic)] := by
  decide +kernel

/-- A removal that rotates an item from the right leaf to the left one. -/
example : crashes ((List.range 65).map (fun i => .insert i i) ++
    (List.range 16).map (fun i => .remove i)) (.remove 20) =
    [(.compare, .ok 49), (.fromLeaf 32, .error .panic), (.cloneKey, .error .panic),
      (.fromLeaf 16, .error .panic), (.fromInner 1 2, .error .panic)] := by decide +kernel

/-- The objects made by the removal above. -/
example : (match (Tree.new : Tree Nat Nat Count).urun (lawfulHistory ((List.range 65).map
      (fun i => .insert i i) ++ (List.range 16).map (fun i => .remove i))) with
    | .ok (_, t) => (t.ucallL ((Call.remove (V := Nat) 20).answers false) .remove).log.filterMap Event.kind
    | .error _ => []) = [.summary, .keyCopy, .summary, .summary] := by decide +kernel

-- the hypotheses, on the histories above
example := C45_points (A := Count) demo ((Call.remove (V := Nat) 3).answers true) .remove (.inr rfl)
example := C45_program (A := Count) demo ((Call.remove (V := Nat) 3).answers true) .remove
example := C45_comparison (A := Count) .new (lawfulHistory fullLeaf) ((Call.insert 64 64).answers false)
  (Call.insert 64 64).lawless (by decide)
example := C45_insert_partial (A := Count) .new (lawfulHistory fullLeaf) ((Call.insert 64 64).answers false)
  64 64 (by decide)
example := C45_clone_exact (A := Count) .new (lawfulHistory fullLeaf) ((Call.insert 64 64).answers false)
  64 64 (by decide)
example := C45_remove_exact (A := Count) .new (lawfulHistory twoSmallLeaves)
  ((Call.remove (V := Nat) 20).answers false) (by decide)
example := C45_remove_partial (A := Count) .new (lawfulHistory twoSmallLeaves)
  ((Call.remove (V := Nat) 20).answers false) (by decide)

end Bpt
