import Verif.Proofs.Aftermath
import Verif.Props.Crash
import Verif.Props.Map

/-!
# C62: what lookups see after a caught panic of user code

`ucallT` runs a call and lists the pieces of user code it calls, each with the map as it is in memory at
that moment: the map a caller sees who catches the panic of that piece of user code. The comparisons are
those of the linear order until one panics.
-/

namespace Bpt
open Spec
variable {K V A : Type}

/-! ## Comparisons, and calls that do not insert or remove -/

/-- A panic in a comparison during any call, and a panic in any user code called by anything but an
insertion or a removal, is as if the call had not been made: `get` answers for every key as before and
`len` is as before. -/
theorem C62_comparison [LinearOrder K] [Augmentation K V A] {t : Tree K V A} (h : ReachableBulk t)
    {l : List (K × V)} (hl : Shows t l) (early : Bool) (c : Call K V) (cb : Callback) (t' : Tree K V A)
    (ht : (cb, t') ∈ (t.ucallT (c.answers early) c.lawless).trace)
    (hc : cb = .compare ∨ (∀ k v, c ≠ .insert k v) ∧ ∀ k, c ≠ .remove k) :
    Shows t' l ∧ t'.len = t.len := by
  obtain ⟨H, g, w, h2, -⟩ := h.wf
  obtain ⟨l', hi⟩ := h.inv
  obtain rfl := content_unique hi.shows hl
  have hu : UInvM 0 t g.toL := ⟨⟨H, g, w.base, rfl⟩, h2, by omega⟩
  have hc' : cb = .compare ∨ (∀ k v, c.lawless ≠ .insert k v) ∧ c.lawless ≠ .remove := by
    refine hc.imp id fun hc => ⟨fun k v e => ?_, fun e => ?_⟩
    · cases c <;> simp only [Call.lawless] at e <;> first | cases e | skip
      exact hc.1 _ _ rfl
    · cases c <;> simp only [Call.lawless] at e <;> first | cases e | skip
      exact hc.2 _ rfl
  have key : ∀ k, c.answers early = .ofOrder early k → Shows t' l' ∧ t'.len = t.len := by
    intro k hk
    rcases ucallT_compare hu _ _ cb t' ht hc' with rfl | ⟨r, hr⟩
    · exact ⟨hl, rfl⟩
    · have e : t.ucall (c.answers early) .get = t.call (.get k) := by
        rw [hk]; exact ucall_lawful w (w.depth h2) early (.get k)
      rw [e] at hr
      obtain ⟨t1, g1, g2, -⟩ := hi.get k
      simp only [Tree.call, g1, ok_bind, pure_ok] at hr
      cases hr
      refine ⟨g2.shows, ?_⟩
      rw [hi.len, g2.len]
  cases c with
  | insert k v => exact key k rfl
  | remove k => exact key k rfl
  | get k => exact key k rfl
  | getMut k f => exact key k rfl
  | getCursor k => exact key k rfl
  | cursorNext c => exact key c.k rfl
  | cursorPrev c => exact key c.k rfl
  | cursorValue c => exact key c.k rfl
  | _ => cases ht

/-! ## Summary code in insertions and removals that change a single leaf -/

/-- A panic in `from_leaf` or `from_inner` during an insertion that splits no leaf: `get` answers, for
every key, as after the completed insertion, and `len` is still the old length.

Partial: insertions that split a leaf are excluded, see `C62_split_refuted`. -/
theorem C62_insert_partial [LinearOrder K] [Augmentation K V A] {t : Tree K V A} (h : ReachableBulk t)
    {l : List (K × V)} (hl : Shows t l) (hn : t.len + 1 < 2 ^ 64) (early : Bool) (k : K) (v : V)
    {o : Option V} {t1 : Tree K V A} (h1 : t.insert k v = .ok (o, t1))
    (hleaf : t1.store.leaves.length = t.store.leaves.length) (cb : Callback) (t' : Tree K V A)
    (ht : (cb, t') ∈ (t.ucallT ((Call.insert k v).answers early) (.insert k v)).trace)
    (hc : cb.isFromLeaf ∨ cb.isFromInner) :
    Shows t' (upsert k v l) ∧ t'.len = l.length := by
  obtain ⟨H, g, w, h2, -⟩ := h.wf
  obtain ⟨l', hi⟩ := h.inv
  obtain rfl := content_unique hi.shows hl
  obtain ⟨t2, g1, g2, -⟩ := hi.insert (by omega) hn k v
  rw [h1] at g1
  cases g1
  have hr : (t.insertT (.ofOrder early k) k v).result = .ok (lookup k l', t1) := by
    rw [insertT_result, insertU_lawful w (w.depth h2), h1]
  have := insertT_bare _ t k v hr (by omega)
  have : (t.ucallT ((Call.insert k v).answers early) (.insert k v)).All _ :=
    Traced.all_bind this fun _ _ => Traced.all_pure
  obtain ⟨e1, e2, e3, -⟩ := this cb t' ht hc
  exact ⟨e1.shows e2 g2.shows, e3.trans hi.len⟩

/-- A panic in `from_leaf` or `from_inner` during a removal that neither moves an item between nodes nor
merges nodes: `get` answers, for every key, as after the completed removal, and `len` is still the old
length.

Partial: removals that repair a node are excluded, see `C62_rotation_refuted`. -/
theorem C62_remove_partial [LinearOrder K] [Augmentation K V A] {t : Tree K V A} (h : ReachableBulk t)
    {l : List (K × V)} (hl : Shows t l) (early : Bool) (k : K) {o : Option V} {t1 : Tree K V A}
    (h1 : t.remove k = .ok (o, t1)) (hst : t1.st = t.st) (cb : Callback) (t' : Tree K V A)
    (ht : (cb, t') ∈ (t.ucallT ((Call.remove (V := V) k).answers early) .remove).trace)
    (hc : cb.isFromLeaf ∨ cb.isFromInner) :
    Shows t' (erase k l) ∧ t'.len = l.length := by
  obtain ⟨H, g, w, h2, -⟩ := h.wf
  obtain ⟨l', hi⟩ := h.inv
  obtain rfl := content_unique hi.shows hl
  rcases hi.remove (by omega) k with ⟨t2, g1, g2, -⟩ | ⟨-, g1⟩
  · rw [h1] at g1
    cases g1
    have hr : (t.removeT (.ofOrder early k)).result = .ok (lookup k l', t1) := by
      rw [removeT_result, removeU_lawful w (w.depth h2), h1]
    have := removeT_bare _ t hr hst
    have : (t.ucallT ((Call.remove (V := V) k).answers early) .remove).All _ :=
      Traced.all_bind this fun _ _ => Traced.all_pure
    obtain ⟨e1, e2, e3, -⟩ := this cb t' ht hc
    exact ⟨e1.shows e2 g2.shows, e3.trans hi.len⟩
  · rw [h1] at g1; cases g1

/-! ## Lookups at the other crash points -/

/-- A panic in `from_leaf` or `from_inner` during any insertion, after any history with any comparisons:
every sequence of lookups in the map left behind, again with any comparisons, runs without a panic and
without undefined behaviour, and each answer is `None` or the value of an item of the completed
insertion whose key was found equal. -/
theorem C62_insert_lookups [Augmentation K V A] {t0 : Tree K V A} {l0 : List (K × V)}
    (h0 : Fresh t0 l0) (cs : List (Answers K × UCall K V)) (o : Answers K)
    (k : K) (v : V) (hn : l0.length + cs.length + 1 < 2 ^ 64) :
    ∃ as t l, t0.urun cs = .ok (as, t) ∧ Contents t l ∧
      ∃ a t1 l1, t.ucall o (.insert k v) = .ok (a, t1) ∧ Contents t1 l1 ∧
        Effect (.insert k v) a l l1 ∧
        ∀ cb t', (cb, t') ∈ (t.ucallT o (.insert k v)).trace → cb.isFromLeaf ∨ cb.isFromInner →
          ∀ os : List (Answers K), ∃ rs u, t'.urun (os.map (·, .get)) = .ok (rs.map .value, u) ∧
            List.Forall₂ (fun o r => ∀ w, r = some w → ∃ x j, (x, w) ∈ l1 ∧ o.leaf j x = .eq) os rs := by
  obtain ⟨as, t, l, h1, h2, h3⟩ := urun_ok h0.inv cs (by rw [h0.inv.len]; omega)
  have hlen := h3.length_le
  obtain ⟨r, t1, l1, e1, e2, e3, e4⟩ := insertT_readable h2
    (by rw [h2.len]; simp only [List.length_map] at hlen; omega) o k v
  refine ⟨as, t, l, h1, h2.contents, .value r, t1, l1, ?_, e2.contents, e3, ?_⟩
  · simp only [Tree.ucall, e1, ok_bind, pure_ok]
  · intro cb t' ht hc os
    have : (t.ucallT o (.insert k v)).All (fun c t' => c.isFromLeaf ∨ c.isFromInner →
        Readable (· ∈ l1) t') :=
      Traced.all_bind e4 fun _ _ => Traced.all_pure
    exact (this cb t' ht hc).urun os

/-- The same for a panic in `K::clone`, `from_leaf` or `from_inner` during a removal, after any history:
every lookup runs, and answers `None` or the value of an item the map had before the removal.

Partial: not covered is `from_leaf` called while two leaves are merged (see `C45_merge_refuted`). That
call is the only one made with the statistics showing a leaf merge and with the root still unchanged. -/
theorem C62_remove_lookups_partial [Augmentation K V A] {t0 : Tree K V A} {l0 : List (K × V)}
    (h0 : Fresh t0 l0) (cs : List (Answers K × UCall K V)) (o : Answers K)
    (hn : l0.length + cs.length < 2 ^ 64) :
    ∃ as t l, t0.urun cs = .ok (as, t) ∧ Contents t l ∧
      ∀ cb t', (cb, t') ∈ (t.ucallT o .remove).trace → cb ≠ .compare →
        (cb.isFromLeaf → (t'.st.mergeWithLeftLeaf = t.st.mergeWithLeftLeaf ∧
          t'.st.mergeWithRightLeaf = t.st.mergeWithRightLeaf) ∨ t'.root ≠ t.root) →
        ∀ os : List (Answers K), ∃ rs u, t'.urun (os.map (·, .get)) = .ok (rs.map .value, u) ∧
          List.Forall₂ (fun o r => ∀ w, r = some w → ∃ x j, (x, w) ∈ l ∧ o.leaf j x = .eq) os rs := by
  obtain ⟨as, t, l, h1, h2, h3⟩ := urun_ok h0.inv cs (by rw [h0.inv.len]; omega)
  refine ⟨as, t, l, h1, h2.contents, fun cb t' ht hc hm os => ?_⟩
  have : (t.ucallT o .remove).All (fun cb m => cb ≠ .compare →
      (cb.isFromLeaf → m.st.leafMerges = t.st.leafMerges ∨ m.root ≠ t.root) →
      Readable (· ∈ l) m) :=
    Traced.all_bind (removeT_readable (by omega) h2 o) fun _ _ => Traced.all_pure
  exact (this cb t' ht hc fun h => (hm h).imp (fun h => by simp [Statistic.leafMerges, h]) id).urun os

/-- With the comparisons of the order: after a panic in `from_leaf` or `from_inner` during an insertion
into any reachable map, each of any sequence of lookups runs, and answers `None` or what it answers after
the completed insertion. So items can become invisible (`C62_split_refuted`), but no lookup gives a wrong
value. -/
theorem C62_insert_no_wrong_value [LinearOrder K] [Augmentation K V A] {t : Tree K V A}
    (h : ReachableBulk t) {l : List (K × V)} (hl : Shows t l) (hn : t.len + 1 < 2 ^ 64) (early : Bool)
    (k : K) (v : V) (cb : Callback) (t' : Tree K V A)
    (ht : (cb, t') ∈ (t.ucallT ((Call.insert k v).answers early) (.insert k v)).trace)
    (hc : cb.isFromLeaf ∨ cb.isFromInner) (js : List K) :
    ∃ rs u, t'.urun (js.map fun j => ((Call.get (V := V) j).answers early, .get)) = .ok (rs.map .value, u) ∧
      List.Forall₂ (fun j r => r = none ∨ r = lookup j (upsert k v l)) js rs := by
  obtain ⟨H, g, w, h2, -⟩ := h.wf
  obtain ⟨l', hi⟩ := h.inv
  obtain rfl := content_unique hi.shows hl
  obtain ⟨t2, g1, g2, -⟩ := hi.insert (by omega) hn k v
  have hu : UInvM 0 t g.toL := ⟨⟨H, g, w.base, rfl⟩, h2, by omega⟩
  obtain ⟨r, t1, l1, e1, e2, -, e4⟩ := insertT_readable hu hn (.ofOrder early k) k v
  have e4 : (t.ucallT ((Call.insert k v).answers early) (.insert k v)).All _ :=
    Traced.all_bind e4 fun _ _ => Traced.all_pure
  rw [insertU_lawful w (w.depth h2), g1] at e1
  cases e1
  have hsort := g2.shows.1
  obtain ⟨H2, gg, w2, q1, q2⟩ := g2
  have hl1 : l1 = upsert k v l' := by
    have d1 := e2.contents.drop
    have d2 := (UInvM.contents (μ := 0) ⟨⟨H2, gg, w2.base, q1⟩, q2, by omega⟩).drop
    rw [d1] at d2
    exact Except.ok.inj d2
  subst hl1
  obtain ⟨rs, u, r1, r2⟩ := (e4 cb t' ht hc).urun (js.map fun j => (Call.get (V := V) j).answers early)
  refine ⟨rs, u, by simpa [List.map_map, Function.comp_def] using r1, ?_⟩
  rw [List.forall₂_map_left_iff] at r2
  refine r2.imp fun j r hr => ?_
  cases r with
  | none => exact .inl rfl
  | some w' =>
    obtain ⟨x, i, p1, p2⟩ := hr w' rfl
    have : x = j := compare_eq_iff_eq.1 p2
    subst this
    exact .inr (lookup_of_mem hsort p1).symm

/-- The same for a removal from a map built by calls or by an even bulk load: each lookup answers `None`
or what it answered before the removal.

Partial: not covered is `from_leaf` called while two leaves are merged (see `C45_merge_refuted`). That
call is the only one made with the statistics showing a leaf merge and with the root still unchanged. -/
theorem C62_remove_no_wrong_value_partial [LinearOrder K] [Augmentation K V A] {t : Tree K V A}
    (h : ReachableEven t) {l : List (K × V)} (hl : Shows t l) (early : Bool)
    (k : K) (cb : Callback) (t' : Tree K V A)
    (ht : (cb, t') ∈ (t.ucallT ((Call.remove (V := V) k).answers early) .remove).trace)
    (hc : cb.isFromLeaf → (t'.st.mergeWithLeftLeaf = t.st.mergeWithLeftLeaf ∧
      t'.st.mergeWithRightLeaf = t.st.mergeWithRightLeaf) ∨ t'.root ≠ t.root) (js : List K) :
    ∃ rs u, t'.urun (js.map fun j => ((Call.get (V := V) j).answers early, .get)) = .ok (rs.map .value, u) ∧
      List.Forall₂ (fun j r => r = none ∨ r = lookup j l) js rs := by
  obtain ⟨H, g, w, h2, -⟩ := h.wf
  obtain rfl := content_unique (Inv.shows ⟨H, g, w, rfl, h2⟩) hl
  have hu : UInvM 1 t g.toL := ⟨⟨H, g, w.base, rfl⟩, h2, by omega⟩
  have hR : Readable (· ∈ g.toL) t' := by
    by_cases hcb : cb = .compare
    · subst hcb
      have : (t.ucallT ((Call.remove (V := V) k).answers early) .remove).All
          (fun c m => c = .compare → m = t) :=
        Traced.all_bind (removeT_compare _ t) fun _ _ => Traced.all_pure
      obtain rfl := this _ _ ht rfl
      obtain ⟨e1, e2, L, e3, -, e4⟩ := w.base.short fun _ h => h
      exact ⟨_, L, e1, e2, e3, e4⟩
    · have : (t.ucallT ((Call.remove (V := V) k).answers early) .remove).All (fun cb m => cb ≠ .compare →
          (cb.isFromLeaf → m.st.leafMerges = t.st.leafMerges ∨ m.root ≠ t.root) → Readable (· ∈ g.toL) m) :=
        Traced.all_bind (removeT_readable (by omega) hu _) fun _ _ => Traced.all_pure
      exact this cb t' ht hcb fun h => (hc h).imp (fun h => by simp [Statistic.leafMerges, h]) id
  obtain ⟨rs, u, r1, r2⟩ := hR.urun (js.map fun j => (Call.get (V := V) j).answers early)
  refine ⟨rs, u, by simpa [List.map_map, Function.comp_def] using r1, ?_⟩
  rw [List.forall₂_map_left_iff] at r2
  refine r2.imp fun j r hr => ?_
  cases r with
  | none => exact .inl rfl
  | some w' =>
    obtain ⟨x, i, p1, p2⟩ := hr w' rfl
    have : x = j := compare_eq_iff_eq.1 p2
    subst this
    exact .inr (lookup_of_mem hl.1 p1).symm

/-! ## Items that become invisible -/

/-- Is some key `j` of the map, after `cs`, no longer found at a crash point of the given kind in `c`? -/
def crashLoses (cs : List (Call Nat Nat)) (c : Call Nat Nat) (kind : Callback → Bool) (j : Nat) : Bool :=
  match (Tree.new : Tree Nat Nat Count).run cs with
  | .ok (_, t) => (match t.get j with | .ok (some _, _) => true | _ => false) &&
      (t.ucallT (c.answers false) c.lawless).trace.any (fun e =>
        kind e.1 && match e.2.get j with | .ok (none, _) => true | _ => false)
  | .error _ => false

theorem crashLoses_spec {cs : List (Call Nat Nat)} {c : Call Nat Nat} {kind : Callback → Bool} {j : Nat}
    (h : crashLoses cs c kind j = true) :
    ∃ as t w u cb t' u', (Tree.new : Tree Nat Nat Count).run cs = .ok (as, t) ∧
      t.get j = .ok (some w, u) ∧ kind cb ∧ (cb, t') ∈ (t.ucallT (c.answers false) c.lawless).trace ∧
      t'.get j = .ok (none, u') := by
  unfold crashLoses at h
  split at h
  · next as t e =>
    rw [Bool.and_eq_true] at h
    obtain ⟨h0, h⟩ := h
    obtain ⟨⟨cb, t'⟩, h1, h2⟩ := List.any_eq_true.1 h
    rw [Bool.and_eq_true] at h2
    obtain ⟨h2, h3⟩ := h2
    split at h0
    · next w u e1 =>
      split at h3
      · next u' e2 => exact ⟨as, t, w, u, cb, t', u', e, e1, h2, h1, e2⟩
      · cases h3
    · cases h0
  · cases h

/-- A full leaf, with the keys from 1 to 64. -/
def fullLeafFrom1 : List (Call Nat Nat) := (List.range 64).map (fun i => .insert (i + 1) i)

/-- If `from_leaf` panics while an insertion splits a leaf, a key that was in the map, and is not the one
inserted, is no longer found. -/
theorem C62_split_refuted : ∃ (cs : List (Call Nat Nat)) (k v j : Nat) (as : _) (t : _) (w : Nat) (u : _)
    (cb : Callback) (t' u' : _), j ≠ k ∧
    (Tree.new : Tree Nat Nat Count).run cs = .ok (as, t) ∧ t.get j = .ok (some w, u) ∧ cb.isFromLeaf ∧
    (cb, t') ∈ (t.ucallT ((Call.insert k v).answers false) (.insert k v)).trace ∧
    t'.get j = .ok (none, u') := by
  obtain ⟨as, t, w, u, cb, t', u', h⟩ := crashLoses_spec (cs := fullLeafFrom1) (c := .insert 0 0)
    (kind := Callback.isFromLeaf) (j := 60) (by decide +kernel)
  exact ⟨fullLeafFrom1, 0, 0, 60, as, t, w, u, cb, t', u', by omega, h⟩

/-- If `from_leaf` panics while a removal takes an item from the neighbouring leaf, a key that was in the
map, and is not the one removed, is no longer found. -/
theorem C62_rotation_refuted : ∃ (cs : List (Call Nat Nat)) (k j : Nat) (as : _) (t : _) (w : Nat) (u : _)
    (cb : Callback) (t' u' : _), j ≠ k ∧
    (Tree.new : Tree Nat Nat Count).run cs = .ok (as, t) ∧ t.get j = .ok (some w, u) ∧ cb.isFromLeaf ∧
    (cb, t') ∈ (t.ucallT ((Call.remove (V := Nat) k).answers false) .remove).trace ∧
    t'.get j = .ok (none, u') := by
  obtain ⟨as, t, w, u, cb, t', u', h⟩ := crashLoses_spec
    (cs := (List.range 65).map (fun i => .insert i i) ++ (List.range 16).map (fun i => .remove i))
    (c := .remove 20) (kind := Callback.isFromLeaf) (j := 32) (by decide +kernel)
  exact ⟨_, 20, 32, as, t, w, u, cb, t', u', by omega, h⟩

/-! ## The hypotheses are met -/

/-- The calls of summary code in an insertion into, and a removal from, a map of two levels, with what
`get` then answers for the key and `len`. -/
def summaryCrashes (c : Call Nat Nat) (k : Nat) : List (Callback × Option (Option Nat) × Nat) :=
  (demo.ucallT (c.answers false) c.lawless).trace.filterMap (fun e =>
    if e.1.isFromLeaf ∨ e.1.isFromInner then
      some (e.1, (match e.2.get k with | .ok (o, _) => some o | .error _ => none), e.2.len)
    else none)

example : summaryCrashes (.insert 1000 7) 1000 =
    [(.fromLeaf 56, some (some 7), 100), (.fromInner 1 2, some (some 7), 100)] := by decide +kernel

example : summaryCrashes (.remove 50) 50 =
    [(.fromLeaf 54, some none, 100), (.fromInner 1 2, some none, 100)] := by decide +kernel

example (cb : Callback) (t' : Tree Nat Nat Count)
    (ht : (cb, t') ∈ (demo.ucallT ((Call.insert 1000 7).answers false) (.insert 1000 7)).trace)
    (hc : cb.isFromLeaf ∨ cb.isFromInner) : Shows t' (upsert 1000 7 demoContent) ∧ t'.len = 100 := by
  obtain ⟨o, t1, h1, -⟩ := C02_insert demo_reach.mut.bulk (by decide +kernel : demo.len + 1 < 2 ^ 64) 1000 7
  refine C62_insert_partial demo_reach.mut.bulk demo_shows (by decide +kernel) false 1000 7 h1 ?_ cb t' ht hc
  have : (demo.insert 1000 7).map (fun p => p.2.store.leaves.length) = .ok demo.store.leaves.length := by
    decide +kernel
  rw [h1] at this
  exact Except.ok.inj this

example (cb : Callback) (t' : Tree Nat Nat Count)
    (ht : (cb, t') ∈ (demo.ucallT ((Call.remove (V := Nat) 50).answers false) .remove).trace)
    (hc : cb.isFromLeaf ∨ cb.isFromInner) : Shows t' (erase 50 demoContent) ∧ t'.len = 100 := by
  obtain ⟨o, t1, h1, -⟩ := C03_remove demo_reach.mut.even 50
  refine C62_remove_partial demo_reach.mut.bulk demo_shows false 50 h1 ?_ cb t' ht hc
  have : (demo.remove 50).map (fun p => decide (p.2.st = demo.st)) = .ok true := by decide +kernel
  rw [h1] at this
  exact of_decide_eq_true (Except.ok.inj this)

example (c : Call Nat Nat) (t' : Tree Nat Nat Count)
    (ht : (.compare, t') ∈ (demo.ucallT (c.answers true) c.lawless).trace) : Shows t' demoContent :=
  (C62_comparison demo_reach.mut.bulk demo_shows true c .compare t' ht (.inl rfl)).1

example := C62_insert_lookups (A := Count) .new (lawfulHistory fullLeaf) ((Call.insert 64 64).answers false)
  64 64 (by decide)
example := C62_remove_lookups_partial (A := Count) .new (lawfulHistory twoSmallLeaves)
  ((Call.remove (V := Nat) 20).answers false) (by decide)

example (cb : Callback) (t' : Tree Nat Nat Count)
    (ht : (cb, t') ∈ (demo.ucallT ((Call.insert 1000 7).answers false) (.insert 1000 7)).trace)
    (hc : cb.isFromLeaf ∨ cb.isFromInner) :=
  C62_insert_no_wrong_value demo_reach.mut.bulk demo_shows (by decide +kernel) false 1000 7 cb t' ht hc
    [1000, 3, 50]

example (cb : Callback) (t' : Tree Nat Nat Count)
    (ht : (cb, t') ∈ (demo.ucallT ((Call.remove (V := Nat) 50).answers false) .remove).trace)
    (hc : ¬ cb.isFromLeaf) :=
  C62_remove_no_wrong_value_partial demo_reach.mut.even demo_shows false 50 cb t' ht (fun h => absurd h hc)
    [1000, 3, 50]

end Bpt
