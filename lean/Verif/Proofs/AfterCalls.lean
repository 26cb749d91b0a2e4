import Verif.Proofs.Aftermath
import Verif.Proofs.DropBare

/-!
# Calls on the map left behind by a caught panic
-/

namespace Bpt
open Spec
variable {K V A : Type}

/-! ## The invariant does not mention the values of the augmentations -/

/-- The same ghost tree with other augmentations. -/
def T.reaug (f : Nat → List A) : {h : Nat} → T K V A h → T K V A h
  | 0, x => x
  | _ + 1, x => (⟨GNode.id x, GNode.keys x, (GNode.kids x).map (fun c => T.reaug f c), f (GNode.id x)⟩ :
      GNode K A (T K V A _))

theorem T.reaug_nid (f : Nat → List A) {h : Nat} (x : T K V A h) : (x.reaug f).nid = x.nid := by
  cases h <;> rfl

theorem T.reaug_inorder (f : Nat → List A) {h : Nat} (x : T K V A h) : (x.reaug f).inorder = x.inorder := by
  induction h with
  | zero => rfl
  | succ h ih =>
    simp only [T.reaug, T.inorder, List.map_map]
    congr 1
    exact List.map_congr_left fun c _ => ih c

theorem T.reaug_leaves (f : Nat → List A) {h : Nat} (x : T K V A h) : (x.reaug f).leaves = x.leaves := by
  induction h with
  | zero => rfl
  | succ h ih =>
    simp only [T.reaug, T.leaves, List.flatMap_map, ih]

theorem T.reaug_toL (f : Nat → List A) {h : Nat} (x : T K V A h) : (x.reaug f).toL = x.toL := by
  unfold T.toL; rw [T.reaug_leaves]

theorem T.reaug_nodes (f : Nat → List A) {h : Nat} (x : T K V A h) :
    (x.reaug f).nodes = x.nodes.map (fun p => (p.1, { p.2 with augs := f p.1 })) := by
  induction h with
  | zero => rfl
  | succ h ih =>
    simp only [T.reaug, T.nodes, List.flatMap_map, ih, List.map_cons, List.map_flatMap, GNode.inner,
      List.map_map]
    refine congrArg (fun z => (GNode.id x, (⟨GNode.keys x, z, f (GNode.id x)⟩ : Inner K A)) :: _) ?_
    exact List.map_congr_left fun c _ => T.reaug_nid f c

theorem SpineL_map {α β : Type} {P Q : β → Prop} {g : α → β} {l : List α} :
    SpineL P Q (l.map g) ↔ SpineL (fun a => P (g a)) (fun a => Q (g a)) l := by
  induction l with
  | nil => simp [SpineL]
  | cons a l ih => rw [List.map_cons, SpineL_cons, SpineL_cons, ih]; simp

theorem T.reaug_shape {f : Nat → List A} {μ m : Nat} {r : Bool} {h : Nat} {x : T K V A h}
    (hf : ∀ p ∈ x.nodes, (f p.1).length = p.2.augs.length) (hx : T.ShapeTop μ m r x) :
    T.ShapeTop μ m r (x.reaug f) := by
  induction h generalizing m r with
  | zero => exact hx
  | succ h ih =>
    obtain ⟨h1, h2, h3, h4, h5⟩ := hx
    have hk : ∀ c ∈ GNode.kids x, ∀ p ∈ T.nodes c, (f p.1).length = p.2.augs.length := by
      intro c hc p hp
      refine hf p ?_
      simp only [T.nodes, List.mem_cons, List.mem_flatMap]
      exact .inr ⟨c, hc, hp⟩
    refine ⟨h1, h2, by simpa [T.reaug] using h3, ?_, ?_⟩
    · have := hf (GNode.id x, GNode.inner x) (by simp [T.nodes])
      exact this.trans h4
    · simp only [T.reaug]
      rw [SpineL_map]
      exact SpineL_mono (fun c hc hs => ih (hk c hc) hs) (fun c hc hs => ih (hk c hc) hs) h5

/-- A map that differs from a well-formed one only in the values of the augmentations and `len` is well-formed, with the same items. -/
theorem Bare.wf0 {μ : Nat} {t m : Tree K V A} {H : Nat} {g : T K V A H} (w : WF0 μ t g)
    (h : Bare t.store m.store) (hr : t.root = m.root) :
    ∃ f : Nat → List A, WF0 μ { m with len := t.len } (g.reaug f) := by
  have key : ∀ p ∈ g.nodes, ∃ a, m.store.inners[p.1]? = some (some { p.2 with augs := a }) ∧
      a.length = p.2.augs.length := by
    intro p hp
    have h0 := w.imem p hp
    have e1 := congrArg (·[p.1]?) h.inners
    have e2 := congrArg (·[p.1]?) h.augs
    simp only [List.getElem?_map, h0, Option.map_some] at e1 e2
    cases h1 : m.store.inners[p.1]? with
    | none => rw [h1] at e1; cases e1
    | some y =>
      cases y with
      | none => rw [h1] at e1; cases e1
      | some n =>
        rw [h1] at e1 e2
        simp only [Option.map_some, Option.some.injEq, Prod.mk.injEq] at e1 e2
        obtain ⟨ks, cs, as⟩ := n
        obtain ⟨rfl, rfl⟩ := e1
        exact ⟨as, rfl, e2.symm⟩
  refine ⟨fun i => match m.store.inners[i]? with | some (some n) => n.augs | _ => [], ?_⟩
  refine ⟨?_, ?_, ?_, ?_, ?_, ?_, ?_, ?_⟩
  · rw [T.reaug_nid]; exact hr.symm.trans w.root
  · intro p hp
    rw [T.reaug_nodes] at hp
    obtain ⟨q, hq, rfl⟩ := List.mem_map.1 hp
    obtain ⟨a, ha, -⟩ := key q hq
    simp only [ha]
  · rw [T.reaug_nodes, List.map_map]; exact w.inodup
  · rw [T.reaug_leaves]; show Seg m.store.leaves _ _ _; rw [← h.leaves]; exact w.seg
  · rw [T.reaug_leaves]; exact w.lnodup
  · rw [T.reaug_leaves]; show ∀ i l, m.store.leaves[i]? = _ → _; rw [← h.leaves]; exact w.live
  · refine T.reaug_shape ?_ w.shape
    intro p hp
    obtain ⟨a, ha, hb⟩ := key p hp
    simp only [ha]; exact hb
  · rw [T.reaug_toL]; exact w.len

theorem Bare.inv [LinearOrder K] {μ : Nat} {t m : Tree K V A} {l : List (K × V)} (hi : Inv μ t l)
    (h : Bare t.store m.store) (hr : t.root = m.root) : Inv μ { m with len := t.len } l := by
  obtain ⟨H, g, w, e, hl⟩ := hi
  obtain ⟨f, w'⟩ := h.wf0 w.base hr
  exact ⟨H, g.reaug f, w'.ordered (by rw [T.reaug_inorder]; exact w.ord), by rw [T.reaug_toL]; exact e, hl⟩

/-! ## Calls that read `len` only to update it -/

/-- The calls that do not look at `len`, other than to count up or down. -/
def Call.plain : Call K V → Prop
  | .insert _ _ | .remove _ | .get _ | .getMut _ _ | .cursorNext _ | .cursorPrev _ | .cursorValue _
  | .getCursor _ => True
  | _ => False

/-- The same map but for `len`. -/
def Tree.withLen (t : Tree K V A) (n : Nat) : Tree K V A := { t with len := n }

section
variable [LinearOrder K] [Augmentation K V A]

theorem insert_withLen {t u : Tree K V A} {k : K} {v : V} {o : Option V} (n : Nat)
    (h : t.insert k v = .ok (o, u)) :
    ∃ n', (t.withLen n).insert k v = .ok (o, u.withLen n') ∧ n' + t.len = n + u.len := by
  unfold Tree.insert at h ⊢
  obtain ⟨⟨s, r⟩, h1, h2⟩ := bind_ok h
  simp only [Tree.withLen, h1, ok_bind]
  dsimp only at h2
  cases r with
  | inserted =>
    obtain ⟨a, h3, h4⟩ := bind_ok h2
    cases h4
    exact ⟨n + 1, by simp only [h3, ok_bind, pure_ok], by dsimp only; omega⟩
  | updated w =>
    obtain ⟨a, h3, h4⟩ := bind_ok h2
    cases h4
    exact ⟨n, by simp only [h3, ok_bind, pure_ok], rfl⟩
  | split k' c =>
    obtain ⟨a, h3, h4⟩ := bind_ok h2
    obtain ⟨b, h5, h6⟩ := bind_ok h4
    obtain ⟨d, h7, h8⟩ := bind_ok h6
    cases h8
    exact ⟨n + 1, by simp only [h3, h5, h7, ok_bind, pure_ok], by dsimp only; omega⟩

theorem remove_withLen {t u : Tree K V A} {k : K} {o : Option V} {n : Nat}
    (h : t.remove k = .ok (o, u)) (hn : o ≠ none → n ≠ 0) :
    ∃ n', (t.withLen n).remove k = .ok (o, u.withLen n') ∧ n' + t.len = n + u.len := by
  unfold Tree.remove at h ⊢
  obtain ⟨⟨r, u1⟩, h1, h2⟩ := bind_ok h
  cases h2
  unfold Tree.removeImpl at h1 ⊢
  obtain ⟨e, h3, h4⟩ := bind_ok h1
  have h3' : (t.withLen n).keyToRef k = .ok e := h3
  simp only [h3', ok_bind]
  cases e with
  | none => cases h4; exact ⟨n, rfl, rfl⟩
  | some e =>
    obtain ⟨⟨kv, u2⟩, h5, h6⟩ := bind_ok h4
    cases h6
    unfold Tree.removeByRef at h5 ⊢
    obtain ⟨lf, h7, h8⟩ := bind_ok h5
    obtain ⟨⟨lf', dr⟩, h9, h10⟩ := bind_ok h8
    dsimp only at h10
    obtain ⟨⟨r, s, st⟩, h11, h12⟩ := bind_ok h10
    dsimp only at h12
    obtain ⟨⟨kv', s', root⟩, h13, h14⟩ := bind_ok h12
    dsimp only at h14
    obtain ⟨a, h15, h16⟩ := bind_ok h14
    have hn0 : n ≠ 0 := hn (by simp)
    split at h16
    · cases h16
    · next ht =>
      cases h16
      refine ⟨n - 1, ?_, by dsimp only; omega⟩
      simp only [Tree.withLen, h7, h9, ok_bind, h11, h13, h15, pure_ok]
      cases n with
      | zero => exact (hn0 rfl).elim
      | succ n => rfl

/-- A removal that finds its key panics if `len` is 0. -/
theorem remove_withLen_zero {t u : Tree K V A} {k : K} {w : V} (h : t.remove k = .ok (some w, u)) :
    (t.withLen 0).remove k = .error .panic := by
  unfold Tree.remove at h ⊢
  obtain ⟨⟨r, u1⟩, h1, h2⟩ := bind_ok h
  unfold Tree.removeImpl at h1 ⊢
  obtain ⟨e, h3, h4⟩ := bind_ok h1
  have h3' : (t.withLen 0).keyToRef k = .ok e := h3
  simp only [h3', ok_bind]
  cases e with
  | none => cases h4; cases h2
  | some e =>
    obtain ⟨⟨kv, u2⟩, h5, -⟩ := bind_ok h4
    unfold Tree.removeByRef at h5 ⊢
    obtain ⟨lf, h7, h8⟩ := bind_ok h5
    obtain ⟨⟨lf', dr⟩, h9, h10⟩ := bind_ok h8
    dsimp only at h10
    obtain ⟨⟨r, s, st⟩, h11, h12⟩ := bind_ok h10
    dsimp only at h12
    obtain ⟨⟨kv', s', root⟩, h13, h14⟩ := bind_ok h12
    dsimp only at h14
    obtain ⟨a, h15, -⟩ := bind_ok h14
    simp only [Tree.withLen, h7, h9, ok_bind, h11, h13, h15]
    rfl

theorem get_withLen {t u : Tree K V A} {k : K} {o : Option V} (n : Nat) (h : t.get k = .ok (o, u)) :
    (t.withLen n).get k = .ok (o, u.withLen n) ∧ u.len = t.len := by
  unfold Tree.get at h ⊢
  obtain ⟨c, h1, h2⟩ := bind_ok h
  simp only [Tree.withLen, h1, ok_bind]
  cases c with
  | some i =>
    obtain ⟨x, h3, h4⟩ := bind_ok h2
    cases h4
    exact ⟨by simp only [h3, ok_bind, pure_ok], rfl⟩
  | none =>
    obtain ⟨i, h3, h4⟩ := bind_ok h2
    obtain ⟨x, h5, h6⟩ := bind_ok h4
    cases h6
    exact ⟨by simp only [h3, h5, ok_bind, pure_ok], rfl⟩

theorem getMut_withLen {t u : Tree K V A} {k : K} {f : V → V} {o : Option V} (n : Nat)
    (h : t.getMut k f = .ok (o, u)) :
    (t.withLen n).getMut k f = .ok (o, u.withLen n) ∧ u.len = t.len := by
  unfold Tree.getMut at h ⊢
  obtain ⟨c, h1, h2⟩ := bind_ok h
  simp only [Tree.withLen, h1, ok_bind]
  cases c with
  | some i =>
    obtain ⟨⟨x, s⟩, h3, h4⟩ := bind_ok h2
    cases h4
    exact ⟨by simp only [h3, ok_bind, pure_ok], rfl⟩
  | none =>
    obtain ⟨i, h3, h4⟩ := bind_ok h2
    obtain ⟨⟨x, s⟩, h5, h6⟩ := bind_ok h4
    cases h6
    exact ⟨by simp only [h3, h5, ok_bind, pure_ok], rfl⟩

/-- What a plain call answers, and what it leaves behind, when `len` is another number. -/
theorem call_withLen {t u : Tree K V A} {c : Call K V} {a : Answer K V} {n : Nat} (hc : c.plain)
    (h : t.call c = .ok (a, u)) (hn : (∃ k, c = .remove k) → a ≠ .value none → n ≠ 0) :
    ∃ n', (t.withLen n).call c = .ok (a, u.withLen n') ∧ n' + t.len = n + u.len := by
  cases c with
  | insert k v =>
    obtain ⟨⟨o, u1⟩, h1, h2⟩ := bind_ok h
    cases h2
    obtain ⟨n', e1, e2⟩ := insert_withLen n h1
    exact ⟨n', by simp only [Tree.call, e1, ok_bind, pure_ok], e2⟩
  | remove k =>
    obtain ⟨⟨o, u1⟩, h1, h2⟩ := bind_ok h
    cases h2
    obtain ⟨n', e1, e2⟩ := remove_withLen h1 (fun ho => hn ⟨k, rfl⟩ (by simpa using ho))
    exact ⟨n', by simp only [Tree.call, e1, ok_bind, pure_ok], e2⟩
  | get k =>
    obtain ⟨⟨o, u1⟩, h1, h2⟩ := bind_ok h
    cases h2
    obtain ⟨e1, e2⟩ := get_withLen n h1
    exact ⟨n, by simp only [Tree.call, e1, ok_bind, pure_ok], by omega⟩
  | getMut k f =>
    obtain ⟨⟨o, u1⟩, h1, h2⟩ := bind_ok h
    cases h2
    obtain ⟨e1, e2⟩ := getMut_withLen n h1
    exact ⟨n, by simp only [Tree.call, e1, ok_bind, pure_ok], by omega⟩
  | cursorNext c =>
    obtain ⟨o, h1, h2⟩ := bind_ok h
    cases h2
    have h1' : c.nextWithValue (t.withLen n) = .ok o := h1
    exact ⟨n, by simp only [Tree.call, h1', ok_bind, pure_ok], rfl⟩
  | cursorPrev c =>
    obtain ⟨o, h1, h2⟩ := bind_ok h
    cases h2
    have h1' : c.prevWithValue (t.withLen n) = .ok o := h1
    exact ⟨n, by simp only [Tree.call, h1', ok_bind, pure_ok], rfl⟩
  | cursorValue c =>
    obtain ⟨o, h1, h2⟩ := bind_ok h
    cases h2
    have h1' : c.value (t.withLen n) = .ok o := h1
    exact ⟨n, by simp only [Tree.call, h1', ok_bind, pure_ok], rfl⟩
  | getCursor k =>
    obtain ⟨o, h1, h2⟩ := bind_ok h
    have h1' : (t.withLen n).getCursor k = .ok o := h1
    simp only [Tree.call, h1', ok_bind]
    cases o with
    | none => cases h2; exact ⟨n, rfl, rfl⟩
    | some p => cases h2; exact ⟨n, rfl, rfl⟩
  | _ => exact hc.elim

omit [Augmentation K V A] in
theorem lookup_erase_length {k : K} {l : List (K × V)} (h : lookup k l ≠ none) (he : erase k l ≠ []) :
    2 ≤ l.length := by
  have h1 : (erase k l).length < l.length := by
    refine (List.length_filter_lt_length_iff_exists).2 ?_
    unfold lookup at h
    cases hf : l.find? (fun e => e.1 = k) with
    | none => rw [hf] at h; exact (h rfl).elim
    | some e => exact ⟨e, List.mem_of_find?_eq_some hf, by simpa using List.find?_some hf⟩
  have h2 := List.length_pos_iff.2 he
  omega

omit [Augmentation K V A] in
theorem upsert_new_length {k : K} {v : V} {l : List (K × V)} (h : lookup k l = none) :
    (upsert k v l).length = l.length + 1 := by
  have hne : ∀ e ∈ l, e.1 ≠ k := by
    intro e he hk
    unfold lookup at h
    cases hf : l.find? (fun e => e.1 = k) with
    | none => exact (List.find?_eq_none.1 hf e he) (by simpa using hk)
    | some x => rw [hf] at h; cases h
  unfold upsert
  rw [List.length_append, List.length_cons]
  clear h
  induction l with
  | nil => rfl
  | cons e l ih =>
    have := ih (fun x hx => hne x (by simp [hx]))
    rcases lt_trichotomy e.1 k with h | h | h
    · have h' : ¬ k < e.1 := lt_asymm h
      simp [h, h']; omega
    · exact (hne e (by simp) h).elim
    · have h' : ¬ e.1 < k := lt_asymm h
      simp [h, h']; omega

/-- A history of plain calls on a map whose `len` is `n` instead of the number of items. -/
theorem run_withLen {μ : Nat} (h0 : 0 < μ) (hμ : μ ≤ 16) {t : Tree K V A} {l : List (K × V)}
    (h : Inv μ t l) (cs : List (Call K V)) (hc : ∀ c ∈ cs, c.plain) (hl : t.len + cs.length < 2 ^ 64)
    {n : Nat} (hn : t.len ≤ n ∨ t.len ≤ n + 1 ∧ ∀ p, p <+: cs → (Spec.run l p).2 ≠ []) :
    ∃ u n', (t.withLen n).run cs = .ok ((Spec.run l cs).1, u.withLen n') ∧
      Inv μ u (Spec.run l cs).2 ∧ n' + t.len = n + u.len := by
  induction cs generalizing t l n with
  | nil => exact ⟨t, n, rfl, h, rfl⟩
  | cons c cs ih =>
    rw [List.length_cons] at hl
    rcases call_ok hμ h (by omega) c with ⟨t1, h1, h2⟩ | h1
    · have hcl := call_length l c
      obtain ⟨n1, e1, e2⟩ := call_withLen (n := n) (hc c (by simp)) h1 (by
        rintro ⟨k, rfl⟩ ha
        have hk : lookup k l ≠ none := fun e => ha (by simp only [Spec.call, e])
        have hle := h.len
        rcases hn with hn | ⟨hn, hp⟩
        · have : l ≠ [] := by rintro rfl; exact hk rfl
          have := List.length_pos_iff.2 this
          omega
        · have he := hp [.remove k] (by simp)
          have := lookup_erase_length hk he
          omega)
      obtain ⟨u, n', e3, e4, e5⟩ := ih h2 (fun c hm => hc c (by simp [hm]))
        (by rw [h2.len]; rw [h.len] at hl; omega) (n := n1) (by
          rcases hn with hn | ⟨hn, hp⟩
          · exact .inl (by omega)
          · refine .inr ⟨by omega, fun p hpp => ?_⟩
            exact hp (c :: p) (by simpa using hpp))
      exact ⟨u, n', by simp only [Tree.run, e1, ok_bind, e3, pure_ok, Spec.run], e4, by omega⟩
    · omega

/-! ## Replacing the value of a key allocates no leaf -/

omit [LinearOrder K] in
theorem insertAscend_upd {s s' : Store K V A} {st : List StackEntry} {r : InsertResult K V} {v : V}
    (h : insertAscend s st r = .ok (s', .updated v)) : r = .updated v ∧ s'.leaves = s.leaves := by
  induction st generalizing s r with
  | nil => cases h; exact ⟨rfl, rfl⟩
  | cons e st ih =>
    obtain ⟨id, i, c⟩ := e
    cases r with
    | split k x =>
      simp only [insertAscend] at h
      obtain ⟨a, -, h⟩ := bind_ok h
      obtain ⟨b, -, h⟩ := bind_ok h
      obtain ⟨n, -, h⟩ := bind_ok h
      obtain ⟨n', -, h⟩ := bind_ok h
      split at h
      · obtain ⟨n2, -, h⟩ := bind_ok h
        cases (ih h).1
      · obtain ⟨n2, -, h⟩ := bind_ok h
        cases (ih h).1
    | inserted =>
      simp only [insertAscend] at h
      obtain ⟨a, -, h⟩ := bind_ok h
      obtain ⟨n, -, h⟩ := bind_ok h
      obtain ⟨n', -, h⟩ := bind_ok h
      cases (ih h).1
    | updated w =>
      simp only [insertAscend] at h
      obtain ⟨a, -, h⟩ := bind_ok h
      obtain ⟨n, -, h⟩ := bind_ok h
      obtain ⟨n', -, h⟩ := bind_ok h
      have := ih h; exact this

omit [Augmentation K V A] in
theorem insertLeaf_updated {s s' : Store K V A} {id : Nat} {k : K} {v w : V}
    (h : insertLeaf s id k v = .ok (s', .updated w)) : s'.leaves.length = s.leaves.length := by
  unfold insertLeaf at h
  obtain ⟨lf, -, h⟩ := bind_ok h
  obtain ⟨r, -, h⟩ := bind_ok h
  split at h
  · cases h
  · cases h; simp [Store.setLeaf]
  · dsimp only at h
    obtain ⟨x, -, h⟩ := bind_ok h
    obtain ⟨y, -, h⟩ := bind_ok h
    obtain ⟨z, -, h⟩ := bind_ok h
    obtain ⟨s1, -, h⟩ := bind_ok h
    obtain ⟨s2, -, h⟩ := bind_ok h
    cases h

theorem insert_updated {t u : Tree K V A} {k : K} {v w : V} (h : t.insert k v = .ok (some w, u)) :
    u.store.leaves.length = t.store.leaves.length ∧ u.len = t.len := by
  unfold Tree.insert at h
  obtain ⟨⟨s, r⟩, h1, h2⟩ := bind_ok h
  dsimp only at h2
  cases r with
  | inserted => obtain ⟨a, -, h2⟩ := bind_ok h2; cases h2
  | split k' c =>
    obtain ⟨a, -, h2⟩ := bind_ok h2
    obtain ⟨b, -, h2⟩ := bind_ok h2
    obtain ⟨d, -, h2⟩ := bind_ok h2
    cases h2
  | updated w' =>
    obtain ⟨a, -, h2⟩ := bind_ok h2
    cases h2
    refine ⟨?_, rfl⟩
    dsimp only
    unfold descendInsert at h1
    split at h1
    · unfold insertInner at h1
      obtain ⟨⟨st, lid⟩, -, h1⟩ := bind_ok h1
      obtain ⟨⟨s1, r1⟩, h3, h1⟩ := bind_ok h1
      obtain ⟨rfl, e⟩ := insertAscend_upd h1
      rw [e]
      exact insertLeaf_updated h3
    · exact insertLeaf_updated h1

end
end Bpt
