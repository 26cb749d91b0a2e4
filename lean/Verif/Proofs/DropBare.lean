import Verif.Proofs.DropLast

/-!
# What is in memory when a destructor of a plain insertion or removal panics
-/

namespace Bpt
variable {K V A : Type} [Augmentation K V A]

/-! ## Insertion -/

theorem insertAscendD_bare (s : Store K V A) (stack : List StackEntry) (r : InsertResult K V)
    (hr : ∀ k c, r ≠ .split k c) :
    (insertAscendD s stack r).All (fun _ m => Bare m s) ∧
      ∀ s' r', (insertAscendD s stack r).result = .ok (s', r') → Bare s' s ∧ r' = r := by
  constructor
  · induction stack generalizing s with
    | nil => exact Traced.all_pure
    | cons e stack ih =>
      obtain ⟨id, idx, c⟩ := e
      have key : ∀ (P : Traced (Store K V A) (Store K V A × InsertResult K V)),
          P = (do
            let a ← (newAugmentationForId s c : Res _)
            let node ← s.getInner id
            let node ← node.setAugmentation idx a
            Traced.call .dropAug (s.setInner id node)
            insertAscendD (s.setInner id node) stack r) →
          P.All (fun _ m => Bare m s) := by
        rintro _ rfl
        refine Traced.all_lift_bind fun a _ => Traced.all_lift_bind fun n hn =>
            Traced.all_lift_bind fun n' hn' => Traced.all_call_bind (Bare.set hn hn') ?_
        exact Traced.all_mono (fun _ m hm => hm.trans (Bare.set hn hn')) (ih _)
      cases r with
      | inserted => exact key _ rfl
      | updated v => exact key _ rfl
      | split k c => exact absurd rfl (hr k c)
  · intro s' r' h
    exact (insertAscendT_bare s stack r hr).2 s' r'
      (by rw [insertAscendT_result, ← insertAscendD_result, h])

omit [Augmentation K V A] in
theorem insertLeafD_bare (o : Answers K) (s : Store K V A) (id : Nat) (k : K) (v : V)
    {s1 : Store K V A} {r : InsertResult K V} (h : insertLeafU o s id k v = .ok (s1, r)) :
    (insertLeafD o s id k v).All (fun _ m => m = s1) := by
  refine Traced.all_lift_bind fun p hp => ?_
  rw [h] at hp
  cases hp
  cases r with
  | updated v0 => exact Traced.all_call_bind rfl Traced.all_pure
  | inserted => exact Traced.all_pure
  | split k c => exact Traced.all_pure

theorem descendInsertD_bare (o : Answers K) (s : Store K V A) (root : NodeId) (k : K) (v : V)
    {s1 : Store K V A} {r : InsertResult K V} (h : (descendInsertD o s root k v).result = .ok (s1, r))
    (hn : s1.leaves.length ≤ s.leaves.length) :
    (descendInsertD o s root k v).All (fun _ m => Bare s1 m) ∧ ∀ k' c, r ≠ .split k' c := by
  cases root with
  | leaf id =>
    have h' : insertLeafU o s id k v = .ok (s1, r) := by rw [← insertLeafD_result]; exact h
    constructor
    · refine Traced.all_mono ?_ (insertLeafD_bare o s id k v h')
      rintro _ m rfl
      exact .refl
    · rintro k' c rfl
      have := insertLeafU_grows _ h' _ _ rfl
      dsimp only at this
      omega
  | inner id =>
    simp only [descendInsertD, Traced.result_bind, Traced.result_lift, insertLeafD_result] at h
    obtain ⟨⟨stack, leafId⟩, h1, h⟩ := bind_ok h
    obtain ⟨⟨s2, r2⟩, h2, h⟩ := bind_ok h
    dsimp only at h
    have hg := insertAscend_grows (s1, r) (by rw [← insertAscendD_result]; exact h)
    have hr2 : ∀ k' c, r2 ≠ .split k' c := by
      rintro k' c rfl
      have := insertLeafU_grows _ h2 _ _ rfl
      have := hg.2
      dsimp only at *
      omega
    obtain ⟨hb1, hb2⟩ := insertAscendD_bare s2 stack r2 hr2
    obtain ⟨hb3, rfl⟩ := hb2 s1 r h
    refine ⟨?_, hr2⟩
    refine Traced.all_lift_bind fun p hp => ?_
    rw [h1] at hp
    cases hp
    refine Traced.all_bind (Traced.all_mono ?_ (insertLeafD_bare o s leafId k v h2)) fun p hp => ?_
    · rintro _ m rfl
      exact hb3
    · rw [insertLeafD_result, h2] at hp
      cases hp
      exact Traced.all_mono (fun _ m hm => hb3.trans hm.symm) hb1

theorem insertD_bare (o : Answers K) (t : Tree K V A) (k : K) (v : V) {a : Option V} {t1 : Tree K V A}
    (h : t.insertU o k v = .ok (a, t1)) (hn : t1.store.leaves.length ≤ t.store.leaves.length) :
    (t.insertD o k v).All (fun _ m => Bare t1.store m.store ∧ t1.root = m.root ∧ m.len = t.len) := by
  have h0 := h
  rw [← insertD_result] at h
  simp only [Tree.insertD, Traced.result_mapMem, Traced.result_bind] at h
  obtain ⟨⟨s1, r⟩, h1, h2⟩ := bind_ok h
  dsimp only at h2
  have hl : t1.store.leaves = s1.leaves ∧ ((∀ k' c, r ≠ .split k' c) → t1.store = s1 ∧ t1.root = t.root) := by
    cases r with
    | inserted =>
      simp only [Tree.finishInsertD, Traced.result_bind] at h2
      obtain ⟨a, -, h2⟩ := bind_ok h2
      cases h2
      exact ⟨rfl, fun _ => ⟨rfl, rfl⟩⟩
    | updated v =>
      simp only [Tree.finishInsertD, Traced.result_bind] at h2
      obtain ⟨a, -, h2⟩ := bind_ok h2
      cases h2
      exact ⟨rfl, fun _ => ⟨rfl, rfl⟩⟩
    | split k' c =>
      simp only [Tree.finishInsertD, Traced.result_bind, Traced.result_lift, Traced.result_call] at h2
      obtain ⟨a, -, h2⟩ := bind_ok h2
      obtain ⟨a', -, h2⟩ := bind_ok h2
      obtain ⟨n, -, h2⟩ := bind_ok h2
      cases h2
      exact ⟨rfl, fun h => absurd rfl (h _ _)⟩
  obtain ⟨hb, hr⟩ := descendInsertD_bare o t.store t.root k v h1 (by rw [← hl.1]; exact hn)
  obtain ⟨rfl, hroot⟩ := hl.2 hr
  refine Traced.all_bind (Traced.all_mapMem (Traced.all_mono (fun c m hm => ⟨hm, hroot, rfl⟩) hb)) fun p hp => ?_
  rw [Traced.result_mapMem, h1] at hp
  cases hp
  have h3 : t.finishInsert t1.store r = .ok (a, t1) := by
    rw [← h2]; cases r <;> simp [Tree.finishInsertD, Tree.finishInsert]
  intro c m hm
  have e : (t.finishInsertD t1.store r).trace = _ := finishInsertD_trace h3
  replace hm : (c, m) ∈ (t.finishInsertD t1.store r).trace := hm
  rw [e] at hm
  cases List.mem_singleton.1 hm
  exact ⟨.refl, rfl, rfl⟩

/-! ## Removal -/

theorem removeAscendD_result (s : Store K V A) (st : Statistic) (stack : List StackEntry) (r : DeleteResult K V) :
    (removeAscendD s st stack r).result = (removeAscendT s st stack r).result :=
  (removeAscendD_near (fun _ => True) stack s st r (fun _ _ _ _ _ _ _ _ _ _ _ => trivial)).result

theorem removeAscendD_bare (s : Store K V A) (st : Statistic) (stack : List StackEntry) (kv : K × V) :
    (removeAscendD s st stack (.done kv)).All (fun _ m => Bare m.1 s ∧ m.2 = st) := by
  induction stack generalizing s with
  | nil => exact Traced.all_pure
  | cons e stack ih =>
    obtain ⟨id, idx, c⟩ := e
    refine Traced.all_lift_bind fun a _ => Traced.all_lift_bind fun n hn =>
      Traced.all_lift_bind fun n' hn' => Traced.all_call_bind ⟨Bare.set hn hn', rfl⟩ ?_
    exact Traced.all_mono (fun _ m hm => ⟨hm.1.trans (Bare.set hn hn'), hm.2⟩) (ih _)

theorem removeAscendD_noFix {s0 s s' : Store K V A} {st : Statistic} {stack : List StackEntry}
    {r0 r : DeleteResult K V} {root root' : NodeId} {kv' : K × V} (hi : ∀ kv, r0 ≠ .innerUnderSize kv)
    (h3 : (removeAscendD s0 st stack r0).result = .ok (r, s, st))
    (h4 : removeRoot s root r = .ok (kv', s', root')) :
    (removeAscendD s0 st stack r0).All (fun _ m => Bare s' m.1 ∧ m.2 = st) ∧ root' = root := by
  rw [removeAscendD_result] at h3
  have hroot := (removeAscendT_noFix hi h3 h4).2
  refine ⟨?_, hroot⟩
  have hf := removeAscend_fixes _ ((removeAscendT_result ..).symm.trans h3)
  rcases hf.2 rfl with rfl | ⟨kv1, rfl⟩
  · exact Traced.all_pure
  · obtain ⟨g3, g4, rfl⟩ := (removeAscendT_bare s0 st stack kv1).2 _ _ _ h3
    cases h4
    exact Traced.all_mono (fun _ m hm => ⟨g3.trans hm.1.symm, hm.2⟩) (removeAscendD_bare s0 st stack _)

theorem removeByRefD_bare (t : Tree K V A) (e : EntryRef) {kv : K × V} {t1 : Tree K V A}
    (h : (t.removeByRefD e).result = .ok (kv, t1)) (hst : t1.st = t.st) :
    (t.removeByRefD e).All (fun _ m => Bare t1.store m.store ∧ t1.root = m.root ∧ m.len = t.len) := by
  simp only [Tree.removeByRefD, Traced.result_bind, Traced.result_lift, Traced.result_mapMem] at h
  obtain ⟨leaf, h1, h⟩ := bind_ok h
  obtain ⟨⟨leaf', dr⟩, h2, h⟩ := bind_ok h
  obtain ⟨⟨r, s, st⟩, h3, h⟩ := bind_ok h
  obtain ⟨⟨kv', s', root⟩, h4, h⟩ := bind_ok h
  obtain ⟨a, h5, h⟩ := bind_ok h
  simp only [Traced.result_call, ok_bind] at h
  split at h
  · simp only [Traced.result_bind, Traced.result_lift, error_bind] at h
    cases h
  cases h
  dsimp only at hst h3 h4 h5 ⊢
  obtain rfl : st = t.st := hst
  refine Traced.all_lift_bind fun leaf1 e1 => ?_
  rw [h1] at e1; cases e1
  refine Traced.all_lift_bind fun p e2 => ?_
  rw [h2] at e2; cases e2
  dsimp only
  obtain ⟨key, rfl⟩ := removeAscendD_noFix (by cases dr <;> simp) h3 h4
  refine Traced.all_bind (Traced.all_mapMem (Traced.all_mono (fun _ m hm => ⟨hm.1, rfl, rfl⟩) key))
    fun p e3 => ?_
  rw [Traced.result_mapMem, h3] at e3; cases e3
  refine Traced.all_lift_bind fun p e4 => ?_
  rw [h4] at e4; cases e4
  exact Traced.all_lift_bind fun _ _ => Traced.all_call_bind ⟨.refl, rfl, rfl⟩ <| Traced.all_guard fun _ =>
    Traced.all_pure

theorem removeD_bare (o : Answers K) (t : Tree K V A) {a : Option V} {t1 : Tree K V A}
    (h : t.removeU o = .ok (a, t1)) (hst : t1.st = t.st) :
    (t.removeD o).All (fun c m => Bare t1.store m.store ∧ t1.root = m.root ∧ (m = t1 ∨ m.len = t.len)) := by
  have h : (t.removeD o).result = .ok (a, t1) := by rw [removeD_result, removeT_result, h]
  simp only [Tree.removeD, Traced.result_bind, Traced.result_lift] at h
  obtain ⟨r, h1, h⟩ := bind_ok h
  refine Traced.all_lift_bind fun r' e1 => ?_
  rw [h1] at e1; cases e1
  cases r with
  | none => exact Traced.all_pure
  | some e =>
    dsimp only at h ⊢
    simp only [Traced.result_bind] at h
    obtain ⟨⟨kv, t2⟩, h2, h⟩ := bind_ok h
    cases h
    refine Traced.all_bind (Traced.all_mono (fun _ m hm => ⟨hm.1, hm.2.1, .inr hm.2.2⟩)
      (removeByRefD_bare t e h2 hst)) fun p hp => ?_
    rw [h2] at hp; cases hp
    exact Traced.all_call_bind ⟨.refl, rfl, .inl rfl⟩ Traced.all_pure

end Bpt
