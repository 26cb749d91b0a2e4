import Verif.Proofs.CrashRemove
import Verif.Proofs.Memory
import Verif.Proofs.Lawful
import Verif.Proofs.ReachInv

/-!
# What is in memory when the summary code of a plain insertion or removal panics
-/

namespace Bpt
variable {K V A : Type}

/-- The same memory up to the augmentations in the inner nodes. -/
structure Bare (s s' : Store K V A) : Prop where
  leaves : s.leaves = s'.leaves
  cached : s.cached = s'.cached
  inners : s.inners.map (Option.map fun n => (n.keys, n.childs))
    = s'.inners.map (Option.map fun n => (n.keys, n.childs))
  augs : s.inners.map (Option.map fun n => n.augs.length) = s'.inners.map (Option.map fun n => n.augs.length)

theorem Bare.refl {s : Store K V A} : Bare s s := ⟨rfl, rfl, rfl, rfl⟩
theorem Bare.symm {s s' : Store K V A} (h : Bare s s') : Bare s' s :=
  ⟨h.leaves.symm, h.cached.symm, h.inners.symm, h.augs.symm⟩
theorem Bare.trans {s s' s'' : Store K V A} (h : Bare s s') (h' : Bare s' s'') : Bare s s'' :=
  ⟨h.leaves.trans h'.leaves, h.cached.trans h'.cached, h.inners.trans h'.inners, h.augs.trans h'.augs⟩

theorem Bare.fuel {s s' : Store K V A} (h : Bare s s') : s.fuel = s'.fuel := by
  have := congrArg List.length h.inners
  simp only [List.length_map] at this
  simp [Store.fuel, this]

theorem Bare.getInner {s s' : Store K V A} (h : Bare s s') (i : Nat) :
    (s.getInner i).map (fun n => (n.keys, n.childs)) = (s'.getInner i).map (fun n => (n.keys, n.childs)) := by
  have e := congrArg (·[i]?) h.inners
  simp only [List.getElem?_map] at e
  unfold Store.getInner
  cases h1 : s.inners[i]? with
  | none => cases h2 : s'.inners[i]? with
    | none => rfl
    | some y => simp [h1, h2] at e
  | some x => cases h2 : s'.inners[i]? with
    | none => simp [h1, h2] at e
    | some y =>
      simp only [h1, h2, Option.map_some, Option.some.injEq] at e
      cases x <;> cases y <;> simp_all [Except.map]

theorem Bare.getLeaf {s s' : Store K V A} (h : Bare s s') (i : Nat) : s.getLeaf i = s'.getLeaf i := by
  unfold Store.getLeaf; rw [h.leaves]

theorem Bare.set {s : Store K V A} {i j : Nat} {n n' : Inner K A} {a : A} (h1 : s.getInner i = .ok n)
    (h2 : n.setAugmentation j a = .ok n') : Bare (s.setInner i n') s := by
  have hn : n'.keys = n.keys ∧ n'.childs = n.childs ∧ n'.augs.length = n.augs.length := by
    unfold Inner.setAugmentation at h2
    split at h2
    · cases h2; exact ⟨rfl, rfl, by simp⟩
    · cases h2
  have hi : s.inners[i]? = some (some n) := by
    unfold Store.getInner at h1
    split at h1 <;> first | (cases h1; assumption) | cases h1
  have key : ∀ {β : Type} (f : Inner K A → β), f n' = f n →
      (s.setInner i n').inners.map (Option.map f) = s.inners.map (Option.map f) := by
    intro β f hf
    simp only [Store.setInner, List.map_set, Option.map_some, hf]
    apply List.ext_getElem?
    intro m
    rw [List.getElem?_set]
    split
    · next e =>
      subst e
      have hl : i < s.inners.length := by
        by_contra hge
        rw [List.getElem?_eq_none (by omega)] at hi; cases hi
      rw [if_pos (by simpa using hl), List.getElem?_map, hi]; rfl
    · rfl
  exact ⟨rfl, rfl, key _ (by rw [hn.1, hn.2.1]), key _ hn.2.2⟩

section Get
variable [LinearOrder K]

theorem Bare.locateStep {n n' : Inner K A} (h : (n.keys, n.childs) = (n'.keys, n'.childs)) (k : K)
    (u : Unit) (i : Nat) : locateStep k u i n = locateStep k u i n' := by
  obtain ⟨ks, cs, as⟩ := n
  obtain ⟨ks', cs', as'⟩ := n'
  cases h
  rfl

theorem Bare.descend {s s' : Store K V A} (h : Bare s s') (k : K) (fuel : Nat) (i : NodeId) :
    Bpt.descend (β := Empty) s (fun st i n => do let r ← Bpt.locateStep k st i n; return .inr r) fuel () i =
    Bpt.descend (β := Empty) s' (fun st i n => do let r ← Bpt.locateStep k st i n; return .inr r) fuel () i := by
  induction fuel generalizing i with
  | zero => cases i <;> rfl
  | succ fuel ih =>
    cases i with
    | leaf i => rfl
    | inner i =>
      have hg := h.getInner i
      simp only [Bpt.descend]
      cases h1 : s.getInner i with
      | error e => cases h2 : s'.getInner i with
        | error e' => simp only [h1, h2, Except.map, Except.error.injEq] at hg; rw [hg]; rfl
        | ok y => simp [h1, h2, Except.map] at hg
      | ok x => cases h2 : s'.getInner i with
        | error e' => simp [h1, h2, Except.map] at hg
        | ok y =>
          simp only [h1, h2, Except.map, Except.ok.injEq] at hg
          simp only [ok_bind, Bare.locateStep hg]
          cases hs : Bpt.locateStep k () i y with
          | error e => rfl
          | ok r => exact ih r.2

/-- Lookups do not read the augmentations. -/
theorem Bare.get {t t' : Tree K V A} (h : Bare t.store t'.store) (hr : t.root = t'.root) (k : K) :
    (t.get k).map (·.1) = (t'.get k).map (·.1) := by
  have hc : t.store.tryCache k = t'.store.tryCache k := by
    unfold Store.tryCache Store.tryCacheAt Store.tryGetLeaf
    rw [h.cached, h.leaves]
  have hd : findDescendLeaf t.store t.root k = findDescendLeaf t'.store t'.root k := by
    unfold findDescendLeaf descendLeaf
    rw [h.descend, h.fuel, hr]
  have hf : ∀ i, findInLeaf t.store i k = findInLeaf t'.store i k := by
    intro i; unfold findInLeaf; rw [h.getLeaf]
  unfold Tree.get
  rw [hc, hd]
  cases t'.store.tryCache k with
  | error e => rfl
  | ok o =>
    cases o with
    | some i =>
      simp only [ok_bind, hf]
      cases findInLeaf t'.store i k <;> rfl
    | none =>
      simp only [ok_bind]
      cases findDescendLeaf t'.store t'.root k with
      | error e => rfl
      | ok i =>
        have := hf i
        have e1 : findInLeaf (t.store.cacheLeaf i) i k = findInLeaf t.store i k := rfl
        have e2 : findInLeaf (t'.store.cacheLeaf i) i k = findInLeaf t'.store i k := rfl
        simp only [ok_bind, e1, e2, hf]
        cases findInLeaf t'.store i k <;> rfl

theorem Bare.shows {t t' : Tree K V A} (h : Bare t.store t'.store) (hr : t.root = t'.root)
    {l : List (K × V)} (hs : Shows t l) : Shows t' l := by
  refine ⟨hs.1, fun k => ?_⟩
  obtain ⟨u, hu⟩ := hs.2 k
  have := h.get hr k
  rw [hu] at this
  cases h' : t'.get k with
  | error e => rw [h'] at this; cases this
  | ok p =>
    rw [h'] at this
    obtain ⟨o, u'⟩ := p
    cases this
    exact ⟨u', rfl⟩

end Get

section
variable [Augmentation K V A]

/-! ## Insertion -/

theorem insertAscendT_bare (s : Store K V A) (stack : List StackEntry) (r : InsertResult K V)
    (hr : ∀ k c, r ≠ .split k c) :
    (insertAscendT s stack r).All (fun _ m => Bare m s) ∧
      ∀ s' r', (insertAscendT s stack r).result = .ok (s', r') → Bare s' s ∧ r' = r := by
  induction stack generalizing s with
  | nil =>
    refine ⟨Traced.all_pure, fun s' r' h => ?_⟩
    cases r <;> cases h <;> exact ⟨.refl, rfl⟩
  | cons e stack ih =>
    obtain ⟨id, idx, c⟩ := e
    have ha : (newAugmentationT s s c).All (fun _ m => Bare m s) :=
      newAugmentationT_all (fun _ => .refl) (fun _ => .refl)
    have key : ∀ (P : Traced (Store K V A) (Store K V A × InsertResult K V)),
        P = (do
          let a ← newAugmentationT s s c
          let node ← s.getInner id
          let node ← node.setAugmentation idx a
          insertAscendT (s.setInner id node) stack r) →
        P.All (fun _ m => Bare m s) ∧ ∀ s' r', P.result = .ok (s', r') → Bare s' s ∧ r' = r := by
      rintro _ rfl
      constructor
      · refine Traced.all_bind ha fun a _ => Traced.all_lift_bind fun n hn =>
          Traced.all_lift_bind fun n' hn' => ?_
        exact Traced.all_mono (fun _ m hm => hm.trans (Bare.set hn hn')) (ih _).1
      · intro s' r' h
        simp only [Traced.result_bind, Traced.result_lift] at h
        obtain ⟨a, -, h⟩ := bind_ok h
        obtain ⟨n, hn, h⟩ := bind_ok h
        obtain ⟨n', hn', h⟩ := bind_ok h
        obtain ⟨h1, h2⟩ := (ih _).2 s' r' h
        exact ⟨h1.trans (Bare.set hn hn'), h2⟩
    cases r with
    | inserted => exact key _ rfl
    | updated v => exact key _ rfl
    | split k c => exact absurd rfl (hr k c)

omit [Augmentation K V A] in
/-- A split takes a new leaf slot. -/
theorem insertLeafU_grows {o : Answers K} {s : Store K V A} {id : Nat} {k : K} {v : V} :
    Post (insertLeafU o s id k v) (fun p => ∀ k' r, p.2 = .split k' r →
      s.leaves.length + 1 ≤ p.1.leaves.length) := by
  unfold insertLeafU
  refine Post.any fun leaf => Post.any fun slot => ?_
  unfold insertLeafAt
  refine Post.any fun q => ?_
  obtain ⟨leaf', _ | v0 | ⟨idx, k1, v1⟩⟩ := q
  · exact Post.pure (by intro _ _ h; cases h)
  · exact Post.pure (by intro _ _ h; cases h)
  · simp only [Store.reserveLeaf]
    refine Post.any fun lLeaf => Post.any fun lr => Post.any fun kv => ?_
    have key : ∀ s2 : Store K V A, s2.leaves.length = s.leaves.length + 1 →
        ∀ (c : Nat) k' r, Post (do
          let s ← s2.assignLeaf s.leaves.length lr.2
          return (s.cacheLeaf c, InsertResult.split (V := V) k' r) : Res (Store K V A × InsertResult K V))
        (fun p => ∀ k' r, p.2 = .split k' r → s.leaves.length + 1 ≤ p.1.leaves.length) := by
      intro s2 h2 c k' r
      unfold Store.assignLeaf
      split
      · rw [ok_bind]
        refine Post.pure ?_
        intro _ _ _
        simp only [Store.setLeaf, Store.cacheLeaf, List.length_set]; omega
      · exact Post.bind' (fun a h => by cases h)
    cases lr.2.next with
    | none =>
      simp only [pure_ok, ok_bind]
      refine key _ ?_ _ _ _
      simp [Store.setLeaf]
    | some next =>
      simp only [pure_ok]
      cases hn : Store.getLeaf (Store.setLeaf _ id lr.1) next with
      | error e => exact Post.bind' (fun a h => by cases h)
      | ok nl =>
        simp only [ok_bind]
        refine key _ ?_ _ _ _
        simp [Store.setLeaf]

/-- The crash points of the summary code in an insertion that adds no leaf. -/
theorem descendInsertT_bare (o : Answers K) (s : Store K V A) (root : NodeId) (k : K) (v : V)
    {s1 : Store K V A} {r : InsertResult K V} (h : (descendInsertT o s root k v).result = .ok (s1, r))
    (hn : s1.leaves.length ≤ s.leaves.length) :
    (descendInsertT o s root k v).All (fun c m => c.isFromLeaf ∨ c.isFromInner → Bare s1 m) ∧
      ∀ k' c, r ≠ .split k' c := by
  cases root with
  | leaf id =>
    constructor
    · refine Traced.all_mono ?_ (insertLeafT_kind o s id k v)
      rintro c m (rfl | rfl) (h | h) <;> cases h
    · rintro k' c rfl
      have h' : insertLeafU o s id k v = .ok (s1, .split k' c) := by
        rw [← insertLeafT_result]; exact h
      have := insertLeafU_grows _ h' _ _ rfl
      dsimp only at this
      omega
  | inner id =>
    simp only [descendInsertT, Traced.result_bind, Traced.result_call, ok_bind, Traced.result_lift,
      insertLeafT_result] at h
    obtain ⟨⟨stack, leafId⟩, h1, h⟩ := bind_ok h
    obtain ⟨⟨s2, r2⟩, h2, h⟩ := bind_ok h
    dsimp only at h
    have hg := insertAscend_grows (s1, r) (by rw [← insertAscendT_result]; exact h)
    have hr2 : ∀ k' c, r2 ≠ .split k' c := by
      rintro k' c rfl
      have := insertLeafU_grows _ h2 _ _ rfl
      have := hg.2
      dsimp only at *
      omega
    obtain ⟨hb1, hb2⟩ := insertAscendT_bare s2 stack r2 hr2
    obtain ⟨hb3, rfl⟩ := hb2 s1 r h
    refine ⟨?_, hr2⟩
    refine Traced.all_call_bind (by rintro (h | h) <;> cases h) ?_
    refine Traced.all_lift_bind fun p hp => ?_
    rw [h1] at hp
    cases hp
    refine Traced.all_bind (Traced.all_mono ?_ (insertLeafT_kind o s leafId k v)) fun p hp => ?_
    · rintro c m (rfl | rfl) (h | h) <;> cases h
    · rw [insertLeafT_result, h2] at hp
      cases hp
      exact Traced.all_mono (fun _ m hm _ => hb3.trans hm.symm) hb1

theorem insertT_bare (o : Answers K) (t : Tree K V A) (k : K) (v : V) {a : Option V} {t1 : Tree K V A}
    (h : (t.insertT o k v).result = .ok (a, t1))
    (hn : t1.store.leaves.length ≤ t.store.leaves.length) :
    (t.insertT o k v).All (fun c m => c.isFromLeaf ∨ c.isFromInner →
      Bare t1.store m.store ∧ t1.root = m.root ∧ m.len = t.len ∧ m.rootAug = t.rootAug ∧ m.st = t.st) := by
  simp only [Tree.insertT, Traced.result_mapMem, Traced.result_bind] at h
  obtain ⟨⟨s1, r⟩, h1, h2⟩ := bind_ok h
  dsimp only at h2
  have hl : t1.store.leaves = s1.leaves ∧ ((∀ k' c, r ≠ .split k' c) → t1.store = s1 ∧ t1.root = t.root) := by
    cases r with
    | inserted =>
      simp only [Tree.finishInsertT, Traced.result_bind] at h2
      obtain ⟨a, -, h2⟩ := bind_ok h2
      cases h2
      exact ⟨rfl, fun _ => ⟨rfl, rfl⟩⟩
    | updated v =>
      simp only [Tree.finishInsertT, Traced.result_bind] at h2
      obtain ⟨a, -, h2⟩ := bind_ok h2
      cases h2
      exact ⟨rfl, fun _ => ⟨rfl, rfl⟩⟩
    | split k' c =>
      simp only [Tree.finishInsertT, Traced.result_bind, Traced.result_lift, Traced.result_call] at h2
      obtain ⟨a, -, h2⟩ := bind_ok h2
      obtain ⟨a', -, h2⟩ := bind_ok h2
      obtain ⟨n, -, h2⟩ := bind_ok h2
      cases h2
      exact ⟨rfl, fun h => absurd rfl (h _ _)⟩
  obtain ⟨hb, hr⟩ := descendInsertT_bare o t.store t.root k v h1 (by rw [← hl.1]; exact hn)
  obtain ⟨rfl, hroot⟩ := hl.2 hr
  refine Traced.all_mapMem ?_
  refine Traced.all_bind (Traced.all_mono (fun c m hm hc => ⟨hm hc, hroot, rfl, rfl, rfl⟩) hb) fun p hp => ?_
  rw [h1] at hp
  cases hp
  exact finishInsertT_kind _ _ _ (fun _ _ => ⟨.refl, hroot, rfl, rfl, rfl⟩)
    (fun _ _ => ⟨.refl, hroot, rfl, rfl, rfl⟩)

/-! ## Removal -/

theorem removeAscendT_bare (s : Store K V A) (st : Statistic) (stack : List StackEntry) (kv : K × V) :
    (removeAscendT s st stack (.done kv)).All (fun _ m => Bare m.1 s ∧ m.2 = st) ∧
      ∀ r' s' st', (removeAscendT s st stack (.done kv)).result = .ok (r', s', st') →
        Bare s' s ∧ st' = st ∧ r' = .done kv := by
  induction stack generalizing s with
  | nil =>
    refine ⟨Traced.all_pure, fun r' s' st' h => ?_⟩
    cases h; exact ⟨.refl, rfl, rfl⟩
  | cons e stack ih =>
    obtain ⟨id, idx, c⟩ := e
    constructor
    · refine Traced.all_bind (newAugmentationT_all (fun _ => ⟨.refl, rfl⟩) (fun _ => ⟨.refl, rfl⟩))
        fun a _ => Traced.all_lift_bind fun n hn => Traced.all_lift_bind fun n' hn' => ?_
      exact Traced.all_mono (fun _ m hm => ⟨hm.1.trans (Bare.set hn hn'), hm.2⟩) (ih _).1
    · intro r' s' st' h
      simp only [removeAscendT, Traced.result_bind, Traced.result_lift] at h
      obtain ⟨a, -, h⟩ := bind_ok h
      obtain ⟨n, hn, h⟩ := bind_ok h
      obtain ⟨n', hn', h⟩ := bind_ok h
      obtain ⟨h1, h2⟩ := (ih _).2 r' s' st' h
      exact ⟨h1.trans (Bare.set hn hn'), h2⟩

/-- The number of repairs counted. -/
def Statistic.fixes (st : Statistic) : Nat := st.leafFixes + st.innerFixes

theorem handleInner_fixes {s : Store K V A} {st : Statistic} {n : Inner K A} {i : Nat} {kv : K × V} :
    Post (handleInnerUnderSize s st n i kv) (fun p => st.fixes < p.2.2.1.fixes) := by
  unfold handleInnerUnderSize
  refine Post.any fun a => ?_
  cases a with
  | some p => exact Post.pure (by simp [Statistic.fixes, Statistic.leafFixes, Statistic.innerFixes] <;> omega)
  | none =>
    refine Post.any fun b => ?_
    cases b with
    | some p => exact Post.pure (by simp [Statistic.fixes, Statistic.leafFixes, Statistic.innerFixes] <;> omega)
    | none =>
      dsimp only
      split
      all_goals
        refine Post.any fun p => ?_
        dsimp only
        split
        all_goals
          exact Post.pure (by simp [Statistic.fixes, Statistic.leafFixes, Statistic.innerFixes] <;> omega)

theorem handleLeaf_fixes {s : Store K V A} {st : Statistic} {n : Inner K A} {i j : Nat} :
    Post (handleLeafUnderSize s st n i j) (fun p => st.fixes < p.2.2.1.fixes) := by
  unfold handleLeafUnderSize
  refine Post.any fun a => Post.any fun b => Post.any fun c => ?_
  cases c
  all_goals
    exact Post.any fun p => Post.pure
      (by simp [Statistic.fixes, Statistic.leafFixes, Statistic.innerFixes] <;> omega)

theorem removeAscend_fixes {s : Store K V A} {st : Statistic} {stack : List StackEntry} {r : DeleteResult K V} :
    Post (removeAscend s st stack r) (fun p => st.fixes ≤ p.2.2.fixes ∧
      (p.2.2.fixes = st.fixes → stack = [] ∨ ∃ kv, r = .done kv)) := by
  induction stack generalizing s st r with
  | nil => exact Post.pure ⟨le_rfl, fun _ => .inl rfl⟩
  | cons e stack ih =>
    obtain ⟨id, idx, c⟩ := e
    cases r with
    | done kv =>
      unfold removeAscend
      exact Post.any fun _ => Post.any fun _ => Post.any fun _ => ih.mono fun p h => ⟨h.1, fun _ => .inr ⟨_, rfl⟩⟩
    | innerUnderSize kv =>
      unfold removeAscend
      refine Post.any fun _ => Post.bind' fun q hq => ?_
      have := handleInner_fixes _ hq
      obtain ⟨r1, s1, st1, n1⟩ := q
      dsimp only at this ⊢
      exact ih.mono fun p h => ⟨by have := h.1; omega, fun h' => by have := h.1; omega⟩
    | leafUnderSize i =>
      unfold removeAscend
      refine Post.any fun _ => Post.bind' fun q hq => ?_
      have := handleLeaf_fixes _ hq
      obtain ⟨r1, s1, st1, n1⟩ := q
      dsimp only at this ⊢
      exact ih.mono fun p h => ⟨by have := h.1; omega, fun h' => by have := h.1; omega⟩

theorem removeAscendT_noFix {s0 s s' : Store K V A} {st : Statistic} {stack : List StackEntry}
    {r0 r : DeleteResult K V} {root root' : NodeId} {kv' : K × V} (hi : ∀ kv, r0 ≠ .innerUnderSize kv)
    (h3 : (removeAscendT s0 st stack r0).result = .ok (r, s, st))
    (h4 : removeRoot s root r = .ok (kv', s', root')) :
    (removeAscendT s0 st stack r0).All (fun _ m => Bare s' m.1 ∧ root' = root ∧ m.2 = st) ∧
      root' = root := by
  have hf := removeAscend_fixes _ ((removeAscendT_result ..).symm.trans h3)
  rcases hf.2 rfl with rfl | ⟨kv1, rfl⟩
  · refine ⟨Traced.all_pure, ?_⟩
    cases h3
    cases r0 with
    | done kv => cases h4; rfl
    | innerUnderSize kv => exact absurd rfl (hi kv)
    | leafUnderSize i =>
      simp only [removeRoot] at h4
      obtain ⟨_, _, h4⟩ := bind_ok h4
      obtain ⟨_, _, h4⟩ := bind_ok h4
      obtain ⟨_, _, h4⟩ := bind_ok h4
      cases h4; rfl
  · obtain ⟨g1, g2⟩ := removeAscendT_bare s0 st stack kv1
    obtain ⟨g3, g4, rfl⟩ := g2 _ _ _ h3
    cases h4
    exact ⟨Traced.all_mono (fun _ m hm => ⟨g3.trans hm.1.symm, rfl, hm.2⟩) g1, rfl⟩

/-- The crash points of the summary code in a removal that needs no repair. -/
theorem removeByRefT_bare (t : Tree K V A) (e : EntryRef) {kv : K × V} {t1 : Tree K V A}
    (h : (t.removeByRefT e).result = .ok (kv, t1)) (hst : t1.st = t.st) :
    (t.removeByRefT e).All (fun _ m =>
      Bare t1.store m.store ∧ t1.root = m.root ∧ m.len = t.len ∧ m.rootAug = t.rootAug ∧ m.st = t.st) := by
  simp only [Tree.removeByRefT, Traced.result_bind, Traced.result_lift, Traced.result_mapMem] at h
  obtain ⟨leaf, h1, h⟩ := bind_ok h
  obtain ⟨⟨leaf', dr⟩, h2, h⟩ := bind_ok h
  obtain ⟨⟨r, s, st⟩, h3, h⟩ := bind_ok h
  obtain ⟨⟨kv', s', root⟩, h4, h⟩ := bind_ok h
  obtain ⟨a, h5, h⟩ := bind_ok h
  split at h
  · simp only [Traced.result_bind, Traced.result_lift, error_bind] at h
    cases h
  cases h
  dsimp only at hst h3 h4 h5 ⊢
  obtain rfl : st = t.st := hst
  refine Traced.all_lift_bind fun leaf1 e1 => ?_
  rw [h1] at e1; cases e1
  refine Traced.all_lift_bind fun p e2 => ?_
  rw [h2] at e2; cases e2
  dsimp only
  have key := removeAscendT_noFix (by cases dr <;> simp) h3 h4
  obtain ⟨key, rfl⟩ := key
  refine Traced.all_bind (Traced.all_mapMem (Traced.all_mono (fun _ m hm => ⟨hm.1, rfl, rfl, rfl, hm.2.2⟩) key))
    fun p e3 => ?_
  rw [Traced.result_mapMem, h3] at e3; cases e3
  refine Traced.all_lift_bind fun p e4 => ?_
  rw [h4] at e4; cases e4
  exact Traced.all_bind (newAugmentationT_all (fun _ => ⟨.refl, rfl, rfl, rfl, rfl⟩)
    (fun _ => ⟨.refl, rfl, rfl, rfl, rfl⟩)) fun _ _ => by
      split
      · exact Traced.all_lift_bind fun _ _ => Traced.all_pure
      · exact Traced.all_pure

theorem removeT_bare (o : Answers K) (t : Tree K V A) {a : Option V} {t1 : Tree K V A}
    (h : (t.removeT o).result = .ok (a, t1)) (hst : t1.st = t.st) :
    (t.removeT o).All (fun c m => c.isFromLeaf ∨ c.isFromInner →
      Bare t1.store m.store ∧ t1.root = m.root ∧ m.len = t.len ∧ m.rootAug = t.rootAug ∧ m.st = t.st) := by
  simp only [Tree.removeT, Traced.result_bind, Traced.result_call, ok_bind, Traced.result_lift] at h
  obtain ⟨r, h1, h⟩ := bind_ok h
  refine Traced.all_call_bind (by rintro (h | h) <;> cases h) ?_
  refine Traced.all_lift_bind fun r' e1 => ?_
  rw [h1] at e1; cases e1
  cases r with
  | none => exact Traced.all_pure
  | some e =>
    dsimp only at h ⊢
    simp only [Traced.result_bind] at h
    obtain ⟨⟨kv, t2⟩, h2, h⟩ := bind_ok h
    cases h
    exact Traced.all_bind (Traced.all_mono (fun _ _ hm _ => hm) (removeByRefT_bare t e h2 hst))
      fun _ _ => Traced.all_pure

/-! ## Lookups in a damaged map -/

omit [Augmentation K V A] in
theorem earlyLoopU_found {f : Nat → K → Ordering} {keys : List K} (n : Nat) {j l r i : Nat}
    (h : earlyLoopU f keys n j l r = .ok (.found i)) : ∃ j x, keys[i]? = some x ∧ f j x = .eq := by
  induction n generalizing j l r with
  | zero => cases h
  | succ n ih =>
    unfold earlyLoopU at h
    split at h
    · obtain ⟨x, hx, h⟩ := bind_ok h
      split at h
      · exact ih h
      · exact ih h
      · next e =>
        cases h
        refine ⟨_, x, ?_, e⟩
        unfold readAt at hx
        split at hx
        · next e => cases hx; exact e
        · cases hx
    · cases h

omit [Augmentation K V A] in
theorem searchU_found {e : Bool} {f : Nat → K → Ordering} {keys : List K} {i : Nat}
    (h : searchU e f keys = .ok (.found i)) : ∃ j x, keys[i]? = some x ∧ f j x = .eq := by
  unfold searchU at h
  split at h
  · exact earlyLoopU_found _ h
  · unfold halvingSearchU at h
    split at h
    · cases h
    · obtain ⟨⟨j, b⟩, -, h⟩ := bind_ok h
      obtain ⟨x, hx, h⟩ := bind_ok h
      split at h
      · next e =>
        cases h
        refine ⟨_, x, ?_, e⟩
        unfold readAt at hx
        split at hx
        · next e => cases hx; exact e
        · cases hx
      · cases h
      · cases h

/-- A map in which lookups are safe and see only items with `P`. -/
def Readable (P : K × V → Prop) (t : Tree K V A) : Prop :=
  ∃ H L, Down t.store H t.root ∧ H ≤ t.store.fuel ∧ Flat0 t.store L ∧ ∀ x ∈ L.flatMap (·.2), P x

/-- A map in which lookups and iterators see only items with `P`, and whose leaves hold `n` items. -/
def Holding (P : K × V → Prop) (n : Nat) (t : Tree K V A) : Prop :=
  ∃ H L, Down t.store H t.root ∧ H ≤ t.store.fuel ∧ Flat0 t.store L ∧ (∀ x ∈ L.flatMap (·.2), P x) ∧
    (L.flatMap (·.2)).length = n

omit [Augmentation K V A] in
theorem Holding.readable {P : K × V → Prop} {n : Nat} {t : Tree K V A} (h : Holding P n t) : Readable P t := by
  obtain ⟨H, L, h1, h2, h3, h4, -⟩ := h
  exact ⟨H, L, h1, h2, h3, h4⟩

omit [Augmentation K V A] in
theorem Down.locate {s : Store K V A} (o : Answers K) {h : Nat} {id : NodeId} (a : Down s h id) (fuel : Nat)
    (hf : h ≤ fuel) (dep : Nat) : ∃ d i l, s.leaves[i]? = some (some l) ∧
      descend (β := Empty) s (fun st i n => do let r ← locateStepU o st i n; return .inr r) fuel dep id
        = .ok (.inr (d, i)) := by
  induction h generalizing id fuel dep with
  | zero =>
    obtain ⟨i, l, rfl, h1⟩ := a
    exact ⟨dep, i, l, h1, by cases fuel <;> rfl⟩
  | succ h ih =>
    obtain ⟨i, n, rfl, h1, h2, h3⟩ := a
    obtain ⟨fuel, rfl⟩ : ∃ m, fuel = m + 1 := ⟨fuel - 1, by omega⟩
    obtain ⟨q, c, hc, hm⟩ : ∃ q c, n.locateChildU o dep = .ok (q, c) ∧ c ∈ n.childs := by
      obtain ⟨sl, hs, hr⟩ := searchU_ok o.early (o.inner dep) n.keys
      unfold Inner.locateChildU
      rw [hs]
      cases sl with
      | vacant i =>
        have hi : i < n.childs.length := by
          have : i ≤ n.keys.length := hr
          omega
        exact ⟨i, n.childs[i], by simp only [ok_bind, childId_of_mem (List.getElem?_eq_getElem hi), pure_ok],
          List.getElem_mem hi⟩
      | found i =>
        have hi : i + 1 < n.childs.length := by
          have : i < n.keys.length := hr
          omega
        exact ⟨i + 1, n.childs[i + 1],
          by simp only [ok_bind, childId_of_mem (List.getElem?_eq_getElem hi), pure_ok], List.getElem_mem hi⟩
    obtain ⟨d, j, l, h4, h5⟩ := ih (h3 _ hm) fuel (by omega) (dep + 1)
    refine ⟨d, j, l, h4, ?_⟩
    rw [descend, Store.getInner, h1]
    simp only [ok_bind, locateStepU, hc, pure_ok]
    exact h5

omit [Augmentation K V A] in
theorem findInLeafU_eq {s : Store K V A} {L : List (Nat × List (K × V))} (f : Flat0 s L) {i : Nat}
    {l : Leaf K V} (hl : s.leaves[i]? = some (some l)) (o : Answers K) :
    ∃ r, findInLeafU o s i = .ok r ∧
      ∀ v, r = some v → ∃ k j, (k, v) ∈ L.flatMap (·.2) ∧ o.leaf j k = .eq := by
  obtain ⟨x, hx, rfl⟩ := List.mem_map.1 (f.live _ _ hl)
  obtain ⟨LA, LB, hL⟩ := List.append_of_mem hx
  unfold findInLeafU
  rw [f.get hL]
  simp only [ok_bind, Leaf.locateSlotWithValueU]
  rcases locateSlotU_cases o x.2 (lstId none LA) (hdId LB none) with ⟨a, kv, b, h, h1⟩ | ⟨a, b, h, h1⟩
  · refine ⟨some kv.2, ?_, ?_⟩
    · simp only [h1, ok_bind, Leaf.dataAt]
      simp only [h, readAt_mid, ok_bind, pure_ok]
    · rintro v ⟨⟩
      obtain ⟨j, y, h2, h3⟩ := searchU_found h1
      refine ⟨kv.1, j, ?_, ?_⟩
      · exact List.mem_flatMap.2 ⟨x, hx, by rw [h]; simp⟩
      · have : y = kv.1 := by
          simpa [Leaf.keys, h] using h2.symm
        exact this ▸ h3
  · exact ⟨none, by simp only [h1, ok_bind, pure_ok], by simp⟩

omit [Augmentation K V A] in
theorem Readable.getU {P : K × V → Prop} {t : Tree K V A} (h : Readable P t) (o : Answers K) :
    ∃ r u, t.getU o = .ok (r, u) ∧ Readable P u ∧
      ∀ v, r = some v → ∃ k j, P (k, v) ∧ o.leaf j k = .eq := by
  obtain ⟨H, L, hd, hf, hF, hP⟩ := h
  obtain ⟨r, hr, hi⟩ := tryCacheU_ok hF o
  unfold Tree.getU
  rw [hr]
  cases r with
  | some i =>
    obtain ⟨LA, x, LB, hL, rfl⟩ := hi i rfl
    have hl : t.store.leaves[x.1]? = some (some _) := (hL ▸ hF.seg).get
    obtain ⟨r, h1, h2⟩ := findInLeafU_eq hF hl o
    refine ⟨r, t, by simp only [ok_bind, h1, pure_ok], ⟨H, L, hd, hf, hF, hP⟩, fun v hv => ?_⟩
    obtain ⟨k, j, h3, h4⟩ := h2 v hv
    exact ⟨k, j, hP _ h3, h4⟩
  | none =>
    obtain ⟨d, i, l, hl, he⟩ := hd.locate o t.store.fuel hf 0
    have hF' : Flat0 (t.store.cacheLeaf i) L := hF.congr rfl
    obtain ⟨r, h1, h2⟩ := findInLeafU_eq hF' (i := i) (l := l) hl o
    refine ⟨r, { t with store := t.store.cacheLeaf i }, ?_, ⟨H, L, ?_, hf, hF', hP⟩, fun v hv => ?_⟩
    · have hfd : findDescendLeafU o t.store t.root = .ok i := by
        unfold findDescendLeafU descendLeaf
        rw [he]; rfl
      simp only [ok_bind, hfd, h1, pure_ok]
    · exact Down.keep (s := t.store) (s' := t.store.cacheLeaf i) (fun _ _ h => h) (fun _ m h => ⟨m, h⟩) hd
    · obtain ⟨k, j, h3, h4⟩ := h2 v hv
      exact ⟨k, j, hP _ h3, h4⟩

/-- The crash points of summary code in an insertion. -/
theorem insertT_holding {μ : Nat} {t : Tree K V A} {l : List (K × V)} (h : UInvM μ t l)
    (hl1 : t.len + 1 < 2 ^ 64) (o : Answers K) (k : K) (v : V) :
    ∃ r t'' l'', t.insertU o k v = .ok (r, t'') ∧ UInvM μ t'' l'' ∧
      Effect (.insert k v) (.value r) l l'' ∧
      (t.insertT o k v).All (fun c t' => c.isFromLeaf ∨ c.isFromInner →
        t'.drop = .ok (l''.take l.length) ∧ Holding (· ∈ l'') l''.length t') := by
  obtain ⟨r, t'', l'', h1, h2, h3, h4⟩ := insertT_crash h hl1 o k v
  refine ⟨r, t'', l'', h1, h2, h3, Traced.all_mono (fun _ _ h hc => ?_) h4⟩
  obtain ⟨hd, H, L, e1, e2, e3, rfl⟩ := h hc
  exact ⟨hd, H, L, e1, e2, e3, fun _ h => h, rfl⟩

/-- The crash points of summary code in an insertion. -/
theorem insertT_readable {μ : Nat} {t : Tree K V A} {l : List (K × V)} (h : UInvM μ t l)
    (hl1 : t.len + 1 < 2 ^ 64) (o : Answers K) (k : K) (v : V) :
    ∃ r t'' l'', t.insertU o k v = .ok (r, t'') ∧ UInvM μ t'' l'' ∧
      Effect (.insert k v) (.value r) l l'' ∧
      (t.insertT o k v).All (fun c t' => c.isFromLeaf ∨ c.isFromInner → Readable (· ∈ l'') t') := by
  obtain ⟨r, t'', l'', h1, h2, h3, h4⟩ := insertT_crash h hl1 o k v
  refine ⟨r, t'', l'', h1, h2, h3, Traced.all_mono (fun _ _ h hc => ?_) h4⟩
  obtain ⟨-, H, L, e1, e2, e3, rfl⟩ := h hc
  exact ⟨H, L, e1, e2, e3, fun _ h => h⟩

/-- The crash points in a removal, apart from `from_leaf` in the merge of two leaves. -/
theorem removeT_readable {μ : Nat} (hμ1 : 1 ≤ μ) {t : Tree K V A} {l : List (K × V)} (h : UInvM μ t l)
    (o : Answers K) :
    (t.removeT o).All (fun cb m => cb ≠ .compare →
      (cb.isFromLeaf → m.st.leafMerges = t.st.leafMerges ∨ m.root ≠ t.root) → Readable (· ∈ l) m) := by
  refine Traced.all_mono (fun _ _ h h1 h2 => ?_) (removeT_short hμ1 h o)
  obtain ⟨H, n, ⟨e1, e2, L, e3, -, e4⟩, -⟩ := h h1 h2
  exact ⟨H, L, e1, e2, e3, e4⟩

/-- The crash points in a removal, apart from `from_leaf` in the merge of two leaves. -/
theorem removeT_holding {μ : Nat} (hμ1 : 1 ≤ μ) {t : Tree K V A} {l : List (K × V)} (h : UInvM μ t l)
    (o : Answers K) :
    (t.removeT o).All (fun cb m => cb ≠ .compare →
      (cb.isFromLeaf → m.st.leafMerges = t.st.leafMerges ∨ m.root ≠ t.root) →
      ∃ n, Holding (· ∈ l) n m ∧ n + 1 = m.len) := by
  refine Traced.all_mono (fun _ _ h h1 h2 => ?_) (removeT_short hμ1 h o)
  obtain ⟨H, n, ⟨e1, e2, L, e3, e5, e4⟩, hn⟩ := h h1 h2
  exact ⟨n, ⟨H, L, e1, e2, e3, e4, e5⟩, hn⟩

/-- A sequence of lookups in such a map, with any comparisons. -/
theorem Readable.urun {P : K × V → Prop} {t : Tree K V A} (h : Readable P t) (os : List (Answers K)) :
    ∃ rs u, t.urun (os.map (·, .get)) = .ok (rs.map .value, u) ∧
      List.Forall₂ (fun (o : Answers K) r => ∀ v, r = some v → ∃ k j, P (k, v) ∧ o.leaf j k = .eq) os rs := by
  induction os generalizing t with
  | nil => exact ⟨[], t, rfl, .nil⟩
  | cons o os ih =>
    obtain ⟨r, u, h1, h2, h3⟩ := h.getU o
    obtain ⟨rs, u', h4, h5⟩ := ih h2
    refine ⟨r :: rs, u', ?_, .cons h3 h5⟩
    simp only [List.map_cons, Tree.urun, Tree.ucall, h1, ok_bind, pure_ok, h4]

end
end Bpt
