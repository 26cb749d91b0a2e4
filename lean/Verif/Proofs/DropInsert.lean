import Verif.Model.DropInsert
import Verif.Proofs.Aftermath

/-!
# The memory in which destructors run during an insertion
-/

namespace Bpt
variable {K V A : Type} [Augmentation K V A]

omit [Augmentation K V A] in
theorem insertLeafD_result (o : Answers K) (s : Store K V A) (id : Nat) (k : K) (v : V) :
    (insertLeafD o s id k v).result = insertLeafU o s id k v := by
  unfold insertLeafD
  rw [Traced.result_bind]
  simp only [Traced.result_lift]
  cases insertLeafU o s id k v with
  | error e => rfl
  | ok p =>
    obtain ⟨s1, r⟩ := p
    cases r <;> rfl

theorem insertAscendD_result (s : Store K V A) (stack : List StackEntry)
    (r : InsertResult K V) : (insertAscendD s stack r).result = insertAscend s stack r := by
  induction stack generalizing s r with
  | nil => cases r <;> rfl
  | cons e stack ih =>
    obtain ⟨id, idx, c⟩ := e
    cases r with
    | inserted => simp [insertAscendD, insertAscend, ih]
    | updated v => simp [insertAscendD, insertAscend, ih]
    | split k rc =>
      simp only [insertAscendD, insertAscend, Traced.result_bind, Traced.result_lift, Traced.result_call,
        ok_bind]
      refine bind_congr fun a1 => bind_congr fun a2 => bind_congr fun n => bind_congr fun n => ?_
      split <;> simp [ih]

theorem insertD_result (o : Answers K) (t : Tree K V A) (k : K) (v : V) :
    (t.insertD o k v).result = t.insertU o k v := by
  have h1 : (descendInsertD o t.store t.root k v).result = descendInsertU o t.store t.root k v := by
    cases t.root <;>
      simp [descendInsertD, descendInsertU, insertLeafD_result, insertAscendD_result]
  have h2 : ∀ s r, (t.finishInsertD s r).result = t.finishInsert s r := by
    intro s r
    cases r <;> simp [Tree.finishInsertD, Tree.finishInsert]
  unfold Tree.insertD Tree.insertU
  rw [Traced.result_bind, Traced.result_mapMem, h1]
  simp only [h2]

theorem insertAscendD_mid {root : NodeId} {H f : Nat} {lv : List (Option (Leaf K V))} {N : Nat}
    {stack : List StackEntry} {s : Store K V A} {r : InsertResult K V} {h : Nat}
    (a : Mid s root H f lv N) (hs : StackDown s h stack) (hr : RightDown s h r) :
    (insertAscendD s stack r).All (fun _ m => Mid m root H f lv N) := by
  induction stack generalizing s r h with
  | nil => exact Traced.all_pure
  | cons e stack ih =>
    obtain ⟨id, idx, c⟩ := e
    obtain ⟨i', n, e, hn, hl, hc⟩ := hs.1
    cases e
    have same : ∀ n1 n2 a1, s.getInner id = .ok n1 → n1.setAugmentation idx a1 = .ok n2 →
        Mid (s.setInner id n2) root H f lv N ∧ StackDown (s.setInner id n2) (h + 1) stack := by
      intro n1 n2 a1 h1 h2
      have h1 := getInner_eq h1
      rw [hn] at h1
      cases h1
      obtain ⟨e1, e2⟩ := setAugmentation_eq h2
      have hlen : n2.childs.length = n2.keys.length + 1 := by rw [e1, e2, hl]
      have hcs : ∀ c ∈ n2.childs, Down s h c := by rw [e1]; exact hc
      exact ⟨a.set hn hs.1 hlen hcs (by rw [e1]),
        hs.2.mono fun _ _ hd => hd.set hn hs.1 hlen hcs⟩
    cases r with
    | inserted =>
      refine Traced.all_lift_bind fun _ _ => Traced.all_lift_bind fun n1 h1 =>
        Traced.all_lift_bind fun n2 h2 => ?_
      obtain ⟨m1, m2⟩ := same n1 n2 _ h1 h2
      exact Traced.all_call_bind m1 (ih m1 m2 (by exact trivial))
    | updated v =>
      refine Traced.all_lift_bind fun _ _ => Traced.all_lift_bind fun n1 h1 =>
        Traced.all_lift_bind fun n2 h2 => ?_
      obtain ⟨m1, m2⟩ := same n1 n2 _ h1 h2
      exact Traced.all_call_bind m1 (ih m1 m2 (by exact trivial))
    | split key rc =>
      have hrc : Down s h rc := hr
      refine Traced.all_lift_bind fun a2 _ => Traced.all_lift_bind fun a1 _ =>
        Traced.all_lift_bind fun n1 h1 => Traced.all_lift_bind fun n2 h2 => ?_
      refine Traced.all_call_bind (same n1 n2 _ h1 h2).1 ?_
      have h1 := getInner_eq h1
      rw [hn] at h1
      cases h1
      obtain ⟨e1, e2⟩ := setAugmentation_eq h2
      have k2 : n2.childs.length = n2.keys.length + 1 := by rw [e1, e2, hl]
      have k4 : ∀ x, (x ∈ n2.childs ∨ x = rc) → Down s h x := by
        rw [e1]
        rintro x (hx | rfl)
        · exact hc x hx
        · exact hrc
      split
      · refine Traced.all_lift_bind fun n3 h3 => ?_
        obtain ⟨j1, j2, j3⟩ := insertAt_eq k2 h3
        have hcs : ∀ c ∈ n3.childs, Down s h c := fun x hx => k4 x (j2 x hx)
        exact ih (a.set hn hs.1 j1 hcs (by rw [j3, e1]))
          (hs.2.mono fun _ _ hd => hd.set hn hs.1 j1 hcs) (by exact trivial)
      · refine Traced.all_lift_bind fun r3 h3 => ?_
        obtain ⟨k', n3, n4⟩ := r3
        obtain ⟨j1, j2, j3, j4, j5⟩ := split_eq k2 h3
        have hcs : ∀ c ∈ n3.childs, Down s h c := fun x hx => k4 x (j2 x hx)
        refine ih (a.set hn hs.1 j1 hcs (by rw [j3, e1])).add
          (hs.2.mono fun _ _ hd => (hd.set hn hs.1 j1 hcs).add) ?_
        refine ⟨_, n4, rfl, by simp [Store.addInner], j4, ?_⟩
        intro x hx
        exact ((k4 x (j5 x hx)).set hn hs.1 j1 hcs).add

/-- A map with a length that is too small drops that many items. -/
theorem UInvM.drop_short {μ : Nat} {t : Tree K V A} {l : List (K × V)} (h : UInvM μ t l) {n : Nat}
    (hn : n ≤ l.length) : ({ t with len := n } : Tree K V A).drop = .ok (l.take n) := by
  obtain ⟨H, g, w, rfl⟩ := h.ghost
  obtain ⟨x, L', hL, h1⟩ := w.reads.first
  obtain ⟨L2, y, hL2, h2⟩ := w.reads.last
  have hseg := w.seg
  rw [hL2] at hseg
  exact drop_mid (t := { t with len := n }) w.flat hL h1 h2 hseg.get hn

/-- The destructors in an insertion: what dropping the map does there, and what lookups need. -/
theorem insertD_crash {μ : Nat} {t : Tree K V A} {l : List (K × V)} (h : UInvM μ t l)
    (hl1 : t.len + 1 < 2 ^ 64) (o : Answers K) (k : K) (v : V) :
    ∃ r t'' l'', t.insertU o k v = .ok (r, t'') ∧ UInvM μ t'' l'' ∧
      Effect (.insert k v) (.value r) l l'' ∧
      (t.insertD o k v).All (fun _ t' => t'.drop = .ok (l''.take l.length) ∧ Holding (· ∈ l'') l''.length t') := by
  obtain ⟨r0, t'', l'', hrun0, hU, heff, stack, id0, s1, r, H, f, N, hdesc, hinsU, hmid, hstack, hr,
    hdrop⟩ := insert_mid h hl1 o k v
  refine ⟨r0, t'', l'', hrun0, hU, heff, ?_⟩
  have hle : l.length ≤ l''.length := by cases heff <;> simp
  refine Traced.all_bind (Traced.all_mapMem (Traced.all_mono
    (P := fun _ m => Mid m t.root H f s1.leaves N) (fun c m hm => ?_) ?_)) ?_
  · obtain ⟨e1, H, L, e2, e3, e4, rfl⟩ := hdrop m hm
    exact ⟨e1, H, L, e2, e3, e4, fun _ h => h, rfl⟩
  · have hleaf : (insertLeafD o t.store id0 k v).All (fun _ m => Mid m t.root H f s1.leaves N) := by
      refine Traced.all_lift_bind fun p hp => ?_
      rw [hinsU] at hp
      cases hp
      split
      · next e => cases e; exact Traced.all_call_bind hmid Traced.all_pure
      · exact Traced.all_pure
    cases hroot : t.root with
    | leaf i =>
      rw [hroot] at hdesc
      have : id0 = i := by
        unfold descendLeaf at hdesc
        generalize t.store.fuel = n at hdesc
        cases n <;> cases hdesc <;> rfl
      rw [hroot, this] at hleaf
      exact hleaf
    | inner i =>
      rw [← hroot]
      have : descendInsertD o t.store t.root k v = (do
          let (stack, leafId) ← (descendLeaf t.store (stackStepU o) [] t.root : Res _)
          let (s, r) ← insertLeafD o t.store leafId k v
          insertAscendD s stack r) := by rw [hroot]; rfl
      rw [this]
      refine Traced.all_lift_bind fun p hp => ?_
      rw [hdesc] at hp
      cases hp
      refine Traced.all_bind hleaf fun q hq => ?_
      rw [insertLeafD_result, hinsU] at hq
      cases hq
      exact insertAscendD_mid hmid hstack hr
  · rintro ⟨s2, r2⟩ h2
    have hfin : t.finishInsert s2 r2 = .ok (r0, t'') := by
      have := insertD_result o t k v
      rw [hrun0] at this
      unfold Tree.insertD at this
      rw [Traced.result_bind, h2] at this
      simp only [ok_bind] at this
      rw [← this]
      cases r2 <;> simp [Tree.finishInsertD, Tree.finishInsert]
    have hall : (t.finishInsertD s2 r2).All (fun _ m => m = { t'' with len := t.len }) := by
      unfold Tree.finishInsert at hfin
      cases r2 with
      | inserted =>
        refine Traced.all_lift_bind fun a ha => Traced.all_call_bind ?_ Traced.all_pure
        simp only [ha, ok_bind, pure_ok] at hfin
        cases hfin; rfl
      | updated prev =>
        refine Traced.all_lift_bind fun a ha => Traced.all_call_bind ?_ Traced.all_pure
        simp only [ha, ok_bind, pure_ok] at hfin
        cases hfin; rfl
      | split k rc =>
        refine Traced.all_lift_bind fun a ha => Traced.all_lift_bind fun b hb =>
          Traced.all_lift_bind fun n hn => Traced.all_call_bind ?_ Traced.all_pure
        simp only [ha, hb, hn, ok_bind, pure_ok] at hfin
        cases hfin; rfl
    refine Traced.all_mono (fun _ m hm => ?_) hall
    subst hm
    refine ⟨?_, ?_⟩
    · rw [h.len]
      exact hU.drop_short hle
    · obtain ⟨H, g, w, rfl⟩ := hU.ghost
      obtain ⟨e1, e2, L, e3, e5, e4⟩ := w.short (P := (· ∈ g.toL)) (fun _ h => h)
      exact ⟨H, L, e1, e2, e3, e4, e5.trans w.len⟩

/-! ## The number of destructors -/

/-- The kinds of user code a program calls. -/
def Traced.kinds {σ α : Type} (x : Traced σ α) : List Callback := x.trace.map (·.1)

omit [Augmentation K V A] in
theorem Traced.kinds_bind {σ α β : Type} {x : Traced σ α} {f : α → Traced σ β} {a : α}
    (h : x.result = .ok a) : (x >>= f).kinds = x.kinds ++ (f a).kinds := by
  have : (x >>= f).trace = x.trace ++ (f a).trace := by
    obtain ⟨tr, r⟩ := x
    cases h
    rfl
  unfold Traced.kinds
  rw [this, List.map_append]

omit [Augmentation K V A] in
theorem Traced.kinds_lift {σ α β : Type} {x : Res α} {f : α → Traced σ β} {a : α}
    (h : x = .ok a) : ((liftM x : Traced σ α) >>= f).kinds = (f a).kinds := by
  rw [Traced.kinds_bind (x := (liftM x : Traced σ α)) h]
  rfl

omit [Augmentation K V A] in
theorem Traced.kinds_call {σ β : Type} {c : Callback} {m : σ} {f : Unit → Traced σ β} :
    (Traced.call c m >>= f).kinds = c :: (f ()).kinds := by
  rw [Traced.kinds_bind (x := Traced.call c m) (a := ()) rfl]
  rfl

theorem insertAscendD_kinds {s s' : Store K V A} {stack : List StackEntry} {r r' : InsertResult K V}
    (h : insertAscend s stack r = .ok (s', r')) :
    (insertAscendD s stack r).kinds = List.replicate stack.length .dropAug := by
  induction stack generalizing s r with
  | nil => cases r <;> rfl
  | cons e stack ih =>
    obtain ⟨id, idx, c⟩ := e
    cases r with
    | inserted =>
      simp only [insertAscend] at h
      obtain ⟨a, h1, h⟩ := bind_ok h
      obtain ⟨n1, h2, h⟩ := bind_ok h
      obtain ⟨n2, h3, h⟩ := bind_ok h
      dsimp only [insertAscendD]
      rw [Traced.kinds_lift h1, Traced.kinds_lift h2, Traced.kinds_lift h3, Traced.kinds_call, ih h]
      rfl
    | updated v =>
      simp only [insertAscend] at h
      obtain ⟨a, h1, h⟩ := bind_ok h
      obtain ⟨n1, h2, h⟩ := bind_ok h
      obtain ⟨n2, h3, h⟩ := bind_ok h
      dsimp only [insertAscendD]
      rw [Traced.kinds_lift h1, Traced.kinds_lift h2, Traced.kinds_lift h3, Traced.kinds_call, ih h]
      rfl
    | split k rc =>
      simp only [insertAscend] at h
      obtain ⟨a, h1, h⟩ := bind_ok h
      obtain ⟨b, h2, h⟩ := bind_ok h
      obtain ⟨n1, h3, h⟩ := bind_ok h
      obtain ⟨n2, h4, h⟩ := bind_ok h
      dsimp only [insertAscendD]
      rw [Traced.kinds_lift h1, Traced.kinds_lift h2, Traced.kinds_lift h3, Traced.kinds_lift h4,
        Traced.kinds_call]
      split at h
      · next hc =>
        obtain ⟨n3, h5, h⟩ := bind_ok h
        rw [if_pos hc, Traced.kinds_lift h5, ih h]
        rfl
      · next hc =>
        obtain ⟨⟨k', n3, n4⟩, h5, h⟩ := bind_ok h
        rw [if_neg hc, Traced.kinds_lift h5]
        dsimp only
        rw [ih h]
        rfl

theorem insertAscend_updated {s s' : Store K V A} {stack : List StackEntry} {r r' : InsertResult K V}
    (h : insertAscend s stack r = .ok (s', r')) : r'.kind = r.kind := by
  induction stack generalizing s r with
  | nil => cases r <;> cases h <;> rfl
  | cons e stack ih =>
    obtain ⟨id, idx, c⟩ := e
    cases r with
    | inserted =>
      simp only [insertAscend] at h
      obtain ⟨a, h1, h⟩ := bind_ok h
      obtain ⟨n1, h2, h⟩ := bind_ok h
      obtain ⟨n2, h3, h⟩ := bind_ok h
      exact ih h
    | updated v =>
      simp only [insertAscend] at h
      obtain ⟨a, h1, h⟩ := bind_ok h
      obtain ⟨n1, h2, h⟩ := bind_ok h
      obtain ⟨n2, h3, h⟩ := bind_ok h
      exact ih h
    | split k rc =>
      simp only [insertAscend] at h
      obtain ⟨a, h1, h⟩ := bind_ok h
      obtain ⟨b, h2, h⟩ := bind_ok h
      obtain ⟨n1, h3, h⟩ := bind_ok h
      obtain ⟨n2, h4, h⟩ := bind_ok h
      split at h
      · obtain ⟨n3, h5, h⟩ := bind_ok h
        rw [ih h]; rfl
      · obtain ⟨⟨k', n3, n4⟩, h5, h⟩ := bind_ok h
        rw [ih h]; rfl

theorem insertD_points (o : Answers K) (t : Tree K V A) (k : K) (v : V)
    {prev : Option V} {t1 : Tree K V A} (h : t.insertU o k v = .ok (prev, t1))
    {stack : List StackEntry} {id : Nat}
    (hd : descendLeaf t.store (stackStepU o) [] t.root = .ok (stack, id)) :
    (t.insertD o k v).kinds =
      (if prev.isSome then [.dropKey] else []) ++ List.replicate (stack.length + 1) .dropAug := by
  have h' := h
  unfold Tree.insertU at h
  rw [descendInsertU_eq, hd] at h
  simp only [ok_bind] at h
  obtain ⟨⟨s2, r2⟩, h1, h3⟩ := bind_ok h
  obtain ⟨⟨s1, r1⟩, h1, h2⟩ := bind_ok h1
  dsimp only at h2 h3
  have hk := insertAscend_updated h2
  have hprev : prev = r2.kind := by
    unfold Tree.finishInsert at h3
    cases r2 with
    | inserted => obtain ⟨a, -, h3⟩ := bind_ok h3; cases h3; rfl
    | updated v => obtain ⟨a, -, h3⟩ := bind_ok h3; cases h3; rfl
    | split k rc =>
      obtain ⟨a, -, h3⟩ := bind_ok h3
      obtain ⟨b, -, h3⟩ := bind_ok h3
      obtain ⟨n, -, h3⟩ := bind_ok h3
      cases h3; rfl
  have hleaf : (insertLeafD o t.store id k v).kinds = if r1.kind.isSome then [.dropKey] else [] := by
    unfold insertLeafD
    rw [Traced.kinds_lift h1]
    cases r1 <;> rfl
  have hdesc : (descendInsertD o t.store t.root k v).result = .ok (s2, r2) ∧
      (descendInsertD o t.store t.root k v).kinds =
        (if prev.isSome then [.dropKey] else []) ++ List.replicate stack.length .dropAug := by
    rw [hprev, hk]
    cases hroot : t.root with
    | leaf i =>
      rw [hroot] at hd
      have : stack = [] ∧ id = i := by
        unfold descendLeaf at hd
        generalize t.store.fuel = n at hd
        cases n <;> cases hd <;> exact ⟨rfl, rfl⟩
      obtain ⟨rfl, rfl⟩ := this
      cases h2
      refine ⟨?_, ?_⟩
      · show (insertLeafD o t.store id k v).result = _
        rw [insertLeafD_result, h1]
      · show (insertLeafD o t.store id k v).kinds = _
        rw [hleaf]; simp
    | inner i =>
      rw [← hroot]
      have : descendInsertD o t.store t.root k v = (do
          let (stack, leafId) ← (descendLeaf t.store (stackStepU o) [] t.root : Res _)
          let (s, r) ← insertLeafD o t.store leafId k v
          insertAscendD s stack r) := by rw [hroot]; rfl
      rw [this]
      refine ⟨?_, ?_⟩
      · rw [Traced.result_bind, Traced.result_lift, hd]
        simp only [ok_bind]
        rw [Traced.result_bind, insertLeafD_result, h1]
        simp only [ok_bind, insertAscendD_result, h2]
      · rw [Traced.kinds_lift hd]
        dsimp only
        rw [Traced.kinds_bind (a := (s1, r1)) (by rw [insertLeafD_result, h1]), hleaf]
        dsimp only
        rw [insertAscendD_kinds h2]
  have hfin : (t.finishInsertD s2 r2).kinds = [.dropAug] := by
    unfold Tree.finishInsert at h3
    cases r2 with
    | inserted =>
      obtain ⟨a, e, h3⟩ := bind_ok h3
      dsimp only [Tree.finishInsertD]
      rw [Traced.kinds_lift e, Traced.kinds_call]; rfl
    | updated v =>
      obtain ⟨a, e, h3⟩ := bind_ok h3
      dsimp only [Tree.finishInsertD]
      rw [Traced.kinds_lift e, Traced.kinds_call]; rfl
    | split k rc =>
      obtain ⟨a, e1, h3⟩ := bind_ok h3
      obtain ⟨b, e2, h3⟩ := bind_ok h3
      obtain ⟨n, e3, h3⟩ := bind_ok h3
      dsimp only [Tree.finishInsertD]
      rw [Traced.kinds_lift e1, Traced.kinds_lift e2, Traced.kinds_lift e3, Traced.kinds_call]; rfl
  have hmap : (Traced.mapMem (fun s => ({ t with store := s } : Tree K V A))
      (descendInsertD o t.store t.root k v)).kinds = (descendInsertD o t.store t.root k v).kinds := by
    simp [Traced.kinds, Traced.mapMem]
  unfold Tree.insertD
  rw [Traced.kinds_bind (a := (s2, r2)) (by rw [Traced.result_mapMem]; exact hdesc.1), hmap, hdesc.2]
  dsimp only
  rw [hfin, List.append_assoc, List.replicate_succ']

end Bpt
