import Verif.Model.CloneCrash
import Verif.Proofs.RawHistory

/-!
# What `clone` has built at each call of user code
-/

namespace Bpt
namespace Raw
variable {K V A : Type}

/-! ## The program -/

namespace Steps
variable {ε α β : Type}

theorem bind_result (x : Steps ε α) (f : α → Steps ε β) :
    (x >>= f).result = x.result >>= fun a => (f a).result := by
  have : (x >>= f).result = (match x.result with
    | .ok a => (⟨x.trace ++ (f a).trace, (f a).result⟩ : Steps ε β)
    | .error e => ⟨x.trace, .error e⟩).result := rfl
  rw [this]
  cases x.result <;> rfl

theorem trace_bind_ok {x : Steps ε α} {f : α → Steps ε β} {a : α} (h : x.result = .ok a) :
    (x >>= f).trace = x.trace ++ (f a).trace := by
  have : (x >>= f).trace = (match x.result with
    | .ok a => (⟨x.trace ++ (f a).trace, (f a).result⟩ : Steps ε β)
    | .error e => ⟨x.trace, .error e⟩).trace := rfl
  rw [this, h]

theorem pure_result (a : α) : (pure a : Steps ε α).result = .ok a := rfl
theorem step_result (e : ε) : (step e).result = .ok () := rfl
theorem lift_result (x : Res α) : (liftM x : Steps ε α).result = x := rfl

end Steps

theorem cloneSlotsT_result {ε α : Type} (e : α → Slots α → ε) (a : Slots α) (is : List Nat) (b : Slots α) :
    (cloneSlotsT e a is b).result = is.foldlM (fun (b : Slots α) i => do
      let x ← a.read i
      b.write i x) b := by
  induction is generalizing b with
  | nil => rfl
  | cons i is ih =>
    rw [cloneSlotsT, Steps.bind_result, List.foldlM_cons, Steps.lift_result]
    simp only [Steps.bind_result, Steps.step_result, Steps.lift_result, ih, bind_assoc]
    rfl

theorem innerCloneT_result (w : Clones K V A) (n : InnerS K A) : (n.cloneT w).result = n.clone := by
  unfold InnerS.cloneT InnerS.clone Slots.clonePrefix
  simp only [Steps.bind_result, cloneSlotsT_result]
  rfl

theorem leafCloneT_result (w : Clones K V A) (n : LeafS K V) : (n.cloneT w).result = n.clone := by
  unfold LeafS.cloneT LeafS.clone Slots.clonePrefix
  simp only [Steps.bind_result, cloneSlotsT_result]
  rfl

theorem cloneInnersT_result (w : Clones K V A) (os : List (Option (InnerS K A))) :
    (cloneInnersT w os).result = do
      let l ← os.mapM cloneInner
      return w.inners ++ l := by
  induction os generalizing w with
  | nil => simp [cloneInnersT, Steps.pure_result]
  | cons o os ih =>
    cases o with
    | none =>
      rw [cloneInnersT, ih, List.mapM_cons]
      simp only [cloneInner, bind_assoc, pure_bind, List.append_assoc]
      rfl
    | some n =>
      rw [cloneInnersT, Steps.bind_result, List.mapM_cons, innerCloneT_result]
      simp only [cloneInner, bind_assoc, pure_bind, ih, List.append_assoc]
      rfl

theorem cloneLeavesT_result (w : Clones K V A) (os : List (Option (LeafS K V))) :
    (cloneLeavesT w os).result = do
      let l ← os.mapM cloneLeaf
      return w.leaves ++ l := by
  induction os generalizing w with
  | nil => simp [cloneLeavesT, Steps.pure_result]
  | cons o os ih =>
    cases o with
    | none =>
      rw [cloneLeavesT, ih, List.mapM_cons]
      simp only [cloneLeaf, bind_assoc, pure_bind, List.append_assoc]
      rfl
    | some n =>
      rw [cloneLeavesT, Steps.bind_result, List.mapM_cons, leafCloneT_result]
      simp only [cloneLeaf, bind_assoc, pure_bind, ih, List.append_assoc]
      rfl

theorem cloneT_result (t : Tree K V A) : t.cloneT.result = t.clone := by
  unfold Tree.cloneT Tree.clone Store.cloneT Store.clone
  simp only [Steps.bind_result, Steps.step_result, Steps.pure_result, cloneInnersT_result,
    cloneLeavesT_result, bind_assoc, pure_bind, ok_bind, List.nil_append]
  rfl

/-! ## What has been cloned -/

def innerOwn : Option (InnerS K A) → List (Cloned K V A)
  | some n => n.ks.present.map .key ++ n.as.present.map .aug
  | none => []

def leafOwn : Option (LeafS K V) → List (Cloned K V A)
  | some n => n.ks.present.map .key ++ n.vs.present.map .value
  | none => []

def innerKeys : Option (InnerS K A) → List K
  | some n => n.ks.present
  | none => []

def innerAugs : Option (InnerS K A) → List A
  | some n => n.as.present
  | none => []

/-- Everything that `w` holds, in the order in which it was cloned. -/
def Clones.own (w : Clones K V A) : List (Cloned K V A) :=
  w.rootAug.map .aug ++
  w.inners.flatMap innerOwn ++ w.leaves.flatMap leafOwn ++
  w.keys.present.map .key ++ w.augs.present.map .aug ++ w.vals.present.map .value

/-- The inner nodes in `w` can be dropped. -/
def Clones.Good (w : Clones K V A) : Prop :=
  ∀ n, some n ∈ w.inners → n.drop = .ok (n.ks.present, n.as.present)

/-- At every call `w` holds what has been cloned before. -/
structure Tally {α : Type} (x : Steps (Cloned K V A × Clones K V A) α) (n : List (Cloned K V A)) (r : α)
    (n' : List (Cloned K V A)) : Prop where
  here : ∀ pre c w post, x.trace = pre ++ (c, w) :: post → w.Good ∧ w.own = n ++ pre.map (·.1)
  ok : x.result = .ok r
  done : n' = n ++ x.trace.map (·.1)

theorem Tally.bind {α β : Type} {x : Steps (Cloned K V A × Clones K V A) α}
    {f : α → Steps (Cloned K V A × Clones K V A) β} {n n' n'' : List (Cloned K V A)} {r : α} {r' : β}
    (h : Tally x n r n') (h' : Tally (f r) n' r' n'') : Tally (x >>= f) n r' n'' := by
  have ht := Steps.trace_bind_ok (f := f) h.ok
  refine ⟨?_, by rw [Steps.bind_result, h.ok]; exact h'.ok, by
    rw [ht, h'.done, h.done, List.map_append, List.append_assoc]⟩
  intro pre c w post e
  rw [ht] at e
  rcases List.append_eq_append_iff.1 e with ⟨q, e1, e2⟩ | ⟨q, e1, e2⟩
  · have := h'.here q c w post e2
    rw [e1, List.map_append, ← List.append_assoc, ← h.done]
    exact this
  · cases q with
    | nil =>
      have := h'.here [] c w post (by simpa using e2.symm)
      rw [List.append_nil] at e1
      rw [← e1, ← h.done]
      simpa using this
    | cons y q =>
      rw [List.cons_append, List.cons.injEq] at e2
      obtain ⟨rfl, e2⟩ := e2
      exact h.here pre c w q e1

theorem Tally.pure {α : Type} {a : α} {n n' : List (Cloned K V A)} (h : n' = n) :
    Tally (Pure.pure a : Steps (Cloned K V A × Clones K V A) α) n a n' := by
  refine ⟨?_, rfl, by rw [h]; exact (List.append_nil _).symm⟩
  intro pre c w post e
  have : ([] : List (Cloned K V A × Clones K V A)) = pre ++ (c, w) :: post := e
  simp at this

theorem Tally.lift {α : Type} {x : Res α} {a : α} {n : List (Cloned K V A)} (h : x = .ok a) :
    Tally (liftM x : Steps (Cloned K V A × Clones K V A) α) n a n := by
  refine ⟨?_, h, (List.append_nil _).symm⟩
  intro pre c w post e
  have : ([] : List (Cloned K V A × Clones K V A)) = pre ++ (c, w) :: post := e
  simp at this

theorem Tally.step {c : Cloned K V A} {w : Clones K V A} {n : List (Cloned K V A)} (hg : w.Good)
    (h : w.own = n) : Tally (Steps.step (c, w)) n () (n ++ [c]) := by
  refine ⟨?_, rfl, rfl⟩
  intro pre c' w' post e
  have e' : [(c, w)] = pre ++ (c', w') :: post := e
  cases pre with
  | nil =>
    rw [List.nil_append, List.cons.injEq] at e'
    obtain ⟨e1, -⟩ := e'
    cases e1
    exact ⟨hg, by rw [h]; exact (List.append_nil _).symm⟩
  | cons y pre => simp at e'

open Slots in
theorem present_pad {α : Type} (n : Nat) (l : List α) : (pad n l).present = l := by
  unfold Slots.present pad uninit
  rw [List.filterMap_append, List.filterMap_map]
  have : ∀ m, (List.replicate m (none : Option α)).filterMap id = [] := by
    intro m; induction m with
    | zero => rfl
    | succ m ih => rw [List.replicate_succ, List.filterMap_cons]; exact ih
  rw [this, List.append_nil]
  simp

open Slots in
theorem cloneSlotsT_tally {α : Type} {e : α → Slots α → Cloned K V A × Clones K V A}
    {c : α → Cloned K V A} {cap cap' : Nat} {n : List (Cloned K V A)}
    (he : ∀ x b, (e x b).1 = c x)
    (hw : ∀ x l, (e x (pad cap l)).2.Good ∧ (e x (pad cap l)).2.own = n ++ l.map c)
    (todo done : List α) (hl : done.length + todo.length ≤ cap) :
    Tally (cloneSlotsT e (pad cap' (done ++ todo)) (List.range' done.length todo.length) (pad cap done))
      (n ++ done.map c) (pad cap (done ++ todo)) (n ++ (done ++ todo).map c) := by
  induction todo generalizing done with
  | nil => rw [List.append_nil]; exact .pure rfl
  | cons x todo ih =>
    rw [List.length_cons, List.range'_succ, cloneSlotsT]
    have h1 : (pad cap' (done ++ x :: todo)).read done.length = .ok x := by
      unfold Slots.read pad
      rw [List.getElem?_append_left (by simp), List.getElem?_map,
        List.getElem?_append_right (Nat.le_refl _)]
      simp
    have h2 : (pad cap done).write done.length x = .ok (pad cap (done ++ [x])) := by
      rw [List.length_cons] at hl
      unfold Slots.write
      rw [length_pad (by omega), if_pos (by omega)]
      congr 1
      unfold pad uninit
      rw [List.set_append_right _ _ (by simp)]
      rw [List.length_map, Nat.sub_self, List.length_append, List.length_singleton,
        show cap - done.length = (cap - (done.length + 1)) + 1 by omega, List.replicate_succ,
        List.set_cons_zero, List.map_append, List.append_assoc]
      rfl
    refine Tally.bind (.lift h1) ?_
    refine Tally.bind (r := ()) (n' := n ++ done.map c ++ [c x]) ?_ ?_
    · have := Tally.step (c := (e x (pad cap done)).1) (hw x done).1 (hw x done).2
      rw [he] at this
      have h3 : e x (pad cap done) = (c x, (e x (pad cap done)).2) := by rw [← he x (pad cap done)]
      rw [h3]
      exact this
    · refine Tally.bind (.lift h2) ?_
      have := ih (done ++ [x]) (by rw [List.length_append]; simp at hl ⊢; omega)
      simpa using this

open Slots in
theorem cloneSlotsT_all {α : Type} {e : α → Slots α → Cloned K V A × Clones K V A}
    {c : α → Cloned K V A} {cap cap' : Nat} {n : List (Cloned K V A)}
    (he : ∀ x b, (e x b).1 = c x)
    (hw : ∀ x l, (e x (pad cap l)).2.Good ∧ (e x (pad cap l)).2.own = n ++ l.map c)
    (xs : List α) (hl : xs.length ≤ cap) :
    Tally (cloneSlotsT e (pad cap' xs) (List.range xs.length) (uninit cap)) n (pad cap xs)
      (n ++ xs.map c) := by
  have := cloneSlotsT_tally (cap' := cap') he hw xs [] (by simpa using hl)
  rw [List.map_nil, List.append_nil, List.nil_append, List.length_nil, ← List.range_eq_range'] at this
  exact this

section
variable {w : Clones K V A}

theorem innerCloneT_tally (hw : w.Good) (hk : w.keys = []) (ha : w.augs = []) (hv : w.vals = [])
    (hl : w.leaves = []) {m : Inner K A} {n : InnerS K A} (h : InnerRep m n) :
    ∃ n', InnerRep m n' ∧ Tally (n.cloneT w) w.own n'
      (w.own ++ m.keys.map .key ++ m.augs.map .aug) := by
  have hh := h.holds
  refine ⟨{ n with ks := Slots.pad 64 m.keys, as := Slots.pad 65 m.augs },
    ⟨⟨hh.size, hh.cap, hh.clen, hh.alen, rfl, hh.hcs, rfl⟩⟩, ?_⟩
  have e0 : ∀ α : Type, Slots.present ([] : Slots α) = [] := fun _ => rfl
  unfold InnerS.cloneT
  rw [hh.size, hh.hks, hh.has]
  refine Tally.bind (r := Slots.pad 64 m.keys) (n' := w.own ++ m.keys.map .key)
    (cloneSlotsT_all (e := fun x b => (.key x, { w with keys := b })) (c := .key) (fun _ _ => rfl)
      (fun x l => ⟨hw, ?_⟩) _ hh.cap)
    (Tally.bind (r := Slots.pad 65 m.augs) (n' := w.own ++ m.keys.map .key ++ m.augs.map .aug) ?_ (.pure rfl))
  · simp only [Clones.own, hk, ha, hv, hl, e0, present_pad, List.map_nil, List.append_nil]
  · rw [← hh.alen]
    refine cloneSlotsT_all (e := fun x b => (.aug x, { w with keys := Slots.pad 64 m.keys, augs := b }))
      (c := .aug) (fun _ _ => rfl) (fun x l => ⟨hw, ?_⟩) _ (by
      have := hh.alen; have := hh.cap; show _ ≤ 65; omega)
    simp only [Clones.own, hk, ha, hv, hl, e0, present_pad, List.map_nil, List.append_nil]

theorem leafCloneT_tally (hw : w.Good) (hk : w.keys = []) (ha : w.augs = []) (hv : w.vals = [])
    {m : Leaf K V} {n : LeafS K V} (h : LeafRep m n) :
    ∃ n', LeafRep m n' ∧ Tally (n.cloneT w) w.own n'
      (w.own ++ (m.data.map (·.1)).map .key ++ (m.data.map (·.2)).map .value) := by
  have hh := h.holds
  refine ⟨{ n with ks := Slots.pad 64 (m.data.map (·.1)), vs := Slots.pad 64 (m.data.map (·.2)) },
    ⟨⟨hh.size, hh.cap, rfl, rfl⟩, h.prev, h.next⟩, ?_⟩
  have e0 : ∀ α : Type, Slots.present ([] : Slots α) = [] := fun _ => rfl
  have l1 : n.size = (m.data.map (·.1)).length := by rw [hh.size, List.length_map]
  have l2 : n.size = (m.data.map (·.2)).length := by rw [hh.size, List.length_map]
  have hc := hh.cap
  unfold LeafS.cloneT
  rw [hh.ks, hh.vs]
  refine Tally.bind (r := Slots.pad 64 (m.data.map (·.1))) (n' := w.own ++ (m.data.map (·.1)).map .key) ?_
    (Tally.bind (r := Slots.pad 64 (m.data.map (·.2)))
      (n' := w.own ++ (m.data.map (·.1)).map .key ++ (m.data.map (·.2)).map .value) ?_ (.pure rfl))
  · rw [l1]
    refine cloneSlotsT_all (e := fun x b => (.key x, { w with keys := b })) (c := .key) (fun _ _ => rfl) (fun x l => ⟨hw, ?_⟩) _ (by simpa using hc)
    simp only [Clones.own, hk, ha, hv, e0, present_pad, List.map_nil, List.append_nil]
  · rw [l2]
    refine cloneSlotsT_all
      (e := fun x b => (.value x, { w with keys := Slots.pad 64 (m.data.map (·.1)), vals := b }))
      (c := .value) (fun _ _ => rfl) (fun x l => ⟨hw, ?_⟩) _ (by simpa using hc)
    simp only [Clones.own, hk, ha, hv, e0, present_pad, List.map_nil, List.append_nil]

def innerCloned : Option (Inner K A) → List (Cloned K V A)
  | some m => m.keys.map .key ++ m.augs.map .aug
  | none => []

def leafCloned : Option (Leaf K V) → List (Cloned K V A)
  | some m => (m.data.map (·.1)).map .key ++ (m.data.map (·.2)).map .value
  | none => []

/-- The clones made of the inner nodes of a store. -/
def innerClones (l : List (Option (Inner K A))) : List (Cloned K V A) := l.flatMap innerCloned

/-- The clones made of the leaves of a store. -/
def leafClones (l : List (Option (Leaf K V))) : List (Cloned K V A) := l.flatMap leafCloned

theorem drop_rep {m : Inner K A} {n : InnerS K A} (h : InnerRep m n) :
    n.drop = .ok (n.ks.present, n.as.present) := by
  rw [InnerS.C36_inner_drop_partial h.holds, h.holds.hks, h.holds.has, present_pad, present_pad]

theorem cloneInnersT_tally {ms : List (Option (Inner K A))} {ns : List (Option (InnerS K A))}
    (h : List.Forall₂ (Option.Rel InnerRep) ms ns) (hw : w.Good) (hk : w.keys = []) (ha : w.augs = [])
    (hv : w.vals = []) (hl : w.leaves = []) :
    ∃ r, ({ w with inners := r } : Clones K V A).Good ∧
      Tally (cloneInnersT w ns) w.own r (w.own ++ innerClones ms) ∧
      ({ w with inners := r } : Clones K V A).own = w.own ++ innerClones ms := by
  induction h generalizing w with
  | nil => exact ⟨w.inners, hw, .pure (by simp [innerClones]), by simp [innerClones]⟩
  | @cons o o' ms ns ho _ ih =>
    cases ho with
    | none =>
      rw [cloneInnersT]
      obtain ⟨r, g, t, e⟩ := ih (w := { w with inners := w.inners ++ [none] })
        (fun n hn => hw n (by simpa using hn)) hk ha hv hl
      have e2 : ({ w with inners := w.inners ++ [none] } : Clones K V A).own = w.own := by
        simp [Clones.own, innerOwn, leafOwn]
      rw [e2] at t e
      exact ⟨r, g, t, e⟩
    | @some m n hr =>
      rw [cloneInnersT]
      obtain ⟨n', hn', t⟩ := innerCloneT_tally hw hk ha hv hl hr
      have e0 : ∀ α : Type, Slots.present ([] : Slots α) = [] := fun _ => rfl
      have e2 : ({ w with inners := w.inners ++ [Option.some n'] } : Clones K V A).own =
          w.own ++ m.keys.map .key ++ m.augs.map .aug := by
        simp only [Clones.own, innerOwn, hk, ha, hv, hl, hn'.holds.hks, hn'.holds.has, present_pad, e0, List.map_nil,
          List.append_nil, List.flatMap_append, List.flatMap_cons, List.flatMap_nil, List.append_assoc]
      obtain ⟨r, g, t', e⟩ := ih (w := { w with inners := w.inners ++ [Option.some n'] })
        (fun x hx => by
          rcases List.mem_append.1 hx with hx | hx
          · exact hw x hx
          · simp at hx; subst hx; exact drop_rep hn') hk ha hv hl
      have e3 : w.own ++ m.keys.map .key ++ m.augs.map .aug ++ innerClones ms =
          w.own ++ innerClones (Option.some m :: ms) := by
        simp only [innerClones, innerCloned, List.flatMap_cons, List.append_assoc]
      rw [e2, e3] at t' e
      exact ⟨r, g, Tally.bind (f := fun n' => cloneInnersT { w with inners := w.inners ++ [Option.some n'] } ns) t t', e⟩

theorem cloneLeavesT_tally {ms : List (Option (Leaf K V))} {ns : List (Option (LeafS K V))}
    (h : List.Forall₂ (Option.Rel LeafRep) ms ns) (hw : w.Good) (hk : w.keys = []) (ha : w.augs = [])
    (hv : w.vals = []) :
    ∃ r, Tally (cloneLeavesT w ns) w.own r (w.own ++ leafClones ms) := by
  induction h generalizing w with
  | nil => exact ⟨w.leaves, .pure (by simp [leafClones])⟩
  | @cons o o' ms ns ho _ ih =>
    cases ho with
    | none =>
      rw [cloneLeavesT]
      obtain ⟨r, t⟩ := ih (w := { w with leaves := w.leaves ++ [none] }) hw hk ha hv
      have e2 : ({ w with leaves := w.leaves ++ [none] } : Clones K V A).own = w.own := by
        simp [Clones.own, innerOwn, leafOwn]
      rw [e2] at t
      exact ⟨r, t⟩
    | @some m n hr =>
      rw [cloneLeavesT]
      obtain ⟨n', hn', t⟩ := leafCloneT_tally hw hk ha hv hr
      have e0 : ∀ α : Type, Slots.present ([] : Slots α) = [] := fun _ => rfl
      have e2 : ({ w with leaves := w.leaves ++ [Option.some n'] } : Clones K V A).own =
          w.own ++ (m.data.map (·.1)).map .key ++ (m.data.map (·.2)).map .value := by
        simp only [Clones.own, leafOwn, hk, ha, hv, hn'.holds.ks, hn'.holds.vs, present_pad, e0, List.map_nil,
          List.append_nil, List.flatMap_append, List.flatMap_cons, List.flatMap_nil, List.append_assoc]
      obtain ⟨r, t'⟩ := ih (w := { w with leaves := w.leaves ++ [Option.some n'] }) hw hk ha hv
      have e3 : w.own ++ (m.data.map (·.1)).map .key ++ (m.data.map (·.2)).map .value ++ leafClones ms =
          w.own ++ leafClones (Option.some m :: ms) := by
        simp only [leafClones, leafCloned, List.flatMap_cons, List.append_assoc]
      rw [e2, e3] at t'
      exact ⟨r, Tally.bind (f := fun n' => cloneLeavesT { w with leaves := w.leaves ++ [Option.some n'] } ns) t t'⟩

end

theorem cloneT_tally {t : Bpt.Tree K V A} {u : Tree K V A} (h : TreeRep t u) :
    ∃ u', Tally u.cloneT [] u'
      (.aug t.rootAug :: (innerClones t.store.inners ++ leafClones t.store.leaves)) := by
  have g0 : ({} : Clones K V A).Good := fun n hn => by cases hn
  have g1 : ({ rootAug := [u.rootAug] } : Clones K V A).Good := fun n hn => by cases hn
  obtain ⟨is, g, t1, e1⟩ := cloneInnersT_tally (w := { rootAug := [u.rootAug] }) h.store.inners g1 rfl rfl rfl rfl
  obtain ⟨ls, t2⟩ := cloneLeavesT_tally (w := { rootAug := [u.rootAug], inners := is }) h.store.leaves g rfl rfl rfl
  have e2 : ({ rootAug := [u.rootAug], inners := is } : Clones K V A).own =
    ({ rootAug := [u.rootAug] } : Clones K V A).own ++ innerClones t.store.inners := e1
  have e3 : ({ rootAug := [u.rootAug] } : Clones K V A).own = [.aug u.rootAug] := rfl
  rw [e2, e3] at t2
  rw [e3] at t1
  unfold Tree.cloneT Store.cloneT
  refine ⟨_, Tally.bind (.step g0 rfl) (Tally.bind (Tally.bind t1 (Tally.bind t2 (.pure rfl))) (.pure ?_))⟩
  rw [h.rootAug]
  rfl

/-! ## What unwinding drops -/

theorem unwind_good {w : Clones K V A} (h : w.Good) :
    w.unwind = .ok
      (w.inners.flatMap innerKeys, w.rootAug ++ w.inners.flatMap innerAugs) := by
  have key : ∀ l : List (Option (InnerS K A)), (∀ n, some n ∈ l → n.drop = .ok (n.ks.present, n.as.present)) →
      l.mapM dropSlot = (.ok (l.map (fun o => (innerKeys o, innerAugs o))) : Res (List (List K × List A))) := by
    intro l hl
    induction l with
    | nil => rfl
    | cons o l ih =>
      rw [List.mapM_cons, ih (fun n hn => hl n (List.mem_cons_of_mem _ hn))]
      cases o with
      | none => rfl
      | some n => simp only [dropSlot, hl n List.mem_cons_self]; rfl
  unfold Clones.unwind
  rw [key _ h, ok_bind]
  simp only [List.flatMap_map, pure_ok]

/-! ## What is in the leaves -/

theorem flatMap_range_filter {β : Type} (F : Nat → List β) (ids : List Nat) (ns : List Nat)
    (h : ∀ i ∈ ns, i ∉ ids → F i = []) : ns.flatMap F = (ns.filter (· ∈ ids)).flatMap F := by
  induction ns with
  | nil => rfl
  | cons n ns ih =>
    rw [List.flatMap_cons, ih (fun i hi => h i (List.mem_cons_of_mem _ hi))]
    by_cases hn : n ∈ ids
    · rw [List.filter_cons_of_pos (by simpa using hn), List.flatMap_cons]
    · rw [List.filter_cons_of_neg (by simpa using hn), h n List.mem_cons_self hn, List.nil_append]

theorem flatMap_ids {β : Type} (F : Nat → List β) (ids : List Nat) (hn : ids.Nodup) (n : Nat)
    (h1 : ∀ i ∈ ids, i < n) (h2 : ∀ i, i ∉ ids → F i = []) :
    ((List.range n).flatMap F).Perm (ids.flatMap F) := by
  rw [flatMap_range_filter F ids _ (fun i _ hi => h2 i hi)]
  refine List.Perm.flatMap_right F ?_
  rw [List.perm_ext_iff_of_nodup (List.nodup_range.filter _) hn]
  intro i
  rw [List.mem_filter, List.mem_range]
  constructor
  · intro h; simpa using h.2
  · intro h; exact ⟨h1 i h, by simpa using h⟩

/-- The items of a leaf. -/
def leafItems : Option (Leaf K V) → List (K × V)
  | some l => l.data
  | none => []

/-- The items of all leaves of the store are the content of the tree. -/
theorem items_perm [LinearOrder K] [Augmentation K V A] {t : Bpt.Tree K V A} (h : Bpt.ReachableBulk t)
    {l : List (K × V)} (hl : Bpt.Shows t l) :
    (t.store.leaves.flatMap leafItems).Perm l := by
  obtain ⟨_, ids, hn, hlive, _, _, _, leaves, hlv, hlen, hflat⟩ := C37_leaves h hl
  have e1 : t.store.leaves.flatMap leafItems
      = (List.range t.store.leaves.length).flatMap (fun i => match t.store.leaves[i]? with
        | some (some l) => l.data | _ => []) := by
    rw [List.flatMap_def, List.flatMap_def]
    congr 1
    apply List.ext_getElem
    · simp
    · intro i h1 h2
      simp only [List.getElem_map, List.getElem_range]
      rw [List.length_map] at h1
      rw [List.getElem?_eq_getElem h1]
      cases t.store.leaves[i] <;> rfl
  rw [e1]
  refine (flatMap_ids _ ids hn _ ?_ ?_).trans ?_
  · intro i hi
    obtain ⟨lf, h1⟩ := (hlive i).2 hi
    exact (List.getElem?_eq_some_iff.1 h1).1
  · intro i hi
    split
    · rename_i lf h1
      exact absurd ((hlive i).1 ⟨lf, h1⟩) hi
    · rfl
  · rw [← hflat]
    refine List.Perm.of_eq ?_
    rw [List.flatMap_def, List.flatMap_def]
    congr 1
    apply List.ext_getElem
    · simp [hlen]
    · intro j h1 h2
      simp only [List.getElem_map]
      rw [List.length_map] at h1 h2
      obtain ⟨lf, h3, h4, _⟩ := hlv j ids[j] (List.getElem?_eq_getElem h1)
      rw [List.getElem?_eq_getElem h2] at h3
      cases h3
      rw [h4]

end Raw
end Bpt
