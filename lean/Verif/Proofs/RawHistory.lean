import Verif.Proofs.RawInto
import Verif.Props.Safety
import Mathlib.Data.List.Nodup
import Mathlib.Data.List.Perm.Basic

/-!
# Histories on raw node arrays: every reachable tree represents a reachable list-level tree
-/

namespace Bpt
namespace Raw

variable {K V A : Type} [LinearOrder K]

section
variable {t : Bpt.Tree K V A} {u : Tree K V A}

theorem call_sim [Augmentation K V A] (h : TreeRep t u) (c : Call K V) :
    Sim (PairR (· = ·) TreeRep) (t.call c) (u.call c) := by
  have keep : ∀ {β : Type} {x y : Res β} (f : β → Answer K V), Sim (· = ·) x y →
      Sim (PairR (· = ·) TreeRep) (x >>= fun o => Pure.pure (f o, t))
        (y >>= fun o => Pure.pure (f o, u)) := by
    intro β x y f hxy
    exact Sim.bind hxy (by rintro a _ rfl; exact Sim.pure ⟨rfl, h⟩)
  have upd : ∀ {β : Type} {x : Res (β × Bpt.Tree K V A)} {y : Res (β × Tree K V A)}
      (f : β → Answer K V), Sim (PairR (· = ·) TreeRep) x y →
      Sim (PairR (· = ·) TreeRep) (x >>= fun o => Pure.pure (f o.1, o.2))
        (y >>= fun o => Pure.pure (f o.1, o.2)) := by
    intro β x y f hxy
    refine Sim.bind hxy ?_
    rintro ⟨a, t⟩ ⟨_, u⟩ ⟨rfl, h⟩
    exact Sim.pure ⟨rfl, h⟩
  cases c with
  | insert k v => exact upd _ (insert_sim h k v)
  | remove k => exact upd _ (remove_sim h k)
  | get k => exact upd _ (get_sim h k)
  | getMut k f => exact upd _ (getMut_sim h k f)
  | first => exact keep _ (first_sim h)
  | last => exact keep _ (last_sim h)
  | len => exact Sim.pure ⟨by show Answer.number t.len = .number u.len; rw [h.len], h⟩
  | isEmpty =>
    exact Sim.pure ⟨by
      show Answer.flag t.isEmpty = .flag u.isEmpty
      unfold Bpt.Tree.isEmpty Tree.isEmpty
      rw [h.len], h⟩
  | iter n =>
    refine Sim.bind (iter_sim h) (fun a b hab => ?_)
    exact keep _ (iterRunCalls_sim h _ hab)
  | iterBack n =>
    refine Sim.bind (iter_sim h) (fun a b hab => ?_)
    exact keep _ (iterRunCalls_sim h _ hab)
  | cursorNext c => exact keep _ (cursorNextWithValue_sim h c)
  | cursorPrev c => exact keep _ (cursorPrevWithValue_sim h c)
  | cursorValue c => exact keep _ (cursorValue_sim h c)
  | getCursor k =>
    refine Sim.bind (getCursor_sim h k) ?_
    rintro a _ rfl
    match a with
    | some (c, v) => exact Sim.pure ⟨rfl, h⟩
    | none => exact Sim.pure ⟨rfl, h⟩
  | clear => exact Sim.pure ⟨rfl, clear_sim (t := t) (u := u)⟩

theorem run_sim [Augmentation K V A] : ∀ (cs : List (Call K V)) {t : Bpt.Tree K V A} {u : Tree K V A}
    (_ : TreeRep t u), Sim (PairR (· = ·) TreeRep) (t.run cs) (u.run cs) := by
  intro cs
  induction cs with
  | nil => intro t u h; exact Sim.pure ⟨rfl, h⟩
  | cons c cs ih =>
    intro t u h
    unfold Bpt.Tree.run Tree.run
    refine Sim.bind (call_sim h c) ?_
    rintro ⟨a, t⟩ ⟨_, u⟩ ⟨rfl, h⟩
    refine Sim.bind (ih h) ?_
    rintro ⟨a, t⟩ ⟨_, u⟩ ⟨rfl, h⟩
    exact Sim.pure ⟨rfl, h⟩

/-- The same content is observed. -/
theorem shows_of_rep (h : TreeRep t u) {l : List (K × V)} (hs : Bpt.Shows t l) : Shows u l := by
  refine ⟨hs.1, fun k => ?_⟩
  obtain ⟨t', ht⟩ := hs.2 k
  obtain ⟨⟨_, u'⟩, hu, rfl, _⟩ := get_sim h k _ ht
  exact ⟨u', hu⟩

theorem shows_unique {l l' : List (K × V)} (h : Shows u l) (h' : Shows u l') : l = l' := by
  refine Spec.sorted_ext h.1 h'.1 (fun k => ?_)
  obtain ⟨t1, h1⟩ := h.2 k
  obtain ⟨t2, h2⟩ := h'.2 k
  rw [h1] at h2
  exact congrArg Prod.fst (Except.ok.inj h2)

end

variable [Augmentation K V A]

/-- Two runs with the same arguments, one of which is known to succeed. -/
theorem sim_step {α β : Type} {R : α → β → Prop} {x : Res α} {y : Res β} (h : Sim R x y) {a : α} {b : β}
    (ha : x = .ok a) (hb : y = .ok b) : R a b := by
  obtain ⟨b', h1, h2⟩ := h a ha
  rw [hb] at h1
  cases h1
  exact h2

theorem reachable_rep {u : Tree K V A} (h : Reachable u) : ∃ t, Bpt.ReachableEven t ∧ TreeRep t u := by
  have one : ∀ {t : Bpt.Tree K V A} {u u' : Tree K V A} {a} (c : Call K V), Bpt.ReachableEven t →
      TreeRep t u → u.len + 1 < 2 ^ 64 → u.call c = .ok (a, u') →
      ∃ t', Bpt.ReachableEven t' ∧ TreeRep t' u' := by
    intro t u u' a c hr h hl hc
    rw [h.len] at hl
    obtain ⟨a', t', h1, h2⟩ := (C12_no_failure hr).1 c hl
    exact ⟨t', h2, (sim_step (call_sim h c) h1 hc).2⟩
  have get : ∀ {t : Bpt.Tree K V A} {u u' : Tree K V A} {k o}, Bpt.ReachableEven t →
      TreeRep t u → u.get k = .ok (o, u') → ∃ t', Bpt.ReachableEven t' ∧ TreeRep t' u' := by
    intro t u u' k o hr h hc
    obtain ⟨l, hi⟩ := hr.inv
    obtain ⟨t', h1, _⟩ := hi.get k
    exact ⟨t', .get hr h1, (sim_step (get_sim h k) h1 hc).2⟩
  induction h with
  | new =>
    refine ⟨_, Bpt.Reachable.even (.start rfl ?_), TreeRep.new⟩
    show (0 : Nat) < _
    omega
  | @load u data hd he hb hl =>
    obtain ⟨t, H, g, h1, h2, _⟩ := bulkLoad_ok (A := A) (μ := 1) (by omega) data hd (.inr (he.noLone _))
    have h := sim_step (bulkLoad_sim data) h1 hb
    exact ⟨t, .start ⟨data, hd, he, h1⟩ (by rw [← h.len]; exact hl), h⟩
  | @insert u u' k v o _ hl hc ih =>
    obtain ⟨t, hr, h⟩ := ih
    exact one (.insert k v) hr h hl (by simp only [Tree.call, hc, ok_bind]; rfl)
  | @remove u u' k o _ hc ih =>
    obtain ⟨t, hr, h⟩ := ih
    obtain ⟨l, hi⟩ := hr.inv
    rcases hi.remove (by omega) k with ⟨t', h1, _⟩ | ⟨h1, _⟩
    · exact ⟨t', .remove hr h1, (sim_step (remove_sim h k) h1 hc).2⟩
    · omega
  | @get u u' k o _ hc ih =>
    obtain ⟨t, hr, h⟩ := ih
    exact get hr h hc
  | @getMut u u' k f o _ hc ih =>
    obtain ⟨t, hr, h⟩ := ih
    obtain ⟨l, hi⟩ := hr.inv
    obtain ⟨t', h1, _⟩ := hi.getMut k f
    exact ⟨t', .getMut trivial hr h1, (sim_step (getMut_sim h k f) h1 hc).2⟩
  | clear _ ih =>
    obtain ⟨t, hr, h⟩ := ih
    exact ⟨_, .clear hr, clear_sim (t := t)⟩
  | clone _ hc ih =>
    obtain ⟨t, hr, h⟩ := ih
    obtain ⟨u', h1, h2⟩ := clone_rep h
    rw [hc] at h1
    cases h1
    exact ⟨t, hr, h2⟩
  | @removeBy u u' Q _ q o hs _ hc ih =>
    obtain ⟨t, hr, h⟩ := ih
    obtain ⟨_, ⟨_, t', h1, h2⟩, _⟩ := (C12_no_failure hr).2.2.2.2.1 Q q hs
    exact ⟨t', h2, (sim_step (removeByAugmentation_sim h q) h1 hc).2⟩
  | @getMutBy u u' Q _ q f o hs _ hc ih =>
    obtain ⟨t, hr, h⟩ := ih
    obtain ⟨_, _, h3⟩ := (C12_no_failure hr).2.2.2.2.1 Q q hs
    obtain ⟨_, t', h1, h2⟩ := h3 f
    exact ⟨t', h2, (sim_step (getMutByAugmentation_sim h q f) h1 hc).2⟩

/-! ## The number of items in the leaves -/

omit [LinearOrder K] [Augmentation K V A] in
theorem sum_range_filter (f : Nat → Nat) (ids : List Nat) :
    ∀ (ns : List Nat), (∀ i ∈ ns, i ∉ ids → f i = 0) →
      (ns.map f).sum = ((ns.filter (· ∈ ids)).map f).sum := by
  intro ns
  induction ns with
  | nil => intro _; rfl
  | cons n ns ih =>
    intro h
    rw [List.map_cons, List.sum_cons, ih (fun i hi => h i (List.mem_cons_of_mem _ hi))]
    by_cases hn : n ∈ ids
    · rw [List.filter_cons_of_pos (by simpa using hn), List.map_cons, List.sum_cons]
    · rw [List.filter_cons_of_neg (by simpa using hn), h n List.mem_cons_self hn, Nat.zero_add]

omit [LinearOrder K] [Augmentation K V A] in
theorem sum_ids (f : Nat → Nat) (ids : List Nat) (hn : ids.Nodup) (n : Nat)
    (h1 : ∀ i ∈ ids, i < n) (h2 : ∀ i, i ∉ ids → f i = 0) :
    ((List.range n).map f).sum = (ids.map f).sum := by
  rw [sum_range_filter f ids _ (fun i _ hi => h2 i hi)]
  refine List.Perm.sum_nat (List.Perm.map f ?_)
  rw [List.perm_ext_iff_of_nodup (List.nodup_range.filter _) hn]
  intro i
  rw [List.mem_filter, List.mem_range]
  constructor
  · intro h; simpa using h.2
  · intro h; exact ⟨h1 i h, by simpa using h⟩

/-- All leaves of the store together hold as many items as the tree. -/
theorem items_sum {t : Bpt.Tree K V A} (h : Bpt.ReachableBulk t) {l : List (K × V)}
    (hl : Bpt.Shows t l) :
    (t.store.leaves.map (fun o => match o with | some l => l.data.length | none => 0)).sum
      = l.length := by
  obtain ⟨_, ids, hn, hlive, _, _, _, leaves, hlv, hlen, hflat⟩ := C37_leaves h hl
  have e1 : t.store.leaves.map (fun o => match o with | some l => l.data.length | none => 0)
      = (List.range t.store.leaves.length).map (fun i => match t.store.leaves[i]? with
        | some (some l) => l.data.length | _ => 0) := by
    apply List.ext_getElem
    · simp
    · intro i h1 h2
      simp only [List.getElem_map, List.getElem_range]
      rw [List.length_map] at h1
      rw [List.getElem?_eq_getElem h1]
      cases t.store.leaves[i] <;> rfl
  rw [e1, sum_ids _ ids hn _ ?_ ?_]
  · rw [← hflat, List.length_flatMap]
    congr 1
    apply List.ext_getElem
    · simp [hlen]
    · intro j h1 h2
      simp only [List.getElem_map]
      rw [List.length_map] at h1 h2
      obtain ⟨lf, h3, h4, _⟩ := hlv j ids[j] (List.getElem?_eq_getElem h1)
      rw [List.getElem?_eq_getElem h2] at h3
      cases h3
      rw [h4]
  · intro i hi
    obtain ⟨lf, h1⟩ := (hlive i).2 hi
    exact (List.getElem?_eq_some_iff.1 h1).1
  · intro i hi
    split
    · rename_i lf h1
      exact absurd ((hlive i).1 ⟨lf, h1⟩) hi
    · rfl

omit [LinearOrder K] [Augmentation K V A] in
/-- The owning iterator does not touch the inner nodes. -/
theorem nextAux_inners : ∀ (fuel : Nat) {b b' : IntoIter K V A} {o}
    (_ : IntoIter.nextAux fuel b = .ok (o, b')), b'.store.inners = b.store.inners := by
  intro fuel
  induction fuel with
  | zero => intro b b' o e; cases e
  | succ fuel ih =>
    intro b b' o e
    unfold IntoIter.nextAux at e
    split at e
    · cases e; rfl
    · cases hg : b.store.getLeaf b.pos.1 with
      | error _ => rw [hg] at e; cases e
      | ok l =>
        rw [hg, ok_bind] at e
        split at e
        · cases ht : l.takeData b.pos.2 with
          | error _ => rw [ht] at e; cases e
          | ok z => rw [ht, ok_bind] at e; cases e; rfl
        · split at e
          · rename_i p _
            exact ih (b := { b with pos := (p, 0) }) e
          · cases e

omit [LinearOrder K] [Augmentation K V A] in
theorem nextBackAux_inners : ∀ (fuel : Nat) {b b' : IntoIter K V A} {o}
    (_ : IntoIter.nextBackAux fuel b = .ok (o, b')), b'.store.inners = b.store.inners := by
  intro fuel
  induction fuel with
  | zero => intro b b' o e; cases e
  | succ fuel ih =>
    intro b b' o e
    unfold IntoIter.nextBackAux at e
    split at e
    · cases e; rfl
    · cases hg : b.store.getLeaf b.end_.1 with
      | error _ => rw [hg] at e; cases e
      | ok l =>
        rw [hg, ok_bind] at e
        split at e
        · cases ht : l.takeData (b.end_.2 - 1) with
          | error _ => rw [ht] at e; cases e
          | ok z => rw [ht, ok_bind] at e; cases e; rfl
        · split at e
          · rename_i p _
            cases hp : b.store.getLeaf p with
            | error _ => rw [hp] at e; cases e
            | ok pl =>
              rw [hp, ok_bind] at e
              exact ih (b := { b with end_ := (p, pl.size) }) e
          · cases e

omit [LinearOrder K] [Augmentation K V A] in
theorem runCalls_inners : ∀ (ds : List Dir) {b b' : IntoIter K V A} {as}
    (_ : b.runCalls ds = .ok (as, b')), b'.store.inners = b.store.inners := by
  intro ds
  induction ds with
  | nil => intro b b' as e; cases e; rfl
  | cons d ds ih =>
    intro b b' as e
    unfold IntoIter.runCalls at e
    cases h1 : b.call d with
    | error _ => rw [h1] at e; cases e
    | ok x =>
      obtain ⟨o, b1⟩ := x
      rw [h1, ok_bind] at e
      have hc1 : b1.store.inners = b.store.inners := by
        cases d
        · exact nextAux_inners _ h1
        · exact nextBackAux_inners _ h1
      dsimp only at e
      cases h2 : b1.runCalls ds with
      | error _ => rw [h2] at e; cases e
      | ok y =>
        obtain ⟨as', b2⟩ := y
        rw [h2, ok_bind] at e
        cases e
        exact (ih h2).trans hc1

omit [LinearOrder K] [Augmentation K V A] in
theorem dropAux_inners : ∀ (fuel : Nat) {b b' : IntoIter K V A} {r}
    (_ : IntoIter.dropAux fuel b = .ok (r, b')), b'.store.inners = b.store.inners := by
  intro fuel
  induction fuel with
  | zero => intro b b' r e; cases e
  | succ fuel ih =>
    intro b b' r e
    unfold IntoIter.dropAux at e
    cases h1 : b.next with
    | error _ => rw [h1] at e; cases e
    | ok x =>
      obtain ⟨o, b1⟩ := x
      rw [h1, ok_bind] at e
      dsimp only at e
      cases o with
      | none => cases e; exact nextAux_inners _ h1
      | some kv =>
        dsimp only at e
        cases h2 : IntoIter.dropAux fuel b1 with
        | error _ => rw [h2] at e; cases e
        | ok y =>
          rw [h2, ok_bind] at e
          cases e
          exact (ih h2).trans (nextAux_inners _ h1)

/-- A successful call leads from a reachable tree to a reachable tree. -/
theorem reach_call {u u' : Tree K V A} {a} {c : Call K V} (h : Reachable u) (hn : u.len + 1 < 2 ^ 64)
    (hc : u.call c = .ok (a, u')) : Reachable u' := by
  cases c with
  | insert k v =>
    cases hx : u.insert k v with
    | error _ => simp only [Tree.call, hx] at hc; cases hc
    | ok y =>
      simp only [Tree.call, hx, ok_bind] at hc
      cases hc
      exact .insert h (by omega) hx
  | remove k =>
    cases hx : u.remove k with
    | error _ => simp only [Tree.call, hx] at hc; cases hc
    | ok y => simp only [Tree.call, hx, ok_bind] at hc; cases hc; exact .remove h hx
  | get k =>
    cases hx : u.get k with
    | error _ => simp only [Tree.call, hx] at hc; cases hc
    | ok y => simp only [Tree.call, hx, ok_bind] at hc; cases hc; exact .get h hx
  | getMut k f =>
    cases hx : u.getMut k f with
    | error _ => simp only [Tree.call, hx] at hc; cases hc
    | ok y => simp only [Tree.call, hx, ok_bind] at hc; cases hc; exact .getMut h hx
  | clear => simp only [Tree.call] at hc; cases hc; exact .clear h
  | len => simp only [Tree.call] at hc; cases hc; exact h
  | isEmpty => simp only [Tree.call] at hc; cases hc; exact h
  | first =>
    cases hx : u.first with
    | error _ => simp only [Tree.call, hx] at hc; cases hc
    | ok y => simp only [Tree.call, hx, ok_bind] at hc; cases hc; exact h
  | last =>
    cases hx : u.last with
    | error _ => simp only [Tree.call, hx] at hc; cases hc
    | ok y => simp only [Tree.call, hx, ok_bind] at hc; cases hc; exact h
  | iter n =>
    cases hx : u.iter with
    | error _ => simp only [Tree.call, hx] at hc; cases hc
    | ok y =>
      cases hy : y.runCalls u (List.replicate n .front) with
      | error _ => simp only [Tree.call, hx, hy, ok_bind] at hc; cases hc
      | ok z => simp only [Tree.call, hx, hy, ok_bind] at hc; cases hc; exact h
  | iterBack n =>
    cases hx : u.iter with
    | error _ => simp only [Tree.call, hx] at hc; cases hc
    | ok y =>
      cases hy : y.runCalls u (List.replicate n .back) with
      | error _ => simp only [Tree.call, hx, hy, ok_bind] at hc; cases hc
      | ok z => simp only [Tree.call, hx, hy, ok_bind] at hc; cases hc; exact h
  | cursorNext c =>
    cases hx : cursorNextWithValue c u with
    | error _ => simp only [Tree.call, hx] at hc; cases hc
    | ok y => simp only [Tree.call, hx, ok_bind] at hc; cases hc; exact h
  | cursorPrev c =>
    cases hx : cursorPrevWithValue c u with
    | error _ => simp only [Tree.call, hx] at hc; cases hc
    | ok y => simp only [Tree.call, hx, ok_bind] at hc; cases hc; exact h
  | cursorValue c =>
    cases hx : cursorValue c u with
    | error _ => simp only [Tree.call, hx] at hc; cases hc
    | ok y => simp only [Tree.call, hx, ok_bind] at hc; cases hc; exact h
  | getCursor k =>
    cases hx : u.getCursor k with
    | error _ => simp only [Tree.call, hx] at hc; cases hc
    | ok y =>
      cases y with
      | none => simp only [Tree.call, hx, ok_bind] at hc; cases hc; exact h
      | some y => simp only [Tree.call, hx, ok_bind] at hc; cases hc; exact h

end Raw
end Bpt
