import Verif.MapHistory
import Verif.Props.OrderStatistics
import Verif.Props.BulkLoaded
import Verif.Props.Iterators

/-!
# The public map type: C50

`BPlusTreeMap<K, V, Count>` under any history of all its methods, and its iterators.
-/

namespace Bpt
open Spec
variable {K V A : Type} [LinearOrder K]

/-! ## The wrapped iterator -/

section
variable [Augmentation K V A]

omit [LinearOrder K] in
theorem MapIter.runCalls_eq (m : BMap K V A) (it : Iter K V) (ds : List Dir) :
    (BMap.MapIter.mk it).runCalls m ds = it.runCalls m.inner ds := by
  induction ds generalizing it with
  | nil => rfl
  | cons d ds ih =>
    have h : (BMap.MapIter.mk it).call m d = (do
        let (o, it) ← it.call m.inner d
        return (o, BMap.MapIter.mk it)) := by cases d <;> rfl
    rw [BMap.MapIter.runCalls, Iter.runCalls, h]
    cases it.call m.inner d with
    | error e => rfl
    | ok p =>
      simp only [ok_bind, pure_ok, BMap.MapIter.len, BMap.MapIter.sizeHint, if_true, ih]

end

/-! ## Preservation -/

/-- Steps of the API keep the augmentations in sync. -/
theorem InvA.step [Augmentation K V A] {μ : Nat} (hμ : μ ≤ 16) (hk : KeyOnly K V A)
    {t t' : Tree K V A} {l l' : List (K × V)} (h : InvA μ t l) (hr : Reach (· = t) True t')
    (hl : Inv μ t' l') : InvA μ t' l' := by
  obtain ⟨H, g, w, _, hlt, ha⟩ := h
  obtain ⟨H', g', w', hlt', ha'⟩ := reach_inv hμ (by rintro _ rfl _; exact ⟨H, g, w, ha⟩) hr
  have : Inv μ t' g'.toL := ⟨H', g', w', rfl, hlt'⟩
  exact ⟨H', g', w', hl.unique this.shows, hlt', ha' (fun _ => hk)⟩

theorem mapCall_length (l : List (K × V)) (c : MapCall K V) :
    (Spec.mapCall l c).2.length ≤ l.length + 1 := by
  cases c with
  | insert k v => exact call_length l (.insert k v)
  | remove k => exact call_length l (.remove k)
  | getMut k f => exact call_length l (.getMut k f)
  | nthMut i f => simp [Spec.mapCall]
  | removeNth i =>
    have := List.length_eraseIdx_le (l := l) (i := i)
    simp only [Spec.mapCall]; omega
  | _ => simp [Spec.mapCall]

theorem mapCall_ok {μ : Nat} (h0 : 0 < μ) (hμ : μ ≤ 16) {m : BMap K V Count} {l : List (K × V)}
    (h : InvA μ m.inner l) (hl : m.len + 1 < 2 ^ 64) (c : MapCall K V) :
    ∃ m', m.call c = .ok ((Spec.mapCall l c).1, m') ∧ InvA μ m'.inner (Spec.mapCall l c).2 := by
  have hi := h.inv
  have hst : Reach (· = m.inner) True m.inner := .start rfl hi.lt
  cases c with
  | insert k v =>
    obtain ⟨t', h1, h2, _⟩ := hi.insert hμ hl k v
    refine ⟨⟨t'⟩, ?_, h.step hμ Count.keyOnly (.insert hst hl h1) h2⟩
    simp only [BMap.call, BMap.insert, h1, ok_bind, pure_ok, Spec.mapCall]
  | remove k =>
    rcases hi.remove hμ k with ⟨t', h1, h2, _⟩ | ⟨h1, _⟩
    · refine ⟨⟨t'⟩, ?_, h.step hμ Count.keyOnly (.remove hst h1) h2⟩
      simp only [BMap.call, BMap.remove, h1, ok_bind, pure_ok, Spec.mapCall]
    · omega
  | get k =>
    obtain ⟨t', h1, h2, _⟩ := hi.get k
    refine ⟨⟨t'⟩, ?_, h.step hμ Count.keyOnly (.get hst h1) h2⟩
    simp only [BMap.call, BMap.get, h1, ok_bind, pure_ok, Spec.mapCall]
  | getMut k f =>
    obtain ⟨t', h1, h2, _⟩ := hi.getMut k f
    refine ⟨⟨t'⟩, ?_, h.step hμ Count.keyOnly (.getMut trivial hst h1) h2⟩
    simp only [BMap.call, BMap.getMut, h1, ok_bind, pure_ok, Spec.mapCall]
  | len => exact ⟨m, by simp only [BMap.call, BMap.len, hi.len, pure_ok, Spec.mapCall], h⟩
  | isEmpty =>
    refine ⟨m, ?_, h⟩
    simp only [BMap.call, BMap.isEmpty, BMap.len, hi.len, pure_ok, Spec.mapCall]
    cases l <;> rfl
  | iter n =>
    obtain ⟨L, r, e⟩ := hi.reads
    obtain ⟨it, h1, _, h2⟩ := iter_runCalls_ok r.base (List.replicate n .front)
    refine ⟨m, ?_, h⟩
    simp only [BMap.call, BMap.iter, h1, ok_bind, pure_ok, MapIter.runCalls_eq, h2, e, Spec.mapCall,
      borrowedSpec_front, Nat.zero_add]
  | iterBack n =>
    obtain ⟨L, r, e⟩ := hi.reads
    obtain ⟨it, h1, _, h2⟩ := iter_runCalls_ok r.base (List.replicate n .back)
    refine ⟨m, ?_, h⟩
    simp only [BMap.call, BMap.iter, h1, ok_bind, pure_ok, MapIter.runCalls_eq, h2, e, Spec.mapCall,
      borrowed_back]
  | count =>
    refine ⟨m, ?_, h⟩
    have : m.inner.rootAug.count = l.length := by
      rw [h.rootVal Count.weighted rfl]; simp
    simp only [BMap.call, BMap.rootAugmentation, pure_ok, Spec.mapCall, this]
  | nth i =>
    refine ⟨m, ?_, h⟩
    have := h.getBy Count.weighted Count.weightedSearch i
    rw [wfind_one_bind] at this
    simp only [BMap.call, BMap.getByAugmentation, this, ok_bind, pure_ok, Spec.mapCall]
  | nthMut i f =>
    obtain ⟨t', h1, h2, _⟩ := h.getMutBy Count.weighted Count.weightedSearch i f
    rw [wfind_one_bind] at h1
    have h2' : Inv μ t' (l.modify i (fun e => (e.1, f e.2))) := by
      rw [wfind_one] at h2
      by_cases hlt : i < l.length
      · rw [if_pos hlt] at h2; exact h2
      · rw [if_neg hlt] at h2
        rw [List.modify_eq_self (by omega)]; exact h2
    refine ⟨⟨t'⟩, ?_, h.step hμ Count.keyOnly
      (.getMutBy trivial hst h1) h2'⟩
    simp only [BMap.call, BMap.getMutByAugmentation, h1, ok_bind, pure_ok, Spec.mapCall]
  | removeNth i =>
    rcases h.removeBy hμ Count.weighted Count.weightedSearch i with ⟨t', h1, h2, _⟩ | ⟨h1, _⟩
    · rw [wfind_one_bind] at h1
      refine ⟨⟨t'⟩, ?_, ?_⟩
      · simp only [BMap.call, BMap.removeByAugmentation, h1, ok_bind, pure_ok, Spec.mapCall]
      · rw [wfind_one] at h2
        by_cases hlt : i < l.length
        · rw [if_pos hlt] at h2; exact h2
        · rw [if_neg hlt] at h2
          simp only [Spec.mapCall]
          rw [List.eraseIdx_of_length_le (by omega)]; exact h2
    · omega
  | rank k =>
    refine ⟨m, ?_, h⟩
    have : m.inner.rankByAugmentation k = .ok (
        if k ∈ l.map (·.1) then .ok (l.filter (fun e => e.1 < k)).length
        else .error (l.filter (fun e => e.1 < k)).length) := by
      obtain ⟨H, g, w, rfl, hlen, ha⟩ := h
      rw [count_rank_ok w ha.ok]
      have : (lookup k g.toL).isSome = true ↔ k ∈ g.toL.map (·.1) := by
        constructor
        · intro h
          obtain ⟨v, hv⟩ := Option.isSome_iff_exists.1 h
          exact List.mem_map_of_mem (f := (·.1)) (lookup_mem hv)
        · intro h
          obtain ⟨⟨k', v⟩, hv, rfl⟩ := List.mem_map.1 h
          rw [lookup_of_mem w.sorted hv]; rfl
      simp only [this]
    simp only [BMap.call, BMap.rankByAugmentation, this, ok_bind, pure_ok, Spec.mapCall]

theorem mapRun_ok {μ : Nat} (h0 : 0 < μ) (hμ : μ ≤ 16) {m : BMap K V Count} {l : List (K × V)}
    (h : InvA μ m.inner l) (cs : List (MapCall K V)) (hl : m.len + cs.length < 2 ^ 64) :
    ∃ m', m.run cs = .ok ((Spec.mapRun l cs).1, m') ∧ InvA μ m'.inner (Spec.mapRun l cs).2 := by
  induction cs generalizing m l with
  | nil => exact ⟨m, rfl, h⟩
  | cons c cs ih =>
    rw [List.length_cons] at hl
    obtain ⟨m1, h1, h2⟩ := mapCall_ok h0 hμ h (by omega) c
    have := mapCall_length l c
    obtain ⟨m2, h3, h4⟩ := ih h2 (by
      simp only [BMap.len] at hl ⊢
      rw [h2.inv.len]; rw [h.inv.len] at hl; omega)
    exact ⟨m2, by simp only [BMap.run, h1, ok_bind, h3, pure_ok, Spec.mapRun], h4⟩

/-! ## C50 -/

/-- **C50.** A new `BPlusTreeMap<K, V, Count>` answers every history of calls, in which calls by key, by
index and by rank are mixed freely, like the sorted association list, without failures. -/
theorem C50_history (cs : List (MapCall K V)) (hl : cs.length < 2 ^ 64) :
    ∃ m', (BMap.new : BMap K V Count).run cs = .ok ((Spec.mapRun [] cs).1, m') := by
  obtain ⟨g, h1, h2, h3⟩ := new_ok (K := K) (V := V) (A := Count) 16
  obtain ⟨m', h4, _⟩ := mapRun_ok (m := (BMap.new : BMap K V Count)) (by omega) (le_refl 16)
    ⟨0, g, h1, h3, by show 0 < _; omega, h2⟩ cs (by show 0 + _ < _; omega)
  exact ⟨m', h4⟩

/-- **C50.** The same after `from_iter`/`collect` of items in any order, for the sizes that are not
affected by C19. -/
theorem C50_after_from_iter (items : List (K × V))
    (hn : EvenlyGrouped (leavesFor (insertAll [] items).length)) (cs : List (MapCall K V))
    (hl : items.length + cs.length < 2 ^ 64) :
    ∃ m m' : BMap K V Count, BMap.fromIter items = .ok m ∧
      m.run cs = .ok ((Spec.mapRun (insertAll [] items) cs).1, m') := by
  have hlen := insertAll_length items
  obtain ⟨t, H, g, h1, h2, h3, h4, _⟩ := fromIter_ok (A := Count) (μ := 1) (by omega) items
    (.inr (hn.noLone _))
  have hlt : t.len < 2 ^ 64 := by rw [h2.len, h4]; omega
  obtain ⟨m', h5, _⟩ := mapRun_ok (m := ⟨t⟩) (by omega) (by omega) ⟨H, g, h2, h4, hlt, h3⟩ cs
    (by simp only [BMap.len]; rw [h2.len, h4]; omega)
  refine ⟨⟨t⟩, m', ?_, h5⟩
  have h1' : Tree.bulkLoad (items.mergeSort (fun a b => decide (a.1 ≤ b.1))) = .ok t := h1
  simp only [BMap.fromIter, h1', ok_bind, pure_ok]

omit [LinearOrder K] in
theorem iterAnswers_done (l : List (K × V)) (f b : Nat) (hf : l.length ≤ f) (ds : List Dir) :
    ∀ r ∈ iterAnswers l f b ds, r = (none, 0) := by
  induction ds generalizing f b with
  | nil => simp [iterAnswers]
  | cons d ds ih =>
    cases d with
    | front =>
      simp only [iterAnswers, List.mem_cons, forall_eq_or_imp, List.getElem?_eq_none hf]
      exact ⟨by rw [Nat.sub_eq_zero_of_le (by omega)], ih (f + 1) b (by omega)⟩
    | back =>
      simp only [iterAnswers, List.mem_cons, forall_eq_or_imp, if_neg (Nat.not_lt.2 hf)]
      exact ⟨by rw [Nat.sub_eq_zero_of_le hf], ih f (b + 1) hf⟩

omit [LinearOrder K] in
theorem iterAnswers_fused (l : List (K × V)) (f b : Nat) (ds ds' : List Dir)
    (h : ∃ n, (iterAnswers l f b (ds ++ [.front])).getLast? = some (none, n)) :
    ∀ r ∈ (iterAnswers l f b (ds ++ .front :: ds')).drop (ds.length + 1), r = (none, 0) := by
  induction ds generalizing f b with
  | nil =>
    obtain ⟨n, h⟩ := h
    simp only [List.nil_append, iterAnswers, List.getLast?_singleton, Option.some.injEq,
      Prod.mk.injEq, List.getElem?_eq_none_iff] at h
    simp only [List.nil_append, iterAnswers, List.length_nil, Nat.zero_add, List.drop_succ_cons,
      List.drop_zero]
    exact iterAnswers_done l (f + 1) b (by omega) ds'
  | cons d ds ih =>
    have hne : ∀ f b, iterAnswers l f b (ds ++ [.front]) ≠ [] := by
      intro f b
      cases ds with
      | nil => simp [iterAnswers]
      | cons d ds => cases d <;> simp [iterAnswers]
    cases d with
    | front =>
      simp only [List.cons_append, iterAnswers, List.length_cons, List.drop_succ_cons] at h ⊢
      refine ih _ _ ?_
      rw [List.getLast?_cons, List.getLast?_eq_some_getLast (hne _ _)] at h
      rw [List.getLast?_eq_some_getLast (hne _ _)]
      exact h
    | back =>
      simp only [List.cons_append, iterAnswers, List.length_cons, List.drop_succ_cons] at h ⊢
      refine ih _ _ ?_
      rw [List.getLast?_cons, List.getLast?_eq_some_getLast (hne _ _)] at h
      rw [List.getLast?_eq_some_getLast (hne _ _)]
      exact h

/-- **C50.** `iter()` of the map is fused: after any mix of `next` and `next_back`, once `next` has
returned `None`, every later `next` and `next_back` returns `None` and `len()` is 0. `len()` never
panics. -/
theorem C50_iter_fused [Augmentation K V A] {m : BMap K V A} (h : ReachableBulk m.inner)
    (ds ds' : List Dir) :
    ∃ it as, m.iter = .ok it ∧ it.runCalls m (ds ++ .front :: ds') = .ok as ∧
      (as[ds.length]?.map (·.1) = some none → ∀ r ∈ as.drop (ds.length + 1), r = (none, 0)) := by
  obtain ⟨l, hi⟩ := h.inv
  obtain ⟨it, h1, h2⟩ := C07_exact_behaviour h hi.shows (ds ++ .front :: ds')
  refine ⟨⟨it⟩, _, by simp only [BMap.iter, h1, ok_bind, pure_ok], by rw [MapIter.runCalls_eq, h2], ?_⟩
  intro hnone
  apply iterAnswers_fused
  clear h2
  have hpre : ∀ (ds : List Dir) (f b : Nat),
      (iterAnswers l f b (ds ++ .front :: ds'))[ds.length]?
        = (iterAnswers l f b (ds ++ [.front])).getLast? := by
    intro ds
    induction ds with
    | nil => intro f b; simp [iterAnswers]
    | cons d ds ih =>
      intro f b
      have hne : ∀ f b, iterAnswers l f b (ds ++ [.front]) ≠ [] := by
        intro f b
        cases ds with
        | nil => simp [iterAnswers]
        | cons d ds => cases d <;> simp [iterAnswers]
      cases d with
      | front =>
        simp only [List.cons_append, iterAnswers, List.length_cons, List.getElem?_cons_succ, ih]
        rw [List.getLast?_cons, List.getLast?_eq_some_getLast (hne _ _)]; rfl
      | back =>
        simp only [List.cons_append, iterAnswers, List.length_cons, List.getElem?_cons_succ, ih]
        rw [List.getLast?_cons, List.getLast?_eq_some_getLast (hne _ _)]; rfl
  rw [hpre] at hnone
  cases hg : (iterAnswers l 0 0 (ds ++ [.front])).getLast? with
  | none => rw [hg] at hnone; cases hnone
  | some p =>
    rw [hg] at hnone
    obtain ⟨o, n⟩ := p
    simp only [Option.map_some, Option.some.injEq] at hnone
    subst hnone
    exact ⟨n, rfl⟩

/-- A mixed history: by key, by index, by rank. -/
example : ∃ m', (BMap.new : BMap Nat Nat Count).run
    [.insert 30 3, .insert 10 1, .insert 20 2, .nth 1, .nthMut 1 (· + 5), .rank 30, .rank 25,
      .removeNth 0, .rank 30, .get 20, .count, .iter 3] =
    .ok ([.value none, .value none, .value none, .entry (some (20, 2)), .value (some 2),
      .found (.ok 2), .found (.error 2), .entry (some (10, 1)), .found (.ok 1), .value (some 7),
      .number 2, .counted [(some (20, 7), 1), (some (30, 3), 0), (none, 0)]], m') := by
  obtain ⟨m', h⟩ := C50_history (K := Nat) (V := Nat)
    [.insert 30 3, .insert 10 1, .insert 20 2, .nth 1, .nthMut 1 (· + 5), .rank 30, .rank 25,
      .removeNth 0, .rank 30, .get 20, .count, .iter 3] (by decide)
  exact ⟨m', h⟩

/-- Eighty entries: two leaves. -/
def demoFewItems : List (Nat × Nat) := (List.range 80).map (fun i => (i, i))

example : ∃ m m' : BMap Nat Nat Count, BMap.fromIter demoFewItems.reverse = .ok m ∧
    m.run [.removeNth 0, .count] = .ok ([.entry (some (0, 0)), .number 79], m') := by
  have e : insertAll [] demoFewItems.reverse = demoFewItems := by decide +kernel
  obtain ⟨m, m', h1, h2⟩ := C50_after_from_iter demoFewItems.reverse
    (by rw [e]; exact evenlyGrouped_small (by decide +kernel)) [.removeNth 0, .count]
    (by simp [demoFewItems])
  refine ⟨m, m', h1, ?_⟩
  rw [e] at h2
  have e2 : (Spec.mapRun demoFewItems [.removeNth 0, .count]).1
      = [.entry (some (0, 0)), .number 79] := by
    have h3 : demoFewItems[0]? = some (0, 0) := by decide +kernel
    have h4 : (demoFewItems.eraseIdx 0).length = 79 := by decide +kernel
    simp only [Spec.mapRun, Spec.mapCall, h3, h4]
  rw [h2, e2]

/-- The premise of the fused property occurs: a map with two entries, read from both ends. -/
example : iterAnswers [(1, 10), (2, 20)] 0 0 [.front, .back, .front, .front, .back, .front]
    = [(some (1, 10), 1), (some (2, 20), 1), (some (2, 20), 0), (none, 0), (none, 0), (none, 0)] := by
  decide

example : ∃ m : BMap Nat Nat Count, m.inner.len = 100 ∧ ∃ it as, m.iter = .ok it ∧
    it.runCalls m ([.front, .back] ++ .front :: [.back]) = .ok as := by
  have key : ∀ t : Tree Nat Nat Count, ReachableBulk t → ∃ it as, (BMap.mk t).iter = .ok it ∧
      it.runCalls (BMap.mk t) ([.front, .back] ++ .front :: [.back]) = .ok as := fun t ht => by
    obtain ⟨it, as, h1, h2, -⟩ := C50_iter_fused (m := BMap.mk t) ht [.front, .back] [.back]
    exact ⟨it, as, h1, h2⟩
  exact ⟨⟨demo⟩, by decide +kernel, key demo demo_reach.mut.bulk⟩

end Bpt
