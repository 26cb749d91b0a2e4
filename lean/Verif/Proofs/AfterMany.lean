import Verif.Props.AfterCalls

/-!
# Crash points of a map whose length field may be wrong
-/

namespace Bpt
open Spec
variable {K V A : Type}

section
variable [LinearOrder K] [Augmentation K V A] {μ : Nat} {t : Tree K V A} {H : Nat} {g : T K V A H}

theorem insertU_withLen (w : WF μ t g) (hH : H ≤ maxDepth) (e : Bool) (k : K) (v : V) (n : Nat) :
    (t.withLen n).insertU (.ofOrder e k) k v = (t.withLen n).insert k v := by
  rw [insert_eq]
  unfold Tree.insertU
  simp only [Tree.withLen]
  rw [descendInsertU_eq, descendInsert_eq, descend_stackU_lawful w hH]
  cases descendLeaf t.store (insertDescendStep k) [] t.root with
  | error q => rfl
  | ok p => simp only [ok_bind, insertLeafU_lawful w.flat]

theorem removeU_withLen (w : WF μ t g) (hH : H ≤ maxDepth) (e : Bool) (k : K) (n : Nat) :
    (t.withLen n).removeU (.ofOrder e k) = (t.withLen n).remove k := by
  unfold Tree.removeU Tree.remove Tree.removeImplU Tree.removeImpl
  rw [show (t.withLen n).keyToRefU (.ofOrder e k) = (t.withLen n).keyToRef k from keyToRefU_lawful w hH e k]
  cases (t.withLen n).keyToRef k with
  | error q => rfl
  | ok r => cases r <;> rfl

omit [LinearOrder K] [Augmentation K V A] in
theorem getT_trace (o : Answers K) (t : Tree K V A) :
    (t.getT o).trace = (.compare, t) :: match t.store.tryCacheU o, findDescendLeafU o t.store t.root with
      | .ok none, .ok i => [(.compare, { t with store := t.store.cacheLeaf i })]
      | _, _ => [] := by
  unfold Tree.getT
  cases h : t.store.tryCacheU o with
  | error q => rfl
  | ok r =>
    cases r with
    | some i =>
      simp only [bind, liftM, monadLift, MonadLift.monadLift, Traced.call, pure]
      cases h1 : findInLeafU o t.store i <;> rfl
    | none =>
      simp only [bind, liftM, monadLift, MonadLift.monadLift, Traced.call, pure]
      cases h1 : findDescendLeafU o t.store t.root with
      | error q => rfl
      | ok i =>
        dsimp only
        cases h2 : findInLeafU o (t.store.cacheLeaf i) i <;> rfl

omit [LinearOrder K] [Augmentation K V A] in
theorem getMutT_trace (o : Answers K) (t : Tree K V A) (f : V → V) :
    (t.getMutT o f).trace = (t.getT o).trace := by
  rw [getT_trace]
  unfold Tree.getMutT
  cases h : t.store.tryCacheU o with
  | error q => rfl
  | ok r =>
    cases r with
    | some i =>
      simp only [bind, liftM, monadLift, MonadLift.monadLift, Traced.call, pure]
      cases h1 : updateInLeafU o t.store i f <;> rfl
    | none =>
      simp only [bind, liftM, monadLift, MonadLift.monadLift, Traced.call, pure]
      cases h1 : findDescendLeafU o t.store t.root with
      | error q => rfl
      | ok i =>
        dsimp only
        cases h2 : updateInLeafU o (t.store.cacheLeaf i) i f <;> rfl

omit [LinearOrder K] [Augmentation K V A] in
theorem getT_withLen {o : Answers K} {t : Tree K V A} {n : Nat} {cb : Callback} {m : Tree K V A}
    (h : (cb, m) ∈ ((t.withLen n).getT o).trace) : ∃ m0, (cb, m0) ∈ (t.getT o).trace ∧ m = m0.withLen n := by
  rw [getT_trace] at h ⊢
  simp only [Tree.withLen] at h
  split at h
  · next i h1 h2 =>
    simp only [List.mem_cons, List.not_mem_nil, or_false] at h
    rcases h with h | h
    · cases h; exact ⟨t, by simp, rfl⟩
    · cases h; exact ⟨{ t with store := t.store.cacheLeaf i }, by simp, rfl⟩
  · simp only [List.mem_cons, List.not_mem_nil, or_false] at h
    cases h
    exact ⟨t, by simp, rfl⟩

omit [LinearOrder K] in
theorem InsertCrash.bareU [LinearOrder K] {t : Tree K V A} {early : Bool} {k : K} {v : V} {o : Option V}
    {t1 : Tree K V A} (hu : t.insertU (.ofOrder early k) k v = .ok (o, t1))
    (hleaf : t1.store.leaves.length = t.store.leaves.length) {cb : Callback} {t' : Tree K V A}
    (ht : InsertCrash t early k v cb t') : Bare t1.store t'.store ∧ t1.root = t'.root ∧ t'.len = t.len := by
  rcases ht with ⟨ht, hc⟩ | ht
  · have hr : (t.insertT (.ofOrder early k) k v).result = .ok (o, t1) := by rw [insertT_result, hu]
    have := insertT_bare _ t k v hr (by omega)
    have : (t.ucallT ((Call.insert k v).answers early) (.insert k v)).All _ :=
      Traced.all_bind this fun _ _ => Traced.all_pure
    obtain ⟨e1, e2, e3, -⟩ := this cb t' ht hc
    exact ⟨e1, e2, e3⟩
  · exact insertD_bare _ t k v hu (by omega) cb t' ht

omit [LinearOrder K] in
theorem RemoveCrash.bareU [LinearOrder K] {t : Tree K V A} {early : Bool} {k : K} {o : Option V}
    {t1 : Tree K V A} (hu : t.removeU (.ofOrder early k) = .ok (o, t1)) (hst : t1.st = t.st) {cb : Callback}
    {t' : Tree K V A} (ht : RemoveCrash t early k cb t') :
    Bare t1.store t'.store ∧ t1.root = t'.root ∧ (t' = t1 ∨ t'.len = t.len) := by
  rcases ht with ⟨ht, hc⟩ | ht
  · have hr : (t.removeT (.ofOrder early k)).result = .ok (o, t1) := by rw [removeT_result, hu]
    have := removeT_bare _ t hr hst
    have : (t.ucallT ((Call.remove (V := V) k).answers early) .remove).All _ :=
      Traced.all_bind this fun _ _ => Traced.all_pure
    obtain ⟨e1, e2, e3, -⟩ := this cb t' ht hc
    exact ⟨e1, e2, .inr e3⟩
  · exact removeD_bare _ t hu hst cb t' ht

omit [Augmentation K V A] in
theorem erase_absent {k : K} {l : List (K × V)} (h : lookup k l = none) : erase k l = l := by
  refine List.filter_eq_self.2 fun e he => ?_
  unfold lookup at h
  cases hf : l.find? (fun e => e.1 = k) with
  | none => simpa using List.find?_eq_none.1 hf e he
  | some x => rw [hf] at h; cases h

/-- A call changes the length field as it changes the length, or makes both 0. -/
theorem callLen_off {t : Tree K V A} {l : List (K × V)} (hi : Inv 1 t l) (hl : t.len + 1 < 2 ^ 64)
    {n : Nat} {c : Call K V} {a : Answer K V} {l' : List (K × V)} {n' : Nat}
    (hs : Spec.callLen l n c = some (a, l', n')) : n' + l.length = n + l'.length ∨ l' = [] ∧ n' = 0 := by
  have hlen := hi.len
  cases c with
  | insert k v =>
    simp only [Spec.callLen] at hs
    cases hs
    obtain ⟨u, g1, g2, -⟩ := hi.insert (by omega) hl k v
    have hlen1 := g2.len
    cases hk : lookup k l with
    | none =>
      have := upsert_new_length (v := v) hk
      simp only [Option.isNone_none, if_true]
      omega
    | some x =>
      rw [hk] at g1
      have := (insert_updated g1).2
      simp only [Option.isNone_some, Bool.false_eq_true, if_false]
      omega
  | remove k =>
    simp only [Spec.callLen] at hs
    cases hk : lookup k l with
    | none =>
      simp only [hk, Option.isNone_none, if_true] at hs
      cases hs
      exact .inl rfl
    | some x =>
      simp only [hk, Option.isNone_some, Bool.false_eq_true, if_false] at hs
      split at hs
      · cases hs
      · cases hs
        rcases hi.remove (by omega) k with ⟨u, g1, g2, -⟩ | ⟨e, -⟩
        · rw [hk] at g1
          have := remove_len g1
          have := g2.len
          omega
        · omega
  | clear => cases hs; exact .inr ⟨rfl, rfl⟩
  | getMut k f =>
    cases hs
    refine .inl ?_
    simp only [Spec.call, Spec.modify, List.length_map]
  | first =>
    simp only [Spec.callLen] at hs
    split at hs
    · cases hs; exact .inl rfl
    · split at hs <;> cases hs; exact .inl rfl
  | last =>
    simp only [Spec.callLen] at hs
    split at hs
    · cases hs; exact .inl rfl
    · split at hs <;> cases hs; exact .inl rfl
  | iter m =>
    simp only [Spec.callLen] at hs
    split at hs <;> cases hs; exact .inl rfl
  | iterBack m =>
    simp only [Spec.callLen] at hs
    split at hs <;> cases hs <;> exact .inl rfl
  | _ => cases hs; exact .inl rfl

/-- The map is well-formed with content `l` but for its length field. -/
def LInv (t : Tree K V A) (l : List (K × V)) : Prop := ∃ t0 n, Inv 1 t0 l ∧ t = t0.withLen n

theorem LInv.comparison {t : Tree K V A} {l : List (K × V)} (hi : LInv t l)
    {early : Bool} {c : Call K V} {cb : Callback} {t' : Tree K V A}
    (ht : (cb, t') ∈ (t.ucallT (c.answers early) c.lawless).trace)
    (hc : cb = .compare ∨ (∀ k v, c ≠ .insert k v) ∧ ∀ k, c ≠ .remove k) : LInv t' l ∧ t'.len = t.len := by
  obtain ⟨t0, n, hi, rfl⟩ := hi
  have get : ∀ k, (cb, t') ∈ ((t0.withLen n).getT (.ofOrder early k)).trace → LInv t' l ∧ t'.len = (t0.withLen n).len := by
    intro k ht
    obtain ⟨m, h1, rfl⟩ := getT_withLen ht
    refine ⟨⟨m, n, hi.comparison (early := early) (c := .get k) (cb := cb) ?_ (.inr ⟨by simp, by simp⟩), rfl⟩, rfl⟩
    show _ ∈ (Bind.bind (t0.getT (.ofOrder early k)) _ : Traced _ _).trace
    simp only [bind]
    split
    · exact List.mem_append_left _ h1
    · exact h1
  have one : t' = t0.withLen n → LInv t' l ∧ t'.len = (t0.withLen n).len := fun e => ⟨⟨t0, n, hi, e⟩, by rw [e]⟩
  have fst : ∀ {α β : Type} {x : Traced (Tree K V A) α} {f : α → β},
      (cb, t') ∈ (do let a ← x; return f a : Traced (Tree K V A) β).trace → (cb, t') ∈ x.trace := by
    intro α β x f h
    simp only [bind] at h
    split at h
    · simpa [pure] using h
    · exact h
  cases c with
  | insert k v =>
    have : ((t0.withLen n).ucallT ((Call.insert k v).answers early) (.insert k v)).All _ :=
      Traced.all_bind (insertT_compare _ (t0.withLen n) k v) fun _ _ => Traced.all_pure
    exact one (this cb t' ht (hc.resolve_right fun h => h.1 k v rfl))
  | remove k =>
    have : ((t0.withLen n).ucallT ((Call.remove (V := V) k).answers early) .remove).All _ :=
      Traced.all_bind (removeT_compare _ (t0.withLen n)) fun _ _ => Traced.all_pure
    exact one (this cb t' ht (hc.resolve_right fun h => h.2 k rfl))
  | get k => exact get k (fst ht)
  | getMut k f => exact get k (getMutT_trace (.ofOrder early k) (t0.withLen n) f ▸ fst ht)
  | getCursor k => exact one (Traced.all_call_bind (P := fun _ m => m = _) rfl Traced.all_lift cb t' ht)
  | cursorNext c =>
    exact one (Traced.all_call_bind (P := fun _ m => m = _) rfl (Traced.all_call_bind (P := fun _ m => m = _) rfl Traced.all_lift) cb t' ht)
  | cursorPrev c =>
    exact one (Traced.all_call_bind (P := fun _ m => m = _) rfl (Traced.all_call_bind (P := fun _ m => m = _) rfl Traced.all_lift) cb t' ht)
  | cursorValue c => exact one (Traced.all_call_bind (P := fun _ m => m = _) rfl Traced.all_lift cb t' ht)
  | _ => cases ht

theorem LInv.insert {t : Tree K V A} {l : List (K × V)} (hi : LInv t l) (hn : l.length + 1 < 2 ^ 64)
    {early : Bool} {k : K} {v : V} {o : Option V} {t1 : Tree K V A} (h1 : t.insert k v = .ok (o, t1))
    (hleaf : t1.store.leaves.length = t.store.leaves.length) {cb : Callback} {t' : Tree K V A}
    (ht : InsertCrash t early k v cb t') : LInv t' (upsert k v l) ∧ t'.len = t.len := by
  obtain ⟨t0, n, hi, rfl⟩ := hi
  obtain ⟨H, g, w, -, h2⟩ := id hi
  obtain ⟨u, g1, g2, -⟩ := hi.insert (by omega) (by rw [hi.len]; exact hn) k v
  obtain ⟨n', g3, -⟩ := insert_withLen n g1
  rw [h1] at g3
  cases g3
  obtain ⟨b1, b2, b3⟩ := InsertCrash.bareU ((insertU_withLen w (w.depth h2) early k v n).trans h1) hleaf ht
  exact ⟨⟨_, t'.len, b1.inv g2 b2, rfl⟩, b3⟩

theorem LInv.remove {t : Tree K V A} {l : List (K × V)} (hi : LInv t l)
    {early : Bool} {k : K} {o : Option V} {t1 : Tree K V A} (h1 : t.remove k = .ok (o, t1))
    (hst : t1.st = t.st) {cb : Callback} {t' : Tree K V A}
    (ht : RemoveCrash t early k cb t') :
    LInv t' (erase k l) ∧ (t'.len + l.length = t.len + (erase k l).length ∨ t'.len = t.len) ∧
      l.length ≤ (erase k l).length + 1 := by
  obtain ⟨t0, n, hi, rfl⟩ := hi
  obtain ⟨H, g, w, -, h2⟩ := id hi
  rcases hi.remove (by omega) k with ⟨u, g1, g2, -⟩ | ⟨e, -⟩
  · have hn : lookup k l ≠ none → n ≠ 0 := by
      rintro hk rfl
      obtain ⟨x, hx⟩ := Option.ne_none_iff_exists'.1 hk
      rw [hx] at g1
      rw [remove_withLen_zero g1] at h1
      cases h1
    obtain ⟨n', g3, g4⟩ := remove_withLen g1 hn
    rw [h1] at g3
    cases g3
    have hl0 := hi.len
    have hl1 := g2.len
    obtain ⟨b1, b2, b3⟩ := RemoveCrash.bareU ((removeU_withLen w (w.depth h2) early k n).trans h1) hst ht
    refine ⟨⟨_, t'.len, b1.inv g2 b2, rfl⟩, ?_, ?_⟩
    · rcases b3 with rfl | b3
      · refine .inl ?_
        show n' + _ = n + _
        omega
      · exact .inr b3
    · cases hk : lookup k l with
      | none => rw [erase_absent hk]; omega
      | some x =>
        rw [hk] at g1
        have := remove_len g1
        omega
  · omega

theorem LInv.upsert_length {t : Tree K V A} {l : List (K × V)} (hi : LInv t l) (hn : l.length + 1 < 2 ^ 64)
    (k : K) (v : V) : l.length ≤ (upsert k v l).length := by
  obtain ⟨t0, n, hi, rfl⟩ := hi
  have := callLen_off hi (by rw [hi.len]; exact hn) (n := l.length) (c := .insert k v) rfl
  rcases this with h | ⟨h, -⟩
  · split at h <;> omega
  · unfold upsert at h; simp at h

end
end Bpt
