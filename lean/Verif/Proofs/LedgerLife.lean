import Verif.Proofs.LedgerRemove
import Verif.Props.Ownership

/-!
# Balances of dropping and of whole calls
-/

namespace Bpt
variable {K V A : Type}
variable {w : K → Int} {u : A → Int} {m : Int}

/-- Lists with the same total for every weight are permutations of one another. -/
theorem perm_of_wsum {α : Type} {l l' : List α} (h : ∀ f : α → Int, wsum f l = wsum f l') :
    l.Perm l' := by
  classical
  rw [List.perm_iff_count]
  intro a
  have e : ∀ l : List α, wsum (fun x => if x = a then 1 else 0) l = (l.count a : Int) := by
    intro l
    induction l with
    | nil => rfl
    | cons x l ih =>
      rw [wsum_cons, ih, List.count_cons]
      by_cases hx : x = a
      · subst hx; simp; omega
      · simp [hx]
  have := h (fun x => if x = a then 1 else 0)
  rw [e, e] at this
  exact_mod_cast this

/-- The leaves of the store weigh what the listed leaves weigh. -/
theorem leaves_wt {M : List (Option (Leaf K V))} {L : List (Nat × List (K × V))}
    (hn : (L.map (·.1)).Nodup)
    (hm : ∀ x ∈ L, ∃ p n, M[x.1]? = some (some ⟨x.2, p, n⟩))
    (hl : ∀ (i : Nat) l, M[i]? = some (some l) → i ∈ L.map (·.1)) :
    wsum (leafSlotWt w) M = wsum (fun e => w e.1) (L.flatMap (·.2)) := by
  induction L generalizing M with
  | nil =>
    have : ∀ x ∈ M, leafSlotWt w x = 0 := by
      intro x hx
      obtain ⟨i, hi, rfl⟩ := List.getElem_of_mem hx
      cases hM : M[i] with
      | none => rfl
      | some l => exact absurd (hl i l (by rw [List.getElem?_eq_getElem hi, hM])) (by simp)
    clear hn hm hl
    induction M with
    | nil => rfl
    | cons x M ih =>
      rw [wsum_cons, this x (by simp), ih (fun y hy => this y (by simp [hy]))]
      rfl
  | cons x L ih =>
    obtain ⟨p, n, hx⟩ := hm x (by simp)
    simp only [List.map_cons, List.nodup_cons] at hn
    have h1 := ih (M := M.set x.1 none) hn.2
      (by
        intro y hy
        obtain ⟨p, n, h⟩ := hm y (by simp [hy])
        have hne : x.1 ≠ y.1 := by
          intro e
          exact hn.1 (e ▸ List.mem_map_of_mem hy)
        exact ⟨p, n, by rw [List.getElem?_set_ne hne]; exact h⟩)
      (by
        intro i l h
        by_cases hne : x.1 = i
        · subst hne
          rw [List.getElem?_set_self (List.getElem?_eq_some_iff.1 hx).1] at h
          cases h
        · rw [List.getElem?_set_ne hne] at h
          have := hl i l h
          simp only [List.map_cons, List.mem_cons] at this
          exact this.resolve_left (fun e => hne e.symm))
    rw [wsum_set _ hx] at h1
    simp only [leafSlotWt, Leaf.wt, List.flatMap_cons, wsum_append] at *
    omega

section
variable [Augmentation K V A]

omit [Augmentation K V A] in
theorem innerDrop_wt {n : Inner K A} : wsum (Event.wt w u m) n.dropEvents = - n.wt w u := by
  simp only [Inner.dropEvents, wsum_append, wsum_map, Event.wt, wsum_neg, Inner.wt]
  omega

omit [Augmentation K V A] in
theorem storeDrop_wt {s : Store K V A} :
    wsum (Event.wt w u m) s.dropEvents = - wsum (innerSlotWt w u) s.inners := by
  unfold Store.dropEvents
  rw [wsum_flatMap, ← wsum_neg]
  congr 1
  funext n
  cases n with
  | none => simp [innerSlotWt]
  | some n => simp only [innerSlotWt, innerDrop_wt]

/-- What is left of a tree after its items: the inner nodes and the root augmentation. -/
theorem UInvM.wt {μ : Nat} {t : Tree K V A} {l : List (K × V)} (h : UInvM μ t l) :
    t.store.wt w u = wsum (fun e => w e.1) l + wsum (innerSlotWt w u) t.store.inners := by
  obtain ⟨H, g, wf, rfl⟩ := h.ghost
  have := leaves_wt (w := w) wf.lnodup (by
    intro x hx
    obtain ⟨a, b, hab⟩ := List.append_of_mem hx
    have := wf.seg
    rw [hab] at this
    exact ⟨_, _, this.get⟩) wf.live
  simp only [Store.wt, this]
  rfl

theorem dropL_bal {μ : Nat} {t : Tree K V A} {l : List (K × V)} (h : UInvM μ t l) :
    t.dropL.Bal w u m (t.wt w u m) (fun _ => m * t.st.merges) := by
  unfold Tree.dropL
  refine Logged.bal_lift_bind fun l' hl' => ?_
  rw [h.contents.drop] at hl'
  cases hl'
  intro a _
  have e := h.wt (w := w) (u := u)
  have e1 : wsum (Event.wt w u m) (l.map (fun e => Event.dropKey e.1) : List (Event K A))
      = - wsum (fun e => w e.1) l := by
    rw [wsum_map, ← wsum_neg]
    rfl
  show _ + wsum (Event.wt w u m) (_ ++ _ ++ _) = _
  rw [wsum_append, wsum_append, e1, storeDrop_wt]
  simp only [wsum_cons, wsum_nil, Event.wt, Tree.wt]
  omega

omit [Augmentation K V A] in
theorem updateInLeafU_wt {o : Answers K} {s s' : Store K V A} {i : Nat} {f : V → V} {r : Option V}
    (h : updateInLeafU o s i f = .ok (r, s')) : s'.wt w u = s.wt w u := by
  unfold updateInLeafU at h
  obtain ⟨l, hl, h⟩ := bind_ok h
  obtain ⟨sl, _, h⟩ := bind_ok h
  cases sl with
  | found i =>
    obtain ⟨kv, hkv, h⟩ := bind_ok h
    cases h
    rw [Store.wt_setLeaf hl]
    simp only [Leaf.wt]
    rw [wsum_set _ (readAt_get hkv)]
    simp only
    omega
  | vacant i => cases h; rfl

theorem ucallL_bal {μ : Nat} {t : Tree K V A} {l : List (K × V)} (h : UInvM μ t l) (o : Answers K) (c : UCall K V) :
    (t.ucallL o c).Bal w u m (t.wt w u m + wsum w c.givesKeys)
      (fun q => q.2.wt w u m + m * (c.closes t : Nat)) := by
  have keep : ∀ (x : Res (Answer K V × Tree K V A)),
      (∀ q, x = .ok q → q.2.wt w u m = t.wt w u m) →
      (liftM x : Logged K A _).Bal w u m (t.wt w u m + 0) (fun q => q.2.wt w u m + m * ((0 : Nat) : Int)) := by
    intro x hx
    refine Logged.bal_lift fun q hq => ?_
    rw [hx q hq]
    simp
  have same : ∀ (α : Type) (x : Res α) (f : α → Answer K V),
      ∀ q, (x >>= fun r => pure (f r, t)) = .ok q → q.2.wt w u m = t.wt w u m := by
    intro α x f q hq
    obtain ⟨r, _, hq⟩ := bind_ok hq
    cases hq
    rfl
  cases c with
  | insert k v =>
    refine Logged.bal_bind (mid := fun q => q.2.wt w u m) ?_ fun q _ => Logged.bal_pure ?_
    · intro q hq
      have hb := insertL_bal (w := w) (u := u) (m := m) q hq
      have hst : q.2.st = t.st := by
        rw [insertL_result] at hq
        unfold Tree.insertU at hq
        obtain ⟨⟨s, r⟩, _, hq⟩ := bind_ok hq
        cases r with
        | inserted =>
          obtain ⟨_, _, hq⟩ := bind_ok hq
          cases hq
          rfl
        | updated v =>
          obtain ⟨_, _, hq⟩ := bind_ok hq
          cases hq
          rfl
        | split k c =>
          obtain ⟨_, _, hq⟩ := bind_ok hq
          obtain ⟨_, _, hq⟩ := bind_ok hq
          obtain ⟨_, _, hq⟩ := bind_ok hq
          cases hq
          rfl
      simp only [Tree.wt, UCall.givesKeys, wsum_cons, wsum_nil, hst] at *
      omega
    · simp [UCall.closes]
  | remove =>
    refine Logged.bal_bind (mid := fun q => q.2.wt w u m) ?_ fun q _ => Logged.bal_pure ?_
    · refine Logged.bal_eq (removeL_bal h o) ?_
      simp [UCall.givesKeys]
    · simp [UCall.closes]
  | clear =>
    refine Logged.bal_emit_bind <| Logged.bal_bind
      (mid := fun _ => u (Augmentation.dflt K V) + m * t.st.merges) ?_ fun q _ => Logged.bal_lift fun q hq => ?_
    · intro q hq
      have := dropL_bal (w := w) (u := u) (m := m) h q hq
      simp only [UCall.givesKeys, wsum_cons, wsum_nil, Event.wt] at *
      omega
    · cases hq
      have e := (UInv.new (K := K) (V := V) (A := A)).wt (w := w) (u := u)
      simp only [wsum_nil] at e
      simp only [Tree.wt, Tree.clear, e, UCall.closes, Tree.innerMerges, Statistic.merges]
      simp [Tree.new, Store.empty]
      rfl
  | get =>
    refine keep _ fun q hq => ?_
    obtain ⟨⟨r, t'⟩, hr, hq⟩ := bind_ok hq
    cases hq
    clear hq
    rename' hr => hq
    unfold Tree.getU at hq
    obtain ⟨x, _, hq⟩ := bind_ok hq
    cases x with
    | some i =>
      obtain ⟨v, _, hq⟩ := bind_ok hq
      cases hq
      rfl
    | none =>
      obtain ⟨i, _, hq⟩ := bind_ok hq
      obtain ⟨v, _, hq⟩ := bind_ok hq
      cases hq
      rfl
  | getMut f =>
    refine keep _ fun q hq => ?_
    obtain ⟨⟨r, t'⟩, hr, hq⟩ := bind_ok hq
    cases hq
    clear hq
    rename' hr => hq
    unfold Tree.getMutU at hq
    obtain ⟨x, _, hq⟩ := bind_ok hq
    cases x with
    | some i =>
      obtain ⟨⟨v, s⟩, hu, hq⟩ := bind_ok hq
      cases hq
      simp only [Tree.wt, updateInLeafU_wt hu]
    | none =>
      obtain ⟨i, _, hq⟩ := bind_ok hq
      obtain ⟨⟨v, s⟩, hu, hq⟩ := bind_ok hq
      cases hq
      simp only [Tree.wt, updateInLeafU_wt hu, Store.wt_cache]
  | first => exact keep _ (same _ _ _)
  | last => exact keep _ (same _ _ _)
  | len => exact keep _ (by rintro _ ⟨⟩; rfl)
  | isEmpty => exact keep _ (by rintro _ ⟨⟩; rfl)
  | iter n =>
    refine keep _ fun q hq => ?_
    obtain ⟨_, _, hq⟩ := bind_ok hq
    obtain ⟨_, _, hq⟩ := bind_ok hq
    cases hq
    rfl
  | iterBack n =>
    refine keep _ fun q hq => ?_
    obtain ⟨_, _, hq⟩ := bind_ok hq
    obtain ⟨_, _, hq⟩ := bind_ok hq
    cases hq
    rfl
  | cursorNext c => exact keep _ (same _ _ _)
  | cursorPrev c => exact keep _ (same _ _ _)
  | cursorValue c => exact keep _ (same _ _ _)
  | getCursor k =>
    refine keep _ fun q hq => ?_
    obtain ⟨x, _, hq⟩ := bind_ok hq
    cases x with
    | some x => cases hq; rfl
    | none => cases hq; rfl

theorem ucallL_result {μ : Nat} {t : Tree K V A} {l : List (K × V)} (h : UInvM μ t l) (o : Answers K) (c : UCall K V) :
    (t.ucallL o c).result = t.ucall o c := by
  cases c with
  | insert k v =>
    simp only [Tree.ucallL, Tree.ucall, Logged.result_bind, insertL_result]
    rfl
  | remove =>
    simp only [Tree.ucallL, Tree.ucall, Logged.result_bind, removeL_result]
    rfl
  | clear =>
    simp only [Tree.ucallL, Tree.dropL, Logged.result_bind, Logged.result_emit, Logged.result_lift,
      h.contents.drop, ok_bind]
  | _ => rfl

end
end Bpt
