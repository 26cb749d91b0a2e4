import Verif.DropPanicSpec
import Verif.Proofs.CloneCrash
import Verif.Proofs.RawHistory

/-!
# Destructors that panic: lemmas
-/

namespace Bpt
namespace Raw
open Slots
variable {K V A : Type}

/-! ## The cut lists -/

section
variable {α : Type} (p : α → Bool)

theorem upTo_prefix (l : List α) : upTo p l <+: l := by
  induction l with
  | nil => exact List.prefix_refl _
  | cons x xs ih =>
    unfold upTo
    split
    · exact ⟨xs, rfl⟩
    · exact List.prefix_cons_inj x |>.2 ih

theorem upToNth_prefix (n : Nat) (l : List α) : upToNth p n l <+: l := by
  induction l generalizing n with
  | nil => cases n <;> exact List.prefix_refl _
  | cons x xs ih =>
    cases n with
    | zero => exact List.nil_prefix
    | succ n =>
      unfold upToNth
      split
      · exact List.prefix_cons_inj x |>.2 (ih _)
      · exact List.prefix_cons_inj x |>.2 (ih _)

theorem upTo_of_none {l : List α} (h : l.any p = false) : upTo p l = l := by
  induction l with
  | nil => rfl
  | cons x xs ih =>
    rw [List.any_cons, Bool.or_eq_false_iff] at h
    unfold upTo
    rw [h.1, ih h.2]
    rfl

theorem upTo_append (l l' : List α) :
    upTo p (l ++ l') = if l.any p then upTo p l else l ++ upTo p l' := by
  induction l with
  | nil => rfl
  | cons x xs ih =>
    rw [List.cons_append, upTo, upTo, ih, List.any_cons]
    cases p x
    · simp only [Bool.false_eq_true, if_false, Bool.false_or]
      split <;> rfl
    · rfl

theorem count_upTo (l : List α) : (upTo p l).countP p = if l.any p then 1 else 0 := by
  induction l with
  | nil => rfl
  | cons x xs ih =>
    unfold upTo
    rw [List.countP_cons, List.any_cons]
    cases p x
    · simpa using ih
    · rfl

theorem upToNth_one (l : List α) : upToNth p 1 l = upTo p l := by
  induction l with
  | nil => rfl
  | cons x xs ih =>
    unfold upToNth upTo
    split
    · cases xs <;> rfl
    · rw [ih]

theorem upTo_upTo (l : List α) : upTo p (upTo p l) = upTo p l := by
  induction l with
  | nil => rfl
  | cons x xs ih =>
    have e : upTo p (x :: xs) = x :: (if p x then [] else upTo p xs) := rfl
    rw [e]
    cases hx : p x
    · simp [upTo, hx, ih]
    · simp [upTo, hx]

theorem upToNth_append_lt : ∀ (n : Nat) (l l' : List α) (_ : l.countP p < n),
    upToNth p n (l ++ l') = l ++ upToNth p (n - l.countP p) l' := by
  intro n l
  induction l generalizing n with
  | nil => intro l' _; rw [List.countP_nil, Nat.sub_zero]; rfl
  | cons x xs ih =>
    intro l' h
    rw [List.countP_cons] at h ⊢
    cases n with
    | zero => exact absurd h (by omega)
    | succ n =>
      rw [List.cons_append, upToNth]
      cases hx : p x
      · rw [hx] at h
        simp only [Bool.false_eq_true, if_false] at h ⊢
        rw [ih (n + 1) l' h]
        rfl
      · rw [hx] at h
        simp only [if_true] at h ⊢
        rw [ih n l' (by omega), Nat.add_sub_add_right]
        rfl

theorem upToNth_append_ge : ∀ (n : Nat) (l l' : List α) (_ : n ≤ l.countP p),
    upToNth p n (l ++ l') = upToNth p n l := by
  intro n l
  induction l generalizing n with
  | nil =>
    intro l' h
    rw [List.countP_nil] at h
    obtain rfl : n = 0 := by omega
    simp [upToNth]
  | cons x xs ih =>
    intro l' h
    rw [List.countP_cons] at h
    cases n with
    | zero => rfl
    | succ n =>
      rw [List.cons_append, upToNth, upToNth]
      cases hx : p x
      · rw [hx] at h
        simp only [Bool.false_eq_true, if_false] at h ⊢
        rw [ih (n + 1) l' h]
      · rw [hx] at h
        simp only [if_true] at h ⊢
        rw [ih n l' (by omega)]

theorem upToNth_of_lt {n : Nat} {l : List α} (h : l.countP p < n) : upToNth p n l = l := by
  have := upToNth_append_lt p n l [] h
  rw [List.append_nil] at this
  rw [this]
  have e : upToNth p (n - l.countP p) ([] : List α) = [] := by
    cases n - l.countP p <;> rfl
  rw [e, List.append_nil]

end

/-! ## Endings -/

/-- How many more panics the program survives, plus one. -/
def Ending.left : Ending → Nat
  | .done => 2
  | .unwound => 1
  | .aborted => 0

/-- The ending after `n` panics. -/
def Ending.plus (e : Ending) : Nat → Ending
  | 0 => e
  | n + 1 => e.panicked.plus n

theorem Ending.plus_aborted (n : Nat) : Ending.aborted.plus n = .aborted := by
  induction n with
  | zero => rfl
  | succ n ih => exact ih

theorem Ending.plus_add (e : Ending) (m n : Nat) : e.plus (m + n) = (e.plus m).plus n := by
  induction m generalizing e with
  | zero => rw [Nat.zero_add]; rfl
  | succ m ih => rw [Nat.succ_add]; exact ih _

theorem Ending.left_plus (e : Ending) (n : Nat) : (e.plus n).left = e.left - n := by
  induction n generalizing e with
  | zero => rfl
  | succ n ih =>
    show (e.panicked.plus n).left = _
    rw [ih]
    cases e <;> simp only [Ending.panicked, Ending.left] <;> omega

theorem Ending.aborted_iff (e : Ending) : e = .aborted ↔ e.left = 0 := by
  cases e <;> simp [Ending.left]

theorem endOf_eq (bomb : Destroyed K V A → Bool) (log : List (Destroyed K V A)) :
    endOf bomb log = Ending.done.plus (log.countP bomb) := by
  unfold endOf
  split
  · rename_i h; rw [h]; rfl
  · rename_i h; rw [h]; rfl
  · rename_i n h0 h1
    generalize List.countP bomb log = n at *
    match n with
    | 0 => exact absurd rfl h0
    | 1 => exact absurd rfl h1
    | n + 2 => exact (Ending.plus_aborted n).symm

/-! ## Inner nodes -/

theorem dropSlotsP_ok {α : Type} (f : α → Destroyed K V A) (bomb : Destroyed K V A → Bool) (a : Slots α) :
    ∀ (is : List Nat) {xs : List α} (_ : is.mapM (fun i => a.read i) = .ok xs),
      dropSlotsP f bomb a is = .ok (upTo bomb (xs.map f), (xs.map f).any bomb) := by
  intro is
  induction is with
  | nil => intro xs h; cases h; rfl
  | cons i is ih =>
    intro xs h
    rw [List.mapM_cons] at h
    unfold dropSlotsP
    cases hr : a.read i with
    | error _ => rw [hr] at h; cases h
    | ok x =>
      rw [hr, ok_bind] at h
      rw [ok_bind]
      cases hm : is.mapM (fun i => a.read i) with
      | error _ => rw [hm] at h; cases h
      | ok ys =>
        rw [hm, ok_bind] at h
        cases h
        rw [ih hm, List.map_cons, List.any_cons]
        rw [upTo]
        cases bomb (f x) <;> rfl

theorem dropP_ok (bomb : Destroyed K V A → Bool) {n : InnerS K A} {ks : List K} {as : List A}
    (h : n.drop = .ok (ks, as)) :
    n.dropP bomb = .ok (upTo bomb (ks.map Cloned.key ++ as.map Cloned.aug),
      (ks.map (Cloned.key : K → Destroyed K V A) ++ as.map Cloned.aug).any bomb) := by
  unfold InnerS.drop Slots.dropPrefix at h
  cases h1 : (List.range n.size).mapM (fun i => n.ks.read i) with
  | error _ => rw [h1] at h; cases h
  | ok ks' =>
    rw [h1, ok_bind] at h
    cases h2 : (List.range (n.size + 1)).mapM (fun i => n.as.read i) with
    | error _ => rw [h2] at h; cases h
    | ok as' =>
      rw [h2, ok_bind] at h
      cases h
      unfold InnerS.dropP
      rw [dropSlotsP_ok .key bomb n.ks _ h1, ok_bind]
      dsimp only
      rw [upTo_append, List.any_append]
      cases hk : (ks.map (.key : K → Destroyed K V A)).any bomb
      · rw [dropSlotsP_ok .aug bomb n.as _ h2, upTo_of_none bomb hk]
        rfl
      · rfl

theorem nodesLog_cons (bomb : Destroyed K V A → Bool) (o : Option (InnerS K A)) (os) :
    nodesLog bomb (o :: os) = upTo bomb (nodeOwns o) ++ nodesLog bomb os := rfl

theorem dropInnersP_ok (bomb : Destroyed K V A → Bool) : ∀ (os : List (Option (InnerS K A)))
    (_ : ∀ n, some n ∈ os → n.drop = .ok (n.ks.present, n.as.present)) (e : Ending) (_ : e ≠ .aborted),
    dropInnersP bomb e os = .ok (upToNth bomb e.left (nodesLog bomb os),
      e.plus ((nodesLog bomb os).countP bomb)) := by
  intro os
  induction os with
  | nil => intro _ e he; cases e <;> first | rfl | exact absurd rfl he
  | cons o os ih =>
    intro hd e he
    have ih := ih (fun n hn => hd n (List.mem_cons_of_mem _ hn))
    cases o with
    | none => exact ih e he
    | some n =>
      unfold dropInnersP
      rw [dropP_ok bomb (hd n List.mem_cons_self), ok_bind]
      dsimp only
      have ho : (n.ks.present.map .key ++ n.as.present.map .aug : List (Destroyed K V A))
        = nodeOwns (some n) := rfl
      rw [ho, nodesLog_cons]
      generalize nodeOwns (some n) = L
      have hc := count_upTo bomb L
      rw [List.countP_append, hc]
      have hl : 0 < e.left := by
        rcases Nat.eq_zero_or_pos e.left with h | h
        · exact absurd ((Ending.aborted_iff e).2 h) he
        · exact h
      cases hany : L.any bomb
      · rw [hany] at hc
        simp only [Bool.false_eq_true, if_false] at hc ⊢
        rw [if_neg he, ih e he, ok_bind, upToNth_append_lt bomb _ _ _ (by omega), hc, Nat.zero_add, Nat.sub_zero]
        rfl
      · rw [hany] at hc
        simp only [if_true] at hc ⊢
        have e1 : e.plus (1 + (nodesLog bomb os).countP bomb)
          = e.panicked.plus ((nodesLog bomb os).countP bomb) := Ending.plus_add _ _ _
        rw [e1]
        by_cases hp : e.panicked = .aborted
        · rw [if_pos hp, hp, Ending.plus_aborted]
          have : e.left = 1 := by
            cases e <;> first | exact absurd rfl he | rfl | cases hp
          rw [this, upToNth_append_ge bomb _ _ _ (by omega), upToNth_one, upTo_upTo]
          rfl
        · rw [if_neg hp, ih _ hp, ok_bind]
          have h2 : e = .done := by cases e <;> first | rfl | exact absurd rfl hp
          subst h2
          show _ = Except.ok (upToNth bomb 2 _, _)
          rw [upToNth_append_lt bomb _ _ _ (by omega), hc]
          rfl

/-! ## Items -/

theorem dropAuxP_ok (bomb : Destroyed K V A → Bool) : ∀ (fuel : Nat) {it it'' : IntoIter K V A} {r}
    (_ : IntoIter.dropAux fuel it = .ok (r, it'')),
    ∃ it', IntoIter.dropAuxP bomb fuel it = .ok ((itemsLog bomb r, endOf bomb (itemsLog bomb r)), it') ∧
      it'.store.inners = it.store.inners ∧ upToNth bomb 2 (itemsLog bomb r) = itemsLog bomb r := by
  intro fuel
  induction fuel with
  | zero => intro it it'' r h; cases h
  | succ fuel ih =>
    intro it it'' r h
    unfold IntoIter.dropAux at h
    unfold IntoIter.dropAuxP
    cases hn : it.next with
    | error _ => rw [hn] at h; cases h
    | ok y =>
      obtain ⟨o, it1⟩ := y
      rw [hn, ok_bind] at h
      rw [ok_bind]
      have hin : it1.store.inners = it.store.inners := nextAux_inners _ hn
      dsimp only at h ⊢
      cases o with
      | none =>
        cases h
        exact ⟨_, rfl, hin, rfl⟩
      | some kv =>
        dsimp only at h ⊢
        cases hd : IntoIter.dropAux fuel it1 with
        | error _ => rw [hd] at h; cases h
        | ok z =>
          obtain ⟨r', it2⟩ := z
          rw [hd, ok_bind] at h
          cases h
          obtain ⟨it', h1, h2, h3⟩ := ih hd
          have e0 : itemsLog bomb (kv :: r') = .key kv.1 :: .value kv.2 ::
              (if itemBomb bomb kv then [] else itemsLog bomb r') := by
            unfold itemsLog
            rw [upTo]
            cases itemBomb bomb kv <;> rfl
          rw [e0]
          unfold dropItemP
          cases hk : bomb (.key kv.1) <;> cases hv : bomb (.value kv.2)
          · have hb : itemBomb bomb kv = false := by unfold itemBomb; rw [hk, hv]; rfl
            rw [hb]
            simp only [Bool.false_eq_true, if_false]
            rw [h1, ok_bind]
            refine ⟨it', ?_, h2.trans hin, ?_⟩
            · rw [endOf_eq, endOf_eq, List.countP_cons, List.countP_cons, hk, hv]
              rfl
            · rw [upToNth, hk]
              simp only [Bool.false_eq_true, if_false]
              rw [upToNth, hv]
              simp only [Bool.false_eq_true, if_false]
              rw [h3]
          all_goals
            have hb : itemBomb bomb kv = true := by unfold itemBomb; rw [hk, hv]; rfl
            rw [hb]
            refine ⟨it1, ?_, hin, ?_⟩
            · rw [endOf_eq]
              simp only [if_true, List.countP_cons, hk, hv, List.countP_nil]
              rfl
            · simp [upToNth, hk, hv]

/-- The whole of what happens when an owning iterator is dropped. -/
theorem intoDropP_ok (bomb : Destroyed K V A → Bool) {it it'' : IntoIter K V A} {r}
    (h : it.drop = .ok (r, it''))
    (hd : ∀ n, some n ∈ it.store.inners → n.drop = .ok (n.ks.present, n.as.present)) :
    it.dropP bomb = .ok (upToNth bomb 2 (itemsLog bomb r ++ nodesLog bomb it.store.inners),
      endOf bomb (itemsLog bomb r ++ nodesLog bomb it.store.inners)) := by
  obtain ⟨it', h1, h2, h3⟩ := dropAuxP_ok bomb _ h
  unfold IntoIter.dropP
  rw [h1, ok_bind]
  dsimp only
  rw [h2, endOf_eq, endOf_eq, List.countP_append, Ending.plus_add]
  by_cases ha : Ending.done.plus ((itemsLog bomb r).countP bomb) = .aborted
  · have hc := (Ending.aborted_iff _).1 ha
    rw [Ending.left_plus] at hc
    have hc : 2 ≤ (itemsLog bomb r).countP bomb := by
      have : Ending.done.left = 2 := rfl
      omega
    rw [if_pos ha, ha, Ending.plus_aborted, upToNth_append_ge bomb _ _ _ hc, h3]
    rfl
  · have hc : ¬ (Ending.done.plus ((itemsLog bomb r).countP bomb)).left = 0 :=
      fun h => ha ((Ending.aborted_iff _).2 h)
    rw [Ending.left_plus] at hc
    rw [if_neg ha, dropInnersP_ok bomb _ hd _ ha, ok_bind, Ending.left_plus,
      upToNth_append_lt bomb _ _ _ (by have : Ending.done.left = 2 := rfl; omega)]
    rfl

/-- The whole of what happens when a map is dropped. -/
theorem treeDropP_ok (bomb : Destroyed K V A → Bool) {u : Tree K V A} {it it'' : IntoIter K V A} {r}
    (hi : u.intoIter = .ok it) (h : it.drop = .ok (r, it''))
    (hd : ∀ n, some n ∈ it.store.inners → n.drop = .ok (n.ks.present, n.as.present)) :
    u.dropP bomb = .ok (upToNth bomb 2 (itemsLog bomb r ++ nodesLog bomb it.store.inners ++ [.aug u.rootAug]),
      endOf bomb (itemsLog bomb r ++ nodesLog bomb it.store.inners ++ [.aug u.rootAug])) := by
  unfold Tree.dropP
  rw [hi, ok_bind, intoDropP_ok bomb h hd, ok_bind]
  dsimp only
  generalize itemsLog bomb r ++ nodesLog bomb it.store.inners = L
  rw [endOf_eq, endOf_eq, List.countP_append, Ending.plus_add]
  by_cases ha : Ending.done.plus (L.countP bomb) = .aborted
  · have hc := (Ending.aborted_iff _).1 ha
    rw [Ending.left_plus] at hc
    have hc : 2 ≤ L.countP bomb := by
      have : Ending.done.left = 2 := rfl
      omega
    rw [if_pos ha, ha, Ending.plus_aborted, upToNth_append_ge bomb _ _ _ hc]
    rfl
  · have hc : ¬ (Ending.done.plus (L.countP bomb)).left = 0 :=
      fun h => ha ((Ending.aborted_iff _).2 h)
    rw [Ending.left_plus] at hc
    have hc : L.countP bomb < 2 := by
      have : Ending.done.left = 2 := rfl
      omega
    rw [if_neg ha, upToNth_append_lt bomb _ _ _ hc, upToNth_of_lt bomb hc, List.countP_cons, List.countP_nil]
    have e2 : upToNth bomb (2 - L.countP bomb) [(.aug u.rootAug : Destroyed K V A)] = [.aug u.rootAug] := by
      obtain ⟨m, hm⟩ : ∃ m, 2 - L.countP bomb = m + 1 := ⟨1 - L.countP bomb, by omega⟩
      rw [hm, upToNth]
      cases m <;> simp [upToNth]
    rw [e2]
    cases bomb (.aug u.rootAug) <;> rfl

end Raw
end Bpt
