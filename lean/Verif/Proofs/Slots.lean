import Verif.Model.Slots
import Verif.Proofs.Ghost

/-!
# Lemmas about slot arrays
-/

namespace Bpt
namespace Slots
variable {α : Type}

/-- An array of `n` slots whose first slots hold `l` and whose other slots are empty. -/
def pad (n : Nat) (l : List α) : Slots α := l.map some ++ uninit (n - l.length)

@[simp] theorem length_uninit (n : Nat) : (uninit n : Slots α).length = n := List.length_replicate

theorem length_pad {n : Nat} {l : List α} (h : l.length ≤ n) : (pad n l).length = n := by
  simp only [pad, List.length_append, List.length_map, length_uninit]; omega

theorem pad_nil (n : Nat) : (pad n [] : Slots α) = uninit n := by simp [pad]

theorem uninit_add (m n : Nat) : (uninit (m + n) : Slots α) = uninit m ++ uninit n := by
  unfold uninit; rw [List.replicate_add]

theorem uninit_succ (n : Nat) : (uninit (n + 1) : Slots α) = none :: uninit n := rfl

theorem uninit_succ' (n : Nat) : (uninit (n + 1) : Slots α) = uninit n ++ [none] := by
  simp [uninit, List.replicate_succ']

theorem read_append {p s : Slots α} {x : α} {i : Nat} (h : i = p.length) :
    read (p ++ some x :: s) i = .ok x := by
  subst h
  simp [read]

theorem read_append_none {p s : Slots α} {i : Nat} (h : i = p.length) :
    read (p ++ none :: s) i = .error .ub := by
  subst h
  simp [read]

theorem take_append {p s : Slots α} {x : α} {i : Nat} (h : i = p.length) :
    take (p ++ some x :: s) i = .ok (x, p ++ none :: s) := by
  unfold take
  rw [read_append h]
  subst h
  simp

theorem write_append {p s : Slots α} {o : Option α} {x : α} {i : Nat} (h : i = p.length) :
    write (p ++ o :: s) i x = .ok (p ++ some x :: s) := by
  subst h
  simp [write]

theorem insert_append {p m s : Slots α} {o : Option α} {x : α} {len idx : Nat}
    (h : idx = p.length) (hl : len = p.length + m.length + 1) :
    insert (p ++ m ++ o :: s) len idx x = .ok (p ++ some x :: m ++ s) := by
  subst h hl
  unfold insert
  have e1 : p.length + m.length + 1 - p.length - 1 = m.length := by omega
  simp only [List.length_append, List.length_cons]
  rw [if_neg (by omega), if_neg (by omega)]
  split
  · unfold copyWithin
    rw [e1, if_pos (by simp only [List.length_append, List.length_cons]; omega)]
    cases m with
    | nil => simp at *
    | cons y m =>
      have e2 : List.take (p.length + 1) (p ++ y :: m ++ o :: s) = p ++ [y] := by
        rw [show p ++ y :: m ++ o :: s = (p ++ [y]) ++ (m ++ o :: s) by simp]
        exact List.take_left' (by simp)
      have e3 : List.take (y :: m).length (List.drop p.length (p ++ y :: m ++ o :: s)) = y :: m := by
        rw [List.append_assoc, List.drop_left]
        simp
      have e4 : List.drop (p.length + 1 + (y :: m).length) (p ++ y :: m ++ o :: s) = s := by
        rw [List.append_assoc]
        rw [show p ++ (y :: m ++ o :: s) = (p ++ y :: m ++ [o]) ++ s by simp]
        exact List.drop_left' (by simp; omega)
      rw [e2, e3, e4, ok_bind]
      rw [show p ++ [y] ++ y :: m ++ s = p ++ y :: (y :: m ++ s) by simp]
      rw [write_append rfl]
      simp
  · cases m with
    | nil =>
      simp only [List.append_nil]
      show (pure _ >>= _ : Res _) = _
      simp only [pure_bind]
      rw [write_append rfl]
      simp
    | cons y m =>
      rename_i h
      simp only [List.length_cons] at h
      omega

theorem remove_append {p m s : Slots α} {x : α} {len idx : Nat}
    (h : idx = p.length) (hl : len = p.length + 1 + m.length) :
    remove (p ++ some x :: m ++ s) len idx = .ok (x, p ++ m ++ none :: s) := by
  subst h hl
  unfold remove
  simp only [List.length_append, List.length_cons]
  rw [if_neg (by omega), if_neg (by omega)]
  rw [show p ++ some x :: m ++ s = p ++ some x :: (m ++ s) by simp, take_append rfl, ok_bind]
  have e1 : p.length + 1 + m.length - p.length - 1 = m.length := by omega
  simp only []
  unfold copyWithin
  rw [e1, if_pos (by simp only [List.length_append, List.length_cons]; omega)]
  have e2 : List.take p.length (p ++ none :: (m ++ s)) = p := List.take_left' rfl
  have e3 : List.take m.length (List.drop (p.length + 1) (p ++ none :: (m ++ s))) = m := by
    rw [show p ++ none :: (m ++ s) = (p ++ [none]) ++ (m ++ s) by simp,
      List.drop_left' (by simp), List.take_left' rfl]
  obtain ⟨u, o, hu⟩ : ∃ u o, (none :: m : Slots α) = u ++ [o] := by
    rcases List.eq_nil_or_concat (none :: m) with h | ⟨u, o, h⟩
    · cases h
    · exact ⟨u, o, by simpa using h⟩
  have hul : u.length = m.length := by
    have := congrArg List.length hu
    simp only [List.length_cons, List.length_append, List.length_nil] at this
    omega
  have e4 : List.drop (p.length + m.length) (p ++ none :: (m ++ s)) = o :: s := by
    rw [show p ++ none :: (m ++ s) = (p ++ u) ++ (o :: s) by
      rw [← List.cons_append, hu]; simp]
    exact List.drop_left' (by simp [hul])
  rw [e2, e3, e4, ok_bind]
  have e5 : (p ++ m ++ o :: s).set (p.length + 1 + m.length - 1) none = p ++ m ++ none :: s := by
    rw [show p.length + 1 + m.length - 1 = (p ++ m).length by rw [List.length_append]; omega]
    simp
  rw [e5]
  rfl

theorem moveTo_append {p m s p' m' s' : Slots α} {slo shi dlo dhi : Nat}
    (h1 : slo = p.length) (h2 : shi = p.length + m.length) (h3 : dlo = p'.length)
    (h4 : dhi = p'.length + m.length) (h5 : m'.length = m.length) :
    moveTo (p ++ m ++ s) slo shi (p' ++ m' ++ s') dlo dhi =
      .ok (p ++ uninit m.length ++ s, p' ++ m ++ s') := by
  subst h1 h2 h3 h4
  unfold moveTo
  rw [if_neg (by simp only [List.length_append]; omega), if_neg (by omega)]
  have e : p.length + m.length - p.length = m.length := by omega
  rw [e]
  have t1 : List.take p.length (p ++ m ++ s) = p := by
    rw [List.append_assoc]; exact List.take_left' rfl
  have t2 : List.drop (p.length + m.length) (p ++ m ++ s) = s := List.drop_left' (by simp)
  have t3 : List.take p'.length (p' ++ m' ++ s') = p' := by
    rw [List.append_assoc]; exact List.take_left' rfl
  have t4 : List.drop (p'.length + m.length) (p' ++ m' ++ s') = s' :=
    List.drop_left' (by simp [h5])
  have t5 : List.take m.length (List.drop p.length (p ++ m ++ s)) = m := by
    rw [List.append_assoc, List.drop_left' rfl]; exact List.take_left' rfl
  rw [t1, t2, t3, t4, t5]

/-! ### Arrays holding a list -/

theorem pad_append {n : Nat} {l r : List α} :
    pad n (l ++ r) = l.map some ++ pad (n - l.length) r := by
  unfold pad
  rw [List.map_append, List.append_assoc, List.length_append, Nat.sub_add_eq]

theorem pad_cons {n : Nat} {x : α} {r : List α} : pad n (x :: r) = some x :: pad (n - 1) r := by
  have := pad_append (n := n) (l := [x]) (r := r)
  simpa using this

theorem pad_eq_none {n : Nat} {l : List α} (h : l.length < n) :
    pad n l = l.map some ++ none :: uninit (n - l.length - 1) := by
  unfold pad
  rw [show n - l.length = n - l.length - 1 + 1 by omega, uninit_succ]
  rfl

theorem read_pad {n : Nat} {l : List α} {i : Nat} (h : i < l.length) :
    read (pad n l) i = .ok l[i] := by
  unfold read pad
  rw [List.getElem?_append_left (by simpa using h)]
  simp [h]

theorem write_pad_end {n : Nat} {l : List α} {i : Nat} (hi : i = l.length) (h : l.length < n) (x : α) :
    write (pad n l) i x = .ok (pad n (l ++ [x])) := by
  rw [pad_eq_none h, write_append (by simpa using hi), pad_append, pad_cons, pad_nil]

theorem split_at {l : List α} {i : Nat} (h : i < l.length) :
    l = l.take i ++ l[i] :: l.drop (i + 1) := by
  rw [List.getElem_cons_drop, List.take_append_drop]

theorem write_pad {n : Nat} {l : List α} {i : Nat} (h : i < l.length) (x : α) :
    write (pad n l) i x = .ok (pad n (l.set i x)) := by
  have e : l.set i x = l.take i ++ x :: l.drop (i + 1) := List.set_eq_take_append_cons_drop ▸ by
    simp [h]
  rw [e]
  conv_lhs => rw [split_at h]
  rw [pad_append, pad_append, pad_cons, pad_cons, write_append]
  simp only [List.length_map, List.length_take]; omega

/-- Inserting before the end of the initialised slots, in a slice with at least one free slot. -/
theorem insert_pad_slack {n : Nat} {l : List α} {len i : Nat} (hl : l.length < len) (h : i ≤ l.length)
    (hn : len ≤ n) (x : α) :
    insert (pad n l) len i x = .ok (pad n (l.take i ++ x :: l.drop i)) := by
  have ht : (l.take i).length = i := by rw [List.length_take]; omega
  have e : pad n l = (l.take i).map some ++ ((l.drop i).map some ++ uninit (len - l.length - 1)) ++
      none :: uninit (n - len) := by
    unfold pad
    rw [← uninit_succ, List.append_assoc, List.append_assoc, ← uninit_add, ← List.append_assoc,
      ← List.map_append, List.take_append_drop]
    congr 2; omega
  rw [e, insert_append (by rw [List.length_map, ht])
    (by simp only [List.length_map, List.length_take, List.length_append, List.length_drop,
      length_uninit]; omega)]
  rw [pad_append, pad_cons]
  unfold pad
  simp only [List.append_assoc, List.cons_append, List.length_drop, ht]
  rw [← uninit_add]
  congr 5; omega

theorem insert_pad {n : Nat} {l : List α} {len i : Nat} (hl : len = l.length + 1) (h : i ≤ l.length)
    (hn : l.length < n) (x : α) :
    insert (pad n l) len i x = .ok (pad n (l.take i ++ x :: l.drop i)) :=
  insert_pad_slack (by omega) h (by omega) x

theorem remove_pad {n : Nat} {l : List α} {len i : Nat} (hl : len = l.length) (h : i < l.length)
    (hn : l.length ≤ n) :
    remove (pad n l) len i = .ok (l[i], pad n (l.take i ++ l.drop (i + 1))) := by
  have ht : (l.take i).length = i := by rw [List.length_take]; omega
  conv_lhs => rw [split_at h]
  rw [pad_append, pad_cons]
  unfold pad
  rw [← List.cons_append, ← List.append_assoc]
  rw [remove_append (by rw [List.length_map, ht])
    (by simp only [List.length_map, List.length_take, List.length_drop]; omega)]
  rw [List.map_append, ← uninit_succ]
  simp only [List.length_append, ht, List.length_drop]
  rw [show n - i - 1 - (l.length - (i + 1)) + 1 = n - (i + (l.length - (i + 1))) by omega]

/-- Moving the end of an array to the front of an uninitialised one. -/
theorem moveTo_suffix {n n' : Nat} {l : List α} {lo hi d : Nat} (hl : hi = l.length)
    (h : lo ≤ l.length) (hn : l.length ≤ n) (hd : d = l.length - lo) (hn' : d ≤ n') :
    moveTo (pad n l) lo hi (uninit n') 0 d = .ok (pad n (l.take lo), pad n' (l.drop lo)) := by
  have ht : (l.take lo).length = lo := by rw [List.length_take]; omega
  have e1 : pad n l = (l.take lo).map some ++ (l.drop lo).map some ++ uninit (n - l.length) := by
    unfold pad
    rw [← List.map_append, List.take_append_drop]
  have e2 : (uninit n' : Slots α) = [] ++ uninit d ++ uninit (n' - d) := by
    rw [List.nil_append, ← uninit_add]; congr 1; omega
  rw [e1, e2, moveTo_append (by rw [List.length_map, ht])
    (by simp only [List.length_map, List.length_take, List.length_drop]; omega)
    (List.length_nil).symm
    (by simp only [List.length_map, List.length_drop, List.length_nil]; omega)
    (by simp only [length_uninit, List.length_map, List.length_drop]; omega)]
  unfold pad
  rw [List.append_assoc, ← uninit_add]
  simp only [List.length_map, List.length_drop, ht, List.nil_append]
  rw [hd, show l.length - lo + (n - l.length) = n - lo by omega]

/-- Appending the slots `lo..hi` of an array to another. -/
theorem moveTo_extend {n' : Nat} {p m s : Slots α} {q l : List α} {slo shi dlo dhi : Nat}
    (hm : m = q.map some) (h1 : slo = p.length) (h2 : shi = p.length + q.length) (h3 : dlo = l.length)
    (h4 : dhi = l.length + q.length) (hn : l.length + q.length ≤ n') :
    moveTo (p ++ m ++ s) slo shi (pad n' l) dlo dhi =
      .ok (p ++ uninit q.length ++ s, pad n' (l ++ q)) := by
  have e : pad n' l = l.map some ++ uninit q.length ++ uninit (n' - l.length - q.length) := by
    unfold pad
    rw [List.append_assoc, ← uninit_add]
    congr 2; omega
  have hml : m.length = q.length := by rw [hm, List.length_map]
  rw [e, moveTo_append h1 (by rw [h2, hml]) (by rw [h3, List.length_map])
    (by rw [h4, List.length_map, hml]) (by rw [length_uninit, hml]), hml]
  rw [pad_append, hm]
  unfold pad
  simp only [List.append_assoc]

theorem mapM_read {n : Nat} {l : List α} (k : Nat) (h : k = l.length) :
    (List.range k).mapM (fun i => read (pad n l) i) = .ok l := by
  subst h
  have key : ∀ (j : Nat), j ≤ l.length →
      (List.range j).mapM (fun i => read (pad n l) i) = .ok (l.take j) := by
    intro j
    induction j with
    | zero => intro _; rfl
    | succ j ih =>
      intro hj
      rw [List.range_succ, List.mapM_append, ih (by omega), ok_bind]
      simp only [List.mapM_cons, List.mapM_nil, read_pad (n := n) (show j < l.length by omega), ok_bind,
        pure_ok]
      rw [List.take_add_one, List.getElem?_eq_getElem (by omega)]
      rfl
  rw [key _ (Nat.le_refl _), List.take_length]

theorem clonePrefix_pad {n cap : Nat} {l : List α} {k : Nat} (h : k = l.length) (hc : l.length ≤ cap) :
    clonePrefix (pad n l) k cap = .ok (pad cap l) := by
  have key : ∀ j, j ≤ l.length → (List.range j).foldlM (fun (b : Slots α) i => (do
      let x ← (pad n l).read i
      b.write i x : Res (Slots α))) (uninit cap) = .ok (pad cap (l.take j)) := by
    intro j
    induction j with
    | zero => intro _; simp [pad_nil, pure_ok]
    | succ j ih =>
      intro hj
      rw [List.range_succ, List.foldlM_append, ih (by omega), ok_bind]
      simp only [List.foldlM_cons, List.foldlM_nil]
      rw [read_pad (by omega), ok_bind, write_pad_end (by rw [List.length_take]; omega)
        (by rw [List.length_take]; omega), ok_bind, List.take_add_one,
        List.getElem?_eq_getElem (by omega)]
      rfl
  unfold clonePrefix
  rw [h, key _ (Nat.le_refl _), List.take_length]

end Slots
end Bpt
