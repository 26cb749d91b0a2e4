import Verif.Props.Slots

/-!
# C35 (inner nodes): storage is in bounds, initialised, and loses nothing; C36: drops of inner nodes
-/

namespace Bpt
open Slots Spec

namespace InnerS
variable {K A : Type}

/-- The first slots of the three arrays hold `ks`, `cs`, `as`; the others hold nothing. -/
structure Holds (n : InnerS K A) (ks : List K) (cs : List NodeId) (as : List A) : Prop where
  size : n.size = ks.length
  cap : ks.length ≤ 64
  clen : cs.length = ks.length + 1
  alen : as.length = ks.length + 1
  hks : n.ks = pad 64 ks
  hcs : n.cs = pad 65 cs
  has : n.as = pad 65 as

variable {n : InnerS K A} {ks : List K} {cs : List NodeId} {as : List A}

theorem fill_ok {α : Type} {N : Nat} (xs : List α) (h : xs.length ≤ N) :
    fill (uninit N) xs = .ok (pad N xs) := by
  have key : ∀ (ys zs : List α), zs.length + ys.length ≤ N →
      (ys.zipIdx zs.length).foldlM (fun (a : Slots α) (x, i) =>
        (if i < a.length then .ok (a.set i (some x)) else .error .panic : Res (Slots α))) (pad N zs) =
        .ok (pad N (zs ++ ys)) := by
    intro ys
    induction ys with
    | nil => intro zs _; simp [pure_ok]
    | cons y ys ih =>
      intro zs hl
      rw [List.length_cons] at hl
      simp only [List.zipIdx_cons, List.foldlM_cons]
      have hw := write_pad_end (n := N) (l := zs) rfl (by omega) y
      have hlt : zs.length < (pad N zs).length := by rw [length_pad (by omega)]; omega
      unfold Slots.write at hw
      rw [if_pos hlt] at hw
      rw [if_pos hlt, hw, ok_bind]
      have := ih (zs ++ [y]) (by simp; omega)
      simp only [List.length_append, List.length_cons, List.length_nil, List.append_assoc,
        List.cons_append, List.nil_append] at this
      exact this
  have := key xs [] (by simpa using h)
  rw [pad_nil] at this
  simpa [fill] using this

/-- `new_from_iter`. -/
theorem C35_inner_new (hk : ks.length ≤ 64) (hc : cs.length = ks.length + 1)
    (ha : as.length = ks.length + 1) :
    ∃ n, newFromIter ks cs as = .ok n ∧ n.Holds ks cs as := by
  unfold newFromIter
  have h1 := fill_ok (N := 64) ks hk
  have h2 := fill_ok (N := 65) cs (by omega)
  have h3 := fill_ok (N := 65) as (by omega)
  simp only [empty]
  erw [h1, ok_bind, h2, ok_bind, h3, ok_bind]
  rw [if_neg (by rw [hc]; simp)]
  exact ⟨_, rfl, rfl, hk, hc, ha, rfl, rfl, rfl⟩

theorem Holds.keys (h : n.Holds ks cs as) : n.keys = .ok ks := by
  unfold InnerS.keys
  rw [h.hks, h.size, length_pad h.cap, if_pos h.cap, mapM_read _ rfl]

/-- Reading an inner node. -/
theorem C35_inner_read (h : n.Holds ks cs as) :
    n.keys = .ok ks ∧ n.augmentations = .ok as ∧
    (∀ i (hi : i < ks.length), n.key i = .ok ks[i]) ∧
    (∀ i (hi : i < cs.length), n.childId i = .ok cs[i]) := by
  refine ⟨h.keys, ?_, ?_, ?_⟩
  · have := h.cap
    have := h.alen
    unfold InnerS.augmentations
    rw [h.has, h.size, length_pad (by omega), if_pos (by omega), mapM_read _ h.alen.symm]
  · intro i hi
    unfold InnerS.key
    rw [h.hks, read_pad hi]
  · intro i hi
    unfold InnerS.childId
    rw [h.hcs, read_pad hi]

/-- `locate_child` reads a child that exists: the one before the first greater key. -/
theorem C35_inner_locate [LinearOrder K] (h : n.Holds ks cs as) (hs : ks.Pairwise (· < ·)) (k : K) :
    ∃ (i : Nat) (hi : i < cs.length), n.locateChild k = .ok (i, cs[i]) ∧
      i = (ks.filter (fun x => x ≤ k)).length := by
  have hc := h.clen
  unfold InnerS.locateChild
  rw [h.keys, ok_bind]
  rcases sorted_cases hs k with ⟨a, b, rfl, h1, h2⟩ | ⟨a, b, rfl, h1, h2⟩
  · rw [bsearch_found h1]
    have hi : a.length + 1 < cs.length := by
      rw [hc]; simp only [List.length_append, List.length_cons]; omega
    refine ⟨a.length + 1, hi, ?_, ?_⟩
    · simp only []
      rw [(C35_inner_read h).2.2.2 _ hi]
      rfl
    · rw [List.filter_append, List.filter_cons, if_pos (by simp),
        List.filter_eq_self.2 (by simpa using fun x hx => le_of_lt (h1 x hx)),
        List.filter_eq_nil_iff.2 (by simpa using h2)]
      simp
  · rw [bsearch_vacant h1 h2]
    have hi : a.length < cs.length := by
      rw [hc]; simp only [List.length_append]; omega
    refine ⟨a.length, hi, ?_, ?_⟩
    · simp only []
      rw [(C35_inner_read h).2.2.2 _ hi]
      rfl
    · rw [List.filter_append, List.filter_eq_self.2 (by simpa using fun x hx => le_of_lt (h1 x hx)),
        List.filter_eq_nil_iff.2 (by simpa using h2)]
      simp

/-- `set_augmentation`, `set_key`. -/
theorem C35_inner_set (h : n.Holds ks cs as) :
    (∀ i, i < as.length → ∀ a, ∃ n', n.setAugmentation i a = .ok n' ∧ n'.Holds ks cs (as.set i a)) ∧
    (∀ i (hi : i < ks.length), ∀ k, ∃ n', n.setKey i k = .ok (ks[i], n') ∧
      n'.Holds (ks.set i k) cs as) := by
  constructor
  · intro i hi a
    unfold InnerS.setAugmentation
    rw [h.has, read_pad hi, write_pad hi]
    exact ⟨_, rfl, h.size, h.cap, h.clen, by simpa using h.alen, h.hks, h.hcs, rfl⟩
  · intro i hi k
    unfold InnerS.setKey
    rw [h.hks, read_pad hi, write_pad hi]
    exact ⟨_, rfl, by simpa using h.size, by simpa using h.cap, by simpa using h.clen,
      by simpa using h.alen, rfl, h.hcs, h.has⟩

/-- `insert_at`: a key at `slot` with its right child. -/
theorem C35_inner_insert (h : n.Holds ks cs as) {slot : Nat} (hs : slot ≤ ks.length)
    (hk : ks.length < 64) (k : K) (c : NodeId) (a : A) :
    ∃ n', n.insertAt slot k c a = .ok n' ∧
      n'.Holds (ks.take slot ++ k :: ks.drop slot) (cs.take (slot + 1) ++ c :: cs.drop (slot + 1))
        (as.take (slot + 1) ++ a :: as.drop (slot + 1)) := by
  have hc := h.clen
  have ha := h.alen
  unfold InnerS.insertAt
  rw [h.size, if_neg (not_not.2 hs), if_neg (by show ¬ _ = 64; omega), h.hks, h.hcs, h.has]
  simp only []
  rw [insert_pad rfl hs hk, insert_pad (by omega) (by omega) (by omega),
    insert_pad (by omega) (by omega) (by omega)]
  refine ⟨_, rfl, ?_, ?_, ?_, ?_, rfl, rfl, rfl⟩
  all_goals simp only [List.length_append, List.length_cons, List.length_take, List.length_drop]
  all_goals omega

theorem remove_pad' {α : Type} {N : Nat} {l : List α} {len i : Nat} (hl : len = l.length)
    (h : i < l.length) (hn : l.length ≤ N) :
    Slots.remove (pad N l) len i = .ok (l[i], pad N (l.eraseIdx i)) := by
  rw [remove_pad hl h hn, List.eraseIdx_eq_take_drop_succ]

/-- `remove_slot_with_right`: the key at `slot` and the child to its right; reports whether the node
still has its minimum size. -/
theorem C35_inner_remove_slot (h : n.Holds ks cs as) {slot : Nat} (hs : slot < ks.length) :
    ∃ n', n.removeSlotWithRight slot = .ok (decide (16 ≤ ks.length - 1), ks[slot], n') ∧
      n'.Holds (ks.eraseIdx slot) (cs.eraseIdx (slot + 1)) (as.eraseIdx (slot + 1)) := by
  have hk := h.cap
  have hc := h.clen
  have ha := h.alen
  unfold InnerS.removeSlotWithRight
  rw [h.hks, h.hcs, h.has, h.size, remove_pad' rfl hs hk, ok_bind]
  simp only []
  rw [remove_pad' (by omega) (by omega) (by omega), ok_bind]
  simp only []
  rw [remove_pad' (by omega) (by omega) (by omega), ok_bind]
  refine ⟨_, rfl, ?_, ?_, ?_, ?_, rfl, rfl, rfl⟩
  · rw [List.length_eraseIdx_of_lt hs]
  · rw [List.length_eraseIdx_of_lt hs]; omega
  · rw [List.length_eraseIdx_of_lt hs, List.length_eraseIdx_of_lt (by omega)]; omega
  · rw [List.length_eraseIdx_of_lt hs, List.length_eraseIdx_of_lt (by omega)]; omega

theorem take_last {α : Type} {N : Nat} {l : List α} {i : Nat} (hi : i < l.length)
    (he : i + 1 = l.length) (hn : l.length ≤ N) :
    Slots.take (pad N l) i = .ok (l[i], pad N l.dropLast) := by
  have e : l = l.dropLast ++ [l[i]] := by
    conv_lhs => rw [split_at hi]
    rw [he, List.drop_length, List.dropLast_eq_take, show l.length - 1 = i by omega]
  have hd : l.dropLast.length = i := by rw [List.length_dropLast]; omega
  conv_lhs => rw [e]
  rw [pad_append, pad_cons, pad_nil, take_append (by rw [List.length_map, hd])]
  rw [← uninit_succ]
  unfold pad
  rw [hd, show N - i - 1 + 1 = N - i by omega]

/-- `pop` and `pop_front`, which lend a child to a sibling. -/
theorem C35_inner_pop (h : n.Holds ks cs as) (h0 : 0 < ks.length) :
    (∃ n', n.pop = .ok ((ks[ks.length - 1], cs[ks.length]'(by have := h.clen; omega),
        as[ks.length]'(by have := h.alen; omega)), n') ∧ n'.Holds ks.dropLast cs.dropLast as.dropLast) ∧
    (∃ n', n.popFront = .ok ((ks[0], cs[0]'(by have := h.clen; omega),
        as[0]'(by have := h.alen; omega)), n') ∧ n'.Holds ks.tail cs.tail as.tail) := by
  have hk := h.cap
  have hc := h.clen
  have ha := h.alen
  constructor
  · unfold InnerS.pop
    rw [h.size, if_neg (by omega), h.hks, h.hcs, h.has,
      take_last (i := ks.length - 1) (by omega) (by omega) hk, ok_bind]
    simp only []
    rw [take_last (by omega) hc.symm (by omega), ok_bind]
    simp only []
    rw [take_last (by omega) ha.symm (by omega), ok_bind]
    refine ⟨_, rfl, ?_, ?_, ?_, ?_, rfl, rfl, rfl⟩
    all_goals simp only [List.length_dropLast]
    all_goals omega
  · unfold InnerS.popFront
    rw [h.size, h.hks, h.hcs, h.has, remove_pad' rfl h0 hk, ok_bind]
    simp only []
    rw [remove_pad' hc.symm (by omega) (by omega), ok_bind]
    simp only []
    rw [remove_pad' ha.symm (by omega) (by omega), ok_bind]
    refine ⟨_, rfl, ?_, ?_, ?_, ?_, ?_, ?_, ?_⟩
    all_goals simp only [List.length_tail, List.eraseIdx_zero]
    all_goals omega

/-- `push` and `push_front`, which take a child from a sibling. -/
theorem C35_inner_push (h : n.Holds ks cs as) (hk : ks.length < 64) (k : K) (c : NodeId) (a : A) :
    (∃ n', n.push k c a = .ok n' ∧ n'.Holds (ks ++ [k]) (cs ++ [c]) (as ++ [a])) ∧
    (∃ n', n.pushFront k c a = .ok n' ∧ n'.Holds (k :: ks) (c :: cs) (a :: as)) := by
  have hc := h.clen
  have ha := h.alen
  constructor
  · unfold InnerS.push
    rw [h.size, h.hks, h.hcs, h.has, write_pad_end rfl hk, write_pad_end hc.symm (by omega),
      write_pad_end ha.symm (by omega)]
    refine ⟨_, rfl, ?_, ?_, ?_, ?_, rfl, rfl, rfl⟩
    all_goals simp only [List.length_append, List.length_cons, List.length_nil]
    all_goals omega
  · unfold InnerS.pushFront
    rw [h.size, h.hks, h.hcs, h.has, insert_pad rfl (by omega) hk,
      insert_pad (by omega) (by omega) (by omega), insert_pad (by omega) (by omega) (by omega)]
    refine ⟨_, rfl, ?_, ?_, ?_, ?_, rfl, rfl, rfl⟩
    all_goals simp only [List.length_cons]
    all_goals omega

/-- `merge_next`: the right node is emptied. -/
theorem merge_next_ok {m : InnerS K A} {ks' : List K} {cs' : List NodeId} {as' : List A}
    (h : n.Holds ks cs as) (hm : m.Holds ks' cs' as') (hc : ks.length + 1 + ks'.length ≤ 64) (k : K) :
    ∃ n', n.mergeNext k m = .ok (n', ⟨0, uninit 64, uninit 65, uninit 65⟩) ∧
      n'.Holds (ks ++ k :: ks') (cs ++ cs') (as ++ as') := by
  have hc1 := h.clen
  have ha1 := h.alen
  have hc2 := hm.clen
  have ha2 := hm.alen
  have ex : ∀ {α : Type} {N : Nat} (l r : List α), l.length + r.length ≤ N → r.length ≤ N →
      moveTo (pad N r) 0 r.length (pad N l) l.length (l.length + r.length) =
        .ok (uninit N, pad N (l ++ r)) := by
    intro α N l r h1 h2
    rw [show pad N r = [] ++ r.map some ++ uninit (N - r.length) from by simp [pad]]
    rw [moveTo_extend rfl (List.length_nil).symm (by simp) rfl rfl h1]
    rw [List.nil_append, ← uninit_add]
    congr 3; omega
  unfold InnerS.mergeNext
  rw [h.size, hm.size, h.hks, h.hcs, h.has, hm.hks, hm.hcs, hm.has,
    write_pad_end rfl (by omega), ok_bind]
  simp only []
  rw [if_neg (not_not.2 hc)]
  have e1 := ex (N := 64) (ks ++ [k]) ks' (by simp; omega) (by omega)
  have e2 := ex (N := 65) cs cs' (by omega) (by omega)
  have e3 := ex (N := 65) as as' (by omega) (by omega)
  simp only [List.length_append, List.length_cons, List.length_nil, Nat.zero_add] at e1
  rw [hc1, hc2, ← Nat.add_assoc] at e2
  rw [ha1, ha2, ← Nat.add_assoc] at e3
  rw [e1, ok_bind]
  simp only []
  rw [e2, ok_bind]
  simp only []
  rw [e3, ok_bind]
  refine ⟨_, rfl, ?_, ?_, ?_, ?_, ?_, rfl, rfl⟩
  · simp; omega
  · simp; omega
  · simp; omega
  · simp; omega
  · simp

/-- `merge_next`: all keys, children and augmentations end up in the left node. -/
theorem C35_inner_merge {m : InnerS K A} {ks' : List K} {cs' : List NodeId} {as' : List A}
    (h : n.Holds ks cs as) (hm : m.Holds ks' cs' as') (hc : ks.length + 1 + ks'.length ≤ 64) (k : K) :
    ∃ n' m', n.mergeNext k m = .ok (n', m') ∧ n'.Holds (ks ++ k :: ks') (cs ++ cs') (as ++ as') ∧
      m'.size = 0 ∧ m'.ks = uninit 64 ∧ m'.cs = uninit 65 ∧ m'.as = uninit 65 := by
  obtain ⟨n', h1, h2⟩ := merge_next_ok h hm hc k
  exact ⟨n', _, h1, h2, rfl, rfl, rfl, rfl⟩

theorem splitLow_ok {α : Type} {N N' : Nat} {p : Slots α} {q l : List α} {stop len idx : Nat}
    (hp : p.length = 32) (hst : stop = 32 + q.length) (hl : p ++ uninit q.length = pad N l)
    (h1 : l.length < len) (h2 : len ≤ N) (h3 : idx ≤ l.length) (h4 : q.length ≤ N') (x : α) :
    splitLow (p ++ q.map some) (uninit N') stop len idx x =
      .ok (pad N (l.take idx ++ x :: l.drop idx), pad N' q) := by
  unfold splitLow
  have e : (uninit N' : Slots α) = [] ++ uninit q.length ++ uninit (N' - q.length) := by
    rw [List.nil_append, ← uninit_add]; congr 1; omega
  have m := moveTo_append (p := p) (m := q.map some) (s := []) (p' := []) (m' := uninit q.length)
    (s' := uninit (N' - q.length)) (slo := 32) (shi := stop) (dlo := 0) (dhi := stop - 32)
    hp.symm (by rw [List.length_map]; omega) rfl
    (by rw [List.length_map]; simp only [List.length_nil]; omega) (by simp)
  rw [List.append_nil, ← e, List.length_map, List.append_nil, hl, List.nil_append] at m
  show (moveTo _ 32 stop _ 0 (stop - 32) >>= _) = _
  rw [m, ok_bind]
  simp only []
  rw [insert_pad_slack h1 h3 h2, ok_bind]
  rfl

theorem splitHigh_ok {α : Type} {N' : Nat} {p : Slots α} {q1 q2 : List α} {stop idx : Nat}
    (hp : p.length = 33) (h1 : q1.length = idx) (hst : stop = 33 + idx + q2.length)
    (h4 : idx + 1 + q2.length ≤ N') (x : α) :
    splitHigh (p ++ q1.map some ++ q2.map some) (uninit N') stop idx x =
      .ok (p ++ uninit (idx + q2.length), pad N' (q1 ++ x :: q2)) := by
  unfold splitHigh
  have e : (uninit N' : Slots α) = pad N' [] := (pad_nil _).symm
  have m := moveTo_extend (n' := N') (p := p) (m := q1.map some) (s := q2.map some) (q := q1)
    (l := []) (slo := 33) (shi := 33 + idx) (dlo := 0) (dhi := idx) rfl hp.symm
    (by rw [hp, h1]) rfl (by simp [h1]) (by simp only [List.length_nil]; omega)
  show (moveTo _ (32 + 1) (32 + 1 + idx) _ 0 idx >>= _) = _
  rw [e, m, ok_bind, List.nil_append]
  simp only []
  rw [write_pad_end h1.symm (by omega), ok_bind]
  have m2 := moveTo_extend (n' := N') (p := p ++ uninit q1.length) (m := q2.map some) (s := [])
    (q := q2) (l := q1 ++ [x]) (slo := 33 + idx) (shi := stop) (dlo := idx + 1) (dhi := stop - 32) rfl
    (by simp [hp, h1]) (by simp [hp, h1]; omega) (by simp [h1]) (by simp [h1]; omega)
    (by simp [h1]; omega)
  rw [List.append_nil, List.append_nil] at m2
  show (moveTo _ (33 + idx) stop _ (idx + 1) (stop - 32) >>= _) = _
  rw [m2, ok_bind, h1, List.append_assoc, ← uninit_add, List.append_assoc]
  rfl

theorem full_pad {α : Type} {N : Nat} {l : List α} (h : l.length = N) (i : Nat) :
    pad N l = (l.take i).map some ++ (l.drop i).map some := by
  unfold pad
  rw [← List.map_append, List.take_append_drop, h, Nat.sub_self]
  simp [uninit]

theorem cut_low {α : Type} {l : List α} {j m : Nat} (h : j ≤ m) (x : α) :
    ((l.take m).take j ++ x :: (l.take m).drop j) ++ l.drop m = l.take j ++ x :: l.drop j := by
  rw [List.take_take, min_eq_left h, List.append_assoc, List.cons_append]
  congr 2
  have := congrArg (List.drop j) (List.take_append_drop m l)
  rcases Nat.lt_or_ge l.length m with hl | hl
  · rw [List.take_of_length_le (by omega), List.drop_of_length_le (by omega : l.length ≤ m)]
    simp
  · rw [List.drop_append_of_le_length (by rw [List.length_take]; omega)] at this
    exact this

theorem cut_high {α : Type} {l : List α} {j m : Nat} (x : α) :
    l.take m ++ ((l.drop m).take j ++ x :: (l.drop m).drop j) =
      l.take (m + j) ++ x :: l.drop (m + j) := by
  rw [List.drop_drop, List.take_add, List.append_assoc]

/-- `split` of a full node at any child index: the two halves together are the node with the new key
and child inserted, the promoted key sits between them, and each half has 32 keys. -/
theorem C35_inner_split (h : n.Holds ks cs as) (hf : ks.length = 64) {i : Nat} (hi : i ≤ 64)
    (k : K) (c : NodeId) (a : A) :
    ∃ up n' m ks1 cs1 as1 ks2 cs2 as2, n.split i k c a = .ok (up, n', m) ∧
      n'.Holds ks1 cs1 as1 ∧ m.Holds ks2 cs2 as2 ∧ ks1.length = 32 ∧ ks2.length = 32 ∧
      ks1 ++ up :: ks2 = ks.take i ++ k :: ks.drop i ∧
      cs1 ++ cs2 = cs.take (i + 1) ++ c :: cs.drop (i + 1) ∧
      as1 ++ as2 = as.take (i + 1) ++ a :: as.drop (i + 1) := by
  have hc := h.clen
  have ha := h.alen
  rw [hf] at hc ha
  -- children and augmentations are treated alike
  have low : ∀ {α : Type} (l : List α) (x : α), l.length = 65 → i < 32 →
      splitLow (pad 65 l) (uninit 65) 65 34 (i + 1) x =
        .ok (pad 65 ((l.take 32).take (i + 1) ++ x :: (l.take 32).drop (i + 1)),
          pad 65 (l.drop 32)) := by
    intro α l x hl hlt
    rw [full_pad hl 32]
    have lt : (l.take 32).length = 32 := by rw [List.length_take]; omega
    have ld : (l.drop 32).length = 33 := by rw [List.length_drop]; omega
    refine splitLow_ok (l := l.take 32) (by rw [List.length_map, lt]) (by rw [ld]) ?_ (by rw [lt]; omega)
      (by omega) (by omega) (by rw [ld]; omega) x
    unfold pad
    rw [ld, lt]
  have high : ∀ {α : Type} (l : List α) (x : α), l.length = 65 → 32 < i →
      splitHigh (pad 65 l) (uninit 65) 65 (i - 32) x =
        .ok (pad 65 (l.take 33), pad 65 ((l.drop 33).take (i - 32) ++ x :: (l.drop 33).drop (i - 32))) := by
    intro α l x hl hlt
    rw [full_pad hl 33]
    have lt : (l.take 33).length = 33 := by rw [List.length_take]; omega
    have ld : (l.drop 33).length = 32 := by rw [List.length_drop]; omega
    have e : (l.drop 33).map some =
        ((l.drop 33).take (i - 32)).map some ++ ((l.drop 33).drop (i - 32)).map some := by
      rw [← List.map_append, List.take_append_drop]
    have e1 : ((l.drop 33).take (i - 32)).length = i - 32 := by rw [List.length_take, ld]; omega
    have e2 : ((l.drop 33).drop (i - 32)).length = 32 - (i - 32) := by rw [List.length_drop, ld]
    rw [e, ← List.append_assoc, splitHigh_ok (by rw [List.length_map, lt]) e1 (by omega) (by omega), e2]
    have e3 : pad 65 (l.take 33) = (l.take 33).map some ++ uninit (i - 32 + (32 - (i - 32))) := by
      unfold pad
      rw [lt]; congr 2; omega
    rw [e3]
  have eqc : ∀ {α : Type} (l : List α) (x : α), l.length = 65 → ∃ m', moveTo (pad 65 l) 33 65
      (uninit 65) 1 33 = .ok (pad 65 (l.take 33), m') ∧ m'.write 0 x = .ok (pad 65 (x :: l.drop 33)) := by
    intro α l x hl
    have lt : (l.take 33).length = 33 := by rw [List.length_take]; omega
    have ld : (l.drop 33).length = 32 := by rw [List.length_drop]; omega
    have m := moveTo_append (p := (l.take 33).map some) (m := (l.drop 33).map some) (s := [])
      (p' := [none]) (m' := uninit 32) (s' := uninit 32) (slo := 33) (shi := 65) (dlo := 1)
      (dhi := 33) (by rw [List.length_map, lt]) (by simp only [List.length_map, lt, ld]) rfl
      (by simp only [List.length_map, ld]; rfl) (by simp only [List.length_map, ld, length_uninit])
    rw [List.append_nil, ← full_pad hl 33] at m
    refine ⟨[none] ++ (l.drop 33).map some ++ uninit 32, ?_, ?_⟩
    · rw [show (uninit 65 : Slots α) = [none] ++ uninit 32 ++ uninit 32 from rfl, m]
      unfold pad
      simp only [List.length_map, lt, ld, List.append_nil]
    · rw [show [none] ++ (l.drop 33).map some ++ uninit 32 =
        [] ++ none :: ((l.drop 33).map some ++ uninit 32) by simp]
      rw [write_append (List.length_nil).symm, pad_cons]
      unfold pad
      rw [ld]
      rfl
  have hcapn : ¬ n.size ≠ innerN := by rw [h.size, hf]; simp
  unfold InnerS.split
  rw [if_neg hcapn]
  simp only [empty]
  by_cases h1 : i < 32
  · rw [if_pos (show i < splitOrigin from h1)]
    have l31 : (ks.take 31).length = 31 := by rw [List.length_take]; omega
    have l32 : (ks.drop 32).length = 32 := by rw [List.length_drop]; omega
    have hk1 : Slots.take n.ks (splitOrigin - 1) = .ok (ks[31],
        ((ks.take 31).map some ++ [none]) ++ (ks.drop 32).map some) := by
      rw [h.hks, full_pad hf 31, ← List.getElem_cons_drop (i := 31) (by omega), List.map_cons,
        take_append (by rw [List.length_map, l31]; rfl)]
      simp
    have hk2 : splitLow (((ks.take 31).map some ++ [none]) ++ (ks.drop 32).map some) (uninit innerN)
        innerN (splitOrigin + 1) i k = .ok (pad 64 ((ks.take 31).take i ++ k :: (ks.take 31).drop i),
          pad 64 (ks.drop 32)) := by
      refine splitLow_ok (by rw [List.length_append, List.length_map, l31]; rfl) (by rw [l32]) ?_
        (by rw [l31]; decide) (by decide) (by omega) (by rw [l32]; decide) k
      unfold pad
      rw [l31, l32, List.append_assoc]
      rfl
    rw [hk1, ok_bind]
    simp only []
    erw [hk2, ok_bind]
    simp only []
    rw [h.hcs, h.has]
    erw [low cs c hc h1, ok_bind, low as a ha h1, ok_bind]
    refine ⟨_, _, _, _, _, _, _, _, _, rfl, ⟨?_, ?_, ?_, ?_, rfl, rfl, rfl⟩,
      ⟨?_, ?_, ?_, ?_, rfl, rfl, rfl⟩, ?_, ?_, ?_, ?_, ?_⟩
    all_goals first
      | (simp only [List.length_append, List.length_cons, List.length_take, List.length_drop, hf, hc,
          ha]; done)
      | (simp only [List.length_append, List.length_cons, List.length_take, List.length_drop, hf, hc,
          ha]; first | omega | (show 32 = _; omega) | (show 64 - 32 = _; omega))
      | exact cut_low (by omega) _
      | skip
    rw [← cut_low (l := ks) (m := 31) (by omega : i ≤ 31) k]
    rw [← List.getElem_cons_drop (i := 31) (by omega)]
  · rw [if_neg (show ¬ i < splitOrigin from h1)]
    by_cases h2 : 32 < i
    · rw [if_pos (show splitOrigin < i from h2)]
      have l32 : (ks.take 32).length = 32 := by rw [List.length_take]; omega
      have l33 : (ks.drop 33).length = 31 := by rw [List.length_drop]; omega
      have e1 : ((ks.drop 33).take (i - 1 - 32)).length = i - 1 - 32 := by
        rw [List.length_take, l33]; omega
      have e2 : ((ks.drop 33).drop (i - 1 - 32)).length = 31 - (i - 1 - 32) := by
        rw [List.length_drop, l33]
      have hk1 : Slots.take n.ks splitOrigin = .ok (ks[32],
          ((ks.take 32).map some ++ [none]) ++ ((ks.drop 33).take (i - 1 - 32)).map some ++
            ((ks.drop 33).drop (i - 1 - 32)).map some) := by
        rw [h.hks, full_pad hf 32, ← List.getElem_cons_drop (i := 32) (by omega), List.map_cons,
          take_append (by rw [List.length_map, l32])]
        rw [List.append_assoc _ (((ks.drop 33).take (i - 1 - 32)).map some), ← List.map_append,
          List.take_append_drop]
        simp
      have hk2 : splitHigh (((ks.take 32).map some ++ [none]) ++
          ((ks.drop 33).take (i - 1 - 32)).map some ++ ((ks.drop 33).drop (i - 1 - 32)).map some)
          (uninit innerN) innerN (i - 1 - splitOrigin) k = .ok (pad 64 (ks.take 32),
          pad 64 ((ks.drop 33).take (i - 1 - 32) ++ k :: (ks.drop 33).drop (i - 1 - 32))) := by
        rw [splitHigh_ok (by rw [List.length_append, List.length_map, l32]; rfl) e1 (by rw [e2]; show 64 = 33 + (i - 1 - 32) + _; omega)
          (by rw [e2]; show (i - 1 - 32) + 1 + _ ≤ 64; omega)]
        congr 2
        unfold pad
        rw [e2, l32, List.append_assoc]
        congr 1
        show none :: uninit ((i - 1 - 32) + _) = _
        rw [← uninit_succ]
        congr 1; omega
      rw [hk1, ok_bind]
      simp only []
      erw [hk2, ok_bind]
      simp only []
      rw [h.hcs, h.has]
      erw [high cs c hc h2, ok_bind, high as a ha h2, ok_bind]
      refine ⟨_, _, _, _, _, _, _, _, _, rfl, ⟨?_, ?_, ?_, ?_, rfl, rfl, rfl⟩,
        ⟨?_, ?_, ?_, ?_, rfl, rfl, rfl⟩, ?_, ?_, ?_, ?_, ?_⟩
      all_goals first
        | (simp only [List.length_append, List.length_cons, List.length_take, List.length_drop, hf, hc,
            ha]; done)
        | (simp only [List.length_append, List.length_cons, List.length_take, List.length_drop, hf, hc,
            ha]; first | omega | (show 32 = _; omega) | (show 64 - 32 = _; omega))
        | (rw [cut_high, show 33 + (i - 32) = i + 1 by omega])
        | skip
      have := cut_high (l := ks) (m := 33) (j := i - 1 - 32) k
      rw [show 33 + (i - 1 - 32) = i by omega] at this
      have t : ks.take 33 = ks.take 32 ++ [ks[32]] := by
        rw [show (33 : Nat) = 32 + 1 from rfl, List.take_add_one, List.getElem?_eq_getElem (by omega)]
        rfl
      rw [← this, t, List.append_assoc]
      rfl
    · rw [if_neg (show ¬ splitOrigin < i from h2)]
      have hi32 : i = 32 := by omega
      subst hi32
      have hk1 : n.ks.moveTo splitOrigin innerN (uninit innerN) 0 (innerN - splitOrigin) =
          .ok (pad 64 (ks.take 32), pad 64 (ks.drop 32)) := by
        rw [h.hks]
        exact moveTo_suffix hf.symm (by rw [hf]; decide) (by rw [hf]) (by rw [hf]) (by decide)
      obtain ⟨mc, hc1, hc2⟩ := eqc cs c hc
      obtain ⟨ma, ha1, ha2⟩ := eqc as a ha
      rw [hk1, ok_bind]
      simp only []
      rw [h.hcs, h.has]
      erw [hc1, ok_bind, ha1, ok_bind, hc2, ok_bind, ha2, ok_bind]
      refine ⟨_, _, _, _, _, _, _, _, _, rfl, ⟨?_, ?_, ?_, ?_, rfl, rfl, rfl⟩,
        ⟨?_, ?_, ?_, ?_, rfl, rfl, rfl⟩, ?_, ?_, ?_, ?_, ?_⟩
      all_goals first
        | (simp only [List.length_append, List.length_cons, List.length_take, List.length_drop, hf, hc,
            ha]; done)
        | (simp only [List.length_append, List.length_cons, List.length_take, List.length_drop, hf, hc,
            ha]; first | omega | (show 32 = _; omega) | (show 64 - 32 = _; omega))
        | rfl

/-! ## Dropping inner nodes -/

/-- Dropping a node drops each of its keys and augmentations once. -/
theorem C36_inner_drop_partial (h : n.Holds ks cs as) : n.drop = .ok (ks, as) := by
  unfold InnerS.drop dropPrefix
  rw [h.size, h.hks, h.has, mapM_read _ rfl, ok_bind, mapM_read _ h.alen.symm]
  rfl

/-- Merging two inner nodes always ends in a drop of an augmentation that has been moved away: the
right node is emptied and given size 0, but a node of size 0 still owns one augmentation according to
`Drop`. The value dropped is the one the left node now owns. -/
theorem C36_merge_double_drop_refuted {m : InnerS K A} {ks' : List K} {cs' : List NodeId}
    {as' : List A} {p : InnerS K A} {pks : List K} {pcs : List NodeId} {pas : List A}
    (hp : p.Holds pks pcs pas) (h : n.Holds ks cs as) (hm : m.Holds ks' cs' as')
    (hc : ks.length + 1 + ks'.length ≤ 64) {slot : Nat} (hs : slot < pks.length) :
    (∃ n' m', n.mergeNext pks[slot] m = .ok (n', m') ∧
      n'.as.read (ks.length + 1) = .ok (as'[0]'(by rw [hm.alen]; omega)) ∧ m'.drop = .error .ub) ∧
    p.mergeInnerNode n m slot = .error .ub := by
  obtain ⟨n', h1, h2⟩ := merge_next_ok h hm hc pks[slot]
  have hd : (⟨0, uninit 64, uninit 65, uninit 65⟩ : InnerS K A).drop = .error .ub := rfl
  obtain ⟨p', h3, _⟩ := C35_inner_remove_slot hp hs
  have ha := h.alen
  have ha' := hm.alen
  refine ⟨⟨n', _, h1, ?_, hd⟩, ?_⟩
  · rw [h2.has, read_pad (by rw [List.length_append]; omega)]
    congr 1
    rw [List.getElem_append_right (by omega)]
    congr 1
    omega
  · unfold InnerS.mergeInnerNode
    rw [h3, ok_bind]
    simp only []
    rw [h1, ok_bind]
    simp only []
    rw [hd]
    rfl

/-! ## Clone -/

theorem C35_inner_clone (h : n.Holds ks cs as) : ∃ n', n.clone = .ok n' ∧ n'.Holds ks cs as := by
  unfold InnerS.clone
  have ha := h.alen
  have hc := h.cap
  rw [h.size, h.hks, h.has, clonePrefix_pad rfl h.cap, ok_bind,
    clonePrefix_pad ha.symm (by show as.length ≤ 65; omega)]
  exact ⟨_, rfl, rfl, h.cap, h.clen, h.alen, rfl, h.hcs, rfl⟩

/-! ## Examples -/

/-- A full inner node. -/
def demoInner : InnerS Nat Nat :=
  ⟨64, pad 64 ((List.range 64).map (fun i => 10 * i)), pad 65 ((List.range 65).map NodeId.leaf),
    pad 65 (List.range 65)⟩

theorem demoInner_holds : demoInner.Holds ((List.range 64).map (fun i => 10 * i))
    ((List.range 65).map NodeId.leaf) (List.range 65) :=
  ⟨by decide, by decide, by decide, by decide, rfl, rfl, rfl⟩

/-- A small inner node with 20 keys. -/
def demoInner20 : InnerS Nat Nat :=
  ⟨20, pad 64 ((List.range 20).map (fun i => 10 * i)), pad 65 ((List.range 21).map NodeId.leaf),
    pad 65 (List.range 21)⟩

theorem demoInner20_holds : demoInner20.Holds ((List.range 20).map (fun i => 10 * i))
    ((List.range 21).map NodeId.leaf) (List.range 21) :=
  ⟨by decide, by decide, by decide, by decide, rfl, rfl, rfl⟩

example : ∃ n : InnerS Nat Nat, newFromIter [5, 7] [.leaf 0, .leaf 1, .leaf 4] [1, 2, 3] = .ok n ∧
    n.Holds [5, 7] [.leaf 0, .leaf 1, .leaf 4] [1, 2, 3] :=
  C35_inner_new (by decide) (by decide) (by decide)

example : demoInner.childId 64 = .ok (.leaf 64) :=
  (C35_inner_read demoInner_holds).2.2.2 64 (by decide)

example : ∃ (i : Nat) (hi : i < 65), demoInner.locateChild 635 = .ok (i, (.leaf i)) ∧ i = 64 := by
  obtain ⟨i, hi, h1, h2⟩ := C35_inner_locate demoInner_holds (by decide) 635
  have e : i = 64 := by rw [h2]; decide
  subst e
  exact ⟨64, by decide, h1, rfl⟩

example : ∃ n', demoInner20.insertAt 20 205 (.leaf 50) 9 = .ok n' ∧
    n'.Holds ((List.range 20).map (fun i => 10 * i) ++ [205])
      ((List.range 21).map NodeId.leaf ++ [.leaf 50]) (List.range 21 ++ [9]) := by
  obtain ⟨n', h1, h2⟩ := C35_inner_insert demoInner20_holds (slot := 20) (by decide) (by decide) 205
    (.leaf 50) 9
  exact ⟨n', h1, h2⟩

example : ∃ up n' m ks1 cs1 as1 ks2 cs2 as2, demoInner.split 40 395 (.leaf 77) 1 = .ok (up, n', m) ∧
    n'.Holds ks1 cs1 as1 ∧ m.Holds ks2 cs2 as2 ∧ ks1.length = 32 ∧ ks2.length = 32 := by
  obtain ⟨up, n', m, ks1, cs1, as1, ks2, cs2, as2, h1, h2, h3, h4, h5, _⟩ :=
    C35_inner_split demoInner_holds (by decide) (i := 40) (by decide) 395 (.leaf 77) 1
  exact ⟨up, n', m, ks1, cs1, as1, ks2, cs2, as2, h1, h2, h3, h4, h5⟩

example : demoInner20.drop = .ok ((List.range 20).map (fun i => 10 * i), List.range 21) :=
  C36_inner_drop_partial demoInner20_holds

example : demoInner20.mergeInnerNode demoInner20 demoInner20 3 = .error .ub :=
  (C36_merge_double_drop_refuted demoInner20_holds demoInner20_holds demoInner20_holds (by decide)
    (by decide)).2

example : ∃ n', demoInner.clone = .ok n' ∧ n'.Holds ((List.range 64).map (fun i => 10 * i))
    ((List.range 65).map NodeId.leaf) (List.range 65) :=
  C35_inner_clone demoInner_holds

example := (C35_inner_set demoInner_holds).1 64 (by decide) 7
example := C35_inner_remove_slot demoInner20_holds (slot := 19) (by decide)
example := C35_inner_pop demoInner20_holds (by decide)
example := C35_inner_push demoInner20_holds (by decide) 300 (.leaf 50) 9
example := C35_inner_merge demoInner20_holds demoInner20_holds (by decide) 250

end InnerS
end Bpt
