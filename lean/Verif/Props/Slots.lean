import Verif.Proofs.Slots
import Verif.Proofs.InsertLeaf
import Verif.Proofs.SpecLemmas
import Verif.Spec

/-!
# C35: node storage is in bounds, initialised, and loses nothing

The slot-level model is `Verif/Model/Slots.lean`. `Holds n xs` says that the initialised slots of the
node are exactly its first ones and contain `xs`. Every theorem says: on a node that holds a list of
an admissible size, with an admissible index, the operation succeeds (an access outside the array or
to an uninitialised slot would be an error value) and the node then holds the expected list.
-/

namespace Bpt
open Slots Spec

namespace LeafS
variable {K V : Type}

/-- The first `xs.length` slots of the leaf hold `xs`, the others nothing. -/
structure Holds (n : LeafS K V) (xs : List (K × V)) : Prop where
  size : n.size = xs.length
  cap : xs.length ≤ 64
  ks : n.ks = pad 64 (xs.map (·.1))
  vs : n.vs = pad 64 (xs.map (·.2))

theorem holds_iff {n : LeafS K V} {xs : List (K × V)} : n.Holds xs ↔
    n.size = xs.length ∧ xs.length ≤ 64 ∧
    n.ks = xs.map (fun e => some e.1) ++ List.replicate (64 - xs.length) none ∧
    n.vs = xs.map (fun e => some e.2) ++ List.replicate (64 - xs.length) none := by
  constructor
  · intro h
    refine ⟨h.size, h.cap, ?_, ?_⟩
    · rw [h.ks]; simp [pad, uninit]
    · rw [h.vs]; simp [pad, uninit]
  · rintro ⟨h1, h2, h3, h4⟩
    refine ⟨h1, h2, ?_, ?_⟩
    · rw [h3]; simp [pad, uninit]
    · rw [h4]; simp [pad, uninit]

theorem new_holds : (new : LeafS K V).Holds [] :=
  ⟨rfl, by simp, (pad_nil _).symm, (pad_nil _).symm⟩

variable {n : LeafS K V} {xs : List (K × V)}

theorem Holds.keys (h : n.Holds xs) : n.keys = .ok (xs.map (·.1)) := by
  unfold LeafS.keys
  rw [h.ks, h.size, length_pad (by simpa using h.cap), if_pos h.cap, mapM_read _ (by simp)]

theorem Holds.values (h : n.Holds xs) : n.values = .ok (xs.map (·.2)) := by
  unfold LeafS.values
  rw [h.vs, h.size, length_pad (by simpa using h.cap), if_pos h.cap, mapM_read _ (by simp)]

theorem Holds.dataAt (h : n.Holds xs) {i : Nat} (hi : i < xs.length) : n.dataAt i = .ok xs[i] := by
  unfold LeafS.dataAt
  rw [h.ks, h.vs, read_pad (by simpa using hi), read_pad (by simpa using hi)]
  simp

theorem Holds.removeItem (h : n.Holds xs) {i : Nat} (hi : i < xs.length) :
    n.removeItem i = .ok (xs[i], pad 64 ((xs.eraseIdx i).map (·.1)),
      pad 64 ((xs.eraseIdx i).map (·.2))) := by
  unfold LeafS.removeItem
  rw [h.ks, h.vs, h.size, remove_pad (by simp) (by simpa using hi) (by simpa using h.cap),
    remove_pad (by simp) (by simpa using hi) (by simpa using h.cap)]
  simp only [ok_bind, pure_ok, List.getElem_map, List.eraseIdx_eq_take_drop_succ, List.map_append,
    List.map_take, List.map_drop]

theorem length_erase {i : Nat} (hi : i < xs.length) : (xs.eraseIdx i).length = xs.length - 1 :=
  List.length_eraseIdx_of_lt hi

/-- Reading a leaf. -/
theorem C35_leaf_read (h : n.Holds xs) :
    n.keys = .ok (xs.map (·.1)) ∧ n.values = .ok (xs.map (·.2)) ∧
    (∀ i (hi : i < xs.length), n.dataAt i = .ok xs[i]) ∧
    ∀ i, n.tryDataAt i = .ok xs[i]? := by
  refine ⟨h.keys, h.values, fun i hi => h.dataAt hi, ?_⟩
  intro i
  unfold LeafS.tryDataAt
  rw [h.size]
  split
  · rename_i hle
    rw [List.getElem?_eq_none hle]
    rfl
  · rename_i hlt
    rw [h.dataAt (by omega), List.getElem?_eq_getElem (by omega)]
    rfl

/-- `set_data` on a fresh leaf. -/
theorem C35_leaf_set_data (data : List (K × V)) :
    ∃ n', (new : LeafS K V).setData data = .ok n' ∧ n'.Holds (data.take 64) ∧
      n'.prev = none ∧ n'.next = none := by
  have key : ∀ (ys zs : List (K × V)) (n : LeafS K V), n.Holds zs → zs.length + ys.length ≤ 64 →
      ∃ n', (ys.zipIdx zs.length).foldlM (fun n (kv, i) => (do
        let ks ← n.ks.write i kv.1
        let vs ← n.vs.write i kv.2
        return { n with ks, vs, size := n.size + 1 } : Res (LeafS K V))) n = .ok n' ∧
        n'.Holds (zs ++ ys) ∧ n'.prev = n.prev ∧ n'.next = n.next := by
    intro ys
    induction ys with
    | nil => intro zs n h _; exact ⟨n, rfl, by simpa using h, rfl, rfl⟩
    | cons y ys ih =>
      intro zs n h hl
      rw [List.length_cons] at hl
      simp only [List.zipIdx_cons, List.foldlM_cons]
      rw [h.ks, h.vs, write_pad_end (by simp) (by simp only [List.length_map]; omega),
        write_pad_end (by simp) (by simp only [List.length_map]; omega)]
      simp only [ok_bind, pure_ok]
      have hh : LeafS.Holds ⟨n.size + 1, pad 64 (zs.map (·.1) ++ [y.1]),
          pad 64 (zs.map (·.2) ++ [y.2]), n.prev, n.next⟩ (zs ++ [y]) :=
        ⟨by simp [h.size], by simp; omega, by simp, by simp⟩
      obtain ⟨n', h1, h2, h3⟩ := ih (zs ++ [y]) _ hh (by simp; omega)
      refine ⟨n', ?_, by simpa using h2, h3⟩
      rw [← h1]
      simp
  obtain ⟨n', h1, h2, h3⟩ := key (data.take 64) [] new new_holds
    (by simp only [List.length_nil, List.length_take]; omega)
  exact ⟨n', h1, by simpa using h2, h3⟩

/-- `try_upsert` on a leaf with increasing keys: an existing key gets the new value, a new key is
inserted at its place unless the leaf is full. -/
theorem C35_leaf_upsert [LinearOrder K] (h : n.Holds xs) (hs : Sorted xs) (k : K) (v : V) :
    (∀ old, lookup k xs = some old →
      ∃ n', n.tryUpsert k v = .ok (n', .updated old) ∧ n'.Holds (upsert k v xs) ∧
        n'.prev = n.prev ∧ n'.next = n.next) ∧
    (lookup k xs = none → xs.length < 64 →
      ∃ n', n.tryUpsert k v = .ok (n', .inserted) ∧ n'.Holds (upsert k v xs) ∧
        n'.prev = n.prev ∧ n'.next = n.next) ∧
    (lookup k xs = none → xs.length = 64 →
      n.tryUpsert k v = .ok (n, .isFull (xs.filter (fun e => e.1 < k)).length k v)) := by
  have hsk : (xs.map (·.1)).Pairwise (· < ·) := by
    rw [List.pairwise_map]; exact hs
  have hcap := h.cap
  rcases kv_cases hsk k with ⟨a, v', b, rfl, h1, h2⟩ | ⟨a, b, rfl, h1, h2⟩
  · rw [lookup_found h1, upsert_found h1 h2]
    refine ⟨?_, by simp, by simp⟩
    intro old ho
    cases ho
    have hloc : n.locateSlot k = .ok (.found a.length) := by
      unfold LeafS.locateSlot
      rw [h.keys]
      simp only [ok_bind, pure_ok, List.map_append, List.map_cons]
      rw [bsearch_found (by simpa using h1)]
      simp
    unfold LeafS.tryUpsert
    rw [hloc]
    simp only [ok_bind]
    rw [h.vs, read_pad (by simp), write_pad (by simp)]
    simp only [ok_bind, pure_ok]
    have e : ((a ++ (k, v') :: b).map (·.2))[a.length]'(by simp) = v' := by
      simp [List.getElem_append_right]
    rw [e]
    refine ⟨_, rfl, ⟨?_, ?_, ?_, ?_⟩, rfl, rfl⟩
    · simpa using h.size
    · simpa using hcap
    · simpa using h.ks
    · simp
  · rw [lookup_none h1 h2, upsert_vacant h1 h2]
    have hloc : n.locateSlot k = .ok (.vacant a.length) := by
      unfold LeafS.locateSlot
      rw [h.keys]
      simp only [ok_bind, pure_ok, List.map_append]
      rw [bsearch_vacant (by simpa using h1) (by simpa using h2)]
      simp
    refine ⟨by simp, ?_, ?_⟩
    · intro _ hlt
      unfold LeafS.tryUpsert
      rw [hloc]
      simp only [ok_bind]
      rw [if_pos (by rw [h.size]; show _ ≠ 64; omega), h.ks, h.vs, h.size,
        insert_pad (by simp) (by simp) (by simpa using hlt),
        insert_pad (by simp) (by simp) (by simpa using hlt)]
      simp only [ok_bind, pure_ok]
      refine ⟨_, rfl, ⟨?_, ?_, ?_, ?_⟩, rfl, rfl⟩
      · simp; omega
      · simp only [List.length_append, List.length_cons] at hlt ⊢; omega
      · simp
      · simp
    · intro _ hfull
      unfold LeafS.tryUpsert
      rw [hloc]
      simp only [ok_bind]
      rw [if_neg (by rw [h.size, hfull]; simp)]
      have e : ((a ++ b).filter (fun e => decide (e.1 < k))) = a := by
        rw [List.filter_append, List.filter_eq_self.2 (by simpa using h1),
          List.filter_eq_nil_iff.2 (by simpa using fun x y hx => le_of_lt (h2 _ hx))]
        simp
      rw [e]
      rfl

/-- `split_new_leaf` on a full leaf. -/
theorem C35_leaf_split (h : n.Holds xs) (hf : xs.length = 64) {i : Nat} (hi : i ≤ 64)
    (item : K × V) (newId selfId : Nat) :
    ∃ n' m ys zs, n.splitNewLeaf i item newId selfId = .ok (n', m) ∧
      n'.Holds ys ∧ m.Holds zs ∧ ys ++ zs = xs.take i ++ item :: xs.drop i ∧
      ys.length = (if i < 32 then 33 else 32) ∧
      n'.prev = n.prev ∧ n'.next = some newId ∧ m.prev = some selfId ∧ m.next = n.next := by
  unfold LeafS.splitNewLeaf
  simp only []
  have m1 : n.ks.moveTo splitOrigin leafN (new : LeafS K V).ks 0 (leafN - splitOrigin) =
      .ok (pad 64 ((xs.take 32).map (·.1)), pad 64 ((xs.drop 32).map (·.1))) := by
    rw [h.ks]
    rw [show (new : LeafS K V).ks = uninit 64 from rfl,
      moveTo_suffix (by simp [hf]) (by simp [hf, splitOrigin]) (by simp [hf]) (by simp [hf])
        (by simp [leafN, splitOrigin])]
    simp only [List.map_take, List.map_drop]
  have m2 : n.vs.moveTo splitOrigin leafN (new : LeafS K V).vs 0 (leafN - splitOrigin) =
      .ok (pad 64 ((xs.take 32).map (·.2)), pad 64 ((xs.drop 32).map (·.2))) := by
    rw [h.vs]
    rw [show (new : LeafS K V).vs = uninit 64 from rfl,
      moveTo_suffix (by simp [hf]) (by simp [hf, splitOrigin]) (by simp [hf]) (by simp [hf])
        (by simp [leafN, splitOrigin])]
    simp only [List.map_take, List.map_drop]
  rw [m1, ok_bind]
  simp only []
  rw [m2, ok_bind]
  simp only []
  have lt : (xs.take 32).length = 32 := by simp [hf]
  have ld : (xs.drop 32).length = 32 := by simp [hf]
  split
  · rename_i hlt
    have hlt : i < 32 := hlt
    rw [insert_pad (by simp [hf]) (by simp only [List.length_map, lt]; omega)
      (by simp only [List.length_map, lt]; omega),
      insert_pad (by simp [hf]) (by simp only [List.length_map, lt]; omega)
      (by simp only [List.length_map, lt]; omega)]
    refine ⟨_, _, (xs.take 32).take i ++ item :: (xs.take 32).drop i, xs.drop 32, rfl,
      ⟨?_, ?_, ?_, ?_⟩, ⟨?_, ?_, rfl, rfl⟩, ?_, ?_, rfl, rfl, rfl, rfl⟩
    · simp only [List.length_append, List.length_cons, List.length_take, List.length_drop, hf]
      show 33 = _
      omega
    · simp only [List.length_append, List.length_cons, List.length_take, List.length_drop, hf]
      omega
    · simp only [List.map_append, List.map_cons, List.map_take, List.map_drop]
    · simp only [List.map_append, List.map_cons, List.map_take, List.map_drop]
    · rw [ld]; rfl
    · rw [ld]; omega
    · rw [List.take_take, min_eq_left (by omega)]
      conv_rhs => rw [← List.take_append_drop 32 xs, List.drop_append_of_le_length (by omega)]
      simp [List.take_append_drop]
    · simp only [List.length_append, List.length_cons, List.length_take, List.length_drop, hf]
      omega
  · rename_i hlt
    have hlt : ¬ i < 32 := hlt
    rw [insert_pad (by simp [hf, leafN, splitOrigin]) (by simp only [List.length_map, ld]; show i - 32 ≤ 32; omega)
      (by simp only [List.length_map, ld]; omega),
      insert_pad (by simp [hf, leafN, splitOrigin]) (by simp only [List.length_map, ld]; show i - 32 ≤ 32; omega)
      (by simp only [List.length_map, ld]; omega)]
    refine ⟨_, _, xs.take 32, (xs.drop 32).take (i - 32) ++ item :: (xs.drop 32).drop (i - 32), rfl,
      ⟨?_, ?_, rfl, rfl⟩, ⟨?_, ?_, ?_, ?_⟩, ?_, ?_, rfl, rfl, rfl, rfl⟩
    · rw [lt]
    · rw [lt]; omega
    · simp only [List.length_append, List.length_cons, List.length_take, List.length_drop, hf]
      show 33 = _
      omega
    · simp only [List.length_append, List.length_cons, List.length_take, List.length_drop, hf]
      omega
    · simp only [List.map_append, List.map_cons, List.map_take, List.map_drop]
    · simp only [List.map_append, List.map_cons, List.map_take, List.map_drop]
    · rw [List.drop_drop, show 32 + (i - 32) = i by omega, ← List.append_assoc]
      congr 1
      conv_rhs => rw [show i = 32 + (i - 32) by omega, List.take_add]
    · rw [lt]

/-- `delete_at`, `try_delete_at`. -/
theorem C35_leaf_delete (h : n.Holds xs) {i : Nat} (hi : i < xs.length) :
    (∃ n', n.deleteAt i = .ok (xs[i], n') ∧ n'.Holds (xs.eraseIdx i) ∧
      n'.prev = n.prev ∧ n'.next = n.next) ∧
    (16 < xs.length → ∃ n', n.tryDeleteAt i = .ok (n', .done xs[i]) ∧ n'.Holds (xs.eraseIdx i) ∧
      n'.prev = n.prev ∧ n'.next = n.next) ∧
    (xs.length ≤ 16 → n.tryDeleteAt i = .ok (n, .underSize i)) := by
  have hh : ∀ n' : LeafS K V, n'.size = n.size - 1 → n'.ks = pad 64 ((xs.eraseIdx i).map (·.1)) →
      n'.vs = pad 64 ((xs.eraseIdx i).map (·.2)) → n'.Holds (xs.eraseIdx i) := by
    intro n' h1 h2 h3
    have := h.cap
    refine ⟨?_, ?_, h2, h3⟩
    · rw [h1, h.size, length_erase hi]
    · rw [length_erase hi]; omega
  refine ⟨?_, ?_, ?_⟩
  · unfold LeafS.deleteAt
    rw [h.removeItem hi]
    exact ⟨_, rfl, hh _ rfl rfl rfl, rfl, rfl⟩
  · intro h16
    unfold LeafS.tryDeleteAt
    rw [if_pos (by rw [h.size]; exact h16), h.removeItem hi]
    exact ⟨_, rfl, hh _ rfl rfl rfl, rfl, rfl⟩
  · intro h16
    unfold LeafS.tryDeleteAt
    rw [if_neg (by rw [h.size]; show ¬ 16 < _; omega)]
    rfl

/-- `pop` and `pop_front`, which lend an item to a sibling. -/
theorem C35_leaf_pop (h : n.Holds xs) (h16 : 16 < xs.length) :
    (∃ n', n.pop = .ok (xs[xs.length - 1], n') ∧ n'.Holds xs.dropLast ∧
      n'.prev = n.prev ∧ n'.next = n.next) ∧
    (∃ n', n.popFront = .ok (xs[0], n') ∧ n'.Holds xs.tail ∧
      n'.prev = n.prev ∧ n'.next = n.next) := by
  have := h.cap
  constructor
  · unfold LeafS.pop
    rw [if_neg (by rw [h.size]; exact not_not.2 h16), h.size, h.removeItem (by omega)]
    refine ⟨_, rfl, ?_, rfl, rfl⟩
    rw [← List.eraseIdx_length_sub_one]
    exact ⟨by rw [length_erase (by omega)], by rw [length_erase (by omega)]; omega, rfl, rfl⟩
  · unfold LeafS.popFront
    rw [if_neg (by rw [h.size]; exact not_not.2 h16), h.removeItem (by omega)]
    refine ⟨_, rfl, ?_, rfl, rfl⟩
    rw [← List.eraseIdx_zero]
    exact ⟨by rw [length_erase (by omega), h.size], by rw [length_erase (by omega)]; omega, rfl, rfl⟩

/-- `delete_with_push`: delete, then take a borrowed item at the end. -/
theorem C35_leaf_delete_with_push (h : n.Holds xs) {i : Nat} (hi : i < xs.length) (item : K × V) :
    ∃ n', n.deleteWithPush i item = .ok (xs[i], n') ∧ n'.Holds (xs.eraseIdx i ++ [item]) ∧
      n'.prev = n.prev ∧ n'.next = n.next := by
  have := h.cap
  have le := length_erase hi
  unfold LeafS.deleteWithPush
  rw [h.removeItem hi]
  simp only [ok_bind]
  rw [if_neg (by rw [h.size]; omega)]
  rw [write_pad_end (by rw [List.length_map, le, h.size]) (by rw [List.length_map, le]; omega),
    write_pad_end (by rw [List.length_map, le, h.size]) (by rw [List.length_map, le]; omega)]
  refine ⟨_, rfl, ⟨?_, ?_, ?_, ?_⟩, rfl, rfl⟩
  · simp only [List.length_append, le, List.length_cons, List.length_nil, h.size]; omega
  · simp only [List.length_append, le, List.length_cons, List.length_nil]; omega
  · simp
  · simp

theorem take_insert_front {α : Type} {l : List α} {i : Nat} (hi : i < l.length) (hc : l.length ≤ 64)
    (x : α) : Slots.take (pad 64 l) i = .ok (l[i], (l.take i).map some ++ none :: (pad (64 - i - 1)
        (l.drop (i + 1)))) ∧
      Slots.insert ((l.take i).map some ++ none :: (pad (64 - i - 1) (l.drop (i + 1)))) (i + 1) 0 x =
        .ok (pad 64 (x :: l.eraseIdx i)) := by
  have lt : (l.take i).length = i := by rw [List.length_take]; omega
  constructor
  · conv_lhs => rw [split_at hi]
    rw [pad_append, pad_cons, take_append (by rw [List.length_map, lt]), lt]
  · rw [show (l.take i).map some ++ none :: (pad (64 - i - 1) (l.drop (i + 1))) =
      [] ++ (l.take i).map some ++ none :: (pad (64 - i - 1) (l.drop (i + 1))) by simp]
    rw [insert_append (List.length_nil).symm (by rw [List.length_map, lt]; simp)]
    rw [pad_cons, List.eraseIdx_eq_take_drop_succ, pad_append, lt]
    rw [show 64 - 1 - i = 64 - i - 1 by omega]
    rfl

/-- `delete_with_push_front`: delete, then take a borrowed item at the front. -/
theorem C35_leaf_delete_with_push_front (h : n.Holds xs) {i : Nat} (hi : i < xs.length)
    (item : K × V) :
    ∃ n', n.deleteWithPushFront i item = .ok (xs[i], n') ∧ n'.Holds (item :: xs.eraseIdx i) ∧
      n'.prev = n.prev ∧ n'.next = n.next := by
  have := h.cap
  have le := length_erase hi
  unfold LeafS.deleteWithPushFront
  rw [if_neg (not_not.2 (Nat.lt_of_lt_of_le hi h.cap)), h.ks, h.vs]
  have hk := take_insert_front (l := xs.map (·.1)) (i := i) (by simpa using hi) (by simpa using h.cap)
    item.1
  have hv := take_insert_front (l := xs.map (·.2)) (i := i) (by simpa using hi) (by simpa using h.cap)
    item.2
  rw [hk.1, hv.1]
  simp only [ok_bind]
  rw [hk.2, hv.2]
  simp only [ok_bind, List.getElem_map]
  refine ⟨_, rfl, ⟨?_, ?_, ?_, ?_⟩, rfl, rfl⟩
  · simp only [List.length_cons, le, h.size]; omega
  · simp only [List.length_cons, le]; omega
  · simp only [List.map_cons, List.eraseIdx_map]
  · simp only [List.map_cons, List.eraseIdx_map]

/-- `merge_right`: the right leaf is emptied. -/
theorem C35_leaf_merge_right {m : LeafS K V} {ys : List (K × V)} (h : n.Holds xs) (hm : m.Holds ys)
    (hc : xs.length + ys.length ≤ 64) :
    ∃ n' m', n.mergeRight m = .ok (n', m') ∧ n'.Holds (xs ++ ys) ∧ m'.Holds [] ∧
      n'.prev = n.prev ∧ n'.next = m.next := by
  unfold LeafS.mergeRight LeafS.extend
  have ex : ∀ {α : Type} (f : K × V → α), (pad 64 (ys.map f)).moveTo 0 ys.length (pad 64 (xs.map f))
      xs.length (xs.length + (ys.length - 0)) = .ok (uninit 64, pad 64 (xs.map f ++ ys.map f)) := by
    intro α f
    rw [show pad 64 (ys.map f) = [] ++ (ys.map f).map some ++ uninit (64 - (ys.map f).length) from by
      simp [pad]]
    rw [moveTo_extend rfl (List.length_nil).symm (by simp) (by simp) (by simp) (by simpa using hc)]
    rw [List.nil_append, ← uninit_add]
    congr 3
    have := hm.cap
    simp only [List.length_map]; omega
  rw [h.ks, h.vs, hm.ks, hm.vs, h.size, hm.size]
  simp only [ex, ok_bind, pure_ok]
  refine ⟨_, _, rfl, ⟨?_, ?_, ?_, ?_⟩, ⟨rfl, by simp, ?_, ?_⟩, rfl, rfl⟩
  · simp
  · simpa using hc
  · simp
  · simp
  · exact (pad_nil _).symm
  · exact (pad_nil _).symm

/-- `merge_right_delete_first`: the right leaf is emptied, its item `i` is returned. -/
theorem C35_leaf_merge_right_delete {m : LeafS K V} {ys : List (K × V)} (h : n.Holds xs)
    (hm : m.Holds ys) {i : Nat} (hi : i < ys.length) (hc : xs.length + ys.length ≤ 65) :
    ∃ n' m', n.mergeRightDeleteFirst i m = .ok (ys[i], n', m') ∧ n'.Holds (xs ++ ys.eraseIdx i) ∧
      m'.Holds [] ∧ n'.prev = n.prev ∧ n'.next = m.next := by
  have hmc := hm.cap
  have ex : ∀ {α : Type} (f : K × V → α), ∃ a b c,
      Slots.take (pad 64 (ys.map f)) i = .ok (f ys[i], a) ∧
      moveTo a 0 i (pad 64 (xs.map f)) xs.length (xs.length + (i - 0)) =
        .ok (b, pad 64 (xs.map f ++ (ys.take i).map f)) ∧
      moveTo b (i + 1) ys.length (pad 64 (xs.map f ++ (ys.take i).map f)) (xs.length + (i - 0))
        (xs.length + (i - 0) + (ys.length - (i + 1))) =
        .ok (c, pad 64 ((xs ++ ys.eraseIdx i).map f)) ∧ c = uninit 64 := by
    intro α f
    have lt : ((ys.map f).take i).length = i := by simp; omega
    have ld : ((ys.map f).drop (i + 1)).length = ys.length - (i + 1) := by simp
    obtain ⟨h1, _⟩ := take_insert_front (l := ys.map f) (i := i) (by simpa using hi)
      (by simpa using hmc) (f ys[i])
    refine ⟨[] ++ ((ys.map f).take i).map some ++
        none :: (pad (64 - i - 1) ((ys.map f).drop (i + 1))),
      (uninit i ++ [none]) ++ ((ys.map f).drop (i + 1)).map some ++
        uninit (64 - i - 1 - (ys.length - (i + 1))),
      (uninit i ++ [none]) ++ uninit ((ys.map f).drop (i + 1)).length ++
        uninit (64 - i - 1 - (ys.length - (i + 1))), ?_, ?_, ?_, ?_⟩
    · rw [h1]; simp
    · rw [moveTo_extend rfl (List.length_nil).symm (by rw [lt]; simp) (by simp) (by simp [lt]) (by simp; omega)]
      rw [lt]
      simp [pad, List.map_take]
    · rw [moveTo_extend rfl (by simp) (by simp only [List.length_append, length_uninit,
          List.length_cons, List.length_nil, ld]; omega)
        (by simp; omega) (by simp; omega) (by simp; omega)]
      simp [List.eraseIdx_eq_take_drop_succ, List.map_take, List.map_drop]
    · rw [← uninit_succ', ← uninit_add, ← uninit_add, ld]
      congr 1; omega
  obtain ⟨a, b, c, k1, k2, k3, k4⟩ := ex (·.1)
  obtain ⟨a', b', c', v1, v2, v3, v4⟩ := ex (·.2)
  unfold LeafS.mergeRightDeleteFirst LeafS.extend
  rw [h.ks, h.vs, hm.ks, hm.vs, h.size, hm.size, k1]
  simp only [ok_bind]
  rw [v1]
  simp only [ok_bind]
  rw [k2]
  simp only [ok_bind]
  rw [v2]
  simp only [ok_bind, pure_ok]
  rw [k3]
  simp only [ok_bind]
  rw [v3]
  simp only [ok_bind]
  have le := length_erase hi
  refine ⟨_, _, rfl, ⟨?_, ?_, rfl, rfl⟩, ⟨rfl, by simp, ?_, ?_⟩, rfl, rfl⟩
  · simp only [List.length_append, le]; omega
  · simp only [List.length_append, le]; omega
  · rw [k4]; exact (pad_nil _).symm
  · rw [v4]; exact (pad_nil _).symm

/-- The leaf holds `xs` except for the slots in `taken`, whose items have been moved out
(`IntoIter` takes items one at a time from both ends). -/
structure HoldsExcept (n : LeafS K V) (xs : List (K × V)) (taken : List Nat) : Prop where
  size : n.size = xs.length
  cap : xs.length ≤ 64
  ks : n.ks = (xs.mapIdx fun i x => if i ∈ taken then none else some x.1) ++ uninit (64 - xs.length)
  vs : n.vs = (xs.mapIdx fun i x => if i ∈ taken then none else some x.2) ++ uninit (64 - xs.length)

theorem Holds.except (h : n.Holds xs) : n.HoldsExcept xs [] := by
  refine ⟨h.size, h.cap, ?_, ?_⟩
  · rw [h.ks]; unfold pad
    rw [List.length_map]
    congr 1
    apply List.ext_getElem?
    simp [Function.comp_def]
  · rw [h.vs]; unfold pad
    rw [List.length_map]
    congr 1
    apply List.ext_getElem?
    simp [Function.comp_def]

theorem take_except {α β : Type} {xs : List α} {taken : List Nat} {i : Nat} (hi : i < xs.length)
    (ht : i ∉ taken) (f : α → β) (s : Slots β) :
    Slots.take ((xs.mapIdx fun i x => if i ∈ taken then none else some (f x)) ++ s) i =
      .ok (f xs[i], (xs.mapIdx fun j x => if j ∈ i :: taken then none else some (f x)) ++ s) := by
  unfold Slots.take Slots.read
  rw [List.getElem?_append_left (by simpa using hi)]
  simp only [List.getElem?_mapIdx, List.getElem?_eq_getElem hi, Option.map_some, if_neg ht, ok_bind,
    pure_ok]
  congr 2
  rw [List.set_append_left _ _ (by simpa using hi)]
  congr 1
  apply List.ext_getElem?
  intro j
  simp only [List.getElem?_set, List.getElem?_mapIdx, List.length_mapIdx, List.mem_cons]
  by_cases hj : i = j
  · subst hj
    simp [hi]
  · have : ¬ j = i := fun e => hj e.symm
    simp [hj, this]

/-- `take_data` moves one item out; taking a slot twice would be undefined behaviour. -/
theorem C35_leaf_take {taken : List Nat} (h : n.HoldsExcept xs taken) {i : Nat} (hi : i < xs.length) :
    (i ∉ taken → ∃ n', n.takeData i = .ok (xs[i], n') ∧ n'.HoldsExcept xs (i :: taken) ∧
      n'.prev = n.prev ∧ n'.next = n.next) ∧
    (i ∈ taken → n.takeData i = .error .ub) := by
  constructor
  · intro ht
    unfold LeafS.takeData
    rw [if_neg (by rw [h.size]; exact not_not.2 hi), h.ks, h.vs, take_except hi ht,
      take_except hi ht]
    exact ⟨_, rfl, ⟨h.size, h.cap, rfl, rfl⟩, rfl, rfl⟩
  · intro ht
    unfold LeafS.takeData Slots.take Slots.read
    rw [if_neg (by rw [h.size]; exact not_not.2 hi), h.ks,
      List.getElem?_append_left (by simpa using hi)]
    simp only [List.getElem?_mapIdx, List.getElem?_eq_getElem hi, Option.map_some, if_pos ht]
    rfl

/-! ### Concrete leaves -/

/-- `Clone`: the clone holds the same items and the same links. -/
theorem C35_leaf_clone (h : n.Holds xs) : ∃ n', n.clone = .ok n' ∧ n'.Holds xs ∧ n'.prev = n.prev ∧
    n'.next = n.next := by
  unfold LeafS.clone
  rw [h.size, h.ks, h.vs, clonePrefix_pad (by simp) (by rw [List.length_map]; exact h.cap), ok_bind,
    clonePrefix_pad (by simp) (by rw [List.length_map]; exact h.cap)]
  exact ⟨_, rfl, ⟨rfl, h.cap, rfl, rfl⟩, rfl, rfl⟩

/-- A full leaf with the keys 0, 2, ..., 126. -/
def demoLeaf : LeafS Nat Nat :=
  ⟨64, pad 64 ((List.range 64).map (2 * ·)), pad 64 ((List.range 64).map (7 * ·)), some 4, none⟩

/-- Its items. -/
def demoLeafItems : List (Nat × Nat) := (List.range 64).map (fun i => (2 * i, 7 * i))

theorem demoLeaf_holds : demoLeaf.Holds demoLeafItems :=
  ⟨by decide, by decide, by decide +kernel, by decide +kernel⟩

/-- A leaf with 17 items. -/
def demoLeaf17 : LeafS Nat Nat :=
  ⟨17, pad 64 ((List.range 17).map (2 * ·)), pad 64 ((List.range 17).map (7 * ·)), none, some 3⟩

/-- Its items. -/
def demoLeaf17Items : List (Nat × Nat) := (List.range 17).map (fun i => (2 * i, 7 * i))

theorem demoLeaf17_holds : demoLeaf17.Holds demoLeaf17Items :=
  ⟨by decide, by decide, by decide +kernel, by decide +kernel⟩

example : demoLeaf.dataAt 33 = .ok (66, 231) := (C35_leaf_read demoLeaf_holds).2.2.1 33 (by decide)

example : demoLeaf.tryUpsert 13 1 = .ok (demoLeaf, .isFull 7 13 1) :=
  (C35_leaf_upsert demoLeaf_holds (by unfold Sorted; decide +kernel) 13 1).2.2 (by decide +kernel)
    (by decide)

example : ∃ n', demoLeaf17.tryUpsert 13 1 = .ok (n', .inserted) ∧
    n'.Holds (upsert 13 1 demoLeaf17Items) ∧ n'.prev = none ∧ n'.next = some 3 :=
  (C35_leaf_upsert demoLeaf17_holds (by unfold Sorted; decide +kernel) 13 1).2.1 (by decide +kernel)
    (by decide)

example : ∃ n' m ys zs, demoLeaf.splitNewLeaf 7 (13, 1) 10 9 = .ok (n', m) ∧
      n'.Holds ys ∧ m.Holds zs ∧ ys ++ zs = demoLeafItems.take 7 ++ (13, 1) :: demoLeafItems.drop 7 ∧
      ys.length = 33 ∧
      n'.prev = some 4 ∧ n'.next = some 10 ∧ m.prev = some 9 ∧ m.next = none :=
  C35_leaf_split demoLeaf_holds (by decide) (by decide) _ _ _

example : ∃ n', demoLeaf17.pop = .ok ((32, 112), n') ∧ n'.Holds demoLeaf17Items.dropLast ∧
    n'.prev = none ∧ n'.next = some 3 :=
  (C35_leaf_pop demoLeaf17_holds (by decide)).1

example : ∃ n', demoLeaf17.deleteWithPushFront 5 (100, 1) = .ok ((10, 35), n') ∧
    n'.Holds ((100, 1) :: demoLeaf17Items.eraseIdx 5) ∧ n'.prev = none ∧ n'.next = some 3 :=
  C35_leaf_delete_with_push_front demoLeaf17_holds (by decide) _

example : ∃ n' m', demoLeaf17.mergeRightDeleteFirst 3 demoLeaf17 = .ok ((6, 21), n', m') ∧
    n'.Holds (demoLeaf17Items ++ demoLeaf17Items.eraseIdx 3) ∧ m'.Holds [] ∧
    n'.prev = none ∧ n'.next = some 3 :=
  C35_leaf_merge_right_delete demoLeaf17_holds demoLeaf17_holds (by decide) (by decide)

example : ∃ n', demoLeaf.takeData 63 = .ok ((126, 441), n') ∧ n'.HoldsExcept demoLeafItems [63] ∧
    n'.prev = some 4 ∧ n'.next = none :=
  (C35_leaf_take demoLeaf_holds.except (by decide)).1 (by decide)

example := C35_leaf_set_data demoLeafItems
example := C35_leaf_clone demoLeaf_holds

end LeafS
end Bpt
