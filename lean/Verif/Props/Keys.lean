import Verif.Proofs.MapKeysBulk

/-!
# C49: keys that compare equal but differ, and lookups by a borrowed form of the key
-/

namespace Bpt
variable {K O V A : Type} [LinearOrder O] [Augmentation K V A]

/-- For keys ordered by their rank, any history of calls on a new or evenly bulk-loaded map (`FreshBy`)
returns what the same calls return on a list of items kept in increasing rank, and at the end holds exactly that list. An
insertion of a key of the same rank as a stored one keeps the stored key and replaces the value;
lookups find the item of the rank asked for, whatever form of the key it came from; `first`, `last`,
the iterators and the cursors show the stored keys. -/
theorem C49_history {rank : K → O} {t0 : Tree K V A} {l0 : List (K × V)} (h0 : FreshBy rank t0 l0)
    (early : Bool) (cs : List (QCall K O V)) (hn : l0.length + cs.length < 2 ^ 64) :
    ∃ t', t0.runBy rank early cs = .ok ((Spec.runBy rank l0 cs).1, t') ∧
      Contents t' (Spec.runBy rank l0 cs).2 := by
  obtain ⟨t', h1, h2⟩ := h0.inv.run early cs (by rw [h0.inv.items.len]; exact hn)
  exact ⟨t', h1, h2.items.contents⟩

/-- No two stored keys have the same rank, and the items are in increasing rank, after any
history. -/
theorem C49_ranks {rank : K → O} {t0 : Tree K V A} {l0 : List (K × V)} (h0 : FreshBy rank t0 l0)
    (cs : List (QCall K O V)) (hn : l0.length + cs.length < 2 ^ 64) :
    (Spec.runBy rank l0 cs).2.Pairwise (fun a b => rank a.1 < rank b.1) := by
  obtain ⟨t', -, h2⟩ := h0.inv.run false cs (by rw [h0.inv.items.len]; exact hn)
  have := h2.ranks.sorted
  unfold Spec.Sorted at this
  rwa [List.pairwise_map] at this

/-- After any history: inserting a key of the same rank as a stored key `k0` returns the value stored
with `k0`; afterwards the map holds `k0` with the new value where it held `k0` with the old one, and
everything else as before. The new key is not stored. -/
theorem C49_insert {rank : K → O} {t0 : Tree K V A} {l0 : List (K × V)} (h0 : FreshBy rank t0 l0)
    (early : Bool) (cs : List (QCall K O V))
    (hn : l0.length + cs.length + 1 < 2 ^ 64) {a b : List (K × V)} {k0 k : K} {v0 v : V}
    (h : (Spec.runBy rank l0 cs).2 = a ++ (k0, v0) :: b) (hk : rank k0 = rank k) :
    ∃ t t', t0.runBy rank early cs = .ok ((Spec.runBy rank l0 cs).1, t) ∧
      t.insertU (.ofRank rank early (rank k)) k v = .ok (some v0, t') ∧
      Contents t' (a ++ (k0, v) :: b) := by
  obtain ⟨t, h1, h2⟩ := h0.inv.run early cs (by rw [h0.inv.items.len]; omega)
  have hs := C49_ranks h0 cs (by omega)
  have hl : t.len + 1 < 2 ^ 64 := by
    have h3 : ∀ (cs : List (QCall K O V)) (t : Tree K V A) (l : List (K × V)), QInv rank t l →
        t.len + cs.length < 2 ^ 64 →
        (Spec.runBy rank l cs).2.length ≤ l.length + cs.length := by
      intro cs
      induction cs with
      | nil => intro t l _ _; simp [Spec.runBy]
      | cons c cs ih =>
        intro t l h hl
        rw [List.length_cons] at hl
        obtain ⟨t1, -, h4, h5⟩ := h.step (by omega) early c
        have := ih t1 _ h4 (by rw [h4.items.len]; rw [h.items.len] at hl; omega)
        rw [Spec.runBy, List.length_cons]
        dsimp only
        omega
    have := h3 cs _ _ h0.inv (by rw [h0.inv.items.len]; omega)
    rw [h2.items.len]
    omega
  obtain ⟨t', h4, h5, -⟩ := h2.step hl early (.insert k v)
  refine ⟨t, t', h1, ?_, ?_⟩
  · simp only [QCall.answers, QCall.lawless, Tree.ucall, Spec.callBy] at h4
    rw [h] at h4 hs
    have hf : Spec.lookupBy rank (rank k) (a ++ (k0, v0) :: b) = some v0 := by
      have ha : ∀ e ∈ a, ¬ rank e.1 = rank k := fun e he =>
        ne_of_lt (hk ▸ (List.pairwise_append.1 hs).2.2 e he (k0, v0) (by simp))
      have : a.find? (fun e => decide (rank e.1 = rank k)) = none := by
        rw [List.find?_eq_none]
        intro e he
        simpa using ha e he
      unfold Spec.lookupBy
      rw [List.find?_append, this, List.find?_cons_of_pos (by simpa using hk)]
      rfl
    rw [hf] at h4
    cases hx : t.insertU (.ofRank rank early (rank k)) k v with
    | error e => rw [hx] at h4; cases h4
    | ok p =>
      rw [hx] at h4
      obtain ⟨e1, e2⟩ := Prod.mk.inj (Except.ok.inj h4)
      rw [← e2, ← Answer.value.inj e1]
  · have := h5.items.contents
    simp only [Spec.callBy] at this
    rw [h] at this hs
    rwa [insertBy_lt a, insertBy_eq hk] at this
    intro e he
    exact hk ▸ (List.pairwise_append.1 hs).2.2 e he (k0, v0) (by simp)

/-- `FromIterator` with keys ordered by their rank: of several items of the same rank the map holds the
last one, with its own key and value (inserting them one after the other would keep the first key). -/
theorem C49_from_iter (rank : K → O) (items : List (K × V)) (hl : items.length < 2 ^ 64) :
    ∃ t : Tree K V A, Tree.fromIterBy rank items = .ok t ∧ Contents t (Spec.lastBy rank items) := by
  have hd : (items.mergeSort (fun a b => decide (rank a.1 ≤ rank b.1))).Pairwise
      (fun a b => rank a.1 ≤ rank b.1) := by
    have := List.pairwise_mergeSort (le := fun (a b : K × V) => decide (rank a.1 ≤ rank b.1))
      (by intro a b c; simpa using le_trans) (by intro a b; simpa using le_total (rank a.1) (rank b.1)) items
    simpa using this
  obtain ⟨t, h1, h2⟩ := bulkLoadBy_ok (A := A) (rank := rank) (μ := 0) (by omega)
    (items.mergeSort (fun a b => decide (rank a.1 ≤ rank b.1))) (by rw [List.length_mergeSort]; exact hl)
    hd (.inl rfl)
  rw [lastBy_mergeSort] at h2
  exact ⟨t, h1, h2.items.contents⟩

/-- `bulk_load` of data in the order of their ranks: the same. -/
theorem C49_load (rank : K → O) (data : List (K × V)) (hl : data.length < 2 ^ 64)
    (hd : data.Pairwise (fun a b => rank a.1 ≤ rank b.1)) :
    ∃ t : Tree K V A, Tree.bulkLoadBy rank data = .ok t ∧ Contents t (Spec.lastBy rank data) := by
  obtain ⟨t, h1, h2⟩ := bulkLoadBy_ok (A := A) (rank := rank) (μ := 0) (by omega) data hl hd (.inl rfl)
  exact ⟨t, h1, h2.items.contents⟩

/-- What `lastBy` is: in increasing rank, exactly the items that no later item has the rank of. -/
theorem C49_last (rank : K → O) (items : List (K × V)) :
    (Spec.lastBy rank items).Pairwise (fun a b => rank a.1 < rank b.1) ∧
    ∀ e, e ∈ Spec.lastBy rank items ↔
      ∃ a b, items = a ++ e :: b ∧ ∀ x ∈ b, rank x.1 ≠ rank e.1 :=
  ⟨lastBy_sorted items, fun _ => mem_lastBy⟩

/-- Keys told apart by the order are the special case `rank = id`: the list of this section is then
the finite map of the other sections. -/
theorem C49_plain {K V : Type} [LinearOrder K] (cs : List (QCall K K V)) (hn : cs.length < 2 ^ 64) :
    Spec.runBy id [] cs = Spec.run [] (cs.map (QCall.shadow id)) := by
  have key : ∀ (cs : List (QCall K K V)) (t : Tree K V Unit) (l : List (K × V)), QInv id t l →
      t.len + cs.length < 2 ^ 64 → Spec.runBy id l cs = Spec.run l (cs.map (QCall.shadow id)) := by
    intro cs
    induction cs with
    | nil => intro t l _ _; rfl
    | cons c cs ih =>
      intro t l h hl
      rw [List.length_cons] at hl
      obtain ⟨a, t1, l1, h1, h2, h3, h4, h5⟩ := h.ucall (by omega) false c
      have h6 := effect_callBy h3 h.ranks.sorted h2.ranks.sorted h4 h5
      have hid : ∀ l : List (K × V), l.map (item id) = l := fun l => List.map_id l
      have hans : ∀ a : Answer K V, a.mapK id = a := by
        intro a
        cases a with
        | entry o => cases o <;> rfl
        | entries os =>
          simp only [Answer.mapK, Answer.entries.injEq]
          refine (List.map_congr_left fun o _ => ?_).trans (List.map_id os)
          cases o <;> rfl
        | _ => rfl
      rw [hid, hans] at h4
      rw [hid, hid] at h5
      have h7 : Spec.callBy id l c = Spec.call l (c.shadow id) := by
        rw [← h6, h4, h5]
      have := h3.length_le
      rw [Spec.runBy, List.map_cons, Spec.run, h7,
        ih t1 _ (by rw [← h5]; exact h2) (by
          rw [h2.items.len]; rw [h.items.len] at hl; omega)]
  exact key cs _ _ (QInv.new (rank := (id : K → K)) (A := Unit)) (by show 0 + _ < _; omega)

/-! ### Keys with a field the order does not look at -/

/-- Keys are pairs compared by their first component. The key `(5, 9)` is inserted after `(5, 0)`. -/
def taggedHistory : List (QCall (Nat × Nat) Nat String) :=
  [.insert (5, 0) "a", .insert (3, 1) "b", .insert (5, 9) "c", .get 5, .iter 3,
    .cursorNext ⟨(3, 7), 0, 0⟩, .getMut 3 (· ++ "!"), .remove 5, .last]

example : (Spec.runBy Prod.fst [] taggedHistory) =
    ([.value none, .value none, .value (some "a"), .value (some "c"),
      .entries [some ((3, 1), "b"), some ((5, 0), "c"), none],
      .entry (some ((5, 0), "c")), .value (some "b"), .value (some "c"),
      .entry (some ((3, 1), "b!"))], [((3, 1), "b!")]) := by decide

example : ∃ t', (Tree.new : Tree (Nat × Nat) String Unit).runBy Prod.fst false taggedHistory =
    .ok ((Spec.runBy Prod.fst [] taggedHistory).1, t') ∧ Contents t' [((3, 1), "b!")] :=
  C49_history .new false taggedHistory (by decide)

example : ∃ t t', (Tree.new : Tree (Nat × Nat) Nat Unit).runBy Prod.fst true
      [.insert (5, 0) 1, .insert (3, 1) 2] = .ok ([.value none, .value none], t) ∧
      t.insertU (.ofRank Prod.fst true 5) (5, 9) 7 = .ok (some 1, t') ∧
      Contents t' ([((3, 1), 2)] ++ ((5, 0), 7) :: []) :=
  C49_insert (k := (5, 9)) (rank := Prod.fst) .new true [.insert (5, 0) 1, .insert (3, 1) 2] (by decide)
    (a := [((3, 1), 2)]) (by decide) rfl

example := C49_ranks (A := Unit) (rank := Prod.fst) .new taggedHistory (by decide)

/-- Three items in the order of their ranks, two of the same rank. -/
def taggedData : List ((Nat × Nat) × Nat) := [((3, 1), 2), ((5, 0), 1), ((5, 9), 7)]

theorem tagged_fresh : ∃ t : Tree (Nat × Nat) Nat Unit, FreshBy Prod.fst t [((3, 1), 2), ((5, 9), 7)] := by
  obtain ⟨t, h, -⟩ := C49_load (A := Unit) Prod.fst taggedData (by decide) (by decide)
  exact ⟨t, .load (data := taggedData) (by decide) (by decide) (.root (by decide)) h⟩

example : ∃ t : Tree (Nat × Nat) Nat Unit, Tree.fromIterBy Prod.fst [((5, 0), 1), ((3, 1), 2), ((5, 9), 7)] = .ok t ∧
    Contents t [((3, 1), 2), ((5, 9), 7)] :=
  C49_from_iter Prod.fst [((5, 0), 1), ((3, 1), 2), ((5, 9), 7)] (by decide)

example := C49_last (K := Nat × Nat) (V := Nat) Prod.fst taggedData

example : ∃ t0 t' : Tree (Nat × Nat) Nat Unit,
    t0.runBy Prod.fst false [.get 5, .insert (3, 8) 0] = .ok ([.value (some 7), .value (some 2)], t') ∧
      Contents t' [((3, 1), 0), ((5, 9), 7)] := by
  obtain ⟨t0, h⟩ := tagged_fresh
  exact ⟨t0, C49_history h false [.get 5, .insert (3, 8) 0] (by decide)⟩

example : ∃ t0 t t' : Tree (Nat × Nat) Nat Unit, t0.runBy Prod.fst true [.remove 3] = .ok ([.value (some 2)], t) ∧
    t.insertU (.ofRank Prod.fst true 5) (5, 4) 8 = .ok (some 7, t') ∧ Contents t' [((5, 9), 8)] := by
  obtain ⟨t0, h⟩ := tagged_fresh
  exact ⟨t0, C49_insert (k := (5, 4)) h true [.remove 3] (by decide) (a := []) (b := []) rfl rfl⟩

example := C49_plain (K := Nat) (V := Nat) [.insert 5 1, .insert 3 2, .get 3] (by decide)

end Bpt
