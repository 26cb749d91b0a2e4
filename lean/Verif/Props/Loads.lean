import Verif.LoadSpec
import Verif.Proofs.BulkLedger
import Verif.Proofs.Start
import Verif.Props.BulkLoaded
import Verif.Props.Books

/-!
# C54: bulk loads of unsorted data, or with inconsistent `==`; C36 for maps that begin with one
-/

namespace Bpt
variable {K V A : Type}

section
variable [Augmentation K V A]

/-! ## C54 -/

/-- **C54 (load).** Whatever the order of the data and whatever `==` answers, `bulk_load` succeeds. The
map holds, in their order, exactly the items that are not followed by one `==` called equal; the last
item is always among them. -/
theorem C54_load (eq : Nat → K → K → Bool) (data : List (K × V)) (hn : data.length < 2 ^ 64) :
    ∃ t : Tree K V A, Tree.bulkLoadU eq data = .ok t ∧ Contents t (Spec.survivors eq data) ∧
      (Spec.survivors eq data).getLast? = data.getLast? ∧
      (Spec.survivors eq data ++ Spec.replaced eq data).Perm data := by
  obtain ⟨t, h1, h2, -⟩ := bulkLoadU_ok (A := A) (μ := 0) (by omega) eq data hn (.inl rfl)
  have e := dedupU_eq eq data
  have e1 := dedupU_last eq 0 data
  have e2 := dedupU_perm eq 0 data
  rw [e] at h2 e1 e2
  exact ⟨t, h1, h2.contents, e1, e2⟩

/-- **C54 (histories).** After any such load, whatever the comparisons answer, each call has one of the
effects listed by `Effect` on the sequence of items, up to a removal that panics, if there is one; until
then `len`, `drop` and `into_iter` account for exactly the items that are left. No call ever reads or
writes memory it should not, and none runs forever. -/
theorem C54_history (eq : Nat → K → K → Bool) (data : List (K × V)) (cs : List (Answers K × UCall K V))
    (hn : data.length + cs.length < 2 ^ 64) :
    ∃ t : Tree K V A, Tree.bulkLoadU eq data = .ok t ∧
      ((∃ as t' l', t.urun cs = .ok (as, t') ∧ Effects (cs.map (·.2)) as (Spec.survivors eq data) l' ∧
          Contents t' l') ∨
        (t.urun cs = .error .panic ∧ ∃ cs1 o cs2 as t1 l1, cs = cs1 ++ (o, .remove) :: cs2 ∧
          t.urun cs1 = .ok (as, t1) ∧ Effects (cs1.map (·.2)) as (Spec.survivors eq data) l1 ∧
          Contents t1 l1 ∧ t1.ucall o .remove = .error .panic)) := by
  obtain ⟨t, h1, h2, -⟩ := bulkLoadU_ok (A := A) (μ := 0) (by omega) eq data (by omega) (.inl rfl)
  have hlen : t.len ≤ data.length := by
    rw [h2.len]
    exact (dedupU_sublist eq 0 data).1.length_le
  rw [dedupU_eq] at h2
  refine ⟨t, h1, ?_⟩
  rcases urun_or h2 cs (by omega) with ⟨as, t', l', h3, h4, h5⟩ |
    ⟨-, cs1, o, cs2, as, t1, l1, h3, h4, h5, h6, h7, h8⟩
  · exact .inl ⟨as, t', l', h3, h5, h4.contents⟩
  · exact .inr ⟨h8, cs1, o, cs2, as, t1, l1, h3, h4, h6, h5.contents, h7⟩

/-- **C54 (no panic).** No removal panics when the leaves group without a lone child (`EvenlyGrouped`):
for example when at most 4160 items are kept. -/
theorem C54_even (eq : Nat → K → K → Bool) (data : List (K × V)) (cs : List (Answers K × UCall K V))
    (hn : data.length + cs.length < 2 ^ 64)
    (he : EvenlyGrouped (leavesFor (Spec.survivors eq data).length)) :
    ∃ t : Tree K V A, Tree.bulkLoadU eq data = .ok t ∧
      ∃ as t' l', t.urun cs = .ok (as, t') ∧ Effects (cs.map (·.2)) as (Spec.survivors eq data) l' ∧
          Contents t' l' := by
  have e := dedupU_eq eq data
  obtain ⟨t, h1, h2, -⟩ := bulkLoadU_ok (A := A) (μ := 1) (by omega) eq data (by omega)
    (.inr (by rw [e]; exact he.noLone _))
  have hlen : t.len ≤ data.length := by
    rw [h2.len]
    exact (dedupU_sublist eq 0 data).1.length_le
  rw [e] at h2
  obtain ⟨as, t', l', h3, h4, h5⟩ := urun_ok h2 cs (by omega)
  exact ⟨t, h1, as, t', l', h3, h5, h4.contents⟩

/-- With the `==` of a type with decidable equality, this is `bulk_load` of the main model. -/
theorem C54_lawful [DecidableEq K] (data : List (K × V)) :
    (Tree.bulkLoadU (fun _ a b => decide (a = b)) data : Res (Tree K V A)) = Tree.bulkLoad data :=
  bulkLoadU_lawful data

/-- **C54 (from_iter).** `FromIterator` sorts first. Whatever an inconsistent order makes of the sort,
it leaves the items in some order; the map holds some of them, and the others are those superseded. -/
theorem C54_from_iter (eq : Nat → K → K → Bool) (items sorted : List (K × V)) (hs : sorted.Perm items)
    (hn : items.length < 2 ^ 64) :
    ∃ t : Tree K V A, Tree.bulkLoadU eq sorted = .ok t ∧ Contents t (Spec.survivors eq sorted) ∧
      (Spec.survivors eq sorted ++ Spec.replaced eq sorted).Perm items := by
  obtain ⟨t, h1, h2, -, h3⟩ := C54_load (A := A) eq sorted (by rw [hs.length_eq]; exact hn)
  exact ⟨t, h1, h2, h3.trans hs⟩

/-! ## C36 -/

/-- **C36 (values, bulk-loaded maps).** A map begins with a bulk load of any data, with any answers of
`==`, lives through any calls and ends. Either one of its removals panics, or the values of the data and
those given later are exactly those handed back and those destroyed. -/
theorem C36_values_loaded (eq : Nat → K → K → Bool) (data : List (K × V))
    (cs : List (Answers K × UCall K V)) (hn : data.length + cs.length < 2 ^ 64) (e : Ending) :
    (∃ s, loadedLife A eq data cs e = .ok s ∧ s.given.Perm (s.back ++ s.destroyed) ∧
      data.map (·.2) <+: s.given) ∨
    (loadedLife A eq data cs e = .error .panic ∧ UCall.remove ∈ cs.map (·.2) ∧
      ¬ EvenlyGrouped (leavesFor (Spec.survivors eq data).length)) := by
  have key : ∀ μ, μ ≤ 1 → (μ = 0 ∨ EvenlyGrouped (leavesFor (Spec.survivors eq data).length)) →
      (∃ s, loadedLife A eq data cs e = .ok s ∧ s.given.Perm (s.back ++ s.destroyed) ∧
        data.map (·.2) <+: s.given) ∨
      (μ = 0 ∧ loadedLife A eq data cs e = .error .panic ∧ UCall.remove ∈ cs.map (·.2)) := by
    intro μ hμ he
    obtain ⟨t, h1, h2, -⟩ := bulkLoadU_ok (A := A) hμ eq data (by omega)
      (he.imp id fun h => by rw [dedupU_eq]; exact h.noLone _)
    have hlen : t.len ≤ data.length := by
      rw [h2.len]
      exact (dedupU_sublist eq 0 data).1.length_le
    have hp := dedupU_perm eq 0 data
    rcases life_or h2 cs (by omega) e with ⟨s, h3, h4⟩ | ⟨h0, h3, h4⟩
    · refine .inl ⟨_, by rw [loadedLife, h1, ok_bind, h3, ok_bind]; rfl, ?_, List.prefix_append _ _⟩
      have hp := hp.map (·.2)
      rw [List.map_append] at hp
      dsimp only
      refine (List.Perm.append_right _ hp.symm).trans ?_
      refine (?_ : List.Perm _ ((dedupU eq 0 data).2.map (·.2) ++
        (s.given ++ (dedupU eq 0 data).1.map (·.2)))).trans ((List.Perm.append_left _ h4).trans ?_) <;>
        perm
    · exact .inr ⟨h0, by rw [loadedLife, h1, ok_bind, h3]; rfl, h4⟩
  by_cases he : EvenlyGrouped (leavesFor (Spec.survivors eq data).length)
  · rcases key 1 (by omega) (.inr he) with h | ⟨h, -⟩
    · exact .inl h
    · omega
  · rcases key 0 (by omega) (.inl rfl) with h | ⟨-, h1, h2⟩
    · exact .inl h
    · exact .inr ⟨h1, h2, he⟩

theorem wholeLoadedLife_or (eq : Nat → K → K → Bool) (data : List (K × V))
    (cs : List (Answers K × UCall K V)) (hn : data.length + cs.length < 2 ^ 64) (e : Ending) :
    (∃ b : Books K A, (wholeLoadedLife A eq data cs e).result = .ok b ∧ b.leaked.length = e.forgets ∧
      data.map (·.1) <+: b.given ∧
      ∀ (w : K → Int) (u : A → Int) (m : Int),
      wsum w b.given + wsum (Event.wt w u m) (wholeLoadedLife A eq data cs e).log
        = wsum w b.back + wsum u b.leaked + m * b.merges) ∨
    ((wholeLoadedLife A eq data cs e).result = .error .panic ∧ UCall.remove ∈ cs.map (·.2) ∧
      ¬ EvenlyGrouped (leavesFor (Spec.survivors eq data).length)) := by
  have key : ∀ μ, μ ≤ 1 → (μ = 0 ∨ EvenlyGrouped (leavesFor (Spec.survivors eq data).length)) →
      (∃ b : Books K A, (wholeLoadedLife A eq data cs e).result = .ok b ∧
        b.leaked.length = e.forgets ∧ data.map (·.1) <+: b.given ∧
        ∀ (w : K → Int) (u : A → Int) (m : Int),
        wsum w b.given + wsum (Event.wt w u m) (wholeLoadedLife A eq data cs e).log
          = wsum w b.back + wsum u b.leaked + m * b.merges) ∨
      (μ = 0 ∧ (wholeLoadedLife A eq data cs e).result = .error .panic ∧
        UCall.remove ∈ cs.map (·.2)) := by
    intro μ hμ he
    obtain ⟨t, h1, h2, -⟩ := bulkLoadU_ok (A := A) hμ eq data (by omega)
      (he.imp id fun h => by rw [dedupU_eq]; exact h.noLone _)
    have hlen : t.len ≤ data.length := by
      rw [h2.len]
      exact (dedupU_sublist eq 0 data).1.length_le
    have hr : (Tree.bulkLoadL eq data : Logged K A (Tree K V A)).result = .ok t := by
      rw [bulkLoadL_result, h1]
    rcases lifeL_or h2 cs (by omega) e with ⟨b, h3, h4, h5⟩ | ⟨h0, h3, h4⟩
    · refine .inl ⟨{ b with given := data.map (·.1) ++ b.given }, ?_, h4, List.prefix_append _ _,
        fun w u m => ?_⟩
      · rw [wholeLoadedLife, Logged.result_bind, hr, ok_bind, Logged.result_bind, h3, ok_bind]
        rfl
      · have e1 := bulkLoadL_bal (w := w) (u := u) (m := m) eq data t hr
        have e2 := h5 w u m
        rw [wholeLoadedLife, Logged.log_bind hr, Logged.log_bind h3]
        simp only [wsum_append, wsum_map, Logged.log_pure, List.append_nil] at *
        omega
    · refine .inr ⟨h0, ?_, h4⟩
      rw [wholeLoadedLife, Logged.result_bind, hr, ok_bind, Logged.result_bind, h3]
      rfl
  by_cases he : EvenlyGrouped (leavesFor (Spec.survivors eq data).length)
  · rcases key 1 (by omega) (.inr he) with h | ⟨h, -⟩
    · exact .inl h
    · omega
  · rcases key 0 (by omega) (.inl rfl) with h | ⟨-, h1, h2⟩
    · exact .inl h
    · exact .inr ⟨h1, h2, he⟩

/-- **C36 (keys, bulk-loaded maps).** Either a removal panics, or the keys of the data, those given
later and the clones made are exactly the keys dropped and those handed back. -/
theorem C36_keys_loaded (eq : Nat → K → K → Bool) (data : List (K × V))
    (cs : List (Answers K × UCall K V)) (hn : data.length + cs.length < 2 ^ 64) (e : Ending) :
    (∃ b : Books K A, (wholeLoadedLife A eq data cs e).result = .ok b ∧ data.map (·.1) <+: b.given ∧
      (b.given ++ Event.cloned (wholeLoadedLife A eq data cs e).log).Perm
        (b.back ++ Event.droppedKeys (wholeLoadedLife A eq data cs e).log)) ∨
    ((wholeLoadedLife A eq data cs e).result = .error .panic ∧ UCall.remove ∈ cs.map (·.2) ∧
      ¬ EvenlyGrouped (leavesFor (Spec.survivors eq data).length)) := by
  refine (wholeLoadedLife_or (A := A) eq data cs hn e).imp ?_ id
  rintro ⟨b, h1, -, h3, h2⟩
  refine ⟨b, h1, h3, perm_of_wsum fun w => ?_⟩
  have := h2 w (fun _ => 0) 0
  rw [Event.wt_keys, wsum_zero] at this
  simp only [wsum_append] at *
  omega

/-- **C36 (augmentations, bulk-loaded maps), partial.** Either a removal panics, or the augmentations
made, and those dropped once too often (one for each merge of two inner nodes), are exactly those dropped
and, after `into_iter`, one root augmentation that is never dropped. -/
theorem C36_augmentations_loaded_partial (eq : Nat → K → K → Bool) (data : List (K × V))
    (cs : List (Answers K × UCall K V)) (hn : data.length + cs.length < 2 ^ 64) (e : Ending) :
    (∃ b : Books K A, (wholeLoadedLife A eq data cs e).result = .ok b ∧
      (Event.made (wholeLoadedLife A eq data cs e).log ++
        Event.droppedMoved (wholeLoadedLife A eq data cs e).log).Perm
        (Event.droppedAugs (wholeLoadedLife A eq data cs e).log ++ b.leaked) ∧
      (Event.droppedMoved (wholeLoadedLife A eq data cs e).log).length = b.merges ∧
      b.leaked.length = e.forgets) ∨
    ((wholeLoadedLife A eq data cs e).result = .error .panic ∧ UCall.remove ∈ cs.map (·.2) ∧
      ¬ EvenlyGrouped (leavesFor (Spec.survivors eq data).length)) := by
  refine (wholeLoadedLife_or (A := A) eq data cs hn e).imp ?_ id
  rintro ⟨b, h1, h3, -, h2⟩
  refine ⟨b, h1, perm_of_wsum fun u => ?_, ?_, h3⟩
  · have := h2 (fun _ => 0) u 0
    rw [Event.wt_augs, wsum_zero, wsum_zero] at this
    simp only [wsum_append] at *
    omega
  · have := h2 (fun _ => 0) (fun _ => 0) 1
    rw [Event.wt_moved, wsum_zero, wsum_zero, wsum_zero] at this
    omega

end

/-! ### A load of unsorted data with an `==` that alternates -/

/-- Descending keys; every other comparison answers "equal". -/
def oddEq : Nat → Nat → Nat → Bool := fun i _ _ => i % 2 == 1

/-- 150 items in descending order. -/
def oddData : List (Nat × Nat) := (List.range 150).map (fun i => (200 - i, i))

example : (Spec.survivors oddEq oddData).length = 76 ∧
    (Spec.survivors oddEq oddData).take 4 = [(200, 0), (198, 2), (196, 4), (194, 6)] ∧
    (Spec.replaced oddEq oddData).length = 74 := by decide +kernel

/-- It loads into two leaves under a root; a lookup for a key that is there misses it, a removal guided
by "always equal" takes one item out. -/
example : (match (Tree.bulkLoadU oddEq oddData : Res (Tree Nat Nat Count)) with
    | .ok t => (match t.urun [(.ofOrder false 198, .get), (⟨true, fun _ _ _ => .eq, fun _ _ => .eq,
        fun _ _ => true, fun _ => true⟩, .remove), (.ofOrder false 0, .len)] with
      | .ok (as, t') => some (as, t'.root)
      | .error _ => none)
    | .error _ => none) = some ([.value none, .value (some 140), .number 75], .inner 0) := by
  decide +kernel

example : oddData.length < 2 ^ 64 ∧ EvenlyGrouped (leavesFor (Spec.survivors oddEq oddData).length) := by
  refine ⟨by decide +kernel, evenlyGrouped_small ?_⟩
  have : (Spec.survivors oddEq oddData).length = 76 := by decide +kernel
  rw [this]
  decide

/-- The whole life of this map: three clones of the key of the second leaf (for the layer, for the range
of the root's entry and for the root itself); 74 keys go during the load and 79 at the end. -/
example :
    Event.cloned (wholeLoadedLife Count oddEq oddData [] .drop).log = [72, 72, 72] ∧
    (Event.droppedKeys (wholeLoadedLife Count oddEq oddData [] .drop).log).length = 153 ∧
    Event.made (wholeLoadedLife Count oddEq oddData [] .drop).log
      = [⟨64⟩, ⟨12⟩, ⟨64⟩, ⟨12⟩, ⟨76⟩, ⟨76⟩] := by decide +kernel

theorem oddData_even : EvenlyGrouped (leavesFor (Spec.survivors oddEq oddData).length) := by
  refine evenlyGrouped_small ?_
  have : (Spec.survivors oddEq oddData).length = 76 := by decide +kernel
  rw [this]
  decide

example := C54_load (A := Count) oddEq oddData (by decide +kernel)
example := C54_history (A := Count) oddEq oddData [(.ofOrder false 198, .remove)] (by decide +kernel)
example := C54_even (A := Count) oddEq oddData [(.ofOrder false 198, .remove)] (by decide +kernel)
  oddData_even
example := C54_lawful (A := Count) oddData
example := C54_from_iter (A := Count) oddEq oddData.reverse oddData (List.reverse_perm _).symm
  (by decide +kernel)
example := C36_values_loaded (A := Count) oddEq oddData [(.ofOrder false 198, .remove)] (by decide +kernel) .drop
example := C36_keys_loaded (A := Count) oddEq oddData [(.ofOrder false 198, .remove)] (by decide +kernel) .drop
example := C36_augmentations_loaded_partial (A := Count) oddEq oddData [(.ofOrder false 198, .remove)]
  (by decide +kernel) .drop

end Bpt
