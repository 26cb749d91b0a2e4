import Verif.Proofs.Sets
import Verif.Props.Demo

/-!
# Properties of sets: C30, C31

Calls on sets, and their meaning on finite sets (`Finset`), are in `Verif/SetHistory.lean`.
-/

namespace Bpt
open Spec
variable {K : Type} [LinearOrder K]

theorem set_content_unique {t : TreeSet K} {s s' : Finset K} (h : SetShows t s)
    (h' : SetShows t s') : s = s' := by
  ext k
  obtain ⟨_, h1⟩ := h k
  obtain ⟨_, h2⟩ := h' k
  rw [h1] at h2
  have := congrArg Prod.fst (Except.ok.inj h2)
  simpa using this

theorem Inv.setShows {μ : Nat} {t : TreeSet K} {l : List (K × Unit)} (h : Inv μ t l) :
    SetShows t (elems l) := by
  intro k
  obtain ⟨t', h1, _⟩ := h.get k
  exact ⟨t', by simp only [TreeSet.contains, h1, ok_bind, pure_ok, mem_elems_isSome]⟩

/-! ## C30 -/

/-- **C30.** From an empty set, every finite history of calls is answered, call by call, as by a
mathematical finite set. -/
theorem C30_set_history (cs : List (SetCall K)) (hn : cs.length < 2 ^ 64) :
    ∃ t, (TreeSet.new : TreeSet K).run cs = .ok ((Spec.setRun ∅ cs).1, t) ∧
      SetShows t (Spec.setRun ∅ cs).2 := by
  obtain ⟨t, l, h1, h2, h3⟩ := setRun_ok (μ := 16) (by omega) (by omega)
    (Inv.new (K := K) (V := Unit) (A := Unit)) cs (by show 0 + _ < _; omega)
  refine ⟨t, h1, ?_⟩
  have e : (∅ : Finset K) = elems [] := rfl
  rw [e, ← h3]
  exact h2.setShows

example : ((TreeSet.new : TreeSet Nat).run [.insert 3, .insert 1, .insert 3, .contains 3, .remove 7,
      .first, .iter 3, .intoIter [.back, .back, .front], .remove 3, .len, .clear, .isEmpty]).map (·.1)
    = .ok [.flag true, .flag true, .flag false, .flag true, .flag false, .key (some 1),
        .keys [(some 1, 1), (some 3, 0), (none, 0)], .keys [(some 3, 1), (some 1, 0), (none, 0)],
        .flag true, .number 1, .done, .flag true] := by decide +kernel

/-- **C30.** `from_iter` builds the set of its items, and every later call other than a removal is
answered as by that set (removals after `from_iter`: C19). -/
theorem C30_from_iter (ks : List K) (hn : ks.length < 2 ^ 64 - 1) :
    ∃ t : TreeSet K, TreeSet.fromIter ks = .ok t ∧ SetShows t ks.toFinset ∧
      ∀ c : SetCall K, (∀ k, c ≠ .remove k) →
        (t.call c).map (·.1) = .ok (Spec.setCall ks.toFinset c).1 := by
  obtain ⟨t, H, g, h1, h2, _, h4, _⟩ := fromIter_ok (A := Unit) (μ := 0) (by omega)
    (ks.map (fun k => (k, ()))) (.inl rfl)
  have hlen := insertAll_length (ks.map (fun k => (k, ())))
  rw [List.length_map] at hlen
  have hi : Inv 0 t (insertAll [] (ks.map (fun k => (k, ())))) :=
    ⟨H, g, h2, h4, by rw [h2.len, h4]; omega⟩
  have he : elems (insertAll [] (ks.map (fun k => (k, ())))) = ks.toFinset := by
    ext k
    rw [mem_elems, List.mem_toFinset]
    clear * -
    induction ks using List.reverseRecOn with
    | nil => simp [insertAll]
    | append_singleton ks k' ih =>
      have : insertAll [] ((ks ++ [k']).map (fun k => (k, ())))
          = upsert k' () (insertAll [] (ks.map (fun k => (k, ())))) := by simp [insertAll]
      rw [this, lookup_upsert]
      by_cases h : k' = k
      · simp [h]
      · rw [if_neg h, ih]; simp [Ne.symm h]
  refine ⟨t, h1, he ▸ hi.setShows, ?_⟩
  intro c hc
  rcases setCall_ok (by omega) hi
    (by show Tree.len t + 1 < _; rw [hi.len]; omega) c with ⟨t', l', h5, _⟩ | ⟨_, k, hk, _⟩
  · rw [h5, he]; rfl
  · exact absurd hk (hc k)

example : ∃ t : TreeSet Nat, TreeSet.fromIter [5, 1, 5, 3] = .ok t ∧ SetShows t {1, 3, 5} ∧
    (t.call (.iter 4)).map (·.1) = .ok (.keys [(some 1, 2), (some 3, 1), (some 5, 0), (none, 0)]) := by
  obtain ⟨t, h1, h2, h3⟩ := C30_from_iter [5, 1, 5, 3] (by decide)
  have e : [5, 1, 5, 3].toFinset = ({1, 3, 5} : Finset Nat) := by decide
  refine ⟨t, h1, e ▸ h2, ?_⟩
  rw [h3 (.iter 4) (by simp), e]
  have : ascending ({1, 3, 5} : Finset Nat) = [1, 3, 5] := by
    have := ascending_toFinset (l := [1, 3, 5]) (by decide)
    exact this
  simp only [Spec.setCall, this]
  decide

/-! ## C31 -/

/-- **C31.** `a.union(&b)`: the `n` first calls of `next` give the elements of the union, in ascending
order, each once, then `None`; before each call `size_hint` brackets the number of elements left. -/
theorem C31_union {a b : TreeSet K} (ha : ReachableBulk a) (hb : ReachableBulk b)
    {s s' : Finset K} (hsa : SetShows a s) (hsb : SetShows b s') :
    ∃ u, Union.new a b = .ok u ∧ ∀ n, ∃ rs, Union.runNext a b n u = .ok rs ∧
      rs.map (·.1) = (List.range n).map (fun i => (ascending (s ∪ s'))[i]?) ∧
      ∀ i (p : Option K × Nat × Nat), rs[i]? = some p →
        p.2.1 ≤ (s ∪ s').card - i ∧ (s ∪ s').card - i ≤ p.2.2 := by
  obtain ⟨la, ia⟩ := ha.inv
  obtain ⟨lb, ib⟩ := hb.inv
  have ea := set_content_unique hsa ia.setShows
  have eb := set_content_unique hsb ib.setShows
  obtain ⟨La, ra, rfl⟩ := ia.reads
  obtain ⟨Lb, rb, rfl⟩ := ib.reads
  obtain ⟨xa, h1, h2, _⟩ := iter_new_ok ra.base
  obtain ⟨xb, h3, h4, _⟩ := iter_new_ok rb.base
  refine ⟨⟨xa, xb, none⟩, by simp only [Union.new, h1, h3, ok_bind, pure_ok], ?_⟩
  intro n
  obtain ⟨rs, h5, h6, h7⟩ := union_run_ok ra rb n (u := ⟨xa, xb, none⟩) h2 h4
    (setKeys_sorted ia.sorted) (setKeys_sorted ib.sorted)
  have e : (pendA (⟨xa, xb, none⟩ : Union K) (La.flatMap (·.2))).toFinset
      ∪ (pendB (⟨xa, xb, none⟩ : Union K) (Lb.flatMap (·.2))).toFinset = s ∪ s' := by
    rw [ea, eb]; rfl
  rw [e] at h6 h7
  refine ⟨rs, h5, ?_, ?_⟩
  · rw [h6]
    exact pulls_front _ n
  · intro i p hp
    have := h7 i p hp
    rwa [ascending, Finset.length_sort] at this

/-- **C31.** After any number of calls of `next`: `min` gives the least element not yet given, and a clone of the
iterator goes on like the iterator itself, with the elements not yet given. -/
theorem C31_min_clone {a b : TreeSet K} (ha : ReachableBulk a) (hb : ReachableBulk b)
    {s s' : Finset K} (hsa : SetShows a s) (hsb : SetShows b s') :
    ∃ u, Union.new a b = .ok u ∧ ∀ n, ∃ u', Union.advance a b n u = .ok u' ∧
      Union.min a b u' = .ok (ascending (s ∪ s'))[n]? ∧
      ∀ m, (Union.runNext a b m u'.clone).map (·.map (·.1)) =
          .ok ((List.range m).map (fun i => (ascending (s ∪ s'))[n + i]?)) ∧
        Union.runNext a b m u'.clone = Union.runNext a b m u' := by
  obtain ⟨la, ia⟩ := ha.inv
  obtain ⟨lb, ib⟩ := hb.inv
  have ea := set_content_unique hsa ia.setShows
  have eb := set_content_unique hsb ib.setShows
  obtain ⟨La, ra, rfl⟩ := ia.reads
  obtain ⟨Lb, rb, rfl⟩ := ib.reads
  obtain ⟨xa, h1, h2, _⟩ := iter_new_ok ra.base
  obtain ⟨xb, h3, h4, _⟩ := iter_new_ok rb.base
  refine ⟨⟨xa, xb, none⟩, by simp only [Union.new, h1, h3, ok_bind, pure_ok], ?_⟩
  have e : (pendA (⟨xa, xb, none⟩ : Union K) (La.flatMap (·.2))).toFinset
      ∪ (pendB (⟨xa, xb, none⟩ : Union K) (Lb.flatMap (·.2))).toFinset = s ∪ s' := by
    rw [ea, eb]; rfl
  intro n
  obtain ⟨u', ya, yb, h5, fa, fb, ga, gb, h6⟩ := union_advance_ok ra rb n (u := ⟨xa, xb, none⟩) h2 h4
    (setKeys_sorted ia.sorted) (setKeys_sorted ib.sorted)
  rw [e] at h6
  have hcl : u'.clone = u' := by
    obtain ⟨p, q, r⟩ := u'
    cases r with
    | none => rfl
    | some r => cases r <;> rfl
  refine ⟨u', h5, ?_, ?_⟩
  · obtain ⟨u'', _, _, h7, _⟩ := union_next_ok ra rb fa fb ga gb
    unfold Union.min
    rw [h7, ok_bind, h6, List.head?_drop]
    rfl
  · intro m
    rw [hcl]
    refine ⟨?_, rfl⟩
    obtain ⟨rs, h7, h8, _⟩ := union_run_ok ra rb m fa fb ga gb
    rw [h7]
    show Except.ok (rs.map (·.1)) = _
    rw [h8, h6, pulls_front]
    congr 1
    refine List.map_congr_left ?_
    intro i _
    rw [List.getElem?_drop]

/-- Non-vacuity: any two lists of elements give such sets. -/
example : ∃ a b : TreeSet Nat, ReachableBulk a ∧ ReachableBulk b ∧
    SetShows a {1, 4, 6} ∧ SetShows b {2, 4, 9} ∧ ascending ({1, 4, 6} ∪ {2, 4, 9} : Finset Nat)
      = [1, 2, 4, 6, 9] := by
  obtain ⟨a, h1, h2⟩ := reach_insertAll (A := Unit) [((4 : Nat), ()), (1, ()), (6, ())] (by decide)
  obtain ⟨b, h3, h4⟩ := reach_insertAll (A := Unit) [((9 : Nat), ()), (2, ()), (4, ())] (by decide)
  have e : ({1, 4, 6} ∪ {2, 4, 9} : Finset Nat) = [1, 2, 4, 6, 9].toFinset := by decide
  exact ⟨a, b, h1.mut.bulk, h3.mut.bulk, h2.setShows, h4.setShows,
    e ▸ ascending_toFinset (l := [1, 2, 4, 6, 9]) (by decide)⟩

example := C30_set_history [.insert 3, .insert 1, .insert 3, .contains 3, .remove 7] (by decide)
example : ∃ (a b : TreeSet Nat) (u : _) (rs : _), Union.new a b = .ok u ∧ Union.runNext a b 6 u = .ok rs ∧
    rs.map (·.1) = [some 1, some 2, some 4, some 6, some 9, none] := by
  obtain ⟨a, h1, h2⟩ := reach_insertAll (A := Unit) [((4 : Nat), ()), (1, ()), (6, ())] (by decide)
  obtain ⟨b, h3, h4⟩ := reach_insertAll (A := Unit) [((9 : Nat), ()), (2, ()), (4, ())] (by decide)
  have ha : SetShows a {1, 4, 6} := h2.setShows
  have hb : SetShows b {2, 4, 9} := h4.setShows
  have e : ({1, 4, 6} ∪ {2, 4, 9} : Finset Nat) = [1, 2, 4, 6, 9].toFinset := by decide
  obtain ⟨u, h5, h6⟩ := C31_union h1.mut.bulk h3.mut.bulk ha hb
  obtain ⟨rs, h7, h8, -⟩ := h6 6
  refine ⟨a, b, u, rs, h5, h7, h8.trans ?_⟩
  rw [e, ascending_toFinset (l := [1, 2, 4, 6, 9]) (by decide)]
  rfl

-- after two elements, the least one left
example : ∃ (a b : TreeSet Nat) (u u' : _), Union.new a b = .ok u ∧ Union.advance a b 2 u = .ok u' ∧
    Union.min a b u' = .ok (some 4) := by
  obtain ⟨a, h1, h2⟩ := reach_insertAll (A := Unit) [((4 : Nat), ()), (1, ()), (6, ())] (by decide)
  obtain ⟨b, h3, h4⟩ := reach_insertAll (A := Unit) [((9 : Nat), ()), (2, ()), (4, ())] (by decide)
  have ha : SetShows a {1, 4, 6} := h2.setShows
  have hb : SetShows b {2, 4, 9} := h4.setShows
  have e : ({1, 4, 6} ∪ {2, 4, 9} : Finset Nat) = [1, 2, 4, 6, 9].toFinset := by decide
  obtain ⟨u, h5, h6⟩ := C31_min_clone h1.mut.bulk h3.mut.bulk ha hb
  obtain ⟨u', h7, h8, -⟩ := h6 2
  refine ⟨a, b, u, u', h5, h7, h8.trans ?_⟩
  rw [e, ascending_toFinset (l := [1, 2, 4, 6, 9]) (by decide)]
  rfl

end Bpt
