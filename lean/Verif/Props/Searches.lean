import Verif.SearchSpec
import Verif.Props.Structure
import Verif.Props.Augmentations
import Verif.Proofs.SearchOut
import Verif.Proofs.ReachEven

/-!
# Searches with arbitrary answers: C63

`SearchAugmentation` is a safe trait: nothing forces the positions it answers to exist. `STree.search`
(`Verif/SearchSpec.lean`) says where such a search ends on the nested tree that visitors see.
-/

namespace Bpt
open Spec
variable {K V A Q : Type}

theorem searchNth_eq [SearchAugmentation K V A Q] (q : Q) (i : Nat) (l : List (STree K V A)) :
    STree.searchNth q i l = match l[i]? with
      | some c => c.search q
      | none => .noChild := by
  induction l generalizing i with
  | nil => rw [STree.searchNth]; rfl
  | cons a l ih =>
    cases i with
    | zero => rw [STree.searchNth]; rfl
    | succ i => rw [STree.searchNth, ih]; rfl

theorem toS_search [SearchAugmentation K V A Q] {h : Nat} (x : T K V A h) (q : Q) :
    x.toS.search q = x.searchEnd q := by
  induction h generalizing q with
  | zero => simp only [T.toS, STree.search, T.searchEnd]; rfl
  | succ h ih =>
    simp only [T.toS, STree.search, T.searchEnd]
    cases SearchAugmentation.locateInInner V q (GNode.keys x) (GNode.augs x) with
    | none => rfl
    | some p =>
      obtain ⟨i, q'⟩ := p
      simp only [searchNth_eq, List.getElem?_map]
      cases (GNode.kids x)[i]? with
      | none => rfl
      | some c => exact ih c q'

section
variable [LinearOrder K] [Augmentation K V A] [SearchAugmentation K V A Q]

theorem sorted_around {l l1 l2 : List (K × V)} {e : K × V} (hs : Sorted l) (h : l = l1 ++ e :: l2) :
    e ∈ l ∧ erase e.1 l = l1 ++ l2 ∧ ∀ f, Spec.modify e.1 f l = l1 ++ (e.1, f e.2) :: l2 := by
  subst h
  unfold Sorted at hs
  rw [List.pairwise_append, List.pairwise_cons] at hs
  have h1 : ∀ x ∈ l1, x.1 ≠ e.1 := fun x hx => (hs.2.2 x hx e (by simp)).ne
  have h2 : ∀ x ∈ l2, x.1 ≠ e.1 := fun x hx => (hs.2.1.1 x hx).ne'
  refine ⟨by simp, ?_, ?_⟩
  · unfold erase
    rw [List.filter_append, List.filter_cons]
    rw [List.filter_eq_self.2 (fun x hx => by simpa using h1 x hx),
      List.filter_eq_self.2 (fun x hx => by simpa using h2 x hx)]
    simp
  · intro f
    unfold Spec.modify
    rw [List.map_append, List.map_cons]
    have e1 : ∀ m : List (K × V), (∀ x ∈ m, x.1 ≠ e.1) →
        m.map (fun x => if x.1 = e.1 then (x.1, f x.2) else x) = m := by
      intro m hm
      conv => rhs; rw [← List.map_id m]
      exact List.map_congr_left (fun x hx => by simp [hm x hx])
    rw [e1 l1 h1, e1 l2 h2]
    simp

/-- **C63, reading.** Whatever the user's search answers, `get_by_augmentation` returns what the search
ends at, if it ends at an item or gives up; if the search answers a position that does not exist, the
call is undefined behaviour. -/
theorem C63_get {t : Tree K V A} (h : ReachableBulk t) {s : STree K V A} (hs : Explored t s) (q : Q) :
    t.getByAugmentation q = match s.search q with
      | .nothing => .ok none
      | .entry e => .ok (some e)
      | .noItem => .error .ub
      | .noChild => .error .ub := by
  obtain ⟨H, g, w, hlt, -⟩ := h.wf
  rw [explored_unique hs w.explored, toS_search]
  exact getBy_out w.base (w.depth hlt) q

/-- **C63, updating.** The same for `get_mut_by_augmentation`: it gives access to the value of exactly
the item the search ends at. -/
theorem C63_get_mut {t : Tree K V A} (h : ReachableBulk t) {s : STree K V A} (hs : Explored t s)
    {l : List (K × V)} (hl : Shows t l) (q : Q) (f : V → V) :
    match s.search q with
    | .nothing => t.getMutByAugmentation q f = .ok (none, t)
    | .entry e => e ∈ l ∧ ∃ t', t.getMutByAugmentation q f = .ok (some e.2, t') ∧
        Shows t' (Spec.modify e.1 f l)
    | .noItem => t.getMutByAugmentation q f = .error .ub
    | .noChild => t.getMutByAugmentation q f = .error .ub := by
  obtain ⟨H, g, w, hlt, -⟩ := h.wf
  have hi : Inv 0 t g.toL := ⟨H, g, w, rfl, hlt⟩
  cases hi.unique hl
  rw [explored_unique hs w.explored, toS_search]
  have := getMutBy_out w (w.depth hlt) q f
  generalize g.searchEnd q = o at this
  cases o with
  | nothing => exact this
  | entry e =>
    obtain ⟨t', g', l1, l2, r1, r2, r3, r4, -⟩ := this
    obtain ⟨p1, -, p3⟩ := sorted_around w.sorted r3
    refine ⟨p1, t', r1, ?_⟩
    rw [p3 f, ← r4]
    refine Inv.shows ⟨H, g', r2, rfl, ?_⟩
    rw [r2.len, r4]
    rw [w.len, r3] at hlt
    simpa using hlt
  | noItem => exact this
  | noChild => exact this

/-- **C63, removing.** The same for `remove_by_augmentation`: it removes exactly the item the search ends
at. If the search answers an item that does not exist the call does not return (it panics or is
undefined behaviour, depending on the nodes around), and if it answers a child that does not exist
the call is undefined behaviour. -/
theorem C63_remove {t : Tree K V A} (h : ReachableEven t) {s : STree K V A} (hs : Explored t s)
    {l : List (K × V)} (hl : Shows t l) (q : Q) :
    match s.search q with
    | .nothing => t.removeByAugmentation q = .ok (none, t)
    | .entry e => e ∈ l ∧ ∃ t', t.removeByAugmentation q = .ok (some e, t') ∧ Shows t' (erase e.1 l)
    | .noItem => ∃ f, t.removeByAugmentation q = .error f
    | .noChild => t.removeByAugmentation q = .error .ub := by
  obtain ⟨H, g, w, hlt, -⟩ := h.wf
  have hi : Inv 1 t g.toL := ⟨H, g, w, rfl, hlt⟩
  cases hi.unique hl
  rw [explored_unique hs w.explored, toS_search]
  have := removeBy_out (by omega) w (w.depth hlt) q
  generalize g.searchEnd q = o at this
  cases o with
  | nothing => exact this
  | entry e =>
    rcases this with ⟨t', H', g', l1, l2, r1, r2, r3, r4, -⟩ | ⟨h0, -⟩
    · obtain ⟨p1, p2, -⟩ := sorted_around w.sorted r3
      refine ⟨p1, t', r1, ?_⟩
      rw [p2, ← r4]
      refine Inv.shows ⟨H', g', r2, rfl, ?_⟩
      rw [r2.len, r4]
      rw [w.len, r3] at hlt
      simp only [List.length_append, List.length_cons] at hlt ⊢
      omega
    · omega
  | noItem => exact this
  | noChild => exact this

end

/-! ## Searches written in safe code that make the calls undefined behaviour -/

/-- A map with a search that takes its positions from the query. -/
structure Wild where

instance : Augmentation Nat Nat Wild where
  dflt := {}
  fromLeaf _ _ := {}
  fromInner _ _ := {}

/-- The query says which child to take and, in the leaf, which item. Nothing unsafe is written. -/
instance : SearchAugmentation Nat Nat Wild (Nat × Nat) where
  locateInLeaf q _ _ := some q.2
  locateInInner q _ _ := some (q.1, q)

/-- Eighty items: a root with two leaves. -/
def wildItems : List (Nat × Nat) := (List.range 80).map (fun i => (i, i))

theorem wildItems_sorted : Sorted wildItems := by
  unfold wildItems Sorted
  rw [List.pairwise_map]
  exact List.pairwise_lt_range

/-- A map loaded from them. -/
def wild : Tree Nat Nat Wild :=
  match Tree.bulkLoad wildItems with
  | .ok t => t
  | .error _ => Tree.new

theorem wild_load : Tree.bulkLoad wildItems = .ok wild ∧ Inv 0 wild wildItems := by
  obtain ⟨t, H, g, h1, h2, h3, h4, -, h5⟩ := bulkLoad_ok (A := Wild) (μ := 0) (by omega)
    wildItems (wildItems_sorted.imp (fun h => h.le)) (.inl rfl)
  have e : wild = t := by unfold wild; rw [h1]
  rw [insertAll_of_sorted wildItems_sorted] at h4
  rw [e]
  refine ⟨h1, H, g, h2, h4, ?_⟩
  rw [h2.len, h4, wildItems, List.length_map, List.length_range]
  omega

theorem wild_even : ReachableEven wild :=
  .start ⟨wildItems, wildItems_sorted.imp (fun h => h.le),
    by rw [insertAll_of_sorted wildItems_sorted]; exact evenlyGrouped_small (by decide +kernel),
    wild_load.1⟩ wild_load.2.lt

/-- **C63 is false of the code.** With a search written in safe code, `get_by_augmentation`,
`get_mut_by_augmentation` and `remove_by_augmentation` are undefined behaviour: already the empty map
reads an item that is not there; on a map with two leaves, of 64 and 16 items, so does asking for child
2, or for item 16 of the second leaf. -/
theorem C63_refuted :
    (Reachable (Tree.new : Tree Nat Nat Wild) ∧
      (Tree.new : Tree Nat Nat Wild).getByAugmentation (0, 0) = .error .ub ∧
      ∀ f, (Tree.new : Tree Nat Nat Wild).getMutByAugmentation (0, 0) f = .error .ub) ∧
    (ReachableEven wild ∧
      wild.getByAugmentation (2, 0) = .error .ub ∧
      (∀ f, wild.getMutByAugmentation (2, 0) f = .error .ub) ∧
      wild.removeByAugmentation (2, 0) = .error .ub ∧
      wild.getByAugmentation (1, 16) = .error .ub ∧ wild.getByAugmentation (1, 15) = .ok (some (79, 79))) := by
  have e1 : (match wild.getRefByAugmentation (2, 0) with | .error .ub => true | _ => false) = true := by
    decide +kernel
  have e2 : wild.getRefByAugmentation (2, 0) = .error .ub := by
    generalize wild.getRefByAugmentation (2, 0) = r at e1 ⊢
    rcases r with (_ | _ | _) | _ <;> first | rfl | cases e1
  refine ⟨⟨.start rfl (by decide), rfl, fun f => rfl⟩, wild_even, by decide +kernel, ?_, ?_,
    by decide +kernel, by decide +kernel⟩
  · intro f
    unfold Tree.getMutByAugmentation
    rw [e2]; rfl
  · unfold Tree.removeByAugmentation
    rw [e2]; rfl

/-- **C63, what does hold.** A search that stays within the slices it is given never makes the calls
fail (the full account is C41). -/
theorem C63_in_range_partial [LinearOrder K] [Augmentation K V A] [SearchAugmentation K V A Q]
    (hr : SearchInRange K V A) {t : Tree K V A} (h : ReachableBulk t) {s : STree K V A}
    (hs : Explored t s) (q : Q) :
    (s.search q = .nothing ∧ t.getByAugmentation q = .ok none) ∨
    ∃ e, s.search q = .entry e ∧ t.getByAugmentation q = .ok (some e) := by
  have h1 := C63_get h hs q
  obtain ⟨H, g, w, hlt, -⟩ := h.wf
  obtain ⟨-, h2⟩ := getBy_ok w (w.depth hlt) hr q
  cases ho : s.search q with
  | nothing => rw [ho] at h1; exact .inl ⟨rfl, h1⟩
  | entry e => rw [ho] at h1; exact .inr ⟨e, rfl, h1⟩
  | noItem => rw [ho, h2] at h1; cases h1
  | noChild => rw [ho, h2] at h1; cases h1

/-! ### Concrete cases -/

/-- The nested tree of `wild`, and the end of a search through it. -/
example : ∃ s : STree Nat Nat Wild, Explored wild s ∧ s.items = wildItems ∧
    s.search ((1, 3) : Nat × Nat) = .entry (67, 67) := by
  obtain ⟨H, s, h1, -, -, -, -, h2⟩ := C10_structure_bulk wild_even.bulk wild_load.2.shows
  refine ⟨s, h1, h2, ?_⟩
  have h3 := C63_get wild_even.bulk h1 ((1, 3) : Nat × Nat)
  have h5 : wild.getByAugmentation (1, 3) = .ok (some (67, 67)) := by decide +kernel
  rw [h5] at h3
  cases ho : s.search ((1, 3) : Nat × Nat) with
  | entry e => rw [ho] at h3; cases h3; rfl
  | nothing => rw [ho] at h3; cases h3
  | noItem => rw [ho] at h3; cases h3
  | noChild => rw [ho] at h3; cases h3

example : ∃ t', wild.getMutByAugmentation (1, 3) (· + 1000) = .ok (some 67, t') ∧
    Shows t' (Spec.modify 67 (· + 1000) wildItems) := by
  obtain ⟨H, s, h1, -, -, -, -, h2⟩ := C10_structure_bulk wild_even.bulk wild_load.2.shows
  have h3 := C63_get wild_even.bulk h1 ((1, 3) : Nat × Nat)
  have h4 := C63_get_mut wild_even.bulk h1 wild_load.2.shows ((1, 3) : Nat × Nat) (· + 1000)
  have h5 : wild.getByAugmentation (1, 3) = .ok (some (67, 67)) := by decide +kernel
  rw [h5] at h3
  cases ho : s.search ((1, 3) : Nat × Nat) with
  | entry e =>
    rw [ho] at h3 h4
    cases h3
    exact h4.2
  | nothing => rw [ho] at h3; cases h3
  | noItem => rw [ho] at h3; cases h3
  | noChild => rw [ho] at h3; cases h3

example : ∃ t', wild.removeByAugmentation (1, 3) = .ok (some (67, 67), t') ∧
    Shows t' (erase 67 wildItems) := by
  obtain ⟨H, s, h1, -, -, -, -, h2⟩ := C10_structure_bulk wild_even.bulk wild_load.2.shows
  have h3 := C63_get wild_even.bulk h1 ((1, 3) : Nat × Nat)
  have h4 := C63_remove wild_even h1 wild_load.2.shows ((1, 3) : Nat × Nat)
  have h5 : wild.getByAugmentation (1, 3) = .ok (some (67, 67)) := by decide +kernel
  rw [h5] at h3
  cases ho : s.search ((1, 3) : Nat × Nat) with
  | entry e =>
    rw [ho] at h3 h4
    cases h3
    exact h4.2
  | nothing => rw [ho] at h3; cases h3
  | noItem => rw [ho] at h3; cases h3
  | noChild => rw [ho] at h3; cases h3

/-- Removing an item that is not there. -/
example : (match wild.removeByAugmentation (1, 16) with | .error .ub => true | _ => false) = true ∧
    (match wild.removeByAugmentation (0, 64) with | .error .panic => true | _ => false) = true := by
  decide +kernel

example : (demo.getByAugmentation 5 = .ok none) ∨ ∃ e, demo.getByAugmentation 5 = .ok (some e) := by
  obtain ⟨H, s, h1, -⟩ := C10_structure_bulk demo_reach.mut.bulk demo_shows
  rcases C63_in_range_partial (Count.weightedSearch (K := Nat) (V := Nat)).inRange demo_reach.mut.bulk h1 5 with h | ⟨e, h⟩
  · exact .inl h.2
  · exact .inr ⟨e, h.2⟩

end Bpt
