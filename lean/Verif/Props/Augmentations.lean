import Verif.Props.Demo
import Verif.Proofs.WeightedTree
import Verif.Proofs.Hom

/-!
# User augmentations: C24, C39, C41, C42

`Homomorphic`, `Weighted`, `WeightedSearch`, `SearchInRange` are conditions on the user's augmentation,
stated in `Verif/AugSpec.lean`; `leafOf A l` is `A::from_leaf` of the keys and values of `l`.
-/

namespace Bpt
open Spec
variable {K V A : Type} [LinearOrder K] [Augmentation K V A]

/-! ## C24 -/

/-- **C24.** For an augmentation whose `from_inner` over children equals `from_leaf` over their
concatenated content, `root_augmentation()` is `from_leaf` of the whole content, after any history of
insertions (also overwriting ones), removals and bulk loading. For an empty map it may also be the
default value. -/
theorem C24_in_sync (hh : Homomorphic K V A) {t : Tree K V A} (h : ReachableBulkNoMut t)
    {l : List (K × V)} (hl : Shows t l) :
    t.rootAug = leafOf A l ∨ (l = [] ∧ t.rootAug = Augmentation.dflt K V) := by
  obtain ⟨l', hi⟩ := h.invA
  cases hi.inv.unique hl
  obtain ⟨H, g, w, rfl, _, ha⟩ := hi
  rcases ha.root with h1 | h1
  · exact .inl (h1.trans (topAug_hom hh w.shape ha.ok w.sorted))
  · exact .inr h1

/-- **C24.** If the augmentation looks at keys only, values may also have been changed through mutable
references. -/
theorem C24_in_sync_key_only (hh : Homomorphic K V A) (hk : KeyOnly K V A) {t : Tree K V A}
    (h : ReachableBulk t) {l : List (K × V)} (hl : Shows t l) :
    t.rootAug = leafOf A l ∨ (l = [] ∧ t.rootAug = Augmentation.dflt K V) := by
  obtain ⟨l', hi⟩ := h.invA hk
  cases hi.inv.unique hl
  obtain ⟨H, g, w, rfl, _, ha⟩ := hi
  rcases ha.root with h1 | h1
  · exact .inl (h1.trans (topAug_hom hh w.shape ha.ok w.sorted))
  · exact .inr h1

/-- An augmentation that depends on the order and on everything: the list of all entries. -/
structure AllEntries (K V : Type) where
  entries : List (K × V)

instance : Augmentation K V (AllEntries K V) where
  dflt := ⟨[]⟩
  fromLeaf ks vs := ⟨ks.zip vs⟩
  fromInner _ as := ⟨as.flatMap (·.entries)⟩

theorem AllEntries.homomorphic : Homomorphic K V (AllEntries K V) := by
  intro ks parts _ _ _
  have e : ∀ l : List (K × V), (leafOf (AllEntries K V) l) = ⟨l⟩ := by
    intro l
    simp only [leafOf, Augmentation.fromLeaf, List.zip_map']
    simp
  rw [e, List.map_congr_left (fun p _ => e p)]
  simp only [Augmentation.fromInner, List.flatMap_map]
  rw [List.flatMap_id']

/-- So with that augmentation the root holds exactly the content, always. -/
example {t : Tree K V (AllEntries K V)} (h : ReachableBulkNoMut t) {l : List (K × V)}
    (hl : Shows t l) : t.rootAug = ⟨l⟩ := by
  rcases C24_in_sync AllEntries.homomorphic h hl with h | ⟨rfl, h⟩
  · rw [h]
    simp only [leafOf, Augmentation.fromLeaf, List.zip_map']
    simp
  · exact h

theorem Count.homomorphic : Homomorphic K V Count := by
  intro ks parts _ _ _
  simp only [leafOf, Augmentation.fromInner, Augmentation.fromLeaf, List.map_map, List.length_map,
    List.length_flatten]
  congr 2
  exact List.map_congr_left (fun p _ => List.length_map _)

example : demo.rootAug = leafOf Count demoContent := by
  rcases C24_in_sync Count.homomorphic demo_reach.bulk demo_shows with h | ⟨h, _⟩
  · exact h
  · exact absurd h (by decide)

/-! ## C39 -/

section Weighted
variable [SearchAugmentation K V A Nat] {wt : K × V → Nat} {val : A → Nat}

/-- **C39.** With an augmentation that sums weights (`Weighted`) and searches by cumulative weight
(`WeightedSearch`), searching for offset `q` finds the entry that covers `q`, and nothing exactly if
the total weight is at most `q`; the root holds the total weight. -/
theorem C39_weighted_select (hw : Weighted K V A wt val) (hs : WeightedSearch K V A wt val)
    (h0 : val (Augmentation.dflt K V) = 0)
    {t : Tree K V A} (h : ReachableBulkNoMut t) {l : List (K × V)} (hl : Shows t l) :
    val t.rootAug = (l.map wt).sum ∧
    ∀ q : Nat, ∃ o, t.getByAugmentation q = .ok o ∧
      (∀ e, o = some e → ∃ l1 l2, l = l1 ++ e :: l2 ∧ (l1.map wt).sum ≤ q ∧
        q < (l1.map wt).sum + wt e) ∧
      (o = none ↔ (l.map wt).sum ≤ q) := by
  obtain ⟨l', hi⟩ := h.invA
  cases hi.inv.unique hl
  refine ⟨hi.rootVal hw h0, ?_⟩
  intro q
  refine ⟨_, hi.getBy hw hs q, ?_, ?_⟩
  · intro e he
    cases hf : wfind wt l q with
    | none => rw [hf] at he; simp at he
    | some n =>
      obtain ⟨l1, x, l2, e1, e2, h1, h2⟩ := (wfind_some wt l q n).1 hf
      rw [hf, e1, ← e2] at he
      simp only [Option.bind_some, List.getElem?_concat_length, List.getElem?_append_right le_rfl,
        Nat.sub_self, List.getElem?_cons_zero, Option.some.injEq] at he
      subst he
      exact ⟨l1, l2, e1, h1, h2⟩
  · rw [← wfind_none]
    cases hf : wfind wt l q with
    | none => simp
    | some n =>
      have := wfind_lt hf
      simp only [Option.bind_some, List.getElem?_eq_getElem this]
      simp

/-- **C39.** Removing by offset removes exactly the covering entry. -/
theorem C39_weighted_remove (hw : Weighted K V A wt val) (hs : WeightedSearch K V A wt val)
    {t : Tree K V A} (h : ReachableNoMut t) {l : List (K × V)} (hl : Shows t l) (q : Nat) :
    ∃ o t', t.removeByAugmentation q = .ok (o, t') ∧
      (∀ e, o = some e → ∃ l1 l2, l = l1 ++ e :: l2 ∧ (l1.map wt).sum ≤ q ∧
        q < (l1.map wt).sum + wt e ∧ Shows t' (l1 ++ l2)) ∧
      (o = none ↔ (l.map wt).sum ≤ q) ∧ (o = none → t' = t) := by
  obtain ⟨l', hi⟩ := h.invA
  cases hi.inv.unique hl
  rcases hi.removeBy (by omega) hw hs q with ⟨t', h1, h2, h3⟩ | ⟨h0, _⟩
  · refine ⟨_, t', h1, ?_, ?_, ?_⟩
    · intro e he
      cases hf : wfind wt l q with
      | none => rw [hf] at he; simp at he
      | some n =>
        obtain ⟨l1, x, l2, e1, e2, h4, h5⟩ := (wfind_some wt l q n).1 hf
        rw [hf, e1, ← e2] at he
        simp only [Option.bind_some, List.getElem?_append_right le_rfl, Nat.sub_self,
          List.getElem?_cons_zero, Option.some.injEq] at he
        subst he
        refine ⟨l1, l2, e1, h4, h5, ?_⟩
        rw [hf] at h2
        have h2 := h2.inv.shows
        simp only [e1, eraseIdx_mid l1 l2 x n e2.symm] at h2
        exact h2
    · rw [← wfind_none]
      cases hf : wfind wt l q with
      | none => simp
      | some n =>
        have := wfind_lt hf
        simp only [Option.bind_some, List.getElem?_eq_getElem this]
        simp
    · intro he
      apply h3
      cases hf : wfind wt l q with
      | none => rfl
      | some n =>
        have := wfind_lt hf
        rw [hf] at he
        simp [List.getElem?_eq_getElem this] at he
  · omega

end Weighted

theorem wfind_filter {α : Type} (p : α → Bool) (l : List α) (q : Nat) :
    (wfind (fun e => if p e then 1 else 0) l q).bind (fun n => l[n]?) = (l.filter p)[q]? := by
  induction l generalizing q with
  | nil => simp [wfind]
  | cons x l ih =>
    have step : ∀ o : Option Nat, (o.map (· + 1)).bind (fun n => (x :: l)[n]?)
        = o.bind (fun n => l[n]?) := by
      intro o; cases o <;> simp
    simp only [wfind, List.filter_cons]
    by_cases hx : p x
    · rw [if_pos hx, if_pos hx]
      cases q with
      | zero => simp
      | succ q =>
        rw [if_neg (by omega), List.getElem?_cons_succ, ← ih, Nat.add_sub_cancel, step]
    · rw [if_neg hx, if_neg hx, if_neg (by omega), ← ih, Nat.sub_zero, step]

theorem sum_filter {α : Type} (p : α → Bool) (l : List α) :
    (l.map (fun e => if p e then 1 else 0)).sum = (l.filter p).length := by
  induction l with
  | nil => rfl
  | cons x l ih =>
    simp only [List.map_cons, List.sum_cons, ih, List.filter_cons]
    split
    · rw [List.length_cons]; omega
    · omega

/-- **C39** for examples/augment_even_count.rs: the root counts the even keys, and offset `q` finds the
`q`-th even key. -/
theorem C39_even_count {t : Tree Int V EvenCount} (h : ReachableBulkNoMut t) {l : List (Int × V)}
    (hl : Shows t l) :
    t.rootAug.val = (l.filter (fun e => e.1 % 2 = 0)).length ∧
    ∀ q : Nat, t.getByAugmentation q = .ok (l.filter (fun e => e.1 % 2 = 0))[q]? := by
  obtain ⟨l', hi⟩ := h.invA
  cases hi.inv.unique hl
  have e : (fun e : Int × V => decide (e.1 % 2 = 0)) = fun e => valueIsEven e.1 := by
    funext e
    rw [Bool.eq_iff_iff]
    simp [valueIsEven]
  rw [e, ← sum_filter]
  refine ⟨hi.rootVal EvenCount.weighted rfl, ?_⟩
  intro q
  rw [hi.getBy EvenCount.weighted EvenCount.weightedSearch,
    wfind_filter (fun e : Int × V => valueIsEven e.1)]

/-- Non-vacuity: every list of insertions gives such a map. -/
example : ∃ t : Tree Int Nat EvenCount, ReachableBulkNoMut t ∧
    Shows t [(1, 0), (2, 7), (4, 8), (5, 1), (6, 9)] := by
  obtain ⟨t, h1, h2⟩ := reach_insertAll (A := EvenCount)
    [((4 : Int), 8), (1, 0), (6, 9), (2, 7), (5, 1)] (by decide)
  exact ⟨t, h1.bulk, h2.shows⟩

/-! ## C41 -/

/-- **C41.** For *any* search augmentation that respects the bounds of the slices it is given, on any
reachable map and any query: `get_by_augmentation` gives `None` or an entry of the map;
`remove_by_augmentation` gives the same and removes exactly that entry; `get_mut_by_augmentation` gives
access to exactly that entry's value. Nothing faults and the map stays usable. -/
theorem C41_any_search {Q : Type} [SearchAugmentation K V A Q] (hr : SearchInRange K V A)
    {t : Tree K V A} (h : ReachableEven t) {l : List (K × V)} (hl : Shows t l) (q : Q) :
    ∃ o, t.getByAugmentation q = .ok o ∧ (∀ e, o = some e → e ∈ l) ∧
      (∃ t', t.removeByAugmentation q = .ok (o, t') ∧
        Shows t' (match o with | none => l | some e => erase e.1 l) ∧ (o = none → t' = t)) ∧
      (∀ f, ∃ t', t.getMutByAugmentation q f = .ok (o.map (·.2), t') ∧
        Shows t' (match o with | none => l | some e => Spec.modify e.1 f l) ∧
        (o = none → t' = t)) := by
  obtain ⟨H, g, w, hlen, _⟩ := h.wf
  have hi : Inv 1 t g.toL := ⟨H, g, w, rfl, hlen⟩
  cases hi.unique hl
  obtain ⟨hb, hg⟩ := getBy_ok w (w.depth hlen) hr q
  have hs := w.sorted
  have hmid : ∀ n e, g.toL[n]? = some e → g.toL = g.toL.take n ++ e :: g.toL.drop (n + 1) ∧
      (∀ x ∈ g.toL.take n, x.1 ≠ e.1) ∧ (∀ x ∈ g.toL.drop (n + 1), x.1 ≠ e.1) ∧ n < g.toL.length := by
    intro n e he
    obtain ⟨hlt, hv⟩ := List.getElem?_eq_some_iff.1 he
    have e1 : g.toL = g.toL.take n ++ e :: g.toL.drop (n + 1) := by
      rw [← hv, List.cons_getElem_drop_succ, List.take_append_drop]
    refine ⟨e1, ?_⟩
    rw [e1] at hs
    unfold Sorted at hs
    rw [List.pairwise_append, List.pairwise_cons] at hs
    exact ⟨fun x hx => (hs.2.2 x hx e (by simp)).ne, fun x hx => (hs.2.1.1 x hx).ne', hlt⟩
  refine ⟨_, hg, ?_, ?_, ?_⟩
  · intro e he
    cases hq : g.search q with
    | none => rw [hq] at he; simp at he
    | some n => rw [hq] at he; exact List.mem_of_getElem? he
  · rcases removeBy_ok (by omega) w (w.depth hlen) hr q with
      ⟨t', H', g', h1, h2, h3, _, _, _, _, h5, _⟩ | ⟨h0, _⟩
    · have hi' : Inv 1 t' g'.toL := by
        refine ⟨H', g', h2, rfl, ?_⟩
        rw [h2.len, h3]
        have e := w.len
        split
        · omega
        · have := List.length_eraseIdx_le (l := g.toL) (i := ‹Nat›)
          omega
      refine ⟨t', h1, ?_, ?_⟩
      · have := hi'.shows
        rw [h3] at this
        cases hq : g.search q with
        | none => rw [hq] at this; exact this
        | some n =>
          rw [hq] at this
          have hn := hb n hq
          simp only [Option.bind_some, List.getElem?_eq_getElem hn]
          obtain ⟨e1, h6, h7, _⟩ := hmid n _ (List.getElem?_eq_getElem hn)
          generalize g.toL[n] = e at e1 h6 h7
          have e2 : erase e.1 g.toL = g.toL.eraseIdx n := by
            conv_lhs => rw [e1]
            rw [List.eraseIdx_eq_take_drop_succ]
            simp only [erase, List.filter_append]
            rw [List.filter_eq_self.2 (by simpa using h6), List.filter_cons_of_neg (by simp),
              List.filter_eq_self.2 (by simpa using h7)]
          rw [e2]; exact this
      · intro he
        apply h5
        cases hq : g.search q with
        | none => rfl
        | some n =>
          rw [hq] at he
          simp [List.getElem?_eq_getElem (hb n hq)] at he
    · omega
  · intro f
    obtain ⟨t', g', h1, h2, h3, _, _, _, h6⟩ := getMutBy_ok w (w.depth hlen) hr q f
    have hi' : Inv 1 t' g'.toL := by
      refine ⟨H, g', h2, rfl, ?_⟩
      rw [h2.len, h3]
      have e := w.len
      split
      · omega
      · rw [List.length_modify]; omega
    refine ⟨t', h1, ?_, ?_⟩
    · have := hi'.shows
      rw [h3] at this
      cases hq : g.search q with
      | none => rw [hq] at this; exact this
      | some n =>
        rw [hq] at this
        have hn := hb n hq
        simp only [Option.bind_some, List.getElem?_eq_getElem hn]
        obtain ⟨e1, h6, h7, _⟩ := hmid n _ (List.getElem?_eq_getElem hn)
        generalize g.toL[n] = e at e1 h6 h7
        have e2 : Spec.modify e.1 f g.toL = g.toL.modify n (fun kv => (kv.1, f kv.2)) := by
          conv_lhs => rw [e1]
          conv_rhs => rw [e1]
          rw [modify_mid _ _ _ _ n (by rw [List.length_take]; omega)]
          simp only [Spec.modify, List.map_append, List.map_cons, if_true]
          congr 1
          · conv_rhs => rw [← List.map_id (g.toL.take n)]
            refine List.map_congr_left ?_
            intro x hx
            rw [if_neg (h6 x hx)]; rfl
          · congr 1
            conv_rhs => rw [← List.map_id (g.toL.drop (n + 1))]
            refine List.map_congr_left ?_
            intro x hx
            rw [if_neg (h7 x hx)]; rfl
        rw [e2]; exact this
    · intro he
      apply h6
      cases hq : g.search q with
      | none => rfl
      | some n =>
        rw [hq] at he
        simp [List.getElem?_eq_getElem (hb n hq)] at he

/-- A search that meets the condition but has nothing to do with the content: always the last child,
always the first slot. -/
structure Silly where

instance : Augmentation K V Silly where
  dflt := {}
  fromLeaf _ _ := {}
  fromInner _ _ := {}

instance : SearchAugmentation K V Silly Unit where
  locateInLeaf _ ks _ := if ks.length = 0 then none else some 0
  locateInInner q _ as := if as.length = 0 then none else some (as.length - 1, q)

omit [LinearOrder K] in
theorem silly_inRange : SearchInRange K V Silly (Q := Unit) := by
  constructor
  · intro q d i h
    simp only [SearchAugmentation.locateInLeaf, List.length_map] at h
    split at h
    · cases h
    · cases h; omega
  · intro q ks as i q' h
    simp only [SearchAugmentation.locateInInner] at h
    split at h
    · cases h
    · cases h; omega

example : ∃ t : Tree Nat Nat Silly, Reachable t ∧ Shows t [(1, 5), (2, 6)] ∧
    ∃ o, t.getByAugmentation () = .ok o ∧ (∀ e, o = some e → e ∈ [(1, 5), (2, 6)]) := by
  obtain ⟨t, h1, h2⟩ := reach_insertAll (A := Silly) [((2 : Nat), (6 : Nat)), (1, 5)] (by decide)
  have hs : Shows t [(1, 5), (2, 6)] := h2.shows
  obtain ⟨o, h3, h4, _⟩ := C41_any_search silly_inRange h1.mut.even hs ()
  exact ⟨t, h1.mut, hs, o, h3, h4⟩

/-! ### The hypotheses of the theorems above, on concrete maps -/

example := C24_in_sync_key_only Count.homomorphic Count.keyOnly demo_reach.mut.bulk demo_shows

example := C39_weighted_select (V := Nat) Count.weighted Count.weightedSearch rfl demo_reach.bulk demo_shows
example := C39_weighted_remove (V := Nat) Count.weighted Count.weightedSearch demo_reach demo_shows 42
example : ∃ t : Tree Int Nat EvenCount, t.rootAug.val = 3 ∧ t.getByAugmentation 1 = .ok (some (4, 8)) := by
  obtain ⟨t, h1, h2⟩ := reach_insertAll (A := EvenCount)
    [((4 : Int), 8), (1, 0), (6, 9), (2, 7), (5, 1)] (by decide)
  have hs : Shows t [(1, 0), (2, 7), (4, 8), (5, 1), (6, 9)] := h2.shows
  exact ⟨t, (C39_even_count h1.bulk hs).1, (C39_even_count h1.bulk hs).2 1⟩

end Bpt
