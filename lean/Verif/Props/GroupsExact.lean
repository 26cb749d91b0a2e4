import Verif.Props.Groups
import Verif.Proofs.GroupExact

/-!
# What `GroupCount` answers, exactly: C51

C26 to C29 are false as stated. Here is what the code answers in every reachable map, bulk-loaded or not.
`s` is the tree a visitor sees (`Explored t s`), `s.items` its entries in key order and `s.leaves` the
entries of each leaf. How far an answer is off is `overcount s.leaves g`, defined in `Verif/GroupSpec.lean`
without reference to the code: in the leaf in which the group begins, count the entries in groups strictly
between that of the leaf's first entry and `g`, all but one for each of these groups.
-/

namespace Bpt
open Spec
variable {K V G : Type} [LinearOrder G] [FromRef K G]

/-! ## Bridges -/

theorem surplus_eq (leaf : List (K × V)) (g : G) : surplus leaf g = surp (groupsOf G leaf) g := by
  cases leaf with
  | nil => rfl
  | cons e leaf => rfl

theorem homeLeaf_eq (leaves : List (List (K × V))) (g : G) :
    homeG (leaves.map (groupsOf G)) g = (homeLeaf leaves g).map (groupsOf G) := by
  rw [homeG, homeLeaf, List.find?_map]
  congr 2
  funext leaf
  simp only [Function.comp, count_members]

theorem sizeAtHome_eq (leaves : List (List (K × V))) (g : G) :
    homeCnt (leaves.map (groupsOf G)) g = sizeAtHome leaves g := by
  rw [homeCnt, sizeAtHome, homeLeaf_eq]
  cases homeLeaf leaves g with
  | none => rfl
  | some leaf => exact count_members leaf g

theorem overcount_eq (leaves : List (List (K × V))) (g : G) :
    over (leaves.map (groupsOf G)) g = overcount leaves g := by
  rw [over, overcount, homeLeaf_eq]
  cases homeLeaf leaves g with
  | none => rfl
  | some leaf => exact (surplus_eq leaf g).symm

theorem endsLeaf_iff (leaves : List (List (K × V))) (g : G) :
    endsLeaf leaves g = true ↔ ∃ q ∈ leaves.dropLast.map (groupsOf G), q.getLast? = some g := by
  rw [endsLeaf, List.any_eq_true]
  constructor
  · rintro ⟨leaf, h1, h2⟩
    refine ⟨_, List.mem_map_of_mem h1, ?_⟩
    rw [List.getLast?_map]
    simpa using h2
  · rintro ⟨q, hq, h⟩
    obtain ⟨leaf, h1, rfl⟩ := List.mem_map.1 hq
    refine ⟨leaf, h1, ?_⟩
    rw [List.getLast?_map] at h
    simpa using h

theorem leafGroups_eq {h : Nat} (x : T K V (GroupCount G) h) :
    leafGroups G x = x.toS.leaves.map (groupsOf G) := by
  rw [leafGroups, T.toS_leaves, List.map_map]
  rfl

theorem members_flatten (leaves : List (List (K × V))) (g : G) :
    (leaves.map (groupsOf G)).flatten.count g = (members leaves.flatten g).length := by
  rw [← count_members, groupsOf, List.map_flatten]

/-- What the visitor counts. -/
theorem visit_count {ls : List (List G)} (hs : Asc ls.flatten) {g : G} {n : Nat}
    (h : n + ph g ls = (inflAll ls).count g) :
    n = ls.flatten.count g + if ∃ q ∈ ls.dropLast, q.getLast? = some g then over ls g else 0 := by
  rcases List.eq_nil_or_concat ls with rfl | ⟨l, p, rfl⟩
  · simpa [ph, inflAll] using h
  · rw [List.concat_eq_append] at *
    have e : inflAll (l ++ [p]) = inflAll l ++ inflate p := by simp [inflAll]
    rw [e, List.count_append, count_inflate] at h
    simp only [ph, List.getLast?_append, List.getLast?_singleton, Option.some_or] at h
    rw [List.dropLast_concat, List.flatten_append, List.count_append]
    have hs' : Asc l.flatten := by
      rw [List.flatten_append] at hs
      exact hs.left
    rw [infl_count_exact hs'] at h
    have hov : (∃ q ∈ l, q.getLast? = some g) → over (l ++ [p]) g = over l g := by
      rintro ⟨q, hq, hl⟩
      have : homeG (l ++ [p]) g = homeG l g := by
        unfold homeG
        rw [List.find?_append]
        cases hf : l.find? (fun p => decide (0 < p.count g)) with
        | some p' => rfl
        | none =>
          rw [List.find?_eq_none] at hf
          exact absurd (List.count_pos_iff.2 (getLast?_mem hl)) (by simpa using hf q hq)
      unfold over
      rw [this]
    simp only [List.flatten_cons, List.flatten_nil, List.append_nil]
    by_cases h0 : ∃ q ∈ l, q.getLast? = some g
    · rw [if_pos h0] at h ⊢
      rw [hov h0]
      omega
    · rw [if_neg h0] at h ⊢
      omega

variable [LinearOrder K]

/-! ## Largest group -/

/-- **C51, `max_group`.** `None` for the empty map; otherwise the group of the largest key, with a size that
exceeds the number of its members by `overcount`. -/
theorem C51_max_group {t : Tree K V (GroupCount G)} (h : ReachableBulk t)
    {s : STree K V (GroupCount G)} (hs : Explored t s) (hm : MonotoneGroups K G) :
    t.rootAug.maxGroup? = s.items.getLast?.map (fun e => ((FromRef.fromRef e.1 : G),
      (members s.items (FromRef.fromRef e.1 : G)).length +
        overcount s.leaves (FromRef.fromRef e.1 : G))) := by
  obtain ⟨l, hi⟩ := h.invA GroupCount.keyOnly
  obtain ⟨H, x, w, rfl, hlen, ha⟩ := hi
  cases explored_unique hs w.explored
  rw [T.toS_items]
  have hasc := monotone_asc (G := G) hm w.sorted
  have hf := leafGroups_flatten (G := G) x
  have hsum : Summary True t.rootAug (inflAll (leafGroups G x)) := by
    rcases ha.root with h1 | ⟨h1, h2⟩
    · rw [h1]; exact Summary.topAug_infl ha.ok hasc
    · rw [h2]
      show inflAll (leafGroups G x) = []
      rw [List.eq_nil_iff_forall_not_mem]
      intro y hy
      rw [mem_inflAll, hf, h1] at hy
      simp at hy
  cases hl : x.toL.getLast? with
  | none =>
    have h0 : x.toL = [] := by simpa using hl
    have : inflAll (leafGroups G x) = [] := by
      rw [List.eq_nil_iff_forall_not_mem]
      intro y hy
      rw [mem_inflAll, hf, h0] at hy
      simp at hy
    rw [this] at hsum
    cases hr : t.rootAug with
    | zero => rfl
    | one g c =>
      rw [hr] at hsum
      have := congrArg List.length hsum.2
      have := hsum.1
      simp at *
      omega
    | multiple mn mx n => rw [hr] at hsum; simp [Summary] at hsum
  | some e =>
    have hlast : (groupsOf G x.toL).getLast? = some (FromRef.fromRef e.1) := by
      rw [groupsOf, List.getLast?_map, hl]; rfl
    have hall : ∀ y ∈ (leafGroups G x).flatten, y ≤ (FromRef.fromRef e.1 : G) := by
      intro y hy
      rw [hf] at hy
      exact hasc.le_last hlast hy
    have hmem : (FromRef.fromRef e.1 : G) ∈ inflAll (leafGroups G x) := by
      rw [mem_inflAll, hf]; exact getLast?_mem hlast
    obtain ⟨m, c, e1, e2, e3, e4, e5⟩ := hsum.max (List.ne_nil_of_mem hmem)
    have hiasc := inflAll_asc (ls := leafGroups G x) (by rw [hf]; exact hasc)
    have hmm : m = FromRef.fromRef e.1 := le_antisymm
      (hall m (mem_inflAll.1 (getLast?_mem e2))) (hiasc.le_last e2 hmem)
    subst hmm
    rw [e1, Option.map_some, ← e5 trivial, infl_count_last (by rw [hf]; exact hasc) hall, hf,
      count_members, leafGroups_eq, overcount_eq]

/-! ## Selection -/

/-- **C51, selection by group.** Members in the leaf in which the group begins are found. Then come
`overcount` positions at which nothing is found; later members are found that many positions too late. -/
theorem C51_select {t : Tree K V (GroupCount G)} (h : ReachableBulk t)
    {s : STree K V (GroupCount G)} (hs : Explored t s) (hm : MonotoneGroups K G) (g : G) (i : Nat) :
    t.getByAugmentation (g, i) = .ok (
      if i < sizeAtHome s.leaves g then (members s.items g)[i]?
      else if i < sizeAtHome s.leaves g + overcount s.leaves g then none
      else (members s.items g)[i - overcount s.leaves g]?) := by
  obtain ⟨l, hi⟩ := h.invA GroupCount.keyOnly
  obtain ⟨H, x, w, rfl, hlen, ha⟩ := hi
  cases explored_unique hs w.explored
  have hasc := monotone_asc (G := G) hm w.sorted
  rw [(getBy_ok w (w.depth hlen) GroupCount.inRange (g, i)).2, group_search_exact ha.ok hasc,
    pick_exact (by rw [leafGroups_flatten]; exact hasc), leafGroups_flatten, leafGroups_eq,
    sizeAtHome_eq, overcount_eq, T.toS_items]
  congr 1
  split
  · exact wfind_members _ _ _
  · split
    · rfl
    · exact wfind_members _ _ _

/-- **C51, when selection is right.** Every selection from the group is right if and only if nothing is
overcounted or the group lies in a single leaf. -/
theorem C51_select_iff {t : Tree K V (GroupCount G)} (h : ReachableBulk t)
    {s : STree K V (GroupCount G)} (hs : Explored t s) (hm : MonotoneGroups K G) (g : G) :
    (∀ i, t.getByAugmentation (g, i) = .ok (members s.items g)[i]?) ↔
      overcount s.leaves g = 0 ∨ (members s.items g).length ≤ sizeAtHome s.leaves g := by
  constructor
  · intro h1
    by_contra h2
    push Not at h2
    have := h1 (sizeAtHome s.leaves g)
    rw [C51_select h hs hm, if_neg (by omega), if_pos (by omega)] at this
    simp only [Except.ok.injEq] at this
    rw [List.getElem?_eq_getElem h2.2] at this
    cases this
  · intro h1 i
    rw [C51_select h hs hm]
    congr 1
    split
    · rfl
    · rcases h1 with h1 | h1
      · rw [h1, if_neg (by omega), Nat.sub_zero]
      · rw [List.getElem?_eq_none (i := i) (by omega)]
        split
        · rfl
        · rw [List.getElem?_eq_none (by omega)]

/-! ## Size of a group -/

/-- **C51, the group size visitor.** It counts `overcount` too many if some leaf other than the last one
ends inside the group, and is right otherwise. -/
theorem C51_group_size {t : Tree K V (GroupCount G)} (h : ReachableBulk t)
    {s : STree K V (GroupCount G)} (hs : Explored t s) (hm : MonotoneGroups K G) (g : G) :
    t.descendVisit (GroupCount.extractGroupSize g) 0 = .ok (some ((members s.items g).length +
      if endsLeaf s.leaves g then overcount s.leaves g else 0)) := by
  obtain ⟨l, hi⟩ := h.invA GroupCount.keyOnly
  obtain ⟨H, x, w, rfl, hlen, ha⟩ := hi
  cases explored_unique hs w.explored
  have hasc := monotone_asc (G := G) hm w.sorted
  obtain ⟨n, h1, h2⟩ := group_visit_exact w.shape ha.ok hasc g 0
  rw [descendVisit_ok w, h1]
  rw [Nat.zero_add] at h2
  have := visit_count (by rw [leafGroups_flatten]; exact hasc) h2
  rw [this, leafGroups_flatten, count_members, leafGroups_eq, overcount_eq, T.toS_items]
  congr 3
  simp only [endsLeaf_iff, List.map_dropLast]

/-! ## Rank -/

/-- **C51, the rank in the group.** `Ok` for stored keys and `Err` for others, with the group of the key.
The count is that of the members in the leaves collected on the way down, what is overcounted in those
leaves, and the smaller members in the leaf of the key. -/
theorem C51_rank {t : Tree K V (GroupCount G)} (h : ReachableBulk t)
    {s : STree K V (GroupCount G)} (hs : Explored t s) (hm : MonotoneGroups K G) (k : K) :
    t.rankByAugmentation k = .ok (okIf (k ∈ s.items.map (·.1)) (some ((FromRef.fromRef k : G),
      (members (s.rankSees k []).1.flatten (FromRef.fromRef k : G)).length +
        overcount (s.rankSees k []).1 (FromRef.fromRef k : G) +
        ((members (s.rankSees k []).2 (FromRef.fromRef k : G)).filter (fun e => e.1 < k)).length))) := by
  obtain ⟨l, hi⟩ := h.invA GroupCount.keyOnly
  obtain ⟨H, g, w, rfl, hlen, ha⟩ := hi
  cases explored_unique hs w.explored
  have hso : Sorted g.toL := w.flat.sorted
  have hasc := monotone_asc (G := G) hm hso
  obtain ⟨c, x, r, hp, hl, ⟨acc, hr, ⟨pre, hpre⟩, hsee⟩, e⟩ := group_rank_exact w ha.ok hm k
  have hsees : g.toS.rankSees k [] = (acc, x.data) := by
    rw [hsee x hp]
    show STree.rankSees k acc (STree.leaf (GLeaf.data x)) = _
    rw [STree.rankSees]
  rw [hsees, e, T.toS_items]
  have hcut := hl.cut w hp
  have hg : g.toL = g.leaves.flatMap (·.2) := rfl
  have hacc : ∃ q, c.lvL.flatMap (·.2) = q ++ acc.flatten := by
    rw [List.flatMap_def, hpre]
    exact ⟨pre.flatten, by simp⟩
  obtain ⟨q, hq⟩ := hacc
  have hne : groupsOf G x.data = [] → inflAll (acc.map (groupsOf G)) = [] := by
    intro h0
    by_cases h2 : 2 ≤ g.leaves.length
    · have := w.flat.nonempty h2 (x.id, x.data) (by rw [hcut.eq]; simp)
      simp at h0
      exact absurd h0 this
    · have hlen : g.leaves.length = c.lvL.length + (c.lvR.length + 1) := by
        rw [hcut.eq]; simp
      have : c.lvL = [] := List.length_eq_zero_iff.1 (by omega)
      rw [this] at hpre
      have : acc = [] := by
        have := hpre.symm
        simp only [List.map_nil, List.append_eq_nil_iff] at this
        exact this.2
      rw [this]; rfl
  have hflat : (acc.map (groupsOf G)).flatten = groupsOf G acc.flatten := by
    rw [groupsOf, List.map_flatten]
  -- the leaf cut at the key
  have key : ∀ (a b : List (K × V)), x.data = a ++ b → (∀ e ∈ a, e.1 < k) → (∀ e ∈ b, k ≤ e.1) →
      (∀ e ∈ c.lvL.flatMap (·.2), e.1 < k) →
      (Asc (inflAll (acc.map (groupsOf G)) ++ (groupsOf G a ++ groupsOf G b)) ∧
      (∀ y ∈ inflAll (acc.map (groupsOf G)) ++ groupsOf G a, y ≤ FromRef.fromRef k) ∧
      (groupsOf G a ++ groupsOf G b = [] → inflAll (acc.map (groupsOf G)) = [])) ∧
      (inflAll (acc.map (groupsOf G)) ++ groupsOf G a).count (FromRef.fromRef k) =
        (members acc.flatten (FromRef.fromRef k : G)).length +
        overcount acc (FromRef.fromRef k : G) +
        ((members x.data (FromRef.fromRef k : G)).filter (fun e => e.1 < k)).length := by
    intro a b hx h1 h2 h3
    have hsub : Asc (groupsOf G (acc.flatten ++ x.data)) := by
      refine hasc.sublist (List.Sublist.map _ ?_)
      rw [hg, hcut.eq, List.flatMap_append, List.flatMap_cons, hq, List.append_assoc]
      refine List.Sublist.trans ?_ (List.sublist_append_right q _)
      exact (List.Sublist.refl _).append (List.sublist_append_left _ _)
    have hasc1 : Asc (groupsOf G acc.flatten) :=
      hsub.sublist ((List.sublist_append_left _ _).map _)
    have hle : ∀ y ∈ (acc.map (groupsOf G)).flatten, y ≤ (FromRef.fromRef k : G) := by
      intro y hy
      rw [hflat] at hy
      obtain ⟨e, he, rfl⟩ := List.mem_map.1 hy
      exact hm _ _ (h3 e (by rw [hq]; exact List.mem_append.2 (.inr he))).le
    refine ⟨⟨?_, ?_, ?_⟩, ?_⟩
    · rw [← List.map_append, ← hx]
      refine List.pairwise_append.2 ⟨inflAll_asc (by rw [hflat]; exact hasc1),
        hsub.sublist ((List.sublist_append_right _ _).map _), ?_⟩
      intro y hy z hz
      rw [mem_inflAll, hflat] at hy
      rw [groupsOf, List.map_append] at hsub
      exact hsub.cross hy hz
    · intro y hy
      rcases List.mem_append.1 hy with hy | hy
      · exact hle y (mem_inflAll.1 hy)
      · obtain ⟨e, he, rfl⟩ := List.mem_map.1 hy
        exact hm _ _ (h1 e he).le
    · rw [← List.map_append, ← hx]
      exact hne
    · rw [List.count_append, infl_count_last (by rw [hflat]; exact hasc1) hle, overcount_eq, hflat,
        count_members]
      congr 1
      rw [← filter_count h1 h2, members, List.filter_filter, hx]
      congr 1
      apply List.filter_congr
      intro e _
      simp
  congr 1
  simp only [okIf, ← isSome_iff_mem hso]
  have hL := (hl.keys (Ctx.shape_plug.1 ⟨hp ▸ w.shape, hl.lenOK⟩).1).1
  rcases hcut.split (hg ▸ hso) with ⟨a, v, b, hx, h1, h2, h3, h4, h5⟩ | ⟨a, b, hx, h1, h2, h3, h4, h5⟩
  · simp only at hx
    have hslot : bsearch (x.data.map (·.1)) k = .found a.length := by
      rw [hx]; exact locateSlot_found (p := none) (n := none) h1
    have hlook : lookup k g.toL = some v := by rw [hg, h3]; exact lookup_found h4
    obtain ⟨⟨k1, k2, k3⟩, k4⟩ := key a ((k, v) :: b) hx
      (fun e he => h4 e (List.mem_append.2 (.inr he)))
      (by
        intro e he
        rcases List.mem_cons.1 he with rfl | he
        · exact le_rfl
        · exact (h5 e (List.mem_append.2 (.inl he))).le) hL
    have := (foldLeaf_eq k1 k2 k3 hr).2 (by simp)
    rw [hlook, hslot, ← k4]
    rw [← List.map_append, ← hx] at this
    simpa using this
  · simp only at hx
    have hslot : bsearch (x.data.map (·.1)) k = .vacant a.length := by
      rw [hx]; exact locateSlot_vacant (p := none) (n := none) h1 h2
    have hlook : lookup k g.toL = none := by rw [hg, h3]; exact lookup_none h4 h5
    obtain ⟨⟨k1, k2, k3⟩, k4⟩ := key a b hx
      (fun e he => h4 e (List.mem_append.2 (.inr he)))
      (fun e he => (h5 e (List.mem_append.2 (.inl he))).le) hL
    have := (foldLeaf_eq k1 k2 k3 hr).1
    rw [hlook, hslot, ← k4]
    rw [← List.map_append, ← hx] at this
    simpa using this

/-! ## How far off -/

omit [FromRef K G] [LinearOrder K] in
theorem surp_le {p : List G} {g : G} (hg : g ∈ p) (hp : p.length ≤ 64) : surp p g ≤ 61 := by
  cases p with
  | nil => simp at hg
  | cons a p =>
    simp only [surp]
    by_cases h0 : (a :: p).filter (fun x => a < x ∧ x < g) = []
    · rw [h0]; simp
    · have e : (a :: p).filter (fun x => a < x ∧ x < g) = p.filter (fun x => a < x ∧ x < g) := by
        simp
      rw [e] at h0 ⊢
      have h1 : (p.filter (fun x => a < x ∧ x < g)).length < p.length := by
        rw [List.length_filter_lt_length_iff_exists]
        rcases List.mem_cons.1 hg with rfl | hg
        · obtain ⟨x, hx⟩ := List.exists_mem_of_ne_nil _ h0
          rw [List.mem_filter, decide_eq_true_eq] at hx
          exact absurd (hx.2.1.trans hx.2.2) (lt_irrefl _)
        · exact ⟨g, hg, by simp⟩
      have h2 : 0 < (p.filter (fun x => a < x ∧ x < g)).toFinset.card := by
        rw [Finset.card_pos, List.toFinset_nonempty_iff]
        exact h0
      simp only [List.length_cons] at hp
      omega

/-- **C51, bound.** The size of the largest group, the size found by the visitor and the place of a member
are off by at most 61. -/
theorem C51_overcount_le {t : Tree K V (GroupCount G)} (h : ReachableBulk t)
    {s : STree K V (GroupCount G)} (hs : Explored t s) (g : G) : overcount s.leaves g ≤ 61 := by
  obtain ⟨l, hi⟩ := h.invA GroupCount.keyOnly
  obtain ⟨H, x, w, rfl, hlen, ha⟩ := hi
  cases explored_unique hs w.explored
  rw [overcount]
  split
  · omega
  · rename_i leaf hl
    rw [homeLeaf] at hl
    have h1 := List.mem_of_find?_eq_some hl
    have h2 := List.find?_some hl
    rw [T.toS_leaves, List.mem_map] at h1
    obtain ⟨p, hp, rfl⟩ := h1
    rw [decide_eq_true_eq, ← count_members] at h2
    rw [surplus_eq]
    exact surp_le (List.count_pos_iff.1 h2) (by simpa using leaf_le w.shape p hp)

/-- The bound is reached: one key in group 1, 62 in group 2 and one in group 3, of which `max_group()` says
that it has 62 members. -/
theorem C51_overcount_tight :
    ∃ (t : Tree Nat Unit (GroupCount Hundred)) (l : List (Nat × Unit)), Reachable t ∧ Shows t l ∧
      t.rootAug.maxGroup? = some (⟨3⟩, 62) ∧ (members l (⟨3⟩ : Hundred)).length = 1 := by
  have hl : (100 :: ((List.range 62).map (200 + ·) ++ [300])).length < 2 ^ 64 := by simp
  obtain ⟨h1, h2⟩ := groupMap_ok (100 :: ((List.range 62).map (200 + ·) ++ [300])) hl
  exact ⟨_, _, h1, h2, by decide +kernel, by decide +kernel⟩

/-! ## The map with groups of sizes 1, 2 and 62 -/

/-- In this map the third group is overcounted by one, and a leaf other than the last one ends inside it. -/
theorem dense_overcount : ∃ s : STree Nat Unit (GroupCount Hundred), Explored (groupMap denseKeys) s ∧
    s.items = denseContent ∧ overcount s.leaves (⟨3⟩ : Hundred) = 1 ∧
    endsLeaf s.leaves (⟨3⟩ : Hundred) = true ∧ sizeAtHome s.leaves (⟨3⟩ : Hundred) = 29 := by
  obtain ⟨l, hi⟩ := dense_reach.bulk.invA GroupCount.keyOnly
  have hl := hi.inv.unique dense_shows
  obtain ⟨H, x, w, rfl, hlen, ha⟩ := hi
  have hx := w.explored
  have hit : x.toS.items = denseContent := by rw [T.toS_items]; exact hl.symm
  have hsz := C51_group_size dense_reach.bulk hx hundreds (⟨3⟩ : Hundred)
  rw [C29_group_size_refuted.2.2.2, hit, C29_group_size_refuted.2.2.1] at hsz
  have hends : endsLeaf x.toS.leaves (⟨3⟩ : Hundred) = true := by
    by_contra h
    rw [if_neg h] at hsz
    cases hsz
  rw [if_pos hends] at hsz
  have hov : overcount x.toS.leaves (⟨3⟩ : Hundred) = 1 := by
    simp only [Except.ok.injEq, Option.some.injEq] at hsz
    omega
  refine ⟨x.toS, hx, hit, hov, hends, ?_⟩
  have h29 := C51_select dense_reach.bulk hx hundreds (⟨3⟩ : Hundred) 29
  rw [C27_select_refuted.2.2.2, hit, hov] at h29
  by_contra hne
  rcases Nat.lt_or_gt_of_ne hne with h | h
  · rw [if_neg (by omega), if_neg (by omega)] at h29
    exact absurd h29 (by decide +kernel)
  · rw [if_pos h] at h29
    exact absurd h29 (by decide +kernel)

example : (groupMap denseKeys).rootAug.maxGroup? = some (⟨3⟩, 62 + 1) := by
  obtain ⟨s, h1, h2, h3, h4, h5⟩ := dense_overcount
  rw [C51_max_group dense_reach.bulk h1 hundreds, h2]
  have : denseContent.getLast? = some (361, ()) := by decide +kernel
  rw [this, Option.map_some]
  have e : (FromRef.fromRef (361, ()).1 : Hundred) = ⟨3⟩ := rfl
  rw [e, h3, C29_group_size_refuted.2.2.1]

example : (groupMap denseKeys).getByAugmentation ((⟨3⟩ : Hundred), 41) = .ok (some (340, ())) := by
  obtain ⟨s, h1, h2, h3, h4, h5⟩ := dense_overcount
  rw [C51_select dense_reach.bulk h1 hundreds, h2, h3, h5]
  decide +kernel

example : ¬ ∀ i, (groupMap denseKeys).getByAugmentation ((⟨3⟩ : Hundred), i) =
    .ok (members denseContent (⟨3⟩ : Hundred))[i]? := by
  obtain ⟨s, h1, h2, h3, h4, h5⟩ := dense_overcount
  rw [← h2, C51_select_iff dense_reach.bulk h1 hundreds, h2, h3, h5]
  decide +kernel

example : (groupMap denseKeys).descendVisit (GroupCount.extractGroupSize (⟨3⟩ : Hundred)) 0 =
    .ok (some (62 + 1)) := by
  obtain ⟨s, h1, h2, h3, h4, h5⟩ := dense_overcount
  rw [C51_group_size dense_reach.bulk h1 hundreds, h2, h3, h4, C29_group_size_refuted.2.2.1]
  rfl

example : ∃ n, (groupMap denseKeys).rankByAugmentation 250 =
    .ok (.error (some ((⟨2⟩ : Hundred), n))) := by
  obtain ⟨s, h1, h2, h3, h4, h5⟩ := dense_overcount
  rw [C51_rank dense_reach.bulk h1 hundreds, h2, okIf, if_neg (by decide +kernel)]
  exact ⟨_, rfl⟩

example : ∃ s : STree Nat Unit (GroupCount Hundred), overcount s.leaves (⟨3⟩ : Hundred) = 1 ∧
    overcount s.leaves (⟨3⟩ : Hundred) ≤ 61 := by
  obtain ⟨s, h1, h2, h3, h4, h5⟩ := dense_overcount
  exact ⟨s, h3, C51_overcount_le dense_reach.bulk h1 ⟨3⟩⟩

end Bpt
