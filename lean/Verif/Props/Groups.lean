import Verif.Props.Structure
import Verif.Props.BulkLoaded
import Verif.Proofs.GroupTree
import Verif.GroupSpec

/-!
# Grouping with `GroupCount`: C25, C26, C27, C28, C29

`l` is always the content of the map, as a list sorted by key (`Shows t l`). The group of a key is
`FromRef.fromRef`, as in the code, which assumes (without saying so) that it is monotone.

C25 holds. C26 to C29 are false as stated: each comes with a concrete map for which the code answers
wrongly (`_refuted`) and with theorems saying when, and how far, the answer can be relied upon
(`_partial`).
-/

namespace Bpt
open Spec
variable {K V G : Type} [LinearOrder K] [LinearOrder G] [FromRef K G]

/-! ## Bridges -/

omit [LinearOrder K] in
theorem count_members (l : List (K × V)) (g : G) : (groupsOf G l).count g = (members l g).length := by
  rw [List.count_eq_length_filter, groupsOf, List.filter_map, List.length_map, members]
  congr 1

omit [LinearOrder K] in
theorem wfind_members (l : List (K × V)) (g : G) (o : Nat) :
    (wfind (inGroup g) (groupsOf G l) o).bind (fun n => l[n]?) = (members l g)[o]? := by
  induction l generalizing o with
  | nil => rfl
  | cons e l ih =>
    simp only [groupsOf, List.map_cons, wfind, inGroup, members, List.filter_cons]
    by_cases h : FromRef.fromRef e.1 = g
    · simp only [h, if_true, decide_true]
      cases o with
      | zero => simp
      | succ o =>
        rw [if_neg (by omega), Option.bind_map, List.getElem?_cons_succ, Nat.add_sub_cancel]
        simp only [Function.comp_def, List.getElem?_cons_succ]
        exact ih o
    · simp only [h, if_false, decide_false, Bool.false_eq_true, Nat.not_lt_zero, Nat.sub_zero]
      rw [Option.bind_map]
      simp only [Function.comp_def, List.getElem?_cons_succ]
      exact ih o

omit [LinearOrder K] in
theorem SparseGroups.sparse {l : List (K × V)} (h : SparseGroups G l) :
    ∀ a ∈ groupsOf G l, ∀ g ∈ groupsOf G l, ∀ b ∈ groupsOf G l, a < g → g < b →
      (groupsOf G l).count g = 1 ∨ 63 ≤ (groupsOf G l).count g := by
  intro a ha g hg b hb h1 h2
  rw [List.mem_map] at ha hg hb
  obtain ⟨a, ha, rfl⟩ := ha
  obtain ⟨e, he, rfl⟩ := hg
  obtain ⟨b, hb, rfl⟩ := hb
  rw [count_members]
  exact h a ha e he b hb h1 h2

theorem InvA.groupSummary {μ : Nat} {t : Tree K V (GroupCount G)} {l : List (K × V)} (h : InvA μ t l)
    (hm : MonotoneGroups K G) (ex : Prop) (hex : ex → SparseGroups G l) :
    Summary ex t.rootAug (groupsOf G l) := by
  obtain ⟨H, g, w, rfl, hl, ha⟩ := h
  have hs := monotone_asc hm w.sorted
  rcases ha.root with h | ⟨h1, h2⟩
  · rw [h]
    exact Summary.topAug ha.ok hs (fun he => leaves_interior w.shape hs (hex he).sparse)
  · rw [h1, h2]
    rfl

/-- Maps with fewer than 32 entries have a single leaf. -/
theorem single_leaf {A : Type} [Augmentation K V A] {t : Tree K V A} (h : Reachable t) {H : Nat}
    {g : T K V A H} (w : WF 16 t g) (hlen : t.len < 32) : H = 0 := by
  by_contra h0
  have := C11_depth_inserted h w.explored (T.toS_leavesAt g) (by omega)
  have : 32 ≤ 32 * 17 ^ (H - 1) := Nat.le_mul_of_pos_right _ (Nat.pow_pos (by omega))
  omega

/-- Maps with fewer than 544 entries have at most one inner level. -/
theorem one_level {A : Type} [Augmentation K V A] {t : Tree K V A} (h : Reachable t) {H : Nat}
    {g : T K V A H} (w : WF 16 t g) (hlen : t.len < 544) : H ≤ 1 := by
  by_contra h0
  have h1 := C11_depth_inserted h w.explored (T.toS_leavesAt g) (by omega)
  have : 32 * 17 ^ 1 ≤ 32 * 17 ^ (H - 1) :=
    Nat.mul_le_mul_left _ (Nat.pow_le_pow_right (by omega) (by omega))
  omega

/-! ## Concrete maps -/

/-- Grouping of numbers by hundreds. -/
structure Hundred where
  val : Nat
deriving DecidableEq

instance : LinearOrder Hundred := LinearOrder.lift' Hundred.val (fun a b h => by
  cases a; cases b; simp_all)

instance : FromRef Nat Hundred := ⟨fun k => ⟨k / 100⟩⟩

theorem hundreds : MonotoneGroups Nat Hundred := by
  intro a b h
  exact Nat.div_le_div_right h

/-- The map built by inserting the keys `ks` in this order. -/
def groupMap (ks : List Nat) : Tree Nat Unit (GroupCount Hundred) :=
  match (Tree.new : Tree Nat Unit (GroupCount Hundred)).run (ks.map (fun k => .insert k ())) with
  | .ok (_, t) => t
  | .error _ => Tree.new

theorem groupMap_ok (ks : List Nat) (hl : ks.length < 2 ^ 64) :
    Reachable (groupMap ks) ∧
      Shows (groupMap ks) (Spec.run [] (ks.map (fun k => Call.insert k ()))).2 := by
  obtain ⟨t', h1, h2⟩ := run_ok (μ := 16) (by omega) (by omega) (Inv.new (A := GroupCount Hundred))
    (ks.map (fun k => Call.insert k ())) (by
      simp only [List.length_map]; show (0 : Nat) + _ < _; omega)
  have : groupMap ks = t' := by unfold groupMap; rw [h1]
  rw [this]
  refine ⟨(reach_run_inserts (ks.map (fun k => (k, ()))) (.start rfl (by show (0 : Nat) < _; omega))
    (by simp only [List.length_map]; show (0 : Nat) + _ < _; omega) (as := _)
    (by rw [List.map_map]; exact h1)).mut, h2.shows⟩

/-- Groups of sizes 1, 1 and 68, built in scattered order: two leaves. -/
def sparseKeys : List Nat :=
  (List.range 70).map (fun i => let j := i * 37 % 70; if j = 0 then 5 else if j = 1 then 100 else 200 + j)

def sparseContent : List (Nat × Unit) :=
  (5, ()) :: (100, ()) :: (List.range 68).map (fun j => (202 + j, ()))

theorem sparse_reach : Reachable (groupMap sparseKeys) :=
  (groupMap_ok _ (by show (List.map _ _).length < _; rw [List.length_map, List.length_range]; omega)).1

theorem sparse_shows : Shows (groupMap sparseKeys) sparseContent := by
  have := (groupMap_ok sparseKeys
    (by show (List.map _ _).length < _; rw [List.length_map, List.length_range]; omega)).2
  have e : (Spec.run [] (sparseKeys.map (fun k => Call.insert k ()))).2 = sparseContent := by
    decide +kernel
  rwa [e] at this

theorem sparse_sparse : SparseGroups Hundred sparseContent := by
  have h : ∀ e ∈ sparseContent, (members sparseContent (FromRef.fromRef e.1 : Hundred)).length = 1 ∨
      63 ≤ (members sparseContent (FromRef.fromRef e.1 : Hundred)).length := by
    decide +kernel
  exact fun _ _ e he _ _ _ _ => h e he

/-- Groups of sizes 1, 2 and 62, in two leaves; the third group is in both. -/
def denseKeys : List Nat := 100 :: 200 :: 201 :: (List.range 62).map (300 + ·)

def denseContent : List (Nat × Unit) := denseKeys.map (fun k => (k, ()))

theorem dense_reach : Reachable (groupMap denseKeys) :=
  (groupMap_ok _ (by have : denseKeys.length = 65 := by decide
                     omega)).1

theorem dense_shows : Shows (groupMap denseKeys) denseContent := by
  have := (groupMap_ok denseKeys (by have : denseKeys.length = 65 := by decide
                                     omega)).2
  have e : (Spec.run [] (denseKeys.map (fun k => Call.insert k ()))).2 = denseContent := by
    decide +kernel
  rwa [e] at this

/-! ## C25 -/

/-- **C25.** The number of groups. -/
theorem C25_group_count {t : Tree K V (GroupCount G)} (h : ReachableBulk t) {l : List (K × V)}
    (hl : Shows t l) (hm : MonotoneGroups K G) :
    t.rootAug.count = (l.map (fun e => (FromRef.fromRef e.1 : G))).toFinset.card := by
  obtain ⟨l', hi⟩ := h.invA GroupCount.keyOnly
  cases hi.inv.unique hl
  have := hi.groupSummary hm False False.elim
  rw [show l.map (fun e => (FromRef.fromRef e.1 : G)) = groupsOf G l from rfl]
  cases hr : t.rootAug with
  | zero =>
    rw [hr] at this
    simp only [Summary] at this
    rw [this]; rfl
  | one g c =>
    rw [hr] at this
    rw [this.2, replicate_card this.1]; rfl
  | multiple mn mx n =>
    rw [hr] at this
    exact this.2.2.2.2.2.2.symm

example : (groupMap denseKeys).rootAug.count = 3 := by
  rw [C25_group_count dense_reach.bulk dense_shows hundreds]
  decide +kernel

/-! ## C26 -/

/-- **C26, what always holds.** `max_group()` is `None` exactly for the empty map; otherwise it names
the largest group present, and the size it reports is at least the size of that group.
Missing: the size can be too large (`C26_max_group_refuted`). -/
theorem C26_max_group_partial {t : Tree K V (GroupCount G)} (h : ReachableBulk t) {l : List (K × V)}
    (hl : Shows t l) (hm : MonotoneGroups K G) :
    (t.rootAug.maxGroup? = none ↔ l = []) ∧
      ∀ g c, t.rootAug.maxGroup? = some (g, c) →
        (∃ e ∈ l, FromRef.fromRef e.1 = g) ∧ (∀ e ∈ l, FromRef.fromRef e.1 ≤ g) ∧
        (members l g).length ≤ c := by
  obtain ⟨l', hi⟩ := h.invA GroupCount.keyOnly
  cases hi.inv.unique hl
  have hs := hi.groupSummary hm False False.elim
  have hasc : Asc (groupsOf G l) := monotone_asc hm hi.inv.sorted
  by_cases h0 : l = []
  · subst h0
    have : t.rootAug = .zero := by
      cases hr : t.rootAug with
      | zero => rfl
      | one g c =>
        rw [hr] at hs
        have := hs.2
        have h1 := hs.1
        simp only [groupsOf, List.map_nil] at this
        have := congrArg List.length this
        simp at this
        omega
      | multiple mn mx n => rw [hr] at hs; simp [Summary] at hs
    rw [this]
    exact ⟨by simp [GroupCount.maxGroup?], by simp [GroupCount.maxGroup?]⟩
  · obtain ⟨m, c, e1, e2, e3, e4, e5⟩ := hs.max (by simpa using h0)
    refine ⟨by simp [e1, h0], ?_⟩
    intro g c' hg
    rw [e1] at hg
    cases hg
    refine ⟨?_, ?_, by rw [← count_members]; exact e4⟩
    · have := getLast?_mem e2
      rw [List.mem_map] at this
      exact this
    · intro e he
      exact hasc.le_last e2 (List.mem_map_of_mem (f := fun e : K × V => (FromRef.fromRef e.1 : G)) he)

/-- **C26, for sparse groups.** If every group between two others has one member or at least 63, the
reported size of the largest group is exact. Missing: other contents. -/
theorem C26_sparse_partial {t : Tree K V (GroupCount G)} (h : ReachableBulk t) {l : List (K × V)}
    (hl : Shows t l) (hm : MonotoneGroups K G) (hsp : SparseGroups G l) {g : G} {c : Nat}
    (hg : t.rootAug.maxGroup? = some (g, c)) :
    (∃ e ∈ l, FromRef.fromRef e.1 = g) ∧ (∀ e ∈ l, FromRef.fromRef e.1 ≤ g) ∧
      c = (members l g).length := by
  obtain ⟨h1, h2⟩ := C26_max_group_partial h hl hm
  obtain ⟨h3, h4, h5⟩ := h2 g c hg
  refine ⟨h3, h4, ?_⟩
  obtain ⟨l', hi⟩ := h.invA GroupCount.keyOnly
  cases hi.inv.unique hl
  obtain ⟨e, he, _⟩ := h3
  obtain ⟨m, c', e1, e2, e3, e4, e5⟩ := (hi.groupSummary hm True (fun _ => hsp)).max
    (by simpa using List.ne_nil_of_mem he)
  rw [e1] at hg
  cases hg
  rw [← count_members]
  exact (e5 trivial).symm

example : (groupMap sparseKeys).rootAug.maxGroup? = some (⟨2⟩, 68) ∧
    (members sparseContent (⟨2⟩ : Hundred)).length = 68 := by
  have h : (groupMap sparseKeys).rootAug.maxGroup? = some (⟨2⟩, 68) := by decide +kernel
  exact ⟨h, (C26_sparse_partial sparse_reach.bulk sparse_shows hundreds sparse_sparse h).2.2.symm⟩

/-- **C26 is false.** Keys 100, 200, 201, 300 grouped by hundreds: the largest group, 3, has one member,
but `max_group()` says two. -/
theorem C26_max_group_refuted :
    ∃ t : Tree Nat Unit (GroupCount Hundred), Reachable t ∧
      Shows t [(100, ()), (200, ()), (201, ()), (300, ())] ∧
      t.rootAug.maxGroup? = some (⟨3⟩, 2) ∧
      (members [(100, ()), (200, ()), (201, ()), (300, ())] (⟨3⟩ : Hundred)).length = 1 := by
  refine ⟨groupMap [100, 200, 201, 300], (groupMap_ok _ (by simp)).1, ?_, by decide +kernel,
    by decide +kernel⟩
  have := (groupMap_ok [100, 200, 201, 300] (by simp)).2
  have e : (Spec.run [] ([100, 200, 201, 300].map (fun k => Call.insert k ()))).2 =
      [(100, ()), (200, ()), (201, ()), (300, ())] := by decide +kernel
  rwa [e] at this

/-! ## C27 -/

/-- **C27, for sparse groups.** Selecting `(g, i)` gives the `i`-th entry of group `g`, `None` exactly if
there is none. Missing: other contents (`C27_select_refuted`). -/
theorem C27_sparse_partial {t : Tree K V (GroupCount G)} (h : ReachableBulk t) {l : List (K × V)}
    (hl : Shows t l) (hm : MonotoneGroups K G) (hsp : SparseGroups G l) (g : G) (i : Nat) :
    t.getByAugmentation (g, i) = .ok (members l g)[i]? := by
  obtain ⟨l', hi⟩ := h.invA GroupCount.keyOnly
  cases hi.inv.unique hl
  obtain ⟨H, x, w, rfl, hlen, ha⟩ := hi
  have hs := monotone_asc hm w.sorted
  rw [(getBy_ok w (w.depth hlen) GroupCount.inRange (g, i)).2,
    group_search (ex := True) ha.ok hs (fun _ => leaves_interior w.shape hs hsp.sparse) g i
      (.inl trivial), wfind_members]

/-- **C27, the first member.** The first member of a group is found in every map, whatever the sizes of
the groups. Missing: later members (`C27_select_refuted`). -/
theorem C27_first_partial {t : Tree K V (GroupCount G)} (h : ReachableBulk t) {l : List (K × V)}
    (hl : Shows t l) (hm : MonotoneGroups K G) (g : G) :
    t.getByAugmentation (g, 0) = .ok (members l g)[0]? := by
  obtain ⟨l', hi⟩ := h.invA GroupCount.keyOnly
  cases hi.inv.unique hl
  obtain ⟨H, x, w, rfl, hlen, ha⟩ := hi
  have hs := monotone_asc hm w.sorted
  rw [(getBy_ok w (w.depth hlen) GroupCount.inRange (g, 0)).2,
    group_search (ex := False) ha.ok hs False.elim g 0 (.inr rfl), wfind_members]

/-- **C27, soundness.** Whatever is found is stored and belongs to the group asked for, and the search
never fails. Missing: it may be another member, or nothing although there is one. -/
theorem C27_sound_partial {t : Tree K V (GroupCount G)} (h : ReachableBulk t) {l : List (K × V)}
    (hl : Shows t l) (g : G) (i : Nat) :
    ∃ r, t.getByAugmentation (g, i) = .ok r ∧ ∀ e, r = some e → e ∈ members l g := by
  obtain ⟨l', hi⟩ := h.invA GroupCount.keyOnly
  cases hi.inv.unique hl
  obtain ⟨H, x, w, rfl, hlen, ha⟩ := hi
  refine ⟨_, (getBy_ok w (w.depth hlen) GroupCount.inRange (g, i)).2, ?_⟩
  intro e he
  rw [Option.bind_eq_some_iff] at he
  obtain ⟨n, hn, he⟩ := he
  have := group_search_mem g i hn
  rw [groupsOf, List.getElem?_map, he] at this
  simp only [Option.map_some, Option.some.injEq] at this
  rw [members, List.mem_filter]
  exact ⟨List.mem_of_getElem? he, by simpa using this⟩

/-- **C27, small maps.** With fewer than 32 entries every selection is right. -/
theorem C27_small_partial {t : Tree K V (GroupCount G)} (h : Reachable t) {l : List (K × V)}
    (hl : Shows t l) (hm : MonotoneGroups K G) (hlen : t.len < 32) (g : G) (i : Nat) :
    t.getByAugmentation (g, i) = .ok (members l g)[i]? := by
  obtain ⟨l', hi⟩ := h.invA GroupCount.keyOnly
  cases hi.inv.unique hl
  obtain ⟨H, x, w, rfl, hlen', ha⟩ := hi
  cases single_leaf h w hlen
  have hs := monotone_asc (G := G) hm w.sorted
  rw [(getBy_ok w (w.depth hlen') GroupCount.inRange (g, i)).2, ← wfind_members]
  congr 2
  simp only [T.toL, T.leaves, List.flatMap_cons, List.flatMap_nil, List.append_nil] at hs ⊢
  have e : T.search (Q := G × Nat) x (g, i) =
      GroupCount.locateLeafLoop g i 0 0 (groupsOf G (GLeaf.data x)) := by
    simp [T.search, SearchAugmentation.locateInLeaf, List.map_map, Function.comp_def]
  rw [e, locateLeafLoop_eq _ _ _ _ _ hs (Nat.zero_le _)]
  simp

example : (groupMap sparseKeys).getByAugmentation ((⟨2⟩ : Hundred), 40) = .ok (some (242, ())) := by
  rw [C27_sparse_partial sparse_reach.bulk sparse_shows hundreds sparse_sparse]
  decide +kernel

example : (groupMap denseKeys).getByAugmentation ((⟨3⟩ : Hundred), 0) = .ok (some (300, ())) := by
  rw [C27_first_partial dense_reach.bulk dense_shows hundreds]
  decide +kernel

example : (groupMap [100, 200, 201, 300]).getByAugmentation ((⟨2⟩ : Hundred), 1) =
    .ok (some (201, ())) := by
  have h := groupMap_ok [100, 200, 201, 300] (by simp)
  rw [C27_small_partial h.1 h.2 hundreds (by decide +kernel)]
  decide +kernel

/-- **C27 is false.** Groups of sizes 1, 2 and 62, the third one in two leaves: its 29th member exists but
is not found. -/
theorem C27_select_refuted :
    Reachable (groupMap denseKeys) ∧ Shows (groupMap denseKeys) denseContent ∧
      (members denseContent (⟨3⟩ : Hundred))[29]? = some (329, ()) ∧
      (groupMap denseKeys).getByAugmentation ((⟨3⟩ : Hundred), 29) = .ok none :=
  ⟨dense_reach, dense_shows, by decide +kernel, by decide +kernel⟩

/-! ## C28 -/

/-- `Ok` for stored keys, `Err` for others. -/
def okIf {α : Type} (b : Prop) [Decidable b] (x : α) : Except α α := if b then .ok x else .error x

theorem isSome_iff_mem {l : List (K × V)} (hs : Sorted l) (k : K) :
    (lookup k l).isSome = true ↔ k ∈ l.map (·.1) := by
  constructor
  · intro h
    obtain ⟨v, hv⟩ := Option.isSome_iff_exists.1 h
    exact List.mem_map_of_mem (f := (·.1)) (lookup_mem hv)
  · intro h
    obtain ⟨⟨k', v⟩, hv, rfl⟩ := List.mem_map.1 h
    rw [lookup_of_mem hs hv]; rfl

/-- **C28, for maps with fewer than 544 entries and sparse groups.** The rank of `k` is its group and the
number of smaller keys in the group. Missing: other contents, and larger maps
(`C28_rank_refuted`). -/
theorem C28_rank_partial {t : Tree K V (GroupCount G)} (h : Reachable t) {l : List (K × V)}
    (hl : Shows t l) (hm : MonotoneGroups K G) (hsp : SparseGroups G l) (hlen : t.len < 544) (k : K) :
    t.rankByAugmentation k = .ok (okIf (k ∈ l.map (·.1)) (some ((FromRef.fromRef k : G),
      ((members l (FromRef.fromRef k : G)).filter (fun e => e.1 < k)).length))) := by
  obtain ⟨l', hi⟩ := h.invA GroupCount.keyOnly
  cases hi.inv.unique hl
  obtain ⟨H, x, w, rfl, hlen', ha⟩ := hi
  have hs := monotone_asc (G := G) hm w.sorted
  rw [group_rank w ha.ok (one_level h w hlen) hm
    (fun _ => leaves_interior w.shape hs hsp.sparse) k]
  rw [members, List.filter_filter]
  simp only [Bool.decide_and, isSome_iff_mem w.sorted, okIf]

/-- **C28, small maps.** With fewer than 32 entries every rank is right. -/
theorem C28_small_partial {t : Tree K V (GroupCount G)} (h : Reachable t) {l : List (K × V)}
    (hl : Shows t l) (hm : MonotoneGroups K G) (hlen : t.len < 32) (k : K) :
    t.rankByAugmentation k = .ok (okIf (k ∈ l.map (·.1)) (some ((FromRef.fromRef k : G),
      ((members l (FromRef.fromRef k : G)).filter (fun e => e.1 < k)).length))) := by
  obtain ⟨l', hi⟩ := h.invA GroupCount.keyOnly
  cases hi.inv.unique hl
  obtain ⟨H, x, w, rfl, hlen', ha⟩ := hi
  rw [group_rank w ha.ok (by rw [single_leaf h w hlen]; omega) hm
    (fun h1 => by have := single_leaf h w hlen; omega) k]
  rw [members, List.filter_filter]
  simp only [Bool.decide_and, isSome_iff_mem w.sorted, okIf]

/-- **C28, what always holds.** The rank is `Ok` exactly for stored keys, and names the group of the key.
Missing: the count. -/
theorem C28_group_partial {t : Tree K V (GroupCount G)} (h : ReachableBulk t) {l : List (K × V)}
    (hl : Shows t l) (k : K) :
    ∃ n, t.rankByAugmentation k = .ok (okIf (k ∈ l.map (·.1)) (some ((FromRef.fromRef k : G), n))) := by
  obtain ⟨l', hi⟩ := h.invA GroupCount.keyOnly
  cases hi.inv.unique hl
  obtain ⟨H, x, w, rfl, hlen', ha⟩ := hi
  obtain ⟨n, hn⟩ := group_rank_group w k
  refine ⟨n, ?_⟩
  rw [hn]
  simp only [isSome_iff_mem w.sorted, okIf]

example : (groupMap sparseKeys).rankByAugmentation 242 = .ok (.ok (some ((⟨2⟩ : Hundred), 40))) := by
  rw [C28_rank_partial sparse_reach sparse_shows hundreds sparse_sparse (by decide +kernel)]
  decide +kernel

/-- A single group. -/
instance : FromRef Nat (Fin 1) := ⟨fun _ => 0⟩

/-- 4288 items: 67 leaves, grouped as 65 + 2. -/
def tallItems : List (Nat × Unit) := (List.range 4288).map (fun i => (i, ()))

/-- Does the rank say that no smaller key is in the group? -/
def saysFirst {G : Type} : Res (Except (Option (G × Nat)) (Option (G × Nat))) → Bool
  | .ok (.ok (some (_, 0))) => true
  | _ => false

/-- **C28 is false.** A map with two inner levels and a single group: 4160 keys smaller than 4160 are in
the group, but its rank says none. -/
theorem C28_rank_refuted :
    ∃ t : Tree Nat Unit (GroupCount (Fin 1)), Tree.bulkLoad tallItems = .ok t ∧ ReachableBulkNoMut t ∧
      Shows t tallItems ∧ SparseGroups (Fin 1) tallItems ∧
      ((members tallItems (0 : Fin 1)).filter (fun e => e.1 < 4160)).length = 4160 ∧
      t.rankByAugmentation 4160 = .ok (.ok (some (0, 0))) := by
  have h1 : saysFirst ((Tree.bulkLoad tallItems : Res (Tree Nat Unit (GroupCount (Fin 1)))) >>=
      fun t => t.rankByAugmentation 4160) = true := by decide +kernel
  have hs : Sorted tallItems := by
    unfold tallItems Sorted
    rw [List.pairwise_map]
    exact List.pairwise_lt_range
  obtain ⟨t, H, g, h2, h3, _, h4, _⟩ := bulkLoad_ok (A := GroupCount (Fin 1)) (μ := 0) (by omega)
    tallItems (hs.imp (fun h => h.le)) (.inl rfl)
  rw [insertAll_of_sorted hs] at h4
  have hi : Inv 0 t tallItems :=
    ⟨H, g, h3, h4, by rw [h3.len, h4, tallItems, List.length_map, List.length_range]; omega⟩
  have hr : ReachableBulkNoMut t := .start ⟨tallItems, hs.imp (fun h => h.le), h2⟩ hi.lt
  rw [h2, ok_bind] at h1
  refine ⟨t, h2, hr, hi.shows, ?_, by decide +kernel, ?_⟩
  · intro a _ e _ b _ h
    exact absurd h (by omega)
  · obtain ⟨n, hn⟩ := C28_group_partial hr.mut hi.shows 4160
    have hmem : (4160 : Nat) ∈ tallItems.map (·.1) := by
      rw [tallItems, List.map_map, List.mem_map]
      exact ⟨4160, by rw [List.mem_range]; omega, rfl⟩
    rw [okIf, if_pos hmem] at hn
    rw [hn] at h1 ⊢
    cases n with
    | zero => rfl
    | succ n => cases h1

/-! ## C29 -/

/-- **C29, for sparse groups.** The visitor counts the members of the group.
Missing: other contents (`C29_group_size_refuted`). -/
theorem C29_sparse_partial {t : Tree K V (GroupCount G)} (h : ReachableBulk t) {l : List (K × V)}
    (hl : Shows t l) (hm : MonotoneGroups K G) (hsp : SparseGroups G l) (g : G) :
    t.descendVisit (GroupCount.extractGroupSize g) 0 = .ok (some (members l g).length) := by
  obtain ⟨l', hi⟩ := h.invA GroupCount.keyOnly
  cases hi.inv.unique hl
  obtain ⟨H, x, w, rfl, hlen', ha⟩ := hi
  have hs := monotone_asc (G := G) hm w.sorted
  rw [descendVisit_ok w, group_visit w.shape ha.ok hs (leaves_interior w.shape hs hsp.sparse),
    count_members, Nat.zero_add]

/-- **C29, small maps.** With fewer than 32 entries every group size is right. -/
theorem C29_small_partial {t : Tree K V (GroupCount G)} (h : Reachable t) {l : List (K × V)}
    (hl : Shows t l) (hm : MonotoneGroups K G) (hlen : t.len < 32) (g : G) :
    t.descendVisit (GroupCount.extractGroupSize g) 0 = .ok (some (members l g).length) := by
  obtain ⟨l', hi⟩ := h.invA GroupCount.keyOnly
  cases hi.inv.unique hl
  obtain ⟨H, x, w, rfl, hlen', ha⟩ := hi
  cases single_leaf h w hlen
  have hs := monotone_asc (G := G) hm w.sorted
  rw [descendVisit_ok w, ← count_members]
  simp only [T.toL, T.leaves, List.flatMap_cons, List.flatMap_nil, List.append_nil] at hs ⊢
  simp only [T.visit, GroupCount.extractGroupSize, List.map_map]
  rw [← Nat.zero_add (List.count _ _), ← extractLeafLoop_eq g 0 _ hs]
  rfl

example : (groupMap sparseKeys).descendVisit (GroupCount.extractGroupSize (⟨2⟩ : Hundred)) 0 =
    .ok (some 68) := by
  rw [C29_sparse_partial sparse_reach.bulk sparse_shows hundreds sparse_sparse]
  decide +kernel

/-- **C29 is false.** Groups of sizes 1, 2 and 62, the third one in two leaves: the visitor counts 63. -/
theorem C29_group_size_refuted :
    Reachable (groupMap denseKeys) ∧ Shows (groupMap denseKeys) denseContent ∧
      (members denseContent (⟨3⟩ : Hundred)).length = 62 ∧
      (groupMap denseKeys).descendVisit (GroupCount.extractGroupSize (⟨3⟩ : Hundred)) 0 =
        .ok (some 63) :=
  ⟨dense_reach, dense_shows, by decide +kernel, by decide +kernel⟩

/-! ### The hypotheses of the remaining theorems -/

example := C26_max_group_partial dense_reach.bulk dense_shows hundreds
example := C27_sound_partial dense_reach.bulk dense_shows ⟨3⟩ 61
example := C28_group_partial dense_reach.bulk dense_shows 250
example : (groupMap [100, 200, 201, 300]).rankByAugmentation 201 =
    .ok (.ok (some ((⟨2⟩ : Hundred), 1))) := by
  have h := groupMap_ok [100, 200, 201, 300] (by simp)
  rw [C28_small_partial h.1 h.2 hundreds (by decide +kernel)]
  decide +kernel
example : (groupMap [100, 200, 201, 300]).descendVisit (GroupCount.extractGroupSize (⟨2⟩ : Hundred)) 0 =
    .ok (some 2) := by
  have h := groupMap_ok [100, 200, 201, 300] (by simp)
  rw [C29_small_partial h.1 h.2 hundreds (by decide +kernel)]
  decide +kernel

end Bpt
