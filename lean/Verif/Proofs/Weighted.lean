import Verif.Proofs.Search
import Verif.Model.Examples

/-!
# Additive augmentations: sums of weights, selection by cumulative weight, rank
-/

namespace Bpt
open Bpt.Spec
variable {K V A : Type}

theorem wfind_append {α : Type} (wt : α → Nat) (l l' : List α) (o : Nat) :
    wfind wt (l ++ l') o = if o < (l.map wt).sum then wfind wt l o
      else (wfind wt l' (o - (l.map wt).sum)).map (l.length + ·) := by
  induction l generalizing o with
  | nil => simp [wfind]
  | cons x l ih =>
    simp only [List.cons_append, wfind, List.map_cons, List.sum_cons, List.length_cons]
    by_cases h : o < wt x
    · rw [if_pos h, if_pos h, if_pos (by omega)]
    · rw [if_neg h, if_neg h, ih]
      by_cases h' : o - wt x < (l.map wt).sum
      · rw [if_pos h', if_pos (by omega)]
      · rw [if_neg h', if_neg (by omega), Option.map_map, Nat.sub_sub]
        congr 1
        funext n; simp only [Function.comp]; omega

theorem wfind_none {α : Type} (wt : α → Nat) (l : List α) (o : Nat) :
    wfind wt l o = none ↔ (l.map wt).sum ≤ o := by
  induction l generalizing o with
  | nil => simp [wfind]
  | cons x l ih =>
    simp only [wfind, List.map_cons, List.sum_cons]
    by_cases h : o < wt x
    · rw [if_pos h]; simp; omega
    · rw [if_neg h]; simp only [Option.map_eq_none_iff, ih]; omega

/-- What it means to cover an offset. -/
theorem wfind_some {α : Type} (wt : α → Nat) (l : List α) (o n : Nat) :
    wfind wt l o = some n ↔ ∃ l1 x l2, l = l1 ++ x :: l2 ∧ l1.length = n ∧
      (l1.map wt).sum ≤ o ∧ o < (l1.map wt).sum + wt x := by
  induction l generalizing o n with
  | nil => simp [wfind]
  | cons y l ih =>
    simp only [wfind]
    by_cases h : o < wt y
    · rw [if_pos h]
      constructor
      · intro hn
        cases hn
        exact ⟨[], y, l, rfl, rfl, by simp, by simpa using h⟩
      · rintro ⟨l1, x, l2, e, rfl, h1, h2⟩
        cases l1 with
        | nil => rfl
        | cons z l1 =>
          simp only [List.cons_append, List.cons.injEq] at e
          obtain ⟨rfl, rfl⟩ := e
          simp only [List.map_cons, List.sum_cons] at h1
          omega
    · rw [if_neg h, Option.map_eq_some_iff]
      constructor
      · rintro ⟨m, hm, rfl⟩
        obtain ⟨l1, x, l2, rfl, rfl, h1, h2⟩ := (ih _ _).1 hm
        exact ⟨y :: l1, x, l2, rfl, rfl, by simp; omega, by simp; omega⟩
      · rintro ⟨l1, x, l2, e, rfl, h1, h2⟩
        cases l1 with
        | nil =>
          simp only [List.nil_append, List.cons.injEq] at e
          obtain ⟨rfl, rfl⟩ := e
          simp at h2; omega
        | cons z l1 =>
          simp only [List.cons_append, List.cons.injEq] at e
          obtain ⟨rfl, rfl⟩ := e
          simp only [List.map_cons, List.sum_cons] at h1 h2
          exact ⟨l1.length, (ih _ _).2 ⟨l1, x, l2, rfl, rfl, by omega, by omega⟩, rfl⟩

theorem wfind_one {α : Type} (l : List α) (o : Nat) :
    wfind (fun _ => 1) l o = if o < l.length then some o else none := by
  induction l generalizing o with
  | nil => simp [wfind]
  | cons x l ih =>
    simp only [wfind, List.length_cons]
    cases o with
    | zero => simp
    | succ o =>
      rw [if_neg (by omega), Nat.add_sub_cancel, ih]
      by_cases h : o < l.length
      · simp [h]
      · simp [h]

theorem wlocate_lt {as : List Nat} {o i o' : Nat} (h : wlocate as o = some (i, o')) :
    i < as.length := by
  induction as generalizing o i with
  | nil => simp [wlocate] at h
  | cons a as ih =>
    simp only [wlocate] at h
    split at h
    · cases h; simp
    · rw [Option.map_eq_some_iff] at h
      obtain ⟨⟨j, o''⟩, h, e⟩ := h
      cases e
      have := ih h
      simp; omega

theorem wfind_lt {α : Type} {wt : α → Nat} {l : List α} {o n : Nat} (h : wfind wt l o = some n) :
    n < l.length := by
  obtain ⟨l1, x, l2, rfl, rfl, _⟩ := (wfind_some ..).1 h
  simp

/-- Search in the concatenation of parts: locate the part, then search in it. -/
theorem wfind_parts {α : Type} (wt : α → Nat) (parts : List (List α)) (o : Nat) :
    wfind wt parts.flatten o =
      match wlocate (parts.map (fun p => (p.map wt).sum)) o with
      | none => none
      | some (i, o') =>
        match parts[i]? with
        | none => none
        | some p => (wfind wt p o').map (fun n => ((parts.take i).flatten).length + n) := by
  induction parts generalizing o with
  | nil => simp [wfind, wlocate]
  | cons p ps ih =>
    rw [List.flatten_cons, wfind_append, List.map_cons, wlocate]
    by_cases h : o < (p.map wt).sum
    · rw [if_pos h, if_pos h]
      simp
    · rw [if_neg h, if_neg h, ih]
      cases wlocate (ps.map (fun p => (p.map wt).sum)) (o - (p.map wt).sum) with
      | none => simp
      | some q =>
        obtain ⟨i, o'⟩ := q
        simp only [Option.map_some, List.getElem?_cons_succ, List.take_succ_cons, List.flatten_cons,
          List.length_append]
        cases ps[i]? with
        | none => simp
        | some p' =>
          simp only [Option.map_map]
          congr 1
          funext n; simp only [Function.comp]; omega

section
variable [Augmentation K V A] {wt : K × V → Nat} {val : A → Nat}

theorem Weighted.topAug (hw : Weighted K V A wt val) {h : Nat} {x : T K V A h} (hx : x.AugOK) :
    val x.topAug = (x.toL.map wt).sum := by
  induction h with
  | zero => simp [T.topAug, hw.leafAug, T.toL, T.leaves]
  | succ h ih =>
    obtain ⟨h1, h2⟩ := hx
    simp only [T.topAug, hw.innerAug, h1, T.toL, T.leaves]
    generalize GNode.kids x = kids at h2
    induction kids with
    | nil => simp
    | cons c cs ihc =>
      simp only [List.map_cons, List.sum_cons, List.flatMap_cons, List.flatMap_append,
        List.map_append, List.sum_append]
      rw [← ihc (fun c hc => h2 c (by simp [hc])), ih (h2 c (by simp))]
      rfl

theorem Weighted.search (hw : Weighted K V A wt val) [SearchAugmentation K V A Nat]
    (hs : WeightedSearch K V A wt val) {h : Nat} {x : T K V A h} (hx : x.AugOK) (q : Nat) :
    x.search q = wfind wt x.toL q := by
  induction h generalizing q with
  | zero =>
    simp only [T.search, hs.leafLoc]
    simp [T.toL, T.leaves]
  | succ h ih =>
    obtain ⟨h1, h2⟩ := hx
    have e : (T.toL (h := h + 1) x) = ((GNode.kids x).map T.toL).flatten := by
      simp only [T.toL, T.leaves, List.flatMap_assoc]
      rw [List.flatMap_def]; rfl
    have e2 : (GNode.augs x).map val = ((GNode.kids x).map T.toL).map (fun p => (p.map wt).sum) := by
      rw [h1, List.map_map, List.map_map]
      apply List.map_congr_left
      intro c hc
      exact hw.topAug (h2 c hc)
    rw [e, wfind_parts, ← e2]
    simp only [T.search, hs.innerLoc]
    cases hl : wlocate ((GNode.augs x).map val) q with
    | none => rfl
    | some p =>
      obtain ⟨i, q'⟩ := p
      simp only [List.getElem?_map]
      cases hk : (GNode.kids x)[i]? with
      | none => rfl
      | some c =>
        simp only [Option.map_some]
        rw [ih (h2 c (List.mem_of_getElem? hk)), ← List.map_take, ← List.flatMap_def]

omit [Augmentation K V A] in
theorem WeightedSearch.inRange [SearchAugmentation K V A Nat]
    (hs : WeightedSearch K V A wt val) : SearchInRange K V A := by
  refine ⟨?_, ?_⟩
  · intro q d i h
    rw [hs.leafLoc] at h
    exact wfind_lt h
  · intro q ks as i q' h
    rw [hs.innerLoc] at h
    simpa using wlocate_lt h

end

/-! ## `Count` -/

theorem Count.weighted : Weighted K V Count (fun _ => 1) Count.count := by
  refine ⟨?_, ?_⟩
  · intro d
    simp [Augmentation.fromLeaf]
  · intro ks as
    rfl

theorem countLocate_eq (i : Nat) (as : List Count) (q : Nat) :
    countLocate i as q = (wlocate (as.map Count.count) q).map (fun p => (i + p.1, p.2)) := by
  induction as generalizing i q with
  | nil => rfl
  | cons a as ih =>
    simp only [countLocate, List.map_cons, wlocate]
    by_cases h : a.count ≤ q
    · rw [if_pos h, if_neg (by omega), ih, Option.map_map]
      congr 1
      funext p; simp only [Function.comp, Prod.mk.injEq, and_true]; omega
    · rw [if_neg h, if_pos (by omega)]
      rfl

theorem Count.weightedSearch : WeightedSearch K V Count (fun _ => 1) Count.count := by
  refine ⟨?_, ?_⟩
  · intro q d
    simp [SearchAugmentation.locateInLeaf, wfind_one]
  · intro q ks as
    simp only [SearchAugmentation.locateInInner, countLocate_eq]
    simp

theorem Count.keyOnly : KeyOnly K V Count := by
  intro ks vs vs' h
  rfl

theorem count_foldInner (k : K) (r : Nat) (as : List Count) :
    RankAugmentation.foldInner V k r as = r + (as.map Count.count).sum := by
  simp only [RankAugmentation.foldInner]
  induction as generalizing r with
  | nil => simp
  | cons a as ih => simp [ih]; omega

/-- Rank by `Count`. -/
theorem count_rank_ok [LinearOrder K] {μ : Nat} {t : Tree K V Count} {H : Nat} {g : T K V Count H}
    (w : WF μ t g) (ha : g.AugOK) (k : K) :
    t.rankByAugmentation k = .ok (
      if (lookup k g.toL).isSome then .ok (g.toL.filter (fun e => e.1 < k)).length
      else .error (g.toL.filter (fun e => e.1 < k)).length) := by
  obtain ⟨c, x, r, hp, hd, hl, hr⟩ := descendLeaf_ok w.base (step := rankStep V k)
    (fun h (c : Ctx K V Count h H) (x : T K V Count h) (r : Nat) =>
      Located k g c x ∧ r = (c.lvL.flatMap (·.2)).length)
    (by
      rintro h c x r hp ⟨hl, rfl⟩
      obtain ⟨f, y, rfl, h1, h2, h3⟩ := locate_step w hp hl
      have hx := (Ctx.augOK_of_plug hl.lenOK (hp ▸ ha)).2
      rw [T.augOK_fill h1] at hx
      refine ⟨f, y, _, rfl, ?_, h3, rfl⟩
      have e : (f.fill y).inner.augs = f.augsL ++ f.aug :: f.augsR := rfl
      simp only [rankStep, h2, ok_bind, e]
      rw [if_neg (by rw [← h1.2.1]; simp)]
      simp only [pure_ok]
      rw [← h1.2.1, List.take_left, count_foldInner]
      congr 2
      rw [hx.1.1]
      simp only [Ctx.lvL, Frame.lvL, List.flatMap_append, List.length_append]
      congr 1
      have : ∀ l : List (T K V Count h), (∀ c ∈ l, c.AugOK) →
          ((l.map T.topAug).map Count.count).sum = ((l.flatMap T.leaves).flatMap (·.2)).length := by
        intro l hl
        induction l with
        | nil => simp
        | cons c l ih =>
          simp only [List.map_cons, List.sum_cons, List.flatMap_cons, List.flatMap_append,
            List.length_append]
          rw [ih (fun c hc => hl c (by simp [hc])), Count.weighted.topAug (hl c (by simp))]
          simp [T.toL]
      exact this _ hx.1.2.2.1)
    (st := (0 : Nat)) ⟨located_root, rfl⟩
  have hcut := hl.cut w hp
  unfold Tree.rankByAugmentation
  have e0 : RankAugmentation.initialValue K V Count = (0 : Nat) := rfl
  rw [e0]
  simp only [hd, ok_bind, w.flat.get hcut.eq, pure_ok]
  have hs : Sorted (g.leaves.flatMap (·.2)) := w.flat.sorted
  have hg : g.toL = g.leaves.flatMap (·.2) := rfl
  have hfil : ∀ (a b : List (K × V)), (∀ e ∈ a, e.1 < k) → (∀ e ∈ b, k ≤ e.1) →
      (a ++ b).filter (fun e => e.1 < k) = a := by
    intro a b h1 h2
    rw [List.filter_append, List.filter_eq_self.2 (by simpa using h1),
      List.filter_eq_nil_iff.2 (by simpa using h2), List.append_nil]
  rcases hcut.split hs with ⟨a, v, b, hx, h1, h2, h3, h4, h5⟩ | ⟨a, b, hx, h1, h2, h3, h4, h5⟩
  · simp only at hx
    rw [hx, locateSlot_found h1, hg, h3, hfil _ _ h4 (by
      intro e he
      rcases List.mem_cons.1 he with rfl | he
      · exact le_rfl
      · exact (h5 e he).le)]
    have : lookup k (c.lvL.flatMap (·.2) ++ a ++ (k, v) :: (b ++ c.lvR.flatMap (·.2))) = some v := by
      exact lookup_found h4
    rw [this]
    simp only [RankAugmentation.foldLeaf, hr, List.length_append, Option.isSome_some, if_true]
    congr 2
    omega
  · simp only at hx
    rw [hx, locateSlot_vacant h1 h2, hg, h3, hfil _ _ h4 (fun e he => (h5 e he).le)]
    have : lookup k (c.lvL.flatMap (·.2) ++ a ++ (b ++ c.lvR.flatMap (·.2))) = none := by
      exact lookup_none h4 h5
    rw [this]
    simp only [RankAugmentation.foldLeaf, hr, List.length_append, Option.isSome_none]
    simp
    omega

/-! ## The examples' augmentations -/

theorem EvenCount.weighted :
    Weighted Int V EvenCount (fun kv => if valueIsEven kv.1 then 1 else 0) EvenCount.val := by
  refine ⟨?_, ?_⟩
  · intro d
    simp only [Augmentation.fromLeaf]
    induction d with
    | nil => rfl
    | cons x d ih =>
      simp only [List.map_cons, List.sum_cons, ← ih, List.filter_cons]
      split <;> simp_all <;> omega
  · intro ks as
    rfl

theorem evenLocateLeaf_eq (i q : Nat) (d : List (Int × V)) :
    evenLocateLeaf i q (d.map (·.1)) =
      (wfind (fun kv => if valueIsEven kv.1 then 1 else 0) d q).map (i + ·) := by
  induction d generalizing i q with
  | nil => rfl
  | cons x d ih =>
    simp only [List.map_cons, evenLocateLeaf, wfind]
    by_cases h : valueIsEven x.1
    · simp only [h, if_true]
      by_cases h0 : q = 0
      · subst h0; simp
      · rw [if_neg h0, if_neg (by omega), ih, Option.map_map]
        congr 1
        funext n; simp only [Function.comp]; omega
    · simp only [h, if_false, Bool.false_eq_true]
      rw [if_neg (by omega), ih, Option.map_map, Nat.sub_zero]
      congr 1
      funext n; simp only [Function.comp]; omega

theorem evenLocateInner_eq (i q : Nat) (as : List EvenCount) :
    evenLocateInner i q as = (wlocate (as.map EvenCount.val) q).map (fun p => (i + p.1, p.2)) := by
  induction as generalizing i q with
  | nil => rfl
  | cons a as ih =>
    simp only [evenLocateInner, List.map_cons, wlocate]
    by_cases h : q < a.val
    · rw [if_pos h, if_pos h]; rfl
    · rw [if_neg h, if_neg h, ih, Option.map_map]
      congr 1
      funext p; simp only [Function.comp, Prod.mk.injEq, and_true]; omega

theorem EvenCount.weightedSearch :
    WeightedSearch Int V EvenCount (fun kv => if valueIsEven kv.1 then 1 else 0) EvenCount.val := by
  refine ⟨?_, ?_⟩
  · intro q d
    simp only [SearchAugmentation.locateInLeaf, evenLocateLeaf_eq]
    simp
  · intro q ks as
    simp only [SearchAugmentation.locateInInner, evenLocateInner_eq]
    simp

theorem DupCount.weighted : Weighted K Nat DupCount (·.2) DupCount.val :=
  ⟨fun _ => rfl, fun _ _ => rfl⟩

theorem dupLocateLeaf_eq (o i acc : Nat) (d : List (K × Nat)) (h : acc ≤ o) :
    dupLocateLeaf o i acc (d.map (·.2)) = (wfind (·.2) d (o - acc)).map (i + ·) := by
  induction d generalizing i acc with
  | nil => rfl
  | cons x d ih =>
    simp only [List.map_cons, dupLocateLeaf, wfind]
    by_cases h' : o < acc + x.2
    · rw [if_pos h', if_pos (by omega)]; rfl
    · rw [if_neg h', if_neg (by omega), ih _ _ (by omega), Option.map_map, Nat.sub_sub]
      congr 1
      funext n; simp only [Function.comp]; omega

theorem dupLocateInner_eq (i q : Nat) (as : List DupCount) :
    dupLocateInner i q as = (wlocate (as.map DupCount.val) q).map (fun p => (i + p.1, p.2)) := by
  induction as generalizing i q with
  | nil => rfl
  | cons a as ih =>
    simp only [dupLocateInner, List.map_cons, wlocate]
    by_cases h : a.val ≤ q
    · rw [if_pos h, if_neg (by omega), ih, Option.map_map]
      congr 1
      funext p; simp only [Function.comp, Prod.mk.injEq, and_true]; omega
    · rw [if_neg h, if_pos (by omega)]
      rfl

theorem DupCount.weightedSearch : WeightedSearch K Nat DupCount (·.2) DupCount.val := by
  refine ⟨?_, ?_⟩
  · intro q d
    simp only [SearchAugmentation.locateInLeaf, dupLocateLeaf_eq _ _ _ _ (Nat.zero_le _)]
    simp
  · intro q ks as
    simp only [SearchAugmentation.locateInInner, dupLocateInner_eq]
    simp

end Bpt
