import Verif.DateSpec
import Verif.Proofs.Hom
import Verif.Proofs.Search

/-!
# The date statistics: proofs
-/

namespace Bpt
open Bpt.Spec
variable {V : Type}

theorem Date.le_iff {a b : Date} : a ≤ b ↔
    a.year < b.year ∨ a.year = b.year ∧ (a.month < b.month ∨ a.month = b.month ∧ a.day ≤ b.day) := by
  show toLex (a.year, toLex (a.month, a.day)) ≤ toLex (b.year, toLex (b.month, b.day)) ↔ _
  simp [Prod.Lex.toLex_le_toLex]

theorem Date.ext_iff' {a b : Date} : a = b ↔ a.year = b.year ∧ a.month = b.month ∧ a.day = b.day := by
  cases a; cases b; simp

/-- Dates in ascending order, repetitions allowed. -/
abbrev AscD (l : List Date) : Prop := l.Pairwise (· ≤ ·)

theorem tally_min {L p : List Date} {h h' : Date} (h1 : h ≤ h') (h2 : ∀ x ∈ p, h' ≤ x) :
    (h.tally L).innerMin (h'.tally p) = h.tally (L ++ p) := by
  have key : ∀ (P Q : Date → Bool) (s : Bool), (s = true → ∀ x ∈ p, P x = Q x) →
      (s = false → ∀ x ∈ p, P x = false) →
      p.countP P = if s then p.countP Q else 0 := by
    intro P Q s e1 e2
    cases s with
    | true => exact List.countP_congr (fun x hx => by rw [e1 rfl x hx])
    | false =>
      simp only [Bool.false_eq_true, if_false, List.countP_eq_zero]
      intro x hx; rw [e2 rfl x hx]; simp
  simp only [Date.tally, List.countP_append]
  rw [Date.le_iff] at h1
  have hy := key (fun x => decide (x.year = h.year)) (fun x => decide (x.year = h'.year))
    (decide (h.year = h'.year)) (by simp +contextual) (by
      intro e x hx
      have := Date.le_iff.1 (h2 x hx)
      simp only [decide_eq_false_iff_not] at e ⊢
      omega)
  have hm := key (fun x => decide (x.year = h.year ∧ x.month = h.month))
    (fun x => decide (x.year = h'.year ∧ x.month = h'.month))
    (decide (h.year = h'.year ∧ h.month = h'.month)) (by simp +contextual) (by
      intro e x hx
      have := Date.le_iff.1 (h2 x hx)
      simp only [decide_eq_false_iff_not] at e ⊢
      omega)
  have hd := key (fun x => decide (x.year = h.year ∧ x.month = h.month ∧ x.day = h.day))
    (fun x => decide (x.year = h'.year ∧ x.month = h'.month ∧ x.day = h'.day))
    (decide (h.year = h'.year ∧ h.month = h'.month ∧ h.day = h'.day)) (by simp +contextual) (by
      intro e x hx
      have := Date.le_iff.1 (h2 x hx)
      simp only [decide_eq_false_iff_not] at e ⊢
      omega)
  rw [hy, hm, hd]
  simp only [DateEntry.innerMin, Date.compare]
  by_cases a1 : h.year = h'.year <;> by_cases a2 : h.month = h'.month <;>
    by_cases a3 : h.day = h'.day <;> simp [a1, a2, a3]

theorem tally_max {L p : List Date} {m m' : Date} (h1 : m ≤ m') (h2 : ∀ x ∈ L, x ≤ m) :
    (m.tally L).innerMax (m'.tally p) = m'.tally (L ++ p) := by
  have key : ∀ (P Q : Date → Bool) (s : Bool), (s = true → ∀ x ∈ L, P x = Q x) →
      (s = false → ∀ x ∈ L, P x = false) →
      L.countP P = if s then L.countP Q else 0 := by
    intro P Q s e1 e2
    cases s with
    | true => exact List.countP_congr (fun x hx => by rw [e1 rfl x hx])
    | false =>
      simp only [Bool.false_eq_true, if_false, List.countP_eq_zero]
      intro x hx; rw [e2 rfl x hx]; simp
  simp only [Date.tally, List.countP_append]
  rw [Date.le_iff] at h1
  have hy := key (fun x => decide (x.year = m'.year)) (fun x => decide (x.year = m.year))
    (decide (m.year = m'.year)) (by simp +contextual) (by
      intro e x hx
      have := Date.le_iff.1 (h2 x hx)
      simp only [decide_eq_false_iff_not] at e ⊢
      omega)
  have hm := key (fun x => decide (x.year = m'.year ∧ x.month = m'.month))
    (fun x => decide (x.year = m.year ∧ x.month = m.month))
    (decide (m.year = m'.year ∧ m.month = m'.month)) (by simp +contextual) (by
      intro e x hx
      have := Date.le_iff.1 (h2 x hx)
      simp only [decide_eq_false_iff_not] at e ⊢
      omega)
  have hd := key (fun x => decide (x.year = m'.year ∧ x.month = m'.month ∧ x.day = m'.day))
    (fun x => decide (x.year = m.year ∧ x.month = m.month ∧ x.day = m.day))
    (decide (m.year = m'.year ∧ m.month = m'.month ∧ m.day = m'.day)) (by simp +contextual) (by
      intro e x hx
      have := Date.le_iff.1 (h2 x hx)
      simp only [decide_eq_false_iff_not] at e ⊢
      omega)
  rw [hy, hm, hd]
  simp only [DateEntry.innerMax, Date.compare]
  by_cases a1 : m.year = m'.year <;> by_cases a2 : m.month = m'.month <;>
    by_cases a3 : m.day = m'.day <;> simp [a1, a2, a3]
  exact Date.ext_iff'.2 ⟨a1, a2, a3⟩

/-- `s` is the statistic of the nonempty list `l`. -/
def IsStat (s : DateStatistic) (l : List Date) : Prop :=
  ∃ a b, l.head? = some a ∧ l.getLast? = some b ∧ s = Date.statistic l a b

theorem IsStat.unit (k : Date) : IsStat ⟨⟨k, ⟨1, 1, 1⟩⟩, ⟨k, ⟨1, 1, 1⟩⟩⟩ [k] :=
  ⟨k, k, rfl, rfl, by simp [Date.statistic, Date.tally]⟩

theorem IsStat.append {s s' : DateStatistic} {L p : List Date} (h : IsStat s L) (h' : IsStat s' p)
    (hs : AscD (L ++ p)) :
    IsStat ⟨s.min.innerMin s'.min, s.max.innerMax s'.max⟩ (L ++ p) := by
  obtain ⟨a, b, ha, hb, rfl⟩ := h
  obtain ⟨a', b', ha', hb', rfl⟩ := h'
  obtain ⟨hL, hp, hLp⟩ := List.pairwise_append.1 hs
  refine ⟨a, b', by simp [ha], by simp [hb'], ?_⟩
  simp only [Date.statistic]
  have m1 := List.mem_of_mem_head? (Option.mem_def.2 ha)
  have m2 := List.mem_of_mem_head? (Option.mem_def.2 ha')
  have m3 := List.mem_of_getLast? hb
  have m4 := List.mem_of_getLast? hb'
  rw [tally_min (hLp _ m1 _ m2), tally_max (hLp _ m3 _ m4)]
  · intro x hx
    obtain ⟨L0, rfl⟩ : ∃ L0, L = L0 ++ [b] := by
      obtain ⟨L0, h⟩ := List.getLast?_eq_some_iff.1 hb; exact ⟨L0, h⟩
    rcases List.mem_append.1 hx with hx | hx
    · exact (List.pairwise_append.1 hL).2.2 x hx b (by simp)
    · simp only [List.mem_singleton] at hx; exact hx ▸ le_refl _
  · intro x hx
    cases p with
    | nil => cases hx
    | cons y ys =>
      simp only [List.head?_cons, Option.some.injEq] at ha'
      subst ha'
      rcases List.mem_cons.1 hx with rfl | hx
      · exact le_refl _
      · exact (List.pairwise_cons.1 hp).1 x hx

theorem leafMin_eq (e : DateEntry) (k : Date) : e.leafMin k = e.innerMin ⟨k, ⟨1, 1, 1⟩⟩ := rfl

theorem leafMax_eq (e : DateEntry) (k : Date) : e.leafMax k = e.innerMax ⟨k, ⟨1, 1, 1⟩⟩ := rfl

theorem stat_foldl {s : DateStatistic} {L : List Date} (h : IsStat s L) (as : List DateStatistic)
    (parts : List (List Date)) (hp : List.Forall₂ IsStat as parts) (hs : AscD (L ++ parts.flatten)) :
    IsStat (as.foldl (fun s a => ⟨s.min.innerMin a.min, s.max.innerMax a.max⟩) s)
      (L ++ parts.flatten) := by
  induction hp generalizing s L with
  | nil => simpa using h
  | @cons a p as parts h1 _ ih =>
    simp only [List.flatten_cons, ← List.append_assoc] at hs ⊢
    exact ih (h.append h1 (List.pairwise_append.1 hs).1) hs

theorem IsStat.fromInner {as : List DateStatistic} {parts : List (List Date)} (hn : parts ≠ [])
    (hp : List.Forall₂ IsStat as parts) (hs : AscD parts.flatten) (ks : List Date) :
    IsStat (Augmentation.fromInner V ks as) parts.flatten := by
  cases hp with
  | nil => exact absurd rfl hn
  | @cons a p as parts h1 h2 =>
    simp only [List.flatten_cons] at hs ⊢
    exact stat_foldl h1 as parts h2 hs

theorem IsStat.fromLeaf {ks : List Date} (vs : List V) (hn : ks ≠ []) (hs : AscD ks) :
    IsStat (Augmentation.fromLeaf ks vs) ks := by
  cases ks with
  | nil => exact absurd rfl hn
  | cons k ks =>
    have := stat_foldl (IsStat.unit k) (ks.map fun k => ⟨⟨k, ⟨1, 1, 1⟩⟩, ⟨k, ⟨1, 1, 1⟩⟩⟩)
      (ks.map fun k => [k]) (by
        clear hn hs
        induction ks with
        | nil => exact .nil
        | cons k ks ih => exact .cons (IsStat.unit k) ih)
      (by simpa [← List.flatMap_def] using hs)
    rw [List.foldl_map] at this
    have e : [k] ++ (ks.map fun k => [k]).flatten = k :: ks := by simp [← List.flatMap_def]
    rw [e] at this
    exact this

theorem keysAsc {l : List (Date × V)} (hs : Sorted l) : AscD (l.map (·.1)) := by
  rw [AscD, List.pairwise_map]
  exact hs.imp (fun h => le_of_lt h)

/-- The augmentation is that of the content: `from_leaf` of the concatenation. -/
theorem DateStatistic.homomorphic : Homomorphic Date V DateStatistic := by
  intro ks parts hl hne hs
  have h1 : IsStat (Augmentation.fromInner V ks (parts.map (leafOf DateStatistic)))
      (parts.map (fun p => p.map (·.1))).flatten := by
    refine IsStat.fromInner (by rintro h; simp at h; subst h; simp at hl) ?_ ?_ ks
    · rw [List.forall₂_map_left_iff, List.forall₂_map_right_iff, List.forall₂_same]
      intro p hp
      refine IsStat.fromLeaf _ (by simpa using hne p hp) ?_
      exact keysAsc (hs.sublist (List.sublist_flatten_of_mem hp))
    · rw [← List.map_flatten]; exact keysAsc hs
  have hne' : parts.flatten ≠ [] := by
    cases parts with
    | nil => simp at hl
    | cons p ps => have := hne p (by simp); simp [this]
  have h2 : IsStat (leafOf DateStatistic parts.flatten) (parts.flatten.map (·.1)) :=
    IsStat.fromLeaf _ (by simpa using hne') (keysAsc hs)
  rw [← List.map_flatten] at h1
  obtain ⟨a, b, e1, e2, e3⟩ := h1
  obtain ⟨a', b', e1', e2', e3'⟩ := h2
  rw [e1] at e1'; cases e1'
  rw [e2] at e2'; cases e2'
  rw [e3, e3']

/-! ## The visitor -/

/-- How many dates of `l` are in year `y`. -/
abbrev inYear (y : Nat) (l : List Date) : Nat := l.countP (fun x => x.year = y)

theorem IsStat.between {s : DateStatistic} {l : List Date} (h : IsStat s l) (hs : AscD l) :
    ∀ x ∈ l, s.min.date ≤ x ∧ x ≤ s.max.date := by
  obtain ⟨a, b, ha, hb, rfl⟩ := h
  intro x hx
  simp only [Date.statistic, Date.tally]
  constructor
  · cases l with
    | nil => cases hx
    | cons y ys =>
      simp only [List.head?_cons, Option.some.injEq] at ha
      subst ha
      rcases List.mem_cons.1 hx with rfl | hx
      · exact le_refl _
      · exact (List.pairwise_cons.1 hs).1 x hx
  · obtain ⟨L0, rfl⟩ := List.getLast?_eq_some_iff.1 hb
    rcases List.mem_append.1 hx with hx | hx
    · exact (List.pairwise_append.1 hs).2.2 x hx b (by simp)
    · simp only [List.mem_singleton] at hx; exact hx ▸ le_refl _

theorem year_le {a b : Date} (h : a ≤ b) : a.year ≤ b.year := by
  rw [Date.le_iff] at h; omega

theorem inYear_zero {y : Nat} {l : List Date} (h : ∀ x ∈ l, x.year ≠ y) : inYear y l = 0 := by
  simp only [inYear, List.countP_eq_zero, decide_eq_true_eq]
  exact h

/-- What the loop over the children does. -/
theorem countForYearInner_spec {y : Nat} {as : List DateStatistic} {parts : List (List Date)}
    (hp : List.Forall₂ IsStat as parts) (hs : AscD parts.flatten) (idx cnt : Nat) :
    (∃ c, countForYearInner y idx cnt as = (.complete (.ok (cnt + inYear y parts.flatten)), c)) ∨
    (∃ l1 p l2, parts = l1 ++ p :: l2 ∧
      countForYearInner y idx cnt as = (.goDown (idx + l1.length), cnt + inYear y l1.flatten) ∧
      inYear y l2.flatten = 0) := by
  induction hp generalizing idx cnt with
  | nil => exact .inl ⟨cnt, by simp [countForYearInner, inYear]⟩
  | @cons a p as parts h1 h2 ih =>
    simp only [List.flatten_cons] at hs
    obtain ⟨hsp, hsr, hcross⟩ := List.pairwise_append.1 hs
    have hb := h1.between hsp
    obtain ⟨f, g, hf, hg, rfl⟩ := h1
    have hfm := List.mem_of_mem_head? (Option.mem_def.2 hf)
    have hgm := List.mem_of_getLast? hg
    simp only [Date.statistic, Date.tally] at hb ⊢
    have hmm := year_le ((hb f hfm).2)
    have hlater : y < g.year → inYear y parts.flatten = 0 := by
      intro h
      refine inYear_zero fun x hx => ?_
      have := year_le (hcross g hgm x hx)
      omega
    have hstep : ∀ cnt', cnt' = cnt + inYear y p →
        countForYearInner y idx cnt (Date.statistic p f g :: as) =
          countForYearInner y (idx + 1) cnt' as →
        (∃ c, countForYearInner y idx cnt (Date.statistic p f g :: as) =
          (.complete (.ok (cnt + inYear y (p :: parts).flatten)), c)) ∨
        (∃ l1 p' l2, p :: parts = l1 ++ p' :: l2 ∧
          countForYearInner y idx cnt (Date.statistic p f g :: as) =
            (.goDown (idx + l1.length), cnt + inYear y l1.flatten) ∧
          inYear y l2.flatten = 0) := by
      rintro cnt' rfl e
      rw [e]
      rcases ih hsr (idx + 1) (cnt + inYear y p) with ⟨c, h⟩ | ⟨l1, p', l2, rfl, h, hz⟩
      · refine .inl ⟨c, ?_⟩
        rw [h]; simp [inYear, List.countP_append]; omega
      · refine .inr ⟨p :: l1, p', l2, rfl, ?_, hz⟩
        rw [h]; simp [inYear, List.countP_append]; omega
    simp only [Date.statistic, Date.tally] at hstep
    rcases Nat.lt_trichotomy f.year y with c1 | c1 | c1
    · rcases Nat.lt_trichotomy g.year y with c2 | c2 | c2
      · refine hstep cnt ?_ ?_
        · rw [inYear_zero fun x hx => ?_]; rfl
          have := year_le (hb x hx).2
          omega
        · simp only [countForYearInner, Nat.compare_eq_lt.2 c1, Nat.compare_eq_lt.2 c2]
      · refine hstep _ (by rw [← c2]) ?_
        simp only [countForYearInner, Nat.compare_eq_lt.2 c1, Nat.compare_eq_eq.2 c2]
      · refine .inr ⟨[], p, parts, rfl, ?_, hlater c2⟩
        simp only [countForYearInner, Nat.compare_eq_lt.2 c1, Nat.compare_eq_gt.2 c2]
        simp [inYear]
    · rcases Nat.lt_trichotomy g.year y with c2 | c2 | c2
      · omega
      · refine hstep _ (by rw [← c2]) ?_
        simp only [countForYearInner, Nat.compare_eq_eq.2 c1, Nat.compare_eq_eq.2 c2]
      · refine .inl ⟨cnt + inYear y p, ?_⟩
        simp only [countForYearInner, Nat.compare_eq_eq.2 c1, Nat.compare_eq_gt.2 c2]
        have := hlater c2
        simp only [List.flatten_cons, inYear, List.countP_append] at this ⊢
        rw [this, c1]; rfl
    · refine .inl ⟨cnt, ?_⟩
      simp only [countForYearInner, Nat.compare_eq_gt.2 c1]
      rw [inYear_zero fun x hx => ?_]; rfl
      rw [List.flatten_cons, List.mem_append] at hx
      rcases hx with hx | hx
      · have := year_le (hb x hx).1
        omega
      · have := year_le (hcross g hgm x hx)
        omega

theorem topAug_stat {μ : Nat} {h : Nat} {m : Nat} {r : Bool} {x : T Date V DateStatistic h}
    (hx : T.ShapeTop μ m r x) (ha : x.AugOK) (hs : Sorted x.toL) (hn : x.toL ≠ []) :
    IsStat x.topAug (x.toL.map (·.1)) := by
  rw [topAug_hom DateStatistic.homomorphic hx ha hs]
  exact IsStat.fromLeaf _ (by simpa using hn) (keysAsc hs)

theorem foldl_year (y : Nat) (l : List Date) (c : Nat) :
    l.foldl (fun c k => if k.year = y then c + 1 else c) c = c + inYear y l := by
  induction l generalizing c with
  | nil => rfl
  | cons k l ih =>
    simp only [List.foldl_cons, ih, inYear, List.countP_cons, decide_eq_true_eq]
    split <;> omega

theorem year_visit {μ : Nat} {h : Nat} {m : Nat} {r : Bool} {x : T Date V DateStatistic h}
    (hx : T.ShapeTop μ m r x) (ha : x.AugOK) (hs : Sorted x.toL) (y cnt : Nat) :
    x.visit (countForYear y) cnt = .ok (some (.ok (cnt + inYear y (x.toL.map (·.1))))) := by
  induction h generalizing m r cnt with
  | zero =>
    simp only [T.visit, countForYear, foldl_year]
    simp [T.toL, T.leaves]
  | succ h ih =>
    have hkids : List.Forall₂ IsStat (GNode.augs x) ((GNode.kids x).map fun c => c.toL.map (·.1)) := by
      rw [ha.1, List.forall₂_map_left_iff, List.forall₂_map_right_iff, List.forall₂_same]
      intro c hc
      obtain ⟨m, r, hm⟩ := kid_shape' hx hc
      exact topAug_stat hm (ha.2 c hc) (hs.sublist (kid_sublist hc)) (kid_ne_nil hx hc)
    have hflat : ((GNode.kids x).map fun c => c.toL.map (·.1)).flatten = x.toL.map (·.1) := by
      rw [toL_succ, List.map_flatten, List.map_map]; rfl
    have hasc := keysAsc hs
    rw [← hflat] at hasc ⊢
    rcases countForYearInner_spec (y := y) hkids hasc 0 cnt with ⟨c, e⟩ | ⟨l1, p, l2, e1, e2, e3⟩
    · simp only [T.visit, countForYear, e]
    · have hidx : l1.length < (GNode.kids x).length := by
        have := congrArg List.length e1
        simp only [List.length_map, List.length_append, List.length_cons] at this
        omega
      have hp : p = ((GNode.kids x)[l1.length]).toL.map (·.1) := by
        have : ((GNode.kids x).map fun c => c.toL.map (·.1))[l1.length]? = some p := by rw [e1]; simp
        rw [List.getElem?_map, List.getElem?_eq_getElem hidx] at this
        simpa using this.symm
      have hmem : (GNode.kids x)[l1.length] ∈ GNode.kids x := List.getElem_mem _
      obtain ⟨m, r, hm⟩ := kid_shape' hx hmem
      have hr := ih hm (ha.2 _ hmem) (hs.sublist (kid_sublist hmem)) (cnt + inYear y l1.flatten)
      simp only [T.visit, countForYear, e2, Nat.zero_add, List.getElem?_eq_getElem hidx]
      simp only [countForYear] at hr
      rw [hr, ← hp, e1]
      simp only [inYear, List.flatten_append, List.flatten_cons, List.countP_append] at e3 ⊢
      rw [e3, Nat.add_zero, Nat.add_assoc]

end Bpt
