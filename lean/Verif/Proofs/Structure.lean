import Verif.Structure
import Verif.Proofs.ReachInv

/-!
# Reachable maps as nested trees
-/

namespace Bpt
open Spec
variable {K V A : Type}

/-- Forget the ids. -/
def T.toS : {h : Nat} → T K V A h → STree K V A
  | 0, x => .leaf (GLeaf.data x)
  | _ + 1, x => .node (GNode.keys x) (GNode.augs x) ((GNode.kids x).map T.toS)

theorem itemsAll_eq (l : List (STree K V A)) : STree.itemsAll l = l.flatMap STree.items := by
  induction l with
  | nil => rw [STree.itemsAll]; rfl
  | cons a l ih => rw [STree.itemsAll, ih]; rfl

theorem visitNth_eq {σ R : Type} (v : Visitor K V A σ R) (st : σ) (i : Nat)
    (l : List (STree K V A)) :
    STree.visitNth v st i l = match l[i]? with
      | some c => c.visit v st
      | none => .error .panic := by
  induction l generalizing i with
  | nil => rw [STree.visitNth]; rfl
  | cons a l ih =>
    cases i with
    | zero => rw [STree.visitNth]; rfl
    | succ i => rw [STree.visitNth, ih]; rfl

theorem T.toS_items {h : Nat} (x : T K V A h) : x.toS.items = x.toL := by
  induction h with
  | zero =>
    rw [T.toS, STree.items]
    simp [T.toL, T.leaves]
  | succ h ih =>
    rw [T.toS, STree.items, itemsAll_eq, T.toL_node, List.flatMap_map]
    simp only [ih]

theorem T.toS_visit {σ R : Type} (v : Visitor K V A σ R) {h : Nat} (x : T K V A h) (st : σ) :
    x.visit v st = x.toS.visit v st := by
  induction h generalizing st with
  | zero => rw [T.toS, STree.visit, T.visit]
  | succ h ih =>
    rw [T.toS, STree.visit, T.visit]
    rcases v.visitInner st (GNode.keys x) (GNode.augs x) with ⟨i | _ | r, st'⟩
    · simp only [visitNth_eq, List.getElem?_map]
      cases (GNode.kids x)[i]? with
      | none => rfl
      | some c => exact ih c st'
    · rfl
    · rfl

theorem T.toS_leavesAt {h : Nat} (x : T K V A h) : x.toS.LeavesAt h := by
  induction h with
  | zero => exact .leaf
  | succ h ih =>
    refine .node ?_
    intro c hc
    obtain ⟨y, _, rfl⟩ := List.mem_map.1 hc
    exact ih y

theorem T.toS_fits {μ m : Nat} {r : Bool} {h : Nat} {x : T K V A h} (hx : T.ShapeTop μ m r x) :
    x.toS.Fits := by
  induction h generalizing m r with
  | zero => exact .leaf hx.2
  | succ h ih =>
    refine .node hx.2.1 ?_ hx.2.2.2.1 ?_
    · rw [List.length_map]; exact hx.2.2.1
    · intro c hc
      obtain ⟨y, hy, rfl⟩ := List.mem_map.1 hc
      obtain ⟨m', r', h'⟩ := T.ShapeTop.kids hx y hy
      exact ih h'

theorem T.toS_filled {m : Nat} {r : Bool} {μ : Nat} {h : Nat} {x : T K V A h} {root : Bool}
    (hx : T.ShapeTop μ m r x) (h16 : r = false ∨ 16 ≤ μ) (hm : root = false → 16 ≤ m)
    (h1 : 0 < h → 1 ≤ m) : x.toS.Filled root := by
  induction h generalizing m r root with
  | zero => exact .leaf (fun h => (hm h).trans hx.1)
  | succ h ih =>
    have h1' := h1 (by omega)
    refine .node (by have := hx.1; omega) (fun h => (hm h).trans hx.1) ?_
    intro c hc
    obtain ⟨y, hy, rfl⟩ := List.mem_map.1 hc
    have hs := hx.2.2.2.2
    have hmn : 16 ≤ mnAt μ h r := by
      rcases h16 with rfl | h16
      · cases h <;> simp [mnAt]
      · cases h <;> cases r <;> simp [mnAt] <;> omega
    have : ∀ a ∈ GNode.kids x, (∃ m' r', T.ShapeTop μ m' r' a ∧ (r' = false ∨ 16 ≤ μ) ∧ 16 ≤ m') := by
      refine SpineL_same.1 (SpineL_mono ?_ ?_ hs)
      · intro a _ ha; exact ⟨_, _, ha, .inl rfl, by omega⟩
      · intro a _ ha; exact ⟨_, _, ha, h16, hmn⟩
    obtain ⟨m', r', h2, h3, h4⟩ := this y hy
    exact ih h2 h3 (fun _ => h4) (fun _ => by omega)

theorem SpineL_dropLast {α : Type} {P Q : α → Prop} {l : List α} (h : SpineL P Q l) :
    (∀ a ∈ l.dropLast, P a) ∧ (∀ a ∈ l.getLast?, Q a) := by
  induction l using List.reverseRecOn with
  | nil => simp
  | append_singleton l a _ =>
    rw [SpineL_append (by simp)] at h
    simp only [List.dropLast_concat, List.getLast?_concat, Option.mem_def, Option.some.injEq]
    exact ⟨h.1, by rintro b rfl; exact h.2⟩

theorem T.toS_filledOffRight {m μ : Nat} {h : Nat} {x : T K V A h} {root : Bool}
    (hx : T.ShapeTop μ m true x) (hm : root = false → h = 0 → 1 ≤ m)
    (h1 : root = true → 0 < h → 1 ≤ m) : x.toS.FilledOffRight root := by
  induction h generalizing m root with
  | zero =>
    refine .leaf ?_
    intro hr e
    have := hm hr rfl
    have h2 := hx.1
    rw [e] at h2
    simp at h2; omega
  | succ h ih =>
    refine .node (fun hr => (h1 hr (by omega)).trans hx.1) ?_ ?_
    · intro c hc
      rw [← List.map_dropLast] at hc
      obtain ⟨y, hy, rfl⟩ := List.mem_map.1 hc
      exact T.toS_filled ((SpineL_dropLast hx.2.2.2.2).1 y hy) (.inl rfl) (fun _ => by omega)
        (fun _ => by omega)
    · intro c hc
      rw [List.getLast?_map, Option.mem_def, Option.map_eq_some_iff] at hc
      obtain ⟨y, hy, rfl⟩ := hc
      refine ih ((SpineL_dropLast hx.2.2.2.2).2 y hy) ?_ (by simp)
      rintro - rfl
      simp only [mnAt]; omega

theorem T.toS_inSync [Augmentation K V A] {h : Nat} {x : T K V A h} (hx : x.AugOK) :
    x.toS.InSync := by
  have e : ∀ {h : Nat} (y : T K V A h), y.toS.aug = y.topAug := by
    intro h y
    cases h <;> rfl
  induction h with
  | zero => exact .leaf
  | succ h ih =>
    refine .node ?_ ?_
    · rw [hx.1, List.map_map]
      exact List.map_congr_left (fun y _ => (e y).symm)
    · intro c hc
      obtain ⟨y, hy, rfl⟩ := List.mem_map.1 hc
      exact ih (hx.2 y hy)

theorem T.toS_aug [Augmentation K V A] {h : Nat} (x : T K V A h) : x.toS.aug = x.topAug := by
  cases h <;> rfl

theorem mem_inorder {μ m : Nat} {r : Bool} {h : Nat} {x : T K V A h} (hx : T.ShapeTop μ m r x)
    {e : K × V} (he : e ∈ x.toL) : E.key e.1 ∈ x.inorder := by
  rw [← mem_keysOf, T.keysOf_inorder hx]
  exact List.mem_map_of_mem he

theorem sep_mem_inter {ks : List K} {xs : List (List (E K))} (h : xs.length = ks.length + 1) :
    (ks.map E.sep).Sublist (inter ks xs) := by
  cases xs with
  | nil => simp at h
  | cons x xs =>
    rw [inter]
    refine List.Sublist.trans ?_ (List.sublist_append_right _ _)
    simp only [List.length_cons, Nat.add_right_cancel_iff] at h
    clear x
    induction ks generalizing xs with
    | nil => simp
    | cons k ks ih =>
      cases xs with
      | nil => simp at h
      | cons y ys =>
        rw [interR_cons, List.map_cons, List.cons_append]
        refine List.Sublist.cons_cons _ ?_
        exact (ih ys (by simpa using h)).trans (List.sublist_append_right _ _)

theorem T.toS_ordered [LinearOrder K] {μ m : Nat} {r : Bool} {h : Nat} {x : T K V A h}
    (hx : T.ShapeTop μ m r x) (ho : x.inorder.Pairwise E.R) : x.toS.Ordered := by
  induction h generalizing m r with
  | zero =>
    refine .leaf ?_
    simp only [T.inorder, List.pairwise_map] at ho
    exact ho
  | succ h ih =>
    have hk := T.ShapeTop.kids hx
    have hlen : ((GNode.kids x).map T.inorder).length = (GNode.keys x).length + 1 := by
      rw [List.length_map]; exact hx.2.2.1
    have ho' : (inter (GNode.keys x) ((GNode.kids x).map T.inorder)).Pairwise E.R := ho
    have split : ∀ i k, (GNode.keys x)[i]? = some k → ∃ ks1 ks2 c1 c2 kd1 kd2,
        GNode.keys x = ks1 ++ k :: ks2 ∧ GNode.kids x = (kd1 ++ [c1]) ++ c2 :: kd2 ∧
        ks1.length = i ∧ kd1.length = i := by
      intro i k hi
      obtain ⟨hlt, hi⟩ := List.getElem?_eq_some_iff.1 hi
      have hl2 : (GNode.kids x).length = (GNode.keys x).length + 1 := hx.2.2.1
      refine ⟨(GNode.keys x).take i, (GNode.keys x).drop (i + 1), (GNode.kids x)[i]'(by omega),
        (GNode.kids x)[i + 1]'(by omega), (GNode.kids x).take i, (GNode.kids x).drop (i + 1 + 1), ?_,
        ?_, ?_, ?_⟩
      · rw [← hi, List.getElem_cons_drop, List.take_append_drop]
      · rw [List.getElem_cons_drop, List.take_append_getElem, List.take_append_drop]
      · rw [List.length_take]; omega
      · rw [List.length_take]; omega
    refine .node ?_ ?_ ?_ ?_
    · have := ho'.sublist (sep_mem_inter hlen)
      rw [List.pairwise_map] at this
      exact this
    · intro i k c hi hc e he
      obtain ⟨ks1, ks2, c1, c2, kd1, kd2, e1, e2, e3, e4⟩ := split i k hi
      rw [List.getElem?_map, e2, List.append_assoc, List.getElem?_append_right (by omega), e4,
        Nat.sub_self] at hc
      simp only [List.cons_append, List.getElem?_cons_zero, Option.map_some, Option.some.injEq] at hc
      subst hc
      rw [T.toS_items] at he
      have hmem : c1 ∈ GNode.kids x := by rw [e2]; simp
      obtain ⟨m', r', hc'⟩ := hk c1 hmem
      have := mem_inorder hc' he
      have hl2 : (GNode.kids x).length = (GNode.keys x).length + 1 := hx.2.2.1
      rw [e1, e2] at hl2
      simp only [List.length_append, List.length_cons, List.length_nil] at hl2
      rw [e1, e2, List.map_append, inter_append (by simp; omega) (by simp; omega),
        List.pairwise_append] at ho'
      refine ho'.2.2 (.key e.1) ?_ (.sep k) (by simp)
      rw [List.map_append, List.map_cons, List.map_nil, ← List.append_nil ks1,
        inter_split (by rw [List.length_map, e3, e4])]
      simp [this]
    · intro i k c hi hc e he
      obtain ⟨ks1, ks2, c1, c2, kd1, kd2, e1, e2, e3, e4⟩ := split i k hi
      rw [List.getElem?_map, e2, List.getElem?_append_right (by simp [e4])] at hc
      simp only [List.length_append, List.length_singleton, e4, Nat.sub_self,
        List.getElem?_cons_zero, Option.map_some, Option.some.injEq] at hc
      subst hc
      rw [T.toS_items] at he
      have hmem : c2 ∈ GNode.kids x := by rw [e2]; simp
      obtain ⟨m', r', hc'⟩ := hk c2 hmem
      have := mem_inorder hc' he
      have hl2 : (GNode.kids x).length = (GNode.keys x).length + 1 := hx.2.2.1
      rw [e1, e2] at hl2
      simp only [List.length_append, List.length_cons, List.length_nil] at hl2
      rw [e1, e2, List.map_append, inter_append (by simp; omega) (by simp; omega),
        List.pairwise_append] at ho'
      refine (List.pairwise_cons.1 ho'.2.1).1 (.key e.1) ?_
      simp [inter, this]
    · intro c hc
      obtain ⟨y, hy, rfl⟩ := List.mem_map.1 hc
      obtain ⟨m', r', hc'⟩ := hk y hy
      refine ih hc' ?_
      obtain ⟨A1, B1, e1⟩ := List.append_of_mem hy
      have hl2 : (GNode.kids x).length = (GNode.keys x).length + 1 := hx.2.2.1
      have e2 : GNode.keys x = (GNode.keys x).take A1.length ++ (GNode.keys x).drop A1.length := by
        rw [List.take_append_drop]
      rw [e2, e1, List.map_append, List.map_cons, inter_split, List.pairwise_append,
        List.pairwise_append] at ho'
      · exact ho'.1.2.1
      · rw [List.length_take, List.length_map]
        rw [e1] at hl2
        simp only [List.length_append, List.length_cons] at hl2
        omega

theorem WF0.explored {μ : Nat} {t : Tree K V A} {H : Nat} {g : T K V A H}
    (w : WF0 μ t g) : Explored t g.toS := by
  intro σ R v st
  rw [descendVisit_ok0 w, T.toS_visit]

theorem WF.explored [LinearOrder K] {μ : Nat} {t : Tree K V A} {H : Nat} {g : T K V A H}
    (w : WF μ t g) : Explored t g.toS := by
  intro σ R v st
  rw [descendVisit_ok w, T.toS_visit]

end Bpt
