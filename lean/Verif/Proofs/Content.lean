import Verif.Proofs.InsertAscend
import Verif.Spec
import Mathlib.Algebra.BigOperators.Group.List.Basic
import Mathlib.Algebra.Order.BigOperators.Group.List

/-!
# The items of a tree, in order
-/

namespace Bpt
variable {K V A : Type}

/-- The key of a walk element. -/
def E.key? : E K → Option K
  | .key k => some k
  | .sep _ => none

/-- The keys of a walk. -/
def keysOf (l : List (E K)) : List K := l.filterMap E.key?

@[simp] theorem keysOf_append {l l' : List (E K)} : keysOf (l ++ l') = keysOf l ++ keysOf l' := by
  simp [keysOf]
@[simp] theorem keysOf_nil : keysOf ([] : List (E K)) = [] := rfl
@[simp] theorem keysOf_sep {k : K} {l : List (E K)} : keysOf (.sep k :: l) = keysOf l := rfl
@[simp] theorem keysOf_key {k : K} {l : List (E K)} : keysOf (.key k :: l) = k :: keysOf l := rfl

theorem mem_keysOf {k : K} {l : List (E K)} : k ∈ keysOf l ↔ E.key k ∈ l := by
  simp only [keysOf, List.mem_filterMap]
  constructor
  · rintro ⟨e, he, hk⟩
    cases e with
    | sep a => simp [E.key?] at hk
    | key a => simp [E.key?] at hk; exact hk ▸ he
  · intro h; exact ⟨_, h, rfl⟩

theorem keysOf_interR {ks : List K} {xs : List (List (E K))} (h : ks.length = xs.length) :
    keysOf (interR ks xs) = xs.flatMap keysOf := by
  induction ks generalizing xs with
  | nil => cases xs <;> simp at h ⊢
  | cons k ks ih =>
    cases xs with
    | nil => simp at h
    | cons x xs => simp [ih (xs := xs) (by simpa using h)]

theorem keysOf_interL {ks : List K} {xs : List (List (E K))} (h : ks.length = xs.length) :
    keysOf (interL ks xs) = xs.flatMap keysOf := by
  induction ks generalizing xs with
  | nil => cases xs <;> simp at h ⊢
  | cons k ks ih =>
    cases xs with
    | nil => simp at h
    | cons x xs => simp [ih (xs := xs) (by simpa using h)]

theorem T.ShapeTop.kids {μ m : Nat} {r : Bool} {h : Nat} {x : GNode K A (T K V A h)}
    (hx : T.ShapeTop μ (h := h + 1) m r x) : ∀ c ∈ x.kids, ∃ m r, T.ShapeTop μ m r c := by
  have := SpineL_mono (P' := fun c => ∃ m r, T.ShapeTop μ m r c)
    (Q' := fun c => ∃ m r, T.ShapeTop μ m r c) (fun a _ h => ⟨_, _, h⟩) (fun a _ h => ⟨_, _, h⟩)
    hx.2.2.2.2
  exact SpineL_same.1 this

theorem T.keysOf_inorder {μ m : Nat} {r : Bool} {h : Nat} {x : T K V A h}
    (hx : T.ShapeTop μ m r x) : keysOf x.inorder = x.toL.map (·.1) := by
  induction h generalizing m r with
  | zero =>
    simp only [T.inorder, T.toL, T.leaves, List.flatMap_cons, List.flatMap_nil, List.append_nil]
    induction GLeaf.data x with
    | nil => rfl
    | cons a l ih => simp [ih]
  | succ h ih =>
    have hk := hx.kids
    have hl := hx.lens.1
    simp only [T.inorder, T.toL, T.leaves]
    rcases hkk : GNode.kids x with _ | ⟨c, cs⟩
    · simp [hkk] at hl
    · rw [hkk] at hk
      simp only [List.map_cons, inter, keysOf_append]
      rw [keysOf_interR (by simp [hkk] at hl; simp [hl])]
      have e : ∀ l : List (T K V A h), (∀ c ∈ l, ∃ m r, T.ShapeTop μ m r c) →
          (l.map T.inorder).flatMap keysOf = ((l.flatMap T.leaves).flatMap (·.2)).map (·.1) := by
        intro l hl
        induction l with
        | nil => rfl
        | cons a l ihl =>
          obtain ⟨m, r, ha⟩ := hl a (by simp)
          simp [ihl (fun c hc => hl c (by simp [hc])), ih ha, T.toL]
      have := e (c :: cs) hk
      simpa using this

theorem Frame.Sides.all {μ : Nat} {r : Bool} {h : Nat} {f : Frame K A (T K V A h)}
    (hs : f.Sides μ r) : (∀ c ∈ f.kidsL, ∃ m r, T.ShapeTop μ m r c) ∧
      (∀ c ∈ f.kidsR, ∃ m r, T.ShapeTop μ m r c) := by
  refine ⟨fun c hc => ⟨_, _, hs.1 c hc⟩, ?_⟩
  have := SpineL_mono (P' := fun c => ∃ m r, T.ShapeTop μ m r c)
    (Q' := fun c => ∃ m r, T.ShapeTop μ m r c) (fun a _ h => ⟨_, _, h⟩) (fun a _ h => ⟨_, _, h⟩)
    hs.2
  exact SpineL_same.1 this

theorem keysOf_kids {μ : Nat} {h : Nat} {l : List (T K V A h)}
    (hl : ∀ c ∈ l, ∃ m r, T.ShapeTop μ m r c) :
    (l.map T.inorder).flatMap keysOf = ((l.flatMap T.leaves).flatMap (·.2)).map (·.1) := by
  induction l with
  | nil => rfl
  | cons a l ihl =>
    obtain ⟨m, r, ha⟩ := hl a (by simp)
    simp [ihl (fun c hc => hl c (by simp [hc])), T.keysOf_inorder ha, T.toL]

theorem Ctx.keysOf_in {μ : Nat} {h H : Nat} {c : Ctx K V A h H} (hc : c.Shape μ) :
    keysOf c.inL = (c.lvL.flatMap (·.2)).map (·.1) ∧
    keysOf c.inR = (c.lvR.flatMap (·.2)).map (·.1) := by
  induction c with
  | nil => exact ⟨rfl, rfl⟩
  | cons f c ih =>
    obtain ⟨hS, -, -, hf, hcs⟩ := hc
    have h1 := ih hcs
    have h2 := hS.all
    simp only [Ctx.inL, Ctx.inR, Ctx.lvL, Ctx.lvR, keysOf_append, List.flatMap_append,
      List.map_append, h1.1, h1.2, Frame.inL, Frame.inR, Frame.lvL, Frame.lvR]
    rw [keysOf_interL (by simp [hf.1]), keysOf_interR (by simp [hf.2.2.1]), keysOf_kids h2.1,
      keysOf_kids h2.2]
    exact ⟨rfl, rfl⟩

/-! ## Number of items -/

theorem length_flatMap_ge {α β : Type} {f : α → List β} {l : List α} {n : Nat}
    (h : ∀ a ∈ l, n ≤ (f a).length) : l.length * n ≤ (l.flatMap f).length := by
  induction l with
  | nil => simp
  | cons a l ih =>
    have := ih (fun b hb => h b (by simp [hb]))
    have h1 := h a (by simp)
    simp only [List.length_cons, List.flatMap_cons, List.length_append, Nat.add_mul, Nat.one_mul]
    omega

theorem T.toL_node {h : Nat} {x : GNode K A (T K V A h)} :
    T.toL (h := h + 1) x = x.kids.flatMap T.toL := by
  simp only [T.toL, T.leaves, List.flatMap_assoc]; rfl

theorem full_size {μ : Nat} {h : Nat} {x : T K V A h} (hx : T.ShapeTop μ 16 false x) :
    16 * 17 ^ h ≤ x.toL.length := by
  induction h with
  | zero => simpa [T.toL, T.leaves] using hx.1
  | succ h ih =>
    obtain ⟨h1, h2, h3, h4, h5⟩ := hx
    rw [mnAt_false, SpineL_same] at h5
    rw [T.toL_node]
    have := length_flatMap_ge (f := T.toL) (l := GNode.kids x) (n := 16 * 17 ^ h)
      (fun c hc => ih (h5 c hc))
    have h6 : 17 ≤ (GNode.kids x).length := by omega
    calc 16 * 17 ^ (h + 1) = 17 * (16 * 17 ^ h) := by rw [Nat.pow_succ]; omega
      _ ≤ (GNode.kids x).length * (16 * 17 ^ h) := Nat.mul_le_mul_right _ h6
      _ ≤ _ := this

theorem root_size {μ : Nat} {h : Nat} {x : T K V A (h + 1)}
    (hx : T.ShapeTop μ (rootMin (h + 1)) true x) : 16 * 17 ^ h + 1 ≤ x.toL.length + 1 := by
  obtain ⟨h1, h2, h3, h4, h5⟩ := hx
  rw [T.toL_node]
  rcases hk : GNode.kids x with _ | ⟨c, _ | ⟨c', cs⟩⟩
  · simp [hk] at h3
  · simp only [hk, List.length_cons, List.length_nil] at h3; simp only [rootMin] at h1; omega
  · rw [hk] at h5
    have := full_size h5.1
    simp only [List.flatMap_cons, List.length_append]
    omega

section
variable [LinearOrder K]

omit [LinearOrder K] in
theorem WF0.depth {μ : Nat} {t : Tree K V A} {H : Nat} {g : T K V A H} (w : WF0 μ t g)
    (hl : t.len < 2 ^ 64) : H ≤ maxDepth := by
  cases H with
  | zero => simp [maxDepth]
  | succ h =>
    have h1 := root_size w.shape
    have h2 := w.len
    have h3 : 16 * 17 ^ h < 2 ^ 64 := by omega
    simp only [maxDepth]
    by_contra hc
    have h4 : 15 ≤ h := by omega
    have h5 : 17 ^ 15 ≤ 17 ^ h := Nat.pow_le_pow_right (by omega) h4
    omega

theorem WF.depth {μ : Nat} {t : Tree K V A} {H : Nat} {g : T K V A H} (w : WF μ t g)
    (hl : t.len < 2 ^ 64) : H ≤ maxDepth := w.base.depth hl

/-! ## Sortedness and the specification -/

open Spec

theorem keysOf_sorted {l : List (E K)} (h : l.Pairwise E.R) : (keysOf l).Pairwise (· < ·) := by
  unfold keysOf
  rw [List.pairwise_filterMap]
  refine h.imp ?_
  intro a b hab x hx y hy
  cases a <;> cases b <;> simp [E.key?] at hx hy
  subst hx; subst hy; exact hab

theorem WF.sorted {μ : Nat} {t : Tree K V A} {H : Nat} {g : T K V A H} (w : WF μ t g) :
    Sorted g.toL := by
  have := keysOf_sorted w.ord
  rw [T.keysOf_inorder w.shape, List.pairwise_map] at this
  exact this

theorem Located.keys {μ : Nat} {k : K} {H : Nat} {g : T K V A H} {h : Nat} {c : Ctx K V A h H}
    {x : T K V A h} (hl : Located k g c x) (hc : c.Shape μ) :
    (∀ e ∈ c.lvL.flatMap (·.2), e.1 < k) ∧ (∀ e ∈ c.lvR.flatMap (·.2), k < e.1) := by
  have h1 := Ctx.keysOf_in hc
  constructor
  · intro e he
    have : E.key e.1 ∈ c.inL := by
      rw [← mem_keysOf, h1.1]; exact List.mem_map_of_mem he
    exact hl.before _ this
  · intro e he
    have : E.key e.1 ∈ c.inR := by
      rw [← mem_keysOf, h1.2]; exact List.mem_map_of_mem he
    exact hl.after _ this

namespace Spec

theorem lookup_found {a b : List (K × V)} {k : K} {v : V} (ha : ∀ e ∈ a, e.1 < k) :
    lookup k (a ++ (k, v) :: b) = some v := by
  have : a.find? (fun e => decide (e.1 = k)) = none := by
    rw [List.find?_eq_none]
    intro e he
    simpa using (ha e he).ne
  simp [lookup, List.find?_append, this]

theorem lookup_none {a b : List (K × V)} {k : K} (ha : ∀ e ∈ a, e.1 < k) (hb : ∀ e ∈ b, k < e.1) :
    lookup k (a ++ b) = none := by
  have : (a ++ b).find? (fun e => decide (e.1 = k)) = none := by
    rw [List.find?_eq_none]
    intro e he
    rw [List.mem_append] at he
    rcases he with he | he
    · simpa using (ha e he).ne
    · simpa using (hb e he).ne'
  simp [lookup, this]

theorem filter_lt {a : List (K × V)} {k : K} (ha : ∀ e ∈ a, e.1 < k) :
    a.filter (fun e => e.1 < k) = a ∧ a.filter (fun e => k < e.1) = [] := by
  constructor
  · rw [List.filter_eq_self]; intro e he; simpa using ha e he
  · rw [List.filter_eq_nil_iff]; intro e he; simpa using (ha e he).le

theorem filter_gt {a : List (K × V)} {k : K} (ha : ∀ e ∈ a, k < e.1) :
    a.filter (fun e => e.1 < k) = [] ∧ a.filter (fun e => k < e.1) = a := by
  constructor
  · rw [List.filter_eq_nil_iff]; intro e he; simpa using (ha e he).le
  · rw [List.filter_eq_self]; intro e he; simpa using ha e he

theorem upsert_found {a b : List (K × V)} {k : K} {v v' : V} (ha : ∀ e ∈ a, e.1 < k)
    (hb : ∀ e ∈ b, k < e.1) : upsert k v (a ++ (k, v') :: b) = a ++ (k, v) :: b := by
  have h1 := filter_lt ha
  have h2 := filter_gt hb
  simp [upsert, List.filter_cons, h1.1, h1.2, h2.1, h2.2]

theorem upsert_vacant {a b : List (K × V)} {k : K} {v : V} (ha : ∀ e ∈ a, e.1 < k)
    (hb : ∀ e ∈ b, k < e.1) : upsert k v (a ++ b) = a ++ (k, v) :: b := by
  have h1 := filter_lt ha
  have h2 := filter_gt hb
  simp [upsert, h1.1, h1.2, h2.1, h2.2]

theorem erase_found {a b : List (K × V)} {k : K} {v : V} (ha : ∀ e ∈ a, e.1 < k)
    (hb : ∀ e ∈ b, k < e.1) : erase k (a ++ (k, v) :: b) = a ++ b := by
  have h1 : a.filter (fun e => decide (e.1 ≠ k)) = a := by
    rw [List.filter_eq_self]; intro e he; simpa using (ha e he).ne
  have h2 : b.filter (fun e => decide (e.1 ≠ k)) = b := by
    rw [List.filter_eq_self]; intro e he; simpa using (hb e he).ne'
  simp only [erase, List.filter_append, List.filter_cons, h1, h2]
  simp

theorem erase_vacant {a b : List (K × V)} {k : K} (ha : ∀ e ∈ a, e.1 < k)
    (hb : ∀ e ∈ b, k < e.1) : erase k (a ++ b) = a ++ b := by
  have h1 : a.filter (fun e => decide (e.1 ≠ k)) = a := by
    rw [List.filter_eq_self]; intro e he; simpa using (ha e he).ne
  have h2 : b.filter (fun e => decide (e.1 ≠ k)) = b := by
    rw [List.filter_eq_self]; intro e he; simpa using (hb e he).ne'
  simp only [erase, List.filter_append, h1, h2]

theorem modify_ne {a : List (K × V)} {k : K} {f : V → V} (ha : ∀ e ∈ a, e.1 ≠ k) :
    modify k f a = a := by
  unfold modify
  conv => rhs; rw [← List.map_id a]
  refine List.map_congr_left ?_
  intro e he
  simp [ha e he]

theorem modify_append {a b : List (K × V)} {k : K} {f : V → V} :
    modify k f (a ++ b) = modify k f a ++ modify k f b := by simp [modify]

theorem modify_found {a b : List (K × V)} {k : K} {v : V} {f : V → V} (ha : ∀ e ∈ a, e.1 < k)
    (hb : ∀ e ∈ b, k < e.1) : modify k f (a ++ (k, v) :: b) = a ++ (k, f v) :: b := by
  rw [modify_append, modify_ne (fun e he => (ha e he).ne)]
  have := modify_ne (f := f) (fun e he => (hb e he).ne')
  simp only [modify, List.map_cons, if_true] at this ⊢
  rw [this]

theorem modify_vacant {a b : List (K × V)} {k : K} {f : V → V} (ha : ∀ e ∈ a, e.1 < k)
    (hb : ∀ e ∈ b, k < e.1) : modify k f (a ++ b) = a ++ b := by
  rw [modify_append, modify_ne (fun e he => (ha e he).ne), modify_ne (fun e he => (hb e he).ne')]

end Spec
end
end Bpt
