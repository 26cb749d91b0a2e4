import Verif.Proofs.Mem

/-!
# Root-to-leaf descents
-/

namespace Bpt
variable {K V A : Type}

/-! ## Binary search -/

section BS
variable [LinearOrder K]

theorem takeWhile_split {l r : List K} {k : K} (hl : ∀ a ∈ l, a < k) (hr : ∀ a ∈ r.head?, k ≤ a) :
    (l ++ r).takeWhile (· < k) = l := by
  rw [List.takeWhile_append_of_pos (by simpa using hl)]
  cases r with
  | nil => simp
  | cons a r =>
    have : ¬ a < k := not_lt.2 (hr a (by simp))
    simp [this]

theorem bsearch_found {l r : List K} {k : K} (hl : ∀ a ∈ l, a < k) :
    bsearch (l ++ k :: r) k = .found l.length := by
  unfold bsearch
  rw [takeWhile_split hl (by simp)]
  simp

theorem bsearch_vacant {l r : List K} {k : K} (hl : ∀ a ∈ l, a < k) (hr : ∀ a ∈ r, k < a) :
    bsearch (l ++ r) k = .vacant l.length := by
  unfold bsearch
  rw [takeWhile_split hl (fun a ha => le_of_lt (hr a (List.mem_of_mem_head? ha)))]
  have : (l ++ r)[l.length]? ≠ some k := by
    rw [List.getElem?_append_right (Nat.le_refl _)]
    simp only [Nat.sub_self]
    intro h
    have := hr k (List.mem_of_getElem? h)
    exact lt_irrefl _ this
  simp [this]

/-- Splitting a strictly sorted list at a key. -/
theorem sorted_cases {l : List K} (h : l.Pairwise (· < ·)) (k : K) :
    (∃ a b, l = a ++ k :: b ∧ (∀ x ∈ a, x < k) ∧ (∀ x ∈ b, k < x)) ∨
    (∃ a b, l = a ++ b ∧ (∀ x ∈ a, x < k) ∧ (∀ x ∈ b, k < x)) := by
  induction l with
  | nil => exact .inr ⟨[], [], by simp⟩
  | cons x l ih =>
    rw [List.pairwise_cons] at h
    rcases lt_trichotomy x k with hx | rfl | hx
    · rcases ih h.2 with ⟨a, b, rfl, h1, h2⟩ | ⟨a, b, rfl, h1, h2⟩
      · exact .inl ⟨x :: a, b, by simp, by simpa [hx] using h1, h2⟩
      · exact .inr ⟨x :: a, b, by simp, by simpa [hx] using h1, h2⟩
    · exact .inl ⟨[], l, by simp, by simp, h.1⟩
    · refine .inr ⟨[], x :: l, by simp, by simp, ?_⟩
      intro y hy
      simp at hy
      rcases hy with rfl | hy
      · exact hx
      · exact lt_trans hx (h.1 y hy)

theorem sorted_split_le {l : List K} (h : l.Pairwise (· < ·)) (k : K) :
    ∃ a b, l = a ++ b ∧ (∀ x ∈ a, x ≤ k) ∧ (∀ x ∈ b, k < x) := by
  rcases sorted_cases h k with ⟨a, b, rfl, h1, h2⟩ | ⟨a, b, rfl, h1, h2⟩
  · refine ⟨a ++ [k], b, by simp, ?_, h2⟩
    intro x hx
    simp at hx
    rcases hx with hx | rfl
    · exact le_of_lt (h1 x hx)
    · exact le_refl _
  · exact ⟨a, b, rfl, fun x hx => le_of_lt (h1 x hx), h2⟩

end BS

/-! ## Locating a child -/

theorem exists_frame {X : Type} {x : GNode K A X} (h1 : x.kids.length = x.keys.length + 1)
    (h2 : x.augs.length = x.keys.length + 1) {i : Nat} (hi : i ≤ x.keys.length) :
    ∃ (f : Frame K A X) (y : X), x = f.fill y ∧ f.LenOK ∧ f.kidsL.length = i ∧
      f.keysL = x.keys.take i ∧ f.keysR = x.keys.drop i := by
  have e1 : x.kids[i]? = some (x.kids[i]'(by omega)) := by simp
  have e2 : x.augs[i]? = some (x.augs[i]'(by omega)) := by simp
  refine ⟨⟨x.id, x.keys.take i, x.kids.take i, x.augs.take i, x.augs[i]'(by omega),
    x.keys.drop i, x.kids.drop (i + 1), x.augs.drop (i + 1)⟩, x.kids[i]'(by omega), ?_, ?_, ?_, rfl,
    rfl⟩
  · cases x with
    | mk id keys kids augs =>
      simp only [Frame.fill, GNode.mk.injEq, true_and]
      simp only at h1 h2
      refine ⟨by simp, ?_, ?_⟩
      · rw [← List.drop_eq_getElem_cons]; simp
      · rw [← List.drop_eq_getElem_cons]; simp
  · simp [Frame.LenOK]; omega
  · simp; omega

@[simp] theorem childId_fill {h : Nat} {f : Frame K A (T K V A h)} {i : NodeId} :
    (f.inner i).childId f.kidsL.length = .ok i := by
  simp [Inner.childId, Frame.inner, readAt]

theorem T.ShapeTop.lens {μ m : Nat} {r : Bool} {h : Nat} {x : GNode K A (T K V A h)}
    (hx : T.ShapeTop μ (h := h + 1) m r x) :
    x.kids.length = x.keys.length + 1 ∧ x.augs.length = x.keys.length + 1 :=
  ⟨hx.2.2.1, hx.2.2.2.1⟩

theorem seps_sublist_interR {ks : List K} {xs : List (List (E K))} (h : ks.length = xs.length) :
    (ks.map E.sep).Sublist (interR ks xs) := by
  induction ks generalizing xs with
  | nil => simp
  | cons k ks ih =>
    cases xs with
    | nil => simp at h
    | cons x xs =>
      simp only [interR_cons, List.map_cons, List.cons_append]
      refine List.Sublist.cons_cons _ ?_
      exact (ih (by simpa using h)).trans (List.sublist_append_right _ _)

section Order
variable [LinearOrder K]

theorem keys_sorted {h : Nat} {x : GNode K A (T K V A h)}
    (h1 : x.kids.length = x.keys.length + 1)
    (ho : (T.inorder (h := h + 1) x).Pairwise E.R) : x.keys.Pairwise (· < ·) := by
  have hs : (x.keys.map E.sep).Sublist (T.inorder (h := h + 1) x) := by
    simp only [T.inorder]
    cases hk : x.kids with
    | nil => simp [hk] at h1
    | cons c cs =>
      simp only [List.map_cons, inter]
      refine (seps_sublist_interR ?_).trans (List.sublist_append_right _ _)
      simp [hk] at h1
      simp [h1]
  have := ho.sublist hs
  rw [List.pairwise_map] at this
  exact this

/-- Every element of the walk `l` may precede the key `k`. -/
def Before (k : K) (l : List (E K)) : Prop := ∀ e ∈ l, e.R (.key k)
/-- Every element of the walk `l` may follow the key `k`. -/
def After (k : K) (l : List (E K)) : Prop := ∀ e ∈ l, (E.key k).R e

theorem Before.append {k : K} {l l' : List (E K)} : Before k (l ++ l') ↔ Before k l ∧ Before k l' := by
  simp only [Before, List.mem_append]; constructor
  · intro h; exact ⟨fun e he => h e (.inl he), fun e he => h e (.inr he)⟩
  · rintro ⟨h1, h2⟩ e (he | he)
    · exact h1 e he
    · exact h2 e he

theorem After.append {k : K} {l l' : List (E K)} : After k (l ++ l') ↔ After k l ∧ After k l' := by
  simp only [After, List.mem_append]; constructor
  · intro h; exact ⟨fun e he => h e (.inl he), fun e he => h e (.inr he)⟩
  · rintro ⟨h1, h2⟩ e (he | he)
    · exact h1 e he
    · exact h2 e he

theorem before_interL {ks : List K} {xs : List (List (E K))} {k : K}
    (hl : ks.length = xs.length) (ho : (interL ks xs).Pairwise E.R) (hk : ∀ a ∈ ks, a ≤ k) :
    Before k (interL ks xs) := by
  rcases List.eq_nil_or_concat ks with rfl | ⟨ks', a, rfl⟩
  · cases xs with
    | nil => simp [Before]
    | cons => simp at hl
  · rcases List.eq_nil_or_concat xs with rfl | ⟨xs', x, rfl⟩
    · simp at hl
    · have e : interL (ks' ++ [a]) (xs' ++ [x]) = (interL ks' xs' ++ x) ++ [E.sep a] := by
        rw [interL_append (by simpa using hl)]; simp [interL]
      simp only [List.concat_eq_append] at *
      rw [e] at ho ⊢
      rw [List.pairwise_append] at ho
      have ha : a ≤ k := hk a (by simp)
      intro e he
      rw [List.mem_append] at he
      rcases he with he | he
      · exact E.R.trans (ho.2.2 e he (E.sep a) (by simp)) ha
      · simp at he; subst he; exact ha

theorem after_interR {ks : List K} {xs : List (List (E K))} {k : K}
    (hl : ks.length = xs.length) (ho : (interR ks xs).Pairwise E.R) (hk : ∀ a ∈ ks, k < a) :
    After k (interR ks xs) := by
  cases ks with
  | nil => simp [interR, After]
  | cons a ks =>
    cases xs with
    | nil => simp at hl
    | cons x xs =>
      rw [interR_cons, List.cons_append, List.pairwise_cons] at ho
      have ha : k < a := hk a (by simp)
      intro e he
      rw [interR_cons, List.cons_append, List.mem_cons] at he
      rcases he with rfl | he
      · exact ha
      · exact E.R.trans (b := E.sep a) ha (ho.1 e he)

theorem locateChild_fill {h : Nat} {f : Frame K A (T K V A h)} {i : NodeId} {k : K} (hf : f.LenOK)
    (hs : (f.keysL ++ f.keysR).Pairwise (· < ·))
    (hL : ∀ a ∈ f.keysL, a ≤ k) (hR : ∀ a ∈ f.keysR, k < a) :
    (f.inner i).locateChild k = .ok (f.kidsL.length, i) := by
  have hc := @childId_fill K V A h f i
  have hlen := hf.1
  unfold Inner.locateChild
  by_cases hk : k ∈ f.keysL
  · -- the last of the left keys
    obtain ⟨a, b, hab⟩ := List.append_of_mem hk
    have hb : b = [] := by
      cases b with
      | nil => rfl
      | cons y b =>
        exfalso
        rw [hab] at hs hL
        have h1 : k < y := by
          rw [List.append_assoc, List.pairwise_append] at hs
          have := hs.2.1
          simp only [List.cons_append, List.pairwise_cons] at this
          exact this.1 y (by simp)
        exact absurd (hL y (by simp)) (not_le.2 h1)
    subst hb
    have ha : ∀ x ∈ a, x < k := by
      rw [hab, List.append_assoc, List.pairwise_append] at hs
      intro x hx
      exact hs.2.2 x hx k (by simp)
    have e : bsearch (f.inner i).keys k = .found a.length := by
      have : (f.inner i).keys = a ++ k :: f.keysR := by simp [Frame.inner, hab]
      rw [this]; exact bsearch_found ha
    rw [e]
    have : a.length + 1 = f.kidsL.length := by rw [← hlen, hab]; simp
    simp only [this, hc]; rfl
  · have e : bsearch (f.inner i).keys k = .vacant f.keysL.length := by
      refine bsearch_vacant ?_ hR
      intro a ha
      exact lt_of_le_of_ne (hL a ha) (by rintro rfl; exact hk ha)
    rw [e]
    simp only [hlen, hc]; rfl

/-- The child chosen for `k`, with the walk left of it before and right of it after `k`. -/
theorem locate_frame {μ m : Nat} {r : Bool} {h : Nat} {x : GNode K A (T K V A h)} (k : K)
    (hx : T.ShapeTop μ (h := h + 1) m r x) (ho : (T.inorder (h := h + 1) x).Pairwise E.R) :
    ∃ (f : Frame K A (T K V A h)) (y : T K V A h), x = f.fill y ∧ f.LenOK ∧
      x.inner.locateChild k = .ok (f.kidsL.length, y.nid) ∧ Before k f.inL ∧ After k f.inR := by
  have hs := keys_sorted hx.lens.1 ho
  obtain ⟨a, b, hab, h1, h2⟩ := sorted_split_le hs k
  obtain ⟨f, y, rfl, hf, hi, hkL, hkR⟩ := exists_frame hx.lens.1 hx.lens.2 (i := a.length)
    (by rw [hab]; simp)
  rw [hab] at hkL hkR
  simp at hkL hkR
  have h1' : ∀ x ∈ f.keysL, x ≤ k := by rw [hkL]; exact h1
  have h2' : ∀ x ∈ f.keysR, k < x := by rw [hkR]; exact h2
  rw [T.inorder_fill hf, List.pairwise_append, List.pairwise_append] at ho
  refine ⟨f, y, rfl, hf, ?_, ?_, ?_⟩
  · rw [GNode.inner_fill]
    exact locateChild_fill hf hs h1' h2'
  · exact before_interL (by simp [hf.1]) ho.1.1 h1'
  · exact after_interR (by simp [hf.2.2.1]) ho.2.1 h2'

end Order

/-! ## The generic descent -/

theorem nodes_head {h : Nat} {x : GNode K A (T K V A h)} :
    (x.id, x.inner) ∈ T.nodes (h := h + 1) x := by simp [T.nodes]

theorem IMem.kid {m : List (Option (Inner K A))} {h : Nat} {f : Frame K A (T K V A h)}
    {y : T K V A h} (hm : IMem m (T.nodes (h := h + 1) (f.fill y))) : IMem m y.nodes := by
  have := hm.perm T.nodes_fill
  exact (IMem.append.1 this).1

/-- If every step from a node of the ghost tree goes to a child of it (keeping `Inv`) or stops (with
`Stop`), so does the descent. -/
theorem descend_ok {σ β : Type} {H : Nat} {s : Store K V A}
    {step : σ → Nat → Inner K A → Res (β ⊕ (σ × NodeId))}
    (Inv : (h : Nat) → Ctx K V A h H → T K V A h → σ → Prop) (Stop : β → Prop)
    (hstep : ∀ (h : Nat) (c : Ctx K V A (h + 1) H) (x : GNode K A (T K V A h)) (st : σ),
      Inv (h + 1) c x st →
      (∃ b, step st x.id x.inner = .ok (.inl b) ∧ Stop b) ∨
      (∃ (f : Frame K A (T K V A h)) (y : T K V A h) (st' : σ), x = f.fill y ∧
        step st x.id x.inner = .ok (.inr (st', y.nid)) ∧ Inv h (.cons f c) y st')) :
    ∀ (h : Nat) (c : Ctx K V A h H) (x : T K V A h) (st : σ) (fuel : Nat), h ≤ fuel →
      IMem s.inners x.nodes → Inv h c x st →
      (∃ b, descend s step fuel st x.nid = .ok (.inl b) ∧ Stop b) ∨
      (∃ (c0 : Ctx K V A 0 H) (x0 : GLeaf K V) (st' : σ),
        Ctx.plug c0 x0 = c.plug x ∧ descend s step fuel st x.nid = .ok (.inr (st', x0.id)) ∧
        Inv 0 c0 x0 st') := by
  intro h
  induction h with
  | zero =>
    intro c x st fuel _ _ hi
    refine .inr ⟨c, x, st, rfl, ?_, hi⟩
    cases fuel <;> rfl
  | succ h ih =>
    intro c x st fuel hf hm hi
    obtain ⟨fuel, rfl⟩ : ∃ n, fuel = n + 1 := ⟨fuel - 1, by omega⟩
    have hg : s.getInner (GNode.id x) = .ok (GNode.inner x) := hm.get nodes_head
    rcases hstep h c x st hi with ⟨b, hb, hs⟩ | ⟨f, y, st', hx, hs, hi'⟩
    · refine .inl ⟨b, ?_, hs⟩
      simp [descend, hg, hb]
    · subst hx
      have := ih (.cons f c) y st' fuel (by omega) hm.kid hi'
      have e : descend s step (fuel + 1) st (T.nid (h := h + 1) (f.fill y))
          = descend s step fuel st' y.nid := by
        rw [T.nid_succ, descend, hg]
        simp only [ok_bind, hs]
      rw [e]
      exact this

theorem height_le_nodes {μ : Nat} {h : Nat} {m : Nat} {r : Bool} {x : T K V A h}
    (hx : T.ShapeTop μ m r x) : h ≤ x.nodes.length := by
  induction h generalizing m r with
  | zero => simp
  | succ h ih =>
    obtain ⟨h1, h2, h3, h4, h5⟩ := hx
    cases hk : GNode.kids x with
    | nil => simp [hk] at h3
    | cons c cs =>
      rw [hk, SpineL_cons] at h5
      have : h ≤ c.nodes.length := by
        have := h5.1
        split at this
        · exact ih this
        · exact ih this
      simp only [T.nodes, hk, List.flatMap_cons, List.length_cons, List.length_append]
      omega

theorem WF0.height_le_fuel {μ : Nat} {t : Tree K V A} {H : Nat} {g : T K V A H}
    (w : WF0 μ t g) : H ≤ t.store.fuel := by
  have h1 := height_le_nodes w.shape
  have h2 := w.imem.length_le w.inodup
  unfold Store.fuel
  omega

/-- Descent by loops that do not stop early. -/
theorem descendLeaf_ok {σ : Type} {μ : Nat} {t : Tree K V A} {H : Nat}
    {g : T K V A H} (w : WF0 μ t g)
    {step : σ → Nat → Inner K A → Res (σ × NodeId)}
    (Inv : (h : Nat) → Ctx K V A h H → T K V A h → σ → Prop)
    (hstep : ∀ (h : Nat) (c : Ctx K V A (h + 1) H) (x : GNode K A (T K V A h)) (st : σ),
      Ctx.plug c x = g → Inv (h + 1) c x st →
      (∃ (f : Frame K A (T K V A h)) (y : T K V A h) (st' : σ), x = f.fill y ∧
        step st x.id x.inner = .ok (st', y.nid) ∧ Inv h (.cons f c) y st'))
    {st : σ} (h0 : Inv H .nil g st) :
    ∃ (c0 : Ctx K V A 0 H) (x0 : GLeaf K V) (st' : σ),
        Ctx.plug c0 x0 = g ∧ descendLeaf t.store step st t.root = .ok (st', x0.id) ∧
        Inv 0 c0 x0 st' := by
  have := descend_ok (s := t.store) (β := Empty)
    (step := fun st i n => do let r ← step st i n; return .inr r)
    (fun h c x st => c.plug x = g ∧ Inv h c x st) (fun _ => False)
    (by
      intro h c x st hi
      obtain ⟨f, y, st', rfl, h2, h3⟩ := hstep h c x st hi.1 hi.2
      refine .inr ⟨f, y, st', rfl, ?_, hi.1, h3⟩
      simp only [h2, ok_bind, pure_ok])
    H .nil g st t.store.fuel w.height_le_fuel w.imem ⟨rfl, h0⟩
  rcases this with ⟨b, _, hb⟩ | ⟨c0, x0, st', h1, h2, h3⟩
  · exact hb.elim
  · refine ⟨c0, x0, st', h1, ?_, h3.2⟩
    unfold descendLeaf
    rw [w.root, h2]
    rfl

section Locate
variable [LinearOrder K]

/-- What a descent for key `k` establishes. -/
structure Located (k : K) {h H : Nat} (g : T K V A H) (c : Ctx K V A h H) (x : T K V A h) :
    Prop where
  lenOK : c.LenOK
  before : Before k c.inL
  after : After k c.inR

theorem locate_step {μ : Nat} {t : Tree K V A} {H : Nat} {g : T K V A H} (w : WF μ t g) {k : K}
    {h : Nat} {c : Ctx K V A (h + 1) H} {x : GNode K A (T K V A h)} (hp : Ctx.plug c x = g)
    (hl : Located k g (h := h + 1) c x) :
    ∃ (f : Frame K A (T K V A h)) (y : T K V A h), x = f.fill y ∧ f.LenOK ∧
      x.inner.locateChild k = .ok (f.kidsL.length, y.nid) ∧ Located k g (.cons f c) y := by
  have hs := (Ctx.shape_plug.1 ⟨hp ▸ w.shape, hl.lenOK⟩).2
  have ho : (c.plug x).inorder.Pairwise E.R := hp ▸ w.ord
  rw [Ctx.inorder_plug hl.lenOK, List.pairwise_append, List.pairwise_append] at ho
  obtain ⟨f, y, rfl, h1, h2, h3, h4⟩ := locate_frame k hs ho.1.2.1
  refine ⟨f, y, rfl, h1, h2, ⟨⟨h1, hl.lenOK⟩, ?_, ?_⟩⟩
  · exact Before.append.2 ⟨hl.before, h3⟩
  · exact After.append.2 ⟨h4, hl.after⟩

theorem located_root {H : Nat} {g : T K V A H} {k : K} : Located k g .nil g :=
  ⟨trivial, by simp [Before, Ctx.inL], by simp [After, Ctx.inR]⟩

/-- Descent with a visit stack (`insert_inner`, `key_to_ref`). -/
theorem descend_stack {μ : Nat} {t : Tree K V A} {H : Nat} {g : T K V A H} (w : WF μ t g)
    (hH : H ≤ maxDepth) (k : K) :
    ∃ (c : Ctx K V A 0 H) (x : GLeaf K V), Ctx.plug c x = g ∧
      descendLeaf t.store (insertDescendStep k) [] t.root = .ok (c.stack (.leaf x.id), x.id) ∧
      Located k g (h := 0) c x := by
  obtain ⟨c, x, st, h1, h2, h3, rfl⟩ := descendLeaf_ok w.base (step := insertDescendStep k)
    (fun h c x st => Located k g c x ∧ st = c.stack x.nid)
    (by
      rintro h c x st hp ⟨hl, rfl⟩
      obtain ⟨f, y, rfl, h1, h2, h3⟩ := locate_step w hp hl
      refine ⟨f, y, _, rfl, ?_, h3, rfl⟩
      have hlen : (c.stack (T.nid (h := h + 1) (f.fill y))).length < maxDepth := by
        have := c.le
        simp only [Ctx.stack_length]; omega
      rw [insertDescendStep, h2]
      simp only [ok_bind, pushStack, if_pos hlen]
      simp [Ctx.stack])
    ⟨located_root, rfl⟩
  exact ⟨c, x, h1, h2, h3⟩

/-- Descent without a stack. -/
theorem findDescendLeaf_ok {μ : Nat} {t : Tree K V A} {H : Nat} {g : T K V A H} (w : WF μ t g)
    (k : K) :
    ∃ (c : Ctx K V A 0 H) (x : GLeaf K V), Ctx.plug c x = g ∧
      findDescendLeaf t.store t.root k = .ok x.id ∧ Located k g (h := 0) c x := by
  obtain ⟨c, x, st, h1, h2, h3⟩ := descendLeaf_ok w.base (step := locateStep k)
    (fun h c x st => Located k g c x)
    (by
      rintro h c x st hp hl
      obtain ⟨f, y, rfl, h1, h2, h3⟩ := locate_step w hp hl
      refine ⟨f, y, (), rfl, ?_, h3⟩
      simp [locateStep, h2])
    (st := ()) located_root
  refine ⟨c, x, h1, ?_, h3⟩
  simp [findDescendLeaf, h2]

end Locate

end Bpt
