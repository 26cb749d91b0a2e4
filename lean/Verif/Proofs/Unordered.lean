import Verif.Proofs.Mutate
import Verif.Proofs.Insert
import Verif.Proofs.Cursor
import Verif.Proofs.ReachInv
import Verif.LawlessHistory
import Mathlib.SetTheory.Cardinal.Order

/-!
# Arbitrary comparisons keep the order-free invariant
-/

namespace Bpt
variable {K V A : Type}

/-! ## Searches stay in range -/

theorem readAt_lt {α : Type} {l : List α} {i : Nat} (h : i < l.length) : readAt l i = .ok l[i] := by
  simp [readAt, h]

theorem halvingLoopU_ok {f : Nat → K → Ordering} {keys : List K} (n : Nat) {j base size : Nat}
    (hn : size ≤ n) (h1 : 1 ≤ size) (h2 : base + size ≤ keys.length) :
    ∃ j' b, halvingLoopU f keys n j base size = .ok (j', b) ∧ b < keys.length := by
  induction n generalizing j base size with
  | zero => omega
  | succ n ih =>
    rw [halvingLoopU]
    by_cases hs : 1 < size
    · have hlt : base + size / 2 < keys.length := by omega
      simp only [hs, if_true, readAt_lt hlt, ok_bind]
      split
      · exact ih (by omega) (by omega) (by omega)
      · exact ih (by omega) (by omega) (by omega)
    · simp only [hs, if_false]
      exact ⟨j, base, rfl, by omega⟩

theorem earlyLoopU_ok {f : Nat → K → Ordering} {keys : List K} (n : Nat) {j left right : Nat}
    (hn : right - left < n) (h1 : left ≤ right) (h2 : right ≤ keys.length) :
    ∃ s, earlyLoopU f keys n j left right = .ok s ∧ s.InRange keys.length := by
  induction n generalizing j left right with
  | zero => omega
  | succ n ih =>
    rw [earlyLoopU]
    by_cases hs : left < right
    · have hlt : left + (right - left) / 2 < keys.length := by omega
      simp only [hs, if_true, readAt_lt hlt, ok_bind]
      split
      · exact ih (by omega) (by omega) (by omega)
      · exact ih (by omega) (by omega) (by omega)
      · exact ⟨_, rfl, hlt⟩
    · simp only [hs, if_false]
      exact ⟨_, rfl, by simp only [Slot.InRange]; omega⟩

theorem searchU_ok (e : Bool) (f : Nat → K → Ordering) (keys : List K) :
    ∃ s, searchU e f keys = .ok s ∧ s.InRange keys.length := by
  unfold searchU
  cases e with
  | true => exact earlyLoopU_ok (keys.length + 1) (by omega) (by omega) (by omega)
  | false =>
    simp only [Bool.false_eq_true, if_false, halvingSearchU]
    by_cases h0 : keys.length = 0
    · simp only [h0, if_true]
      exact ⟨_, rfl, Nat.zero_le _⟩
    · simp only [h0, if_false]
      obtain ⟨j, b, h1, h2⟩ := halvingLoopU_ok (f := f) (keys := keys) keys.length (j := 0) (base := 0)
        (size := keys.length) (Nat.le_refl _) (by omega) (by omega)
      simp only [h1, ok_bind, readAt_lt h2]
      split
      · exact ⟨_, rfl, h2⟩
      · exact ⟨_, rfl, h2⟩
      · exact ⟨_, rfl, Nat.le_of_lt h2⟩

/-! ## Descents -/

theorem locateU_frame {μ m : Nat} {r : Bool} {h : Nat} {x : GNode K A (T K V A h)} (o : Answers K)
    (dep : Nat) (hx : T.ShapeTop μ (h := h + 1) m r x) :
    ∃ (f : Frame K A (T K V A h)) (y : T K V A h), x = f.fill y ∧ f.LenOK ∧
      x.inner.locateChildU o dep = .ok (f.kidsL.length, y.nid) := by
  obtain ⟨s, hs, hr⟩ := searchU_ok o.early (o.inner dep) x.keys
  have hs' : searchU o.early (o.inner dep) x.inner.keys = .ok s := hs
  unfold Inner.locateChildU
  rw [hs']
  cases s with
  | vacant i =>
    obtain ⟨f, y, rfl, h1, rfl, -, -⟩ := exists_frame hx.lens.1 hx.lens.2 (i := i) hr
    refine ⟨f, y, rfl, h1, ?_⟩
    rw [GNode.inner_fill]
    simp only [ok_bind, childId_fill, pure_ok]
  | found i =>
    obtain ⟨f, y, rfl, h1, h2, -, -⟩ := exists_frame hx.lens.1 hx.lens.2 (i := i + 1) hr
    refine ⟨f, y, rfl, h1, ?_⟩
    rw [GNode.inner_fill]
    simp only [ok_bind, ← h2, childId_fill, pure_ok]

theorem descend_stackU {μ : Nat} {t : Tree K V A} {H : Nat} {g : T K V A H} (w : WF0 μ t g)
    (hH : H ≤ maxDepth) (o : Answers K) :
    ∃ (c : Ctx K V A 0 H) (x : GLeaf K V), Ctx.plug c x = g ∧ c.LenOK ∧
      descendLeaf t.store (stackStepU o) [] t.root = .ok (c.stack (.leaf x.id), x.id) := by
  obtain ⟨c, x, st, h1, h2, h3, rfl⟩ := descendLeaf_ok w (step := stackStepU o)
    (fun h c x st => c.LenOK ∧ st = c.stack x.nid)
    (by
      rintro h c x st hp ⟨hl, rfl⟩
      obtain ⟨f, y, rfl, h1, h2⟩ := locateU_frame o (c.stack (T.nid (h := h + 1) x)).length
        (Ctx.shape_plug.1 ⟨hp ▸ w.shape, hl⟩).2
      refine ⟨f, y, _, rfl, ?_, ⟨h1, hl⟩, rfl⟩
      have hlen : (c.stack (T.nid (h := h + 1) (f.fill y))).length < maxDepth := by
        have := c.le
        simp only [Ctx.stack_length]; omega
      rw [stackStepU, h2]
      simp only [ok_bind, pushStack, if_pos hlen]
      simp [Ctx.stack])
    ⟨trivial, rfl⟩
  exact ⟨c, x, h1, h3, h2⟩

theorem findDescendLeafU_ok {μ : Nat} {t : Tree K V A} {H : Nat} {g : T K V A H} (w : WF0 μ t g)
    (o : Answers K) :
    ∃ LA x LB, g.leaves = LA ++ x :: LB ∧ findDescendLeafU o t.store t.root = .ok x.1 := by
  obtain ⟨c, x, st, h1, h2, h3⟩ := descendLeaf_ok w (step := locateStepU o)
    (fun h c x st => c.LenOK)
    (by
      rintro h c x st hp hl
      obtain ⟨f, y, rfl, h1, h2⟩ := locateU_frame o st (Ctx.shape_plug.1 ⟨hp ▸ w.shape, hl⟩).2
      refine ⟨f, y, st + 1, rfl, ?_, ⟨h1, hl⟩⟩
      simp [locateStepU, h2])
    (st := 0) trivial
  refine ⟨c.lvL, (x.id, x.data), c.lvR, ?_, by simp [findDescendLeafU, h2]⟩
  rw [← h1, Ctx.leaves_plug]; simp [T.leaves]

/-! ## Leaves -/

theorem locateSlotU_ok (o : Answers K) (l : Leaf K V) :
    ∃ s, l.locateSlotU o = .ok s ∧ s.InRange l.data.length := by
  obtain ⟨s, h1, h2⟩ := searchU_ok o.early o.leaf l.keys
  exact ⟨s, h1, by simpa [Leaf.keys] using h2⟩

theorem locateSlotU_cases (o : Answers K) (d : List (K × V)) (p n : Option Nat) :
    (∃ a kv b, d = a ++ kv :: b ∧ (⟨d, p, n⟩ : Leaf K V).locateSlotU o = .ok (.found a.length)) ∨
    (∃ a b, d = a ++ b ∧ (⟨d, p, n⟩ : Leaf K V).locateSlotU o = .ok (.vacant a.length)) := by
  obtain ⟨s, h1, h2⟩ := locateSlotU_ok o ⟨d, p, n⟩
  cases s with
  | found i =>
    have hi : i < d.length := h2
    refine .inl ⟨d.take i, d[i], d.drop (i + 1), ?_, ?_⟩
    · exact (List.take_append_drop i d).symm.trans (by rw [List.drop_eq_getElem_cons hi])
    · rw [h1, List.length_take, Nat.min_eq_left (Nat.le_of_lt hi)]
  | vacant i =>
    have hi : i ≤ d.length := h2
    refine .inr ⟨d.take i, d.drop i, (List.take_append_drop i d).symm, ?_⟩
    rw [h1, List.length_take, Nat.min_eq_left hi]

theorem lswvU_cases (o : Answers K) (d : List (K × V)) (p n : Option Nat) :
    (∃ a kv b, d = a ++ kv :: b ∧
      (⟨d, p, n⟩ : Leaf K V).locateSlotWithValueU o = .ok (a.length, some kv.2)) ∨
    (∃ a b, d = a ++ b ∧ (⟨d, p, n⟩ : Leaf K V).locateSlotWithValueU o = .ok (a.length, none)) := by
  unfold Leaf.locateSlotWithValueU
  rcases locateSlotU_cases o d p n with ⟨a, kv, b, rfl, h⟩ | ⟨a, b, rfl, h⟩
  · exact .inl ⟨a, kv, b, rfl, by simp only [h, ok_bind, Leaf.dataAt, readAt_mid, pure_ok]⟩
  · exact .inr ⟨a, b, rfl, by simp only [h, ok_bind, pure_ok]⟩

theorem inRangeU_ok {s : Store K V A} {L LA LB : List (Nat × List (K × V))} {x} (f : Flat0 s L)
    (hL : L = LA ++ x :: LB) (o : Answers K) (i : Nat) :
    ∃ b, (⟨x.2, lstId none LA, hdId LB none⟩ : Leaf K V).inRangeU o i = .ok b := by
  have hA : LA ≠ [] → x.2 ≠ [] := fun h => f.data_ne hL (.inl h)
  have hB : LB ≠ [] → x.2 ≠ [] := fun h => f.data_ne hL (.inr h)
  unfold Leaf.inRangeU
  cases h : lstId none LA with
  | none =>
    cases h' : hdId LB none with
    | none => exact ⟨_, rfl⟩
    | some q =>
      have : x.2 ≠ [] := hB (by rintro rfl; simp at h')
      have hlen : 0 < x.2.length := List.length_pos_of_ne_nil this
      have hlt : x.2.length - 1 < x.2.length := by omega
      simp only [Leaf.len, Leaf.dataAt, readAt_lt hlt, if_neg (Nat.ne_of_gt hlen), ok_bind, pure_ok,
        Bool.false_eq_true, if_false]
      exact ⟨_, rfl⟩
  | some p =>
    have : x.2 ≠ [] := hA (by rintro rfl; simp at h)
    have hlen : 0 < x.2.length := List.length_pos_of_ne_nil this
    have hlt : x.2.length - 1 < x.2.length := by omega
    simp only [Leaf.dataAt, readAt_lt hlen, ok_bind, pure_ok]
    split
    · exact ⟨_, rfl⟩
    · cases h' : hdId LB none with
      | none => exact ⟨_, rfl⟩
      | some q =>
        simp only [Leaf.len, readAt_lt hlt, if_neg (Nat.ne_of_gt hlen), ok_bind]
        exact ⟨_, rfl⟩

theorem tryCacheU_ok {s : Store K V A} {L : List (Nat × List (K × V))} (f : Flat0 s L)
    (o : Answers K) :
    ∃ r, s.tryCacheU o = .ok r ∧ ∀ i, r = some i → ∃ LA x LB, L = LA ++ x :: LB ∧ x.1 = i := by
  unfold Store.tryCacheU
  cases hc : s.cached with
  | none => exact ⟨none, rfl, by simp⟩
  | some id =>
    simp only
    cases hl : s.tryGetLeaf id with
    | none => exact ⟨none, rfl, by simp⟩
    | some l =>
      obtain ⟨LA, x, LB, h1, rfl, rfl⟩ := f.tryGet hl
      obtain ⟨b, hb⟩ := inRangeU_ok f h1 o 0
      simp only [hb, ok_bind, pure_ok]
      refine ⟨_, rfl, ?_⟩
      intro i hi
      split at hi
      · cases hi; exact ⟨LA, x, LB, h1, rfl⟩
      · cases hi

theorem findInLeafU_ok {s : Store K V A} {L LA LB : List (Nat × List (K × V))} {x} (f : Flat0 s L)
    (hL : L = LA ++ x :: LB) (o : Answers K) :
    findInLeafU o s x.1 = .ok none ∨
    ∃ k v, (k, v) ∈ L.flatMap (·.2) ∧ findInLeafU o s x.1 = .ok (some v) := by
  unfold findInLeafU
  rw [f.get hL]
  simp only [ok_bind]
  rcases lswvU_cases o x.2 (lstId none LA) (hdId LB none) with ⟨a, kv, b, h, h1⟩ | ⟨a, b, h, h1⟩
  · refine .inr ⟨kv.1, kv.2, ?_, by simp only [h1, ok_bind, pure_ok]⟩
    rw [hL]; simp [h]
  · exact .inl (by simp only [h1, ok_bind, pure_ok])

/-! ## The operations -/

/-- The order-free invariant, with the items; `μ` is the minimum on the right spine (`WF0`). -/
structure UInvM (μ : Nat) (t : Tree K V A) (l : List (K × V)) : Prop where
  ghost : ∃ (H : Nat) (g : T K V A H), WF0 μ t g ∧ g.toL = l
  lt : t.len < 2 ^ 64
  le : μ ≤ 16

/-- The order-free invariant of the maps that start empty. -/
abbrev UInv (t : Tree K V A) (l : List (K × V)) : Prop := UInvM 16 t l

variable {μ : Nat}

theorem UInvM.len {t : Tree K V A} {l : List (K × V)} (h : UInvM μ t l) : t.len = l.length := by
  obtain ⟨H, g, w, rfl⟩ := h.ghost
  exact w.len

theorem UInvM.reads {t : Tree K V A} {l : List (K × V)} (h : UInvM μ t l) :
    ∃ L, Reads0 t L ∧ L.flatMap (·.2) = l ∧
      ∀ o : Answers K, ∃ LA x LB, L = LA ++ x :: LB ∧ findDescendLeafU o t.store t.root = .ok x.1 := by
  obtain ⟨H, g, w, rfl⟩ := h.ghost
  exact ⟨g.leaves, w.reads, rfl, fun o => findDescendLeafU_ok w o⟩

theorem getU_ok {t : Tree K V A} {l : List (K × V)} (h : UInvM μ t l) (o : Answers K) :
    ∃ r t', t.getU o = .ok (r, t') ∧ UInvM μ t' l ∧ Effect .get (.value r) l l := by
  obtain ⟨H, g, w, rfl⟩ := h.ghost
  have f := w.flat
  obtain ⟨r, hr, hi⟩ := tryCacheU_ok f o
  unfold Tree.getU
  rw [hr]
  cases r with
  | some i =>
    obtain ⟨LA, x, LB, hL, rfl⟩ := hi i rfl
    rcases findInLeafU_ok f hL o with h1 | ⟨k, v, hm, h1⟩
    · exact ⟨none, t, by simp only [ok_bind, h1, pure_ok], h, .notGot⟩
    · exact ⟨some v, t, by simp only [ok_bind, h1, pure_ok], h, .got hm⟩
  | none =>
    obtain ⟨LA, x, LB, hL, hf⟩ := findDescendLeafU_ok w o
    have w' := w.cached (some x.1)
    have h' : UInvM μ { t with store := { t.store with cached := some x.1 } } g.toL :=
      ⟨⟨H, g, w', rfl⟩, h.lt, h.le⟩
    rcases findInLeafU_ok w'.flat hL o with h1 | ⟨k, v, hm, h1⟩
    · exact ⟨none, _, by simp only [ok_bind, hf, Store.cacheLeaf, h1, pure_ok], h', .notGot⟩
    · exact ⟨some v, _, by simp only [ok_bind, hf, Store.cacheLeaf, h1, pure_ok], h', .got hm⟩

theorem updateInLeafU_ok {t : Tree K V A} {l : List (K × V)} {H : Nat} {g : T K V A H}
    (w : WF0 μ t g) (hlt : t.len < 2 ^ 64) (hμ : μ ≤ 16) (hl : g.toL = l) {LA LB : List (Nat × List (K × V))} {x}
    (hL : g.leaves = LA ++ x :: LB) (o : Answers K) (f : V → V) :
    ∃ r s l', updateInLeafU o t.store x.1 f = .ok (r, s) ∧ UInvM μ { t with store := s } l' ∧
      Effect (.getMut f) (.value r) l l' := by
  unfold updateInLeafU
  rw [w.flat.get hL]
  simp only [ok_bind]
  obtain ⟨i, d⟩ := x
  rcases locateSlotU_cases o d (lstId none LA) (hdId LB none) with ⟨a, kv, b, rfl, h1⟩ | ⟨a, b, rfl, h1⟩
  · obtain ⟨k, v⟩ := kv
    obtain ⟨g', w', -, h2, -⟩ := setValue_ok0 (v' := f v) w hL
    refine ⟨some v, t.store.setLeaf i ⟨a ++ (k, f v) :: b, lstId none LA, hdId LB none⟩,
      LA.flatMap (·.2) ++ (a ++ (k, f v) :: b) ++ LB.flatMap (·.2), ?_, ⟨⟨H, g', w', h2⟩, hlt, hμ⟩, ?_⟩
    · simp only [h1, ok_bind, Leaf.dataAt, readAt_mid, pure_ok]
      simp
    · have e : l = (LA.flatMap (·.2) ++ a) ++ (k, v) :: (b ++ LB.flatMap (·.2)) := by
        rw [← hl, T.toL, hL]; simp
      have e' : LA.flatMap (·.2) ++ (a ++ (k, f v) :: b) ++ LB.flatMap (·.2)
          = (LA.flatMap (·.2) ++ a) ++ (k, f v) :: (b ++ LB.flatMap (·.2)) := by simp
      rw [e, e']
      exact .changed
  · exact ⟨none, t.store, l, by simp only [h1, ok_bind, pure_ok], ⟨⟨H, g, w, hl⟩, hlt, hμ⟩, .notChanged⟩

theorem getMutU_ok {t : Tree K V A} {l : List (K × V)} (h : UInvM μ t l) (o : Answers K) (f : V → V) :
    ∃ r t' l', t.getMutU o f = .ok (r, t') ∧ UInvM μ t' l' ∧ Effect (.getMut f) (.value r) l l' := by
  obtain ⟨H, g, w, hl⟩ := h.ghost
  obtain ⟨r, hr, hi⟩ := tryCacheU_ok w.flat o
  unfold Tree.getMutU
  rw [hr]
  cases r with
  | some i =>
    obtain ⟨LA, x, LB, hL, rfl⟩ := hi i rfl
    obtain ⟨r, s, l', h1, h2, h3⟩ := updateInLeafU_ok w h.lt h.le hl hL o f
    exact ⟨r, _, l', by simp only [ok_bind, h1, pure_ok], h2, h3⟩
  | none =>
    obtain ⟨LA, x, LB, hL, hf⟩ := findDescendLeafU_ok w o
    have w' := w.cached (some x.1)
    obtain ⟨r, s, l', h1, h2, h3⟩ := updateInLeafU_ok w' h.lt h.le hl hL o f
    exact ⟨r, _, l', by simp only [ok_bind, hf, Store.cacheLeaf, h1, pure_ok], h2, h3⟩

theorem descendInsertU_eq [Augmentation K V A] (o : Answers K) (s : Store K V A) (root : NodeId)
    (k : K) (v : V) : descendInsertU o s root k v = (do
      let (stack, leafId) ← descendLeaf s (stackStepU o) [] root
      let (s, r) ← insertLeafU o s leafId k v
      insertAscend s stack r) := by
  cases root with
  | inner i => rfl
  | leaf i =>
    simp only [descendInsertU, descendLeaf, Store.fuel, descend, ok_bind, pure_ok]
    cases insertLeafU o s i k v with
    | error e => rfl
    | ok p => cases p; rfl

section Aug
variable [Augmentation K V A]

theorem insertU_ok {t : Tree K V A} {l : List (K × V)} (h : UInvM μ t l) (hl1 : t.len + 1 < 2 ^ 64)
    (o : Answers K) (k : K) (v : V) :
    ∃ r t' l', t.insertU o k v = .ok (r, t') ∧ UInvM μ t' l' ∧ Effect (.insert k v) (.value r) l l' := by
  obtain ⟨H, g, w, hl⟩ := h.ghost
  obtain ⟨c, x, hp, hlen, hdesc⟩ := descend_stackU w (w.depth h.lt) o
  obtain ⟨hcS, hxS⟩ := Ctx.shape_plug.1 ⟨hp ▸ w.shape, hlen⟩
  have hleaves : g.leaves = c.lvL ++ (x.id, x.data) :: c.lvR := by
    rw [← hp, Ctx.leaves_plug]; simp [T.leaves]
  have htoL : l = c.lvL.flatMap (·.2) ++ x.data ++ c.lvR.flatMap (·.2) := by
    rw [← hl]; simp [T.toL, hleaves]
  obtain ⟨slot, hslot, hin⟩ := locateSlotU_ok o ⟨x.data, lstId none c.lvL, hdId c.lvR none⟩
  obtain ⟨s1, r, u, hins, li⟩ := insertLeafAt_ok (s := t.store) (LA := c.lvL) (LB := c.lvR) (id := x.id)
    (d := x.data) (hleaves ▸ w.seg) (hleaves ▸ w.lnodup) (hleaves ▸ w.live) hxS.2 hin k v
  obtain ⟨t', H', g', hrun, hw, -, hlvs, -⟩ := insert_core h.le w hp hlen li
  have hget := w.flat.get hleaves
  have hinsU : insertLeafU o t.store x.id k v = .ok (s1, r) := by
    unfold insertLeafU
    simp only at hget
    rw [hget]
    simp only [ok_bind, hslot, hins]
  have hto : g'.toL = c.lvL.flatMap (·.2) ++ u.leaves.flatMap (·.2) ++ c.lvR.flatMap (·.2) := by
    rw [T.toL, hlvs]; simp
  have heff : Effect (.insert k v) (.value r.kind) l g'.toL := by
    rw [hto, htoL]
    rcases li.cases with ⟨a, k0, v0, b, e, -, rfl, rfl⟩ | ⟨a, b, e, -, -, rfl, rfl⟩ |
      ⟨a, b, i, d1, m, w', d2, e, -, h3, h4, h5, h6, h7, rfl, rfl⟩
    · rw [e]
      have e1 : c.lvL.flatMap (·.2) ++ (a ++ (k0, v0) :: b) ++ c.lvR.flatMap (·.2)
        = (c.lvL.flatMap (·.2) ++ a) ++ (k0, v0) :: (b ++ c.lvR.flatMap (·.2)) := by simp
      have e2 : c.lvL.flatMap (·.2) ++ ((Up.one (⟨x.id, a ++ (k0, v) :: b⟩ : GLeaf K V)
          : Up K V A 0).leaves.flatMap (·.2)) ++ c.lvR.flatMap (·.2)
        = (c.lvL.flatMap (·.2) ++ a) ++ (k0, v) :: (b ++ c.lvR.flatMap (·.2)) := by
          simp [Up.leaves, T.leaves]
      rw [e1, e2]
      exact .updated
    · rw [e]
      have e1 : c.lvL.flatMap (·.2) ++ (a ++ b) ++ c.lvR.flatMap (·.2)
        = (c.lvL.flatMap (·.2) ++ a) ++ (b ++ c.lvR.flatMap (·.2)) := by simp
      have e2 : c.lvL.flatMap (·.2) ++ ((Up.one (⟨x.id, a ++ (k, v) :: b⟩ : GLeaf K V)
          : Up K V A 0).leaves.flatMap (·.2)) ++ c.lvR.flatMap (·.2)
        = (c.lvL.flatMap (·.2) ++ a) ++ (k, v) :: (b ++ c.lvR.flatMap (·.2)) := by
          simp [Up.leaves, T.leaves]
      rw [e1, e2]
      exact .inserted
    · rw [e]
      have e1 : c.lvL.flatMap (·.2) ++ (a ++ b) ++ c.lvR.flatMap (·.2)
        = (c.lvL.flatMap (·.2) ++ a) ++ (b ++ c.lvR.flatMap (·.2)) := by simp
      have e2 : c.lvL.flatMap (·.2) ++ ((Up.two (⟨x.id, d1⟩ : GLeaf K V) m ⟨i, (m, w') :: d2⟩
          : Up K V A 0).leaves.flatMap (·.2)) ++ c.lvR.flatMap (·.2)
        = (c.lvL.flatMap (·.2) ++ a) ++ (k, v) :: (b ++ c.lvR.flatMap (·.2)) := by
          have : d1 ++ (m, w') :: (d2 ++ c.lvR.flatMap (·.2)) = a ++ (k, v) :: (b ++ c.lvR.flatMap (·.2)) := by
            have := congrArg (· ++ c.lvR.flatMap (·.2)) h3
            simpa using this
          simp [Up.leaves, T.leaves, this]
      rw [e1, e2]
      exact .inserted
  refine ⟨r.kind, t', g'.toL, ?_, ⟨⟨H', g', hw, rfl⟩, ?_, h.le⟩, heff⟩
  · unfold Tree.insertU
    rw [descendInsertU_eq, hdesc]
    simp only [ok_bind, hinsU]
    exact hrun
  · rw [hw.len]
    have hlen' : g'.toL.length ≤ l.length + 1 := by
      generalize g'.toL = l' at heff
      generalize r.kind = rr at heff
      cases heff <;> simp <;> omega
    have : t.len = l.length := h.len
    omega

theorem removeImplU_or {t : Tree K V A} {l : List (K × V)} (h : UInvM μ t l) (o : Answers K) :
    (∃ r t' l', t.removeImplU o = .ok (r, t') ∧ UInvM μ t' l' ∧
      Effect .remove (.value (r.map (·.2))) l l') ∨
    (μ = 0 ∧ t.removeImplU o = .error .panic ∧
      (t.removeImplUR o = .error .panic ∨ t.removeImplUR o = .error .ub)) := by
  obtain ⟨H, g, w, hl⟩ := h.ghost
  obtain ⟨c, x, hp, hlen, hdesc⟩ := descend_stackU w (w.depth h.lt) o
  have hleaves : g.leaves = c.lvL ++ (x.id, x.data) :: c.lvR := by
    rw [← hp, Ctx.leaves_plug]; simp [T.leaves]
  have hget := w.flat.get hleaves
  unfold Tree.removeImplU Tree.removeImplUR Tree.keyToRefU
  rw [hdesc]
  simp only [ok_bind]
  simp only at hget
  rw [hget]
  obtain ⟨i, d⟩ := x
  rcases locateSlotU_cases o d (lstId none c.lvL) (hdId c.lvR none) with ⟨a, kv, b, rfl, h1⟩ | ⟨a, b, rfl, h1⟩
  · obtain ⟨inst, -⟩ := exists_wellFoundedLT K
    rcases removeByRef_ok0 h.le w hp hlen with ⟨t', H', g', r1, r2, -, r4, -⟩ | ⟨r0, r1, r2⟩
    · have heff : Effect .remove (.value (some kv.2)) l g'.toL := by
        have e1 : l = (c.lvL.flatMap (·.2) ++ a) ++ kv :: (b ++ c.lvR.flatMap (·.2)) := by
          rw [← hl, T.toL, hleaves]; simp
        have e2 : g'.toL = (c.lvL.flatMap (·.2) ++ a) ++ (b ++ c.lvR.flatMap (·.2)) := by
          rw [r4]; simp
        rw [e1, e2]
        exact .removed
      refine .inl ⟨some kv, t', g'.toL, ?_, ⟨⟨H', g', r2, rfl⟩, ?_, h.le⟩, heff⟩
      · simp only [ok_bind, h1, pure_ok]
        rw [r1]; rfl
      · rw [r2.len]
        have hlt := h.lt
        rw [h.len] at hlt
        have : g'.toL.length ≤ l.length := by
          generalize g'.toL = l' at heff
          cases heff; simp
        omega
    · refine .inr ⟨r0, ?_, ?_⟩
      · simp only [ok_bind, h1, pure_ok]
        rw [r1]; rfl
      · simp only [ok_bind, h1, pure_ok]
        rw [r2]
        split
        · exact .inl rfl
        · exact .inr rfl
  · refine .inl ⟨none, t, l, ?_, h, .notRemoved⟩
    simp only [ok_bind, h1, pure_ok]

theorem removeImplU_ok {t : Tree K V A} {l : List (K × V)} (h : UInvM μ t l) (o : Answers K)
    (h0 : μ ≠ 0 := by omega) :
    ∃ r t' l', t.removeImplU o = .ok (r, t') ∧ UInvM μ t' l' ∧
      Effect .remove (.value (r.map (·.2))) l l' := by
  rcases removeImplU_or h o with h1 | h1
  · exact h1
  · exact absurd h1.1 h0

end Aug

/-! ## Cursors -/

theorem locateLeafU_ok {t : Tree K V A} {l : List (K × V)} (h : UInvM μ t l) (o : Answers K)
    (c : Cursor K) : ∃ L LA x LB, Reads0 t L ∧ L.flatMap (·.2) = l ∧ L = LA ++ x :: LB ∧
      c.locateLeafU o t = .ok (x.1, ⟨x.2, lstId none LA, hdId LB none⟩) := by
  obtain ⟨L, r, hl, hf⟩ := h.reads
  have hmiss : ∃ LA x LB, L = LA ++ x :: LB ∧
      (do
        let leafId ← (do
          match ← t.store.tryCacheU o with
          | some leafId => return leafId
          | none => findDescendLeafU o t.store t.root : Res Nat)
        let leaf ← t.store.getLeaf leafId
        return (leafId, leaf) : Res (Nat × Leaf K V))
        = .ok (x.1, ⟨x.2, lstId none LA, hdId LB none⟩) := by
    obtain ⟨q, hq, hi⟩ := tryCacheU_ok r.flat o
    cases q with
    | some i =>
      obtain ⟨LA, x, LB, hL, rfl⟩ := hi i rfl
      exact ⟨LA, x, LB, hL, by simp only [hq, ok_bind, pure_ok, r.flat.get hL]⟩
    | none =>
      obtain ⟨LA, x, LB, hL, h1⟩ := hf o
      exact ⟨LA, x, LB, hL, by simp only [hq, ok_bind, h1, pure_ok, r.flat.get hL]⟩
  unfold Cursor.locateLeafU
  cases hg : t.store.tryGetLeaf c.leafIdHint with
  | none =>
    obtain ⟨LA, x, LB, hL, h1⟩ := hmiss
    exact ⟨L, LA, x, LB, r, hl, hL, h1⟩
  | some leaf =>
    obtain ⟨LA, x, LB, hL, hx, rfl⟩ := r.flat.tryGet hg
    obtain ⟨b, hb⟩ := inRangeU_ok r.flat hL o 2
    cases b with
    | true =>
      refine ⟨L, LA, x, LB, r, hl, hL, ?_⟩
      simp only [hb, ok_bind, pure_ok, if_true, hx]
    | false =>
      obtain ⟨LA', x', LB', hL', h1⟩ := hmiss
      refine ⟨L, LA', x', LB', r, hl, hL', ?_⟩
      simp only [hb, ok_bind, pure_ok, Bool.false_eq_true, if_false]
      exact h1

theorem mem_flat {L LA LB : List (Nat × List (K × V))} {x : Nat × List (K × V)} {e : K × V}
    (hL : L = LA ++ x :: LB) (he : e ∈ x.2) : e ∈ L.flatMap (·.2) := by
  rw [hL]; simp only [List.flatMap_append, List.flatMap_cons, List.mem_append]
  exact .inr (.inl he)

theorem hintHitsU_lt {o : Answers K} {c : Cursor K} {leaf : Leaf K V}
    (h : c.hintHitsU o leaf = true) : c.offsetHint < leaf.data.length := by
  unfold Cursor.hintHitsU Leaf.tryDataAt at h
  cases hx : leaf.data[c.offsetHint]? with
  | none => simp [hx] at h
  | some e => exact (List.getElem?_eq_some_iff.1 hx).1

theorem forwardFrom_ok {t : Tree K V A} {L LA LB : List (Nat × List (K × V))} {x} {n : Nat}
    (r : Reads0 t L) (hL : L = LA ++ x :: LB) (hn : n ≤ x.2.length) :
    ∃ q, forwardFrom t x.1 ⟨x.2, lstId none LA, hdId LB none⟩ n = .ok q ∧
      ∀ e ∈ q.map (fun p => (p.1.k, p.2)), e ∈ L.flatMap (·.2) := by
  obtain ⟨i, d⟩ := x
  have hL' : L = LA ++ (i, d.take n ++ d.drop n) :: LB := by
    rw [List.take_append_drop]; exact hL
  obtain ⟨q, h1, h2⟩ := cursor_forward r hL'
  refine ⟨q, ?_, ?_⟩
  · rw [List.take_append_drop, List.length_take, Nat.min_eq_left hn] at h1
    exact h1
  · rw [h2]
    intro e he
    have := List.mem_of_mem_head? he
    rw [hL']
    simp only [List.flatMap_append, List.flatMap_cons, List.mem_append] at this ⊢
    rcases this with h | h
    · exact .inr (.inl (.inr h))
    · exact .inr (.inr h)

theorem nextWithValueU_ok {t : Tree K V A} {l : List (K × V)} (h : UInvM μ t l) (o : Answers K)
    (c : Cursor K) : ∃ q, c.nextWithValueU o t = .ok q ∧
      Effect (.cursorNext c) (.entry (q.map (fun p => (p.1.k, p.2)))) l l := by
  obtain ⟨L, LA, x, LB, r, rfl, hL, hl⟩ := locateLeafU_ok h o c
  have hoff : ∃ n, c.nextOffsetU o (⟨x.2, lstId none LA, hdId LB none⟩ : Leaf K V) = .ok n ∧
      n ≤ x.2.length := by
    unfold Cursor.nextOffsetU
    split
    · next hh => exact ⟨_, rfl, hintHitsU_lt hh⟩
    · rcases lswvU_cases o x.2 (lstId none LA) (hdId LB none) with ⟨a, kv, b, h, h1⟩ | ⟨a, b, h, h1⟩
      · exact ⟨a.length + 1, by simp only [h1, ok_bind, pure_ok], by rw [h]; simp⟩
      · exact ⟨a.length, by simp only [h1, ok_bind, pure_ok], by rw [h]; simp⟩
  obtain ⟨n, h1, h2⟩ := hoff
  obtain ⟨q, h3, h4⟩ := forwardFrom_ok r hL h2
  refine ⟨q, ?_, ?_⟩
  · unfold Cursor.nextWithValueU
    simp only [hl, ok_bind, h1, h3]
  · cases q with
    | none => exact .noNext
    | some p => exact .next (h4 _ (by simp))

theorem prevWithValueU_ok {t : Tree K V A} {l : List (K × V)} (h : UInvM μ t l) (o : Answers K)
    (c : Cursor K) : ∃ q, c.prevWithValueU o t = .ok q ∧
      Effect (.cursorPrev c) (.entry (q.map (fun p => (p.1.k, p.2)))) l l := by
  obtain ⟨L, LA, x, LB, r, rfl, hL, hl⟩ := locateLeafU_ok h o c
  have hback : ∃ q, (do
      match ← prevLeafEnd t ⟨x.2, lstId none LA, hdId LB none⟩ with
      | none => return none
      | some (offset, leaf) =>
        let kv ← leaf.dataAt offset
        return some (⟨kv.1, x.1, offset⟩, kv.2) : Res (Option (Cursor K × V))) = .ok q ∧
      Effect (.cursorPrev c) (.entry (q.map (fun p => (p.1.k, p.2)))) (L.flatMap (·.2))
        (L.flatMap (·.2)) := by
    rcases prevLeafEnd_ok r hL with ⟨-, h1⟩ | ⟨LA', y, d, e, p, n, h0, hd, h1⟩
    · exact ⟨none, by simp only [h1, ok_bind, pure_ok], .noPrev⟩
    · refine ⟨some (⟨e.1, x.1, d.length⟩, e.2), ?_, .prev ?_⟩
      · simp only [h1, ok_bind, Leaf.dataAt, readAt_mid, pure_ok]
      · refine mem_flat (LA := LA') (x := y) (LB := x :: LB) (by rw [hL, h0]; simp) ?_
        rw [hd]; simp
  have hhere : ∀ n, 0 < n → n ≤ x.2.length → ∃ q, (do
      let kv ← (⟨x.2, lstId none LA, hdId LB none⟩ : Leaf K V).dataAt (n - 1)
      return some (⟨kv.1, x.1, n - 1⟩, kv.2) : Res (Option (Cursor K × V))) = .ok q ∧
      Effect (.cursorPrev c) (.entry (q.map (fun p => (p.1.k, p.2)))) (L.flatMap (·.2))
        (L.flatMap (·.2)) := by
    intro n h0 h1
    have hlt : n - 1 < x.2.length := by omega
    refine ⟨some (⟨x.2[n - 1].1, x.1, n - 1⟩, x.2[n - 1].2), ?_, .prev ?_⟩
    · simp only [Leaf.dataAt, readAt_lt hlt, ok_bind, pure_ok]
    · exact mem_flat hL (List.getElem_mem hlt)
  unfold Cursor.prevWithValueU Cursor.prevPosU
  simp only [hl, ok_bind]
  split
  · next hh =>
    split
    · next h0 =>
      simp only [ok_bind, pure_ok]
      exact hhere _ h0 (Nat.le_of_lt (hintHitsU_lt hh))
    · exact hback
  · rcases locateSlotU_cases o x.2 (lstId none LA) (hdId LB none) with ⟨a, kv, b, h, h1⟩ | ⟨a, b, h, h1⟩
    · simp only [h1, ok_bind, pure_ok]
      split
      · next h0 =>
        simp only [ok_bind]
        exact hhere _ h0 (by rw [h]; simp)
      · exact hback
    · simp only [h1, ok_bind, pure_ok]
      split
      · next h0 =>
        simp only [ok_bind]
        exact hhere _ h0 (by rw [h]; simp)
      · exact hback

theorem valueU_ok {t : Tree K V A} {l : List (K × V)} (h : UInvM μ t l) (o : Answers K)
    (c : Cursor K) : ∃ q, c.valueU o t = .ok q ∧ Effect (.cursorValue c) (.value q) l l := by
  obtain ⟨L, LA, x, LB, r, rfl, hL, hl⟩ := locateLeafU_ok h o c
  have hs : ∃ q, (do
      let (_, v) ← (⟨x.2, lstId none LA, hdId LB none⟩ : Leaf K V).locateSlotWithValueU o
      return v : Res (Option V)) = .ok q ∧
      Effect (.cursorValue c) (.value q) (L.flatMap (·.2)) (L.flatMap (·.2)) := by
    rcases lswvU_cases o x.2 (lstId none LA) (hdId LB none) with ⟨a, kv, b, h, h1⟩ | ⟨a, b, h, h1⟩
    · refine ⟨some kv.2, by simp only [h1, ok_bind, pure_ok], .value (k := kv.1) ?_⟩
      exact mem_flat hL (by rw [h]; simp)
    · exact ⟨none, by simp only [h1, ok_bind, pure_ok], .noValue⟩
  unfold Cursor.valueU
  simp only [hl, ok_bind]
  split
  · next kv hx hh =>
    refine ⟨some kv.2, rfl, .value (k := kv.1) ?_⟩
    exact mem_flat hL (List.mem_of_getElem? hx)
  · exact hs

theorem getCursorU_ok {t : Tree K V A} {l : List (K × V)} (h : UInvM μ t l) (o : Answers K) (k : K) :
    ∃ (c : Cursor K) (v : Option V), t.getCursorU o k = .ok (some (c, v)) ∧
      Effect (.getCursor k) (.keyValue c.k v) l l := by
  obtain ⟨L, r, rfl, hf⟩ := h.reads
  obtain ⟨LA, x, LB, hL, h0⟩ := hf o
  unfold Tree.getCursorU
  simp only [h0, ok_bind, r.flat.get hL]
  rcases lswvU_cases o x.2 (lstId none LA) (hdId LB none) with ⟨a, kv, b, h, h1⟩ | ⟨a, b, h, h1⟩
  · refine ⟨⟨k, x.1, a.length⟩, some kv.2, by simp only [h1, ok_bind, pure_ok], .cursor (k0 := kv.1) ?_⟩
    exact mem_flat hL (by rw [h]; simp)
  · exact ⟨⟨k, x.1, a.length⟩, none, by simp only [h1, ok_bind, pure_ok], .noCursor⟩

/-! ## Histories -/

section Aug
variable [Augmentation K V A]

theorem UInvM.new (hμ : μ ≤ 16) : UInvM μ (Tree.new : Tree K V A) [] := by
  obtain ⟨inst, -⟩ := exists_wellFoundedLT K
  obtain ⟨H, g, w, h1, h2⟩ := (Inv.new : Inv μ (Tree.new : Tree K V A) [])
  exact ⟨⟨H, g, w.base, h1⟩, h2, hμ⟩

theorem UInv.new : UInv (Tree.new : Tree K V A) [] := UInvM.new le_rfl

theorem ucall_or {t : Tree K V A} {l : List (K × V)} (h : UInvM μ t l) (hl : t.len + 1 < 2 ^ 64)
    (o : Answers K) (c : UCall K V) :
    (∃ a t' l', t.ucall o c = .ok (a, t') ∧ UInvM μ t' l' ∧ Effect c a l l') ∨
    (μ = 0 ∧ c = .remove ∧ t.ucall o c = .error .panic) := by
  by_cases hc : c = .remove
  · subst hc
    rcases removeImplU_or h o with ⟨a, t', l', h1, h2, h3⟩ | ⟨h0, h1, -⟩
    · exact .inl ⟨_, t', l', by simp only [Tree.ucall, Tree.removeU, h1, ok_bind, pure_ok], h2, h3⟩
    · exact .inr ⟨h0, rfl, by simp only [Tree.ucall, Tree.removeU, h1]; rfl⟩
  left
  obtain ⟨L, r, e, -⟩ := h.reads
  cases c with
  | insert k v =>
    obtain ⟨a, t', l', h1, h2, h3⟩ := insertU_ok h hl o k v
    exact ⟨_, t', l', by simp only [Tree.ucall, h1, ok_bind, pure_ok], h2, h3⟩
  | remove => exact absurd rfl hc
  | get =>
    obtain ⟨a, t', h1, h2, h3⟩ := getU_ok h o
    exact ⟨_, t', l, by simp only [Tree.ucall, h1, ok_bind, pure_ok], h2, h3⟩
  | getMut f =>
    obtain ⟨a, t', l', h1, h2, h3⟩ := getMutU_ok h o f
    exact ⟨_, t', l', by simp only [Tree.ucall, h1, ok_bind, pure_ok], h2, h3⟩
  | first => exact ⟨_, t, l, by simp only [Tree.ucall, first_ok r, e, ok_bind, pure_ok], h, .first⟩
  | last => exact ⟨_, t, l, by simp only [Tree.ucall, last_ok r, e, ok_bind, pure_ok], h, .last⟩
  | len => exact ⟨_, t, l, by simp only [Tree.ucall, pure_ok, h.len], h, .len⟩
  | isEmpty =>
    refine ⟨.flag l.isEmpty, t, l, ?_, h, .isEmpty⟩
    simp only [Tree.ucall, pure_ok, Tree.isEmpty, h.len]
    cases l <;> simp
  | iter n =>
    obtain ⟨it, h1, _, h2⟩ := iter_runCalls_ok r (List.replicate n .front)
    exact ⟨_, t, l, by simp only [Tree.ucall, h1, h2, ok_bind, pure_ok, e, borrowed_front], h, .iter⟩
  | iterBack n =>
    obtain ⟨it, h1, _, h2⟩ := iter_runCalls_ok r (List.replicate n .back)
    exact ⟨_, t, l, by simp only [Tree.ucall, h1, h2, ok_bind, pure_ok, e, borrowed_back], h, .iterBack⟩
  | cursorNext c =>
    obtain ⟨q, h1, h2⟩ := nextWithValueU_ok h o c
    exact ⟨_, t, l, by simp only [Tree.ucall, h1, ok_bind, pure_ok], h, h2⟩
  | cursorPrev c =>
    obtain ⟨q, h1, h2⟩ := prevWithValueU_ok h o c
    exact ⟨_, t, l, by simp only [Tree.ucall, h1, ok_bind, pure_ok], h, h2⟩
  | cursorValue c =>
    obtain ⟨q, h1, h2⟩ := valueU_ok h o c
    exact ⟨_, t, l, by simp only [Tree.ucall, h1, ok_bind, pure_ok], h, h2⟩
  | getCursor k =>
    obtain ⟨c, v, h1, h2⟩ := getCursorU_ok h o k
    exact ⟨_, t, l, by simp only [Tree.ucall, h1, ok_bind, pure_ok], h, h2⟩
  | clear => exact ⟨_, Tree.new, [], rfl, UInvM.new h.le, .clear⟩

theorem ucall_ok {t : Tree K V A} {l : List (K × V)} (h : UInvM μ t l) (hl : t.len + 1 < 2 ^ 64)
    (o : Answers K) (c : UCall K V) (h0 : μ ≠ 0 := by omega) :
    ∃ a t' l', t.ucall o c = .ok (a, t') ∧ UInvM μ t' l' ∧ Effect c a l l' := by
  rcases ucall_or h hl o c with h1 | h1
  · exact h1
  · exact absurd h1.1 h0

omit [Augmentation K V A] in
theorem Effect.length_le {c : UCall K V} {a : Answer K V} {l l' : List (K × V)}
    (h : Effect c a l l') : l'.length ≤ l.length + 1 := by
  cases h <;> simp <;> omega

omit [Augmentation K V A] in
theorem Effects.length_le {cs : List (UCall K V)} {as : List (Answer K V)} {l l' : List (K × V)}
    (h : Effects cs as l l') : l'.length ≤ l.length + cs.length := by
  induction h with
  | nil => simp
  | cons h1 _ ih =>
    have := h1.length_le
    rw [List.length_cons]; omega

theorem urun_ok {t : Tree K V A} {l : List (K × V)} (h : UInvM μ t l)
    (cs : List (Answers K × UCall K V)) (hl : t.len + cs.length < 2 ^ 64) (h0 : μ ≠ 0 := by omega) :
    ∃ as t' l', t.urun cs = .ok (as, t') ∧ UInvM μ t' l' ∧ Effects (cs.map (·.2)) as l l' := by
  induction cs generalizing t l with
  | nil => exact ⟨[], t, l, rfl, h, .nil⟩
  | cons c cs ih =>
    obtain ⟨o, c⟩ := c
    rw [List.length_cons] at hl
    obtain ⟨a, t1, l1, h1, h2, h3⟩ := ucall_ok h (by omega) o c h0
    have := h3.length_le
    obtain ⟨as, t2, l2, h4, h5, h6⟩ := ih h2 (by rw [h2.len]; rw [h.len] at hl; omega)
    exact ⟨a :: as, t2, l2, by simp only [Tree.urun, h1, ok_bind, h4, pure_ok], h5, .cons h3 h6⟩

/-- With lone children about: the calls run as usual up to the first removal that panics. -/
theorem urun_or {t : Tree K V A} {l : List (K × V)} (h : UInvM μ t l)
    (cs : List (Answers K × UCall K V)) (hl : t.len + cs.length < 2 ^ 64) :
    (∃ as t' l', t.urun cs = .ok (as, t') ∧ UInvM μ t' l' ∧ Effects (cs.map (·.2)) as l l') ∨
    (μ = 0 ∧ ∃ cs1 o cs2 as t1 l1, cs = cs1 ++ (o, .remove) :: cs2 ∧ t.urun cs1 = .ok (as, t1) ∧
      UInvM μ t1 l1 ∧ Effects (cs1.map (·.2)) as l l1 ∧ t1.ucall o .remove = .error .panic ∧
      t.urun cs = .error .panic) := by
  induction cs generalizing t l with
  | nil => exact .inl ⟨[], t, l, rfl, h, .nil⟩
  | cons c cs ih =>
    obtain ⟨o, c⟩ := c
    rw [List.length_cons] at hl
    rcases ucall_or h (by omega) o c with ⟨a, t1, l1, h1, h2, h3⟩ | ⟨h0, rfl, h1⟩
    · have := h3.length_le
      rcases ih h2 (by rw [h2.len]; rw [h.len] at hl; omega) with
        ⟨as, t2, l2, h4, h5, h6⟩ | ⟨h0, cs1, o', cs2, as, t2, l2, rfl, h4, h5, h6, h7, h8⟩
      · exact .inl ⟨a :: as, t2, l2, by simp only [Tree.urun, h1, ok_bind, h4, pure_ok], h5, .cons h3 h6⟩
      · refine .inr ⟨h0, (o, c) :: cs1, o', cs2, a :: as, t2, l2, rfl, ?_, h5, .cons h3 h6, h7, ?_⟩
        · simp only [Tree.urun, h1, ok_bind, h4, pure_ok]
        · simp only [Tree.urun, h1, ok_bind, h8]; rfl
    · refine .inr ⟨h0, [], o, cs, [], t, l, rfl, rfl, h, .nil, h1, ?_⟩
      simp only [Tree.urun, h1]; rfl

theorem UInvM.contents {t : Tree K V A} {l : List (K × V)} (h : UInvM μ t l) : Contents t l := by
  obtain ⟨L, r, rfl, -⟩ := h.reads
  refine ⟨h.len, drop_ok r, fun ds => ?_⟩
  obtain ⟨it, it', h1, -, h2, h3⟩ := intoIter_ok r ds
  exact ⟨it, it', h1, h2, h3⟩

end Aug
end Bpt
