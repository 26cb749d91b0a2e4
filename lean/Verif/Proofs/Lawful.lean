import Verif.Proofs.Unordered
import Verif.Props.BinarySearch

/-!
# With the answers of a linear order, the two models agree
-/

namespace Bpt
variable {K V A : Type} [LinearOrder K]

/-! ## Searches -/

theorem halvingLoopU_lawful (keys : List K) (k : K) (n j base size : Nat) (hn : size ≤ n)
    (hb : base + size ≤ keys.length) (h0 : 1 ≤ size) :
    (do let r ← halvingLoopU (fun _ x => compare x k) keys n j base size; return r.2)
      = halvingLoop keys k base size := by
  induction n generalizing j base size with
  | zero => omega
  | succ n ih =>
    rw [halvingLoopU, halvingLoop]
    by_cases hs : 1 < size
    · have hlt : base + size / 2 < keys.length := by omega
      simp only [hs, if_true, readAt_lt hlt, probe_ok hlt, ok_bind, compare_gt_iff_gt]
      split
      · exact ih _ _ _ (by omega) (by omega) (by omega)
      · exact ih _ _ _ (by omega) (by omega) (by omega)
    · simp only [hs, if_false]; rfl

theorem halvingSearchU_lawful (keys : List K) (k : K) :
    halvingSearchU (fun _ x => compare x k) keys = halvingSearch keys k := by
  unfold halvingSearchU halvingSearch
  by_cases h0 : keys.length = 0
  · simp only [h0, if_true]
  · simp only [h0, if_false]
    have e := halvingLoopU_lawful keys k keys.length 0 0 keys.length (by omega) (by omega) (by omega)
    obtain ⟨j, b, h1, h2⟩ := halvingLoopU_ok (f := fun _ x => compare x k) (keys := keys) keys.length
      (j := 0) (base := 0) (size := keys.length) (by omega) (by omega) (by omega)
    rw [h1] at e
    rw [h1, ← e]
    simp only [ok_bind, pure_ok, readAt_lt h2, probe_ok h2]
    rcases lt_trichotomy keys[b] k with h | h | h
    · rw [compare_lt_iff_lt.2 h]; simp [h, h.ne]
    · rw [compare_eq_iff_eq.2 h]; simp [h]
    · rw [compare_gt_iff_gt.2 h]; simp [h.ne', h.not_gt]

theorem earlyLoopU_lawful (keys : List K) (k : K) (n j left right : Nat) (hn : right - left < n)
    (hb : right ≤ keys.length) :
    earlyLoopU (fun _ x => compare x k) keys n j left right = earlyLoop keys k left right := by
  induction n generalizing j left right with
  | zero => omega
  | succ n ih =>
    rw [earlyLoopU, earlyLoop]
    by_cases hs : left < right
    · have hlt : left + (right - left) / 2 < keys.length := by omega
      simp only [hs, if_true, readAt_lt hlt, probe_ok hlt, ok_bind]
      rcases lt_trichotomy keys[left + (right - left) / 2] k with h | h | h
      · rw [compare_lt_iff_lt.2 h]
        simp only [h, if_true]
        exact ih _ _ _ (by omega) (by omega)
      · rw [compare_eq_iff_eq.2 h]
        simp [h]
      · rw [compare_gt_iff_gt.2 h]
        simp only [h, if_true, h.not_gt, if_false]
        exact ih _ _ _ (by omega) (by omega)
    · simp only [hs, if_false]

theorem searchU_lawful {keys : List K} (hs : keys.Pairwise (· < ·)) (e : Bool) (k : K) :
    searchU e (fun _ x => compare x k) keys = .ok (bsearch keys k) := by
  obtain ⟨h1, h2⟩ := C38_node_search hs k
  unfold searchU
  cases e with
  | true => exact (earlyLoopU_lawful keys k _ 0 0 _ (by omega) (Nat.le_refl _)).trans h2
  | false => exact (halvingSearchU_lawful keys k).trans h1

theorem locateChildU_lawful {n : Inner K A} (hs : n.keys.Pairwise (· < ·)) (e : Bool) (k : K)
    (dep : Nat) : n.locateChildU (.ofOrder e k) dep = n.locateChild k := by
  have := searchU_lawful hs e k
  unfold Inner.locateChildU Inner.locateChild
  simp only [Answers.ofOrder, this, ok_bind]
  cases bsearch n.keys k <;> rfl

theorem locateSlotU_lawful {l : Leaf K V} (hs : l.keys.Pairwise (· < ·)) (e : Bool) (k : K) :
    l.locateSlotU (.ofOrder e k) = .ok (l.locateSlot k) := searchU_lawful hs e k

theorem lswvU_lawful {l : Leaf K V} (hs : l.keys.Pairwise (· < ·)) (e : Bool) (k : K) :
    l.locateSlotWithValueU (.ofOrder e k) = l.locateSlotWithValue k := by
  unfold Leaf.locateSlotWithValueU Leaf.locateSlotWithValue
  rw [locateSlotU_lawful hs]
  simp only [ok_bind]
  cases l.locateSlot k <;> rfl

theorem inRangeU_lawful (l : Leaf K V) (e : Bool) (k : K) :
    l.inRangeU (.ofOrder e k) 0 = l.inRange k ∧ l.inRangeU (.ofOrder e k) 2 = l.inRange k := by
  unfold Leaf.inRangeU Leaf.inRange
  constructor <;> rfl

theorem tryCacheU_lawful (s : Store K V A) (e : Bool) (k : K) :
    s.tryCacheU (.ofOrder e k) = s.tryCache k := by
  unfold Store.tryCacheU Store.tryCache Store.tryCacheAt
  simp only [(inRangeU_lawful _ e k).1]
  rfl

/-! ## Descents -/

omit [LinearOrder K] in
/-- Two descents that take the same steps. -/
theorem descend_sync {σ τ : Type} {H : Nat} {s : Store K V A}
    {step : σ → Nat → Inner K A → Res (Empty ⊕ (σ × NodeId))}
    {step' : τ → Nat → Inner K A → Res (Empty ⊕ (τ × NodeId))}
    (Inv : (h : Nat) → Ctx K V A h H → T K V A h → σ → τ → Prop)
    (hstep : ∀ (h : Nat) (c : Ctx K V A (h + 1) H) (x : GNode K A (T K V A h)) (st : σ) (st' : τ),
      Inv (h + 1) c x st st' →
      (∃ (f : Frame K A (T K V A h)) (y : T K V A h) (q : σ) (q' : τ), x = f.fill y ∧
        step st x.id x.inner = .ok (.inr (q, y.nid)) ∧
        step' st' x.id x.inner = .ok (.inr (q', y.nid)) ∧ Inv h (.cons f c) y q q')) :
    ∀ (h : Nat) (c : Ctx K V A h H) (x : T K V A h) (st : σ) (st' : τ) (fuel : Nat), h ≤ fuel →
      IMem s.inners x.nodes → Inv h c x st st' →
      (∃ (c0 : Ctx K V A 0 H) (x0 : GLeaf K V) (q : σ) (q' : τ),
        descend s step fuel st x.nid = .ok (.inr (q, x0.id)) ∧
        descend s step' fuel st' x.nid = .ok (.inr (q', x0.id)) ∧ Inv 0 c0 x0 q q') := by
  intro h
  induction h with
  | zero =>
    intro c x st st' fuel _ _ hi
    refine ⟨c, x, st, st', ?_, ?_, hi⟩ <;> cases fuel <;> rfl
  | succ h ih =>
    intro c x st st' fuel hf hm hi
    obtain ⟨fuel, rfl⟩ : ∃ n, fuel = n + 1 := ⟨fuel - 1, by omega⟩
    have hg : s.getInner (GNode.id x) = .ok (GNode.inner x) := hm.get nodes_head
    obtain ⟨f, y, q, q', hx, hs, hs', hi'⟩ := hstep h c x st st' hi
    subst hx
    have := ih (.cons f c) y q q' fuel (by omega) hm.kid hi'
    have e : descend s step (fuel + 1) st (T.nid (h := h + 1) (f.fill y))
        = descend s step fuel q y.nid := by
      rw [T.nid_succ, descend, hg]
      simp only [ok_bind, hs]
    have e' : descend s step' (fuel + 1) st' (T.nid (h := h + 1) (f.fill y))
        = descend s step' fuel q' y.nid := by
      rw [T.nid_succ, descend, hg]
      simp only [ok_bind, hs']
    rw [e, e']
    exact this

/-- A node met on the way down has increasing keys, and the search goes to a child. -/
theorem lawful_step {μ : Nat} {t : Tree K V A} {H : Nat} {g : T K V A H} (w : WF μ t g) (k : K)
    (e : Bool) {h : Nat} {c : Ctx K V A (h + 1) H} {x : GNode K A (T K V A h)}
    (hp : Ctx.plug c x = g) (hl : Located k g (h := h + 1) c x) (dep : Nat) :
    ∃ (f : Frame K A (T K V A h)) (y : T K V A h), x = f.fill y ∧ f.LenOK ∧
      x.inner.locateChild k = .ok (f.kidsL.length, y.nid) ∧
      x.inner.locateChildU (.ofOrder e k) dep = .ok (f.kidsL.length, y.nid) ∧
      Located k g (.cons f c) y := by
  obtain ⟨f, y, hx, h1, h2, h3⟩ := locate_step w hp hl
  refine ⟨f, y, hx, h1, h2, ?_, h3⟩
  have hs := (Ctx.shape_plug.1 ⟨hp ▸ w.shape, hl.lenOK⟩).2
  have ho : (c.plug x).inorder.Pairwise E.R := hp ▸ w.ord
  rw [Ctx.inorder_plug hl.lenOK, List.pairwise_append, List.pairwise_append] at ho
  have hk := keys_sorted (T.ShapeTop.lens hs).1 ho.1.2.1
  rw [← h2]
  exact locateChildU_lawful (n := x.inner) hk e k dep

theorem descend_stackU_lawful {μ : Nat} {t : Tree K V A} {H : Nat} {g : T K V A H} (w : WF μ t g)
    (hH : H ≤ maxDepth) (e : Bool) (k : K) :
    descendLeaf t.store (stackStepU (.ofOrder e k)) [] t.root
      = descendLeaf t.store (insertDescendStep k) [] t.root := by
  obtain ⟨c0, x0, q, q', h1, h2, rfl, -⟩ := descend_sync (s := t.store)
    (step := fun st i n => do let r ← stackStepU (.ofOrder e k) st i n; return .inr r)
    (step' := fun st i n => do let r ← insertDescendStep k st i n; return .inr r)
    (fun h c x st st' => st = st' ∧ c.plug x = g ∧ Located k g c x ∧ st = c.stack x.nid)
    (by
      rintro h c x st _ ⟨rfl, hp, hl, rfl⟩
      obtain ⟨f, y, rfl, h1, h2, h3, h4⟩ := lawful_step w k e hp hl (c.stack (T.nid (h := h + 1) x)).length
      have hlen : (c.stack (T.nid (h := h + 1) (f.fill y))).length < maxDepth := by
        have := c.le
        simp only [Ctx.stack_length]; omega
      refine ⟨f, y, _, _, rfl, ?_, ?_, rfl, hp, h4, rfl⟩
      · simp only [stackStepU, h3, ok_bind, pushStack, if_pos hlen, pure_ok]
        simp [Ctx.stack]
      · simp only [insertDescendStep, h2, ok_bind, pushStack, if_pos hlen, pure_ok]
        simp [Ctx.stack])
    H .nil g [] [] t.store.fuel w.base.height_le_fuel w.imem ⟨rfl, rfl, located_root, rfl⟩
  unfold descendLeaf
  rw [w.root, h1, h2]

theorem findDescendLeafU_lawful {μ : Nat} {t : Tree K V A} {H : Nat} {g : T K V A H}
    (w : WF μ t g) (e : Bool) (k : K) :
    findDescendLeafU (.ofOrder e k) t.store t.root = findDescendLeaf t.store t.root k := by
  obtain ⟨c0, x0, q, q', h1, h2, -⟩ := descend_sync (s := t.store)
    (step := fun st i n => do let r ← locateStepU (.ofOrder e k) st i n; return .inr r)
    (step' := fun st i n => do let r ← locateStep k st i n; return .inr r)
    (fun h c x st st' => c.plug x = g ∧ Located k g c x)
    (by
      rintro h c x st st' ⟨hp, hl⟩
      obtain ⟨f, y, rfl, h1, h2, h3, h4⟩ := lawful_step w k e hp hl st
      refine ⟨f, y, st + 1, (), rfl, ?_, ?_, hp, h4⟩
      · simp only [locateStepU, h3, ok_bind, pure_ok]
      · simp only [locateStep, h2, ok_bind, pure_ok])
    H .nil g 0 () t.store.fuel w.base.height_le_fuel w.imem ⟨rfl, located_root⟩
  unfold findDescendLeafU findDescendLeaf descendLeaf
  rw [w.root, h1, h2]
  rfl

/-! ## Leaves -/

theorem leaf_sorted {s : Store K V A} {L} (f : Flat s L) {i : Nat} {l : Leaf K V}
    (h : s.getLeaf i = .ok l) : l.keys.Pairwise (· < ·) := by
  have h' : s.tryGetLeaf i = some l := by
    unfold Store.getLeaf at h
    unfold Store.tryGetLeaf
    split at h
    · next h1 => cases h; rfl
    · cases h
  obtain ⟨LA, x, LB, hL, -, rfl⟩ := f.tryGet h'
  have := sorted_data f.sorted hL
  unfold Leaf.keys
  rw [List.pairwise_map]
  exact this

theorem findInLeafU_lawful {s : Store K V A} {L} (f : Flat s L) (i : Nat) (e : Bool) (k : K) :
    findInLeafU (.ofOrder e k) s i = findInLeaf s i k := by
  unfold findInLeafU findInLeaf
  cases h : s.getLeaf i with
  | error q => rfl
  | ok l => simp only [ok_bind, lswvU_lawful (leaf_sorted f h)]

theorem updateInLeafU_lawful {s : Store K V A} {L} (f : Flat s L) (i : Nat) (e : Bool) (k : K)
    (u : V → V) : updateInLeafU (.ofOrder e k) s i u = updateInLeaf s i k u := by
  unfold updateInLeafU updateInLeaf
  cases h : s.getLeaf i with
  | error q => rfl
  | ok l =>
    simp only [ok_bind, locateSlotU_lawful (leaf_sorted f h)]
    cases l.locateSlot k <;> rfl

theorem insertLeafU_lawful {s : Store K V A} {L} (f : Flat s L) (i : Nat) (e : Bool) (k : K) (v : V) :
    insertLeafU (.ofOrder e k) s i k v = insertLeaf s i k v := by
  rw [insertLeaf_eq]
  unfold insertLeafU
  cases h : s.getLeaf i with
  | error q => rfl
  | ok l => simp only [ok_bind, locateSlotU_lawful (leaf_sorted f h)]

/-! ## The operations -/

section
variable {μ : Nat} {t : Tree K V A} {H : Nat} {g : T K V A H}

theorem getU_lawful (w : WF μ t g) (e : Bool) (k : K) : t.getU (.ofOrder e k) = t.get k := by
  unfold Tree.getU Tree.get
  rw [tryCacheU_lawful]
  cases t.store.tryCache k with
  | error q => rfl
  | ok r =>
    cases r with
    | some i => simp only [ok_bind, findInLeafU_lawful w.flat]
    | none =>
      simp only [ok_bind, findDescendLeafU_lawful w]
      cases findDescendLeaf t.store t.root k with
      | error q => rfl
      | ok i => simp only [ok_bind, Store.cacheLeaf, findInLeafU_lawful (w.cached (some i)).flat]

theorem getMutU_lawful (w : WF μ t g) (e : Bool) (k : K) (u : V → V) :
    t.getMutU (.ofOrder e k) u = t.getMut k u := by
  unfold Tree.getMutU Tree.getMut
  rw [tryCacheU_lawful]
  cases t.store.tryCache k with
  | error q => rfl
  | ok r =>
    cases r with
    | some i => simp only [ok_bind, updateInLeafU_lawful w.flat]
    | none =>
      simp only [ok_bind, findDescendLeafU_lawful w]
      cases findDescendLeaf t.store t.root k with
      | error q => rfl
      | ok i => simp only [ok_bind, Store.cacheLeaf, updateInLeafU_lawful (w.cached (some i)).flat]

theorem locateLeafU_lawful (w : WF μ t g) (e : Bool) (c : Cursor K) :
    c.locateLeafU (.ofOrder e c.k) t = c.locateLeaf t := by
  unfold Cursor.locateLeafU Cursor.locateLeaf Tree.locateLeaf
  simp only [(inRangeU_lawful _ e c.k).2, tryCacheU_lawful, findDescendLeafU_lawful w]
  rfl

/-- The leaf a cursor goes to has increasing keys. -/
theorem locateLeaf_sorted (w : WF μ t g) {c : Cursor K} {p : Nat × Leaf K V}
    (h : c.locateLeaf t = .ok p) : p.2.keys.Pairwise (· < ·) := by
  obtain ⟨LA, x, LB, hc, hl⟩ := cursorLeaf_ok w.reads c
  rw [hl] at h
  cases h
  exact leaf_sorted w.flat (w.flat.get hc.eq)

theorem nextWithValueU_lawful (w : WF μ t g) (e : Bool) (c : Cursor K) :
    c.nextWithValueU (.ofOrder e c.k) t = c.nextWithValue t := by
  unfold Cursor.nextWithValueU Cursor.nextWithValue
  rw [locateLeafU_lawful w]
  cases h : c.locateLeaf t with
  | error q => rfl
  | ok p =>
    simp only [ok_bind, Cursor.nextOffsetU, Cursor.nextOffset, lswvU_lawful (locateLeaf_sorted w h)]
    rfl

theorem prevWithValueU_lawful (w : WF μ t g) (e : Bool) (c : Cursor K) :
    c.prevWithValueU (.ofOrder e c.k) t = c.prevWithValue t := by
  unfold Cursor.prevWithValueU Cursor.prevWithValue
  rw [locateLeafU_lawful w]
  cases h : c.locateLeaf t with
  | error q => rfl
  | ok p =>
    obtain ⟨i, l⟩ := p
    have e1 : c.prevPosU (.ofOrder e c.k) t l = c.prevPos t l := by
      unfold Cursor.prevPosU Cursor.prevPos
      rw [locateSlotU_lawful (locateLeaf_sorted w h)]
      have : c.hintHitsU (.ofOrder e c.k) l = c.hintHits l := rfl
      rw [this]
      cases l.locateSlot c.k <;> rfl
    simp only [ok_bind, e1]
    rfl

theorem valueU_lawful (w : WF μ t g) (e : Bool) (c : Cursor K) :
    c.valueU (.ofOrder e c.k) t = c.value t := by
  unfold Cursor.valueU Cursor.value
  rw [locateLeafU_lawful w]
  cases h : c.locateLeaf t with
  | error q => rfl
  | ok p =>
    obtain ⟨i, l⟩ := p
    have e1 : ∀ x, (Answers.ofOrder e c.k).eq x = decide (x = c.k) := fun _ => rfl
    simp only [ok_bind, lswvU_lawful (locateLeaf_sorted w h), Cursor.hintHitsU, e1]
    cases l.tryDataAt c.offsetHint with
    | none => rfl
    | some kv =>
      by_cases hk : kv.1 = c.k
      · simp [hk]
      · simp [hk]

theorem getCursorU_lawful (w : WF μ t g) (e : Bool) (k : K) :
    t.getCursorU (.ofOrder e k) k = t.getCursor k := by
  unfold Tree.getCursorU Tree.getCursor
  rw [findDescendLeafU_lawful w]
  cases findDescendLeaf t.store t.root k with
  | error q => rfl
  | ok i =>
    simp only [ok_bind]
    cases h : t.store.getLeaf i with
    | error q => rfl
    | ok l => simp only [ok_bind, lswvU_lawful (leaf_sorted w.flat h)]

theorem keyToRefU_lawful (w : WF μ t g) (hH : H ≤ maxDepth) (e : Bool) (k : K) :
    t.keyToRefU (.ofOrder e k) = t.keyToRef k := by
  unfold Tree.keyToRefU Tree.keyToRef
  rw [descend_stackU_lawful w hH]
  cases descendLeaf t.store (insertDescendStep k) [] t.root with
  | error q => rfl
  | ok p =>
    obtain ⟨st, i⟩ := p
    simp only [ok_bind]
    cases h : t.store.getLeaf i with
    | error q => rfl
    | ok l =>
      simp only [ok_bind, locateSlotU_lawful (leaf_sorted w.flat h)]
      cases l.locateSlot k <;> rfl

variable [Augmentation K V A]

theorem insertU_lawful (w : WF μ t g) (hH : H ≤ maxDepth) (e : Bool) (k : K) (v : V) :
    t.insertU (.ofOrder e k) k v = t.insert k v := by
  rw [insert_eq]
  unfold Tree.insertU
  rw [descendInsertU_eq, descendInsert_eq, descend_stackU_lawful w hH]
  cases descendLeaf t.store (insertDescendStep k) [] t.root with
  | error q => rfl
  | ok p => simp only [ok_bind, insertLeafU_lawful w.flat]

theorem removeU_lawful (w : WF μ t g) (hH : H ≤ maxDepth) (e : Bool) (k : K) :
    t.removeU (.ofOrder e k) = t.remove k := by
  unfold Tree.removeU Tree.remove Tree.removeImplU Tree.removeImpl
  rw [keyToRefU_lawful w hH]
  cases t.keyToRef k with
  | error q => rfl
  | ok r => cases r <;> rfl

theorem ucall_lawful (w : WF μ t g) (hH : H ≤ maxDepth) (e : Bool) (c : Call K V) :
    t.ucall (c.answers e) c.lawless = t.call c := by
  cases c with
  | insert k v => simp only [Tree.ucall, Tree.call, Call.lawless, Call.answers, insertU_lawful w hH]
  | remove k => simp only [Tree.ucall, Tree.call, Call.lawless, Call.answers, removeU_lawful w hH]
  | get k => simp only [Tree.ucall, Tree.call, Call.lawless, Call.answers, getU_lawful w]
  | getMut k f => simp only [Tree.ucall, Tree.call, Call.lawless, Call.answers, getMutU_lawful w]
  | cursorNext c =>
    simp only [Tree.ucall, Tree.call, Call.lawless, Call.answers, nextWithValueU_lawful w]
  | cursorPrev c =>
    simp only [Tree.ucall, Tree.call, Call.lawless, Call.answers, prevWithValueU_lawful w]
  | cursorValue c =>
    simp only [Tree.ucall, Tree.call, Call.lawless, Call.answers, valueU_lawful w]
  | getCursor k =>
    simp only [Tree.ucall, Tree.call, Call.lawless, Call.answers, getCursorU_lawful w]
    rfl
  | _ => rfl

end
end Bpt
