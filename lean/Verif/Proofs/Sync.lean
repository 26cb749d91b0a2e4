import Verif.SyncSpec
import Verif.Proofs.Start
import Verif.Proofs.Hom
import Verif.Proofs.Search

/-!
# Augmentations in histories with arbitrary comparisons
-/

namespace Bpt
variable {K V A : Type} [Augmentation K V A] {μ : Nat}

/-- The order-free invariant with every augmentation in place. -/
def SyncM (μ : Nat) (t : Tree K V A) : Prop := ∃ (H : Nat) (g : T K V A H), WF0 μ t g ∧ AugWF t g

theorem topAug_hom_any (hh : HomomorphicAny K V A) {μ : Nat} {h : Nat} {m : Nat} {r : Bool}
    {x : T K V A h} (hx : T.ShapeTop μ m r x) (ha : x.AugOK) : x.topAug = leafOf A x.toL := by
  induction h generalizing m r with
  | zero => simp [T.topAug, T.toL, T.leaves, leafOf]
  | succ h ih =>
    have h3 := (T.ShapeTop.lens hx).1
    rw [toL_succ, ← hh (GNode.keys x) _ (by simpa using h3) ?_]
    · simp only [T.topAug]
      rw [ha.1, List.map_map]
      congr 1
      apply List.map_congr_left
      intro c hc
      obtain ⟨m, r, hm⟩ := kid_shape' hx hc
      exact ih hm (ha.2 c hc)
    · intro p hp
      rw [List.mem_map] at hp
      obtain ⟨c, hc, rfl⟩ := hp
      exact kid_ne_nil hx hc

theorem SyncM.cached {t : Tree K V A} (h : SyncM μ t) (c : Option Nat) :
    SyncM μ { t with store := { t.store with cached := c } } := by
  obtain ⟨H, g, w, a⟩ := h
  exact ⟨H, g, w.cached c, a.ok, a.root⟩

theorem SyncM.new (hμ : μ ≤ 16) : SyncM μ (Tree.new : Tree K V A) := by
  obtain ⟨inst, -⟩ := exists_wellFoundedLT K
  obtain ⟨g, w, a, -⟩ := new_ok (K := K) (V := V) (A := A) μ
  exact ⟨0, g, w.base, a⟩

theorem insertU_sync {t t' : Tree K V A} (hμ : μ ≤ 16) (hlt : t.len < 2 ^ 64) (h : SyncM μ t)
    {o : Answers K} {k : K} {v : V} {q : Option V} (hr : t.insertU o k v = .ok (q, t')) :
    SyncM μ t' := by
  obtain ⟨H, g, w, ha⟩ := h
  obtain ⟨c, x, hp, hlen, hdesc⟩ := descend_stackU w (w.depth hlt) o
  obtain ⟨hcS, hxS⟩ := Ctx.shape_plug.1 ⟨hp ▸ w.shape, hlen⟩
  have hleaves : g.leaves = c.lvL ++ (x.id, x.data) :: c.lvR := by
    rw [← hp, Ctx.leaves_plug]; simp [T.leaves]
  obtain ⟨slot, hslot, hin⟩ := locateSlotU_ok o ⟨x.data, lstId none c.lvL, hdId c.lvR none⟩
  obtain ⟨s1, r, u, hins, li⟩ := insertLeafAt_ok (s := t.store) (LA := c.lvL) (LB := c.lvR) (id := x.id)
    (d := x.data) (hleaves ▸ w.seg) (hleaves ▸ w.lnodup) (hleaves ▸ w.live) hxS.2 hin k v
  obtain ⟨t1, H', g', hrun, hw, -, -, haug, -⟩ := insert_core hμ w hp hlen li
  have hget := w.flat.get hleaves
  have hinsU : insertLeafU o t.store x.id k v = .ok (s1, r) := by
    unfold insertLeafU
    simp only at hget
    rw [hget]
    simp only [ok_bind, hslot, hins]
  have e : t.insertU o k v = .ok (r.kind, t1) := by
    unfold Tree.insertU
    rw [descendInsertU_eq, hdesc]
    simp only [ok_bind, hinsU]
    exact hrun
  rw [hr] at e
  cases e
  exact ⟨H', g', hw, haug ha⟩

theorem removeImplU_sync {t t' : Tree K V A} (hμ : μ ≤ 16) (hlt : t.len < 2 ^ 64) (h : SyncM μ t)
    {o : Answers K} {q : Option (K × V)} (hr : t.removeImplU o = .ok (q, t')) : SyncM μ t' := by
  obtain ⟨H, g, w, ha⟩ := h
  obtain ⟨c, x, hp, hlen, hdesc⟩ := descend_stackU w (w.depth hlt) o
  have hleaves : g.leaves = c.lvL ++ (x.id, x.data) :: c.lvR := by
    rw [← hp, Ctx.leaves_plug]; simp [T.leaves]
  have hget := w.flat.get hleaves
  unfold Tree.removeImplU Tree.keyToRefU at hr
  rw [hdesc] at hr
  simp only [ok_bind] at hr
  simp only at hget
  rw [hget] at hr
  obtain ⟨i, d⟩ := x
  rcases locateSlotU_cases o d (lstId none c.lvL) (hdId c.lvR none) with ⟨a, kv, b, rfl, h1⟩ | ⟨a, b, rfl, h1⟩
  · obtain ⟨inst, -⟩ := exists_wellFoundedLT K
    simp only [ok_bind, h1, pure_ok] at hr
    rcases removeByRef_ok0 hμ w hp hlen with ⟨t1, H', g', r1, r2, -, -, r5, -⟩ | ⟨r0, r1, r2⟩
    · rw [r1] at hr
      cases hr
      exact ⟨H', g', r2, r5 ha⟩
    · rw [r1] at hr
      cases hr
  · simp only [ok_bind, h1, pure_ok] at hr
    cases hr
    exact ⟨H, g, w, ha⟩

theorem getU_sync {t t' : Tree K V A} (h : SyncM μ t) {o : Answers K} {q : Option V}
    (hr : t.getU o = .ok (q, t')) : SyncM μ t' := by
  unfold Tree.getU at hr
  obtain ⟨r, -, hr⟩ := bind_ok hr
  cases r with
  | some i =>
    obtain ⟨r, -, hr⟩ := bind_ok hr
    cases hr
    exact h
  | none =>
    obtain ⟨i, -, hr⟩ := bind_ok hr
    obtain ⟨r, -, hr⟩ := bind_ok hr
    cases hr
    exact h.cached _

theorem updateInLeafU_sync {t : Tree K V A} {H : Nat} {g : T K V A H} (hk : KeyOnly K V A)
    (w : WF0 μ t g) (ha : AugWF t g) {LA LB : List (Nat × List (K × V))} {x}
    (hL : g.leaves = LA ++ x :: LB) {o : Answers K} {f : V → V} {q : Option V} {s : Store K V A}
    (hr : updateInLeafU o t.store x.1 f = .ok (q, s)) : SyncM μ { t with store := s } := by
  unfold updateInLeafU at hr
  rw [w.flat.get hL] at hr
  simp only [ok_bind] at hr
  obtain ⟨i, d⟩ := x
  rcases locateSlotU_cases o d (lstId none LA) (hdId LB none) with ⟨a, kv, b, rfl, h1⟩ | ⟨a, b, rfl, h1⟩
  · obtain ⟨k, v⟩ := kv
    obtain ⟨g', w', -, h2, h3⟩ := setValue_ok0 (v' := f v) w hL
    simp only [h1, ok_bind, Leaf.dataAt, readAt_mid, pure_ok] at hr
    cases hr
    obtain ⟨h4, h5⟩ := h3 hk
    refine ⟨H, g', by simpa using w', h4 ha.ok, ?_⟩
    rcases ha.root with h6 | ⟨h6, -⟩
    · exact .inl (h6.trans h5.symm)
    · rw [T.toL, hL] at h6
      simp at h6
  · simp only [h1, ok_bind, pure_ok] at hr
    cases hr
    exact ⟨H, g, w, ha⟩

theorem getMutU_sync {t t' : Tree K V A} (hk : KeyOnly K V A) (h : SyncM μ t) {o : Answers K} {f : V → V}
    {q : Option V} (hr : t.getMutU o f = .ok (q, t')) : SyncM μ t' := by
  obtain ⟨H, g, w, ha⟩ := h
  obtain ⟨r, hr0, hi⟩ := tryCacheU_ok w.flat o
  unfold Tree.getMutU at hr
  rw [hr0] at hr
  simp only [ok_bind] at hr
  cases r with
  | some i =>
    obtain ⟨LA, x, LB, hL, rfl⟩ := hi i rfl
    obtain ⟨⟨q', s⟩, h1, hr⟩ := bind_ok hr
    cases hr
    exact updateInLeafU_sync hk w ha hL h1
  | none =>
    obtain ⟨LA, x, LB, hL, hf⟩ := findDescendLeafU_ok w o
    simp only [hf, ok_bind] at hr
    obtain ⟨⟨q', s⟩, h1, hr⟩ := bind_ok hr
    cases hr
    exact updateInLeafU_sync hk (w.cached (some x.1)) ⟨ha.ok, ha.root⟩ hL h1

theorem ucall_sync {t t' : Tree K V A} (hμ : μ ≤ 16) (hlt : t.len < 2 ^ 64) (h : SyncM μ t)
    {o : Answers K} {c : UCall K V} (hc : KeyOnly K V A ∨ c.keepsValues) {a : Answer K V}
    (hr : t.ucall o c = .ok (a, t')) : SyncM μ t' := by
  cases c with
  | insert k v =>
    obtain ⟨⟨r, t1⟩, h1, hr⟩ := bind_ok hr
    cases hr
    exact insertU_sync hμ hlt h h1
  | remove =>
    obtain ⟨⟨r, t1⟩, h1, hr⟩ := bind_ok hr
    cases hr
    obtain ⟨⟨r, t1⟩, h1, hr⟩ := bind_ok h1
    cases hr
    exact removeImplU_sync hμ hlt h h1
  | get =>
    obtain ⟨⟨r, t1⟩, h1, hr⟩ := bind_ok hr
    cases hr
    exact getU_sync h h1
  | getMut f =>
    obtain ⟨⟨r, t1⟩, h1, hr⟩ := bind_ok hr
    cases hr
    exact getMutU_sync (hc.resolve_right id) h h1
  | first => obtain ⟨_, h1, hr⟩ := bind_ok hr; cases hr; exact h
  | last => obtain ⟨_, h1, hr⟩ := bind_ok hr; cases hr; exact h
  | len => cases hr; exact h
  | isEmpty => cases hr; exact h
  | iter n =>
    obtain ⟨_, h1, hr⟩ := bind_ok hr
    obtain ⟨_, h1, hr⟩ := bind_ok hr
    cases hr; exact h
  | iterBack n =>
    obtain ⟨_, h1, hr⟩ := bind_ok hr
    obtain ⟨_, h1, hr⟩ := bind_ok hr
    cases hr; exact h
  | cursorNext c => obtain ⟨_, h1, hr⟩ := bind_ok hr; cases hr; exact h
  | cursorPrev c => obtain ⟨_, h1, hr⟩ := bind_ok hr; cases hr; exact h
  | cursorValue c => obtain ⟨_, h1, hr⟩ := bind_ok hr; cases hr; exact h
  | getCursor k =>
    obtain ⟨r, h1, hr⟩ := bind_ok hr
    cases r <;> (cases hr; exact h)
  | clear => cases hr; exact SyncM.new hμ

theorem urun_sync {t t' : Tree K V A} {l : List (K × V)} (h : UInvM 1 t l) (hs : SyncM 1 t)
    {cs : List (Answers K × UCall K V)} (hl : t.len + cs.length < 2 ^ 64)
    (hc : KeyOnly K V A ∨ ∀ c ∈ cs, c.2.keepsValues) {as : List (Answer K V)}
    (hr : t.urun cs = .ok (as, t')) : SyncM 1 t' := by
  induction cs generalizing t l as with
  | nil => cases hr; exact hs
  | cons c cs ih =>
    obtain ⟨o, c⟩ := c
    rw [List.length_cons] at hl
    obtain ⟨a, t1, l1, h1, h2, h3⟩ := ucall_ok h (by omega) o c
    have := h3.length_le
    simp only [Tree.urun, h1, ok_bind] at hr
    obtain ⟨⟨as', t2⟩, h4, hr⟩ := bind_ok hr
    cases hr
    exact ih h2 (ucall_sync (by omega) h.lt hs (hc.imp id (fun h => h (o, c) (by simp))) h1)
      (by rw [h2.len]; rw [h.len] at hl; omega) (hc.imp id (fun h c hc => h c (by simp [hc]))) h4

theorem Fresh.sync {t : Tree K V A} {l : List (K × V)} (h : Fresh t l) : SyncM 1 t := by
  cases h with
  | new => exact SyncM.new (by omega)
  | @load eq data _ hl he hb =>
    cases data with
    | nil => cases hb; exact SyncM.new (by omega)
    | cons x data =>
      have e : (dedupU eq 0 (x :: data)).1 = Spec.survivors eq (x :: data) := by rw [dedupU_eq]
      obtain ⟨t', H, g, h1, h2, h3, -⟩ := bulk_items_ok0 (A := A) (μ := 1) (by omega)
        (dedupU_ne eq 0 (data := x :: data) (by simp)) (.inr (by rw [e]; exact he.noLone _))
      have h1 : Tree.bulkLoadU eq (x :: data) = .ok t' := h1
      rw [hb] at h1
      cases h1
      exact ⟨H, g, h2, h3⟩

/-- What a history with arbitrary comparisons leaves behind. -/
theorem Fresh.run_sync {t : Tree K V A} {l : List (K × V)} (h : Fresh t l)
    (cs : List (Answers K × UCall K V)) (hl : l.length + cs.length < 2 ^ 64)
    (hc : KeyOnly K V A ∨ ∀ c ∈ cs, c.2.keepsValues) :
    ∃ as t' H, ∃ g : T K V A H, t.urun cs = .ok (as, t') ∧ Effects (cs.map (·.2)) as l g.toL ∧
      WF0 1 t' g ∧ AugWF t' g ∧ t'.len < 2 ^ 64 := by
  have hi := h.inv
  obtain ⟨as, t', l', h1, h2, h3⟩ := urun_ok hi cs (by rw [hi.len]; exact hl)
  obtain ⟨H, g, w, ha⟩ := urun_sync hi h.sync (by rw [hi.len]; exact hl) hc h1
  have e : UInvM 1 t' g.toL := ⟨⟨H, g, w, rfl⟩, h2.lt, by omega⟩
  have : l' = g.toL := by
    have e1 := h2.contents.drop
    rw [e.contents.drop] at e1
    cases e1
    rfl
  subst this
  exact ⟨as, t', H, g, h1, h3, w, ha, h2.lt⟩

theorem removeBy_ok0 {Q : Type} [SearchAugmentation K V A Q] {t : Tree K V A} {H : Nat}
    {g : T K V A H} (w : WF0 1 t g) (hH : H ≤ maxDepth) (hr : SearchInRange K V A) (q : Q) :
    ∃ (t' : Tree K V A) (H' : Nat) (g' : T K V A H'),
      t.removeByAugmentation q = .ok ((g.search q).bind (fun n => g.toL[n]?), t') ∧ WF0 1 t' g' ∧
      g'.toL = (match g.search q with | none => g.toL | some n => g.toL.eraseIdx n) ∧
      (AugWF t g → AugWF t' g') := by
  obtain ⟨inst, -⟩ := exists_wellFoundedLT K
  unfold Tree.removeByAugmentation
  rcases getRef_ok0 w hH hr q with ⟨h1, h2⟩ | ⟨c, i, d1, kv, d2, hp, hl, h1, h2⟩
  · exact ⟨t, H, g, by simp [h1, h2], w, by simp [h1], id⟩
  · have hL : g.leaves = c.lvL ++ (i, d1 ++ kv :: d2) :: c.lvR := by
      rw [← hp, Ctx.leaves_plug]; simp [T.leaves]
    have hT : g.toL = c.lvL.flatMap (·.2) ++ (d1 ++ kv :: d2) ++ c.lvR.flatMap (·.2) := by
      simp [T.toL, hL]
    rcases removeByRef_ok0 (by omega) w hp hl with ⟨t', H', g', h3, h4, -, h5, h6, -⟩ | ⟨h0, -⟩
    · refine ⟨t', H', g', ?_, h4, ?_, h6⟩
      · simp only [h1, h2, ok_bind, h3, pure_ok, Option.bind_some]
        rw [hT, List.append_assoc, List.getElem?_append_right (by omega), List.append_assoc,
          List.getElem?_append_right (by omega)]
        simp
      · rw [h5]
        simp only [h1]
        have e : g.toL = (c.lvL.flatMap (·.2) ++ d1) ++ kv :: (d2 ++ c.lvR.flatMap (·.2)) := by
          rw [hT]; simp
        rw [e, eraseIdx_mid _ _ _ _ (by simp)]
        simp
    · omega

theorem getMutBy_ok0 {Q : Type} [SearchAugmentation K V A Q] {t : Tree K V A} {H : Nat}
    {g : T K V A H} (w : WF0 1 t g) (hH : H ≤ maxDepth) (hr : SearchInRange K V A) (q : Q) (u : V → V) :
    ∃ (t' : Tree K V A) (g' : T K V A H),
      t.getMutByAugmentation q u = .ok (((g.search q).bind (fun n => g.toL[n]?)).map (·.2), t') ∧
      WF0 1 t' g' ∧
      g'.toL = (match g.search q with
        | none => g.toL
        | some n => g.toL.modify n (fun kv => (kv.1, u kv.2))) ∧ t'.rootAug = t.rootAug := by
  unfold Tree.getMutByAugmentation
  rcases getRef_ok0 w hH hr q with ⟨h1, h2⟩ | ⟨c, i, d1, kv, d2, hp, hl, h1, h2⟩
  · exact ⟨t, g, by simp [h1, h2], w, by simp [h1], rfl⟩
  · have hL : g.leaves = c.lvL ++ (i, d1 ++ kv :: d2) :: c.lvR := by
      rw [← hp, Ctx.leaves_plug]; simp [T.leaves]
    have hT : g.toL = c.lvL.flatMap (·.2) ++ (d1 ++ kv :: d2) ++ c.lvR.flatMap (·.2) := by
      simp [T.toL, hL]
    obtain ⟨g', h3, -, h4, -⟩ := setValue_ok0 w (k := kv.1) (v := kv.2) (v' := u kv.2) hL
    refine ⟨_, g', ?_, h3, ?_, rfl⟩
    · simp only [h1, h2, ok_bind, w.flat.get hL, Leaf.dataAt, readAt_mid, pure_ok, Option.bind_some]
      rw [hT, List.append_assoc, List.getElem?_append_right (by omega), List.append_assoc,
          List.getElem?_append_right (by omega)]
      simp
    · rw [h4]
      simp only [h1]
      have e : g.toL = (c.lvL.flatMap (·.2) ++ d1) ++ kv :: (d2 ++ c.lvR.flatMap (·.2)) := by
        rw [hT]; simp
      rw [e, modify_mid _ _ _ _ _ (by simp)]
      simp

end Bpt
