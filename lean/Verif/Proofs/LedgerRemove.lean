import Verif.Proofs.LedgerBal
import Verif.Proofs.Remove

/-!
# Balances of removals, of dropping, and of whole calls
-/

namespace Bpt
variable {K V A : Type}
variable {w : K → Int} {u : A → Int} {m : Int}

section
variable [Augmentation K V A]

theorem handleLeaf_inners {s s' : Store K V A} {st st' : Statistic} {node node' : Inner K A}
    {i idx : Nat} {r : DeleteResult K V}
    (h : handleLeafUnderSize s st node i idx = .ok (r, s', st', node')) : s'.inners = s.inners := by
  unfold handleLeafUnderSize at h
  obtain ⟨a, h1, h⟩ := bind_ok h
  obtain ⟨b, h2, h⟩ := bind_ok h
  obtain ⟨c, h3, h⟩ := bind_ok h
  cases c with
  | rotateRight =>
    obtain ⟨⟨q1, q2, q3⟩, h4, h⟩ := bind_ok h
    cases h
    unfold rotateRightForLeaf at h4
    obtain ⟨_, _, h4⟩ := bind_ok h4
    obtain ⟨_, _, h4⟩ := bind_ok h4
    obtain ⟨_, _, h4⟩ := bind_ok h4
    obtain ⟨_, _, h4⟩ := bind_ok h4
    obtain ⟨_, _, h4⟩ := bind_ok h4
    split at h4
    · cases h4
    obtain ⟨_, _, h4⟩ := bind_ok h4
    obtain ⟨_, _, h4⟩ := bind_ok h4
    obtain ⟨_, _, h4⟩ := bind_ok h4
    obtain ⟨_, _, h4⟩ := bind_ok h4
    obtain ⟨_, _, h4⟩ := bind_ok h4
    obtain ⟨_, _, h4⟩ := bind_ok h4
    cases h4
    rfl
  | rotateLeft =>
    obtain ⟨⟨q1, q2, q3⟩, h4, h⟩ := bind_ok h
    cases h
    unfold rotateLeftForLeaf at h4
    obtain ⟨_, _, h4⟩ := bind_ok h4
    obtain ⟨_, _, h4⟩ := bind_ok h4
    obtain ⟨_, _, h4⟩ := bind_ok h4
    obtain ⟨_, _, h4⟩ := bind_ok h4
    obtain ⟨_, _, h4⟩ := bind_ok h4
    split at h4
    · cases h4
    obtain ⟨_, _, h4⟩ := bind_ok h4
    obtain ⟨_, _, h4⟩ := bind_ok h4
    obtain ⟨_, _, h4⟩ := bind_ok h4
    obtain ⟨_, _, h4⟩ := bind_ok h4
    obtain ⟨_, _, h4⟩ := bind_ok h4
    obtain ⟨_, _, h4⟩ := bind_ok h4
    obtain ⟨_, _, h4⟩ := bind_ok h4
    cases h4
    rfl
  | mergeLeft =>
    obtain ⟨⟨q1, q2, q3⟩, h4, h⟩ := bind_ok h
    cases h
    unfold mergeLeafNodeLeft at h4
    obtain ⟨_, _, h4⟩ := bind_ok h4
    obtain ⟨_, _, h4⟩ := bind_ok h4
    obtain ⟨_, _, h4⟩ := bind_ok h4
    obtain ⟨_, _, h4⟩ := bind_ok h4
    obtain ⟨_, ht, h4⟩ := bind_ok h4
    obtain ⟨_, _, h4⟩ := bind_ok h4
    obtain ⟨_, _, h4⟩ := bind_ok h4
    obtain ⟨_, _, h4⟩ := bind_ok h4
    obtain ⟨_, hr, h4⟩ := bind_ok h4
    obtain ⟨_, _, h4⟩ := bind_ok h4
    cases h4
    have e1 := (Store.takeLeaf_wt (w := fun _ => 0) (u := fun _ => 0) ht).2
    have e2 := (relink_wt (w := fun _ => 0) (u := fun _ => 0) hr).2
    exact e2.trans e1
  | mergeRight =>
    obtain ⟨⟨q1, q2, q3⟩, h4, h⟩ := bind_ok h
    cases h
    unfold mergeLeafNodeWithRight at h4
    obtain ⟨_, _, h4⟩ := bind_ok h4
    obtain ⟨_, _, h4⟩ := bind_ok h4
    obtain ⟨_, _, h4⟩ := bind_ok h4
    obtain ⟨_, _, h4⟩ := bind_ok h4
    obtain ⟨_, ht, h4⟩ := bind_ok h4
    obtain ⟨_, _, h4⟩ := bind_ok h4
    obtain ⟨_, _, h4⟩ := bind_ok h4
    obtain ⟨_, _, h4⟩ := bind_ok h4
    obtain ⟨_, _, h4⟩ := bind_ok h4
    obtain ⟨_, hr, h4⟩ := bind_ok h4
    obtain ⟨_, _, h4⟩ := bind_ok h4
    cases h4
    have e1 := (Store.takeLeaf_wt (w := fun _ => 0) (u := fun _ => 0) ht).2
    have e2 := (relink_wt (w := fun _ => 0) (u := fun _ => 0) hr).2
    exact e2.trans e1

omit [Augmentation K V A] in
theorem T.nid_mem {h j : Nat} {x : T K V A h} (hx : x.nid = .inner j) : j ∈ x.nodes.map (·.1) := by
  cases h with
  | zero => cases hx
  | succ h =>
    cases hx
    simp [T.nodes]

omit [Augmentation K V A] in
theorem Frame.kidsW {s : Store K V A} {h : Nat} {f : Frame K A (T K V A h)} {x : T K V A h}
    (hk : ∀ c ∈ (f.inner x.nid).childs, KidOk s c)
    (hn : ((x.nodes ++ f.nodes x.nid).map (·.1)).Nodup) : Kids s f.id (f.inner x.nid) := by
  intro j hj
  refine ⟨?_, fun n hn' => (hk _ hj n hn').2⟩
  rintro rfl
  simp only [Frame.nodes, List.map_append, List.map_cons] at hn
  simp only [Frame.inner, List.mem_append, List.mem_map, List.mem_cons] at hj
  rcases hj with ⟨y, hy, hj⟩ | hj | ⟨y, hy, hj⟩
  · have h1 := T.nid_mem hj
    have : f.id ∈ f.side.map (·.1) := by
      simp only [Frame.side, List.map_append, List.mem_append, List.map_flatMap, List.mem_flatMap]
      exact .inl ⟨y, hy, h1⟩
    simp_all [List.nodup_append]
  · have h1 := T.nid_mem hj.symm
    rw [List.nodup_append] at hn
    exact hn.2.2 _ h1 _ (List.mem_cons_self ..) rfl
  · have h1 := T.nid_mem hj
    have : f.id ∈ f.side.map (·.1) := by
      simp only [Frame.side, List.map_append, List.mem_append, List.map_flatMap, List.mem_flatMap]
      exact .inr ⟨y, hy, h1⟩
    simp_all [List.nodup_append]


/-- The weight a tree owns; `m` for each merge of inner nodes so far. -/
def Tree.wt (w : K → Int) (u : A → Int) (m : Int) (t : Tree K V A) : Int :=
  t.store.wt w u + u t.rootAug + m * t.st.merges

theorem removeAscendL_bal {μ : Nat} (hμ : μ ≤ 16) {h H : Nat} {c : Ctx K V A h H} {s : Store K V A}
    {st : Statistic} {x : T K V A h} {kv : K × V} {d : DeleteResult K V}
    (hc : c.Shape μ) (ho : Out μ (c.min μ) c.flag x kv d)
    (hlv : ∀ y ∈ c.lvL ++ x.leaves ++ c.lvR, ∃ p n, s.leaves[y.1]? = some (some ⟨y.2, p, n⟩))
    (hm : IMem s.inners (x.nodes ++ c.nodes x.nid))
    (hn : ((x.nodes ++ c.nodes x.nid).map (·.1)).Nodup) :
    (removeAscendL s st (c.stack x.nid) d).Bal w u m (s.wt w u + d.wt w + m * st.merges)
      (fun q => q.2.1.wt w u + q.1.wt w + m * q.2.2.merges) := by
  induction c generalizing s st d with
  | nil => exact Logged.bal_pure rfl
  | @cons h H f c ih =>
    obtain ⟨hS, hmin, h64, hf, hcs⟩ := hc
    simp only [Ctx.nodes, ← List.append_assoc] at hm hn
    have hget : s.inners[f.id]? = some (some (f.inner x.nid)) :=
      hm (f.id, f.inner x.nid) (by simp [Frame.nodes])
    have hxl : ∀ y ∈ x.leaves, ∃ p n, s.leaves[y.1]? = some (some ⟨y.2, p, n⟩) :=
      fun y hy => hlv y (List.mem_append_left _ (List.mem_append_right _ hy))
    have hxm : IMem s.inners x.nodes := fun p hp => hm p (by simp [hp])
    have hsm : IMem s.inners f.side := fun p hp => hm p (by simp [Frame.nodes, hp])
    have hsl : ∀ y ∈ f.lvL ++ f.lvR, ∃ p n, s.leaves[y.1]? = some (some ⟨y.2, p, n⟩) := by
      intro y hy
      apply hlv y
      simp only [List.mem_append] at hy
      simp only [Ctx.lvL, Ctx.lvR, List.mem_append]
      tauto
    by_cases hpan : f.len = 0 ∧ d = .innerUnderSize kv
    · rcases ho with ⟨rfl, ho⟩ | ⟨-, ho⟩
      · cases hpan.2
      · cases h with
        | zero => exact ho.elim
        | succ h =>
          intro q hq
          obtain ⟨hf0, rfl⟩ := hpan
          rw [removeAscendL_result] at hq
          simp only [Ctx.stack] at hq
          rw [inner_step_panic hf hf0 hm] at hq
          cases hq
    have hstep : ∃ g d1 inners st1,
        RemStep μ (c.min μ) c.flag s st f x (c.nodes (.inner f.id)) d kv g d1 inners st1 := by
      rcases ho with ⟨rfl, ho⟩ | ⟨rfl, ho⟩
      · exact done_step hf h64 hS hmin hxl hm hn ho
      · cases h with
        | zero => exact ho.elim
        | succ h =>
          have h1 : 1 ≤ f.len := by
            by_contra h0
            exact hpan ⟨by omega, rfl⟩
          exact inner_step hμ (Ctx.min_le hμ) hf h64 hS hmin h1 hm hn ho
    obtain ⟨g, d1, inners, st1, hs⟩ := hstep
    have hrec := ih (s := { s with inners := inners }) (st := st1) (d := d1) (x := g) hcs hs.out
      (by
        intro y hy
        apply hlv y
        rw [hs.leaves] at hy
        simpa [Ctx.lvL, Ctx.lvR] using hy)
      (by rw [hs.nid]; exact hs.imem) (by rw [hs.nid]; exact hs.nodup)
    rw [hs.nid] at hrec
    have hrun := hs.run []
    simp only [Ctx.stack]
    rcases ho with ⟨rfl, ho⟩ | ⟨rfl, ho⟩
    · refine Logged.bal_bind newAugL_bal fun a ha => Logged.bal_lift_bind fun nd hnd => ?_
      refine Logged.bal_bind (mid := fun n' => (s.setInner f.id n').wt w u + w kv.1 + m * st.merges) ?_
        fun nd' hnd' => ?_
      · intro n' hn'
        have e1 := setAugL_bal (w := w) (u := u) (m := m) n' hn'
        have e2 := Store.wt_setInner (w := w) (u := u) hnd n'
        simp only [DeleteResult.wt] at *
        omega
      rw [newAugmentationL_result] at ha
      rw [setAugmentationL_result] at hnd'
      simp only [removeAscend, ha, hnd, hnd', ok_bind, pure_ok] at hrun
      have hrun := Except.ok.inj hrun
      simp only [Prod.mk.injEq] at hrun
      obtain ⟨rfl, e2, rfl⟩ := hrun
      rw [e2]
      exact hrec
    · cases h with
      | zero => exact ho.elim
      | succ h =>
        have hgi : s.getInner f.id = .ok (f.inner x.nid) := by simp [Store.getInner, hget]
        refine Logged.bal_lift_bind fun nd hnd => ?_
        rw [hgi] at hnd
        cases hnd
        simp only [removeAscend, hgi, ok_bind] at hrun
        obtain ⟨⟨r', s', st', nd'⟩, hh, hrun⟩ := bind_ok hrun
        have hrun := Except.ok.inj hrun
        simp only [Prod.mk.injEq] at hrun
        obtain ⟨rfl, e2, rfl⟩ := hrun
        have hkids : Kids s f.id (f.inner x.nid) :=
          Frame.kidsW (Frame.kids hS (T.kidOk ho.1 hxm) hsl hsm) (by
            rw [List.map_append] at hn
            exact hn.of_append_left)
        refine Logged.bal_bind (mid := fun q => s.wt w u + (q.2.1.wt w u - s.wt w u) + (q.2.2.2.wt w u
          - (f.inner x.nid).wt w u) + q.1.wt w + m * q.2.2.1.merges) ?_ fun q hq => ?_
        · intro q hq
          have := handleInnerL_bal (w := w) (u := u) (m := m) hkids q hq
          simp only [Int.mul_sub, DeleteResult.wt] at *
          omega
        rw [handleInnerUnderSizeL_result, hh] at hq
        cases hq
        have hfr := handleInner_frame hkids hh
        rw [hget] at hfr
        have e3 := Store.wt_setInner (w := w) (u := u)
          (show s'.getInner f.id = .ok (f.inner x.nid) by simp [Store.getInner, hfr]) nd'
        simp only
        rw [e2] at e3 ⊢
        refine Logged.bal_eq hrec ?_
        omega

end

section
variable [LinearOrder K] [Augmentation K V A]

theorem removeByRefL_bal {μ : Nat} (hμ : μ ≤ 16) {t : Tree K V A} {H : Nat} {g : T K V A H}
    (wf : WF0 μ t g) {c : Ctx K V A 0 H} {i : Nat} {d1 d2 : List (K × V)} {kv : K × V}
    (hp : c.plug ⟨i, d1 ++ kv :: d2⟩ = g) (hlen : c.LenOK) :
    (t.removeByRefL ⟨c.stack (.leaf i), i, d1.length⟩).Bal w u m (t.wt w u m)
      (fun q => q.2.wt w u m + w q.1.1) := by
  obtain ⟨hcS, hxS⟩ := Ctx.shape_plug.1 ⟨hp ▸ wf.shape, hlen⟩
  have hleaves : g.leaves = c.lvL ++ (i, d1 ++ kv :: d2) :: c.lvR := by
    rw [← hp, Ctx.leaves_plug]; simp [T.leaves]
  have hseg := wf.seg
  have hlnd := wf.lnodup
  have hlive := wf.live
  rw [hleaves] at hseg hlnd hlive
  have hg : g.nodes.Perm (c.nodes (.leaf i)) := by
    rw [← hp]; exact Ctx.nodes_plug
  have hm := wf.imem.perm hg
  have hn := (List.Perm.ids hg).1 wf.inodup
  have hget : t.store.getLeaf i = .ok ⟨d1 ++ kv :: d2, lstId none c.lvL, hdId c.lvR none⟩ :=
    hseg.getLeaf
  have hget' : t.store.leaves[i]? = some (some ⟨d1 ++ kv :: d2, lstId none c.lvL, hdId c.lvR none⟩) :=
    hseg.get
  have h64 : (d1 ++ kv :: d2).length ≤ 64 := hxS.2
  have hlow : c.min μ ≤ (d1 ++ kv :: d2).length := hxS.1
  have hxl : (d1 ++ kv :: d2).length = d1.length + d2.length + 1 := by simp; omega
  have hmin16 := Ctx.min_le hμ (c := c)
  unfold Tree.removeByRefL
  refine Logged.bal_lift_bind fun leaf hleaf => ?_
  have hgl := hleaf
  rw [hget] at hleaf
  cases hleaf
  refine Logged.bal_lift_bind fun q hq => ?_
  obtain ⟨l1, dr⟩ := q
  have hw := Leaf.tryDeleteAt_wt (w := w) hq
  have hst := Store.wt_setLeaf (w := w) (u := u) hgl l1
  -- the ascending loop
  have hloop : (removeAscendL (t.store.setLeaf i l1) t.st (c.stack (.leaf i))
      (match (generalizing := false) dr with
        | .done kv => .done kv | .underSize idx => .leafUnderSize idx)).Bal w u m
        (t.store.wt w u + m * t.st.merges) (fun q => q.2.1.wt w u + q.1.wt w + m * q.2.2.merges) := by
    by_cases hlend : 16 < (d1 ++ kv :: d2).length
    · -- the leaf can lend
      have hab : (⟨d1 ++ kv :: d2, lstId none c.lvL, hdId c.lvR none⟩ : Leaf K V).ableToLend = true :=
        decide_eq_true hlend
      simp only [Leaf.tryDeleteAt, hab, if_true, sliceRemove_ok rfl, ok_bind, pure_ok] at hq
      obtain ⟨rfl, rfl⟩ := Prod.mk.inj (Except.ok.inj hq)
      have hseg1 := Seg.update (d' := d1 ++ d2) hseg hlnd
      let x' : GLeaf K V := ⟨i, d1 ++ d2⟩
      refine Logged.bal_eq (removeAscendL_bal hμ (c := c) (x := x') (kv := kv) hcS
        (.inl ⟨rfl, ?_, ?_⟩) ?_ ?_ ?_) ?_
      · simp only [x', List.length_append]; omega
      · simp only [x', List.length_append]; omega
      · intro y hy
        have hy' : y ∈ c.lvL ++ (i, d1 ++ d2) :: c.lvR := by simpa [T.leaves, x'] using hy
        obtain ⟨a, b, hab⟩ := List.append_of_mem hy'
        have := hseg1
        rw [hab] at this
        exact ⟨_, _, this.get⟩
      · simpa [T.nodes, x', Store.setLeaf] using hm
      · simpa [T.nodes, x'] using hn
      · simp only [DeleteResult.wt] at *
        omega
    · -- the leaf is at the minimum
      have hab : (⟨d1 ++ kv :: d2, lstId none c.lvL, hdId c.lvR none⟩ : Leaf K V).ableToLend = false :=
        decide_eq_false hlend
      simp only [Leaf.tryDeleteAt, hab, Bool.false_eq_true, if_false, pure_ok] at hq
      obtain ⟨rfl, rfl⟩ := Prod.mk.inj (Except.ok.inj hq)
      have hset : t.store.setLeaf i ⟨d1 ++ kv :: d2, lstId none c.lvL, hdId c.lvR none⟩ = t.store := by
        simp only [Store.setLeaf, set_same hget']
      rw [hset]
      simp only
      cases c with
      | nil => exact Logged.bal_pure (by simp [DeleteResult.wt])
      | cons f c =>
        obtain ⟨hS, hmin, hf64, hf, hcs⟩ := hcS
        simp only [Ctx.nodes] at hm hn
        by_cases hf0 : f.len = 0
        · intro q hq
          rw [removeAscendL_result] at hq
          simp only [Ctx.stack] at hq
          rw [leaf_step_panic hf hf0 hm] at hq
          cases hq
        have h1 : 1 ≤ f.len := by omega
        simp only [Ctx.lvL, Ctx.lvR] at *
        obtain ⟨g0, d0, s0, st0, hs⟩ := leaf_step (s := t.store) (st := t.st) (LA := c.lvL) (LB := c.lvR) (kv := kv) (i := i)
          (d1 := d1) (d2 := d2) hμ (Ctx.min_le hμ) hf hf64 hS hmin h1 hm hn
          (by simpa using hseg) (by simpa using hlnd) (by simpa using hlive) hlow (by omega)
        have hfi : t.store.inners[f.id]? = some (some (f.inner (.leaf i))) :=
          hm (f.id, f.inner (.leaf i)) (by simp [Frame.nodes])
        have hlv : ∀ y ∈ c.lvL ++ g0.leaves ++ c.lvR, ∃ p n,
            s0.leaves[y.1]? = some (some ⟨y.2, p, n⟩) := by
          intro y hy
          obtain ⟨a, b, hab⟩ := List.append_of_mem hy
          have := hs.seg
          rw [hab] at this
          exact ⟨_, _, this.get⟩
        have hrec := removeAscendL_bal hμ (w := w) (u := u) (m := m) (c := c) (s := s0) (st := st0)
          (x := g0) (kv := kv) (d := d0)
          hcs hs.out hlv (by rw [hs.nid]; exact hs.imem) (by rw [hs.nid]; exact hs.nodup)
        rw [hs.nid] at hrec
        simp only [Ctx.stack]
        have hrun1 := hs.run []
        have hgi : t.store.getInner f.id = .ok (f.inner (.leaf i)) := by simp [Store.getInner, hfi]
        simp only [removeAscend, hgi, ok_bind] at hrun1
        obtain ⟨⟨r', s', st', nd'⟩, hh, hrun1⟩ := bind_ok hrun1
        have hrun1 := Except.ok.inj hrun1
        simp only [Prod.mk.injEq] at hrun1
        obtain ⟨rfl, rfl, rfl⟩ := hrun1
        refine Logged.bal_lift_bind fun nd hnd' => ?_
        rw [hgi] at hnd'
        cases hnd'
        refine Logged.bal_bind (mid := fun q => q.2.1.wt w u + (q.2.2.2.wt w u
          - (f.inner (.leaf i)).wt w u) + q.1.wt w + m * q.2.2.1.merges) ?_ fun q hq => ?_
        · intro q hq
          have := handleLeafL_bal (w := w) (u := u) (m := m) q hq
          simp only [Int.mul_sub] at *
          omega
        rw [handleLeafUnderSizeL_result, hh] at hq
        cases hq
        have hin := handleLeaf_inners hh
        have e3 := Store.wt_setInner (w := w) (u := u)
          (show s'.getInner f.id = .ok (f.inner (.leaf i)) by simp [Store.getInner, hin, hfi]) nd'
        refine Logged.bal_eq hrec ?_
        simp only
        omega
  refine Logged.bal_eq (Logged.bal_bind (Logged.bal_frame hloop (u t.rootAug)) fun q hq => ?_)
    (by simp only [Tree.wt]; omega)
  obtain ⟨r, s1, st1⟩ := q
  refine Logged.bal_lift_bind fun q hq2 => ?_
  obtain ⟨kv', s2, root⟩ := q
  have e2 : s2.wt w u + w kv'.1 = s1.wt w u + r.wt w := by
    unfold removeRoot at hq2
    cases r with
    | done kv => cases hq2; rfl
    | innerUnderSize kv =>
      obtain ⟨_, _, h⟩ := bind_ok hq2
      obtain ⟨_, _, h⟩ := bind_ok h
      split at h
      · obtain ⟨_, _, h⟩ := bind_ok h
        cases h
        rfl
      · cases h
        rfl
    | leafUnderSize idx =>
      obtain ⟨_, _, h⟩ := bind_ok hq2
      obtain ⟨l, hl, h⟩ := bind_ok h
      obtain ⟨⟨kv, l'⟩, hd, h⟩ := bind_ok h
      cases h
      have e1 := Leaf.deleteAt_wt (w := w) hd
      rw [Store.wt_setLeaf hl]
      simp only [DeleteResult.wt]
      omega
  refine Logged.bal_bind newAugL_bal fun a _ => Logged.bal_emit_bind <| Logged.bal_guard <|
    Logged.bal_pure ?_
  simp only [Tree.wt, wsum_cons, wsum_nil, Event.wt]
  omega

end

section
variable [Augmentation K V A]

theorem removeL_bal {μ : Nat} {t : Tree K V A} {l : List (K × V)} (h : UInvM μ t l) (o : Answers K) :
    (t.removeL o).Bal w u m (t.wt w u m) (fun q => q.2.wt w u m) := by
  obtain ⟨H, g, wf, hl⟩ := h.ghost
  obtain ⟨c, x, hp, hlen, hdesc⟩ := descend_stackU wf (wf.depth h.lt) o
  have hleaves : g.leaves = c.lvL ++ (x.id, x.data) :: c.lvR := by
    rw [← hp, Ctx.leaves_plug]; simp [T.leaves]
  have hget := wf.flat.get hleaves
  obtain ⟨i, d⟩ := x
  refine Logged.bal_lift_bind fun r hr' => ?_
  unfold Tree.keyToRefU at hr'
  rw [hdesc] at hr'
  simp only [ok_bind] at hr'
  simp only at hget
  rw [hget] at hr'
  rcases locateSlotU_cases o d (lstId none c.lvL) (hdId c.lvR none) with ⟨a, kv, b, rfl, h1⟩ | ⟨a, b, rfl, h1⟩
  · obtain ⟨inst, -⟩ := exists_wellFoundedLT K
    simp only [ok_bind, h1, pure_ok] at hr'
    cases hr'
    refine Logged.bal_bind (removeByRefL_bal h.le wf hp hlen) fun q _ => Logged.bal_emit_bind (Logged.bal_pure ?_)
    simp only [wsum_cons, wsum_nil, Event.wt]
    omega
  · simp only [ok_bind, h1, pure_ok] at hr'
    cases hr'
    exact Logged.bal_pure rfl

end
end Bpt
