import Verif.SearchSpec
import Verif.Proofs.Search

/-!
# Searches whose answers may be out of range
-/

namespace Bpt
open Spec
variable {K V A Q : Type}

section Search
variable [SearchAugmentation K V A Q]

/-- The end of a search on ghost trees. -/
def T.searchEnd : {h : Nat} → T K V A h → Q → SearchEnd K V
  | 0, x, q =>
    match SearchAugmentation.locateInLeaf A q ((GLeaf.data x).map (·.1)) ((GLeaf.data x).map (·.2)) with
    | none => .nothing
    | some i => match (GLeaf.data x)[i]? with
      | some e => .entry e
      | none => .noItem
  | _ + 1, x, q =>
    match SearchAugmentation.locateInInner V q (GNode.keys x) (GNode.augs x) with
    | none => .nothing
    | some (i, q') => match (GNode.kids x)[i]? with
      | some c => T.searchEnd c q'
      | none => .noChild

/-- What `get_ref_by_augmentation` answers, by the end of the search. -/
inductive RefOut {H : Nat} (g : T K V A H) : SearchEnd K V → Res (Option EntryRef) → Prop
  | nothing : RefOut g .nothing (.ok none)
  | entry {c : Ctx K V A 0 H} {i : Nat} {d1 d2 : List (K × V)} {e : K × V} :
      c.plug ⟨i, d1 ++ e :: d2⟩ = g → c.LenOK →
      RefOut g (.entry e) (.ok (some ⟨c.stack (.leaf i), i, d1.length⟩))
  | noItem {c : Ctx K V A 0 H} {x : GLeaf K V} {n : Nat} :
      Ctx.plug (h := 0) c x = g → c.LenOK → x.data.length ≤ n →
      RefOut g .noItem (.ok (some ⟨c.stack (.leaf x.id), x.id, n⟩))
  | noChild : RefOut g .noChild (.error .ub)

theorem getRef_out {μ : Nat} {t : Tree K V A} {H : Nat} {g : T K V A H} (w : WF0 μ t g)
    (hH : H ≤ maxDepth) (q : Q) : RefOut g (g.searchEnd q) (t.getRefByAugmentation q) := by
  have key : ∀ (h : Nat) (c : Ctx K V A h H) (x : T K V A h) (q : Q) (fuel : Nat), h ≤ fuel →
      IMem t.store.inners x.nodes → c.plug x = g → c.LenOK →
      RefOut g (x.searchEnd q) (do
        match ← descend t.store (searchStep V) fuel (c.stack x.nid, q) x.nid with
        | .inl () => return none
        | .inr ((stack, q), leafId) =>
          let leaf ← t.store.getLeaf leafId
          match SearchAugmentation.locateInLeaf A q leaf.keys leaf.values with
          | none => return none
          | some slot => return some ⟨stack, leafId, slot⟩) := by
    intro h
    induction h with
    | zero =>
      intro c x q fuel _ _ hp hl
      have hL : g.leaves = c.lvL ++ (GLeaf.id x, GLeaf.data x) :: c.lvR := by
        rw [← hp, Ctx.leaves_plug]; simp [T.leaves]
      have hg := w.flat.get hL
      have e : descend t.store (searchStep V) fuel (c.stack (T.nid (h := 0) x), q) (T.nid (h := 0) x)
          = .ok (.inr ((c.stack (T.nid (h := 0) x), q), GLeaf.id x)) := by
        cases fuel <;> rfl
      rw [e]
      simp only [ok_bind, hg, Leaf.keys, Leaf.values, T.searchEnd]
      cases hloc : SearchAugmentation.locateInLeaf A q ((GLeaf.data x).map (·.1)) ((GLeaf.data x).map (·.2)) with
      | none => exact .nothing
      | some i =>
        simp only [pure_ok]
        cases hi : (GLeaf.data x)[i]? with
        | none => exact .noItem (x := x) hp hl (List.getElem?_eq_none_iff.1 hi)
        | some kv =>
          obtain ⟨hlt, hkv⟩ := List.getElem?_eq_some_iff.1 hi
          have e1 : GLeaf.data x = (GLeaf.data x).take i ++ kv :: (GLeaf.data x).drop (i + 1) := by
            rw [← hkv, ← List.drop_eq_getElem_cons, List.take_append_drop]
          have e2 : i = ((GLeaf.data x).take i).length := by rw [List.length_take]; omega
          have := RefOut.entry (g := g) (c := c) (i := GLeaf.id x) (d1 := (GLeaf.data x).take i) (e := kv)
            (d2 := (GLeaf.data x).drop (i + 1)) (by rw [← e1]; exact hp) hl
          rw [← e2] at this
          exact this
    | succ h ih =>
      intro c x q fuel hf hm hp hl
      obtain ⟨fuel, rfl⟩ : ∃ n, fuel = n + 1 := ⟨fuel - 1, by omega⟩
      have hsh := (Ctx.shape_plug.1 ⟨hp ▸ w.shape, hl⟩).2
      have hlens := T.ShapeTop.lens hsh
      have hg : t.store.getInner (GNode.id x) = .ok (GNode.inner x) := hm.get nodes_head
      rw [T.nid_succ, descend, hg]
      simp only [ok_bind, searchStep, T.searchEnd]
      have e1 : (GNode.inner x).keys = GNode.keys x := rfl
      have e2 : (GNode.inner x).augs = GNode.augs x := rfl
      rw [e1, e2]
      cases hloc : SearchAugmentation.locateInInner V q (GNode.keys x) (GNode.augs x) with
      | none => exact .nothing
      | some p =>
        obtain ⟨i, q2⟩ := p
        by_cases hi : i < (GNode.kids x).length
        · obtain ⟨f, y, rfl, hF, hfl, -, -⟩ := exists_frame (x := x) hlens.1 hlens.2 (i := i) (by omega)
          have hlen : (c.stack (T.nid (h := h + 1) (f.fill y))).length < maxDepth := by
            have := c.le
            simp only [Ctx.stack_length]; omega
          have hc := childId_fill (f := f) (i := T.nid y)
          rw [hfl] at hc
          have e3 : (GNode.kids (f.fill y))[i]? = some y := by simp [Frame.fill, ← hfl]
          rw [GNode.inner_fill]
          dsimp only
          rw [hc, e3]
          simp only [ok_bind, pushStack]
          have := ih (.cons f c) y q2 fuel (by omega) hm.kid hp ⟨hF, hl⟩
          rw [T.nid_succ] at hlen
          rw [if_pos hlen]
          simp only [ok_bind, pure_ok]
          simp only [Ctx.stack, hfl, T.nid_succ] at this
          exact this
        · have e3 : (GNode.inner x).childId i = .error .ub := by
            unfold Inner.childId readAt
            have : (GNode.inner x).childs[i]? = none := by
              rw [List.getElem?_eq_none_iff]
              simp only [GNode.inner, List.length_map]
              omega
            rw [this]
          dsimp only
          rw [e3, List.getElem?_eq_none (by omega)]
          exact .noChild
  have := key H .nil g q t.store.fuel w.height_le_fuel w.imem rfl trivial
  unfold Tree.getRefByAugmentation
  rw [w.root]
  exact this

/-! ## Reading and updating -/

theorem getBy_out {μ : Nat} {t : Tree K V A} {H : Nat} {g : T K V A H} (w : WF0 μ t g)
    (hH : H ≤ maxDepth) (q : Q) :
    t.getByAugmentation q = match g.searchEnd q with
      | .nothing => .ok none
      | .entry e => .ok (some e)
      | .noItem => .error .ub
      | .noChild => .error .ub := by
  unfold Tree.getByAugmentation
  have h := getRef_out w hH q
  generalize g.searchEnd q = o at h ⊢
  generalize t.getRefByAugmentation q = r at h ⊢
  cases h with
  | nothing => rfl
  | @entry c i d1 d2 e hp hl =>
    have hL : g.leaves = c.lvL ++ (i, d1 ++ e :: d2) :: c.lvR := by
      rw [← hp, Ctx.leaves_plug]; simp [T.leaves]
    simp only [ok_bind, w.flat.get hL, Leaf.dataAt, readAt_mid, pure_ok]
  | @noItem c x n hp hl hn =>
    have hL : g.leaves = c.lvL ++ (x.id, x.data) :: c.lvR := by
      rw [← hp, Ctx.leaves_plug]; simp [T.leaves]
    simp only [ok_bind, w.flat.get hL, Leaf.dataAt, readAt, List.getElem?_eq_none hn, error_bind]
  | noChild => rfl

/-- What `get_mut_by_augmentation` does to a map given by `g`. -/
def MutOut [LinearOrder K] (μ : Nat) (t : Tree K V A) {H : Nat} (g : T K V A H) (u : V → V) :
    SearchEnd K V → Res (Option V × Tree K V A) → Prop
  | .nothing, r => r = .ok (none, t)
  | .entry e, r => ∃ (t' : Tree K V A) (g' : T K V A H) (l1 l2 : List (K × V)), r = .ok (some e.2, t') ∧ WF μ t' g' ∧
      g.toL = l1 ++ e :: l2 ∧ g'.toL = l1 ++ (e.1, u e.2) :: l2 ∧ t'.st = t.st ∧ t'.rootAug = t.rootAug ∧
      (∀ [Augmentation K V A], KeyOnly K V A → (g.AugOK → g'.AugOK) ∧ g'.topAug = g.topAug)
  | .noItem, r => r = .error .ub
  | .noChild, r => r = .error .ub

theorem getMutBy_out [LinearOrder K] {μ : Nat} {t : Tree K V A} {H : Nat} {g : T K V A H} (w : WF μ t g)
    (hH : H ≤ maxDepth) (q : Q) (u : V → V) :
    MutOut μ t g u (g.searchEnd q) (t.getMutByAugmentation q u) := by
  unfold Tree.getMutByAugmentation
  have h := getRef_out w.base hH q
  generalize g.searchEnd q = o at h ⊢
  generalize t.getRefByAugmentation q = r at h ⊢
  cases h with
  | nothing => rfl
  | @entry c i d1 d2 e hp hl =>
    have hL : g.leaves = c.lvL ++ (i, d1 ++ e :: d2) :: c.lvR := by
      rw [← hp, Ctx.leaves_plug]; simp [T.leaves]
    obtain ⟨g', h3, h4, h5⟩ := setValue_ok w (k := e.1) (v := e.2) (v' := u e.2) hL
    refine ⟨_, g', c.lvL.flatMap (·.2) ++ d1, d2 ++ c.lvR.flatMap (·.2), ?_, h3, ?_, ?_, rfl, rfl, h5⟩
    · simp only [ok_bind, w.flat.get hL, Leaf.dataAt, readAt_mid, pure_ok]
      simp
    · simp [T.toL, hL]
    · rw [h4]; simp
  | @noItem c x n hp hl hn =>
    have hL : g.leaves = c.lvL ++ (x.id, x.data) :: c.lvR := by
      rw [← hp, Ctx.leaves_plug]; simp [T.leaves]
    simp only [ok_bind, w.flat.get hL, Leaf.dataAt, readAt, List.getElem?_eq_none hn, error_bind, MutOut]
  | noChild => rfl

end Search

/-! ## Removal at a slot that does not exist -/

section Outside
variable [Augmentation K V A]

omit [Augmentation K V A] in
theorem sliceRemove_outside {α : Type} {l : List α} {n : Nat} (h : l.length ≤ n) :
    sliceRemove l n = .error .panic := by
  unfold sliceRemove
  rw [List.getElem?_eq_none h]

omit [Augmentation K V A] in
theorem readAt_outside {α : Type} {l : List α} {n : Nat} (h : l.length ≤ n) :
    readAt l n = .error .ub := by
  unfold readAt
  rw [List.getElem?_eq_none h]

omit [Augmentation K V A] in
/-- Shortening some leaf leaves no more items in any other one. -/
theorem getLeaf_setLeaf_le {s : Store K V A} {i j : Nat} {l l' m m' : Leaf K V}
    (hi : s.getLeaf i = .ok l) (hl : l'.len ≤ l.len) (hj : s.getLeaf j = .ok m)
    (hj' : (s.setLeaf i l').getLeaf j = .ok m') : m'.len ≤ m.len := by
  unfold Store.getLeaf Store.setLeaf at *
  simp only [List.getElem?_set] at hj'
  by_cases e : i = j
  · subst e
    rw [hi.symm.trans hj |> Except.ok.inj] at hl
    simp only [if_true] at hj'
    split_ifs at hj' with hb
    cases hj'
    exact hl
  · rw [if_neg e] at hj'
    rw [hj] at hj'
    cases hj'
    exact Nat.le_refl _

omit [Augmentation K V A] in
theorem takeLeaf_getLeaf {s s' : Store K V A} {i j : Nat} {l m m' : Leaf K V}
    (h : s.takeLeaf i = .ok (l, s')) (hj : s.getLeaf j = .ok m) (hj' : s'.getLeaf j = .ok m') :
    m' = m := by
  unfold Store.takeLeaf at h
  split at h
  · cases h
    unfold Store.getLeaf at *
    simp only [List.getElem?_set] at hj'
    by_cases e : i = j
    · subst e
      simp only [if_true] at hj'
      split_ifs at hj' <;> cases hj'
    · rw [if_neg e] at hj'
      rw [hj] at hj'
      cases hj'
      rfl
  · cases h

theorem handleLeafUnderSize_outside {s : Store K V A} {st : Statistic} {node : Inner K A}
    {i n id : Nat} {l : Leaf K V} (hc : node.childId i = .ok (.leaf id))
    (hg : s.getLeaf id = .ok l) (hn : l.len ≤ n)
    {r : Bpt.DeleteResult K V × Store K V A × Statistic × Inner K A} :
    handleLeafUnderSize s st node i n ≠ .ok r := by
  intro h
  unfold handleLeafUnderSize at h
  obtain ⟨prev, hprev, h⟩ := bind_ok h
  obtain ⟨next, hnext, h⟩ := bind_ok h
  obtain ⟨fix, hfix, h⟩ := bind_ok h
  have hpos : (fix = .rotateRight ∨ fix = .mergeLeft) → i - 1 + 1 = i := by
    intro hf
    by_cases h0 : 0 < i
    · omega
    · rw [if_neg h0] at hprev
      cases hprev
      cases next with
      | none => cases hfix
      | some m =>
        simp only [chooseFix] at hfix
        split at hfix <;> cases hfix <;> rcases hf with hf | hf <;> cases hf
  cases fix with
  | rotateRight =>
    rw [show i = i - 1 + 1 from (hpos (.inl rfl)).symm] at hc
    obtain ⟨r1, h1, -⟩ := bind_ok h
    unfold rotateRightForLeaf at h1
    obtain ⟨c1, -, h1⟩ := bind_ok h1
    obtain ⟨leftId, -, h1⟩ := bind_ok h1
    rw [hc] at h1
    simp only [ok_bind, NodeId.leafIdUnchecked] at h1
    obtain ⟨left, hleft, h1⟩ := bind_ok h1
    split at h1
    · cases h1
    obtain ⟨⟨kv, left'⟩, hpop, h1⟩ := bind_ok h1
    obtain ⟨nd, -, h1⟩ := bind_ok h1
    obtain ⟨right, hright, h1⟩ := bind_ok h1
    have hle : left'.len ≤ left.len := by
      unfold Leaf.pop at hpop
      split at hpop
      · cases hpop
      · obtain ⟨⟨a, d⟩, hs, hpop⟩ := bind_ok hpop
        cases hpop
        unfold sliceRemove at hs
        split at hs
        · cases hs
          simp only [Leaf.len, List.length_append, List.length_take, List.length_drop]
          omega
        · cases hs
    have := getLeaf_setLeaf_le hleft hle hg hright
    unfold Leaf.deleteWithPushFront at h1
    split at h1
    · cases h1
    · rw [readAt_outside (by simp only [Leaf.len] at *; omega)] at h1
      cases h1
  | rotateLeft =>
    obtain ⟨r1, h1, -⟩ := bind_ok h
    unfold rotateLeftForLeaf at h1
    rw [hc] at h1
    simp only [ok_bind, NodeId.leafIdUnchecked] at h1
    obtain ⟨c1, -, h1⟩ := bind_ok h1
    obtain ⟨rightId, -, h1⟩ := bind_ok h1
    obtain ⟨right, hright, h1⟩ := bind_ok h1
    split at h1
    · cases h1
    obtain ⟨⟨kv, right'⟩, hpop, h1⟩ := bind_ok h1
    obtain ⟨nd, -, h1⟩ := bind_ok h1
    obtain ⟨fst, -, h1⟩ := bind_ok h1
    obtain ⟨left, hleft, h1⟩ := bind_ok h1
    have hle : right'.len ≤ right.len := by
      unfold Leaf.popFront at hpop
      split at hpop
      · cases hpop
      · obtain ⟨⟨a, d⟩, hs, hpop⟩ := bind_ok hpop
        cases hpop
        unfold sliceRemove at hs
        split at hs
        · cases hs
          simp only [Leaf.len, List.length_append, List.length_take, List.length_drop]
          omega
        · cases hs
    have := getLeaf_setLeaf_le hright hle hg hleft
    unfold Leaf.deleteWithPush at h1
    rw [sliceRemove_outside (by simp only [Leaf.len] at *; omega)] at h1
    cases h1
  | mergeLeft =>
    rw [show i = i - 1 + 1 from (hpos (.inr rfl)).symm] at hc
    obtain ⟨r1, h1, -⟩ := bind_ok h
    unfold mergeLeafNodeLeft at h1
    obtain ⟨c1, -, h1⟩ := bind_ok h1
    obtain ⟨leftId, -, h1⟩ := bind_ok h1
    rw [hc] at h1
    simp only [ok_bind, NodeId.leafIdUnchecked] at h1
    obtain ⟨⟨right, s'⟩, hright, h1⟩ := bind_ok h1
    obtain ⟨left, -, h1⟩ := bind_ok h1
    have : right = l := by
      unfold Store.takeLeaf at hright
      unfold Store.getLeaf at hg
      split at hright
      · next e =>
        rw [e] at hg
        cases hright; cases hg; rfl
      · cases hright
    subst this
    unfold Leaf.mergeRightDeleteFirst at h1
    rw [readAt_outside (by simp only [Leaf.len] at *; omega)] at h1
    cases h1
  | mergeRight =>
    obtain ⟨r1, h1, -⟩ := bind_ok h
    unfold mergeLeafNodeWithRight at h1
    rw [hc] at h1
    simp only [ok_bind, NodeId.leafIdUnchecked] at h1
    obtain ⟨c1, -, h1⟩ := bind_ok h1
    obtain ⟨rightId, -, h1⟩ := bind_ok h1
    obtain ⟨⟨right, s'⟩, hright, h1⟩ := bind_ok h1
    obtain ⟨left, hleft, h1⟩ := bind_ok h1
    have := takeLeaf_getLeaf hright hg hleft
    subst this
    unfold Leaf.deleteAt at h1
    rw [sliceRemove_outside (by simp only [Leaf.len] at *; omega)] at h1
    cases h1

/-- Removal at a slot that does not exist never returns. -/
theorem removeByRef_outside {μ : Nat} {t : Tree K V A} {H : Nat} {g : T K V A H}
    (w : WF0 μ t g) {c : Ctx K V A 0 H} {x : GLeaf K V} {n : Nat}
    (hp : Ctx.plug (h := 0) c x = g) (hn : x.data.length ≤ n) {r : (K × V) × Tree K V A} :
    t.removeByRef ⟨c.stack (.leaf x.id), x.id, n⟩ ≠ .ok r := by
  intro h
  have hL : g.leaves = c.lvL ++ (x.id, x.data) :: c.lvR := by
    rw [← hp, Ctx.leaves_plug]; simp [T.leaves]
  unfold Tree.removeByRef at h
  have hx := w.flat.get hL
  simp only [hx, ok_bind, Leaf.tryDeleteAt] at h
  split at h
  · simp only [sliceRemove_outside hn] at h
    cases h
  · simp only [pure_ok, ok_bind] at h
    obtain ⟨r1, h1, h⟩ := bind_ok h
    have hs : t.store.setLeaf x.id ⟨x.data, lstId none c.lvL, hdId c.lvR none⟩ = t.store := by
      unfold Store.setLeaf
      unfold Store.getLeaf at hx
      split at hx
      · next e =>
        cases hx
        rw [set_same e]
      · cases hx
    rw [hs] at h1
    cases c with
    | nil =>
      simp only [Ctx.stack, removeAscend] at h1
      cases h1
      obtain ⟨r2, h2, h⟩ := bind_ok h
      have hr : t.root = .leaf x.id := by rw [w.root, ← hp]; rfl
      rw [hr] at h2
      simp only [removeRoot, NodeId.leafIdUnchecked, ok_bind, hx, Leaf.deleteAt,
        sliceRemove_outside hn] at h2
      cases h2
    | cons f c =>
      simp only [Ctx.stack, removeAscend] at h1
      have hgn : g.nodes.Perm (Ctx.nodes (.cons f c) (.leaf x.id)) := by
        rw [← hp]; exact Ctx.nodes_plug
      have hm := w.imem.perm hgn
      have hg : t.store.getInner f.id = .ok (f.inner (.leaf x.id)) :=
        hm.get (p := (f.id, f.inner (.leaf x.id))) (by simp [Ctx.nodes, Frame.nodes])
      rw [hg] at h1
      simp only [ok_bind] at h1
      obtain ⟨r2, h2, h1⟩ := bind_ok h1
      exact handleLeafUnderSize_outside childId_fill hx hn h2

variable [SearchAugmentation K V A Q]

/-- What `remove_by_augmentation` does to a map given by `g`. -/
def RemOut [LinearOrder K] (μ : Nat) (t : Tree K V A) {H : Nat} (g : T K V A H) :
    SearchEnd K V → Res (Option (K × V) × Tree K V A) → Prop
  | .nothing, r => r = .ok (none, t)
  | .entry e, r => (∃ (t' : Tree K V A) (H' : Nat) (g' : T K V A H') (l1 l2 : List (K × V)),
      r = .ok (some e, t') ∧ WF μ t' g' ∧ g.toL = l1 ++ e :: l2 ∧ g'.toL = l1 ++ l2 ∧
      (AugWF t g → AugWF t' g')) ∨ (μ = 0 ∧ r = .error .panic)
  | .noItem, r => ∃ f, r = .error f
  | .noChild, r => r = .error .ub

theorem removeBy_out [LinearOrder K] {μ : Nat} (hμ : μ ≤ 16) {t : Tree K V A} {H : Nat}
    {g : T K V A H} (w : WF μ t g) (hH : H ≤ maxDepth) (q : Q) :
    RemOut μ t g (g.searchEnd q) (t.removeByAugmentation q) := by
  unfold Tree.removeByAugmentation
  have h := getRef_out w.base hH q
  generalize g.searchEnd q = o at h ⊢
  generalize t.getRefByAugmentation q = r at h ⊢
  cases h with
  | nothing => rfl
  | @entry c i d1 d2 e hp hl =>
    have hL : g.leaves = c.lvL ++ (i, d1 ++ e :: d2) :: c.lvR := by
      rw [← hp, Ctx.leaves_plug]; simp [T.leaves]
    rcases removeByRef_ok hμ w hp hl with ⟨t', H', g', h3, h4, h5, h6, -⟩ | ⟨h0, h3⟩
    · refine .inl ⟨t', H', g', c.lvL.flatMap (·.2) ++ d1, d2 ++ c.lvR.flatMap (·.2), ?_, h4, ?_, ?_, h6⟩
      · simp only [ok_bind, h3, pure_ok]
      · simp [T.toL, hL]
      · rw [h5]; simp
    · exact .inr ⟨h0, by simp only [ok_bind, h3]; rfl⟩
  | @noItem c x n hp hl hn =>
    show ∃ f, _ = _
    simp only [ok_bind]
    cases hr : t.removeByRef ⟨c.stack (.leaf x.id), x.id, n⟩ with
    | error f => exact ⟨f, rfl⟩
    | ok r => exact absurd hr (removeByRef_outside w.base hp hn)
  | noChild => rfl

end Outside

end Bpt
