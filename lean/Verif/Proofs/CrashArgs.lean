import Verif.CallbackSpec
import Verif.Proofs.CrashRemove
import Verif.Proofs.Hom

/-!
# The sizes of the slices handed to user augmentations
-/

namespace Bpt
variable {K V A : Type}

/-- A leaf that may be handed to `from_leaf`. -/
def Leaf.Fit (l : Leaf K V) : Prop := 1 ≤ l.data.length ∧ l.data.length ≤ 64

/-- An inner node that may be handed to `from_inner`, but for its lower bound. -/
def Inner.Fit (n : Inner K A) : Prop := n.keys.length ≤ 64 ∧ n.augs.length = n.keys.length + 1

theorem Leaf.Fit.args {l : Leaf K V} (h : l.Fit) : (Callback.ofLeaf l).ArgsOk := by
  simpa [Callback.ArgsOk, Leaf.keys, Leaf.Fit] using h

theorem Inner.Fit.args {n : Inner K A} (h : n.Fit) (h1 : 1 ≤ n.keys.length) :
    (Callback.ofInner n).ArgsOk := ⟨h1, h.1, h.2⟩

/-- A node that, if it is in the store, is fit. -/
def KidOk (s : Store K V A) : NodeId → Prop
  | .leaf i => ∀ l, s.getLeaf i = .ok l → l.Fit
  | .inner i => ∀ n, s.getInner i = .ok n → n.Fit

/-- A node whose summary may be computed. -/
def SumOk (s : Store K V A) : NodeId → Prop
  | .leaf i => ∀ l, s.getLeaf i = .ok l → l.Fit
  | .inner i => ∀ n, s.getInner i = .ok n → n.Fit ∧ 1 ≤ n.keys.length

theorem getInner_eq0 {s : Store K V A} {i : Nat} {n : Inner K A} (h : s.getInner i = .ok n) :
    s.inners[i]? = some (some n) := by
  unfold Store.getInner at h
  split at h
  · next e => cases h; exact e
  · cases h

theorem KidOk.setInner {s : Store K V A} {c : NodeId} (h : KidOk s c) {j : Nat} {n : Inner K A}
    (hn : n.Fit) : KidOk (s.setInner j n) c := by
  cases c with
  | leaf i => exact h
  | inner i =>
    intro m hm
    have hm := getInner_eq0 hm
    simp only [Store.setInner, List.getElem?_set] at hm
    split at hm
    · split at hm
      · cases hm; exact hn
      · cases hm
    · exact h m (by simp [Store.getInner, hm])

theorem getLeaf_eq {s : Store K V A} {i : Nat} {n : Leaf K V} (h : s.getLeaf i = .ok n) :
    s.leaves[i]? = some (some n) := by
  unfold Store.getLeaf at h
  split at h
  · next e => cases h; exact e
  · cases h

theorem KidOk.setLeaf {s : Store K V A} {c : NodeId} (h : KidOk s c) {j : Nat} {n : Leaf K V}
    (hn : n.Fit) : KidOk (s.setLeaf j n) c := by
  cases c with
  | inner i => exact h
  | leaf i =>
    intro m hm
    have hm := getLeaf_eq hm
    simp only [Store.setLeaf, List.getElem?_set] at hm
    split at hm
    · split at hm
      · cases hm; exact hn
      · cases hm
    · exact h m (by simp [Store.getLeaf, hm])

theorem takeInner_eq {s s' : Store K V A} {j : Nat} {n : Inner K A} (h : s.takeInner j = .ok (n, s')) :
    s.getInner j = .ok n ∧ ∀ i m, s'.getInner i = .ok m → s.getInner i = .ok m := by
  unfold Store.takeInner at h
  split at h
  · next n' e =>
    obtain ⟨rfl, rfl⟩ := Prod.mk.inj (Except.ok.inj h)
    refine ⟨by simp [Store.getInner, e], fun i m hm => ?_⟩
    have hm := getInner_eq0 hm
    simp only [List.getElem?_set] at hm
    split at hm
    · split at hm <;> cases hm
    · simp [Store.getInner, hm]
  · cases h

theorem takeLeaf_eq {s s' : Store K V A} {j : Nat} {n : Leaf K V} (h : s.takeLeaf j = .ok (n, s')) :
    s.getLeaf j = .ok n ∧ ∀ i m, s'.getLeaf i = .ok m → s.getLeaf i = .ok m := by
  unfold Store.takeLeaf at h
  split at h
  · next n' e =>
    obtain ⟨rfl, rfl⟩ := Prod.mk.inj (Except.ok.inj h)
    refine ⟨by simp [Store.getLeaf, e], fun i m hm => ?_⟩
    have hm := getLeaf_eq hm
    simp only [List.getElem?_set] at hm
    split at hm
    · split at hm <;> cases hm
    · simp [Store.getLeaf, hm]
  · cases h

theorem childId_mem {n : Inner K A} {i : Nat} {c : NodeId} (h : n.childId i = .ok c) : c ∈ n.childs :=
  readAt_mem h

theorem inner_kid {s : Store K V A} {n : Inner K A} (a : ∀ c ∈ n.childs, KidOk s c) {i j : Nat}
    (hc : (do (← n.childId i).innerIdUnchecked : Res Nat) = .ok j) : KidOk s (.inner j) := by
  obtain ⟨c, h1, h2⟩ := bind_ok hc
  have := a c (childId_mem h1)
  cases c with
  | inner k => cases h2; exact this
  | leaf k => cases h2

theorem leaf_kid {s : Store K V A} {n : Inner K A} (a : ∀ c ∈ n.childs, KidOk s c) {i j : Nat}
    (hc : (do (← n.childId i).leafIdUnchecked : Res Nat) = .ok j) : KidOk s (.leaf j) := by
  obtain ⟨c, h1, h2⟩ := bind_ok hc
  have := a c (childId_mem h1)
  cases c with
  | leaf k => cases h2; exact this
  | inner k => cases h2

theorem pop_fit {n n' : Inner K A} {q : K × NodeId × A} (h : n.pop = .ok (q, n')) (hn : n.Fit) :
    n'.Fit ∧ n'.keys.length + 1 = n.keys.length := by
  unfold Inner.pop at h
  split at h
  · cases h
  next h0 =>
  obtain ⟨k1, h1, h⟩ := bind_ok h
  obtain ⟨c1, h2, h⟩ := bind_ok h
  obtain ⟨a1, h3, h⟩ := bind_ok h
  have h := (Prod.mk.inj (Except.ok.inj h)).2
  obtain ⟨e1, e2⟩ := hn
  rw [← h]
  simp only [Inner.Fit, Inner.len, List.length_take] at *
  omega

theorem popFront_fit {n n' : Inner K A} {q : K × NodeId × A} (h : n.popFront = .ok (q, n'))
    (hn : n.Fit) : n'.Fit ∧ n'.keys.length + 1 = n.keys.length := by
  unfold Inner.popFront at h
  obtain ⟨⟨k1, ks⟩, h1, h⟩ := bind_ok h
  obtain ⟨⟨c1, cs⟩, h2, h⟩ := bind_ok h
  obtain ⟨⟨a1, as⟩, h3, h⟩ := bind_ok h
  have h := (Prod.mk.inj (Except.ok.inj h)).2
  obtain ⟨-, -, e1, -⟩ := sliceRemove_eq h1
  obtain ⟨-, -, e3, -⟩ := sliceRemove_eq h3
  obtain ⟨f1, f2⟩ := hn
  rw [← h]
  simp only [Inner.Fit]
  omega

theorem push_fit {n n' : Inner K A} {k : K} {c : NodeId} {a : A} (h : n.push k c a = .ok n')
    (hn : n.Fit) : n'.Fit ∧ 1 ≤ n'.keys.length := by
  unfold Inner.push at h
  split at h
  · next h0 =>
    rw [← Except.ok.inj h]
    obtain ⟨f1, f2⟩ := hn
    simp only [Inner.Fit, Inner.len, innerN, List.length_append, List.length_singleton] at *
    omega
  · cases h

theorem pushFront_fit {n n' : Inner K A} {k : K} {c : NodeId} {a : A} (h : n.pushFront k c a = .ok n')
    (hn : n.Fit) : n'.Fit ∧ 1 ≤ n'.keys.length := by
  unfold Inner.pushFront at h
  split at h
  · next h0 =>
    rw [← Except.ok.inj h]
    obtain ⟨f1, f2⟩ := hn
    simp only [Inner.Fit, Inner.len, innerN, List.length_cons] at *
    omega
  · cases h

theorem mergeNext_fit {n n' r : Inner K A} {k : K} (h : n.mergeNext k r = .ok n') (hn : n.Fit)
    (hr : r.Fit) : n'.Fit ∧ 1 ≤ n'.keys.length := by
  unfold Inner.mergeNext at h
  split at h
  · cases h
  split at h
  · cases h
  next h0 =>
    rw [← Except.ok.inj h]
    obtain ⟨f1, f2⟩ := hn
    obtain ⟨g1, g2⟩ := hr
    simp only [Inner.Fit, Inner.len, innerN, List.length_append, List.length_cons] at *
    omega

theorem extend_eq {l l' : Leaf K V} {xs : List (K × V)} (h : l.extend xs = .ok l') :
    l'.data.length = l.data.length + xs.length ∧ l'.data.length ≤ 64 := by
  unfold Leaf.extend at h
  split at h
  · next h0 =>
    rw [← Except.ok.inj h]
    simp only [Leaf.len, leafN] at h0
    exact ⟨by simp, by simpa using h0⟩
  · cases h

/-- The predicate on traces. -/
abbrev argsOk {σ : Type} : Callback → σ → Prop := fun c _ => c.ArgsOk

section
variable [Augmentation K V A]

theorem newAugmentationT_args {σ : Type} {m : σ} {s : Store K V A} {i : NodeId} (h : SumOk s i) :
    (newAugmentationT m s i).All argsOk := by
  cases i with
  | inner i => exact Traced.all_lift_bind fun a ha =>
      Traced.all_call_bind ((h a ha).1.args (h a ha).2) Traced.all_pure
  | leaf i => exact Traced.all_lift_bind fun a ha => Traced.all_call_bind (h a ha).args Traced.all_pure

theorem rotRightT_args {pid : Nat} {s : Store K V A} {node : Inner K A}
    (hk : ∀ c ∈ node.childs, KidOk s c) (slot : Nat) :
    (tryRotateRightInnerT pid s node slot).All argsOk := by
  refine Traced.all_lift_bind fun ri hri => Traced.all_lift_bind fun li hli =>
    Traced.all_lift_bind fun prev hprev => ?_
  split
  · next hab =>
    refine Traced.all_lift_bind fun q hq => ?_
    obtain ⟨q, prev'⟩ := q
    obtain ⟨f1, f2⟩ := pop_fit hq (inner_kid hk hli _ hprev)
    have hab : 16 < prev.keys.length := of_decide_eq_true hab
    refine Traced.all_call_bind (f1.args (by omega)) ?_
    refine Traced.all_lift_bind fun q2 hq2 => ?_
    refine Traced.all_lift_bind fun right hright => Traced.all_lift_bind fun right' hright' => ?_
    obtain ⟨g1, g2⟩ := pushFront_fit hright' ((inner_kid hk hri).setInner f1 _ hright)
    refine Traced.all_call_bind (g1.args g2) ?_
    exact Traced.all_lift_bind fun _ _ => Traced.all_lift_bind fun _ _ => Traced.all_pure
  · exact Traced.all_pure

theorem rotLeftT_args {pid : Nat} {s : Store K V A} {node : Inner K A}
    (hk : ∀ c ∈ node.childs, KidOk s c) (slot : Nat) :
    (tryRotateLeftInnerT pid s node slot).All argsOk := by
  refine Traced.all_lift_bind fun ri hri => Traced.all_lift_bind fun li hli =>
    Traced.all_lift_bind fun prev hprev => ?_
  split
  · next hab =>
    refine Traced.all_lift_bind fun q hq => ?_
    obtain ⟨q, prev'⟩ := q
    obtain ⟨f1, f2⟩ := popFront_fit hq (inner_kid hk hri _ hprev)
    have hab : 16 < prev.keys.length := of_decide_eq_true hab
    refine Traced.all_call_bind (f1.args (by omega)) ?_
    refine Traced.all_lift_bind fun q2 hq2 => ?_
    refine Traced.all_lift_bind fun right hright => Traced.all_lift_bind fun right' hright' => ?_
    obtain ⟨g1, g2⟩ := push_fit hright' ((inner_kid hk hli).setInner f1 _ hright)
    refine Traced.all_call_bind (g1.args g2) ?_
    exact Traced.all_lift_bind fun _ _ => Traced.all_lift_bind fun _ _ => Traced.all_pure
  · exact Traced.all_pure

theorem mergeInnerT_args {pid : Nat} {s : Store K V A} {node : Inner K A}
    (hk : ∀ c ∈ node.childs, KidOk s c) (slot : Nat) :
    (mergeInnerNodeT pid s node slot).All argsOk := by
  refine Traced.all_guard fun _ => ?_
  refine Traced.all_lift_bind fun li hli => Traced.all_lift_bind fun ri hri =>
    Traced.all_lift_bind fun q hq => Traced.all_lift_bind fun q2 hq2 => ?_
  obtain ⟨right, s1⟩ := q2
  obtain ⟨e1, e2⟩ := takeInner_eq hq2
  refine Traced.all_lift_bind fun left hleft => Traced.all_lift_bind fun left' hleft' => ?_
  obtain ⟨g1, g2⟩ := mergeNext_fit hleft' (inner_kid hk hli _ (e2 _ _ hleft)) (inner_kid hk hri _ e1)
  refine Traced.all_call_bind (g1.args g2) ?_
  exact Traced.all_lift_bind fun _ _ => Traced.all_pure

theorem handleInnerT_args {pid : Nat} {s : Store K V A} {st : Statistic} {node : Inner K A}
    (hk : ∀ c ∈ node.childs, KidOk s c) (i : Nat) (kv : K × V) :
    (handleInnerUnderSizeT pid s st node i kv).All argsOk := by
  refine Traced.all_bind ?_ fun rotR _ => ?_
  · split
    · exact Traced.all_mapMem (rotRightT_args hk _)
    · exact Traced.all_pure
  cases rotR with
  | some q => exact Traced.all_pure
  | none =>
    refine Traced.all_bind ?_ fun rotL _ => ?_
    · split
      · exact Traced.all_mapMem (rotLeftT_args hk _)
      · exact Traced.all_pure
    cases rotL with
    | some q => exact Traced.all_pure
    | none =>
      simp only
      split
      all_goals
        refine Traced.all_bind (Traced.all_mapMem (mergeInnerT_args hk _)) fun q _ => ?_
        split <;> exact Traced.all_pure

theorem rotRightLeafT_args {pid : Nat} {s : Store K V A} {node : Inner K A}
    (hk : ∀ c ∈ node.childs, KidOk s c) (slot idx : Nat) :
    (rotateRightForLeafT pid s node slot idx).All argsOk := by
  refine Traced.all_lift_bind fun li hli => Traced.all_lift_bind fun ri hri =>
    Traced.all_lift_bind fun left hleft => Traced.all_guard fun _ =>
    Traced.all_lift_bind fun q hq => ?_
  obtain ⟨kv, left'⟩ := q
  obtain ⟨-, -, f1, f2, -⟩ := leafPop_eq hq
  have f2 := List.length_pos_of_ne_nil f2
  have hl := leaf_kid hk hli _ hleft
  have hfit : left'.Fit := ⟨f2, by have := hl.2; omega⟩
  refine Traced.all_call_bind hfit.args <| Traced.all_lift_bind fun _ _ =>
    Traced.all_call_bind trivial <| Traced.all_lift_bind fun right hright =>
    Traced.all_lift_bind fun q2 hq2 => ?_
  obtain ⟨dl, right'⟩ := q2
  obtain ⟨-, -, g1, g2, -⟩ := deleteWithPushFront_eq hq2
  have hr := (leaf_kid hk hri).setLeaf hfit _ hright
  have hfit' : right'.Fit := ⟨by have := hr.1; omega, by have := hr.2; omega⟩
  exact Traced.all_call_bind hfit'.args <| Traced.all_lift_bind fun _ _ =>
    Traced.all_lift_bind fun _ _ => Traced.all_pure

theorem rotLeftLeafT_args {pid : Nat} {s : Store K V A} {node : Inner K A}
    (hk : ∀ c ∈ node.childs, KidOk s c) (slot idx : Nat) :
    (rotateLeftForLeafT pid s node slot idx).All argsOk := by
  refine Traced.all_lift_bind fun li hli => Traced.all_lift_bind fun ri hri =>
    Traced.all_lift_bind fun left hleft => Traced.all_guard fun _ =>
    Traced.all_lift_bind fun q hq => ?_
  obtain ⟨kv, left'⟩ := q
  obtain ⟨-, -, f1, f2, -⟩ := leafPopFront_eq hq
  have f2 := List.length_pos_of_ne_nil f2
  have hl := leaf_kid hk hri _ hleft
  have hfit : left'.Fit := ⟨f2, by have := hl.2; omega⟩
  refine Traced.all_call_bind hfit.args <| Traced.all_lift_bind fun _ _ =>
    Traced.all_lift_bind fun _ _ =>
    Traced.all_call_bind trivial <| Traced.all_lift_bind fun right hright =>
    Traced.all_lift_bind fun q2 hq2 => ?_
  obtain ⟨dl, right'⟩ := q2
  obtain ⟨-, -, g1, g2, -⟩ := deleteWithPush_eq hq2
  have hr := (leaf_kid hk hli).setLeaf hfit _ hright
  have hfit' : right'.Fit := ⟨by have := hr.1; omega, by have := hr.2; omega⟩
  exact Traced.all_call_bind hfit'.args <| Traced.all_lift_bind fun _ _ =>
    Traced.all_lift_bind fun _ _ => Traced.all_pure

theorem mergeLeafLeftT_args {pid : Nat} {s : Store K V A} {node : Inner K A}
    (hk : ∀ c ∈ node.childs, KidOk s c) (slot idx : Nat) :
    (mergeLeafNodeLeftT pid s node slot idx).All argsOk := by
  refine Traced.all_lift_bind fun li hli => Traced.all_lift_bind fun ri hri =>
    Traced.all_lift_bind fun q hq => ?_
  obtain ⟨right, s1⟩ := q
  obtain ⟨e1, e2⟩ := takeLeaf_eq hq
  refine Traced.all_lift_bind fun left hleft => Traced.all_lift_bind fun q2 hq2 => ?_
  obtain ⟨kv, left'⟩ := q2
  have hfit : left'.Fit := by
    have hl := leaf_kid hk hli _ (e2 _ _ hleft)
    obtain ⟨kv1, h1, hq2⟩ := bind_ok hq2
    obtain ⟨l1, h2, hq2⟩ := bind_ok hq2
    obtain ⟨l2, h3, hq2⟩ := bind_ok hq2
    have hq2 := (Prod.mk.inj (Except.ok.inj hq2)).2
    rw [← hq2]
    obtain ⟨a1, a2⟩ := extend_eq h2
    obtain ⟨b1, b2⟩ := extend_eq h3
    exact ⟨by have := hl.1; simp only; omega, b2⟩
  exact Traced.all_call_bind hfit.args <| Traced.all_lift_bind fun _ _ =>
    Traced.all_lift_bind fun _ _ => Traced.all_lift_bind fun _ _ => Traced.all_pure

theorem mergeLeafRightT_args {pid : Nat} {s : Store K V A} {node : Inner K A}
    (hk : ∀ c ∈ node.childs, KidOk s c) (slot idx : Nat) :
    (mergeLeafNodeWithRightT pid s node slot idx).All argsOk := by
  refine Traced.all_lift_bind fun li hli => Traced.all_lift_bind fun ri hri =>
    Traced.all_lift_bind fun q hq => ?_
  obtain ⟨right, s1⟩ := q
  obtain ⟨e1, e2⟩ := takeLeaf_eq hq
  refine Traced.all_lift_bind fun left hleft => Traced.all_lift_bind fun q2 hq2 =>
    Traced.all_lift_bind fun left2 hq3 => ?_
  obtain ⟨kv, left'⟩ := q2
  have hfit : left2.Fit := by
    have hr := leaf_kid hk hri _ e1
    obtain ⟨l2, h3, hq3⟩ := bind_ok hq3
    rw [← Except.ok.inj hq3]
    obtain ⟨b1, b2⟩ := extend_eq h3
    exact ⟨by have := hr.1; simp only; omega, b2⟩
  exact Traced.all_call_bind hfit.args <| Traced.all_lift_bind fun _ _ =>
    Traced.all_lift_bind fun _ _ => Traced.all_lift_bind fun _ _ => Traced.all_pure

theorem handleLeafT_args {pid : Nat} {s : Store K V A} {st : Statistic} {node : Inner K A}
    (hk : ∀ c ∈ node.childs, KidOk s c) (i idx : Nat) :
    (handleLeafUnderSizeT pid s st node i idx).All argsOk := by
  refine Traced.all_lift_bind fun _ _ => Traced.all_lift_bind fun _ _ =>
    Traced.all_lift_bind fun fx _ => ?_
  cases fx with
  | rotateRight =>
    exact Traced.all_bind (Traced.all_mapMem (rotRightLeafT_args hk _ _)) fun _ _ => Traced.all_pure
  | rotateLeft =>
    exact Traced.all_bind (Traced.all_mapMem (rotLeftLeafT_args hk _ _)) fun _ _ => Traced.all_pure
  | mergeLeft =>
    exact Traced.all_bind (Traced.all_mapMem (mergeLeafLeftT_args hk _ _)) fun _ _ => Traced.all_pure
  | mergeRight =>
    exact Traced.all_bind (Traced.all_mapMem (mergeLeafRightT_args hk _ _)) fun _ _ => Traced.all_pure

/-! ## Along the path -/

omit [Augmentation K V A] in
theorem T.sumOk {s : Store K V A} {μ m h : Nat} {r : Bool} {x : T K V A h} (hx : x.ShapeTop μ m r)
    (h1 : 1 ≤ m) (hlv : ∀ y ∈ x.leaves, ∃ p n, s.leaves[y.1]? = some (some ⟨y.2, p, n⟩))
    (hm : IMem s.inners x.nodes) : SumOk s x.nid := by
  cases h with
  | zero =>
    intro l hl
    obtain ⟨p, n, hp⟩ := hlv (GLeaf.id x, GLeaf.data x) (by simp [T.leaves])
    rw [getLeaf_eq hl] at hp
    cases hp
    exact ⟨le_trans h1 hx.1, hx.2⟩
  | succ h =>
    intro n hn
    have := hm.get nodes_head
    rw [this] at hn
    cases hn
    exact ⟨⟨hx.2.1, hx.2.2.2.1⟩, le_trans h1 hx.1⟩

omit [Augmentation K V A] in
theorem SumOk.kid {s : Store K V A} {c : NodeId} (h : SumOk s c) : KidOk s c := by
  cases c with
  | leaf i => exact h
  | inner i => exact fun n hn => (h n hn).1

omit [Augmentation K V A] in
theorem T.kidOk {s : Store K V A} {μ m h : Nat} {r : Bool} {x : T K V A (h + 1)}
    (hx : x.ShapeTop μ m r) (hm : IMem s.inners x.nodes) : KidOk s x.nid := by
  intro n hn
  have := hm.get nodes_head
  rw [this] at hn
  cases hn
  exact ⟨hx.2.1, hx.2.2.2.1⟩

theorem mnAt_pos {μ : Nat} (hμ1 : 1 ≤ μ) (h : Nat) (r : Bool) : 1 ≤ mnAt μ h r := by
  cases r <;> cases h <;> simp [mnAt, hμ1]

omit [Augmentation K V A] in
theorem Frame.kids {s : Store K V A} {μ h : Nat} {f : Frame K A (T K V A h)} {r : Bool} {i : NodeId}
    (hS : f.Sides μ r) (hi : KidOk s i)
    (hlv : ∀ y ∈ f.lvL ++ f.lvR, ∃ p n, s.leaves[y.1]? = some (some ⟨y.2, p, n⟩))
    (hm : IMem s.inners f.side) : ∀ c ∈ (f.inner i).childs, KidOk s c := by
  intro c hc
  simp only [Frame.inner, List.mem_append, List.mem_map, List.mem_cons] at hc
  have side : ∀ y, y ∈ f.kidsL ∨ y ∈ f.kidsR → ∀ m r, (h = 0 → 1 ≤ m) → y.ShapeTop μ m r →
      KidOk s y.nid := by
    intro y hy m r h0 hyS
    have hmy : IMem s.inners y.nodes := fun p hp => hm p (by
      simp only [Frame.side, List.mem_append, List.mem_flatMap]
      exact hy.imp (fun h => ⟨y, h, hp⟩) (fun h => ⟨y, h, hp⟩))
    cases h with
    | zero =>
      refine (T.sumOk hyS (h0 rfl) (fun z hz => hlv z ?_) hmy).kid
      simp only [Frame.lvL, Frame.lvR, List.mem_append, List.mem_flatMap]
      exact hy.imp (fun h => ⟨y, h, hz⟩) (fun h => ⟨y, h, hz⟩)
    | succ h => exact T.kidOk hyS hmy
  rcases hc with ⟨y, hy, rfl⟩ | rfl | ⟨y, hy, rfl⟩
  · exact side y (.inl hy) _ _ (fun _ => by omega) (hS.1 y hy)
  · exact hi
  · rcases spine_mem hS.2 y hy with h' | h'
    · exact side y (.inr hy) _ _ (fun _ => by omega) h'
    · refine side y (.inr hy) _ _ (fun h0 => ?_) h'
      subst h0
      cases r <;> simp [mnAt]

theorem remAscendT_args {μ : Nat} (hμ1 : 1 ≤ μ) (hμ : μ ≤ 16) {h H : Nat} {c : Ctx K V A h H} {s : Store K V A}
    {st : Statistic} {x : T K V A h} {kv : K × V} {d : DeleteResult K V}
    (hc : c.Shape μ) (ho : Out μ (c.min μ) c.flag x kv d)
    (hlv : ∀ y ∈ c.lvL ++ x.leaves ++ c.lvR, ∃ p n, s.leaves[y.1]? = some (some ⟨y.2, p, n⟩))
    (hm : IMem s.inners (x.nodes ++ c.nodes x.nid))
    (hn : ((x.nodes ++ c.nodes x.nid).map (·.1)).Nodup) :
    (removeAscendT s st (c.stack x.nid) d).All argsOk := by
  induction c generalizing s st d with
  | nil => exact Traced.all_pure
  | @cons h H f c ih =>
    obtain ⟨hS, hmin, h64, hf, hcs⟩ := hc
    simp only [Ctx.nodes, ← List.append_assoc] at hm hn
    have hget : s.inners[f.id]? = some (some (f.inner x.nid)) :=
      hm (f.id, f.inner x.nid) (by simp [Frame.nodes])
    have hxl : ∀ y ∈ x.leaves, ∃ p n, s.leaves[y.1]? = some (some ⟨y.2, p, n⟩) :=
      fun y hy => hlv y (List.mem_append_left _ (List.mem_append_right _ hy))
    have hxm : IMem s.inners x.nodes := fun p hp => hm p (by simp [hp])
    have hsm : IMem s.inners f.side := fun p hp => hm p (by simp [Frame.nodes, hp])
    have hsl : ∀ y ∈ f.lvL ++ f.lvR, ∃ p n, s.leaves[y.1]? = some (some ⟨y.2, p, n⟩) := by
      intro y hy
      apply hlv y
      simp only [List.mem_append] at hy
      simp only [Ctx.lvL, Ctx.lvR, List.mem_append]
      tauto
    have h1 : 1 ≤ f.len := by
      by_contra h0
      have := Ctx.min_zero (μ := μ) (c := c) (by omega)
      omega
    have hstep : ∃ g d1 inners st1,
        RemStep μ (c.min μ) c.flag s st f x (c.nodes (.inner f.id)) d kv g d1 inners st1 := by
      rcases ho with ⟨rfl, ho⟩ | ⟨rfl, ho⟩
      · exact done_step hf h64 hS hmin hxl hm hn ho
      · cases h with
        | zero => exact ho.elim
        | succ h => exact inner_step hμ (Ctx.min_le hμ) hf h64 hS hmin h1 hm hn ho
    obtain ⟨g, d1, inners, st1, hs⟩ := hstep
    have hrec := ih (s := { s with inners := inners }) (st := st1) (d := d1) (x := g) hcs hs.out
      (by
        intro y hy
        apply hlv y
        rw [hs.leaves] at hy
        simpa [Ctx.lvL, Ctx.lvR] using hy)
      (by rw [hs.nid]; exact hs.imem) (by rw [hs.nid]; exact hs.nodup)
    rw [hs.nid] at hrec
    have hrun := hs.run []
    simp only [Ctx.stack]
    rcases ho with ⟨rfl, ho⟩ | ⟨rfl, ho⟩
    · refine Traced.all_bind (newAugmentationT_args (T.sumOk ho ?_ hxl hxm)) fun a ha =>
        Traced.all_lift_bind fun nd hnd => Traced.all_lift_bind fun nd' hnd' => ?_
      · exact mnAt_pos hμ1 h _
      rw [newAugmentationT_result] at ha
      simp only [removeAscend, ha, hnd, hnd', ok_bind, pure_ok] at hrun
      have hrun := Except.ok.inj hrun
      simp only [Prod.mk.injEq] at hrun
      obtain ⟨rfl, e2, rfl⟩ := hrun
      rw [e2]
      exact hrec
    · cases h with
      | zero => exact ho.elim
      | succ h =>
        refine Traced.all_lift_bind fun nd hnd => ?_
        have hnd := getInner_eq hnd
        rw [hget] at hnd
        cases hnd
        have hgi : s.getInner f.id = .ok (f.inner x.nid) := by simp [Store.getInner, hget]
        simp only [removeAscend, hgi, ok_bind] at hrun
        obtain ⟨⟨r', s', st', nd'⟩, hh, hrun⟩ := bind_ok hrun
        have hrun := Except.ok.inj hrun
        simp only [Prod.mk.injEq] at hrun
        obtain ⟨rfl, e2, rfl⟩ := hrun
        refine Traced.all_bind (handleInnerT_args (Frame.kids hS (T.kidOk ho.1 hxm) hsl hsm) _ _)
          fun q hq => ?_
        rw [handleInnerUnderSizeT_result, hh] at hq
        cases hq
        simp only
        rw [e2]
        exact hrec

/-! ## Insertions -/

omit [Augmentation K V A] in
/-- Both trees may be summarised. -/
def Up.Sum (s : Store K V A) {h : Nat} : Up K V A h → Prop
  | .one x => SumOk s x.nid
  | .two x _ y => SumOk s x.nid ∧ SumOk s y.nid

omit [Augmentation K V A] in
theorem Up.sumOk {μ : Nat} {s : Store K V A} {m h : Nat} {r : Bool} {u : Up K V A h} (hu : u.Shape μ m r)
    (h1 : 1 ≤ m) (hlv : ∀ y ∈ u.leaves, ∃ p n, s.leaves[y.1]? = some (some ⟨y.2, p, n⟩))
    (hm : IMem s.inners u.nodes) : u.Sum s := by
  cases u with
  | one x => exact T.sumOk hu h1 hlv hm
  | two x k y =>
    exact ⟨T.sumOk hu.1 (by omega) (fun z hz => hlv z (by simp [Up.leaves, hz]))
        (fun p hp => hm p (by simp [Up.nodes, hp])),
      T.sumOk hu.2 (by omega) (fun z hz => hlv z (by simp [Up.leaves, hz]))
        (fun p hp => hm p (by simp [Up.nodes, hp]))⟩

omit [Augmentation K V A] in
theorem Up.Sum.fst {s : Store K V A} {h : Nat} {u : Up K V A h} (hu : u.Sum s) : SumOk s u.nid := by
  cases u with
  | one x => exact hu
  | two x k y => exact hu.1

omit [Augmentation K V A] in
theorem Up.Sum.snd {s : Store K V A} {h : Nat} {u : Up K V A h} (hu : u.Sum s) {k : K} {i : NodeId}
    (hr : u.Res (.split k i)) : SumOk s i := by
  cases u with
  | one x => exact hr.elim
  | two x k y => rw [hr.2]; exact hu.2

theorem insertAscendT_args {μ : Nat} (hμ1 : 1 ≤ μ) (hμ : μ ≤ 16) {h H : Nat} {c : Ctx K V A h H} {s : Store K V A}
    {u : Up K V A h} {r : InsertResult K V} {x0 : T K V A h} (hid : u.nid = x0.nid)
    (hc : c.Shape μ) (hu : u.Shape μ (c.min μ) c.flag)
    (hlv : ∀ y ∈ c.lvL ++ u.leaves ++ c.lvR, ∃ p n, s.leaves[y.1]? = some (some ⟨y.2, p, n⟩))
    (hm : IMem s.inners (u.nodes ++ c.nodes u.nid))
    (hn : ((u.nodes ++ c.nodes u.nid).map (·.1)).Nodup) (hr : u.Res r) :
    (insertAscendT s (c.stack u.nid) r).All argsOk ∧
    ∃ (u' : Up K V A H) (r' : InsertResult K V) (s' : Store K V A),
      insertAscend s (c.stack u.nid) r = .ok (s', r') ∧ u'.Res r' ∧ u'.nid = (c.plug x0).nid ∧
      (u.Sum s → u'.Sum s') := by
  induction c generalizing s r with
  | nil => exact ⟨Traced.all_pure, u, r, s, rfl, hr, hid, fun h => h⟩
  | @cons h H f c ih =>
    obtain ⟨hS, hmin, h64, hf, hcs⟩ := hc
    simp only [Ctx.nodes, ← List.append_assoc] at hm hn
    obtain ⟨u1, r1, inners, st⟩ := ascend_step (s := s) (f := f) (u := u)
      (Lc := c.nodes (.inner f.id)) hf h64
      (fun y hy => hlv y (by simp [hy])) hm hn hr
    have hlv1 : ∀ y ∈ c.lvL ++ u1.leaves ++ c.lvR, ∃ p n,
        ({ s with inners := inners } : Store K V A).leaves[y.1]? = some (some ⟨y.2, p, n⟩) := by
      rw [st.leaves]
      intro y hy
      exact hlv y (by simpa [Ctx.lvL, Ctx.lvR, or_assoc] using hy)
    have hu1 := st.shape μ (c.min μ) c.flag hμ hS hmin hu
    obtain ⟨hall, u', r', s', h1, h2, h3, h4⟩ := ih (s := { s with inners := inners }) (u := u1)
      (r := r1) (x0 := f.fill x0) (by rw [st.nid]; rfl) hcs hu1 hlv1
      (by rw [st.nid]; exact st.imem) (by rw [st.nid]; exact st.nodup) st.res
    have hsum : u.Sum s := Up.sumOk hu (mnAt_pos hμ1 h _)
      (fun y hy => hlv y (by simp [hy])) (fun p hp => hm p (by simp [hp]))
    have hsum1 : u1.Sum ({ s with inners := inners } : Store K V A) := by
      have hm1 : IMem inners u1.nodes := fun p hp => st.imem p (by simp [hp])
      have hl1 : ∀ y ∈ u1.leaves, ∃ p n,
        ({ s with inners := inners } : Store K V A).leaves[y.1]? = some (some ⟨y.2, p, n⟩) :=
        fun y hy => hlv1 y (by simp [hy])
      refine Up.sumOk hu1 ?_ hl1 hm1
      cases c with
      | nil => exact le_refl 1
      | cons f' c' => exact mnAt_pos hμ1 _ _
    rw [st.nid] at hall h1
    refine ⟨?_, u', r', s', ?_, h2, h3, fun _ => h4 hsum1⟩
    · have hrun := st.run []
      simp only [Ctx.stack]
      cases r with
      | inserted =>
        refine Traced.all_bind (newAugmentationT_args hsum.fst) fun a ha =>
          Traced.all_lift_bind fun nd hnd => Traced.all_lift_bind fun nd' hnd' => ?_
        rw [newAugmentationT_result] at ha
        simp only [insertAscend, ha, hnd, hnd', ok_bind, pure_ok] at hrun
        obtain ⟨e1, rfl⟩ := Prod.mk.inj (Except.ok.inj hrun)
        rw [e1]
        exact hall
      | updated v =>
        refine Traced.all_bind (newAugmentationT_args hsum.fst) fun a ha =>
          Traced.all_lift_bind fun nd hnd => Traced.all_lift_bind fun nd' hnd' => ?_
        rw [newAugmentationT_result] at ha
        simp only [insertAscend, ha, hnd, hnd', ok_bind, pure_ok] at hrun
        obtain ⟨e1, rfl⟩ := Prod.mk.inj (Except.ok.inj hrun)
        rw [e1]
        exact hall
      | split k rc =>
        refine Traced.all_bind (newAugmentationT_args (hsum.snd hr)) fun a ha =>
          Traced.all_bind (newAugmentationT_args hsum.fst) fun b hb =>
          Traced.all_lift_bind fun nd hnd => Traced.all_lift_bind fun nd' hnd' => ?_
        rw [newAugmentationT_result] at ha hb
        simp only [insertAscend, ha, hb, hnd, hnd', ok_bind] at hrun
        split
        · next hfull =>
          rw [if_pos hfull] at hrun
          refine Traced.all_lift_bind fun nd2 hnd2 => ?_
          simp only [hnd2, ok_bind, pure_ok] at hrun
          obtain ⟨e1, rfl⟩ := Prod.mk.inj (Except.ok.inj hrun)
          rw [e1]
          exact hall
        · next hfull =>
          rw [if_neg hfull] at hrun
          refine Traced.all_lift_bind fun nd2 hnd2 => ?_
          simp only [hnd2, ok_bind, pure_ok] at hrun
          obtain ⟨e1, rfl⟩ := Prod.mk.inj (Except.ok.inj hrun)
          simp only
          rw [e1]
          exact hall
    · simp only [Ctx.stack]
      rw [st.run]
      exact h1

theorem finishInsertT_args {t : Tree K V A} {s : Store K V A} {H : Nat} {u : Up K V A H}
    {r : InsertResult K V} (hroot : t.root = u.nid) (hr : u.Res r) (hu : u.Sum s) :
    (t.finishInsertT s r).All argsOk := by
  have h1 := newAugmentationT_args (m := s) (hroot ▸ hu.fst)
  cases r with
  | inserted => exact Traced.all_bind h1 fun _ _ => Traced.all_pure
  | updated v => exact Traced.all_bind h1 fun _ _ => Traced.all_pure
  | split k rc =>
    refine Traced.all_bind h1 fun _ _ => Traced.all_bind (newAugmentationT_args (hu.snd hr)) fun _ _ =>
      Traced.all_lift_bind fun n hn => Traced.all_call_bind ?_ Traced.all_pure
    cases hn
    exact ⟨le_refl _, by simp, rfl⟩

omit [Augmentation K V A] in
theorem insertLeafT_args (o : Answers K) (s : Store K V A) (id : Nat) (k : K) (v : V) :
    (insertLeafT o s id k v).All argsOk := by
  refine Traced.all_mono ?_ (insertLeafT_kind o s id k v)
  rintro c m (rfl | rfl) <;> trivial

theorem insertT_args {μ : Nat} (hμ1 : 1 ≤ μ) {t : Tree K V A} {l : List (K × V)} (h : UInvM μ t l) (hl1 : t.len + 1 < 2 ^ 64)
    (o : Answers K) (k : K) (v : V) : (t.insertT o k v).All argsOk := by
  obtain ⟨H, g, w, hl⟩ := h.ghost
  obtain ⟨c, x, hp, hlen, hdesc⟩ := descend_stackU w (w.depth h.lt) o
  obtain ⟨hcS, hxS⟩ := Ctx.shape_plug.1 ⟨hp ▸ w.shape, hlen⟩
  have hleaves : g.leaves = c.lvL ++ (x.id, x.data) :: c.lvR := by
    rw [← hp, Ctx.leaves_plug]; simp [T.leaves]
  obtain ⟨slot, hslot, hin⟩ := locateSlotU_ok o ⟨x.data, lstId none c.lvL, hdId c.lvR none⟩
  obtain ⟨s1, r, u, hins, li⟩ := insertLeafAt_ok (s := t.store) (LA := c.lvL) (LB := c.lvR) (id := x.id)
    (d := x.data) (hleaves ▸ w.seg) (hleaves ▸ w.lnodup) (hleaves ▸ w.live) hxS.2 hin k v
  have hget := w.flat.get hleaves
  have hinsU : insertLeafU o t.store x.id k v = .ok (s1, r) := by
    unfold insertLeafU
    simp only at hget
    rw [hget]
    simp only [ok_bind, hslot, hins]
  have hnodes : u.nodes = [] := by
    cases u <;> rfl
  have hg : g.nodes.Perm (u.nodes ++ c.nodes u.nid) := by
    rw [hnodes, li.nid, ← hp]
    exact Ctx.nodes_plug
  have hm : IMem s1.inners (u.nodes ++ c.nodes u.nid) := by
    rw [li.inners]; exact w.imem.perm hg
  have hn : ((u.nodes ++ c.nodes u.nid).map (·.1)).Nodup := (List.Perm.ids hg).1 w.inodup
  have hlv : ∀ y ∈ c.lvL ++ u.leaves ++ c.lvR, ∃ p n,
      s1.leaves[y.1]? = some (some ⟨y.2, p, n⟩) := by
    intro y hy
    obtain ⟨a, b, hab⟩ := List.append_of_mem hy
    have := li.seg
    rw [hab] at this
    exact ⟨_, _, this.get⟩
  have h64 : x.data.length ≤ 64 := hxS.2
  -- the leaves after the insertion are not empty, and large enough
  have hu : ∀ m, m ≤ 16 → m ≤ x.data.length ∨ m = 1 → u.Shape μ m c.flag := by
    intro m hm16 hlow
    rcases li.cases with ⟨a, k0, v0, b, e, -, -, rfl⟩ | ⟨a, b, e, -, h4, -, rfl⟩ |
      ⟨a, b, i, d1, m, w, d2, e, -, h3, h4, h5, h6, h7, -, rfl⟩
    · rw [e] at hlow h64
      simp only [List.length_append, List.length_cons] at hlow h64
      exact ⟨by simp only [List.length_append, List.length_cons]; omega,
        by simp only [List.length_append, List.length_cons]; omega⟩
    · rw [e] at hlow h4
      simp only [List.length_append] at hlow h4
      exact ⟨by simp only [List.length_append, List.length_cons]; omega,
        by simp only [List.length_append, List.length_cons]; omega⟩
    · exact ⟨⟨by simp only; omega, by simp only; omega⟩,
        ⟨by simp only [List.length_cons]; omega, by simp only [List.length_cons]; omega⟩⟩
  have hsum : u.Sum s1 := Up.sumOk (hu 1 (by omega) (.inr rfl)) (le_refl _)
    (fun y hy => hlv y (by simp [hy])) (fun p hp => hm p (by simp [hp]))
  have hid : u.nid = T.nid (K := K) (V := V) (A := A) (h := 0) x := li.nid
  obtain ⟨hall, u', r', s', h1, h2, h3, h4⟩ := insertAscendT_args hμ1 h.le (x0 := x) hid hcS
    (hu _ (Ctx.min_le h.le) (.inl hxS.1)) hlv hm hn li.res
  rw [li.nid] at hall h1
  have hasc : ∀ s2 r2 st id, descendLeaf t.store (stackStepU o) [] t.root = .ok (st, id) →
      insertLeafU o t.store id k v = .ok (s2, r2) →
      st = c.stack (.leaf x.id) ∧ s2 = s1 ∧ r2 = r := by
    intro s2 r2 st id h1 h2
    rw [hdesc] at h1
    obtain ⟨rfl, rfl⟩ := Prod.mk.inj (Except.ok.inj h1)
    rw [hinsU] at h2
    obtain ⟨rfl, rfl⟩ := Prod.mk.inj (Except.ok.inj h2)
    exact ⟨rfl, rfl, rfl⟩
  refine Traced.all_mapMem (Traced.all_bind ?_ ?_)
  · cases hroot' : t.root with
    | leaf i => exact insertLeafT_args o _ i k v
    | inner i =>
      rw [hroot'] at hdesc
      refine Traced.all_call_bind trivial <|
        Traced.all_lift_bind fun p hp => Traced.all_bind (insertLeafT_args o _ _ k v) fun q hq => ?_
      obtain ⟨st, id⟩ := p
      obtain ⟨s2, r2⟩ := q
      rw [insertLeafT_result] at hq
      rw [hroot'] at hasc
      obtain ⟨rfl, rfl, rfl⟩ := hasc s2 r2 st id hp hq
      exact hall
  · rintro ⟨s2, r2⟩ e2
    rw [descendInsertT_result, descendInsertU_eq, hdesc] at e2
    simp only [ok_bind, hinsU] at e2
    rw [h1] at e2
    obtain ⟨rfl, rfl⟩ := Prod.mk.inj (Except.ok.inj e2)
    exact finishInsertT_args (by rw [w.root, h3, hp]) h2 (h4 hsum)

end

/-! ## Removals -/

section
variable [LinearOrder K] [Augmentation K V A]

theorem removeByRefT_args {μ : Nat} (hμ1 : 1 ≤ μ) (hμ : μ ≤ 16) {t t' : Tree K V A} {H H' : Nat} {g : T K V A H} {g' : T K V A H'}
    (w : WF0 μ t g) {c : Ctx K V A 0 H} {i : Nat} {d1 d2 : List (K × V)} {kv : K × V}
    (hp : c.plug ⟨i, d1 ++ kv :: d2⟩ = g) (hlen : c.LenOK)
    (hrun : t.removeByRef ⟨c.stack (.leaf i), i, d1.length⟩ = .ok (kv, t')) (w' : WF0 μ t' g')
    (hl' : t'.len + 1 = t.len) :
    (t.removeByRefT ⟨c.stack (.leaf i), i, d1.length⟩).All (fun cb _ =>
      cb.ArgsOk ∨ (cb = .fromLeaf 0 ∧ t.len = 1)) ∧
    (t.len = 1 → ∃ m, (.fromLeaf 0, m) ∈ (t.removeByRefT ⟨c.stack (.leaf i), i, d1.length⟩).trace ∧
      m.len = 1 ∧ m.drop = .error .panic) := by
  obtain ⟨hcS, hxS⟩ := Ctx.shape_plug.1 ⟨hp ▸ w.shape, hlen⟩
  have hleaves : g.leaves = c.lvL ++ (i, d1 ++ kv :: d2) :: c.lvR := by
    rw [← hp, Ctx.leaves_plug]; simp [T.leaves]
  have hseg := w.seg
  have hlnd := w.lnodup
  have hlive := w.live
  rw [hleaves] at hseg hlnd hlive
  have hg : g.nodes.Perm (c.nodes (.leaf i)) := by
    rw [← hp]; exact Ctx.nodes_plug
  have hm := w.imem.perm hg
  have hn := (List.Perm.ids hg).1 w.inodup
  have hget : t.store.getLeaf i = .ok ⟨d1 ++ kv :: d2, lstId none c.lvL, hdId c.lvR none⟩ :=
    hseg.getLeaf
  have hget' : t.store.leaves[i]? = some (some ⟨d1 ++ kv :: d2, lstId none c.lvL, hdId c.lvR none⟩) :=
    hseg.get
  have h64 : (d1 ++ kv :: d2).length ≤ 64 := hxS.2
  have hlow : c.min μ ≤ (d1 ++ kv :: d2).length := hxS.1
  have hxl : (d1 ++ kv :: d2).length = d1.length + d2.length + 1 := by simp; omega
  have hmin16 := Ctx.min_le hμ (c := c)
  rw [← removeByRefT_result] at hrun
  unfold Tree.removeByRefT at hrun ⊢
  simp only [Traced.result_bind] at hrun
  obtain ⟨leaf, e1, hrun⟩ := bind_ok hrun
  obtain ⟨⟨l1, dr⟩, e2, hrun⟩ := bind_ok hrun
  obtain ⟨⟨r, s1, st1⟩, e3, hrun⟩ := bind_ok hrun
  simp only [Traced.result_bind] at hrun
  obtain ⟨⟨kv', s2, root⟩, e4, hrun⟩ := bind_ok hrun
  obtain ⟨a, e5, hrun⟩ := bind_ok hrun
  rw [if_neg (by omega)] at hrun
  have hrun := (Prod.mk.inj (Except.ok.inj hrun)).2
  have ht1 : t'.store = s2 := by rw [← hrun]
  have ht2 : t'.root = root := by rw [← hrun]
  simp only [Traced.result_lift] at e1 e2 e4
  have e3' := e3
  rw [Traced.result_mapMem, removeAscendT_result] at e3
  have e1' := e1
  rw [hget] at e1
  cases e1
  -- the last call
  have hlv' : ∀ y ∈ g'.leaves, ∃ p n, s2.leaves[y.1]? = some (some ⟨y.2, p, n⟩) := by
    intro y hy
    obtain ⟨a, b, hab⟩ := List.append_of_mem hy
    have := w'.seg
    rw [hab, ht1] at this
    exact ⟨_, _, this.get⟩
  have hfin : ∀ m : Tree K V A, (newAugmentationT m s2 root).All (fun cb _ =>
      cb.ArgsOk ∨ (cb = .fromLeaf 0 ∧ t.len = 1)) ∧
      (t.len = 1 → (Callback.fromLeaf 0, m) ∈ (newAugmentationT m s2 root).trace) := by
    intro m
    have hr' : root = g'.nid := by rw [← ht2, w'.root]
    cases H' with
    | succ H' =>
      refine ⟨Traced.all_mono (fun _ _ h => .inl h) (newAugmentationT_args ?_), fun h1 => ?_⟩
      · rw [hr']
        exact T.sumOk w'.shape (le_refl 1) hlv' (ht1 ▸ w'.imem)
      · have h0 : g'.toL.length = 0 := by rw [← w'.len]; omega
        exact absurd (List.length_eq_zero_iff.1 h0) (toL_ne_nil w'.shape (fun h => by cases h))
    | zero =>
      rw [hr']
      obtain ⟨p, n, hp'⟩ := hlv' (GLeaf.id g', GLeaf.data g') (by simp [T.leaves])
      have hgl : s2.getLeaf (GLeaf.id g') = .ok ⟨GLeaf.data g', p, n⟩ := by
        simp only at hp'
        simp [Store.getLeaf, hp']
      have hlen' : (GLeaf.data g').length = t'.len := by
        rw [w'.len]; simp [T.toL, T.leaves]
      have hle : (GLeaf.data g').length ≤ 64 := w'.shape.2
      constructor
      · refine Traced.all_lift_bind fun l hl => Traced.all_call_bind ?_ Traced.all_pure
        rw [hgl] at hl
        cases hl
        by_cases h1 : t.len = 1
        · exact .inr ⟨by
            have h0 : (GLeaf.data g').length = 0 := by omega
            simp [Leaf.keys, h0], h1⟩
        · exact .inl (Leaf.Fit.args ⟨by simp only; omega, hle⟩)
      · intro h1
        refine Traced.mem_bind.2 (.inr ⟨_, hgl, Traced.mem_bind.2 (.inl ?_)⟩)
        have h0 : (GLeaf.data g').length = 0 := by omega
        simp [Leaf.keys, h0]
  -- entries of the ascending loop
  have hloop : (removeAscendT (t.store.setLeaf i l1) t.st (c.stack (.leaf i))
      (match (generalizing := false) dr with
        | .done kv => .done kv | .underSize idx => .leafUnderSize idx)).All argsOk := by
    by_cases hlend : 16 < (d1 ++ kv :: d2).length
    · -- the leaf can lend
      have hab : (⟨d1 ++ kv :: d2, lstId none c.lvL, hdId c.lvR none⟩ : Leaf K V).ableToLend = true :=
        decide_eq_true hlend
      simp only [Leaf.tryDeleteAt, hab, if_true, sliceRemove_ok rfl, ok_bind, pure_ok] at e2
      obtain ⟨rfl, rfl⟩ := Prod.mk.inj (Except.ok.inj e2)
      have hseg1 := Seg.update (d' := d1 ++ d2) hseg hlnd
      let x' : GLeaf K V := ⟨i, d1 ++ d2⟩
      refine remAscendT_args hμ1 hμ (c := c) (x := x') (kv := kv) hcS
        (.inl ⟨rfl, ?_, ?_⟩) ?_ ?_ ?_
      · simp only [x', List.length_append]; omega
      · simp only [x', List.length_append]; omega
      · intro y hy
        have hy' : y ∈ c.lvL ++ (i, d1 ++ d2) :: c.lvR := by simpa [T.leaves, x'] using hy
        obtain ⟨a, b, hab⟩ := List.append_of_mem hy'
        have := hseg1
        rw [hab] at this
        exact ⟨_, _, this.get⟩
      · simpa [T.nodes, x', Store.setLeaf] using hm
      · simpa [T.nodes, x'] using hn
    · -- the leaf is at the minimum
      have hab : (⟨d1 ++ kv :: d2, lstId none c.lvL, hdId c.lvR none⟩ : Leaf K V).ableToLend = false :=
        decide_eq_false hlend
      simp only [Leaf.tryDeleteAt, hab, Bool.false_eq_true, if_false, pure_ok] at e2
      obtain ⟨rfl, rfl⟩ := Prod.mk.inj (Except.ok.inj e2)
      have hset : t.store.setLeaf i ⟨d1 ++ kv :: d2, lstId none c.lvL, hdId c.lvR none⟩ = t.store := by
        simp only [Store.setLeaf, set_same hget']
      rw [hset] at e3 ⊢
      simp only at e3 ⊢
      cases c with
      | nil => exact Traced.all_pure
      | cons f c =>
        obtain ⟨hS, hmin, hf64, hf, hcs⟩ := hcS
        have h1 : 1 ≤ f.len := by
          by_contra h0
          have := Ctx.min_zero (μ := μ) (c := c) (by omega)
          omega
        simp only [Ctx.nodes] at hm hn
        simp only [Ctx.lvL, Ctx.lvR] at *
        obtain ⟨g0, d0, s0, st0, hs⟩ := leaf_step (s := t.store) (st := t.st) (LA := c.lvL) (LB := c.lvR) (kv := kv) (i := i)
          (d1 := d1) (d2 := d2) hμ (Ctx.min_le hμ) hf hf64 hS hmin h1 hm hn
          (by simpa using hseg) (by simpa using hlnd) (by simpa using hlive) hlow (by omega)
        have hfi : t.store.inners[f.id]? = some (some (f.inner (.leaf i))) :=
          hm (f.id, f.inner (.leaf i)) (by simp [Frame.nodes])
        have hlv : ∀ y ∈ c.lvL ++ g0.leaves ++ c.lvR, ∃ p n,
            s0.leaves[y.1]? = some (some ⟨y.2, p, n⟩) := by
          intro y hy
          obtain ⟨a, b, hab⟩ := List.append_of_mem hy
          have := hs.seg
          rw [hab] at this
          exact ⟨_, _, this.get⟩
        have hrec := remAscendT_args hμ1 hμ (c := c) (s := s0) (st := st0) (x := g0) (kv := kv) (d := d0)
          hcs hs.out hlv (by rw [hs.nid]; exact hs.imem) (by rw [hs.nid]; exact hs.nodup)
        rw [hs.nid] at hrec
        simp only [Ctx.stack]
        have hrun1 := hs.run []
        have hgi : t.store.getInner f.id = .ok (f.inner (.leaf i)) := by simp [Store.getInner, hfi]
        simp only [removeAscend, hgi, ok_bind] at hrun1
        obtain ⟨⟨r', s', st', nd'⟩, hh, hrun1⟩ := bind_ok hrun1
        have hrun1 := Except.ok.inj hrun1
        simp only [Prod.mk.injEq] at hrun1
        obtain ⟨rfl, rfl, rfl⟩ := hrun1
        refine Traced.all_lift_bind fun nd hnd' => ?_
        rw [hgi] at hnd'
        cases hnd'
        have hki : KidOk t.store (.leaf i) := by
          intro l hl
          rw [hget] at hl
          cases hl
          exact ⟨by simp only; omega, h64⟩
        refine Traced.all_bind (handleLeafT_args (Frame.kids hS hki ?_ ?_) _ _) fun q hq => ?_
        · intro y hy
          have hy' : y ∈ c.lvL ++ f.lvL ++ (i, d1 ++ kv :: d2) :: (f.lvR ++ c.lvR) := by
            simp only [List.mem_append] at hy
            simp only [List.mem_append, List.mem_cons]
            tauto
          obtain ⟨a, b, hab⟩ := List.append_of_mem hy'
          have := hseg
          rw [hab] at this
          exact ⟨_, _, this.get⟩
        · exact fun p hp => hm p (by simp [Frame.nodes, hp])
        rw [handleLeafUnderSizeT_result, hh] at hq
        cases hq
        exact hrec
  constructor
  · refine Traced.all_lift_bind fun q hq => Traced.all_lift_bind fun q1 hq1 => ?_
    rw [hget] at hq
    cases hq
    rw [e2] at hq1
    cases hq1
    refine Traced.all_bind (Traced.all_mapMem (Traced.all_mono (fun cb m h => .inl h) hloop))
      fun q2 hq2 => ?_
    rw [Traced.result_mapMem, removeAscendT_result, e3] at hq2
    cases hq2
    refine Traced.all_lift_bind fun q3 hq3 => ?_
    rw [e4] at hq3
    cases hq3
    refine Traced.all_bind (hfin _).1 fun _ _ => Traced.all_guard fun _ => Traced.all_pure
  · intro h1
    refine ⟨{ t with store := s2, st := st1, root := root }, ?_, h1,
      Short.drop (n := t'.len) (P := fun _ => True) (ht1 ▸ ht2 ▸ w'.short fun _ _ => trivial) (by simp only; omega)⟩
    refine Traced.mem_bind.2 (.inr ⟨_, e1', Traced.mem_bind.2 (.inr ⟨_, e2, Traced.mem_bind.2
      (.inr ⟨_, e3', Traced.mem_bind.2 (.inr ⟨_, e4, Traced.mem_bind.2 (.inl ((hfin _).2 h1))⟩)⟩)⟩)⟩)

end

section
variable [Augmentation K V A]

theorem removeT_args {μ : Nat} (hμ1 : 1 ≤ μ) {t : Tree K V A} {l : List (K × V)} (h : UInvM μ t l) (o : Answers K) :
    (t.removeT o).All (fun cb _ => cb.ArgsOk ∨ (cb = .fromLeaf 0 ∧ t.len = 1)) ∧
    ∀ v t', t.removeU o = .ok (some v, t') → t.len = 1 →
      ∃ m, (.fromLeaf 0, m) ∈ (t.removeT o).trace ∧ m.len = 1 ∧ m.drop = .error .panic := by
  obtain ⟨H, g, w, hl⟩ := h.ghost
  obtain ⟨c, x, hp, hlen, hdesc⟩ := descend_stackU w (w.depth h.lt) o
  have hleaves : g.leaves = c.lvL ++ (x.id, x.data) :: c.lvR := by
    rw [← hp, Ctx.leaves_plug]; simp [T.leaves]
  have hget := w.flat.get hleaves
  obtain ⟨i, d⟩ := x
  rcases locateSlotU_cases o d (lstId none c.lvL) (hdId c.lvR none) with ⟨a, kv, b, rfl, h1⟩ | ⟨a, b, rfl, h1⟩
  · obtain ⟨inst, -⟩ := exists_wellFoundedLT K
    have hr : t.keyToRefU o = .ok (some ⟨c.stack (.leaf i), i, a.length⟩) := by
      unfold Tree.keyToRefU
      rw [hdesc]
      simp only [ok_bind]
      simp only at hget
      rw [hget]
      simp only [ok_bind, h1, pure_ok]
    rcases removeByRef_ok0 h.le w hp hlen with ⟨t', H', g', r1, r2, -, r4, -⟩ | ⟨r0, -⟩
    · obtain ⟨q1, q2⟩ := removeByRefT_args hμ1 h.le w hp hlen r1 r2 (by
        rw [r2.len, w.len, r4, T.toL, hleaves]
        simp only [List.length_append, List.flatMap_append, List.flatMap_cons, List.length_cons]
        omega)
      constructor
      · refine Traced.all_call_bind (.inl trivial) <| Traced.all_lift_bind fun r hr' => ?_
        rw [hr] at hr'
        cases hr'
        exact Traced.all_bind q1 fun _ _ => Traced.all_pure
      · intro v t'' _ hl1
        obtain ⟨m, hm, hm1⟩ := q2 hl1
        exact ⟨m, Traced.mem_bind.2 (.inr ⟨(), rfl, Traced.mem_bind.2 (.inr ⟨_, hr,
          Traced.mem_bind.2 (.inl hm)⟩)⟩), hm1⟩
    · omega
  · have hr : t.keyToRefU o = .ok none := by
      unfold Tree.keyToRefU
      rw [hdesc]
      simp only [ok_bind]
      simp only at hget
      rw [hget]
      simp only [ok_bind, h1, pure_ok]
    constructor
    · refine Traced.all_call_bind (.inl trivial) <| Traced.all_lift_bind fun r hr' => ?_
      rw [hr] at hr'
      cases hr'
      exact Traced.all_pure
    · intro v t' h0
      unfold Tree.removeU Tree.removeImplU at h0
      rw [hr] at h0
      cases h0

end
end Bpt
