import Verif.Model.BulkLedger
import Verif.Proofs.Bulk
import Verif.Proofs.LedgerLife

/-!
# Bulk loading with arbitrary `==`: its result, and its balance
-/

namespace Bpt
variable {K V A : Type}
variable {w : K → Int} {u : A → Int} {m : Int}

/-! ## Removal of duplicates -/

theorem dedupU_ne (eq : Nat → K → K → Bool) (i : Nat) {data : List (K × V)} (h : data ≠ []) :
    (dedupU eq i data).1 ≠ [] := by
  induction data generalizing i with
  | nil => exact absurd rfl h
  | cons x data ih =>
    cases data with
    | nil => simp [dedupU]
    | cons y data =>
      simp only [dedupU]
      split
      · exact ih _ (by simp)
      · simp

theorem dedupU_sublist (eq : Nat → K → K → Bool) (i : Nat) (data : List (K × V)) :
    (dedupU eq i data).1.Sublist data ∧ (dedupU eq i data).2.Sublist data := by
  induction data generalizing i with
  | nil => simp [dedupU]
  | cons x data ih =>
    cases data with
    | nil => simp [dedupU]
    | cons y data =>
      obtain ⟨h1, h2⟩ := ih (i + 1)
      simp only [dedupU]
      split
      · exact ⟨h1.cons _, h2.cons_cons _⟩
      · exact ⟨h1.cons_cons _, h2.cons _⟩

theorem dedupU_perm (eq : Nat → K → K → Bool) (i : Nat) (data : List (K × V)) :
    ((dedupU eq i data).1 ++ (dedupU eq i data).2).Perm data := by
  induction data generalizing i with
  | nil => simp [dedupU]
  | cons x data ih =>
    cases data with
    | nil => simp [dedupU]
    | cons y data =>
      have h := ih (i + 1)
      simp only [dedupU]
      split
      · exact List.perm_middle.trans (h.cons _)
      · exact h.cons _

theorem dedupU_last (eq : Nat → K → K → Bool) (i : Nat) (data : List (K × V)) :
    (dedupU eq i data).1.getLast? = data.getLast? := by
  induction data generalizing i with
  | nil => simp [dedupU]
  | cons x data ih =>
    cases data with
    | nil => simp [dedupU]
    | cons y data =>
      have h := ih (i + 1)
      have hne := dedupU_ne eq (i + 1) (data := y :: data) (by simp)
      simp only [dedupU]
      split
      · rw [h, List.getLast?_cons_cons]
      · rw [List.getLast?_cons_cons, ← h]
        obtain ⟨z, zs, hz⟩ := List.exists_cons_of_ne_nil hne
        rw [hz, List.getLast?_cons_cons]

theorem dedupU_lawful [DecidableEq K] (i : Nat) (data : List (K × V)) :
    (dedupU (fun _ a b => decide (a = b)) i data).1 = dedupKeepLast data := by
  induction data generalizing i with
  | nil => simp [dedupU, dedupKeepLast]
  | cons x data ih =>
    cases data with
    | nil => simp [dedupU, dedupKeepLast]
    | cons y data =>
      have h := ih (i + 1)
      simp only [dedupU, dedupKeepLast, decide_eq_true_eq]
      split
      · exact h
      · rw [← h]

section
variable [Augmentation K V A]

theorem bulkLoadU_lawful [DecidableEq K] (data : List (K × V)) :
    (Tree.bulkLoadU (fun _ a b => decide (a = b)) data : Res (Tree K V A)) = Tree.bulkLoad data := by
  unfold Tree.bulkLoadU Tree.bulkLoad
  rw [dedupU_lawful]

/-- The items a load keeps. -/
theorem bulkLoadU_ok {μ : Nat} (hμ1 : μ ≤ 1) (eq : Nat → K → K → Bool) (data : List (K × V))
    (hl : data.length < 2 ^ 64)
    (hμ : μ = 0 ∨ noLone (((dedupU eq 0 data).1.length + 63) / 64 + 1)
      (((dedupU eq 0 data).1.length + 63) / 64)) :
    ∃ t : Tree K V A, Tree.bulkLoadU eq data = .ok t ∧ UInvM μ t (dedupU eq 0 data).1 ∧ t.st = {} := by
  cases data with
  | nil => exact ⟨Tree.new, rfl, UInvM.new (by omega), rfl⟩
  | cons x data =>
    obtain ⟨t, H, g, h1, h2, -, h4, -, h5, -⟩ := bulk_items_ok0 (A := A) hμ1
      (dedupU_ne eq 0 (data := x :: data) (by simp)) hμ
    refine ⟨t, h1, ⟨⟨H, g, h2, h4⟩, ?_, by omega⟩, h5⟩
    rw [h2.len, h4]
    have := (dedupU_sublist eq 0 (x :: data)).1.length_le
    omega

/-! ## Results -/

omit [Augmentation K V A] in
@[simp] theorem keyRangeL_result (l : Leaf K V) :
    (l.keyRangeL : Logged K A _).result = l.keyRange := by
  simp only [Leaf.keyRangeL, Logged.result_bind, Logged.result_lift]
  cases l.keyRange <;> rfl

theorem bulkLeavesL_result (fuel : Nat) (s : Store K V A) (p : Option Nat) (data : List (K × V)) :
    (bulkLeavesL fuel s p data).result = bulkLeaves fuel s p data := by
  induction fuel generalizing s p data with
  | zero => rfl
  | succ fuel ih =>
    rw [bulkLeavesL, bulkLeaves]
    split
    · rfl
    · simp only [Logged.result_bind, Logged.result_lift, keyRangeL_result, leafAugL_result, ih, ok_bind,
        Logged.result_pure]
      rfl

theorem buildInnerL_result (s : Store K V A) (c : List (LayerNode K A)) :
    (buildInnerL s c).result = buildInner s c := by
  unfold buildInnerL buildInner
  simp only [Logged.result_bind, Logged.result_lift, Logged.result_emit, innerAugL_result, ok_bind,
    Logged.result_pure]
  rfl

theorem buildLayerL_result (s : Store K V A) (cs : List (List (LayerNode K A))) :
    (buildLayerL s cs).result = buildLayer s cs := by
  induction cs generalizing s with
  | nil => rfl
  | cons c cs ih =>
    rw [buildLayerL, buildLayer]
    simp only [Logged.result_bind, buildInnerL_result, ih, Logged.result_pure]
    rfl

theorem buildInnerLayerL_result (fuel : Nat) (s : Store K V A) (ns : List (LayerNode K A)) :
    (buildInnerLayerL fuel s ns).result = buildInnerLayer fuel s ns := by
  induction fuel generalizing s ns with
  | zero => rfl
  | succ fuel ih =>
    rcases ns with _ | ⟨n, _ | ⟨n', ns⟩⟩
    · rfl
    · rfl
    · rw [buildInnerLayerL, buildInnerLayer]
      rotate_left
      · simp
      · simp
      · simp
      · simp
      generalize n :: n' :: ns = ns
      simp only [Logged.result_bind, Logged.result_emit, ok_bind, Logged.result_pure,
        buildLayerL_result, ih]
      generalize buildLayer s _ = X
      cases X with
      | error e => rfl
      | ok q =>
        simp only [ok_bind]
        cases buildInnerLayer fuel q.1 q.2 <;> rfl

theorem newFromPartsL_result (s : Store K V A) (root : NodeId) (n : Nat) :
    (Tree.newFromPartsL s root n).result = Tree.newFromParts s root n := by
  unfold Tree.newFromPartsL Tree.newFromParts
  simp only [Logged.result_bind, Logged.result_pure]
  split
  · rw [newAugmentationL_result]; rfl
  · rfl

theorem bulkLoadL_result (eq : Nat → K → K → Bool) (data : List (K × V)) :
    (Tree.bulkLoadL eq data : Logged K A (Tree K V A)).result = Tree.bulkLoadU eq data := by
  unfold Tree.bulkLoadL Tree.bulkLoadU
  split
  · rfl
  · simp only [Logged.result_bind, Logged.result_emit, ok_bind, bulkLeavesL_result,
      buildInnerLayerL_result, newFromPartsL_result]

/-! ## Balances -/

omit [Augmentation K V A] in
theorem clones_wt (l : List K) : wsum (Event.wt w u m) (l.map .cloneKey : List (Event K A)) = wsum w l := by
  rw [wsum_map]
  rfl

omit [Augmentation K V A] in
theorem makes_wt (l : List A) : wsum (Event.wt w u m) (l.map .makeAug : List (Event K A)) = wsum u l := by
  rw [wsum_map]
  rfl

/-- Weight of an entry of the vector `nodes`. -/
def LayerNode.wt (w : K → Int) (u : A → Int) (n : LayerNode K A) : Int :=
  wsum w n.2.1.1.toList + wsum w n.2.1.2.toList + u n.2.2

omit [Augmentation K V A] in
theorem layerDrop_wt {n : LayerNode K A} : wsum (Event.wt w u m) n.dropEvents = - n.wt w u := by
  simp only [LayerNode.dropEvents, wsum_append, wsum_map, Event.wt, wsum_neg, LayerNode.wt, wsum_cons,
    wsum_nil]
  omega

omit [Augmentation K V A] in
theorem keyRangeL_bal {l : Leaf K V} {pre : Int} :
    (l.keyRangeL : Logged K A _).Bal w u m pre
      (fun r => pre + wsum w r.1.toList + wsum w r.2.toList) := by
  refine Logged.bal_lift_bind fun r _ => Logged.bal_emit_bind (Logged.bal_pure ?_)
  simp only [wsum_append, clones_wt]
  omega

theorem linkFromPrev_wt {s s' : Store K V A} {p : Option Nat} {i : Nat}
    (h : linkFromPrev s p i = .ok s') :
    s'.wt w u = s.wt w u ∧ ∀ (j : Nat), s.leaves[j]? = some none → s'.leaves[j]? = some none := by
  unfold linkFromPrev at h
  cases p with
  | none => cases h; exact ⟨rfl, fun _ h => h⟩
  | some p =>
    obtain ⟨l, hl, h⟩ := bind_ok h
    cases h
    refine ⟨?_, fun j hj => Store.none_setLeaf hj hl⟩
    rw [Store.wt_setLeaf hl]
    simp only [Leaf.wt, Leaf.setNext]
    omega

theorem bulkLeavesL_bal (fuel : Nat) (s : Store K V A) (p : Option Nat) (data : List (K × V)) :
    (bulkLeavesL fuel s p data).Bal w u m (s.wt w u + wsum (fun e => w e.1) data)
      (fun q => q.1.wt w u + wsum (LayerNode.wt w u) q.2.1) := by
  induction fuel generalizing s p data with
  | zero => intro a ha; cases ha
  | succ fuel ih =>
    rw [bulkLeavesL]
    split
    · rename_i h
      have : data = [] := by
        cases data with
        | nil => rfl
        | cons => simp [leafN] at h
      subst this
      exact Logged.bal_pure (by simp)
    · refine Logged.bal_lift_bind fun s1 h1 => ?_
      obtain ⟨e1, n1⟩ := linkFromPrev_wt (w := w) (u := u) h1
      have n2 := n1 s.leaves.length (by simp [Store.reserveLeaf])
      have e0 := Store.wt_reserve (w := w) (u := u) (s := s)
      refine Logged.bal_bind keyRangeL_bal fun r _ => Logged.bal_bind leafAugL_bal fun a _ =>
        Logged.bal_lift_bind fun s2 h2 => ?_
      have e2 := Store.assign_wt (w := w) (u := u) n2 h2
      have e3 := wsum_take_drop (fun e : K × V => w e.1) data leafN
      refine Logged.bal_bind (Logged.bal_eq (Logged.bal_frame (ih s2 _ _)
        (wsum w r.1.toList + wsum w r.2.toList + u a)) ?_) fun q _ => Logged.bal_pure ?_
      · simp only [Leaf.wt, Store.reserveLeaf] at e0 e2
        omega
      · obtain ⟨s3, rest, n⟩ := q
        show s3.wt w u + wsum (LayerNode.wt w u) rest + (wsum w r.1.toList + wsum w r.2.toList + u a)
          = s3.wt w u + (wsum w r.1.toList + wsum w r.2.toList + u a + wsum (LayerNode.wt w u) rest)
        omega

theorem buildInnerL_bal (s : Store K V A) (c : List (LayerNode K A)) :
    (buildInnerL s c).Bal w u m (s.wt w u) (fun q => q.1.wt w u + q.2.wt w u) := by
  unfold buildInnerL
  refine Logged.bal_lift_bind fun a _ => Logged.bal_lift_bind fun b _ => Logged.bal_emit_bind <|
    Logged.bal_lift_bind fun ks _ => Logged.bal_emit_bind <| Logged.bal_lift_bind fun n hn =>
    Logged.bal_bind innerAugL_bal fun x _ => Logged.bal_pure ?_
  have e1 := Inner.newFromIter_wt (w := w) (u := u) hn
  have e2 := Store.wt_addInner (w := w) (u := u) (s := s) (n := n)
  simp only [LayerNode.wt, wsum_append, clones_wt, makes_wt, Store.addInner] at *
  omega

theorem buildLayerL_bal (s : Store K V A) (cs : List (List (LayerNode K A))) :
    (buildLayerL s cs).Bal w u m (s.wt w u) (fun q => q.1.wt w u + wsum (LayerNode.wt w u) q.2) := by
  induction cs generalizing s with
  | nil => exact Logged.bal_pure (by simp)
  | cons c cs ih =>
    rw [buildLayerL]
    refine Logged.bal_bind (buildInnerL_bal s c) fun q _ =>
      Logged.bal_bind (Logged.bal_frame (ih q.1) (q.2.wt w u)) fun q' _ => Logged.bal_pure ?_
    simp only [wsum_cons]
    omega

theorem buildInnerLayerL_bal (fuel : Nat) (s : Store K V A) (ns : List (LayerNode K A)) :
    (buildInnerLayerL fuel s ns).Bal w u m (s.wt w u + wsum (LayerNode.wt w u) ns)
      (fun q => q.1.wt w u) := by
  induction fuel generalizing s ns with
  | zero => intro a ha; cases ha
  | succ fuel ih =>
    rcases ns with _ | ⟨n, _ | ⟨n', ns⟩⟩
    · intro a ha; cases ha
    · refine Logged.bal_emit_bind (Logged.bal_pure ?_)
      simp only [wsum_cons, wsum_nil, layerDrop_wt]
      omega
    · rw [buildInnerLayerL]
      rotate_left
      · simp
      · simp
      generalize n :: n' :: ns = ns
      refine Logged.bal_bind (Logged.bal_frame (buildLayerL_bal s _) (wsum (LayerNode.wt w u) ns))
        fun q _ => Logged.bal_bind (Logged.bal_frame (ih q.1 q.2) (wsum (LayerNode.wt w u) ns))
        fun r _ => Logged.bal_emit_bind (Logged.bal_pure ?_)
      have : wsum (Event.wt w u m) (ns.flatMap LayerNode.dropEvents) = - wsum (LayerNode.wt w u) ns := by
        rw [wsum_flatMap, ← wsum_neg]
        congr 1
        funext n
        exact layerDrop_wt
      omega

theorem newFromPartsL_bal (s : Store K V A) (root : NodeId) (n : Nat) :
    (Tree.newFromPartsL s root n).Bal w u m (s.wt w u) (fun t => t.wt w u m) := by
  unfold Tree.newFromPartsL
  refine Logged.bal_bind (mid := fun a => s.wt w u + u a) ?_ fun a _ => Logged.bal_pure ?_
  · split
    · exact newAugL_bal
    · refine Logged.bal_emit_bind (Logged.bal_pure ?_)
      simp [Event.wt]
  · simp [Tree.wt, Statistic.merges]

theorem treeNew_wt : (Tree.new : Tree K V A).wt w u m = u (Augmentation.dflt K V) := by
  have h0 := (UInv.new (K := K) (V := V) (A := A)).wt (w := w) (u := u)
  simp only [Tree.wt, h0]
  simp [Tree.new, Store.empty, Statistic.merges]
  rfl

/-- **Bulk loading.** The map takes the keys; the log accounts for the rest. -/
theorem bulkLoadL_bal (eq : Nat → K → K → Bool) (data : List (K × V)) :
    (Tree.bulkLoadL eq data : Logged K A (Tree K V A)).Bal w u m (wsum (fun e => w e.1) data)
      (fun t => t.wt w u m) := by
  unfold Tree.bulkLoadL
  split
  · rename_i h
    have : data = [] := List.isEmpty_iff.1 h
    subst this
    refine Logged.bal_emit_bind (Logged.bal_pure ?_)
    rw [treeNew_wt]
    simp [Event.wt]
  · have e1 := wsum_perm (fun e : K × V => w e.1) (dedupU_perm eq 0 data)
    refine Logged.bal_emit_bind <| Logged.bal_bind (Logged.bal_eq (bulkLeavesL_bal _ Store.empty _ _) ?_)
      fun q _ => Logged.bal_bind (buildInnerLayerL_bal _ _ _) fun r _ => newFromPartsL_bal _ _ _
    simp only [wsum_append, wsum_map, Event.wt, wsum_neg] at *
    simp only [Store.wt, Store.empty, wsum_nil]
    omega

end
end Bpt
