import Verif.Proofs.EquivSpec
import Verif.Proofs.Start
import Verif.Proofs.ReachEven
import Verif.Proofs.BulkLoad

/-!
# Renaming keys: bulk loading
-/

namespace Bpt
open Spec
variable {K L O V A : Type} {f : K → L}

/-- An entry of the vector of nodes, renamed. -/
def LayerNode.mapK (f : K → L) (n : LayerNode K A) : LayerNode L Unit :=
  (n.1, (n.2.1.1.map f, n.2.1.2.map f), ())

theorem Leaf.keyRange_map (l : Leaf K V) :
    Maps (fun r => (r.1.map f, r.2.map f)) l.keyRange (l.mapK f).keyRange := by
  unfold Leaf.keyRange
  rw [Leaf.mapK_len, Leaf.mapK_prev, Leaf.mapK_next]
  dsimp only
  refine Maps.ite Iff.rfl Maps.error ?_
  refine Maps.bind (m := Option.map f) ?_ fun a => ?_
  · cases l.prev with
    | none => exact Maps.pure rfl
    | some p => exact Maps.bind (Leaf.dataAt_map _ _) fun kv => Maps.pure rfl
  refine Maps.bind (m := Option.map f) ?_ fun b => Maps.pure rfl
  cases l.next with
  | none => exact Maps.pure rfl
  | some p => exact Maps.bind (Leaf.dataAt_map _ _) fun kv => Maps.pure rfl

theorem linkFromPrev_map (s : Store K V A) (p : Option Nat) (i : Nat) :
    Maps (Store.mapK f) (linkFromPrev s p i) (linkFromPrev (s.mapK f) p i) := by
  cases p with
  | none => exact Maps.pure rfl
  | some p =>
    refine Maps.bind (Store.getLeaf_map s p) fun l => Maps.pure ?_
    rw [← Store.setLeaf_map]
    rfl

variable [Augmentation K V A]

theorem bulkLeaves_map (n : Nat) (s : Store K V A) (p : Option Nat) (data : List (K × V)) :
    Maps (fun r => (r.1.mapK f, r.2.1.map (LayerNode.mapK f), r.2.2)) (bulkLeaves n s p data)
      (bulkLeaves n (s.mapK f) p (data.map (item f))) := by
  induction n generalizing s p data with
  | zero => exact Maps.error
  | succ n ih =>
    unfold bulkLeaves
    rw [← List.map_take, ← List.map_drop]
    refine Maps.ite (by simp) (Maps.pure rfl) ?_
    simp only [Store.reserveLeaf_map]
    refine Maps.bind (linkFromPrev_map _ _ _) fun s1 => ?_
    refine Maps.bind (Leaf.keyRange_map _) fun r => ?_
    refine Maps.bind (Store.assignLeaf_map _ _ _) fun s2 => ?_
    refine Maps.bind (ih _ _ _) fun q => Maps.pure ?_
    simp [LayerNode.mapK, Leaf.len]

theorem chunks_map {α β : Type} (g : α → β) (c n : Nat) (l : List α) :
    chunks c n (l.map g) = (chunks c n l).map (List.map g) := by
  induction n generalizing l with
  | zero => rfl
  | succ n ih =>
    simp only [chunks, List.isEmpty_map]
    split
    · rfl
    · rw [← List.map_take, ← List.map_drop, ih]; rfl

omit [Augmentation K V A] in
theorem expectStartKey_map (c : LayerNode K A) :
    Maps f (expectStartKey c) (expectStartKey (c.mapK f)) := by
  obtain ⟨i, ⟨a, b⟩, x⟩ := c
  cases a <;> rfl

omit [Augmentation K V A] in
theorem mapM_map (cs : List (LayerNode K A)) :
    Maps (List.map f) (cs.mapM expectStartKey) ((cs.map (LayerNode.mapK f)).mapM expectStartKey) := by
  induction cs with
  | nil => exact Maps.pure rfl
  | cons c cs ih =>
    rw [List.map_cons, List.mapM_cons, List.mapM_cons]
    refine Maps.bind (expectStartKey_map c) fun k => ?_
    exact Maps.bind ih fun ks => Maps.pure rfl

theorem buildInner_map (s : Store K V A) (cs : List (LayerNode K A)) :
    Maps (fun r => (r.1.mapK f, LayerNode.mapK f r.2)) (buildInner s cs)
      (buildInner (s.mapK f) (cs.map (LayerNode.mapK f))) := by
  unfold buildInner
  refine Maps.bind (m := LayerNode.mapK f) ?_ fun c => ?_
  · cases cs <;> rfl
  refine Maps.bind (m := LayerNode.mapK f) ?_ fun c' => ?_
  · rw [List.getLast?_map]
    cases cs.getLast? <;> rfl
  rw [← List.map_drop]
  refine Maps.bind (mapM_map _) fun ks => ?_
  have e1 : (cs.map (LayerNode.mapK f)).map (·.1) = cs.map (·.1) := by
    rw [List.map_map]; rfl
  have e2 : (cs.map (LayerNode.mapK f)).map (·.2.2) = (cs.map (·.2.2)).map (fun _ => ()) := by
    rw [List.map_map, List.map_map]; rfl
  rw [e1, e2]
  refine Maps.bind (Inner.newFromIter_map _ _ _) fun n => Maps.pure ?_
  simp [Store.mapK, LayerNode.mapK]

theorem buildLayer_map (s : Store K V A) (cs : List (List (LayerNode K A))) :
    Maps (fun r => (r.1.mapK f, r.2.map (LayerNode.mapK f))) (buildLayer s cs)
      (buildLayer (s.mapK f) (cs.map (List.map (LayerNode.mapK f)))) := by
  induction cs generalizing s with
  | nil => exact Maps.pure rfl
  | cons c cs ih =>
    refine Maps.bind (buildInner_map s c) fun r => ?_
    exact Maps.bind (ih r.1) fun q => Maps.pure rfl

theorem buildInnerLayer_map (n : Nat) (s : Store K V A) (ns : List (LayerNode K A)) :
    Maps (fun r => (r.1.mapK f, r.2)) (buildInnerLayer n s ns)
      (buildInnerLayer n (s.mapK f) (ns.map (LayerNode.mapK f))) := by
  induction n generalizing s ns with
  | zero => exact Maps.error
  | succ n ih =>
    match ns with
    | [] => exact Maps.error
    | [x] => exact Maps.pure rfl
    | x :: y :: ns =>
      have : Maps (fun r => (r.1.mapK f, r.2.map (LayerNode.mapK f)))
          (buildLayer s (chunks (innerN + 1) (x :: y :: ns).length (x :: y :: ns)))
          (buildLayer (s.mapK f) (chunks (innerN + 1) ((x :: y :: ns).map (LayerNode.mapK f)).length
            ((x :: y :: ns).map (LayerNode.mapK f)))) := by
        rw [chunks_map, List.length_map]
        exact buildLayer_map s _
      exact Maps.bind (m := fun r => (r.1.mapK f, r.2.map (LayerNode.mapK f))) this fun r => ih r.1 r.2

theorem newFromParts_map (s : Store K V A) (i : NodeId) (n : Nat) :
    Maps (Tree.mapK f) (Tree.newFromParts s i n) (Tree.newFromParts (s.mapK f) i n) := by
  unfold Tree.newFromParts
  refine Maps.bind (m := fun _ => ()) ?_ fun a => Maps.pure rfl
  exact Maps.ite Iff.rfl (newAugmentation_map s i) (Maps.pure rfl)

omit [Augmentation K V A] in
theorem dedupU_map {eq : Nat → K → K → Bool} {eq' : Nat → L → L → Bool}
    (h : ∀ i a b, eq' i (f a) (f b) = eq i a b) (i : Nat) (data : List (K × V)) :
    (dedupU eq' i (data.map (item f))).1 = (dedupU eq i data).1.map (item f) := by
  induction data generalizing i with
  | nil => rfl
  | cons x data ih =>
    cases data with
    | nil => rfl
    | cons y data =>
      have := ih (i + 1)
      simp only [List.map_cons] at this
      simp only [List.map_cons, dedupU]
      have e : eq' i (item f x).1 (item f y).1 = eq i x.1 y.1 := h _ _ _
      rw [e]
      split
      · exact this
      · rw [this]; rfl

theorem bulkLoadU_map {eq : Nat → K → K → Bool} {eq' : Nat → L → L → Bool}
    (h : ∀ i a b, eq' i (f a) (f b) = eq i a b) (data : List (K × V)) :
    Maps (Tree.mapK f) (Tree.bulkLoadU eq data : Res (Tree K V A))
      (Tree.bulkLoadU eq' (data.map (item f))) := by
  unfold Tree.bulkLoadU
  refine Maps.ite (by simp) (Maps.pure rfl) ?_
  rw [dedupU_map h]
  dsimp only
  rw [List.length_map]
  have e : (Store.empty : Store L V Unit) = (Store.empty : Store K V A).mapK f := rfl
  rw [e]
  refine Maps.bind (bulkLeaves_map _ _ _ _) fun r => ?_
  have e2 : Maps (fun r => (r.1.mapK f, r.2)) (buildInnerLayer (r.2.1.length + 1) r.1 r.2.1)
      (buildInnerLayer ((r.2.1.map (LayerNode.mapK f)).length + 1) (r.1.mapK f)
        (r.2.1.map (LayerNode.mapK f))) := by
    rw [List.length_map]
    exact buildInnerLayer_map _ _ _
  refine Maps.bind e2 fun q => ?_
  exact newFromParts_map _ _ _

/-! ## Ranks -/

variable [LinearOrder O] {rank : K → O}

omit [Augmentation K V A] in
/-- `==` by rank on items in the order of their ranks keeps the last one of each rank. -/
theorem dedup_lastBy (data : List (K × V)) (hd : data.Pairwise (fun a b => rank a.1 ≤ rank b.1)) :
    (dedupU (fun _ a b => decide (rank a = rank b)) 0 data).1 = Spec.lastBy rank data := by
  have key : ∀ (i : Nat) (data : List (K × V)),
      (dedupU (fun _ a b => decide (rank a = rank b)) i data).1
        = (dedupKeepLast (data.map (fun e => (rank e.1, e)))).map (·.2) := by
    intro i data
    induction data generalizing i with
    | nil => rfl
    | cons x data ih =>
      cases data with
      | nil => rfl
      | cons y data =>
        have := ih (i + 1)
        simp only [List.map_cons] at this
        simp only [List.map_cons, dedupU, dedupKeepLast, decide_eq_true_eq]
        split
        · exact this
        · rw [this]; rfl
  rw [key, dedup_insertAll _ (by rw [List.pairwise_map]; exact hd)]
  rfl

omit [Augmentation K V A] in
theorem lastBy_mergeSort (items : List (K × V)) :
    Spec.lastBy rank (items.mergeSort (fun a b => decide (rank a.1 ≤ rank b.1)))
      = Spec.lastBy rank items := by
  unfold Spec.lastBy
  rw [List.map_mergeSort (s := fun a b => decide (a.1 ≤ b.1)) (by intros; rfl), insertAll_mergeSort]

omit [Augmentation K V A] in
/-- Each item of the list stands under its rank. -/
theorem mem_index {items : List (K × V)} {q : O} {e : K × V}
    (h : (q, e) ∈ Spec.insertAll [] (items.map (fun e => (rank e.1, e)))) :
    rank e.1 = q ∧ ∃ a b, items = a ++ e :: b ∧ ∀ x ∈ b, rank x.1 ≠ rank e.1 := by
  have h1 := lookup_of_mem (insertAll_sorted List.Pairwise.nil) h
  rw [lookup_insertAll] at h1
  have h2 : Spec.lookup q ([] : List (O × (K × V))) = none := rfl
  rw [h2, Option.or_none] at h1
  induction items using List.reverseRecOn with
  | nil => cases h1
  | append_singleton items x ih =>
    rw [List.map_append, List.map_cons, List.map_nil, List.reverse_append, List.reverse_cons,
      List.reverse_nil, List.nil_append, List.singleton_append, lookup_cons] at h1
    by_cases hx : rank x.1 = q
    · rw [if_pos hx] at h1
      cases h1
      exact ⟨hx, items, [], rfl, by simp⟩
    · rw [if_neg hx] at h1
      obtain ⟨h3, a, b, h4, h5⟩ := ih (lookup_mem (k := q) (by
        rw [lookup_insertAll, h2, Option.or_none]; exact h1)) h1
      refine ⟨h3, a, b ++ [x], by rw [h4]; simp, ?_⟩
      intro y hy
      rcases List.mem_append.1 hy with hy | hy
      · exact h5 y hy
      · rw [List.mem_singleton.1 hy, h3]; exact hx

omit [Augmentation K V A] in
theorem lastBy_sorted (items : List (K × V)) :
    (Spec.lastBy rank items).Pairwise (fun a b => rank a.1 < rank b.1) := by
  unfold Spec.lastBy
  rw [List.pairwise_map]
  have h : Spec.Sorted (Spec.insertAll [] (items.map (fun e => (rank e.1, e)))) :=
    insertAll_sorted List.Pairwise.nil
  refine List.Pairwise.imp_of_mem ?_ h
  rintro ⟨q, e⟩ ⟨q', e'⟩ h1 h2 h3
  rw [(mem_index h1).1, (mem_index h2).1]
  exact h3

omit [Augmentation K V A] in
theorem mem_lastBy {items : List (K × V)} {e : K × V} :
    e ∈ Spec.lastBy rank items ↔
      ∃ a b, items = a ++ e :: b ∧ ∀ x ∈ b, rank x.1 ≠ rank e.1 := by
  unfold Spec.lastBy
  rw [List.mem_map]
  constructor
  · rintro ⟨⟨q, e'⟩, h, rfl⟩
    exact (mem_index h).2
  · rintro ⟨a, b, rfl, h⟩
    refine ⟨(rank e.1, e), lookup_mem ?_, rfl⟩
    rw [lookup_insertAll, List.map_append, List.map_cons, List.reverse_append, List.reverse_cons,
      List.append_assoc, lookup_append, lookup_append]
    have h1 : Spec.lookup (rank e.1) (b.map (fun e => (rank e.1, e))).reverse = none := by
      rw [lookup_eq_none]
      intro x hx
      rw [List.mem_reverse, List.mem_map] at hx
      obtain ⟨y, hy, rfl⟩ := hx
      exact h y hy
    rw [h1, lookup_cons]
    simp

omit [Augmentation K V A] in
theorem lastBy_map (data : List (K × V)) (hd : data.Pairwise (fun a b => rank a.1 ≤ rank b.1)) :
    (Spec.lastBy rank data).map (item rank) = Spec.insertAll [] (data.map (item rank)) := by
  rw [← dedup_lastBy data hd, ← dedupU_map (eq' := fun _ a b => decide (a = b)) (fun _ _ _ => rfl),
    dedupU_lawful, dedup_insertAll _ (by rw [List.pairwise_map]; exact hd)]

omit [Augmentation K V A] in
theorem lastBy_length_le (items : List (K × V)) (hd : items.Pairwise (fun a b => rank a.1 ≤ rank b.1)) :
    (Spec.lastBy rank items).length ≤ items.length := by
  rw [← dedup_lastBy items hd]
  exact (dedupU_sublist _ 0 items).1.length_le

theorem bulkLoadBy_ok {μ : Nat} (hμ1 : μ ≤ 1) (data : List (K × V)) (hl : data.length < 2 ^ 64)
    (hd : data.Pairwise (fun a b => rank a.1 ≤ rank b.1))
    (hμ : μ = 0 ∨ noLone (((Spec.lastBy rank data).length + 63) / 64 + 1)
      (((Spec.lastBy rank data).length + 63) / 64)) :
    ∃ t : Tree K V A, Tree.bulkLoadBy rank data = .ok t ∧ QInvM μ rank t (Spec.lastBy rank data) := by
  have e := dedup_lastBy data hd
  obtain ⟨t, h1, h2, -⟩ := bulkLoadU_ok (A := A) hμ1 (fun _ a b => decide (rank a = rank b)) data hl
    (by rw [e]; exact hμ)
  rw [e] at h2
  refine ⟨t, h1, h2, ?_⟩
  have h3 := (bulkLoadU_map (f := rank) (eq' := fun _ a b => decide (a = b)) (fun _ _ _ => rfl) data).ok h1
  rw [bulkLoadU_lawful] at h3
  have e2 : (Spec.insertAll [] (data.map (item rank))).length = (Spec.lastBy rank data).length := by
    rw [← lastBy_map data hd, List.length_map]
  obtain ⟨t', H, g, h4, h5, -, h6, -⟩ := bulkLoad_ok (A := Unit) hμ1 (data.map (item rank))
    (by rw [List.pairwise_map]; exact hd) (by rw [e2]; exact hμ)
  rw [h3] at h4
  cases h4
  refine ⟨H, g, h5, by rw [h6, lastBy_map data hd], ?_⟩
  exact h2.lt

theorem FreshBy.inv {t : Tree K V A} {l : List (K × V)} (h : FreshBy rank t l) : QInv rank t l := by
  cases h with
  | new => exact QInv.new
  | load h1 h2 h3 h4 =>
    obtain ⟨t', h5, h6⟩ := bulkLoadBy_ok (A := A) (μ := 1) (by omega) _ h1 h2 (.inr (h3.noLone _))
    rw [h4] at h5
    cases h5
    exact h6

end Bpt
