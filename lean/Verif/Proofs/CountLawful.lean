import Verif.Proofs.Count
import Verif.Proofs.Lawful

/-!
# Costs with a lawful order: cached lookups, cursors going forward
-/

namespace Bpt
open Bpt.Spec
variable {K V A : Type} [LinearOrder K]

/-- A leaf passes the range test of its own keys. -/
theorem inRange_mem {s : Store K V A} {L LA LB : List (Nat × List (K × V))} {x} (f : Flat s L)
    (hL : L = LA ++ x :: LB) {kv : K × V} (hk : kv ∈ x.2) :
    (⟨x.2, lstId none LA, hdId LB none⟩ : Leaf K V).inRange kv.1 = .ok true := by
  have hs : x.2.Pairwise (fun a b => a.1 < b.1) := sorted_data f.sorted hL
  obtain ⟨a, ⟨d, hd⟩⟩ : ∃ a d, x.2 = a :: d := List.exists_cons_of_ne_nil (List.ne_nil_of_mem hk)
  obtain ⟨d', b, hd'⟩ := (List.eq_nil_or_concat' x.2).resolve_left (List.ne_nil_of_mem hk)
  have h1 : ¬ kv.1 < a.1 := by
    rw [hd] at hs hk
    rcases List.mem_cons.1 hk with rfl | h
    · exact lt_irrefl _
    · exact not_lt.2 ((List.pairwise_cons.1 hs).1 kv h).le
  have h2 : ¬ b.1 < kv.1 := by
    rw [hd'] at hs hk
    rcases List.mem_append.1 hk with h | h
    · exact not_lt.2 ((List.pairwise_append.1 hs).2.2 kv h b (by simp)).le
    · rw [List.mem_singleton.1 h]; exact lt_irrefl _
  have r1 : readAt x.2 0 = .ok a := by simp [readAt, hd]
  have r2 : readAt x.2 (x.2.length - 1) = .ok b := by simp [readAt, hd']
  have hl : x.2.length ≠ 0 := by simp [hd]
  unfold Leaf.inRange
  cases lstId none LA <;> cases hdId LB none <;>
    simp only [Leaf.dataAt, Leaf.len, r1, r2, hl, h1, h2, if_false, ok_bind, pure_ok, decide_false,
      Bool.false_eq_true, Bool.not_false]

/-- A lookup that hits the cache makes at most 9 comparisons. -/
theorem getC_cached {t : Tree K V A} (h : SmallLeaves t.store) {k : K} {i : Nat} {e : Bool}
    (hc : t.store.tryCache k = .ok (some i)) : (t.getC (.ofOrder e k)).cost ≤ 9 := by
  have hr : (t.store.tryCacheC (.ofOrder e k)).result = .ok (some i) := by
    rw [tryCacheC_result, tryCacheU_lawful, hc]
  unfold Tree.getC
  rw [Counted.cost_bind_ok hr]
  have h1 := tryCacheC_cost (.ofOrder e k) t.store
  have h2 := Counted.then_le (f := fun v => (pure (v, t) : Counted (Option V × Tree K V A)))
    (findInLeafC_cost (.ofOrder e k) h i) fun _ => rfl
  simp only
  omega

theorem getC_again {t t' : Tree K V A} {L} (r : Reads t L) (hs : SmallLeaves t.store) {k : K} {v : V}
    (h : t.get k = .ok (some v, t')) (e : Bool) : (t'.getC (.ofOrder e k)).cost ≤ 9 := by
  obtain ⟨o, ho, hh⟩ := r.flat.tryCacheAt t.store.cached k
  have ho' : t.store.tryCache k = .ok o := ho
  unfold Tree.get at h
  rw [ho'] at h
  cases o with
  | some i =>
    simp only [ok_bind] at h
    obtain ⟨w, h1, h2⟩ := bind_ok h
    cases h2
    exact getC_cached hs ho'
  | none =>
    obtain ⟨LA, ⟨i, d⟩, LB, hc, hf⟩ := r.find k
    simp only [ok_bind, hf] at h
    obtain ⟨w, h1, h2⟩ := bind_ok h
    cases h2
    have r' := r.cached (some i)
    have hL := findInLeaf_ok r'.flat hc
    have hL' : findInLeaf (t.store.cacheLeaf i) i k = .ok (lookup k (L.flatMap (·.2))) := hL
    rw [hL'] at h1
    have hlook : lookup k (L.flatMap (·.2)) = some v := Except.ok.inj h1
    rcases hc.split r.flat.sorted with ⟨a, v', b, h0, h1, h2, h3, h4, h5⟩ |
      ⟨a, b, h0, h1, h2, h3, h4, h5⟩
    · simp only at h0
      refine getC_cached (i := i) (t := { t with store := t.store.cacheLeaf i }) hs ?_
      have hin := inRange_mem r.flat hc.eq (kv := (k, v')) (by simp [h0])
      have hg : t.store.tryGetLeaf i = some ⟨d, lstId none LA, hdId LB none⟩ := by
        have := r.flat.get hc.eq
        simp only at this
        unfold Store.getLeaf at this
        unfold Store.tryGetLeaf
        split at this
        · next e => cases this; simp [e]
        · cases this
      have hg' : (t.store.cacheLeaf i).tryGetLeaf i = some ⟨d, lstId none LA, hdId LB none⟩ := hg
      unfold Store.tryCache Store.tryCacheAt
      simp only [Store.cacheLeaf] at hg' ⊢
      simp only [hg']
      simp only at hin
      rw [hin]
      rfl
    · rw [h3, lookup_none h4 h5] at hlook
      cases hlook

/-- A step forward from a cursor whose hints are exact. -/
theorem nextC_exact {t : Tree K V A} {L LA LB : List (Nat × List (K × V))} {i : Nat}
    {P Q : List (K × V)} {k : K} {v : V} (r : Reads t L) (hL : L = LA ++ (i, P ++ (k, v) :: Q) :: LB)
    (e : Bool) :
    ((⟨k, i, P.length⟩ : Cursor K).nextWithValueC (.ofOrder e k) t).cost ≤ 3 ∧
    ((⟨k, i, P.length⟩ : Cursor K).nextWithValueC (.ofOrder e k) t).result =
      forwardFrom t i ⟨P ++ (k, v) :: Q, lstId none LA, hdId LB none⟩ (P.length + 1) := by
  have hg : t.store.tryGetLeaf i = some ⟨P ++ (k, v) :: Q, lstId none LA, hdId LB none⟩ := by
    have := r.flat.get hL
    simp only at this
    unfold Store.getLeaf at this
    unfold Store.tryGetLeaf
    split at this
    · next e => cases this; simp [e]
    · cases this
  have hin := inRange_mem r.flat hL (kv := (k, v)) (by simp)
  simp only at hin
  have hinC : ((⟨P ++ (k, v) :: Q, lstId none LA, hdId LB none⟩ : Leaf K V).inRangeC
      (.ofOrder e k) 2).result = .ok true := by
    rw [inRangeC_result, (inRangeU_lawful _ e k).2, hin]
  have hloc : ((⟨k, i, P.length⟩ : Cursor K).locateLeafC (.ofOrder e k) t).result =
      .ok (i, ⟨P ++ (k, v) :: Q, lstId none LA, hdId LB none⟩) ∧
      ((⟨k, i, P.length⟩ : Cursor K).locateLeafC (.ofOrder e k) t).cost ≤ 2 := by
    unfold Cursor.locateLeafC
    simp only [hg]
    constructor
    · simp only [Counted.result_bind, hinC, ok_bind, Counted.result_pure, if_true]
    · have h1 := inRangeC_cost (.ofOrder e k) 2
        (⟨P ++ (k, v) :: Q, lstId none LA, hdId LB none⟩ : Leaf K V)
      rw [Counted.cost_bind_ok (a := some ⟨P ++ (k, v) :: Q, lstId none LA, hdId LB none⟩) (by
        simp only [Counted.result_bind, hinC, ok_bind, Counted.result_pure, if_true])]
      rw [Counted.cost_bind_ok hinC]
      simp only [Counted.cost_pure]
      omega
  have hhit : ((⟨k, i, P.length⟩ : Cursor K).hintHitsC (.ofOrder e k)
      (⟨P ++ (k, v) :: Q, lstId none LA, hdId LB none⟩ : Leaf K V)).result = .ok true := by
    simp [Cursor.hintHitsC, Leaf.tryDataAt, Answers.ofOrder]
  have hoff : ((⟨k, i, P.length⟩ : Cursor K).nextOffsetC (.ofOrder e k)
      (⟨P ++ (k, v) :: Q, lstId none LA, hdId LB none⟩ : Leaf K V)).result = .ok (P.length + 1) ∧
      ((⟨k, i, P.length⟩ : Cursor K).nextOffsetC (.ofOrder e k)
      (⟨P ++ (k, v) :: Q, lstId none LA, hdId LB none⟩ : Leaf K V)).cost ≤ 1 := by
    unfold Cursor.nextOffsetC
    constructor
    · simp only [Counted.result_bind, hhit, ok_bind, if_true, Counted.result_pure]
    · rw [Counted.cost_bind_ok hhit]
      have := hintHitsC_cost (.ofOrder e k) (⟨k, i, P.length⟩ : Cursor K)
        (⟨P ++ (k, v) :: Q, lstId none LA, hdId LB none⟩ : Leaf K V)
      simp only [if_true, Counted.cost_pure]
      omega
  unfold Cursor.nextWithValueC
  constructor
  · rw [Counted.cost_bind_ok hloc.1]
    simp only
    rw [Counted.cost_bind_ok hoff.1]
    have := hloc.2
    have := hoff.2
    simp only [Counted.cost_lift]
    omega
  · simp only [Counted.result_bind, hloc.1, ok_bind, hoff.1, Counted.result_lift]

/-- Where a step forward leads: the next item, with exact hints. -/
theorem forward_exact {t : Tree K V A} {L LA LB : List (Nat × List (K × V))} {i : Nat}
    {P Q : List (K × V)} {kv : K × V} (r : Reads t L) (hL : L = LA ++ (i, P ++ kv :: Q) :: LB) :
    (Q ++ LB.flatMap (·.2) = [] ∧
      forwardFrom t i ⟨P ++ kv :: Q, lstId none LA, hdId LB none⟩ (P.length + 1) = .ok none) ∨
    ∃ LA' i' P' k' v' Q' LB', L = LA' ++ (i', P' ++ (k', v') :: Q') :: LB' ∧
      Q ++ LB.flatMap (·.2) = (k', v') :: (Q' ++ LB'.flatMap (·.2)) ∧
      forwardFrom t i ⟨P ++ kv :: Q, lstId none LA, hdId LB none⟩ (P.length + 1)
        = .ok (some (⟨k', i', P'.length⟩, v')) := by
  unfold forwardFrom
  cases Q with
  | cons q Q =>
    right
    refine ⟨LA, i, P ++ [kv], q.1, q.2, Q, LB, by simp [hL], by simp, ?_⟩
    have hlt : P.length + 1 < (P ++ kv :: q :: Q).length := by simp
    have hr : readAt (P ++ kv :: q :: Q) (P.length + 1) = .ok q := by
      have := readAt_mid (a := P ++ [kv]) (x := q) (b := Q)
      simpa using this
    simp only [Leaf.len, hlt, if_true, Leaf.dataAt, hr, ok_bind, pure_ok]
    simp
  | nil =>
    have hlt : ¬ P.length + 1 < (P ++ [kv]).length := by simp
    cases LB with
    | nil =>
      left
      simp only [Leaf.len, hlt, if_false]
      exact ⟨by simp, rfl⟩
    | cons y LB =>
      right
      obtain ⟨i', d'⟩ := y
      have hL' : L = (LA ++ [(i, P ++ [kv])]) ++ (i', d') :: LB := by simp [hL]
      have hne : d' ≠ [] := r.flat.data_ne hL' (.inl (by simp))
      obtain ⟨⟨k', v'⟩, d, rfl⟩ := List.exists_cons_of_ne_nil hne
      refine ⟨LA ++ [(i, P ++ [kv])], i', [], k', v', d, LB, hL', by simp, ?_⟩
      have hg := r.flat.get hL'
      simp only at hg
      simp only [Leaf.len, hlt, if_false, hdId_cons]
      rw [hg]
      simp [ok_bind, Leaf.dataAt, readAt, pure_ok]

end Bpt
