import Verif.StartSpec
import Verif.Proofs.BulkLedger
import Verif.Proofs.ReachEven

/-!
# Maps that have just been made satisfy the order-free invariant
-/

namespace Bpt
variable {K V A : Type}

/-! ## The items kept -/

theorem superseded_cons (eq : Nat → K → K → Bool) (x : K × V) (data : List (K × V)) (i : Nat) (y : K × V) :
    Spec.superseded eq (x :: data) (i + 1) y = Spec.superseded (fun j => eq (j + 1)) data i y := by
  simp [Spec.superseded]

theorem dedupU_shift (eq : Nat → K → K → Bool) (i : Nat) (data : List (K × V)) :
    dedupU eq (i + 1) data = dedupU (fun j => eq (j + 1)) i data := by
  induction data generalizing i with
  | nil => simp [dedupU]
  | cons x data ih =>
    cases data with
    | nil => simp [dedupU]
    | cons y data => simp only [dedupU, ih (i + 1)]

theorem dedupU_eq (eq : Nat → K → K → Bool) (data : List (K × V)) :
    dedupU eq 0 data = (Spec.survivors eq data, Spec.replaced eq data) := by
  induction data generalizing eq with
  | nil => rfl
  | cons x data ih =>
    have e : ∀ (c : Bool → Bool), ((x :: data).zipIdx.filter
        (fun p => c (Spec.superseded eq (x :: data) p.2 p.1))).map (·.1)
        = (if c (Spec.superseded eq (x :: data) 0 x) then [x] else []) ++
          (data.zipIdx.filter (fun p => c (Spec.superseded (fun j => eq (j + 1)) data p.2 p.1))).map (·.1) := by
      intro c
      rw [List.zipIdx_cons', List.filter_cons]
      have : ((data.zipIdx.map (Prod.map id (· + 1))).filter
          (fun p => c (Spec.superseded eq (x :: data) p.2 p.1))).map (·.1) =
          (data.zipIdx.filter (fun p => c (Spec.superseded (fun j => eq (j + 1)) data p.2 p.1))).map (·.1) := by
        rw [List.filter_map, List.map_map]
        simp only [Function.comp_def, Prod.map, superseded_cons, id]
      split <;> simp [this]
    have e1 := e (fun b => !b)
    have e2 := e (fun b => b)
    have h := ih (fun j => eq (j + 1))
    unfold Spec.survivors Spec.replaced at *
    rw [e1, e2]
    cases data with
    | nil => simp [dedupU, Spec.superseded]
    | cons y data =>
      have hs : Spec.superseded eq (x :: y :: data) 0 x = eq 0 x.1 y.1 := rfl
      rw [dedupU, dedupU_shift, h, hs]
      cases eq 0 x.1 y.1 <;> simp

variable [Augmentation K V A]

theorem Fresh.inv {t : Tree K V A} {l : List (K × V)} (h : Fresh t l) : UInvM 1 t l := by
  cases h with
  | new => exact UInvM.new (by omega)
  | @load eq data _ hl he hb =>
    have e := dedupU_eq eq data
    obtain ⟨t', h1, h2, -⟩ := bulkLoadU_ok (A := A) (μ := 1) (by omega) eq data hl
      (.inr (by rw [e]; exact he.noLone _))
    rw [hb] at h1
    cases h1
    have e1 : (dedupU eq 0 data).1 = Spec.survivors eq data := by rw [e]
    rw [e1] at h2
    exact h2

end Bpt
