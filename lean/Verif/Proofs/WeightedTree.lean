import Verif.Proofs.ReachInv
import Verif.Proofs.Weighted

/-!
# Weighted selection on reachable maps
-/

namespace Bpt
open Spec
variable {K V A : Type} [LinearOrder K] [Augmentation K V A] [SearchAugmentation K V A Nat]
variable {wt : K × V → Nat} {val : A → Nat}

theorem InvA.getBy {μ : Nat} {t : Tree K V A} {l : List (K × V)} (h : InvA μ t l)
    (hw : Weighted K V A wt val) (hs : WeightedSearch K V A wt val) (q : Nat) :
    t.getByAugmentation q = .ok ((wfind wt l q).bind (fun n => l[n]?)) := by
  obtain ⟨H, g, w, rfl, hl, ha⟩ := h
  have := (getBy_ok w (w.depth hl) hs.inRange q).2
  rw [hw.search hs ha.ok q] at this
  exact this

theorem InvA.removeBy {μ : Nat} (hμ : μ ≤ 16) {t : Tree K V A} {l : List (K × V)} (h : InvA μ t l)
    (hw : Weighted K V A wt val) (hs : WeightedSearch K V A wt val) (q : Nat) :
    (∃ t', t.removeByAugmentation q = .ok ((wfind wt l q).bind (fun n => l[n]?), t') ∧
      InvA μ t' (match wfind wt l q with | none => l | some n => l.eraseIdx n) ∧
      (wfind wt l q = none → t' = t)) ∨
    (μ = 0 ∧ t.removeByAugmentation q = .error .panic) := by
  obtain ⟨H, g, w, rfl, hl, ha⟩ := h
  have := removeBy_ok hμ w (w.depth hl) hs.inRange q
  rw [hw.search hs ha.ok q] at this
  rcases this with ⟨t', H', g', h1, h2, h3, h4, _, _, _, h5, _⟩ | h
  · refine .inl ⟨t', h1, ⟨H', g', h2, h3, ?_, h4 ha⟩, h5⟩
    rw [h2.len, h3]
    have e := w.len
    split
    · omega
    · have := List.length_eraseIdx_le (l := g.toL) (i := ‹Nat›)
      omega
  · exact .inr h

theorem InvA.getMutBy {μ : Nat} {t : Tree K V A} {l : List (K × V)} (h : InvA μ t l)
    (hw : Weighted K V A wt val) (hs : WeightedSearch K V A wt val) (q : Nat) (u : V → V) :
    ∃ t', t.getMutByAugmentation q u = .ok (((wfind wt l q).bind (fun n => l[n]?)).map (·.2), t') ∧
      Inv μ t' (match wfind wt l q with
        | none => l | some n => l.modify n (fun kv => (kv.1, u kv.2))) ∧
      t'.rootAug = t.rootAug ∧ (wfind wt l q = none → t' = t) := by
  obtain ⟨H, g, w, rfl, hl, ha⟩ := h
  obtain ⟨t', g', h1, h2, h3, h4, h5, _, h6⟩ := getMutBy_ok w (w.depth hl) hs.inRange q u
  rw [hw.search hs ha.ok q] at h1 h3 h6
  refine ⟨t', h1, ⟨H, g', h2, h3, ?_⟩, h5, h6⟩
  rw [h2.len, h3]
  have e := w.len
  split
  · omega
  · rw [List.length_modify]; omega

omit [LinearOrder K] [SearchAugmentation K V A Nat] in
theorem InvA.rootVal [LinearOrder K] {μ : Nat} {t : Tree K V A} {l : List (K × V)} (h : InvA μ t l)
    (hw : Weighted K V A wt val) (h0 : val (Augmentation.dflt K V) = 0) :
    val t.rootAug = (l.map wt).sum := by
  obtain ⟨H, g, w, rfl, hl, ha⟩ := h
  rcases ha.root with h | ⟨h1, h2⟩
  · rw [h, hw.topAug ha.ok]
  · rw [h1, h2, h0]; rfl

end Bpt
