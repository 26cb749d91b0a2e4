import Verif.Proofs.Search

/-!
# `rank_by_augmentation` for an arbitrary rank augmentation
-/

namespace Bpt
open Spec
variable {K V A R : Type} [LinearOrder K] [RankAugmentation K V A R]

/-- The descent of `rank_by_augmentation` with an invariant `I` on the accumulated rank. -/
theorem rank_inv {μ : Nat} {t : Tree K V A} {H : Nat} {g : T K V A H} (w : WF μ t g) (k : K)
    (I : (h : Nat) → Ctx K V A h H → R → Prop)
    (h0 : I H .nil (RankAugmentation.initialValue K V A))
    (hstep : ∀ (h : Nat) (c : Ctx K V A (h + 1) H) (f : Frame K A (T K V A h)) (y : T K V A h) (r : R),
      c.plug (f.fill y) = g → Located k g (.cons f c) y → I (h + 1) c r →
      I h (.cons f c) (RankAugmentation.foldInner V k r f.augsL)) :
    ∃ (c : Ctx K V A 0 H) (x : GLeaf K V) (r : R), Ctx.plug c x = g ∧ Located k g c x ∧ I 0 c r ∧
      t.rankByAugmentation k = .ok (RankAugmentation.foldLeaf V A k r
        (bsearch (x.data.map (·.1)) k) (x.data.map (·.1))) := by
  obtain ⟨c, x, r, hp, hd, hl, hr⟩ := descendLeaf_ok w.base (step := rankStep V k)
    (fun h (c : Ctx K V A h H) (x : T K V A h) (r : R) => Located k g c x ∧ I h c r)
    (by
      rintro h c x r hp ⟨hl, hI⟩
      obtain ⟨f, y, rfl, h1, h2, h3⟩ := locate_step w hp hl
      refine ⟨f, y, _, rfl, ?_, h3, hstep h c f y r hp h3 hI⟩
      have e : (f.fill y).inner.augs = f.augsL ++ f.aug :: f.augsR := rfl
      simp only [rankStep, h2, ok_bind, e]
      rw [if_neg (by rw [← h1.2.1]; simp)]
      simp only [pure_ok]
      rw [← h1.2.1, List.take_left])
    (st := RankAugmentation.initialValue K V A) ⟨located_root, h0⟩
  refine ⟨c, x, r, hp, hl, hr, ?_⟩
  have hcut := hl.cut w hp
  unfold Tree.rankByAugmentation
  simp only [hd, ok_bind, w.flat.get hcut.eq, pure_ok]
  rfl

end Bpt
