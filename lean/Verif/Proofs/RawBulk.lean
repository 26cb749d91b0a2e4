import Verif.Proofs.RawCursor

/-!
# Simulation of the list-level model by the slot-level model: bulk loading, owning iterators, clones
-/

namespace Bpt
namespace Raw
open Slots

variable {K V A : Type}

/-! ## Bulk loading -/

theorem keyRange_sim {l : Leaf K V} {n : LeafS K V} (h : LeafRep l n) :
    Sim (· = ·) l.keyRange (keyRange n) := by
  unfold Leaf.keyRange keyRange
  have hs := h.size
  refine Sim.ite (by rw [hs]) (fun _ => Sim.error_bind) (fun _ => ?_)
  rw [h.prev, h.next, hs]
  refine Sim.bind (R := (· = ·)) ?_ ?_
  · cases l.prev with
    | none => exact Sim.pure rfl
    | some p =>
      intro a e
      cases hd : l.dataAt 0 with
      | error _ => simp only [hd] at e; cases e
      | ok kv =>
        simp only [hd] at e
        obtain ⟨hi, rfl⟩ := leaf_dataAt_ok hd
        simp only [h.ks_read hi]
        cases e
        exact ⟨_, rfl, rfl⟩
  · rintro a _ rfl
    refine Sim.bind (R := (· = ·)) ?_ (by rintro a _ rfl; exact Sim.pure rfl)
    cases l.next with
    | none => exact Sim.pure rfl
    | some p =>
      intro a e
      cases hd : l.dataAt (l.len - 1) with
      | error _ => simp only [hd] at e; cases e
      | ok kv =>
        simp only [hd] at e
        obtain ⟨hi, rfl⟩ := leaf_dataAt_ok hd
        simp only [h.ks_read hi]
        cases e
        exact ⟨_, rfl, rfl⟩

theorem LeafRep.setNext {l : Leaf K V} {n : LeafS K V} (h : LeafRep l n) (p : Option Nat) :
    LeafRep (l.setNext p) { n with next := p } :=
  ⟨⟨h.holds.size, h.holds.cap, h.holds.ks, h.holds.vs⟩, h.prev, rfl⟩

theorem linkFromPrev_sim {s : Bpt.Store K V A} {t : Store K V A} (h : StoreRep s t) (p : Option Nat)
    (id : Nat) : Sim StoreRep (Bpt.linkFromPrev s p id) (linkFromPrev t p id) := by
  unfold Bpt.linkFromPrev linkFromPrev
  cases p with
  | none => exact Sim.pure h
  | some p =>
    refine Sim.bind (getLeaf_sim h p) (fun l n hln => ?_)
    exact Sim.pure (h.setLeaf (hln.setNext _) p)

section Bulk
variable [Augmentation K V A]

theorem bulkLeaves_sim : ∀ (fuel : Nat) (s : Bpt.Store K V A) (t : Store K V A) (_ : StoreRep s t)
    (p : Option Nat) (data : List (K × V)),
    Sim (PairR StoreRep (· = ·)) (Bpt.bulkLeaves fuel s p data) (bulkLeaves fuel t p data) := by
  intro fuel
  induction fuel with
  | zero => intro s t h p data; exact Sim.error
  | succ fuel ih =>
    intro s t h p data
    unfold Bpt.bulkLeaves bulkLeaves
    obtain ⟨n, h1, h2, h3, h4⟩ := LeafS.C35_leaf_set_data data
    refine Sim.right h1 ?_
    have hsz : n.size = (data.take leafN).length := h2.size
    refine Sim.ite (by rw [hsz, List.isEmpty_iff_length_eq_zero]) (fun _ => Sim.pure ⟨h, rfl⟩)
      (fun _ => ?_)
    have hr := h.reserveLeaf
    have e : t.reserveLeaf = (t.reserveLeaf.1, s.reserveLeaf.2) := by rw [hr.2]
    rw [e]
    simp only []
    refine Sim.bind (linkFromPrev_sim hr.1 _ _) (fun s' t' hst => ?_)
    have hl : LeafRep ({ data := data.take leafN, prev := p, next := none } : Leaf K V)
        { n with prev := p } := ⟨⟨h2.size, h2.cap, h2.ks, h2.vs⟩, rfl, h4⟩
    refine Sim.bind (keyRange_sim hl) ?_
    rintro r _ rfl
    refine Sim.right hl.leafAug ?_
    refine Sim.bind (assignLeaf_sim hst hl _) (fun s' t' hst => ?_)
    refine Sim.bind (ih s' t' hst _ _) ?_
    rintro ⟨s', ns, c⟩ ⟨t', _⟩ ⟨hst, rfl⟩
    refine Sim.pure ⟨hst, ?_⟩
    dsimp only
    rw [hsz]
    rfl

theorem buildInner_sim {s : Bpt.Store K V A} {t : Store K V A} (h : StoreRep s t)
    (cs : List (LayerNode K A)) :
    Sim (PairR StoreRep (· = ·)) (Bpt.buildInner s cs) (buildInner t cs) := by
  unfold Bpt.buildInner buildInner
  refine Sim.bindEq fun a => ?_
  refine Sim.bindEq fun b => ?_
  refine Sim.bindEq fun ks => ?_
  refine Sim.bind (newFromIter_sim (by simp)) (fun m n hmn => ?_)
  refine Sim.right hmn.innerAug ?_
  have hr := h.addInner hmn
  have e : t.addInner n = ((t.addInner n).1, (s.addInner m).2) := by rw [hr.2]
  rw [e]
  exact Sim.pure ⟨hr.1, rfl⟩

theorem buildLayer_sim : ∀ (cs : List (List (LayerNode K A))) (s : Bpt.Store K V A) (t : Store K V A)
    (_ : StoreRep s t), Sim (PairR StoreRep (· = ·)) (Bpt.buildLayer s cs) (buildLayer t cs) := by
  intro cs
  induction cs with
  | nil => intro s t h; exact Sim.pure ⟨h, rfl⟩
  | cons c cs ih =>
    intro s t h
    unfold Bpt.buildLayer buildLayer
    refine Sim.bind (buildInner_sim h c) ?_
    rintro ⟨s, n⟩ ⟨t, _⟩ ⟨h, rfl⟩
    refine Sim.bind (ih s t h) ?_
    rintro ⟨s, n⟩ ⟨t, _⟩ ⟨h, rfl⟩
    exact Sim.pure ⟨h, rfl⟩

theorem buildInnerLayer_sim : ∀ (fuel : Nat) (s : Bpt.Store K V A) (t : Store K V A)
    (_ : StoreRep s t) (ns : List (LayerNode K A)),
    Sim (PairR StoreRep (· = ·)) (Bpt.buildInnerLayer fuel s ns) (buildInnerLayer fuel t ns) := by
  intro fuel
  induction fuel with
  | zero => intro s t h ns; exact Sim.error
  | succ fuel ih =>
    intro s t h ns
    match ns with
    | [] => exact Sim.error
    | [n] => exact Sim.pure ⟨h, rfl⟩
    | a :: b :: ns =>
      unfold Bpt.buildInnerLayer buildInnerLayer
      refine Sim.bind (buildLayer_sim _ s t h) ?_
      rintro ⟨s, n⟩ ⟨t, _⟩ ⟨h, rfl⟩
      exact ih s t h n

theorem newFromParts_sim {s : Bpt.Store K V A} {t : Store K V A} (h : StoreRep s t) (root : NodeId)
    (len : Nat) : Sim TreeRep (Bpt.Tree.newFromParts s root len) (Tree.newFromParts t root len) := by
  unfold Bpt.Tree.newFromParts Tree.newFromParts
  refine Sim.bind (R := (· = ·)) ?_ ?_
  · exact Sim.ite Iff.rfl (fun _ => newAug_sim h root) (fun _ => Sim.pure rfl)
  · rintro a _ rfl
    exact Sim.pure ⟨rfl, rfl, rfl, h, rfl⟩

theorem bulkLoad_sim [DecidableEq K] (data : List (K × V)) :
    Sim TreeRep (Bpt.Tree.bulkLoad data : Res (Bpt.Tree K V A)) (Tree.bulkLoad data) := by
  unfold Bpt.Tree.bulkLoad Tree.bulkLoad
  refine Sim.ite Iff.rfl (fun _ => Sim.pure TreeRep.new) (fun _ => ?_)
  refine Sim.bind (bulkLeaves_sim _ _ _ StoreRep.empty _ _) ?_
  rintro ⟨s, ns, c⟩ ⟨t, _⟩ ⟨h, rfl⟩
  refine Sim.bind (buildInnerLayer_sim _ s t h _) ?_
  rintro ⟨s, r⟩ ⟨t, _⟩ ⟨h, rfl⟩
  exact newFromParts_sim h _ _

end Bulk

/-! ## Clones -/

theorem forall₂_mapM {α β : Type} {R : α → β → Prop} {f : β → Res β} {l : List α} {l' : List β}
    (h : List.Forall₂ R l l') (hf : ∀ a b, R a b → ∃ b', f b = .ok b' ∧ R a b') :
    ∃ l'', l'.mapM f = .ok l'' ∧ List.Forall₂ R l l'' := by
  induction h with
  | nil => exact ⟨[], rfl, List.Forall₂.nil⟩
  | cons hab _ ih =>
    obtain ⟨b', hb, hr⟩ := hf _ _ hab
    obtain ⟨l'', hl, hr'⟩ := ih
    refine ⟨b' :: l'', ?_, List.Forall₂.cons hr hr'⟩
    rw [List.mapM_cons, hb, ok_bind, hl]
    rfl

theorem clone_rep {t : Bpt.Tree K V A} {u : Tree K V A} (h : TreeRep t u) :
    ∃ u', u.clone = .ok u' ∧ TreeRep t u' := by
  obtain ⟨is, h1, h1'⟩ := forall₂_mapM (f := cloneInner) h.store.inners (by
      intro a b hab
      cases hab with
      | none => exact ⟨none, rfl, Option.Rel.none⟩
      | some hr =>
        obtain ⟨n', hn, hh⟩ := InnerS.C35_inner_clone hr.holds
        exact ⟨some n', by simp only [cloneInner, cloneLeaf, hn]; rfl, Option.Rel.some ⟨hh⟩⟩)
  obtain ⟨ls, h2, h2'⟩ := forall₂_mapM (f := cloneLeaf) h.store.leaves (by
      intro a b hab
      cases hab with
      | none => exact ⟨none, rfl, Option.Rel.none⟩
      | some hr =>
        obtain ⟨n', hn, hh, hp, hx⟩ := LeafS.C35_leaf_clone hr.holds
        exact ⟨some n', by simp only [cloneInner, cloneLeaf, hn]; rfl, Option.Rel.some
          ⟨hh, hp.trans hr.prev, hx.trans hr.next⟩⟩)
  unfold Tree.clone Store.clone
  rw [h1, ok_bind, h2]
  exact ⟨_, rfl, h.root, h.rootAug, h.len, ⟨h1', h2', h.store.cached⟩, h.st⟩

end Raw
end Bpt
