import Verif.Proofs.Reads
import Verif.Proofs.Lone
import Verif.Model.Bulk

/-!
# Bulk loading builds a well-formed tree
-/

namespace Bpt
open Bpt.Spec
variable {K V A : Type}

/-- The walk of a layer: first key of each tree, then its walk. -/
def lwalk {h : Nat} (ps : List (T K V A h × K)) : List (E K) :=
  ps.flatMap (fun p => E.sep p.2 :: p.1.inorder)

def lnodes {h : Nat} (ps : List (T K V A h × K)) : List (Nat × Inner K A) :=
  ps.flatMap (fun p => p.1.nodes)

def lleaves {h : Nat} (ps : List (T K V A h × K)) : List (Nat × List (K × V)) :=
  ps.flatMap (fun p => p.1.leaves)

theorem inter_lwalk {h : Nat} (p : T K V A h × K) (ps : List (T K V A h × K)) :
    E.sep p.2 :: inter (ps.map (·.2)) ((p :: ps).map (fun p => p.1.inorder)) = lwalk (p :: ps) := by
  have : interR (ps.map (·.2)) (ps.map (fun p => p.1.inorder)) = lwalk ps := by
    induction ps with
    | nil => simp [lwalk]
    | cons q ps ih => simp only [List.map_cons, interR_cons, ih]; simp [lwalk]
  simp only [List.map_cons, inter, this]
  simp [lwalk]

section Layer
variable [Augmentation K V A]

/-- The layer vector of the code describes the trees `ps`; `b`: the start key of the first one is
known. -/
def Corr {h : Nat} : Bool → List (T K V A h × K) → List (LayerNode K A) → Prop
  | _, [], [] => True
  | b, p :: ps, n :: ns => n.1 = p.1.nid ∧ n.2.2 = p.1.topAug ∧ (b = true → n.2.1.1 = some p.2) ∧
      Corr true ps ns
  | _, _, _ => False

theorem Corr.length {h : Nat} {b : Bool} {ps : List (T K V A h × K)} {ns : List (LayerNode K A)}
    (hc : Corr b ps ns) : ns.length = ps.length := by
  induction ps generalizing b ns with
  | nil => cases ns <;> simp_all [Corr]
  | cons p ps ih =>
    cases ns with
    | nil => simp [Corr] at hc
    | cons n ns => simp [ih hc.2.2.2]

theorem Corr.split {h : Nat} {b : Bool} {ps : List (T K V A h × K)} {ns : List (LayerNode K A)}
    (hc : Corr b ps ns) (n : Nat) (hn : 0 < n) :
    Corr b (ps.take n) (ns.take n) ∧ Corr true (ps.drop n) (ns.drop n) := by
  induction n generalizing b ps ns with
  | zero => omega
  | succ n ih =>
    cases ps with
    | nil => cases ns <;> simp_all [Corr]
    | cons p ps =>
      cases ns with
      | nil => simp [Corr] at hc
      | cons m ns =>
        simp only [List.take_succ_cons, List.drop_succ_cons]
        rcases Nat.eq_zero_or_pos n with rfl | hn'
        · simp only [List.take_zero, List.drop_zero]
          exact ⟨⟨hc.1, hc.2.1, hc.2.2.1, trivial⟩, hc.2.2.2⟩
        · have := ih hc.2.2.2 hn'
          exact ⟨⟨hc.1, hc.2.1, hc.2.2.1, this.1⟩, this.2⟩

theorem Corr.keys {h : Nat} {ps : List (T K V A h × K)} {ns : List (LayerNode K A)}
    (hc : Corr true ps ns) :
    ns.mapM expectStartKey = .ok (ps.map (·.2)) := by
  induction ps generalizing ns with
  | nil => cases ns <;> simp_all [Corr]
  | cons p ps ih =>
    cases ns with
    | nil => simp [Corr] at hc
    | cons n ns =>
      have e : expectStartKey n = .ok p.2 := by simp only [expectStartKey, hc.2.2.1 rfl]
      rw [List.mapM_cons, e]
      simp only [ok_bind, ih hc.2.2.2, pure_ok, List.map_cons]

theorem Corr.ids {h : Nat} {b : Bool} {ps : List (T K V A h × K)} {ns : List (LayerNode K A)}
    (hc : Corr b ps ns) : ns.map (·.1) = ps.map (fun p => p.1.nid) := by
  induction ps generalizing b ns with
  | nil => cases ns <;> simp_all [Corr]
  | cons p ps ih =>
    cases ns with
    | nil => simp [Corr] at hc
    | cons n ns => simp [ih hc.2.2.2, hc.1]

theorem Corr.augs {h : Nat} {b : Bool} {ps : List (T K V A h × K)} {ns : List (LayerNode K A)}
    (hc : Corr b ps ns) : ns.map (·.2.2) = ps.map (fun p => p.1.topAug) := by
  induction ps generalizing b ns with
  | nil => cases ns <;> simp_all [Corr]
  | cons p ps ih =>
    cases ns with
    | nil => simp [Corr] at hc
    | cons n ns => simp [ih hc.2.2.2, hc.2.1]

/-- The inner node built over the trees `p :: ps`. -/
def up {h : Nat} (id : Nat) (p : T K V A h × K) (ps : List (T K V A h × K)) :
    T K V A (h + 1) × K :=
  (⟨id, ps.map (·.2), (p :: ps).map (·.1), (p :: ps).map (fun p => p.1.topAug)⟩, p.2)

theorem up_walk {h : Nat} (id : Nat) (p : T K V A h × K) (ps : List (T K V A h × K)) :
    E.sep (up id p ps).2 :: T.inorder (h := h + 1) (up id p ps).1 = lwalk (p :: ps) := by
  rw [← inter_lwalk]
  simp only [up, T.inorder, List.map_map]
  rfl

theorem buildInner_ok {h : Nat} {s : Store K V A} {b : Bool} {p : T K V A h × K}
    {ps : List (T K V A h × K)} {ns : List (LayerNode K A)} (hc : Corr b (p :: ps) ns)
    (hl : ps.length ≤ 64) :
    ∃ n, buildInner s ns = .ok
        ({ s with inners := s.inners ++ [some (GNode.inner (up s.inners.length p ps).1)] }, n) ∧
      n.1 = T.nid (h := h + 1) (up s.inners.length p ps).1 ∧
      n.2.2 = T.topAug (h := h + 1) (up s.inners.length p ps).1 ∧
      (b = true → n.2.1.1 = some (up s.inners.length p ps).2) := by
  have hlen := hc.length
  have hids := hc.ids
  have haugs := hc.augs
  cases ns with
  | nil => simp [Corr] at hc
  | cons n ns =>
    have hkeys := hc.2.2.2.keys
    have hlast : (n :: ns).getLast? = some ((n :: ns).getLast (by simp)) :=
      List.getLast?_eq_some_getLast (by simp)
    unfold buildInner
    simp only [hlast, ok_bind, List.drop_succ_cons, List.drop_zero, hkeys, hids, haugs]
    unfold Inner.newFromIter
    rw [if_pos (by simp only [innerN]; simp; omega), if_pos (by simp)]
    have e : (⟨ps.map (·.2), (p :: ps).map (fun p => p.1.nid), (p :: ps).map (fun p => p.1.topAug)⟩ :
        Inner K A) = GNode.inner (up s.inners.length p ps).1 := by
      simp only [GNode.inner, up, List.map_map]
      rfl
    simp only [ok_bind, Store.addInner, pure_ok, e]
    exact ⟨_, rfl, rfl, rfl, hc.2.2.1⟩

/-- Properties of a layer, relative to the final walk and leaves. -/
structure Lay (μ : Nat) (s : Store K V A) {h : Nat} (ps : List (T K V A h × K)) : Prop where
  imem : IMem s.inners (lnodes ps)
  nodup : ((lnodes ps).map (·.1)).Nodup
  shape : SpineL (fun c => T.ShapeTop μ 16 false c) (fun c => T.ShapeTop μ (mnAt μ h true) true c)
    (ps.map (·.1))
  aug : ∀ p ∈ ps, T.AugOK p.1

/-- A group of trees, the first one apart, and the id of the node above them. -/
abbrev Grp (K V A : Type) (h : Nat) := Nat × (T K V A h × K) × List (T K V A h × K)

/-- Groups of 65, the last one possibly smaller. -/
def Grps {h : Nat} (gs : List (Grp K V A h)) : Prop :=
  (∀ g ∈ gs.dropLast, g.2.2.length = 64) ∧ ∀ g ∈ gs, g.2.2.length ≤ 64

/-- The tree built over a layer. -/
inductive Built : {h : Nat} → List (T K V A h × K) → {H : Nat} → T K V A H → Prop
  | root {h : Nat} {p : T K V A h × K} : Built [p] p.1
  | layer {h H : Nat} {gs : List (Grp K V A h)} {g : T K V A H} : Grps gs →
      2 ≤ (gs.flatMap (fun g => g.2.1 :: g.2.2)).length →
      Built (gs.map (fun g => up g.1 g.2.1 g.2.2)) g → Built (gs.flatMap (fun g => g.2.1 :: g.2.2)) g

/-- One layer of inner nodes. -/
theorem buildLayer_ok {μ : Nat} (hμ1 : μ ≤ 1) {h : Nat} (fuel : Nat) {s : Store K V A} {b : Bool}
    {ps : List (T K V A h × K)} {ns : List (LayerNode K A)} (hc : Corr b ps ns)
    (hf : ns.length ≤ fuel) (hμ : μ = 0 ∨ ps.length % 65 ≠ 1)
    (hM : IMem s.inners (lnodes ps))
    (hS : SpineL (fun c => T.ShapeTop μ 16 false c)
      (fun c => T.ShapeTop μ (mnAt μ h true) true c) (ps.map (·.1)))
    (hA : ∀ p ∈ ps, T.AugOK p.1) :
    ∃ (s' : Store K V A) (ns' : List (LayerNode K A)) (ys : List (T K V A (h + 1) × K)),
      buildLayer s (chunks 65 fuel ns) = .ok (s', ns') ∧ Corr b ys ns' ∧
      s'.leaves = s.leaves ∧ s'.cached = s.cached ∧
      (∀ M, IMem s.inners M → IMem s'.inners M) ∧
      s'.inners.length = s.inners.length + ys.length ∧
      IMem s'.inners (lnodes ys) ∧
      ((lnodes ys).map (·.1)).Perm
        ((lnodes ps).map (·.1) ++ List.range' s.inners.length ys.length) ∧
      SpineL (fun c => T.ShapeTop μ 16 false c) (fun c => T.ShapeTop μ (mnAt μ (h + 1) true) true c)
        (ys.map (·.1)) ∧
      (∀ p ∈ ys, T.AugOK p.1) ∧
      lwalk ys = lwalk ps ∧ lleaves ys = lleaves ps ∧ ys.length = (ps.length + 64) / 65 ∧
      (∀ y, ys = [y] → (GNode.keys y.1).length + 1 = ps.length) ∧
      ((ps.length % 65 = 1 ∨ ∃ p, ps.getLast? = some p ∧ T.LoneR p.1) →
        ∃ y, ys.getLast? = some y ∧ T.LoneR y.1) ∧
      (∀ p, ps.getLast? = some p → ∃ y, ys.getLast? = some y ∧
        T.spine y.1 = (ps.length - 1) % 65 :: T.spine p.1) ∧
      ∃ gs : List (Grp K V A h), Grps gs ∧ ps = gs.flatMap (fun g => g.2.1 :: g.2.2) ∧
        ys = gs.map (fun g => up g.1 g.2.1 g.2.2) := by
  induction fuel generalizing s b ps ns with
  | zero =>
    have hl := hc.length
    have : ps = [] := List.length_eq_zero_iff.1 (by omega)
    subst this
    have : ns = [] := List.length_eq_zero_iff.1 (by simpa using hl)
    subst this
    refine ⟨s, [], [], rfl, trivial, rfl, rfl, fun _ h => h, by simp, by simp [lnodes], by simp [lnodes],
      trivial, by simp, rfl, rfl, by simp, by simp, by simp, by simp, [], by simp [Grps], rfl, rfl⟩
  | succ fuel ih =>
    have hl := hc.length
    cases ps with
    | nil =>
      have : ns = [] := List.length_eq_zero_iff.1 (by simpa using hl)
      subst this
      refine ⟨s, [], [], rfl, trivial, rfl, rfl, fun _ h => h, by simp, by simp [lnodes],
        by simp [lnodes], trivial, by simp, rfl, rfl, by simp, by simp, by simp, by simp, [],
        by simp [Grps], rfl, rfl⟩
    | cons p ps =>
      have hne : ns.isEmpty = false := by
        cases ns with
        | nil => simp at hl
        | cons => rfl
      simp only [chunks, hne, Bool.false_eq_true, if_false, buildLayer]
      obtain ⟨hc1, hc2⟩ := hc.split 65 (by omega)
      simp only [List.take_succ_cons, List.drop_succ_cons] at hc1 hc2
      obtain ⟨n, hb, hn1, hn2, hn3⟩ := buildInner_ok (s := s) hc1 (by simp)
      -- the new node
      generalize hy : up s.inners.length p (ps.take 64) = y at *
      have hsplit : p :: ps = (p :: ps.take 64) ++ ps.drop 64 := by simp
      have hMsplit : IMem s.inners (lnodes (p :: ps.take 64)) ∧ IMem s.inners (lnodes (ps.drop 64)) := by
        rw [hsplit] at hM
        simp only [lnodes, List.flatMap_append] at hM ⊢
        exact IMem.append.1 hM
      have hS1 : SpineL (fun c => T.ShapeTop μ 16 false c)
          (fun c => T.ShapeTop μ (mnAt μ h (ps.drop 64).isEmpty) (ps.drop 64).isEmpty c)
          ((p :: ps.take 64).map (·.1)) ∧
          SpineL (fun c => T.ShapeTop μ 16 false c)
            (fun c => T.ShapeTop μ (mnAt μ h true) true c) ((ps.drop 64).map (·.1)) := by
        rw [hsplit] at hS
        rw [List.map_append] at hS
        by_cases hd : ps.drop 64 = []
        · rw [hd] at hS ⊢
          simp only [List.map_nil, List.append_nil] at hS
          exact ⟨hS, trivial⟩
        · rw [SpineL_append (by simpa using hd)] at hS
          have e : (ps.drop 64).isEmpty = false := by simpa [List.isEmpty_iff] using hd
          rw [e]
          have e16 : mnAt μ h false = 16 := by cases h <;> rfl
          rw [e16, SpineL_same]
          exact hS
      let s1 : Store K V A :=
        { s with inners := s.inners ++ [some (GNode.inner y.1)] }
      have hk : (GNode.keys y.1).length = min 64 ps.length := by rw [← hy]; simp [up]
      have hid : GNode.id y.1 = s.inners.length := by rw [← hy]; rfl
      have hynodes : T.nodes (h := h + 1) y.1
          = (s.inners.length, GNode.inner y.1) :: lnodes (p :: ps.take 64) := by
        simp only [T.nodes, hid]
        congr 1
        rw [← hy]
        simp only [up, lnodes, List.flatMap_map]
      have hyShape : T.ShapeTop μ (h := h + 1)
          (if (ps.drop 64).isEmpty then μ else 16) (ps.drop 64).isEmpty y.1 := by
        refine ⟨?_, by omega, ?_, ?_, ?_⟩
        · by_cases hd : ps.drop 64 = []
          · simp only [hd, List.isEmpty_nil, if_true]
            have hd' : ps.length ≤ 64 := by simpa using hd
            rcases hμ with h0 | h0
            · omega
            · simp only [List.length_cons] at h0
              have : ps.length ≠ 0 := by
                intro h1; rw [h1] at h0; simp at h0
              omega
          · have e : (ps.drop 64).isEmpty = false := by simpa [List.isEmpty_iff] using hd
            have hd' : 64 < ps.length := by simpa using hd
            simp only [e, Bool.false_eq_true, if_false]
            omega
        · rw [← hy]; simp [up]
        · rw [← hy]; simp [up]
        · have : GNode.kids y.1 = (p :: ps.take 64).map (·.1) := by rw [← hy]; rfl
          rw [this]; exact hS1.1
      have hyAug : T.AugOK (h := h + 1) y.1 := by
        refine ⟨?_, ?_⟩
        · rw [← hy]; simp only [up, List.map_map]; rfl
        · intro c hcm
          have : c ∈ (p :: ps.take 64).map (·.1) := by rw [← hy] at hcm; exact hcm
          rw [List.mem_map] at this
          obtain ⟨q, hq, rfl⟩ := this
          refine hA q ?_
          rw [hsplit]; exact List.mem_append_left _ hq
      have hywalk : E.sep y.2 :: T.inorder (h := h + 1) y.1 = lwalk (p :: ps.take 64) := by
        rw [← hy]; exact up_walk _ _ _
      have hyleaves : T.leaves (h := h + 1) y.1 = lleaves (p :: ps.take 64) := by
        rw [← hy]; simp only [up, T.leaves, lleaves, List.flatMap_map]
      obtain ⟨s', ns', ys, h1, h2, h3, h4, h5, h6, h7, h8, h9, h10, h11, h12, h13, h14, h15, h16, gs, h17, h18,
          h19⟩ := ih (s := s1) hc2 (by simp; omega)
          (by
            rcases hμ with h0 | h0
            · exact .inl h0
            · right
              simp only [List.length_cons, List.length_drop] at h0 ⊢
              rcases Nat.lt_or_ge 64 ps.length with h' | h'
              · have : ps.length + 1 = (ps.length - 64) + 65 := by omega
                rw [this, Nat.add_mod_right] at h0
                exact h0
              · rw [show ps.length - 64 = 0 by omega]; simp)
          hMsplit.2.push hS1.2 (fun q hq => hA q (by rw [hsplit]; exact List.mem_append_right _ hq))
      have hb' : buildInner s (ns.take (innerN + 1)) = .ok (s1, n) := hb
      have hlen1 : s1.inners.length = s.inners.length + 1 := by simp [s1]
      refine ⟨s', n :: ns', y :: ys, ?_, ?_, h3, h4, ?_, ?_, ?_, ?_, ?_, ?_, ?_, ?_, ?_, ?_, ?_, ?_,
        (s.inners.length, p, ps.take 64) :: gs, ?_, ?_, ?_⟩
      · have hb2 : buildInner s (ns.take 65) = .ok (s1, n) := hb
        simp only [hb2, ok_bind, h1, pure_ok]
      · exact ⟨hn1, hn2, hn3, h2⟩
      · intro M hM; exact h5 M hM.push
      · rw [h6, hlen1]; simp; omega
      · have : lnodes (y :: ys) = T.nodes (h := h + 1) y.1 ++ lnodes ys := by simp [lnodes]
        rw [this, IMem.append]
        refine ⟨h5 _ ?_, h7⟩
        rw [hynodes, IMem.cons]
        refine ⟨?_, hMsplit.1.push⟩
        simp [s1]
      · have e1 : lnodes (y :: ys) = T.nodes (h := h + 1) y.1 ++ lnodes ys := by simp [lnodes]
        have e2 : lnodes (p :: ps) = lnodes (p :: ps.take 64) ++ lnodes (ps.drop 64) := by
          rw [hsplit]; simp only [lnodes, List.flatMap_append]
        rw [e1, e2, hynodes]
        simp only [List.map_append, List.map_cons, List.cons_append, List.length_cons,
          List.range'_succ, List.append_assoc]
        refine List.Perm.trans (List.Perm.cons _ (List.Perm.append_left _ h8)) ?_
        rw [hlen1]
        refine List.Perm.trans List.perm_middle.symm ?_
        refine List.Perm.append_left _ ?_
        exact List.perm_middle.symm
      · rw [List.map_cons, SpineL_cons]
        refine ⟨?_, h9⟩
        by_cases hd : ps.drop 64 = []
        · have hys : ys = [] := by
            rw [hd] at h13
            exact List.length_eq_zero_iff.1 (by simpa using h13)
          rw [hys]
          simp only [List.map_nil, if_true]
          rw [hd] at hyShape
          exact hyShape
        · have hd' : 64 < ps.length := by simpa using hd
          have hys : ys.map (·.1) ≠ [] := by
            intro h0
            have : ys.length = 0 := by
              rw [← List.length_map (·.1), h0]; rfl
            rw [h13] at this
            simp only [List.length_drop] at this
            omega
          rw [if_neg hys]
          have e : (ps.drop 64).isEmpty = false := by simpa [List.isEmpty_iff] using hd
          rw [e] at hyShape
          exact hyShape
      · intro q hq
        rcases List.mem_cons.1 hq with rfl | hq
        · exact hyAug
        · exact h10 q hq
      · rw [hsplit]
        simp only [lwalk, List.flatMap_append, List.flatMap_cons] at h11 ⊢
        rw [h11]
        have := hywalk
        simp only [lwalk, List.flatMap_cons] at this
        rw [this]
      · rw [hsplit]
        simp only [lleaves, List.flatMap_append, List.flatMap_cons] at h12 ⊢
        rw [h12]
        have := hyleaves
        simp only [lleaves, List.flatMap_cons] at this
        rw [this]
      · simp only [List.length_cons, h13, List.length_drop]
        omega
      · intro z hz
        simp only [List.cons.injEq] at hz
        obtain ⟨rfl, rfl⟩ := hz
        simp only [List.length_nil, List.length_drop] at h13
        rw [hk]
        simp only [List.length_cons]
        omega
      · intro hlone
        by_cases hd : ps.drop 64 = []
        · have hys : ys = [] := by
            rw [hd] at h13
            exact List.length_eq_zero_iff.1 (by simpa using h13)
          subst hys
          refine ⟨y, rfl, ?_⟩
          have hd' : ps.length ≤ 64 := by simpa using hd
          rw [T.LoneR]
          rcases hlone with h0 | ⟨q, hq, hl⟩
          · left
            rw [← List.length_eq_zero_iff, hk]
            simp only [List.length_cons] at h0
            omega
          · right
            refine ⟨q.1, ?_, hl⟩
            have : GNode.kids y.1 = (p :: ps).map (·.1) := by
              rw [← hy, ← List.take_of_length_le hd']; simp [up]
            rw [this, List.getLast?_map, hq]; rfl
        · have hd' : 64 < ps.length := by simpa using hd
          have hys : ys ≠ [] := by
            rintro rfl
            simp only [List.length_nil, List.length_drop] at h13
            omega
          have : (y :: ys).getLast? = ys.getLast? := by
            rw [List.getLast?_cons, List.getLast?_eq_some_getLast hys]; rfl
          rw [this]
          apply h15
          rcases hlone with h0 | ⟨q, hq, hl⟩
          · left
            simp only [List.length_cons, List.length_drop] at h0 ⊢
            omega
          · right
            refine ⟨q, ?_, hl⟩
            rw [hsplit, List.getLast?_append_of_ne_nil _ hd] at hq
            exact hq
      · intro q hq
        by_cases hd : ps.drop 64 = []
        · have hys : ys = [] := by
            rw [hd] at h13
            exact List.length_eq_zero_iff.1 (by simpa using h13)
          subst hys
          refine ⟨y, rfl, ?_⟩
          have hd' : ps.length ≤ 64 := by simpa using hd
          have : GNode.kids y.1 = (p :: ps).map (·.1) := by
            rw [← hy, ← List.take_of_length_le hd']; simp [up]
          rw [T.spine, this, hk, List.map_map, List.getLast?_map, hq]
          simp only [List.length_cons, Option.map_some, Function.comp_apply, Option.getD_some]
          congr 1
          omega
        · have hd' : 64 < ps.length := by simpa using hd
          have hys : ys ≠ [] := by
            rintro rfl
            simp only [List.length_nil, List.length_drop] at h13
            omega
          have : (y :: ys).getLast? = ys.getLast? := by
            rw [List.getLast?_cons, List.getLast?_eq_some_getLast hys]; rfl
          rw [this]
          rw [hsplit, List.getLast?_append_of_ne_nil _ hd] at hq
          obtain ⟨z, hz1, hz2⟩ := h16 q hq
          refine ⟨z, hz1, ?_⟩
          rw [hz2]
          congr 1
          simp only [List.length_cons, List.length_drop]
          omega
      · refine ⟨?_, ?_⟩
        · intro g hg
          cases gs with
          | nil => simp at hg
          | cons g' gs =>
            rw [List.dropLast_cons_of_ne_nil (by simp)] at hg
            rcases List.mem_cons.1 hg with rfl | hg
            · have : ps.drop 64 ≠ [] := by rw [h18]; simp
              have : 64 < ps.length := by simpa using this
              show (ps.take 64).length = 64
              rw [List.length_take]; omega
            · exact h17.1 g hg
        · intro g hg
          rcases List.mem_cons.1 hg with rfl | hg
          · show (ps.take 64).length ≤ 64
            rw [List.length_take]; omega
          · exact h17.2 g hg
      · rw [List.flatMap_cons, ← h18]; exact hsplit
      · rw [List.map_cons, ← h19, hy]

/-- The number of nodes of every layer but the last is not 1 modulo 65. -/
def noLone : Nat → Nat → Prop
  | 0, _ => True
  | fuel + 1, n => n ≤ 1 ∨ (n % 65 ≠ 1 ∧ noLone fuel ((n + 64) / 65))

/-- The numbers of keys on the right spine of the tree over a layer of `n` nodes, given those below
its last node. -/
def layerSpine : Nat → Nat → List Nat → List Nat
  | 0, _, l => l
  | fuel + 1, n, l => if n ≤ 1 then l else layerSpine fuel ((n + 64) / 65) ((n - 1) % 65 :: l)

theorem buildInnerLayer_ok {μ : Nat} (hμ1 : μ ≤ 1) (fuel : Nat) {h : Nat} {s : Store K V A}
    {ps : List (T K V A h × K)} {ns : List (LayerNode K A)} (hc : Corr false ps ns)
    (hne : ps ≠ []) (hf : ps.length ≤ fuel) (hμ : μ = 0 ∨ noLone fuel ps.length)
    (hM : IMem s.inners (lnodes ps)) (hN : ((lnodes ps).map (·.1)).Nodup)
    (hS : SpineL (fun c => T.ShapeTop μ 16 false c)
      (fun c => T.ShapeTop μ (mnAt μ h true) true c) (ps.map (·.1)))
    (hR : ∀ p, ps = [p] → T.ShapeTop μ (rootMin h) true p.1)
    (hA : ∀ p ∈ ps, T.AugOK p.1) :
    ∃ (s' : Store K V A) (H : Nat) (g : T K V A H) (k : K),
      buildInnerLayer fuel s ns = .ok (s', g.nid) ∧ s'.leaves = s.leaves ∧
      IMem s'.inners g.nodes ∧ (g.nodes.map (·.1)).Nodup ∧ T.ShapeTop μ (rootMin H) true g ∧
      g.AugOK ∧ E.sep k :: g.inorder = lwalk ps ∧ g.leaves = lleaves ps ∧
      ((¬ noLone fuel ps.length ∨ ∃ p, ps.getLast? = some p ∧ T.LoneR p.1) → g.LoneR) ∧
      (∀ p, ps.getLast? = some p → g.spine = layerSpine fuel ps.length (T.spine p.1)) ∧
      Built ps g ∧ s'.inners.length + (lnodes ps).length = s.inners.length + g.nodes.length := by
  induction fuel generalizing h s ps ns with
  | zero =>
    have := List.length_pos_of_ne_nil hne
    omega
  | succ fuel ih =>
    have hl := hc.length
    rcases ps with _ | ⟨p, _ | ⟨q, ps⟩⟩
    · exact absurd rfl hne
    · rcases ns with _ | ⟨n, _ | ⟨m, ns⟩⟩
      · simp at hl
      · refine ⟨s, h, p.1, p.2, ?_, rfl, by simpa [lnodes] using hM, by simpa [lnodes] using hN,
          hR p rfl, hA p (by simp), by simp [lwalk], by simp [lleaves], by simp [noLone],
          by simp [layerSpine], .root, by simp [lnodes]⟩
        simp only [buildInnerLayer, pure_ok, hc.1]
      · simp at hl
    · rcases ns with _ | ⟨n, _ | ⟨m, ns⟩⟩
      · simp at hl
      · simp at hl
      · have hμ' : μ = 0 ∨ ((p :: q :: ps).length % 65 ≠ 1 ∧
            noLone fuel (((p :: q :: ps).length + 64) / 65)) := by
          rcases hμ with h0 | h0
          · exact .inl h0
          · rcases h0 with h0 | h0
            · simp at h0
            · exact .inr h0
        obtain ⟨s1, ns1, ys, h1, h2, h3, h4, h5, h6, h7, h8, h9, h10, h11, h12, h13, h14, h15, h16, gs,
            h17, h18, h19⟩ := buildLayer_ok hμ1 (n :: m :: ns).length hc le_rfl (hμ'.imp id (·.1)) hM hS hA
        have h2' : Corr false ys ns1 := h2
        have hys : ys ≠ [] := by
          rintro rfl
          simp at h13
          omega
        have hlen : ys.length ≤ fuel := by
          rw [h13]
          simp only [List.length_cons] at hf ⊢
          omega
        have hN1 : ((lnodes ys).map (·.1)).Nodup := by
          rw [h8.nodup_iff, List.nodup_append]
          refine ⟨hN, List.nodup_range', ?_⟩
          intro a ha b hb hab
          subst hab
          have := hM.lt ha
          rw [List.mem_range'_1] at hb
          omega
        obtain ⟨s', H, g, k, e1, e2, e3, e4, e5, e6, e7, e8, e9, e10, e11, e12⟩ := ih h2' hys hlen
          (by rw [h13]; exact hμ'.imp id (·.2)) h7 hN1 h9
          (by
            rintro y rfl
            have hy := h14 y rfl
            have hyS : T.ShapeTop μ (mnAt μ (h + 1) true) true y.1 := h9
            refine ⟨?_, hyS.2⟩
            simp only [List.length_cons] at hy
            simp only [rootMin]; omega) h10
        refine ⟨s', H, g, k, ?_, e2.trans h3, e3, e4, e5, e6, e7.trans h11, e8.trans h12, ?_, ?_, ?_, ?_⟩
        rotate_left
        · intro hlone
          apply e9
          by_cases h65 : (p :: q :: ps).length % 65 = 1
          · exact .inr (h15 (.inl h65))
          · rcases hlone with h0 | h0
            · left
              intro h'
              exact h0 (.inr ⟨h65, by rw [← h13]; exact h'⟩)
            · exact .inr (h15 (.inr h0))
        · intro p' hp'
          obtain ⟨y, hy1, hy2⟩ := h16 p' hp'
          rw [e10 y hy1, hy2, layerSpine, if_neg (by simp only [List.length_cons]; omega), h13]
        · rw [h19] at e11
          have hl2 : 2 ≤ (gs.flatMap (fun g => g.2.1 :: g.2.2)).length := by
            rw [← h18]; simp
          rw [h18]
          exact .layer h17 hl2 e11
        · have := h8.length_eq
          simp only [List.length_append, List.length_map, List.length_range'] at this
          omega
        simp only [buildInnerLayer]
        have h1' : buildLayer s (chunks (innerN + 1) (n :: m :: ns).length (n :: m :: ns))
            = .ok (s1, ns1) := h1
        simp only [h1', ok_bind, e1]

end Layer

/-! ## The leaf layer -/

section Leaves
variable [Augmentation K V A]

theorem keyRange_ok {d : List (K × V)} {e : K × V} (hd : d.head? = some e) (p : Option Nat) :
    ∃ r, (⟨d, p, none⟩ : Leaf K V).keyRange = .ok r ∧ (p.isSome → r.1 = some e.1) := by
  cases d with
  | nil => simp at hd
  | cons x d =>
    simp only [List.head?_cons, Option.some.injEq] at hd
    subst hd
    unfold Leaf.keyRange
    cases p with
    | none => exact ⟨(none, none), by simp [Leaf.len], by simp⟩
    | some p =>
      refine ⟨(some x.1, none), ?_, by simp⟩
      simp [Leaf.len, Leaf.dataAt, readAt]

/-- Appending one leaf to a linked list of leaves. -/
theorem append_leaf {s : Store K V A} {P : List (Nat × List (K × V))} {d : List (K × V)}
    (hseg : Seg s.leaves none P none) (hids : P.map (·.1) = List.range s.leaves.length) :
    ∃ s1 : Store K V A,
      linkFromPrev { s with leaves := s.leaves ++ [none] } (lstId none P) s.leaves.length = .ok s1 ∧
      s1.leaves.length = s.leaves.length + 1 ∧ s1.inners = s.inners ∧ s1.cached = s.cached ∧
      Seg (s1.leaves.set s.leaves.length (some ⟨d, lstId none P, none⟩)) none
        (P ++ [(s.leaves.length, d)]) none := by
  have hnot : s.leaves.length ∉ P.map (·.1) := by rw [hids]; simp
  rcases List.eq_nil_or_concat' P with rfl | ⟨P', x, rfl⟩
  · refine ⟨{ s with leaves := s.leaves ++ [none] }, by simp [linkFromPrev], by simp, rfl, rfl, ?_⟩
    simp [Seg]
  · have hx : x.1 < s.leaves.length := hseg.lt (by simp)
    have hget : ({ s with leaves := s.leaves ++ [none] } : Store K V A).getLeaf x.1
        = .ok ⟨x.2, lstId none P', none⟩ := by
      have := (hseg.push (v := none))
      exact Seg.getLeaf (s := ({ s with leaves := s.leaves ++ [none] } : Store K V A)) (L' := []) this
    refine ⟨({ s with leaves := s.leaves ++ [none] } : Store K V A).setLeaf x.1
        ⟨x.2, lstId none P', some s.leaves.length⟩, ?_, by simp [Store.setLeaf], rfl, rfl, ?_⟩
    · simp only [linkFromPrev, lstId_concat, hget, ok_bind, pure_ok, Leaf.setNext]
    · have hnd : x.1 ∉ P'.map (·.1) := by
        have : ((P' ++ [x]).map (·.1)).Nodup := by rw [hids]; exact List.nodup_range
        rw [List.map_append, List.nodup_append] at this
        intro h
        exact this.2.2 _ h _ (by simp) rfl
      rw [Seg.append, Seg.append] at *
      refine ⟨⟨?_, ?_⟩, ?_⟩
      · refine Seg.set ?_ ?_
        · intro h; exact hnot (by simp [h])
        · exact (hseg.1.push).set hnd
      · refine ⟨?_, trivial⟩
        rw [List.getElem?_set_ne (by omega)]
        simp only [Store.setLeaf]
        rw [List.getElem?_set_self (by simp; omega)]
        simp
      · refine ⟨?_, trivial⟩
        simp [Store.setLeaf]

theorem bulkLeaves_ok {μ : Nat} (hμ1 : μ ≤ 1) (fuel : Nat) {s : Store K V A} {data : List (K × V)}
    {P : List (Nat × List (K × V))} (hf : data.length < fuel)
    (hseg : Seg s.leaves none P none) (hids : P.map (·.1) = List.range s.leaves.length) :
    ∃ (s' : Store K V A) (ns : List (LayerNode K A)) (ps : List (T K V A 0 × K)),
      bulkLeaves fuel s (lstId none P) data = .ok (s', ns, data.length) ∧
      Seg s'.leaves none (P ++ lleaves ps) none ∧
      (P ++ lleaves ps).map (·.1) = List.range s'.leaves.length ∧ s'.inners = s.inners ∧
      s'.cached = s.cached ∧
      Corr (!P.isEmpty) ps ns ∧ (lleaves ps).flatMap (·.2) = data ∧
      SpineL (fun c => T.ShapeTop μ 16 false c) (fun c => T.ShapeTop μ (mnAt μ 0 true) true c)
        (ps.map (·.1)) ∧
      (∀ p ∈ ps, (GLeaf.data p.1).head?.map (·.1) = some p.2) ∧
      ps.length = (data.length + 63) / 64 ∧ ∀ p ∈ ps.dropLast, (GLeaf.data p.1).length = 64 := by
  induction fuel generalizing s data P with
  | zero => omega
  | succ fuel ih =>
    unfold bulkLeaves
    cases data with
    | nil =>
      refine ⟨s, [], [], by simp, by simpa [lleaves] using hseg, by simpa [lleaves] using hids, rfl,
        rfl, trivial, by simp [lleaves], trivial, by simp, by simp, by simp⟩
    | cons e data =>
      have hne : ((e :: data).take leafN).isEmpty = false := rfl
      simp only [hne, Bool.false_eq_true, if_false, Store.reserveLeaf]
      obtain ⟨s1, h1, h2, h3, h3', h4⟩ := append_leaf (d := (e :: data).take leafN) hseg hids
      obtain ⟨rg, hr1, hr2⟩ := keyRange_ok (d := (e :: data).take leafN) (e := e) rfl (lstId none P)
      let s2 : Store K V A := s1.setLeaf s.leaves.length ⟨(e :: data).take leafN, lstId none P, none⟩
      have hassign : s1.assignLeaf s.leaves.length ⟨(e :: data).take leafN, lstId none P, none⟩
          = .ok s2 := by
        unfold Store.assignLeaf
        rw [if_pos (by omega)]
      have hs2 : Seg s2.leaves none (P ++ [(s.leaves.length, (e :: data).take leafN)]) none := h4
      have hlen2 : s2.leaves.length = s.leaves.length + 1 := by
        simp [s2, Store.setLeaf, h2]
      have hids2 : (P ++ [(s.leaves.length, (e :: data).take leafN)]).map (·.1)
          = List.range s2.leaves.length := by
        rw [List.map_append, hids, hlen2, List.range_succ]; rfl
      obtain ⟨s', ns, ps, g1, g2, g3, g4, g4', g5, g6, g7, g8, g9, g10⟩ :=
        ih (s := s2) (data := (e :: data).drop leafN) (by simp at hf ⊢; omega) hs2 hids2
      rw [lstId_concat] at g1
      rw [h1]
      simp only [ok_bind, hr1, hassign, g1, pure_ok]
      let x : T K V A 0 := (⟨s.leaves.length, (e :: data).take leafN⟩ : GLeaf K V)
      have hcnt : (⟨(e :: data).take leafN, lstId none P, none⟩ : Leaf K V).len
          + ((e :: data).drop leafN).length = (e :: data).length := by
        simp only [Leaf.len, List.length_take, List.length_drop]
        omega
      rw [hcnt]
      refine ⟨s', _, (x, e.1) :: ps, rfl, ?_, ?_, g4.trans h3, g4'.trans h3', ?_, ?_, ?_, ?_, ?_, ?_⟩
      all_goals try simp only [List.append_assoc, List.singleton_append] at g2 g3
      · exact g2
      · exact g3
      · refine ⟨rfl, rfl, ?_, ?_⟩
        · intro hb
          refine hr2 ?_
          rcases List.eq_nil_or_concat' P with rfl | ⟨P', y, rfl⟩
          · simp at hb
          · simp
        · have : (!(P ++ [(s.leaves.length, (e :: data).take leafN)]).isEmpty) = true := by simp
          rw [this] at g5
          exact g5
      · have : lleaves ((x, e.1) :: ps) = (s.leaves.length, (e :: data).take leafN) :: lleaves ps := rfl
        rw [this, List.flatMap_cons, g6]
        exact List.take_append_drop _ _
      · rw [List.map_cons, SpineL_cons]
        refine ⟨?_, g7⟩
        have hx : (GLeaf.data (x, e.1).1).length = min 64 (data.length + 1) := by
          show ((e :: data).take leafN).length = _
          rw [List.length_take, List.length_cons]
        split
        · refine ⟨?_, by omega⟩
          rw [hx]; show max 1 μ ≤ _; omega
        · next hps =>
          refine ⟨?_, by omega⟩
          have : ps ≠ [] := by simpa using hps
          have := List.length_pos_of_ne_nil this
          rw [g9] at this
          simp only [List.length_drop, List.length_cons, leafN] at this
          omega
      · intro p hp
        rcases List.mem_cons.1 hp with rfl | hp
        · rfl
        · exact g8 p hp
      · rw [List.length_cons, g9]
        simp only [List.length_drop, List.length_cons, leafN]
        omega
      · intro p hp
        cases ps with
        | nil => simp at hp
        | cons q ps =>
          rw [List.dropLast_cons_of_ne_nil (by simp)] at hp
          rcases List.mem_cons.1 hp with rfl | hp
          · show ((e :: data).take leafN).length = 64
            simp only [List.length_drop, List.length_cons, leafN] at g9
            simp only [List.length_take, List.length_cons, leafN]
            omega
          · exact g10 p hp

end Leaves

section Order
variable [LinearOrder K]

theorem lwalk_leaves (ps : List (T K V A 0 × K)) (hs : Sorted ((lleaves ps).flatMap (·.2)))
    (hh : ∀ p ∈ ps, (GLeaf.data p.1).head?.map (·.1) = some p.2) : (lwalk ps).Pairwise E.R := by
  have key : ∀ e : E K, e ∈ lwalk ps → ∃ f ∈ (lleaves ps).flatMap (·.2), e = .key f.1 ∨ e = .sep f.1 := by
    intro e he
    simp only [lwalk, List.mem_flatMap] at he
    obtain ⟨p, hp, he⟩ := he
    have hsub : ∀ f ∈ GLeaf.data p.1, f ∈ (lleaves ps).flatMap (·.2) := by
      intro f hf
      simp only [lleaves, List.mem_flatMap]
      exact ⟨(GLeaf.id p.1, GLeaf.data p.1), ⟨p, hp, by simp [T.leaves]⟩, hf⟩
    rcases List.mem_cons.1 he with rfl | he
    · have := hh p hp
      rw [Option.map_eq_some_iff] at this
      obtain ⟨f, hf, hf'⟩ := this
      exact ⟨f, hsub f (List.mem_of_mem_head? hf), .inr (by rw [hf'])⟩
    · simp only [T.inorder, List.mem_map] at he
      obtain ⟨f, hf, rfl⟩ := he
      exact ⟨f, hsub f hf, .inl rfl⟩
  induction ps with
  | nil => simp [lwalk]
  | cons p ps ih =>
    have hs' := hs
    have e1 : (lleaves (p :: ps)).flatMap (·.2) = GLeaf.data p.1 ++ (lleaves ps).flatMap (·.2) := by
      simp [lleaves, T.leaves]
    rw [e1] at hs
    unfold Sorted at hs
    rw [List.pairwise_append] at hs
    obtain ⟨hs1, hs2, hs3⟩ := hs
    have e2 : lwalk (p :: ps) = (E.sep p.2 :: (GLeaf.data p.1).map (fun kv => E.key kv.1)) ++ lwalk ps := by
      simp [lwalk, T.inorder]
    have hp := hh p (by simp)
    rw [Option.map_eq_some_iff] at hp
    obtain ⟨f, hf, hf'⟩ := hp
    obtain ⟨d, hd⟩ : ∃ d, GLeaf.data p.1 = f :: d := by
      cases hdat : GLeaf.data p.1 with
      | nil => rw [hdat] at hf; simp at hf
      | cons a d =>
        rw [hdat] at hf
        simp only [List.head?_cons, Option.some.injEq] at hf
        exact ⟨d, by rw [hf]⟩
    have keyps : ∀ e : E K, e ∈ lwalk ps →
        ∃ f ∈ (lleaves ps).flatMap (·.2), e = .key f.1 ∨ e = .sep f.1 := by
      intro e he
      simp only [lwalk, List.mem_flatMap] at he
      obtain ⟨p, hp, he⟩ := he
      have hsub : ∀ f ∈ GLeaf.data p.1, f ∈ (lleaves ps).flatMap (·.2) := by
        intro f hf
        simp only [lleaves, List.mem_flatMap]
        exact ⟨(GLeaf.id p.1, GLeaf.data p.1), ⟨p, hp, by simp [T.leaves]⟩, hf⟩
      rcases List.mem_cons.1 he with rfl | he
      · have := hh p (List.mem_cons_of_mem _ hp)
        rw [Option.map_eq_some_iff] at this
        obtain ⟨f, hf, hf'⟩ := this
        exact ⟨f, hsub f (List.mem_of_mem_head? hf), .inr (by rw [hf'])⟩
      · simp only [T.inorder, List.mem_map] at he
        obtain ⟨f, hf, rfl⟩ := he
        exact ⟨f, hsub f hf, .inl rfl⟩
    rw [e2, List.pairwise_append]
    refine ⟨?_, ih hs2 (fun p hp => hh p (List.mem_cons_of_mem _ hp)) keyps, ?_⟩
    · rw [List.pairwise_cons]
      refine ⟨?_, ?_⟩
      · intro e he
        rw [List.mem_map] at he
        obtain ⟨a, ha, rfl⟩ := he
        rw [hd] at ha hs1
        rw [List.pairwise_cons] at hs1
        rcases List.mem_cons.1 ha with rfl | ha
        · exact le_of_eq hf'.symm
        · rw [← hf']; exact (hs1.1 a ha).le
      · rw [List.pairwise_map]; exact hs1
    · intro a ha b hb
      obtain ⟨f', hf2, hb⟩ := keyps b hb
      have hlt : ∀ c ∈ GLeaf.data p.1, c.1 < f'.1 := fun c hc => hs3 c hc f' hf2
      rcases List.mem_cons.1 ha with rfl | ha
      · have := hlt f (by rw [hd]; simp)
        rw [hf'] at this
        rcases hb with rfl | rfl
        · exact this.le
        · exact this
      · rw [List.mem_map] at ha
        obtain ⟨c, hc, rfl⟩ := ha
        have := hlt c hc
        rcases hb with rfl | rfl <;> exact this

end Order

section Main
variable [Augmentation K V A]

/-- Bulk loading, whatever the order of the items. -/
theorem bulk_items_ok0 {μ : Nat} (hμ1 : μ ≤ 1) {items : List (K × V)} (hne : items ≠ [])
    (hμ : μ = 0 ∨ noLone ((items.length + 63) / 64 + 1) ((items.length + 63) / 64)) :
    ∃ (t : Tree K V A) (H : Nat) (g : T K V A H),
      (do
        let (s, nodes, count) ← bulkLeaves (items.length + 1) (Store.empty : Store K V A) none items
        let (s, root) ← buildInnerLayer (nodes.length + 1) s nodes
        Tree.newFromParts s root count) = .ok t ∧ WF0 μ t g ∧ AugWF t g ∧ g.toL = items ∧
        (¬ noLone ((items.length + 63) / 64 + 1) ((items.length + 63) / 64) → g.LoneR) ∧
        t.st = {} ∧ (∀ [LinearOrder K], Sorted items → g.inorder.Pairwise E.R) ∧
        g.spine = layerSpine ((items.length + 63) / 64 + 1) ((items.length + 63) / 64) [] ∧
        ∃ ps : List (T K V A 0 × K), Built ps g ∧ ps.flatMap (fun p => GLeaf.data p.1) = items ∧
          (∀ p ∈ ps, (GLeaf.data p.1).head?.map (·.1) = some p.2 ∧ (GLeaf.data p.1).length ≤ 64) ∧
          (∀ p ∈ ps.dropLast, (GLeaf.data p.1).length = 64) ∧
          t.store.inners.length = g.nodes.length ∧ t.store.leaves.length = g.leaves.length := by
  obtain ⟨s1, ns, ps, h1, h2, h3, h4, h4', h5, h6, h7, h8, h9, h10⟩ :=
    bulkLeaves_ok (A := A) hμ1 (items.length + 1) (s := Store.empty) (data := items) (P := [])
      (by omega) trivial rfl
  have hlen := h5.length
  have hps : ps ≠ [] := by
    rintro rfl
    simp [lleaves] at h6
    exact hne h6
  have hn : lnodes ps = [] := by
    simp [lnodes, T.nodes]
  obtain ⟨s2, H, g, k, g1, g2, g3, g4, g5, g6, g7, g8, g9, g10, g11, g12⟩ := buildInnerLayer_ok hμ1 (ns.length + 1)
    (s := s1) h5 hps (by omega) (by rw [hlen, h9]; exact hμ) (by rw [hn]; simp) (by rw [hn]; simp)
    h7 (by
      rintro p rfl
      have h7 : T.ShapeTop μ (mnAt μ 0 true) true p.1 := h7
      exact ⟨Nat.zero_le _, h7.2⟩)
    (fun p _ => trivial)
  simp only [List.nil_append] at h2 h3
  have hgL : g.toL = items := by
    rw [T.toL, g8, h6]
  have hnewAug : newAugmentationForId s2 g.nid = .ok g.topAug := by
    cases H with
    | zero =>
      have hseg : Seg s2.leaves none ([] ++ (GLeaf.id g, GLeaf.data g) :: []) none := by
        rw [g2]
        have : [] ++ (GLeaf.id g, GLeaf.data g) :: [] = lleaves ps := by rw [← g8]; rfl
        rw [this]; exact h2
      simp only [T.nid_zero, newAugmentationForId, hseg.getLeaf, ok_bind, pure_ok]
      rfl
    | succ H =>
      have hg : s2.getInner (GNode.id g) = .ok (GNode.inner g) := g3.get nodes_head
      simp only [T.nid_succ, newAugmentationForId, hg, ok_bind, pure_ok]
      rfl
  have hpos := List.length_pos_of_ne_nil hne
  refine ⟨⟨g.nid, g.topAug, items.length, s2, {}⟩, H, g, ?_, ?_, ⟨g6, .inl rfl⟩, hgL,
    fun h => g9 (.inl (by rw [hlen, h9] at *; exact h)), rfl, ?_, ?_, ps, g11, ?_, ?_, h10, ?_, ?_⟩
  · simp only [lstId_nil] at h1
    simp only [h1, ok_bind, g1, Tree.newFromParts, if_pos hpos, hnewAug, pure_ok]
  · refine ⟨rfl, g3, g4, ?_, ?_, ?_, g5, ?_⟩
    · simp only [g2, g8]; exact h2
    · rw [g8, h3]; exact List.nodup_range
    · intro i l hi
      simp only [g2] at hi
      rw [g8, h3, List.mem_range]
      rcases Nat.lt_or_ge i s1.leaves.length with h | h
      · exact h
      · simp [List.getElem?_eq_none h] at hi
    · simp only [hgL]
  · intro _ hs
    have hw : (lwalk ps).Pairwise E.R := lwalk_leaves ps (by rw [h6]; exact hs) h8
    rw [← g7, List.pairwise_cons] at hw
    exact hw.2
  · rw [g10 _ (List.getLast?_eq_some_getLast hps), hlen, h9]
    rfl
  · rw [← h6, lleaves, List.flatMap_assoc]
    simp only [T.leaves, List.flatMap_cons, List.flatMap_nil, List.append_nil]
  · intro p hp
    refine ⟨h8 p hp, ?_⟩
    have h' : SpineL (fun c : T K V A 0 => (GLeaf.data c).length ≤ 64)
        (fun c : T K V A 0 => (GLeaf.data c).length ≤ 64) (ps.map (·.1)) :=
      SpineL_mono (fun c _ hc => hc.2) (fun c _ hc => hc.2) h7
    rw [SpineL_same] at h'
    exact h' p.1 (List.mem_map_of_mem hp)
  · rw [hn, h4] at g12
    simpa [Store.empty] using g12
  · have := congrArg List.length h3
    rw [List.length_map, List.length_range] at this
    simp only [g2, g8, this]

/-- Bulk loading of strictly sorted items gives a well-formed tree. -/
theorem bulk_items_ok [LinearOrder K] {μ : Nat} (hμ1 : μ ≤ 1) {items : List (K × V)} (hne : items ≠ [])
    (hs : Sorted items)
    (hμ : μ = 0 ∨ noLone ((items.length + 63) / 64 + 1) ((items.length + 63) / 64)) :
    ∃ (t : Tree K V A) (H : Nat) (g : T K V A H),
      (do
        let (s, nodes, count) ← bulkLeaves (items.length + 1) (Store.empty : Store K V A) none items
        let (s, root) ← buildInnerLayer (nodes.length + 1) s nodes
        Tree.newFromParts s root count) = .ok t ∧ WF μ t g ∧ AugWF t g ∧ g.toL = items ∧
        (¬ noLone ((items.length + 63) / 64 + 1) ((items.length + 63) / 64) → g.LoneR) ∧
        t.st = {} ∧
        g.spine = layerSpine ((items.length + 63) / 64 + 1) ((items.length + 63) / 64) [] := by
  obtain ⟨t, H, g, h1, h2, h3, h4, h5, h6, h7, h8, -⟩ := bulk_items_ok0 (A := A) hμ1 hne hμ
  exact ⟨t, H, g, h1, h2.ordered (h7 hs), h3, h4, h5, h6, h8⟩

end Main
end Bpt
