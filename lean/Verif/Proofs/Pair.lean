import Verif.Proofs.Content

/-!
# Two neighbouring children of a node
-/

namespace Bpt
variable {K V A : Type}

theorem sliceRemove_ok {α : Type} {l r : List α} {x : α} {i : Nat} (h : i = l.length) :
    sliceRemove (l ++ x :: r) i = .ok (x, l ++ r) := by
  subst h
  have : (l ++ x :: r).drop (l.length + 1) = r := by
    rw [List.drop_append, List.drop_eq_nil_of_le (by omega)]; simp
  simp [sliceRemove, this]

/-- A node with two holes next to each other (children, augmentations and the key between them). -/
structure Pair (K A X : Type) where
  id : Nat
  keysL : List K
  kidsL : List X
  augsL : List A
  keysR : List K
  kidsR : List X
  augsR : List A

namespace Pair
variable {h : Nat}

/-- Frame of the right hole. -/
def right {X : Type} (p : Pair K A X) (x : X) (a : A) (k : K) (b : A) : Frame K A X :=
  ⟨p.id, p.keysL ++ [k], p.kidsL ++ [x], p.augsL ++ [a], b, p.keysR, p.kidsR, p.augsR⟩

/-- Frame of the left hole. -/
def left {X : Type} (p : Pair K A X) (a : A) (k : K) (y : X) (b : A) : Frame K A X :=
  ⟨p.id, p.keysL, p.kidsL, p.augsL, a, k :: p.keysR, y :: p.kidsR, b :: p.augsR⟩

/-- Frame after the two holes were merged. -/
def one {X : Type} (p : Pair K A X) (a : A) : Frame K A X :=
  ⟨p.id, p.keysL, p.kidsL, p.augsL, a, p.keysR, p.kidsR, p.augsR⟩

/-- The filled node. -/
def fill {X : Type} (p : Pair K A X) (x : X) (a : A) (k : K) (y : X) (b : A) : GNode K A X :=
  ⟨p.id, p.keysL ++ k :: p.keysR, p.kidsL ++ x :: y :: p.kidsR, p.augsL ++ a :: b :: p.augsR⟩

theorem fill_right {X : Type} {p : Pair K A X} {x y : X} {a b : A} {k : K} :
    p.fill x a k y b = (p.right x a k b).fill y := by
  simp [fill, right, Frame.fill]

theorem fill_left {X : Type} {p : Pair K A X} {x y : X} {a b : A} {k : K} :
    p.fill x a k y b = (p.left a k y b).fill x := by
  simp [fill, left, Frame.fill]

def LenOK {X : Type} (p : Pair K A X) : Prop :=
  p.keysL.length = p.kidsL.length ∧ p.augsL.length = p.kidsL.length ∧
  p.keysR.length = p.kidsR.length ∧ p.augsR.length = p.kidsR.length

theorem LenOK.right {X : Type} {p : Pair K A X} {x : X} {a b : A} {k : K} (hp : p.LenOK) :
    (p.right x a k b).LenOK := by
  obtain ⟨h1, h2, h3, h4⟩ := hp
  simp [Pair.right, Frame.LenOK, h1, h2, h3, h4]

theorem LenOK.left {X : Type} {p : Pair K A X} {y : X} {a b : A} {k : K} (hp : p.LenOK) :
    (p.left a k y b).LenOK := by
  obtain ⟨h1, h2, h3, h4⟩ := hp
  simp [Pair.left, Frame.LenOK, h1, h2, h3, h4]

theorem LenOK.one {X : Type} {p : Pair K A X} {a : A} (hp : p.LenOK) : (p.one a).LenOK := hp

/-- The node of the pair with the given child ids, augmentations and key. -/
def inner (p : Pair K A (T K V A h)) (i : NodeId) (a : A) (k : K) (j : NodeId) (b : A) : Inner K A :=
  ⟨p.keysL ++ k :: p.keysR, p.kidsL.map T.nid ++ i :: j :: p.kidsR.map T.nid,
    p.augsL ++ a :: b :: p.augsR⟩

def side (p : Pair K A (T K V A h)) : List (Nat × Inner K A) :=
  p.kidsL.flatMap T.nodes ++ p.kidsR.flatMap T.nodes

theorem inner_fill {p : Pair K A (T K V A h)} {x y : T K V A h} {a b : A} {k : K} :
    (p.fill x a k y b).inner = p.inner x.nid a k y.nid b := by
  simp [fill, GNode.inner, inner]

theorem nodes_fill {p : Pair K A (T K V A h)} {x y : T K V A h} {a b : A} {k : K} :
    (T.nodes (h := h + 1) (p.fill x a k y b)).Perm
      ((p.id, p.inner x.nid a k y.nid b) :: (x.nodes ++ y.nodes ++ p.side)) := by
  simp only [T.nodes, inner_fill]
  refine List.Perm.cons _ ?_
  simp only [fill, side]
  perm

theorem nodes_one {p : Pair K A (T K V A h)} {z : T K V A h} {a : A} :
    (T.nodes (h := h + 1) ((p.one a).fill z)).Perm
      ((p.id, (p.one a).inner z.nid) :: (z.nodes ++ p.side)) := by
  refine T.nodes_fill.trans ?_
  simp only [Frame.nodes, Frame.side, one, side]
  perm

def inL (p : Pair K A (T K V A h)) : List (E K) := interL p.keysL (p.kidsL.map T.inorder)
def inR (p : Pair K A (T K V A h)) : List (E K) := interR p.keysR (p.kidsR.map T.inorder)
def lvL (p : Pair K A (T K V A h)) : List (Nat × List (K × V)) := p.kidsL.flatMap T.leaves
def lvR (p : Pair K A (T K V A h)) : List (Nat × List (K × V)) := p.kidsR.flatMap T.leaves

theorem inorder_fill {p : Pair K A (T K V A h)} {x y : T K V A h} {a b : A} {k : K} (hp : p.LenOK) :
    T.inorder (h := h + 1) (p.fill x a k y b)
      = p.inL ++ (x.inorder ++ E.sep k :: y.inorder) ++ p.inR := by
  rw [fill_right, T.inorder_fill hp.right]
  simp only [Frame.inL, Frame.inR, right, List.map_append, List.map_cons, List.map_nil]
  rw [interL_append (by simp [hp.1])]
  simp [inL, inR]

theorem inorder_one {p : Pair K A (T K V A h)} {z : T K V A h} {a : A} (hp : p.LenOK) :
    T.inorder (h := h + 1) ((p.one a).fill z) = p.inL ++ z.inorder ++ p.inR :=
  T.inorder_fill hp.one

theorem leaves_fill {p : Pair K A (T K V A h)} {x y : T K V A h} {a b : A} {k : K} :
    T.leaves (h := h + 1) (p.fill x a k y b) = p.lvL ++ (x.leaves ++ y.leaves) ++ p.lvR := by
  simp [T.leaves, fill, lvL, lvR]

theorem leaves_one {p : Pair K A (T K V A h)} {z : T K V A h} {a : A} :
    T.leaves (h := h + 1) ((p.one a).fill z) = p.lvL ++ z.leaves ++ p.lvR := T.leaves_fill

/-- Flag of the right hole. -/
def holeFlag {X : Type} (p : Pair K A X) (r : Bool) : Bool := r && p.kidsR.isEmpty

def Sides (μ : Nat) (r : Bool) (p : Pair K A (T K V A h)) : Prop :=
  (∀ c ∈ p.kidsL, T.ShapeTop μ 16 false c) ∧
  SpineL (fun c => T.ShapeTop μ 16 false c) (fun c => T.ShapeTop μ (mnAt μ h r) r c) p.kidsR

def len {X : Type} (p : Pair K A X) : Nat := p.keysL.length + p.keysR.length

theorem shape_fill {μ m : Nat} {r : Bool} {p : Pair K A (T K V A h)} {x y : T K V A h} {a b : A}
    {k : K} (hp : p.LenOK) (hs : p.Sides μ r) (h1 : m ≤ p.len + 1) (h2 : p.len + 1 ≤ 64)
    (hx : T.ShapeTop μ 16 false x)
    (hy : T.ShapeTop μ (mnAt μ h (p.holeFlag r)) (p.holeFlag r) y) :
    T.ShapeTop μ (h := h + 1) m r (p.fill x a k y b) := by
  rw [fill_right]
  refine (T.shape_fill.2 ⟨⟨⟨?_, hs.2⟩, ?_, ?_, hp.right⟩, hy⟩).1
  · intro c hc
    simp only [right, List.mem_append, List.mem_singleton] at hc
    rcases hc with hc | rfl
    · exact hs.1 c hc
    · exact hx
  · simp only [Frame.len, right, List.length_append, List.length_singleton, len] at h1 ⊢; omega
  · simp only [Frame.len, right, List.length_append, List.length_singleton, len] at h2 ⊢; omega

theorem shape_one {μ m : Nat} {r : Bool} {p : Pair K A (T K V A h)} {z : T K V A h} {a : A}
    (hp : p.LenOK) (hs : p.Sides μ r) (h1 : m ≤ p.len) (h2 : p.len ≤ 64)
    (hz : T.ShapeTop μ (mnAt μ h (p.holeFlag r)) (p.holeFlag r) z) :
    T.ShapeTop μ (h := h + 1) m r ((p.one a).fill z) :=
  (T.shape_fill (f := p.one a).2 ⟨⟨hs, h1, h2, hp.one⟩, hz⟩).1

section
variable [Augmentation K V A]

def AugOK (p : Pair K A (T K V A h)) : Prop :=
  p.augsL = p.kidsL.map T.topAug ∧ p.augsR = p.kidsR.map T.topAug ∧
  (∀ c ∈ p.kidsL, T.AugOK c) ∧ (∀ c ∈ p.kidsR, T.AugOK c)

theorem augOK_fill {p : Pair K A (T K V A h)} {x y : T K V A h} {k : K} (hp : p.AugOK)
    (hx : x.AugOK) (hy : y.AugOK) :
    T.AugOK (h := h + 1) (p.fill x x.topAug k y y.topAug) := by
  refine ⟨by simp [fill, hp.1, hp.2.1], ?_⟩
  intro c hc
  simp only [fill, List.mem_append, List.mem_cons] at hc
  rcases hc with hc | rfl | rfl | hc
  · exact hp.2.2.1 c hc
  · exact hx
  · exact hy
  · exact hp.2.2.2 c hc

theorem augOK_one {p : Pair K A (T K V A h)} {z : T K V A h} (hp : p.AugOK)
    (hz : z.AugOK) : T.AugOK (h := h + 1) ((p.one z.topAug).fill z) := by
  refine ⟨by simp [one, Frame.fill, hp.1, hp.2.1], ?_⟩
  intro c hc
  simp only [one, Frame.fill, List.mem_append, List.mem_cons] at hc
  rcases hc with hc | rfl | hc
  · exact hp.2.2.1 c hc
  · exact hz
  · exact hp.2.2.2 c hc

end

/-! ## Operations on the node -/

theorem childId_left {p : Pair K A (T K V A h)} {i j : NodeId} {a b : A} {k : K} :
    (p.inner i a k j b).childId p.kidsL.length = .ok i := by
  simp [Inner.childId, inner, readAt]

theorem childId_right {p : Pair K A (T K V A h)} {i j : NodeId} {a b : A} {k : K} :
    (p.inner i a k j b).childId (p.kidsL.length + 1) = .ok j := by
  simp [Inner.childId, inner, readAt]

theorem setKey_ok {p : Pair K A (T K V A h)} (hp : p.LenOK) {i j : NodeId} {a b : A} {k k' : K} :
    (p.inner i a k j b).setKey p.kidsL.length k' = .ok (k, p.inner i a k' j b) := by
  simp [Inner.setKey, inner, readAt, ← hp.1]

theorem setAug_left {p : Pair K A (T K V A h)} (hp : p.LenOK) {i j : NodeId} {a b a' : A} {k : K} :
    (p.inner i a k j b).setAugmentation p.kidsL.length a' = .ok (p.inner i a' k j b) := by
  have hlt : p.kidsL.length < (p.inner i a k j b).augs.length := by
    simp [inner, hp.2.1]
  rw [Inner.setAugmentation, if_pos hlt]
  simp [inner, ← hp.2.1]

theorem setAug_right {p : Pair K A (T K V A h)} (hp : p.LenOK) {i j : NodeId} {a b b' : A} {k : K} :
    (p.inner i a k j b).setAugmentation (p.kidsL.length + 1) b' = .ok (p.inner i a k j b') := by
  have hlt : p.kidsL.length + 1 < (p.inner i a k j b).augs.length := by
    simp [inner, hp.2.1]
  rw [Inner.setAugmentation, if_pos hlt]
  simp [inner, ← hp.2.1]

theorem removeSlot_ok {p : Pair K A (T K V A h)} (hp : p.LenOK) {i j : NodeId} {a b : A} {k : K} :
    (p.inner i a k j b).removeSlotWithRight p.kidsL.length
      = .ok (decide (16 ≤ p.len), k, (p.one a).inner i) := by
  have e1 : sliceRemove (p.keysL ++ k :: p.keysR) p.kidsL.length
      = .ok (k, p.keysL ++ p.keysR) := sliceRemove_ok hp.1.symm
  have e2 : sliceRemove (p.kidsL.map T.nid ++ i :: j :: p.kidsR.map T.nid) (p.kidsL.length + 1)
      = .ok (j, p.kidsL.map T.nid ++ i :: p.kidsR.map T.nid) := by
    have := sliceRemove_ok (l := p.kidsL.map T.nid ++ [i]) (r := p.kidsR.map T.nid) (x := j)
      (i := p.kidsL.length + 1) (by simp)
    simpa using this
  have e3 : sliceRemove (p.augsL ++ a :: b :: p.augsR) (p.kidsL.length + 1)
      = .ok (b, p.augsL ++ a :: p.augsR) := by
    have := sliceRemove_ok (l := p.augsL ++ [a]) (r := p.augsR) (x := b)
      (i := p.kidsL.length + 1) (by simp [hp.2.1])
    simpa using this
  simp only [Inner.removeSlotWithRight, inner, e1, e2, e3, ok_bind, pure_ok, one, Frame.inner, len,
    List.length_append, minN]
  congr

end Pair

/-! ## From a frame to a pair -/

theorem Frame.pair_left {X : Type} {f : Frame K A X} (hf : f.LenOK) (h0 : 0 < f.kidsL.length) :
    ∃ (p : Pair K A X) (y : X) (a : A) (k : K), f = p.right y a k f.aug ∧ p.LenOK ∧
      p.kidsL.length + 1 = f.kidsL.length ∧ p.len + 1 = f.len := by
  obtain ⟨h1, h2, h3, h4⟩ := hf
  obtain ⟨id, kl, cl, al, a, kr, cr, ar⟩ := f
  simp only at *
  rcases List.eq_nil_or_concat kl with rfl | ⟨kl, k, rfl⟩
  · simp at h1; omega
  rcases List.eq_nil_or_concat cl with rfl | ⟨cl, c, rfl⟩
  · simp at h1
  rcases List.eq_nil_or_concat al with rfl | ⟨al, a', rfl⟩
  · simp at h2
  simp only [List.concat_eq_append, List.length_append, List.length_singleton, Nat.add_right_cancel_iff] at *
  exact ⟨⟨id, kl, cl, al, kr, cr, ar⟩, c, a', k, rfl, ⟨h1, h2, h3, h4⟩, rfl, by
    simp [Pair.len, Frame.len]; omega⟩

theorem Frame.pair_right {X : Type} {f : Frame K A X} (hf : f.LenOK) (h0 : 0 < f.kidsR.length) :
    ∃ (p : Pair K A X) (y : X) (b : A) (k : K), f = p.left f.aug k y b ∧ p.LenOK ∧
      p.kidsL.length = f.kidsL.length ∧ p.len + 1 = f.len := by
  obtain ⟨h1, h2, h3, h4⟩ := hf
  obtain ⟨id, kl, cl, al, a, kr, cr, ar⟩ := f
  simp only at *
  rcases kr with _ | ⟨k, kr⟩
  · simp at h3; omega
  rcases cr with _ | ⟨c, cr⟩
  · simp at h3
  rcases ar with _ | ⟨a', ar⟩
  · simp at h4
  simp only [List.length_cons, Nat.add_right_cancel_iff] at *
  exact ⟨⟨id, kl, cl, al, kr, cr, ar⟩, c, a', k, rfl, ⟨h1, h2, h3, h4⟩, rfl, by
    simp [Pair.len, Frame.len]; omega⟩

end Bpt
