import Verif.Model.Remove
import Mathlib.Data.List.Basic
import Mathlib.Tactic.Order

/-!
# Ghost trees

The abstract tree a store represents, used only in proofs. `T h` is a tree of height `h` whose
leaves are at distance `h` from the top.
-/

namespace Bpt
variable {K V A : Type}

structure GLeaf (K V : Type) where
  id : Nat
  data : List (K × V)

structure GNode (K A X : Type) where
  id : Nat
  keys : List K
  kids : List X
  augs : List A

@[reducible] def T (K V A : Type) : Nat → Type
  | 0 => GLeaf K V
  | h + 1 => GNode K A (T K V A h)

/-- Elements of the in-order walk: separators and keys. -/
inductive E (K : Type) where
  | sep (k : K)
  | key (k : K)

section Order
variable [LinearOrder K]

/-- Strictly increasing walk, except that a separator may equal the key right of it. -/
def E.R : E K → E K → Prop
  | .sep a, .key b => a ≤ b
  | .sep a, .sep b => a < b
  | .key a, .sep b => a < b
  | .key a, .key b => a < b

theorem E.R.trans {a b c : E K} (h1 : a.R b) (h2 : b.R c) : a.R c := by
  cases a <;> cases b <;> cases c <;> simp only [E.R] at * <;> order

end Order

def interR (ks : List K) (xs : List (List (E K))) : List (E K) :=
  (List.zipWith (fun k x => E.sep k :: x) ks xs).flatten

def interL (ks : List K) (xs : List (List (E K))) : List (E K) :=
  (List.zipWith (fun k x => x ++ [E.sep k]) ks xs).flatten

def inter (ks : List K) : List (List (E K)) → List (E K)
  | [] => []
  | x :: xs => x ++ interR ks xs

theorem interR_append {ks ks' : List K} {xs xs' : List (List (E K))} (h : ks.length = xs.length) :
    interR (ks ++ ks') (xs ++ xs') = interR ks xs ++ interR ks' xs' := by
  simp [interR, List.zipWith_append h]

@[simp] theorem interR_cons {k : K} {ks : List K} {x : List (E K)} {xs : List (List (E K))} :
    interR (k :: ks) (x :: xs) = E.sep k :: x ++ interR ks xs := by
  simp [interR]

@[simp] theorem interR_nil {ks : List K} : interR ks [] = [] := by
  simp [interR]

@[simp] theorem interL_nil : interL ([] : List K) [] = [] := by
  simp [interL]

theorem interL_append {ks ks' : List K} {xs xs' : List (List (E K))} (h : ks.length = xs.length) :
    interL (ks ++ ks') (xs ++ xs') = interL ks xs ++ interL ks' xs' := by
  simp [interL, List.zipWith_append h]

@[simp] theorem interL_cons {k : K} {ks : List K} {x : List (E K)} {xs : List (List (E K))} :
    interL (k :: ks) (x :: xs) = x ++ E.sep k :: interL ks xs := by
  simp [interL]

theorem inter_split {ks ks' : List K} {xs xs' : List (List (E K))} {x : List (E K)}
    (h : ks.length = xs.length) :
    inter (ks ++ ks') (xs ++ x :: xs') = interL ks xs ++ x ++ interR ks' xs' := by
  induction xs generalizing ks with
  | nil => cases ks with
    | nil => simp [inter]
    | cons => simp at h
  | cons y ys ih =>
    cases ks with
    | nil => simp at h
    | cons k ks =>
      have ih := @ih ks (by simpa using h)
      cases ys with
      | nil =>
        cases ks with
        | nil => simp [inter]
        | cons => simp at h
      | cons z zs =>
        simp only [List.cons_append, inter, interR_cons, interL_cons] at ih ⊢
        simp [ih]

theorem inter_append {ks ks' : List K} {k : K} {xs xs' : List (List (E K))}
    (h : xs.length = ks.length + 1) (h' : xs'.length = ks'.length + 1) :
    inter (ks ++ k :: ks') (xs ++ xs') = inter ks xs ++ E.sep k :: inter ks' xs' := by
  cases xs with
  | nil => simp at h
  | cons x xs =>
    cases xs' with
    | nil => simp at h'
    | cons y ys =>
      simp only [inter, List.cons_append]
      rw [interR_append (by simp at h; omega)]
      simp

/-! ## Running `Res` programs -/

@[simp] theorem ok_bind {α β : Type} (a : α) (f : α → Res β) : ((.ok a : Res α) >>= f) = f a := rfl

theorem bind_ok {α β : Type} {x : Res α} {f : α → Res β} {b : β} (h : x >>= f = .ok b) :
    ∃ a, x = .ok a ∧ f a = .ok b := by
  cases x with
  | error e => cases h
  | ok a => exact ⟨a, rfl, h⟩

@[simp] theorem error_bind {α β : Type} (e : Fault) (f : α → Res β) :
    ((.error e : Res α) >>= f) = .error e := rfl
@[simp] theorem pure_ok {α : Type} (a : α) : (pure a : Res α) = .ok a := rfl

/-! ## Functions on ghost trees -/

def T.nid : {h : Nat} → T K V A h → NodeId
  | 0, x => .leaf (GLeaf.id x)
  | _ + 1, x => .inner (GNode.id x)

@[simp] theorem T.nid_zero {x : GLeaf K V} : T.nid (A := A) (h := 0) x = .leaf x.id := rfl
@[simp] theorem T.nid_succ {h : Nat} {x : GNode K A (T K V A h)} :
    T.nid (h := h + 1) x = .inner x.id := rfl

def T.inorder : {h : Nat} → T K V A h → List (E K)
  | 0, x => (GLeaf.data x).map (fun kv => E.key kv.1)
  | _ + 1, x => inter (GNode.keys x) ((GNode.kids x).map (fun c => T.inorder c))

/-- Leaves in order: id and items. -/
def T.leaves : {h : Nat} → T K V A h → List (Nat × List (K × V))
  | 0, x => [(GLeaf.id x, GLeaf.data x)]
  | _ + 1, x => (GNode.kids x).flatMap (fun c => T.leaves c)

def GNode.inner {h : Nat} (x : GNode K A (T K V A h)) : Inner K A :=
  ⟨x.keys, x.kids.map T.nid, x.augs⟩

/-- Inner nodes: id and node. -/
def T.nodes : {h : Nat} → T K V A h → List (Nat × Inner K A)
  | 0, _ => []
  | _ + 1, x => (GNode.id x, GNode.inner x) :: (GNode.kids x).flatMap (fun c => T.nodes c)

/-- All items in order. -/
def T.toL {h : Nat} (x : T K V A h) : List (K × V) := x.leaves.flatMap (·.2)

section Aug
variable [Augmentation K V A]

def T.topAug : {h : Nat} → T K V A h → A
  | 0, x => Augmentation.fromLeaf ((GLeaf.data x).map (·.1)) ((GLeaf.data x).map (·.2))
  | _ + 1, x => Augmentation.fromInner V (GNode.keys x) (GNode.augs x)

/-- Every stored child augmentation is the one computed from the child. -/
def T.AugOK : {h : Nat} → T K V A h → Prop
  | 0, _ => True
  | _ + 1, x => GNode.augs x = (GNode.kids x).map T.topAug ∧ ∀ c ∈ GNode.kids x, T.AugOK c
end Aug

/-- `Q` for the last element, `P` for the others. -/
def SpineL {α : Type} (P Q : α → Prop) : List α → Prop
  | [] => True
  | [a] => Q a
  | a :: b :: l => P a ∧ SpineL P Q (b :: l)

theorem SpineL_append {α : Type} {P Q : α → Prop} {l l' : List α} (h : l' ≠ []) :
    SpineL P Q (l ++ l') ↔ (∀ a ∈ l, P a) ∧ SpineL P Q l' := by
  induction l with
  | nil => simp
  | cons a l ih =>
    cases hl : l ++ l' with
    | nil => simp_all
    | cons b m =>
      rw [List.cons_append, hl, SpineL, ← hl, ih]
      simp [and_assoc]

theorem SpineL_cons {α : Type} {P Q : α → Prop} {a : α} {l : List α} :
    SpineL P Q (a :: l) ↔ (if l = [] then Q a else P a) ∧ SpineL P Q l := by
  cases l <;> simp [SpineL]

theorem SpineL_same {α : Type} {P : α → Prop} {l : List α} :
    SpineL P P l ↔ ∀ a ∈ l, P a := by
  induction l with
  | nil => simp [SpineL]
  | cons a l ih => rw [SpineL_cons, ih]; simp

theorem SpineL_mono {α : Type} {P Q P' Q' : α → Prop} {l : List α}
    (hp : ∀ a ∈ l, P a → P' a) (hq : ∀ a ∈ l, Q a → Q' a) (h : SpineL P Q l) :
    SpineL P' Q' l := by
  induction l with
  | nil => simp [SpineL]
  | cons a l ih =>
    rw [SpineL_cons] at h ⊢
    refine ⟨?_, ih (fun b hb => hp b (by simp [hb])) (fun b hb => hq b (by simp [hb])) h.2⟩
    have h1 := h.1
    split <;> simp_all

/-- Minimum number of keys (inner) or items (leaf) of a node at height `h`; `r`: the node is on the
right spine. -/
def mnAt (μ : Nat) : Nat → Bool → Nat
  | _, false => 16
  | 0, true => max 1 μ
  | _ + 1, true => μ

/-- Shape of a node with at least `m` keys/items on top; `r`: on the right spine. -/
def T.ShapeTop (μ : Nat) : {h : Nat} → Nat → Bool → T K V A h → Prop
  | 0, m, _, x => m ≤ (GLeaf.data x).length ∧ (GLeaf.data x).length ≤ 64
  | h + 1, m, r, x => m ≤ (GNode.keys x).length ∧ (GNode.keys x).length ≤ 64
      ∧ (GNode.kids x).length = (GNode.keys x).length + 1
      ∧ (GNode.augs x).length = (GNode.keys x).length + 1
      ∧ SpineL (fun c => T.ShapeTop μ 16 false c) (fun c => T.ShapeTop μ (mnAt μ h r) r c)
          (GNode.kids x)

/-- Minimum of the root. -/
def rootMin : Nat → Nat
  | 0 => 0
  | _ + 1 => 1

/-! ## Frames and contexts -/

structure Frame (K A X : Type) where
  id : Nat
  keysL : List K
  kidsL : List X
  augsL : List A
  aug : A
  keysR : List K
  kidsR : List X
  augsR : List A

namespace Frame
variable {h : Nat}

def fill {X : Type} (f : Frame K A X) (x : X) : GNode K A X :=
  ⟨f.id, f.keysL ++ f.keysR, f.kidsL ++ x :: f.kidsR, f.augsL ++ f.aug :: f.augsR⟩

def setAug {X : Type} (f : Frame K A X) (a : A) : Frame K A X := { f with aug := a }

def LenOK {X : Type} (f : Frame K A X) : Prop :=
  f.keysL.length = f.kidsL.length ∧ f.augsL.length = f.kidsL.length ∧
  f.keysR.length = f.kidsR.length ∧ f.augsR.length = f.kidsR.length

def len {X : Type} (f : Frame K A X) : Nat := f.keysL.length + f.keysR.length

def inL (f : Frame K A (T K V A h)) : List (E K) := interL f.keysL (f.kidsL.map T.inorder)
def inR (f : Frame K A (T K V A h)) : List (E K) := interR f.keysR (f.kidsR.map T.inorder)
def lvL (f : Frame K A (T K V A h)) : List (Nat × List (K × V)) := f.kidsL.flatMap T.leaves
def lvR (f : Frame K A (T K V A h)) : List (Nat × List (K × V)) := f.kidsR.flatMap T.leaves

/-- The node of the frame with child id `i` in the hole. -/
def inner (f : Frame K A (T K V A h)) (i : NodeId) : Inner K A :=
  ⟨f.keysL ++ f.keysR, f.kidsL.map T.nid ++ i :: f.kidsR.map T.nid, f.augsL ++ f.aug :: f.augsR⟩

/-- Inner nodes of the siblings. -/
def side (f : Frame K A (T K V A h)) : List (Nat × Inner K A) :=
  f.kidsL.flatMap T.nodes ++ f.kidsR.flatMap T.nodes

def nodes (f : Frame K A (T K V A h)) (i : NodeId) : List (Nat × Inner K A) :=
  (f.id, f.inner i) :: f.side

/-- Flag of the hole when the flag of the node is `r`. -/
def holeFlag {X : Type} (f : Frame K A X) (r : Bool) : Bool := r && f.kidsR.isEmpty

/-- Shape of the siblings. -/
def Sides (μ : Nat) (r : Bool) (f : Frame K A (T K V A h)) : Prop :=
  (∀ c ∈ f.kidsL, T.ShapeTop μ 16 false c) ∧
  SpineL (fun c => T.ShapeTop μ 16 false c) (fun c => T.ShapeTop μ (mnAt μ h r) r c) f.kidsR

def AugOK [Augmentation K V A] (f : Frame K A (T K V A h)) : Prop :=
  f.augsL = f.kidsL.map T.topAug ∧ f.augsR = f.kidsR.map T.topAug ∧
  (∀ c ∈ f.kidsL, T.AugOK c) ∧ (∀ c ∈ f.kidsR, T.AugOK c)

end Frame

/-- Path from a node of height `h` up to a root of height `H`. -/
inductive Ctx (K V A : Type) : Nat → Nat → Type where
  | nil {H : Nat} : Ctx K V A H H
  | cons {h H : Nat} (f : Frame K A (T K V A h)) (c : Ctx K V A (h + 1) H) : Ctx K V A h H

namespace Ctx

def plug : {h H : Nat} → Ctx K V A h H → T K V A h → T K V A H
  | _, _, .nil, x => x
  | _, _, .cons f c, x => plug c (f.fill x)

def inL : {h H : Nat} → Ctx K V A h H → List (E K)
  | _, _, .nil => []
  | _, _, .cons f c => inL c ++ f.inL

def inR : {h H : Nat} → Ctx K V A h H → List (E K)
  | _, _, .nil => []
  | _, _, .cons f c => f.inR ++ inR c

def lvL : {h H : Nat} → Ctx K V A h H → List (Nat × List (K × V))
  | _, _, .nil => []
  | _, _, .cons f c => lvL c ++ f.lvL

def lvR : {h H : Nat} → Ctx K V A h H → List (Nat × List (K × V))
  | _, _, .nil => []
  | _, _, .cons f c => f.lvR ++ lvR c

def nodes : {h H : Nat} → Ctx K V A h H → NodeId → List (Nat × Inner K A)
  | _, _, .nil, _ => []
  | _, _, .cons f c, i => f.nodes i ++ nodes c (.inner f.id)

/-- The visit stack of the path, newest entry first. -/
def stack : {h H : Nat} → Ctx K V A h H → NodeId → List StackEntry
  | _, _, .nil, _ => []
  | _, _, .cons f c, i => (f.id, f.kidsL.length, i) :: stack c (.inner f.id)

def LenOK : {h H : Nat} → Ctx K V A h H → Prop
  | _, _, .nil => True
  | _, _, .cons f c => f.LenOK ∧ LenOK c

def flag : {h H : Nat} → Ctx K V A h H → Bool
  | _, _, .nil => true
  | _, _, .cons f c => f.holeFlag (flag c)

/-- Minimum of the node in the hole. -/
def min (μ : Nat) : {h H : Nat} → Ctx K V A h H → Nat
  | h, _, .nil => rootMin h
  | h, _, .cons f c => mnAt μ h (f.holeFlag (flag c))

def Shape (μ : Nat) : {h H : Nat} → Ctx K V A h H → Prop
  | _, _, .nil => True
  | _, _, .cons f c => f.Sides μ (flag c) ∧ min μ c ≤ f.len ∧ f.len ≤ 64 ∧ f.LenOK ∧ Shape μ c

def AugOK [Augmentation K V A] : {h H : Nat} → Ctx K V A h H → Prop
  | _, _, .nil => True
  | _, _, .cons f c => f.AugOK ∧ AugOK c

end Ctx

/-! ## Frame and context lemmas -/

theorem T.inorder_fill {h : Nat} {f : Frame K A (T K V A h)} {x : T K V A h} (hf : f.LenOK) :
    T.inorder (h := h + 1) (f.fill x) = f.inL ++ x.inorder ++ f.inR := by
  simp only [T.inorder, Frame.fill, List.map_append, List.map_cons]
  rw [inter_split (by simp [hf.1])]
  rfl

theorem T.leaves_fill {h : Nat} {f : Frame K A (T K V A h)} {x : T K V A h} :
    T.leaves (h := h + 1) (f.fill x) = f.lvL ++ x.leaves ++ f.lvR := by
  simp [T.leaves, Frame.fill, Frame.lvL, Frame.lvR]

theorem GNode.inner_fill {h : Nat} {f : Frame K A (T K V A h)} {x : T K V A h} :
    (f.fill x).inner = f.inner x.nid := by
  simp [GNode.inner, Frame.inner, Frame.fill]

theorem T.nodes_fill {h : Nat} {f : Frame K A (T K V A h)} {x : T K V A h} :
    (T.nodes (h := h + 1) (f.fill x)).Perm (x.nodes ++ f.nodes x.nid) := by
  simp only [T.nodes, GNode.inner_fill, Frame.nodes, Frame.side]
  simp only [Frame.fill, List.flatMap_append, List.flatMap_cons]
  refine List.Perm.trans ?_ List.perm_append_comm
  simp only [List.cons_append]
  refine List.Perm.cons _ ?_
  rw [List.append_assoc]
  exact List.Perm.append_left _ List.perm_append_comm

@[simp] theorem T.nid_fill {h : Nat} {f : Frame K A (T K V A h)} {x : T K V A h} :
    T.nid (h := h + 1) (f.fill x) = .inner f.id := rfl

@[simp] theorem Frame.fill_id {X : Type} {f : Frame K A X} {x : X} : (f.fill x).id = f.id := rfl

theorem T.shape_fill {μ m : Nat} {r : Bool} {h : Nat} {f : Frame K A (T K V A h)} {x : T K V A h} :
    T.ShapeTop μ (h := h + 1) m r (f.fill x) ∧ f.LenOK ↔
      (f.Sides μ r ∧ m ≤ f.len ∧ f.len ≤ 64 ∧ f.LenOK) ∧
        T.ShapeTop μ (mnAt μ h (f.holeFlag r)) (f.holeFlag r) x := by
  simp only [T.ShapeTop, Frame.fill, Frame.Sides, Frame.len, Frame.LenOK, Frame.holeFlag]
  rw [SpineL_append (by simp), SpineL_cons]
  have e16 : mnAt μ h false = 16 := by cases h <;> rfl
  rcases hk : f.kidsR with _ | ⟨y, ys⟩
  · simp only [List.isEmpty_nil, Bool.and_true, if_true, List.length_append, List.length_cons,
      List.length_nil]
    constructor
    · rintro ⟨⟨h1, h2, h3, h4, h5⟩, h6, h7, h8, h9⟩
      exact ⟨⟨⟨h5.1, h5.2.2⟩, h1, h2, h6, h7, h8, h9⟩, h5.2.1⟩
    · rintro ⟨⟨⟨h5, h5'⟩, h1, h2, h6, h7, h8, h9⟩, h10⟩
      exact ⟨⟨h1, h2, by omega, by omega, h5, h10, h5'⟩, h6, h7, h8, h9⟩
  · simp only [List.isEmpty_cons, Bool.and_false, if_false, List.length_append, List.length_cons,
      e16, reduceCtorEq]
    constructor
    · rintro ⟨⟨h1, h2, h3, h4, h5⟩, h6, h7, h8, h9⟩
      exact ⟨⟨⟨h5.1, h5.2.2⟩, h1, h2, h6, h7, h8, h9⟩, h5.2.1⟩
    · rintro ⟨⟨⟨h5, h5'⟩, h1, h2, h6, h7, h8, h9⟩, h10⟩
      exact ⟨⟨h1, h2, by omega, by omega, h5, h10, h5'⟩, h6, h7, h8, h9⟩

namespace Ctx
variable {h H : Nat}

theorem inorder_plug {c : Ctx K V A h H} (hc : c.LenOK) {x : T K V A h} :
    (c.plug x).inorder = c.inL ++ x.inorder ++ c.inR := by
  induction c with
  | nil => simp [plug, inL, inR]
  | cons f c ih => simp only [plug, ih hc.2, T.inorder_fill hc.1, inL, inR, List.append_assoc]

theorem leaves_plug {c : Ctx K V A h H} {x : T K V A h} :
    (c.plug x).leaves = c.lvL ++ x.leaves ++ c.lvR := by
  induction c with
  | nil => simp [plug, lvL, lvR]
  | cons f c ih => simp only [plug, ih, T.leaves_fill, lvL, lvR, List.append_assoc]

theorem nodes_plug {c : Ctx K V A h H} {x : T K V A h} :
    ((c.plug x).nodes).Perm (x.nodes ++ c.nodes x.nid) := by
  induction c with
  | nil => simp [plug, nodes]
  | cons f c ih =>
    simp only [plug, nodes]
    refine ih.trans ?_
    rw [← List.append_assoc]
    exact List.Perm.append_right _ T.nodes_fill

theorem shape_plug {μ : Nat} {c : Ctx K V A h H} {x : T K V A h} :
    T.ShapeTop μ (rootMin H) true (c.plug x) ∧ c.LenOK ↔
      c.Shape μ ∧ T.ShapeTop μ (c.min μ) c.flag x := by
  induction c with
  | nil => simp [plug, LenOK, Shape, min, flag]
  | cons f c ih =>
    simp only [plug, LenOK, Shape, min, flag]
    have h1 := @ih (f.fill x)
    have h2 := @T.shape_fill K V A μ (c.min μ) c.flag _ f x
    tauto

theorem Shape.lenOK {μ : Nat} {c : Ctx K V A h H} (hc : c.Shape μ) : c.LenOK := by
  induction c with
  | nil => trivial
  | cons f c ih => exact ⟨hc.2.2.2.1, ih hc.2.2.2.2⟩

@[simp] theorem stack_length {c : Ctx K V A h H} {i : NodeId} :
    (c.stack i).length = H - h := by
  have : h ≤ H ∧ (c.stack i).length = H - h := by
    induction c generalizing i with
    | nil => simp [stack]
    | cons f c ih =>
      have := @ih (.inner f.id)
      simp only [stack, List.length_cons]; omega
  exact this.2

theorem le {c : Ctx K V A h H} : h ≤ H := by
  induction c with
  | nil => exact Nat.le_refl _
  | cons f c ih => omega

end Ctx

section Aug
variable [Augmentation K V A]

theorem T.augOK_fill {h : Nat} {f : Frame K A (T K V A h)} {x : T K V A h} (hf : f.LenOK) :
    T.AugOK (h := h + 1) (f.fill x) ↔ f.AugOK ∧ f.aug = x.topAug ∧ x.AugOK := by
  simp only [T.AugOK, Frame.fill, Frame.AugOK, List.map_append, List.map_cons]
  constructor
  · rintro ⟨h1, h2⟩
    have := List.append_inj h1 (by simp [hf.2.1])
    simp_all
  · rintro ⟨⟨h1, h2, h3, h4⟩, h5, h6⟩
    refine ⟨by simp [h1, h2, h5], ?_⟩
    intro c hc
    simp at hc
    rcases hc with hc | hc | hc
    · exact h3 c hc
    · exact hc ▸ h6
    · exact h4 c hc

theorem Ctx.augOK_of_plug {h H : Nat} {c : Ctx K V A h H} (hc : c.LenOK) {x : T K V A h}
    (hx : (c.plug x).AugOK) : c.AugOK ∧ x.AugOK := by
  induction c with
  | nil => exact ⟨trivial, hx⟩
  | cons f c ih =>
    have h1 := ih hc.2 hx
    rw [T.augOK_fill hc.1] at h1
    exact ⟨⟨h1.2.1, h1.1⟩, h1.2.2.2⟩

end Aug

end Bpt
