import Verif.Proofs.Ghost

/-!
# Nodes with a single child on the right spine
-/

namespace Bpt
variable {K V A : Type}

/-- Some inner node on the right spine has a single child (no keys). -/
def T.LoneR : {h : Nat} → T K V A h → Prop
  | 0, _ => False
  | _ + 1, x => GNode.keys x = [] ∨ ∃ c, (GNode.kids x).getLast? = some c ∧ T.LoneR c

/-- The path follows the right spine. -/
def Ctx.Right : {h H : Nat} → Ctx K V A h H → Prop
  | _, _, .nil => True
  | _, _, .cons f c => f.kidsR = [] ∧ Ctx.Right c

/-- Some node of the path has a single child. -/
def Ctx.Lone : {h H : Nat} → Ctx K V A h H → Prop
  | _, _, .nil => False
  | _, _, .cons f c => f.len = 0 ∨ Ctx.Lone c

theorem T.loneR_fill {h : Nat} {f : Frame K A (T K V A h)} {x : T K V A h} (hr : f.kidsR = []) :
    T.LoneR (h := h + 1) (f.fill x) ↔ f.len = 0 ∨ x.LoneR := by
  have h1 : GNode.keys (f.fill x) = [] ↔ f.len = 0 := by
    rw [← List.length_eq_zero_iff]
    simp [Frame.fill, Frame.len]
  have h2 : (GNode.kids (f.fill x)).getLast? = some x := by simp [Frame.fill, hr]
  rw [T.LoneR, h1, h2]
  simp

/-- A lone node of the whole tree is one of the path or one below it. -/
theorem Ctx.loneR_plug {h H : Nat} {c : Ctx K V A h H} {x : T K V A h} (hr : c.Right) :
    (c.plug x).LoneR ↔ c.Lone ∨ x.LoneR := by
  induction c with
  | nil => simp [Ctx.plug, Ctx.Lone]
  | cons f c ih =>
    rw [Ctx.plug, ih hr.2, T.loneR_fill hr.1, Ctx.Lone]
    tauto

/-- The numbers of keys of the nodes on the right spine, from the top. -/
def T.spine : {h : Nat} → T K V A h → List Nat
  | 0, _ => []
  | _ + 1, x => (GNode.keys x).length :: (((GNode.kids x).map (fun c => T.spine c)).getLast?.getD [])

/-- The numbers of keys of the nodes of a path, from the top. -/
def Ctx.spine : {h H : Nat} → Ctx K V A h H → List Nat
  | _, _, .nil => []
  | _, _, .cons f c => Ctx.spine c ++ [f.len]

theorem T.spine_fill {h : Nat} {f : Frame K A (T K V A h)} {x : T K V A h} (hr : f.kidsR = []) :
    T.spine (h := h + 1) (f.fill x) = f.len :: x.spine := by
  rw [T.spine]
  simp [Frame.fill, Frame.len, hr]

theorem T.spine_one {x : T K V A 1} : x.spine = [(GNode.keys x).length] := by
  rw [T.spine]
  cases h : ((GNode.kids x).map (fun c => T.spine c)).getLast? with
  | none => rfl
  | some l =>
    have := List.mem_of_getLast? h
    rw [List.mem_map] at this
    obtain ⟨c, -, rfl⟩ := this
    rfl

theorem Ctx.spine_plug {h H : Nat} {c : Ctx K V A h H} {x : T K V A h} (hr : c.Right) :
    (c.plug x).spine = c.spine ++ x.spine := by
  induction c with
  | nil => simp [Ctx.plug, Ctx.spine]
  | cons f c ih => rw [Ctx.plug, ih hr.2, T.spine_fill hr.1, Ctx.spine]; simp

end Bpt
