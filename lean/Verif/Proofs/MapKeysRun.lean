import Verif.EquivSpec
import Verif.Proofs.MapKeysCalls
import Verif.Proofs.Unordered
import Verif.Proofs.Lawful
import Verif.Proofs.ReachInv

/-! # Renaming keys: whole calls, and the rank of keys -/

namespace Bpt
variable {K L O V A : Type} {f : K → L}

theorem Tree.lastLeaf_map (t : Tree K V A) :
    Maps (fun a => a) t.lastLeaf (t.mapK f).lastLeaf := by
  refine Maps.bind (descendLeaf_map t.store (fun st => st) (fun st i n => ?_) () _)
    fun _ => Maps.pure rfl
  unfold lastStep
  rw [Inner.mapK_len]
  exact Maps.bind (Inner.childId_map n _) fun c => Maps.pure rfl

theorem Tree.first_map (t : Tree K V A) :
    Maps (Option.map (item f)) t.first (t.mapK f).first := by
  refine Maps.ite Iff.rfl (Maps.pure rfl) ?_
  refine Maps.bind (Tree.firstLeaf_map t) fun id => ?_
  refine Maps.bind (Store.getLeaf_map _ _) fun l => ?_
  exact Maps.bind (Leaf.dataAt_map _ _) fun kv => Maps.pure rfl

theorem Tree.last_map (t : Tree K V A) :
    Maps (Option.map (item f)) t.last (t.mapK f).last := by
  refine Maps.ite Iff.rfl (Maps.pure rfl) ?_
  refine Maps.bind (Tree.lastLeaf_map t) fun id => ?_
  refine Maps.bind (Store.getLeaf_map _ _) fun l => ?_
  rw [Leaf.mapK_len]
  refine Maps.ite Iff.rfl Maps.error ?_
  exact Maps.bind (Leaf.dataAt_map _ _) fun kv => Maps.pure rfl

theorem Iter.nextBack_map (t : Tree K V A) (it : Iter K V) :
    Maps (fun p => (p.1.map (item f), p.2.mapK f)) (it.nextBack t)
      ((it.mapK f).nextBack (t.mapK f)) := by
  unfold Iter.nextBack
  refine Maps.ite Iff.rfl (Maps.pure rfl) ?_
  obtain ⟨n, l, i, e⟩ := it
  cases e with
  | none =>
    refine Maps.bind (Tree.lastLeaf_map t) fun id => ?_
    refine Maps.bind (Store.getLeaf_map _ _) fun l => ?_
    rw [Leaf.mapK_len]
    refine Maps.ite Iff.rfl (Maps.pure rfl) ?_
    exact Maps.bind (Leaf.dataAt_map _ _) fun kv => Maps.pure rfl
  | some p =>
    obtain ⟨l, i⟩ := p
    refine Maps.ite Iff.rfl ?_ ?_
    · exact Maps.bind (Leaf.dataAt_map _ _) fun kv => Maps.pure rfl
    · dsimp only [Iter.mapK, Option.map]
      rw [Leaf.mapK_prev]
      cases l.prev with
      | none => exact Maps.pure rfl
      | some pv =>
        refine Maps.bind (Store.getLeaf_map _ _) fun l => ?_
        rw [Leaf.mapK_len]
        refine Maps.ite Iff.rfl Maps.error ?_
        exact Maps.bind (Leaf.dataAt_map _ _) fun kv => Maps.pure rfl

theorem Iter.runBack_map (t : Tree K V A) (n : Nat) (it : Iter K V) :
    Maps (List.map fun p => (p.1.map (item f), p.2)) (it.runCalls t (List.replicate n .back))
      ((it.mapK f).runCalls (t.mapK f) (List.replicate n .back)) := by
  induction n generalizing it with
  | zero => exact Maps.pure rfl
  | succ n ih =>
    refine Maps.bind (Iter.nextBack_map t it) fun r => ?_
    exact Maps.bind (ih r.2) fun rest => Maps.pure rfl

/-- A call with its keys renamed. -/
def UCall.mapK (f : K → L) : UCall K V → UCall L V
  | .insert k v => .insert (f k) v
  | .remove => .remove
  | .get => .get
  | .getMut g => .getMut g
  | .first => .first
  | .last => .last
  | .len => .len
  | .isEmpty => .isEmpty
  | .iter n => .iter n
  | .iterBack n => .iterBack n
  | .cursorNext c => .cursorNext (c.mapK f)
  | .cursorPrev c => .cursorPrev (c.mapK f)
  | .cursorValue c => .cursorValue (c.mapK f)
  | .getCursor k => .getCursor (f k)
  | .clear => .clear

/-- An answer with its keys renamed. -/
def Answer.mapK (f : K → L) : Answer K V → Answer L V
  | .value o => .value o
  | .entry o => .entry (o.map (item f))
  | .number n => .number n
  | .flag b => .flag b
  | .entries os => .entries (os.map (Option.map (item f)))
  | .keyValue k o => .keyValue (f k) o
  | .done => .done

variable [Augmentation K V A]

theorem Tree.ucall_map {o : Answers K} {o' : Answers L} (h : Agree f o o') (t : Tree K V A)
    (c : UCall K V) :
    Maps (fun p => (p.1.mapK f, p.2.mapK f)) (t.ucall o c) ((t.mapK f).ucall o' (c.mapK f)) := by
  cases c with
  | insert k v => exact Maps.bind (Tree.insertU_map h t k v) fun r => Maps.pure rfl
  | remove => exact Maps.bind (Tree.removeU_map h t) fun r => Maps.pure rfl
  | get => exact Maps.bind (Tree.getU_map h t) fun r => Maps.pure rfl
  | getMut g => exact Maps.bind (Tree.getMutU_map h t g) fun r => Maps.pure rfl
  | first => exact Maps.bind (Tree.first_map t) fun r => Maps.pure rfl
  | last => exact Maps.bind (Tree.last_map t) fun r => Maps.pure rfl
  | len => exact Maps.pure rfl
  | isEmpty => exact Maps.pure rfl
  | iter n =>
    refine Maps.bind (Tree.iter_map t) fun it => ?_
    exact Maps.bind (Iter.run_map t n it) fun r => Maps.pure (by simp [Answer.mapK])
  | iterBack n =>
    refine Maps.bind (Tree.iter_map t) fun it => ?_
    exact Maps.bind (Iter.runBack_map t n it) fun r => Maps.pure (by simp [Answer.mapK])
  | cursorNext c =>
    refine Maps.bind (Cursor.nextWithValueU_map h c t) fun r => Maps.pure ?_
    cases r <;> rfl
  | cursorPrev c =>
    refine Maps.bind (Cursor.prevWithValueU_map h c t) fun r => Maps.pure ?_
    cases r <;> rfl
  | cursorValue c => exact Maps.bind (Cursor.valueU_map h c t) fun r => Maps.pure rfl
  | getCursor k =>
    refine Maps.bind (Tree.getCursorU_map h t k) fun r => ?_
    cases r <;> exact Maps.pure rfl
  | clear => exact Maps.pure rfl

/-! ## Ranks -/

variable [LinearOrder O] {rank : K → O}

/-- The call seen through the ranks. -/
def QCall.shadow (rank : K → O) : QCall K O V → Call O V
  | .insert k v => .insert (rank k) v
  | .remove q => .remove q
  | .get q => .get q
  | .getMut q g => .getMut q g
  | .first => .first
  | .last => .last
  | .len => .len
  | .isEmpty => .isEmpty
  | .iter n => .iter n
  | .iterBack n => .iterBack n
  | .cursorNext c => .cursorNext (c.mapK rank)
  | .cursorPrev c => .cursorPrev (c.mapK rank)
  | .cursorValue c => .cursorValue (c.mapK rank)
  | .getCursor k => .getCursor (rank k)
  | .clear => .clear

omit [LinearOrder O] in
theorem QCall.shadow_lawless (c : QCall K O V) : (c.shadow rank).lawless = c.lawless.mapK rank := by
  cases c <;> rfl

theorem QCall.agree (e : Bool) (c : QCall K O V) :
    Agree rank (c.answers rank e) ((c.shadow rank).answers e) := by
  cases c <;> exact ⟨rfl, fun _ _ _ => rfl, fun _ _ => rfl, fun _ _ => rfl, fun _ => rfl⟩

/-- The tree has items `l`; seen through the ranks it is a well-formed ordered tree. -/
structure QInvM (μ : Nat) (rank : K → O) (t : Tree K V A) (l : List (K × V)) : Prop where
  items : UInvM μ t l
  ranks : Inv μ (t.mapK rank) (l.map (item rank))

/-- The same for maps that start empty or from an even bulk load. -/
abbrev QInv (rank : K → O) (t : Tree K V A) (l : List (K × V)) : Prop := QInvM 1 rank t l

theorem QInv.new : QInv rank (Tree.new : Tree K V A) ([] : List (K × V)) :=
  ⟨UInvM.new (by omega), by
    have : (Tree.new : Tree K V A).mapK rank = Tree.new := rfl
    rw [this]; exact Inv.new⟩

omit [Augmentation K V A] in
theorem entries_inj {l : List (K × V)} {m : List (O × V)} {n : Nat}
    (h : ((List.range n).map (fun i => l[i]?)).map (Option.map (item rank)) =
      (List.range n).map (fun i => m[i]?)) (hl : l.length ≤ n) (hm : m.length ≤ n) :
    l.map (item rank) = m := by
  apply List.ext_getElem?
  intro i
  by_cases hi : i < n
  · have := congrArg (fun x => x[i]?) h
    simp [hi] at this
    rw [List.getElem?_map, this]
  · rw [List.getElem?_eq_none (by simp; omega), List.getElem?_eq_none (by omega)]

omit [Augmentation K V A] in
theorem items_ranks {t : Tree K V A} {L : List (Nat × List (K × V))}
    {M : List (Nat × List (O × V))} (r : Reads0 t L) (r' : Reads0 (t.mapK rank) M)
    (h : t.len = (L.flatMap (·.2)).length) (h' : t.len = (M.flatMap (·.2)).length) :
    (L.flatMap (·.2)).map (item rank) = M.flatMap (·.2) := by
  obtain ⟨it, h1, _, h2⟩ := iter_runCalls_ok r (List.replicate t.len .front)
  obtain ⟨it', h1', _, h2'⟩ := iter_runCalls_ok r' (List.replicate t.len .front)
  have e1 := (Tree.iter_map (f := rank) t).ok h1
  rw [h1'] at e1
  cases e1
  have e2 := (Iter.run_map (f := rank) t t.len it).ok h2
  rw [h2'] at e2
  have e3 := congrArg (List.map Prod.fst) (Except.ok.inj e2)
  refine entries_inj (n := t.len) ?_ h.ge h'.ge
  rw [← borrowed_front, ← borrowed_front, e3]
  simp

theorem QInvM.ucall {t : Tree K V A} {l : List (K × V)} (h : QInv rank t l)
    (hl : t.len + 1 < 2 ^ 64) (e : Bool) (c : QCall K O V) :
    ∃ a t' l', t.ucall (c.answers rank e) c.lawless = .ok (a, t') ∧ QInv rank t' l' ∧
      Effect c.lawless a l l' ∧ a.mapK rank = (Spec.call (l.map (item rank)) (c.shadow rank)).1 ∧
      l'.map (item rank) = (Spec.call (l.map (item rank)) (c.shadow rank)).2 := by
  obtain ⟨a, t', l', h1, h2, h3⟩ := ucall_ok h.items hl (c.answers rank e) c.lawless (by omega)
  have h4 := (Tree.ucall_map (c.agree e) t c.lawless).ok h1
  rw [← QCall.shadow_lawless] at h4
  have h5 : (t.mapK rank).call (c.shadow rank) = .ok (a.mapK rank, t'.mapK rank) := by
    obtain ⟨H, g, w, -, hH⟩ := h.ranks
    rw [← ucall_lawful w (w.depth hH) e, h4]
  rcases call_ok (by omega) h.ranks hl (c.shadow rank) with ⟨t2, h6, h7⟩ | ⟨h0, -⟩
  · rw [h5] at h6
    obtain ⟨ha, ht⟩ := Prod.mk.inj (Except.ok.inj h6)
    rw [← ht] at h7
    have h8 : l'.map (item rank) = (Spec.call (l.map (item rank)) (c.shadow rank)).2 := by
      obtain ⟨L, r, e, -⟩ := h2.reads
      obtain ⟨M, r', e'⟩ := h7.reads
      rw [← e, ← e']
      refine items_ranks r r'.base ?_ ?_
      · rw [e]; exact h2.len
      · rw [e']; exact h7.len
    exact ⟨a, t', l', h1, ⟨h2, h8 ▸ h7⟩, h3, ha, h8⟩
  · omega

end Bpt
