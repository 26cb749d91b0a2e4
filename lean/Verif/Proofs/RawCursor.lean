import Verif.Proofs.RawRemove
import Verif.Model.RawCursor

/-!
# Simulation of the list-level model by the slot-level model: cursors, borrowed iterators, queries
through augmentations, visitors
-/

namespace Bpt
namespace Raw

variable {K V A : Type}

/-! ## Cursors -/

theorem tryDataAt_eq {l : Leaf K V} {n : LeafS K V} (h : LeafRep l n) (i : Nat) :
    n.tryDataAt i = .ok (l.tryDataAt i) := (LeafS.C35_leaf_read h.holds).2.2.2 i

section Cursor
variable [LinearOrder K] {t : Bpt.Tree K V A} {u : Tree K V A}

theorem cursorLocateLeaf_sim (h : TreeRep t u) (c : Cursor K) :
    Sim (PairR (· = ·) LeafRep) (c.locateLeaf t) (cursorLocateLeaf c u) := by
  unfold Bpt.Cursor.locateLeaf cursorLocateLeaf
  refine Sim.bind (R := Option.Rel LeafRep) ?_ ?_
  · have := tryGetLeaf_rel h.store c.leafIdHint
    revert this
    cases t.store.tryGetLeaf c.leafIdHint <;> cases u.store.tryGetLeaf c.leafIdHint <;>
      intro hr <;> cases hr
    · exact Sim.pure Option.Rel.none
    · rename_i hr
      refine Sim.bind (inRange_sim hr c.k) ?_
      rintro b _ rfl
      cases b
      · exact Sim.pure Option.Rel.none
      · exact Sim.pure (Option.Rel.some hr)
  · intro a b hab
    cases hab with
    | some hr => exact Sim.pure ⟨rfl, hr⟩
    | none =>
      refine Sim.bind (locateLeaf_sim h c.k) ?_
      rintro a _ rfl
      refine Sim.bind (getLeaf_sim h.store a) (fun l n hln => Sim.pure ⟨rfl, hln⟩)

omit [LinearOrder K] in
theorem cursorFirst_sim (h : TreeRep t u) : Sim (· = ·) t.cursorFirst u.cursorFirst := by
  unfold Bpt.Tree.cursorFirst Tree.cursorFirst
  refine Sim.bind (firstLeaf_sim h) ?_
  rintro a _ rfl
  refine Sim.bind (getLeaf_sim h.store a) (fun l n hln => ?_)
  exact Sim.bind (dataAt_sim hln _) (by rintro a _ rfl; exact Sim.pure rfl)

omit [LinearOrder K] in
theorem cursorLast_sim (h : TreeRep t u) : Sim (· = ·) t.cursorLast u.cursorLast := by
  unfold Bpt.Tree.cursorLast Tree.cursorLast
  refine Sim.bind (lastLeaf_sim h) ?_
  rintro a _ rfl
  refine Sim.bind (getLeaf_sim h.store a) (fun l n hln => ?_)
  refine Sim.ite (by rw [hln.size]) (fun _ => Sim.error_bind) (fun _ => ?_)
  rw [hln.size]
  exact Sim.bind (dataAt_sim hln _) (by rintro a _ rfl; exact Sim.pure rfl)

omit [LinearOrder K] in
theorem prevLeafEnd_sim (h : TreeRep t u) {l : Leaf K V} {n : LeafS K V} (hl : LeafRep l n) :
    Sim (Option.Rel (PairR (· = ·) LeafRep)) (Bpt.prevLeafEnd t l) (prevLeafEnd u n) := by
  unfold Bpt.prevLeafEnd prevLeafEnd
  rw [hl.prev]
  cases l.prev with
  | none => exact Sim.pure Option.Rel.none
  | some p =>
    refine Sim.bind (getLeaf_sim h.store p) (fun l n hln => ?_)
    refine Sim.ite (by rw [hln.size]) (fun _ => Sim.error_bind) (fun _ => ?_)
    exact Sim.pure (Option.Rel.some ⟨by dsimp only; rw [hln.size], hln⟩)

theorem cursorHintHits_eq {l : Leaf K V} {n : LeafS K V} (hl : LeafRep l n) (c : Cursor K) :
    cursorHintHits c n = .ok (c.hintHits l) := by
  unfold cursorHintHits Bpt.Cursor.hintHits
  rw [tryDataAt_eq hl]
  cases l.tryDataAt c.offsetHint <;> rfl

theorem cursorPrevPos_sim (h : TreeRep t u) {l : Leaf K V} {n : LeafS K V} (hl : LeafRep l n)
    (c : Cursor K) :
    Sim (Option.Rel (PairR (· = ·) LeafRep)) (c.prevPos t l) (cursorPrevPos c u n) := by
  unfold Bpt.Cursor.prevPos cursorPrevPos
  refine Sim.right (cursorHintHits_eq hl c) ?_
  refine Sim.ite Iff.rfl (fun _ => ?_) (fun _ => ?_)
  · exact Sim.ite Iff.rfl (fun _ => Sim.pure (Option.Rel.some ⟨rfl, hl⟩))
      (fun _ => prevLeafEnd_sim h hl)
  · refine Sim.right (hl.locateSlot c.k) ?_
    exact Sim.ite Iff.rfl (fun _ => Sim.pure (Option.Rel.some ⟨rfl, hl⟩))
      (fun _ => prevLeafEnd_sim h hl)

theorem cursorPrevWithValue_sim (h : TreeRep t u) (c : Cursor K) :
    Sim (· = ·) (c.prevWithValue t) (cursorPrevWithValue c u) := by
  unfold Bpt.Cursor.prevWithValue cursorPrevWithValue
  refine Sim.bind (cursorLocateLeaf_sim h c) ?_
  rintro ⟨a, l⟩ ⟨_, n⟩ ⟨rfl, hl⟩
  refine Sim.bind (cursorPrevPos_sim h hl c) ?_
  intro x y hxy
  cases hxy with
  | none => exact Sim.pure rfl
  | @some x y hr =>
    obtain ⟨o, l⟩ := x
    obtain ⟨o', n⟩ := y
    obtain ⟨h1, hr⟩ := hr
    dsimp only at h1 hr ⊢
    subst h1
    exact Sim.bind (dataAt_sim hr _) (by rintro a _ rfl; exact Sim.pure rfl)

theorem cursorNextOffset_sim {l : Leaf K V} {n : LeafS K V} (hl : LeafRep l n) (c : Cursor K) :
    Sim (· = ·) (c.nextOffset l) (cursorNextOffset c n) := by
  unfold Bpt.Cursor.nextOffset cursorNextOffset
  refine Sim.right (cursorHintHits_eq hl c) ?_
  refine Sim.ite Iff.rfl (fun _ => Sim.pure rfl) (fun _ => ?_)
  refine Sim.bind (locateSlotWithValue_sim hl c.k) ?_
  rintro ⟨o, v⟩ _ rfl
  cases v <;> exact Sim.pure rfl

omit [LinearOrder K] in
theorem forwardFrom_sim (h : TreeRep t u) {l : Leaf K V} {n : LeafS K V} (hl : LeafRep l n)
    (id o : Nat) : Sim (· = ·) (Bpt.forwardFrom t id l o) (forwardFrom u id n o) := by
  unfold Bpt.forwardFrom forwardFrom
  refine Sim.ite (by rw [hl.size]) (fun _ => ?_) (fun _ => ?_)
  · exact Sim.bind (dataAt_sim hl _) (by rintro a _ rfl; exact Sim.pure rfl)
  · rw [hl.next]
    cases l.next with
    | none => exact Sim.pure rfl
    | some p =>
      refine Sim.bind (getLeaf_sim h.store p) (fun l n hln => ?_)
      exact Sim.bind (dataAt_sim hln _) (by rintro a _ rfl; exact Sim.pure rfl)

theorem cursorNextWithValue_sim (h : TreeRep t u) (c : Cursor K) :
    Sim (· = ·) (c.nextWithValue t) (cursorNextWithValue c u) := by
  unfold Bpt.Cursor.nextWithValue cursorNextWithValue
  refine Sim.bind (cursorLocateLeaf_sim h c) ?_
  rintro ⟨a, l⟩ ⟨_, n⟩ ⟨rfl, hl⟩
  refine Sim.bind (cursorNextOffset_sim hl c) ?_
  rintro o _ rfl
  exact forwardFrom_sim h hl _ _

theorem cursorValue_sim (h : TreeRep t u) (c : Cursor K) :
    Sim (· = ·) (c.value t) (cursorValue c u) := by
  unfold Bpt.Cursor.value cursorValue
  refine Sim.bind (cursorLocateLeaf_sim h c) ?_
  rintro ⟨a, l⟩ ⟨_, n⟩ ⟨rfl, hl⟩
  dsimp only at hl ⊢
  refine Sim.right (tryDataAt_eq hl _) ?_
  have miss : Sim (· = ·) (do let (_, v) ← l.locateSlotWithValue c.k; return v)
      (do let (_, v) ← locateSlotWithValue n c.k; return v) :=
    Sim.bind (locateSlotWithValue_sim hl c.k) (by rintro a _ rfl; exact Sim.pure rfl)
  cases l.tryDataAt c.offsetHint with
  | none => exact miss
  | some kv =>
    by_cases he : kv.1 = c.k
    · simp only [he, if_true]; exact Sim.pure rfl
    · simp only [he, if_false]; exact miss

theorem getCursor_sim (h : TreeRep t u) (k : K) : Sim (· = ·) (t.getCursor k) (u.getCursor k) := by
  unfold Bpt.Tree.getCursor Tree.getCursor
  rw [h.root]
  refine Sim.bind (findDescendLeaf_sim h.store _ k) ?_
  rintro a _ rfl
  refine Sim.bind (getLeaf_sim h.store a) (fun l n hln => ?_)
  exact Sim.bind (locateSlotWithValue_sim hln k) (by rintro a _ rfl; exact Sim.pure rfl)

end Cursor

/-! ## Borrowed iterators -/

section Iter
variable {t : Bpt.Tree K V A} {u : Tree K V A}

/-- Related states of a borrowed iterator. -/
structure IterRep (a : Bpt.Iter K V) (b : Iter K V) : Prop where
  len : b.len = a.len
  leaf : Option.Rel LeafRep a.leaf b.leaf
  leafOffset : b.leafOffset = a.leafOffset
  end_ : Option.Rel (PairR LeafRep (· = ·)) a.end_ b.end_

theorem iter_sim (h : TreeRep t u) : Sim IterRep t.iter u.iter := by
  unfold Bpt.Tree.iter Tree.iter
  refine Sim.bind (firstLeaf_sim h) ?_
  rintro a _ rfl
  refine Sim.bind (getLeaf_sim h.store a) (fun l n hln => ?_)
  exact Sim.pure ⟨h.len, Option.Rel.some hln, rfl, Option.Rel.none⟩

theorem iterNext_sim (h : TreeRep t u) {a : Bpt.Iter K V} {b : Iter K V} (hab : IterRep a b) :
    Sim (PairR (· = ·) IterRep) (a.next t) (b.next u) := by
  obtain ⟨len, leaf, o, e⟩ := a
  obtain ⟨len', leaf', o', e'⟩ := b
  obtain ⟨h1, h2, h3, h4⟩ := hab
  dsimp only at h1 h2 h3 h4
  subst h1 h3
  unfold Bpt.Iter.next Iter.next
  refine Sim.ite Iff.rfl (fun _ => Sim.pure ⟨rfl, rfl, h2, rfl, h4⟩) (fun _ => ?_)
  cases h2 with
  | none => exact Sim.pure ⟨rfl, rfl, Option.Rel.none, rfl, h4⟩
  | @some l n hl =>
    dsimp only
    refine Sim.bind (dataAt_sim hl _) ?_
    rintro kv _ rfl
    refine Sim.ite (by rw [hl.size])
      (fun _ => Sim.pure ⟨rfl, rfl, Option.Rel.some hl, rfl, h4⟩) (fun _ => ?_)
    rw [hl.next]
    cases l.next with
    | none => exact Sim.pure ⟨rfl, rfl, Option.Rel.none, rfl, h4⟩
    | some p =>
      refine Sim.bind (getLeaf_sim h.store p) (fun l n hln => ?_)
      exact Sim.pure ⟨rfl, rfl, Option.Rel.some hln, rfl, h4⟩

theorem iterNextBack_sim (h : TreeRep t u) {a : Bpt.Iter K V} {b : Iter K V} (hab : IterRep a b) :
    Sim (PairR (· = ·) IterRep) (a.nextBack t) (b.nextBack u) := by
  obtain ⟨len, leaf, o, e⟩ := a
  obtain ⟨len', leaf', o', e'⟩ := b
  obtain ⟨h1, h2, h3, h4⟩ := hab
  dsimp only at h1 h2 h3 h4
  subst h1 h3
  unfold Bpt.Iter.nextBack Iter.nextBack
  refine Sim.ite Iff.rfl (fun _ => Sim.pure ⟨rfl, rfl, h2, rfl, h4⟩) (fun _ => ?_)
  cases h4 with
  | none =>
    dsimp only
    refine Sim.bind (lastLeaf_sim h) ?_
    rintro a _ rfl
    refine Sim.bind (getLeaf_sim h.store a) (fun l n hln => ?_)
    refine Sim.ite (by rw [hln.size]) (fun _ => Sim.pure ⟨rfl, rfl, h2, rfl, Option.Rel.none⟩)
      (fun _ => ?_)
    rw [hln.size]
    refine Sim.bind (dataAt_sim hln _) ?_
    rintro kv _ rfl
    exact Sim.pure ⟨rfl, rfl, h2, rfl, Option.Rel.some ⟨hln, rfl⟩⟩
  | @some x y hl =>
    obtain ⟨l, o⟩ := x
    obtain ⟨n, o'⟩ := y
    obtain ⟨hl, h5⟩ := hl
    dsimp only at hl h5 ⊢
    subst h5
    refine Sim.ite Iff.rfl (fun _ => ?_) (fun _ => ?_)
    · refine Sim.bind (dataAt_sim hl _) ?_
      rintro kv _ rfl
      exact Sim.pure ⟨rfl, rfl, h2, rfl, Option.Rel.some ⟨hl, rfl⟩⟩
    · rw [hl.prev]
      cases l.prev with
      | none => exact Sim.pure ⟨rfl, rfl, h2, rfl, Option.Rel.some ⟨hl, rfl⟩⟩
      | some p =>
        refine Sim.bind (getLeaf_sim h.store p) (fun l n hln => ?_)
        refine Sim.ite (by rw [hln.size]) (fun _ => Sim.error_bind) (fun _ => ?_)
        rw [hln.size]
        refine Sim.bind (dataAt_sim hln _) ?_
        rintro kv _ rfl
        exact Sim.pure ⟨rfl, rfl, h2, rfl, Option.Rel.some ⟨hln, rfl⟩⟩

theorem iterRunCalls_sim (h : TreeRep t u) : ∀ (ds : List Dir) {a : Bpt.Iter K V} {b : Iter K V}
    (_ : IterRep a b), Sim (· = ·) (a.runCalls t ds) (b.runCalls u ds) := by
  intro ds
  induction ds with
  | nil => intro a b _; exact Sim.pure rfl
  | cons d ds ih =>
    intro a b hab
    unfold Bpt.Iter.runCalls Iter.runCalls
    refine Sim.bind (R := PairR (· = ·) IterRep) ?_ ?_
    · cases d
      · exact iterNext_sim h hab
      · exact iterNextBack_sim h hab
    · rintro ⟨x, a⟩ ⟨_, b⟩ ⟨rfl, hab⟩
      refine Sim.bind (ih hab) ?_
      rintro r _ rfl
      refine Sim.pure ?_
      dsimp only at hab ⊢
      rw [hab.len]
      rfl

end Iter

/-! ## Queries through augmentations, visitors -/

theorem InnerRep.keys {m : Inner K A} {n : InnerS K A} (h : InnerRep m n) : n.keys = .ok m.keys :=
  h.holds.keys

theorem InnerRep.augs {m : Inner K A} {n : InnerS K A} (h : InnerRep m n) :
    n.augmentations = .ok m.augs := (InnerS.C35_inner_read h.holds).2.1

section Search
variable {Q : Type} [SearchAugmentation K V A Q] {t : Bpt.Tree K V A} {u : Tree K V A}

theorem searchStep_sim (st : List StackEntry × Q) (i : Nat) (m : Inner K A) (n : InnerS K A)
    (h : InnerRep m n) : Sim (· = ·) (Bpt.searchStep V st i m) (searchStep V st i n) := by
  unfold Bpt.searchStep searchStep
  refine Sim.right h.keys (Sim.right h.augs ?_)
  cases SearchAugmentation.locateInInner V st.2 m.keys m.augs with
  | none => exact Sim.pure rfl
  | some x =>
    refine Sim.bind (childId_sim h _) ?_
    rintro c _ rfl
    exact Sim.bindEq (fun _ => Sim.pure rfl)

theorem getRefByAugmentation_sim (h : TreeRep t u) (q : Q) :
    Sim (· = ·) (t.getRefByAugmentation q) (u.getRefByAugmentation q) := by
  unfold Bpt.Tree.getRefByAugmentation Tree.getRefByAugmentation
  rw [h.root, h.store.fuel]
  refine Sim.bind (descend_sim h.store searchStep_sim _ _ _) ?_
  rintro a _ rfl
  match a with
  | .inl () => exact Sim.pure rfl
  | .inr ((stack, q), leafId) =>
    refine Sim.bind (getLeaf_sim h.store leafId) (fun l n hln => ?_)
    refine Sim.right hln.keys (Sim.right hln.values ?_)
    cases SearchAugmentation.locateInLeaf A q l.keys l.values <;> exact Sim.pure rfl

theorem getByAugmentation_sim (h : TreeRep t u) (q : Q) :
    Sim (· = ·) (t.getByAugmentation q) (u.getByAugmentation q) := by
  unfold Bpt.Tree.getByAugmentation Tree.getByAugmentation
  refine Sim.bind (getRefByAugmentation_sim h q) ?_
  rintro a _ rfl
  cases a with
  | none => exact Sim.pure rfl
  | some e =>
    refine Sim.bind (getLeaf_sim h.store _) (fun l n hln => ?_)
    exact Sim.bind (dataAt_sim hln _) (by rintro a _ rfl; exact Sim.pure rfl)

theorem getMutByAugmentation_sim (h : TreeRep t u) (q : Q) (f : V → V) :
    Sim (PairR (· = ·) TreeRep) (t.getMutByAugmentation q f) (u.getMutByAugmentation q f) := by
  unfold Bpt.Tree.getMutByAugmentation Tree.getMutByAugmentation
  refine Sim.bind (getRefByAugmentation_sim h q) ?_
  rintro a _ rfl
  cases a with
  | none => exact Sim.pure ⟨rfl, h⟩
  | some e =>
    refine Sim.bind (getLeaf_sim h.store _) (fun l n hln => ?_)
    intro a ea
    cases hd : l.dataAt e.offset with
    | error _ => rw [hd] at ea; cases ea
    | ok kv =>
      rw [hd] at ea
      obtain ⟨hi, rfl⟩ := leaf_dataAt_ok hd
      rw [(dataAt_sim hln _).eq hd, ok_bind, hln.holds.vs, Slots.write_pad (by simpa using hi),
        ok_bind]
      cases ea
      refine ⟨_, rfl, rfl, h.root, h.rootAug, h.len, StoreRep.setLeaf h.store ?_ _, h.st⟩
      refine ⟨⟨?_, ?_, ?_, ?_⟩, hln.prev, hln.next⟩
      · simpa using hln.holds.size
      · simpa using hln.holds.cap
      · rw [hln.holds.ks]
        congr 1
        rw [List.map_set]
        exact (List.set_getElem_self (as := l.data.map (·.1)) (i := e.offset) (by simpa using hi) ▸
          by simp)
      · simp

theorem removeByAugmentation_sim [Augmentation K V A] (h : TreeRep t u) (q : Q) :
    Sim (PairR (· = ·) TreeRep) (t.removeByAugmentation q) (u.removeByAugmentation q) := by
  unfold Bpt.Tree.removeByAugmentation Tree.removeByAugmentation
  refine Sim.bind (getRefByAugmentation_sim h q) ?_
  rintro a _ rfl
  cases a with
  | none => exact Sim.pure ⟨rfl, h⟩
  | some e =>
    refine Sim.bind (removeByRef_sim h e) ?_
    rintro ⟨a, t⟩ ⟨_, u⟩ ⟨rfl, h⟩
    exact Sim.pure ⟨rfl, h⟩

end Search

section Rank
variable {R : Type} [RankAugmentation K V A R] [LinearOrder K] {t : Bpt.Tree K V A} {u : Tree K V A}

theorem rankStep_sim (k : K) (st : R) (i : Nat) (m : Inner K A) (n : InnerS K A)
    (h : InnerRep m n) : Sim (· = ·) (Bpt.rankStep V k st i m) (rankStep V k st i n) := by
  unfold Bpt.rankStep rankStep
  refine Sim.bind (locateChild_sim h k) ?_
  rintro ⟨a, b⟩ _ rfl
  refine Sim.right h.augs ?_
  exact Sim.ite Iff.rfl (fun _ => Sim.error_bind) (fun _ => Sim.pure rfl)

theorem rankByAugmentation_sim (h : TreeRep t u) (k : K) :
    Sim (· = ·) (t.rankByAugmentation (R := R) k) (u.rankByAugmentation k) := by
  unfold Bpt.Tree.rankByAugmentation Tree.rankByAugmentation
  rw [h.root]
  refine Sim.bind (descendLeaf_sim h.store (rankStep_sim k) _ _) ?_
  rintro ⟨r, id⟩ _ rfl
  refine Sim.bind (getLeaf_sim h.store _) (fun l n hln => ?_)
  exact Sim.right (hln.locateSlot k) (Sim.right hln.keys (Sim.pure rfl))

end Rank

section Visit
variable {σ R : Type} {t : Bpt.Tree K V A} {u : Tree K V A}

theorem visitStep_sim (v : Visitor K V A σ R) (st : σ) (i : Nat) (m : Inner K A) (n : InnerS K A)
    (h : InnerRep m n) : Sim (· = ·) (Bpt.visitStep v st i m) (visitStep v st i n) := by
  unfold Bpt.visitStep visitStep
  refine Sim.right h.keys (Sim.right h.augs ?_)
  rcases v.visitInner st m.keys m.augs with ⟨x, st'⟩
  cases x with
  | goDown idx =>
    refine Sim.ite (by rw [h.size]) (fun _ => Sim.error) (fun _ => ?_)
    exact Sim.bind (childId_sim h _) (by rintro a _ rfl; exact Sim.pure rfl)
  | cancel => exact Sim.pure rfl
  | complete r => exact Sim.pure rfl

theorem descendVisit_sim (h : TreeRep t u) (v : Visitor K V A σ R) (st : σ) :
    Sim (· = ·) (t.descendVisit v st) (u.descendVisit v st) := by
  unfold Bpt.Tree.descendVisit Tree.descendVisit
  rw [h.root, h.store.fuel]
  refine Sim.bind (descend_sim h.store (visitStep_sim v) _ _ _) ?_
  rintro a _ rfl
  match a with
  | .inl r => exact Sim.pure rfl
  | .inr (st, leafId) =>
    refine Sim.bind (getLeaf_sim h.store leafId) (fun l n hln => ?_)
    exact Sim.right hln.keys (Sim.right hln.values (Sim.pure rfl))

end Visit
end Raw
end Bpt
