import Verif.Props.Demo
import Verif.Proofs.Structure
import Verif.Model.Examples
import Verif.Proofs.Weighted
import Verif.Proofs.VisitStack

/-!
# The shape of reachable maps: C10, C11, C24, C34, C37

`Verif/Structure.lean` has the nested trees `STree`, what a visitor gets from them, and the shape
predicates. `Explored t s`: no visitor can tell the map `t` from the nested tree `s`.
-/

namespace Bpt
open Spec
variable {K V A : Type} [LinearOrder K]

omit [LinearOrder K] in
/-- Visitors can tell any two nested trees apart, so `Explored` determines the tree. -/
theorem visit_ext : ∀ (s s' : STree K V A),
    (∀ (σ R : Type) (v : Visitor K V A σ R) (st : σ), s.visit v st = s'.visit v st) → s = s'
  | .leaf d, .leaf d', h => by
    have h1 := h Unit (List K × List V) ⟨fun _ _ _ => (.cancel, ()), fun _ ks vs => some (ks, vs)⟩ ()
    rw [STree.visit, STree.visit] at h1
    simp only [Except.ok.injEq, Option.some.injEq, Prod.mk.injEq] at h1
    have e : ∀ d : List (K × V), d = (d.map (·.1)).zip (d.map (·.2)) := by
      intro d; rw [List.zip_map']; simp
    rw [e d, e d', h1.1, h1.2]
  | .leaf d, .node ks as kids, h => by
    have h1 := h Unit Unit ⟨fun _ _ _ => (.cancel, ()), fun _ _ _ => some ()⟩ ()
    rw [STree.visit, STree.visit] at h1
    simp at h1
  | .node ks as kids, .leaf d, h => by
    have h1 := h Unit Unit ⟨fun _ _ _ => (.cancel, ()), fun _ _ _ => some ()⟩ ()
    rw [STree.visit, STree.visit] at h1
    simp at h1
  | .node ks as kids, .node ks' as' kids', h => by
    have h1 := h Unit (List K × List A) ⟨fun _ ks as => (.complete (ks, as), ()), fun _ _ _ => none⟩ ()
    rw [STree.visit, STree.visit] at h1
    simp only [Except.ok.injEq, Option.some.injEq, Prod.mk.injEq] at h1
    obtain ⟨rfl, rfl⟩ := h1
    congr 1
    have key : ∀ (i : Nat) (σ R : Type) (v : Visitor K V A σ R) (st : σ),
        STree.visitNth v st i kids = STree.visitNth v st i kids' := by
      intro i σ R v st
      have h2 := h (Option σ) R
        ⟨fun o ks as => match o with
          | none => (.goDown i, some st)
          | some x => ((v.visitInner x ks as).1, some (v.visitInner x ks as).2),
        fun o ks vs => match o with
          | none => none
          | some x => v.visitLeaf x ks vs⟩ none
      rw [STree.visit, STree.visit] at h2
      simp only at h2
      have lift : ∀ (n : Nat) (x : σ), (∀ s : STree K V A, sizeOf s ≤ n →
          s.visit (⟨fun o ks as => match o with
            | none => (.goDown i, some st)
            | some x => ((v.visitInner x ks as).1, some (v.visitInner x ks as).2),
          fun o ks vs => match o with
            | none => none
            | some x => v.visitLeaf x ks vs⟩ : Visitor K V A (Option σ) R) (some x) = s.visit v x) := by
        intro n
        induction n with
        | zero =>
          intro x s hs
          cases s <;> simp at hs
        | succ n ih =>
          intro x s hs
          cases s with
          | leaf d => rw [STree.visit, STree.visit]
          | node ks as kids =>
            rw [STree.visit, STree.visit]
            rcases hv : v.visitInner x ks as with ⟨j | _ | r, x'⟩
            · simp only [hv]
              rw [visitNth_eq, visitNth_eq]
              cases hj : kids[j]? with
              | none => rfl
              | some c =>
                refine ih x' c ?_
                have := List.sizeOf_lt_of_mem (List.mem_of_getElem? hj)
                simp only [STree.node.sizeOf_spec] at hs
                omega
            · simp only [hv]
            · simp only [hv]
      rw [visitNth_eq, visitNth_eq] at h2 ⊢
      cases h3 : kids[i]? <;> cases h4 : kids'[i]? <;> rw [h3, h4] at h2 <;> simp only at h2 ⊢
      · rwa [lift _ st _ (le_refl _)] at h2
      · rwa [lift _ st _ (le_refl _)] at h2
      · rwa [lift _ st _ (le_refl _), lift _ st _ (le_refl _)] at h2
    have okv : ∀ s : STree K V A, s.visit (⟨fun _ _ _ => (.cancel, ()), fun _ _ _ => none⟩ :
        Visitor K V A Unit Unit) () = .ok none := by
      intro s; cases s <;> rw [STree.visit]
    refine List.ext_getElem? ?_
    intro i
    cases h3 : kids[i]? with
    | none =>
      cases h4 : kids'[i]? with
      | none => rfl
      | some c' =>
        have h2 := key i Unit Unit ⟨fun _ _ _ => (.cancel, ()), fun _ _ _ => none⟩ ()
        rw [visitNth_eq, visitNth_eq, h3, h4] at h2
        simp only [okv] at h2
        cases h2
    | some c =>
      have hlt : sizeOf c < sizeOf kids := List.sizeOf_lt_of_mem (List.mem_of_getElem? h3)
      cases h4 : kids'[i]? with
      | none =>
        have h2 := key i Unit Unit ⟨fun _ _ _ => (.cancel, ()), fun _ _ _ => none⟩ ()
        rw [visitNth_eq, visitNth_eq, h3, h4] at h2
        simp only [okv] at h2
        cases h2
      | some c' =>
        refine congrArg some (visit_ext c c' ?_)
        intro σ R v st
        have h2 := key i σ R v st
        rwa [visitNth_eq, visitNth_eq, h3, h4] at h2
termination_by s => sizeOf s
decreasing_by
  simp only [STree.node.sizeOf_spec]; omega

omit [LinearOrder K] in
theorem explored_unique {t : Tree K V A} {s s' : STree K V A} (h : Explored t s)
    (h' : Explored t s') : s = s' :=
  visit_ext s s' (fun σ R v st => (h σ R v st).symm.trans (h' σ R v st))

variable [Augmentation K V A]

/-! ## C10 -/

/-- **C10.** A map built by insertions and removals is, to every visitor, a nested tree with all
leaves at the same depth, at most 64 keys per node, at least 16 keys per node except the root (an inner
root has at least one), in search-tree order, holding exactly the content. -/
theorem C10_structure {t : Tree K V A} (h : Reachable t) {l : List (K × V)} (hl : Shows t l) :
    ∃ (H : Nat) (s : STree K V A), Explored t s ∧ s.LeavesAt H ∧ s.Fits ∧ s.Filled true ∧
      s.Ordered ∧ s.items = l := by
  obtain ⟨H, g, w, hlt, _⟩ := h.wf
  have hi : Inv 16 t g.toL := ⟨H, g, w, rfl, hlt⟩
  cases hi.unique hl
  refine ⟨H, g.toS, w.explored, g.toS_leavesAt, T.toS_fits w.shape, ?_, T.toS_ordered w.shape w.ord,
    g.toS_items⟩
  refine T.toS_filled w.shape (.inr (by omega)) (by simp) ?_
  intro hH
  cases H with
  | zero => omega
  | succ n => exact Nat.le_refl _

/-- **C10**, maps that started with bulk loading: the same, but nodes on the rightmost path may have
fewer than 16 keys. -/
theorem C10_structure_bulk {t : Tree K V A} (h : ReachableBulk t) {l : List (K × V)}
    (hl : Shows t l) :
    ∃ (H : Nat) (s : STree K V A), Explored t s ∧ s.LeavesAt H ∧ s.Fits ∧ s.FilledOffRight true ∧
      s.Ordered ∧ s.items = l := by
  obtain ⟨H, g, w, hlt, _⟩ := h.wf
  have hi : Inv 0 t g.toL := ⟨H, g, w, rfl, hlt⟩
  cases hi.unique hl
  refine ⟨H, g.toS, w.explored, g.toS_leavesAt, T.toS_fits w.shape, ?_, T.toS_ordered w.shape w.ord,
    g.toS_items⟩
  refine T.toS_filledOffRight w.shape (by simp) ?_
  intro _ hH
  cases H with
  | zero => omega
  | succ n => exact Nat.le_refl _

omit [LinearOrder K] [Augmentation K V A] in
theorem visit_depth {s : STree K V A} {H : Nat} (h : s.LeavesAt H) (hf : s.Fits) (d : Nat) :
    s.visit getTreeDepth d = .ok (some (d + H + 1)) := by
  induction h generalizing d with
  | leaf => rw [STree.visit]; rfl
  | @node h ks as kids _ ih =>
    rw [STree.visit]
    cases hf with
    | node h1 h2 h3 h4 =>
      simp only [getTreeDepth, visitNth_eq]
      cases hk : kids with
      | nil => simp [hk] at h2
      | cons c cs =>
        simp only [List.getElem?_cons_zero]
        have := ih c (by simp [hk]) (h4 c (by simp [hk])) (d + 1)
        rw [show d + 1 + h + 1 = d + (h + 1) + 1 by omega] at this
        exact this

/-- **C10.** The visitor of `examples/visit_depth.rs`, which always takes the first child, computes
the number of levels of the whole tree. -/
theorem C10_depth_visitor {t : Tree K V A} (h : ReachableBulk t) {s : STree K V A} {H : Nat}
    (hs : Explored t s) (hH : s.LeavesAt H) : t.descendVisit getTreeDepth 0 = .ok (some (H + 1)) := by
  obtain ⟨_, g, w, _, _⟩ := h.wf
  cases explored_unique hs w.explored
  rw [hs]
  have := visit_depth hH (T.toS_fits w.shape) 0
  rwa [Nat.zero_add] at this

example : ∃ (H : Nat) (s : STree Nat Nat Count), Explored demo s ∧ s.LeavesAt H ∧ s.Fits ∧
    s.Filled true ∧ s.Ordered ∧ s.items = demoContent :=
  C10_structure demo_reach.mut demo_shows

example : ∃ (H : Nat) (s : STree Nat Nat Count), Explored demoBulk s ∧ s.LeavesAt H ∧ s.Fits ∧
    s.FilledOffRight true ∧ s.Ordered ∧ s.items = demoBulkItems :=
  C10_structure_bulk demoBulk_reach.mut demoBulk_load.2.shows

/-- The demo map has one inner level. -/
example : demo.descendVisit getTreeDepth 0 = .ok (some 2) := by decide +kernel

/-! ## C11 -/

omit [LinearOrder K] [Augmentation K V A] in
theorem filled_size {s : STree K V A} {H : Nat} (h : s.LeavesAt H) (hf : s.Fits)
    (hm : s.Filled false) : 16 * 17 ^ H ≤ s.items.length := by
  induction h with
  | leaf =>
    cases hm with
    | leaf h => rw [STree.items]; simpa using h rfl
  | @node h ks as kids _ ih =>
    cases hf with
    | node h1 h2 h3 h4 =>
      cases hm with
      | node g1 g2 g3 =>
        rw [STree.items, itemsAll_eq]
        have := length_flatMap_ge (f := STree.items) (l := kids) (n := 16 * 17 ^ h)
          (fun c hc => ih c hc (h4 c hc) (g3 c hc))
        have g2 := g2 rfl
        have : 17 * (16 * 17 ^ h) ≤ kids.length * (16 * 17 ^ h) := Nat.mul_le_mul_right _ (by omega)
        rw [Nat.pow_succ]
        omega

/-- **C11.** A map (bulk loaded or not, after any history) never has more than 15 inner levels, the
capacity of the traversal stack; indeed with `H` inner levels it holds at least `16·17^(H-1)` items. -/
theorem C11_depth {t : Tree K V A} (h : ReachableBulk t) {s : STree K V A} {H : Nat}
    (hs : Explored t s) (hH : s.LeavesAt H) : H ≤ 15 ∧ (1 ≤ H → 16 * 17 ^ (H - 1) ≤ t.len) := by
  obtain ⟨H', g, w, hlt, _⟩ := h.wf
  cases explored_unique hs w.explored
  have hu : ∀ {s : STree K V A} {a b : Nat}, s.Fits → s.LeavesAt a → s.LeavesAt b → a = b := by
    intro s a b hf ha hb
    have h1 := visit_depth ha hf 0
    rw [visit_depth hb hf 0] at h1
    simp only [Except.ok.injEq, Option.some.injEq] at h1
    omega
  cases hu (T.toS_fits w.shape) hH g.toS_leavesAt
  refine ⟨w.depth hlt, ?_⟩
  intro h1
  cases H with
  | zero => omega
  | succ n =>
    have := root_size w.shape
    rw [w.len, Nat.add_sub_cancel]
    omega

/-- **C11.** Without bulk loading the bound is `32·17^(H-1)`. -/
theorem C11_depth_inserted {t : Tree K V A} (h : Reachable t) {s : STree K V A} {H : Nat}
    (hs : Explored t s) (hH : s.LeavesAt H) (h1 : 1 ≤ H) : 32 * 17 ^ (H - 1) ≤ t.len := by
  obtain ⟨l, hi⟩ := h.inv
  obtain ⟨H', s', e1, e2, e3, e4, e5, e6⟩ := C10_structure h hi.shows
  cases explored_unique hs e1
  rw [hi.len, ← e6]
  cases hH with
  | leaf => omega
  | @node n ks as kids hk =>
    cases e3 with
    | node f1 f2 f3 f4 =>
      cases e4 with
      | node g1 g2 g3 =>
        rw [STree.items, itemsAll_eq]
        have := length_flatMap_ge (f := STree.items) (l := kids) (n := 16 * 17 ^ n)
          (fun c hc => filled_size (hk c hc) (f4 c hc) (g3 c hc))
        have : 2 * (16 * 17 ^ n) ≤ kids.length * (16 * 17 ^ n) := Nat.mul_le_mul_right _ (by omega)
        rw [Nat.add_sub_cancel]
        omega

/-- The bounds are not vacuous: the demo map has one level and 100 ≥ 32 items. -/
example : ∃ s : STree Nat Nat Count, Explored demo s ∧ s.LeavesAt 1 := by
  obtain ⟨H, s, e1, e2, e3, _⟩ := C10_structure demo_reach.mut demo_shows
  refine ⟨s, e1, ?_⟩
  have h1 := C10_depth_visitor demo_reach.mut.bulk e1 e2
  have h2 : demo.descendVisit getTreeDepth 0 = .ok (some 2) := by decide +kernel
  rw [h2] at h1
  simp only [Except.ok.injEq, Option.some.injEq] at h1
  have : H = 1 := by omega
  rwa [this] at e2

/-- **C11.** The stored traversal stack (an array of 15 entries and a counter) is a stack: any sequence of pushes and
pops on a new one answers what a list does, and panics exactly when there are 15 entries and one more is pushed. -/
theorem C11_stack (cs : List StackCall) :
    (VisitStack.new.run cs).map (·.1) = (stackRun [] cs).map (·.1) := by
  have h := (VisitStack.holds_new.run cs).1
  cases e1 : VisitStack.new.run cs <;> cases e2 : stackRun [] cs <;> rw [e1, e2] at h <;>
    simp_all [Except.map]

/-- Three entries in, four pops; and sixteen entries. -/
example : (VisitStack.new.run [.push (1, 10, .leaf 1), .push (2, 20, .leaf 2), .pop, .push (3, 30, .leaf 3), .pop, .pop,
      .pop]).map (·.1) =
      .ok [some (2, 20, .leaf 2), some (3, 30, .leaf 3), some (1, 10, .leaf 1), none] ∧
    (VisitStack.new.run (List.replicate 15 (.push (1, 10, .leaf 1)))).map (·.1) = .ok [] ∧
    (VisitStack.new.run (List.replicate 16 (.push (1, 10, .leaf 1)))).map (·.1) = .error .panic := by
  refine ⟨by decide +kernel, by decide +kernel, by decide +kernel⟩

/-! ## C24: every stored augmentation -/

/-- **C24.** Every augmentation shown to a visitor is the one computed from the child as it is now, at
every level, and the root augmentation is the one computed from the root (or the default, if the map is
empty). No condition on the augmentation. -/
theorem C24_every_level {t : Tree K V A} (h : ReachableBulkNoMut t) {l : List (K × V)}
    (hl : Shows t l) :
    ∃ s : STree K V A, Explored t s ∧ s.items = l ∧ s.InSync ∧
      (t.rootAug = s.aug ∨ (l = [] ∧ t.rootAug = Augmentation.dflt K V)) := by
  obtain ⟨H, g, w, hlt, ha⟩ := h.wf
  have hi : Inv 0 t g.toL := ⟨H, g, w, rfl, hlt⟩
  cases hi.unique hl
  refine ⟨g.toS, w.explored, g.toS_items, T.toS_inSync ha.ok, ?_⟩
  rw [T.toS_aug]
  exact ha.root

/-- **C24.** The same if values were changed through mutable references, for an augmentation that looks
at keys only. -/
theorem C24_every_level_key_only (hk : KeyOnly K V A) {t : Tree K V A} (h : ReachableBulk t)
    {l : List (K × V)} (hl : Shows t l) :
    ∃ s : STree K V A, Explored t s ∧ s.items = l ∧ s.InSync ∧
      (t.rootAug = s.aug ∨ (l = [] ∧ t.rootAug = Augmentation.dflt K V)) := by
  obtain ⟨H, g, w, hlt, ha⟩ := h.wf
  have hi : Inv 0 t g.toL := ⟨H, g, w, rfl, hlt⟩
  cases hi.unique hl
  refine ⟨g.toS, w.explored, g.toS_items, T.toS_inSync (ha hk).ok, ?_⟩
  rw [T.toS_aug]
  exact (ha hk).root

example : ∃ s : STree Nat Nat Count, Explored demo s ∧ s.items = demoContent ∧ s.InSync ∧
    demo.rootAug = s.aug := by
  obtain ⟨s, h1, h2, h3, h4⟩ := C24_every_level demo_reach.bulk demo_shows
  refine ⟨s, h1, h2, h3, ?_⟩
  rcases h4 with h4 | ⟨h4, _⟩
  · exact h4
  · exact absurd h4 (by decide)

/-! ## C34 -/

/-- **C34.** On every reachable map, `descend_visit` behaves for every visitor, stateful or not, exactly
as the visit of one nested tree: it shows the root, follows the index the visitor returns, stops at
`Cancel` with `None` and at `Complete(r)` with `Some(r)`. -/
theorem C34_descend_visit {t : Tree K V A} (h : ReachableBulk t) {l : List (K × V)}
    (hl : Shows t l) : ∃ s : STree K V A, s.items = l ∧
      ∀ (σ R : Type) (v : Visitor K V A σ R) (st : σ), t.descendVisit v st = s.visit v st := by
  obtain ⟨H, s, h1, _, _, _, _, h2⟩ := C10_structure_bulk h hl
  exact ⟨s, h2, h1⟩

/-- **C34.** It always terminates and never accesses memory out of bounds; the only failure is a panic,
and a visitor that never returns an index greater than the number of keys it was shown never panics. -/
theorem C34_no_failure {t : Tree K V A} (h : ReachableBulk t) {σ R : Type} (v : Visitor K V A σ R)
    (st : σ) :
    ((∃ r, t.descendVisit v st = .ok r) ∨ t.descendVisit v st = .error .panic) ∧
    ((∀ st ks as i, (v.visitInner st ks as).1 = .goDown i → i ≤ ks.length) →
      ∃ r, t.descendVisit v st = .ok r) := by
  obtain ⟨l, hi⟩ := h.inv
  obtain ⟨H, s, h1, h2, h3, _⟩ := C10_structure_bulk h hi.shows
  rw [h1]
  clear * - h2 h3
  induction h2 generalizing st with
  | leaf => rw [STree.visit]; exact ⟨.inl ⟨_, rfl⟩, fun _ => ⟨_, rfl⟩⟩
  | @node h ks as kids _ ih =>
    rw [STree.visit]
    cases h3 with
    | node h1 h2 h3 h4 =>
      rcases hv : v.visitInner st ks as with ⟨i | _ | r, st'⟩
      · simp only [visitNth_eq]
        cases hk : kids[i]? with
        | none =>
          refine ⟨.inr rfl, ?_⟩
          intro hr
          have := hr st ks as i (by rw [hv])
          rw [List.getElem?_eq_none_iff] at hk
          omega
        | some c =>
          have hm := List.mem_of_getElem? hk
          exact ih c hm st' (h4 c hm)
      · exact ⟨.inl ⟨_, rfl⟩, fun _ => ⟨_, rfl⟩⟩
      · exact ⟨.inl ⟨_, rfl⟩, fun _ => ⟨_, rfl⟩⟩

/-- A visitor that always takes the last child and reports the largest key. -/
def lastKey : Visitor Nat Nat Count Unit (Option Nat) where
  visitInner _ ks _ := (.goDown ks.length, ())
  visitLeaf _ ks _ := some ks.getLast?

example : demo.descendVisit lastKey () = .ok (some (some 99)) := by decide +kernel
example : ∃ r, demo.descendVisit lastKey () = .ok r :=
  (C34_no_failure demo_reach.mut.bulk lastKey ()).2 (by
    intro st ks as i h
    simp only [lastKey, VisitResult.goDown.injEq] at h
    omega)
/-- A visitor that is out of range panics. -/
example : demo.descendVisit (R := Unit) ⟨fun _ ks _ => (.goDown (ks.length + 1), ()), fun _ _ _ => none⟩ ()
    = .error .panic := by decide +kernel

example : ∃ (s : STree Nat Nat Count) (H : Nat), Explored demo s ∧ s.LeavesAt H ∧ H ≤ 15 := by
  obtain ⟨H, s, e1, e2, -⟩ := C10_structure demo_reach.mut demo_shows
  exact ⟨s, H, e1, e2, (C11_depth demo_reach.mut.bulk e1 e2).1⟩
example : ∃ (s : STree Nat Nat Count), Explored demo s ∧ s.LeavesAt 1 ∧ 32 * 17 ^ (1 - 1) ≤ demo.len := by
  obtain ⟨H, s, e1, e2, -⟩ := C10_structure demo_reach.mut demo_shows
  have h1 := C10_depth_visitor demo_reach.mut.bulk e1 e2
  have h2 : demo.descendVisit getTreeDepth 0 = .ok (some 2) := by decide +kernel
  rw [h2] at h1
  simp only [Except.ok.injEq, Option.some.injEq] at h1
  have : H = 1 := by omega
  subst this
  exact ⟨s, e1, e2, C11_depth_inserted demo_reach.mut e1 e2 (by decide)⟩
example := C24_every_level_key_only Count.keyOnly demo_reach.mut.bulk demo_shows
example := C34_descend_visit demo_reach.mut.bulk demo_shows

end Bpt
