import Verif.Proofs.LedgerLife

/-!
# C36: over a whole life of a map, keys and augmentations
-/

namespace Bpt
variable {K V A : Type}
variable {w : K → Int} {u : A → Int} {m : Int}

section
variable [Augmentation K V A]

theorem lifeL_or {μ : Nat} {t : Tree K V A} {l : List (K × V)} (h : UInvM μ t l)
    (cs : List (Answers K × UCall K V)) (hl : t.len + cs.length < 2 ^ 64) (e : Ending) :
    (∃ b, (t.lifeL cs e).result = .ok b ∧ b.leaked.length = e.forgets ∧
      ∀ (w : K → Int) (u : A → Int) (m : Int),
      t.wt w u m + wsum w b.given + wsum (Event.wt w u m) (t.lifeL cs e).log
        = wsum w b.back + wsum u b.leaked + m * b.merges) ∨
    (μ = 0 ∧ (t.lifeL cs e).result = .error .panic ∧ UCall.remove ∈ cs.map (·.2)) := by
  induction cs generalizing t l with
  | nil =>
    cases e with
    | drop =>
      have hr : t.dropL.result = .ok () := by
        simp [Tree.dropL, h.contents.drop]
      refine .inl ⟨⟨[], [], [], t.innerMerges⟩, ?_, rfl, fun w u m => ?_⟩
      · simp [Tree.lifeL, hr]
      · have := dropL_bal (w := w) (u := u) (m := m) h _ hr
        rw [Tree.lifeL, Logged.log_bind hr]
        simp only [Logged.log_pure, List.append_nil, wsum_nil, Tree.innerMerges, Statistic.merges,
          Int.natCast_add] at *
        omega
    | intoIter ds =>
      obtain ⟨it, it', h1, h2, h3⟩ := h.contents.into ds
      refine .inl ⟨⟨[], ((Spec.pulls l ds).1.filterMap (·.1)).map (·.1), [t.rootAug], t.innerMerges⟩, ?_,
        rfl, fun w u m => ?_⟩
      · simp [Tree.lifeL, h1, h2, h3]
      · have hlog : (t.lifeL [] (.intoIter ds)).log = ((Spec.pulls l ds).2.map (fun e => .dropKey e.1)
            ++ t.store.dropEvents : List (Event K A)) := by
          simp only [Tree.lifeL]
          rw [Logged.log_bind (by rw [Logged.result_lift, h1]), Logged.log_bind (by rw [Logged.result_lift, h2])]
          simp only
          rw [Logged.log_bind (by rw [Logged.result_lift, h3]), Logged.log_bind rfl]
          simp
        rw [hlog]
        have e := h.wt (w := w) (u := u)
        have e1 : wsum (Event.wt w u m) ((Spec.pulls l ds).2.map (fun e => Event.dropKey e.1) : List (Event K A))
            = - wsum (fun e => w e.1) (Spec.pulls l ds).2 := by
          rw [wsum_map, ← wsum_neg]
          rfl
        have e2 := wsum_perm (fun e : K × V => w e.1) (pulls_perm' l ds)
        rw [wsum_append] at e2
        rw [wsum_append, e1, storeDrop_wt, wsum_map]
        simp only [wsum_nil, wsum_cons, Tree.wt, Tree.innerMerges, Statistic.merges, Int.natCast_add] at *
        omega
  | cons c cs ih =>
    obtain ⟨o, c⟩ := c
    rw [List.length_cons] at hl
    have hr := ucallL_result h o c
    rcases ucall_or h (by omega) o c with ⟨a, t', l', h1, h2, h3⟩ | ⟨h0, rfl, h1⟩
    swap
    · refine .inr ⟨h0, ?_, by simp⟩
      rw [Tree.lifeL, Logged.result_bind, hr, h1]
      rfl
    rw [h1] at hr
    have := h3.length_le
    rcases ih h2 (by rw [h2.len]; have := h.len; omega) with ⟨b, h4, hlk, h5⟩ | ⟨h0, h4, h5⟩
    swap
    · refine .inr ⟨h0, ?_, by simp [h5]⟩
      rw [Tree.lifeL, Logged.result_bind, hr, ok_bind, Logged.result_bind, h4]
      rfl
    refine .inl ⟨⟨c.givesKeys ++ b.given, b.back, b.leaked, c.closes t + b.merges⟩, ?_, hlk,
      fun w u m => ?_⟩
    · rw [Tree.lifeL, Logged.result_bind, hr, ok_bind, Logged.result_bind, h4]
      rfl
    · have e1 := ucallL_bal (w := w) (u := u) (m := m) h o c _ hr
      have e2 := h5 w u m
      rw [Tree.lifeL, Logged.log_bind hr, Logged.log_bind h4]
      simp only [wsum_append, Logged.log_pure, List.append_nil, Int.natCast_add, Int.mul_add] at *
      omega

theorem lifeL_ok {t : Tree K V A} {l : List (K × V)} (h : UInv t l)
    (cs : List (Answers K × UCall K V)) (hl : t.len + cs.length < 2 ^ 64) (e : Ending) :
    ∃ b, (t.lifeL cs e).result = .ok b ∧ b.leaked.length = e.forgets ∧ ∀ (w : K → Int) (u : A → Int) (m : Int),
      t.wt w u m + wsum w b.given + wsum (Event.wt w u m) (t.lifeL cs e).log
        = wsum w b.back + wsum u b.leaked + m * b.merges :=
  (lifeL_or h cs hl e).resolve_right (by simp)

theorem wholeLife_ok (cs : List (Answers K × UCall K V)) (hn : cs.length < 2 ^ 64) (e : Ending) :
    ∃ b : Books K A, (wholeLife V cs e).result = .ok b ∧ b.leaked.length = e.forgets ∧
      ∀ (w : K → Int) (u : A → Int) (m : Int),
      wsum w b.given + wsum (Event.wt w u m) (wholeLife V cs e).log
        = wsum w b.back + wsum u b.leaked + m * b.merges := by
  obtain ⟨b, h1, h2, h3⟩ := lifeL_ok (A := A) UInv.new cs (by show 0 + _ < _; omega) e
  refine ⟨b, by simp [wholeLife, h1], h2, fun w u m => ?_⟩
  have h0 := (UInv.new (K := K) (V := V) (A := A)).wt (w := w) (u := u)
  have h4 := h3 w u m
  have e0 : (Tree.new : Tree K V A).wt w u m = u (Augmentation.dflt K V) := by
    simp only [Tree.wt, h0]
    simp [Tree.new, Store.empty, Statistic.merges]
    rfl
  rw [wholeLife, Logged.log_bind rfl, wsum_append]
  simp only [Logged.log_emit, wsum_cons, wsum_nil, Event.wt]
  omega

end

namespace Event

theorem wt_keys (es : List (Event K A)) :
    wsum (Event.wt w (fun _ => 0) 0) es = wsum w (cloned es) - wsum w (droppedKeys es) := by
  induction es with
  | nil => rfl
  | cons e es ih =>
    rw [wsum_cons, ih]
    cases e <;> simp [cloned, droppedKeys, Event.wt] <;> omega

theorem wt_augs (es : List (Event K A)) :
    wsum (Event.wt (fun _ => 0) u 0) es
      = wsum u (made es) + wsum u (droppedMoved es) - wsum u (droppedAugs es) := by
  induction es with
  | nil => rfl
  | cons e es ih =>
    rw [wsum_cons, ih]
    cases e <;> simp [made, droppedMoved, droppedAugs, Event.wt] <;> omega

theorem wt_moved (es : List (Event K A)) :
    wsum (Event.wt (fun _ => 0) (fun _ => 0) 1) es = (droppedMoved es).length := by
  induction es with
  | nil => rfl
  | cons e es ih =>
    rw [wsum_cons, ih]
    cases e <;> simp [droppedMoved, Event.wt] <;> omega

end Event

/-! ## C36 -/

/-- **C36 (keys).** Whatever the comparisons of the keys answer: a new map lives through any calls
without a fault and then is dropped, or turned into an iterator that is dropped after any calls on it.
The keys given to it and the clones of keys it makes are, counted with multiplicity, exactly the keys
it drops and those the iterator hands back: none is lost, none twice. -/
theorem C36_keys [Augmentation K V A] (cs : List (Answers K × UCall K V)) (hn : cs.length < 2 ^ 64)
    (e : Ending) :
    ∃ b : Books K A, (wholeLife V cs e).result = .ok b ∧
      (b.given ++ Event.cloned (wholeLife (A := A) V cs e).log).Perm
        (b.back ++ Event.droppedKeys (wholeLife (A := A) V cs e).log) := by
  obtain ⟨b, h1, -, h2⟩ := wholeLife_ok (A := A) cs hn e
  refine ⟨b, h1, perm_of_wsum fun w => ?_⟩
  have := h2 w (fun _ => 0) 0
  rw [Event.wt_keys, wsum_zero] at this
  simp only [wsum_append] at *
  omega

/-- **C36 (augmentations), partial.** The augmentations the map makes over its life, and those of them
that are dropped once too often, are exactly the ones dropped and, when the life ends with `into_iter`,
one root augmentation that is never dropped. One is dropped once too often for each merge of two inner
nodes. So the English property holds for the lives without such a merge that end with a drop. -/
theorem C36_augmentations_partial [Augmentation K V A] (cs : List (Answers K × UCall K V))
    (hn : cs.length < 2 ^ 64) (e : Ending) :
    ∃ b : Books K A, (wholeLife V cs e).result = .ok b ∧
      (Event.made (wholeLife (A := A) V cs e).log ++ Event.droppedMoved (wholeLife (A := A) V cs e).log).Perm
        (Event.droppedAugs (wholeLife (A := A) V cs e).log ++ b.leaked) ∧
      (Event.droppedMoved (wholeLife (A := A) V cs e).log).length = b.merges ∧
      b.leaked.length = e.forgets ∧
      (e = .drop → b.merges = 0 → (Event.droppedAugs (wholeLife (A := A) V cs e).log).Perm
        (Event.made (wholeLife (A := A) V cs e).log)) := by
  obtain ⟨b, h1, h3, h2⟩ := wholeLife_ok (A := A) cs hn e
  have hp : (Event.made (wholeLife (A := A) V cs e).log ++ Event.droppedMoved (wholeLife (A := A) V cs e).log).Perm
      (Event.droppedAugs (wholeLife (A := A) V cs e).log ++ b.leaked) := by
    refine perm_of_wsum fun u => ?_
    have := h2 (fun _ => 0) u 0
    rw [Event.wt_augs, wsum_zero, wsum_zero] at this
    simp only [wsum_append] at *
    omega
  have hm : (Event.droppedMoved (wholeLife (A := A) V cs e).log).length = b.merges := by
    have := h2 (fun _ => 0) (fun _ => 0) 1
    rw [Event.wt_moved, wsum_zero, wsum_zero, wsum_zero] at this
    omega
  refine ⟨b, h1, hp, hm, h3, ?_⟩
  rintro rfl h0
  have e1 : Event.droppedMoved (wholeLife (A := A) V cs .drop).log = [] :=
    List.length_eq_zero_iff.1 (hm.trans h0)
  have e2 : b.leaked = [] := List.length_eq_zero_iff.1 h3
  rw [e1, e2, List.append_nil, List.append_nil] at hp
  exact hp.symm

/-- The calls of the examples below: three keys inserted, one of them twice, one changed in place, one
removed, a `clear`, two more keys. -/
def booksDemo : List (Answers Nat × UCall Nat Nat) :=
  [(.ofOrder false 1, .insert 1 10), (.ofOrder false 2, .insert 2 20), (.ofOrder true 3, .insert 3 30),
    (.ofOrder false 2, .insert 2 21), (.ofOrder false 3, .getMut (· + 5)), (.ofOrder false 1, .remove),
    (.ofOrder false 0, .clear), (.ofOrder false 7, .insert 7 70), (.ofOrder false 8, .insert 8 80)]

/-- An iterator dropped after one item: key 2 is dropped when it is inserted again, key 1 when it is
removed, 2 and 3 by `clear`, 7 with the iterator; the last root augmentation is forgotten. -/
example :
    (wholeLife (A := Count) Nat booksDemo (.intoIter [.back])).result.toOption
        = some ⟨[1, 2, 3, 2, 7, 8], [8], [⟨2⟩], 0⟩ ∧
      Event.droppedKeys (wholeLife (A := Count) Nat booksDemo (.intoIter [.back])).log
        = [2, 1, 2, 3, 7] ∧
      Event.made (wholeLife (A := Count) Nat booksDemo (.intoIter [.back])).log
        = [⟨0⟩, ⟨1⟩, ⟨2⟩, ⟨3⟩, ⟨3⟩, ⟨2⟩, ⟨0⟩, ⟨1⟩, ⟨2⟩] ∧
      Event.droppedAugs (wholeLife (A := Count) Nat booksDemo (.intoIter [.back])).log
        = [⟨0⟩, ⟨1⟩, ⟨2⟩, ⟨3⟩, ⟨3⟩, ⟨2⟩, ⟨0⟩, ⟨1⟩] := by decide +kernel

/-- Enough keys for a split of the only leaf: one key is cloned for the new root. -/
example :
    Event.cloned (wholeLife (A := Count) Nat
      ((List.range 65).map (fun k => (Answers.ofOrder false k, UCall.insert k k))) .drop).log = [32] ∧
    (Event.droppedKeys (wholeLife (A := Count) Nat
      ((List.range 65).map (fun k => (Answers.ofOrder false k, UCall.insert k k))) .drop).log).length
      = 66 := by decide +kernel

example := C36_keys (A := Count) booksDemo (by decide +kernel) .drop
example := C36_augmentations_partial (A := Count) booksDemo (by decide +kernel) (.intoIter [.front, .back])

end Bpt
