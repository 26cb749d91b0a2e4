import Verif.Proofs.CrashArgs
import Verif.Props.Crash

/-!
# C53: what a user's augmentation is given

`Augmentation::from_leaf` and `Augmentation::from_inner` are written by users. The theorems say which
slices they get, in calls whose comparisons may answer anything. `Callback.ArgsOk` is defined in
`Verif/CallbackSpec.lean`.
-/

namespace Bpt
variable {K V A : Type}

/-- **C53.** In every call after every history, `from_leaf` gets between 1 and 64 entries and
`from_inner` gets between 1 and 64 keys and one more augmentation than keys. The one exception:
a removal from a map with a single entry may hand `from_leaf` empty slices. -/
theorem C53_arguments [Augmentation K V A] {t0 : Tree K V A} {l0 : List (K × V)}
    (h0 : Fresh t0 l0) (cs : List (Answers K × UCall K V)) (o : Answers K)
    (c : UCall K V) (hn : l0.length + cs.length + 1 < 2 ^ 64) :
    ∃ as t l, t0.urun cs = .ok (as, t) ∧ Contents t l ∧
      ∀ cb t', (cb, t') ∈ (t.ucallT o c).trace →
        cb.ArgsOk ∨ (cb = .fromLeaf 0 ∧ c = .remove ∧ l.length = 1) := by
  obtain ⟨as, t, l, h1, h2, h3⟩ := urun_ok h0.inv cs (by rw [h0.inv.len]; omega)
  refine ⟨as, t, l, h1, h2.contents, ?_⟩
  have hlen := h3.length_le
  show (t.ucallT o c).All _
  cases c with
  | insert k v =>
    exact Traced.all_bind (Traced.all_mono (fun _ _ h => .inl h) (insertT_args (by omega) h2
      (by rw [h2.len]; simp only [List.length_nil, List.length_map] at hlen; omega) o k v))
      fun _ _ => Traced.all_pure
  | remove =>
    refine Traced.all_bind (Traced.all_mono (fun _ _ h => h.imp id fun h => ?_) (removeT_args (by omega) h2 o).1)
      fun _ _ => Traced.all_pure
    exact ⟨h.1, rfl, by rw [← h2.len]; exact h.2⟩
  | get =>
    refine Traced.all_bind ?_ fun _ _ => Traced.all_pure
    refine Traced.all_call_bind (.inl trivial) <| Traced.all_lift_bind fun r _ => ?_
    cases r with
    | some i => exact Traced.all_lift_bind fun _ _ => Traced.all_pure
    | none => exact Traced.all_lift_bind fun _ _ => Traced.all_call_bind (.inl trivial) <|
        Traced.all_lift_bind fun _ _ => Traced.all_pure
  | getMut f =>
    refine Traced.all_bind ?_ fun _ _ => Traced.all_pure
    refine Traced.all_call_bind (.inl trivial) <| Traced.all_lift_bind fun r _ => ?_
    cases r with
    | some i => exact Traced.all_lift_bind fun _ _ => Traced.all_pure
    | none => exact Traced.all_lift_bind fun _ _ => Traced.all_call_bind (.inl trivial) <|
        Traced.all_lift_bind fun _ _ => Traced.all_pure
  | cursorNext c =>
    exact Traced.all_call_bind (.inl trivial) <| Traced.all_call_bind (.inl trivial) Traced.all_lift
  | cursorPrev c =>
    exact Traced.all_call_bind (.inl trivial) <| Traced.all_call_bind (.inl trivial) Traced.all_lift
  | cursorValue c => exact Traced.all_call_bind (.inl trivial) Traced.all_lift
  | getCursor k => exact Traced.all_call_bind (.inl trivial) Traced.all_lift
  | first => exact Traced.all_lift
  | last => exact Traced.all_lift
  | len => exact Traced.all_lift
  | isEmpty => exact Traced.all_lift
  | iter n => exact Traced.all_lift
  | iterBack n => exact Traced.all_lift
  | clear => exact Traced.all_lift

/-- **C53.** The exception always happens: after any history, a removal that takes out the only entry
hands `from_leaf` empty slices. If `from_leaf` panics on them, a map stays behind that says it has one
entry, holds none, and panics when it is dropped. -/
theorem C53_last_removal [Augmentation K V A] {t0 : Tree K V A} {l0 : List (K × V)}
    (h0 : Fresh t0 l0) (cs : List (Answers K × UCall K V)) (o : Answers K)
    (hn : l0.length + cs.length < 2 ^ 64) :
    ∃ as t l, t0.urun cs = .ok (as, t) ∧ Contents t l ∧
      ∀ v t1, t.ucall o .remove = .ok (.value (some v), t1) → l.length = 1 →
        ∃ t', (.fromLeaf 0, t') ∈ (t.ucallT o .remove).trace ∧ t'.len = 1 ∧
          t'.drop = .error .panic := by
  obtain ⟨as, t, l, h1, h2, h3⟩ := urun_ok h0.inv cs (by rw [h0.inv.len]; omega)
  refine ⟨as, t, l, h1, h2.contents, fun v t1 hr hl => ?_⟩
  obtain ⟨⟨r, t2⟩, hr1, hr2⟩ := bind_ok (show (t.removeU o >>= fun p => pure (Answer.value p.1, p.2)) = _ from hr)
  have e := (Prod.mk.inj (Except.ok.inj hr2)).1
  simp only [Answer.value.injEq] at e
  subst e
  obtain ⟨m, e1, e2, e3⟩ := (removeT_args (by omega) h2 o).2 v t2 hr1 (by rw [h2.len]; exact hl)
  exact ⟨m, Traced.mem_bind.2 (.inl e1), e2, e3⟩

/-- One entry is inserted and removed: `from_leaf` is called on one entry, then on none. -/
example : crashes [] (.insert 7 7) = [(.compare, .ok 0), (.fromLeaf 1, .ok 0)] ∧
    crashes [.insert 7 7] (.remove 7) = [(.compare, .ok 1), (.fromLeaf 0, .error .panic)] := by
  decide +kernel

/-- The sizes at the boundary. -/
example : (Callback.fromInner 64 65).ArgsOk ∧ ¬ (Callback.fromInner 64 64).ArgsOk ∧
    ¬ (Callback.fromLeaf 0).ArgsOk ∧ (Callback.fromLeaf 64).ArgsOk := by
  simp [Callback.ArgsOk]

-- the call that splits a full leaf, and the call that empties a map
example := C53_arguments (A := Count) .new (lawfulHistory fullLeaf) ((Call.insert 64 64).answers false)
  (Call.insert 64 64).lawless (by decide)
example := C53_last_removal (A := Count) .new (lawfulHistory [.insert 3 30]) ((Call.remove (V := Nat) 3).answers false)
  (by decide)

end Bpt
