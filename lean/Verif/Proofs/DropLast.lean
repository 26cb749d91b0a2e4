import Verif.Proofs.DropInsert
import Verif.Proofs.DropRemove
import Verif.Proofs.SearchCrash

/-!
# The fields of the map while destructors run
-/

namespace Bpt
variable {K V A : Type} [Augmentation K V A]

theorem finishInsertD_trace {t t1 : Tree K V A} {s : Store K V A} {r : InsertResult K V} {prev : Option V}
    (h : t.finishInsert s r = .ok (prev, t1)) :
    (t.finishInsertD s r).trace = [(.dropAug, { t1 with len := t.len })] := by
  cases r with
  | inserted =>
    simp only [Tree.finishInsert] at h
    obtain ⟨a, ha, h⟩ := bind_ok h
    cases Except.ok.inj h
    simp [Tree.finishInsertD, Traced.trace_bind, ha]
  | updated v =>
    simp only [Tree.finishInsert] at h
    obtain ⟨a, ha, h⟩ := bind_ok h
    cases Except.ok.inj h
    simp [Tree.finishInsertD, Traced.trace_bind, ha]
  | split k c =>
    simp only [Tree.finishInsert] at h
    obtain ⟨a, ha, h⟩ := bind_ok h
    obtain ⟨b, hb, h⟩ := bind_ok h
    obtain ⟨n, hn, h⟩ := bind_ok h
    cases Except.ok.inj h
    simp [Tree.finishInsertD, Traced.trace_bind, ha, hb, hn]

theorem insertD_last {o : Answers K} {t t1 : Tree K V A} {k : K} {v : V} {prev : Option V}
    (h : t.insertU o k v = .ok (prev, t1)) :
    ∃ pre, (t.insertD o k v).trace = pre ++ [(.dropAug, { t1 with len := t.len })] ∧
      ∀ cb t', (cb, t') ∈ pre → t' = { t with store := t'.store } := by
  have h0 := insertD_result o t k v
  rw [h] at h0
  unfold Tree.insertD at h0 ⊢
  rw [Traced.result_bind] at h0
  obtain ⟨⟨s, r⟩, e1, e2⟩ := bind_ok h0
  refine ⟨(Traced.mapMem (fun s => ({ t with store := s } : Tree K V A))
      (descendInsertD o t.store t.root k v)).trace, ?_, ?_⟩
  · rw [Traced.trace_bind, e1]
    have : t.finishInsert s r = .ok (prev, t1) := by
      rw [← e2]; cases r <;> simp [Tree.finishInsertD, Tree.finishInsert]
    exact congrArg _ (finishInsertD_trace this)
  · intro cb t' hm
    obtain ⟨m, -, rfl⟩ := Traced.mem_mapMem.1 hm
    rfl

theorem removeD_last {o : Answers K} {t t1 : Tree K V A} {w : V}
    (h : t.removeU o = .ok (some w, t1)) :
    ∃ pre, (t.removeD o).trace = pre ++ [(.dropAug, { t1 with len := t.len }), (.dropKey, t1)] ∧
      ∀ cb t', (cb, t') ∈ pre → t' = { t with store := t'.store, st := t'.st } := by
  have h0 : (t.removeD o).result = .ok (some w, t1) := by rw [removeD_result, removeT_result, h]
  unfold Tree.removeD at h0 ⊢
  rw [Traced.result_bind] at h0
  obtain ⟨e, e1, h0⟩ := bind_ok h0
  cases e with
  | none => cases h0
  | some e =>
    simp only [Traced.result_bind] at h0
    obtain ⟨⟨kv, t2⟩, e2, h0⟩ := bind_ok h0
    simp only [Traced.result_call, ok_bind, Traced.result_pure] at h0
    cases Except.ok.inj h0
    suffices hs : ∃ pre, (t.removeByRefD e).trace = pre ++ [(.dropAug, { t1 with len := t.len })] ∧
        ∀ cb t', (cb, t') ∈ pre → t' = { t with store := t'.store, st := t'.st } by
      obtain ⟨pre, p1, p2⟩ := hs
      refine ⟨pre, ?_, p2⟩
      rw [Traced.trace_bind, e1]
      simp [Traced.trace_bind, e2, p1]
    unfold Tree.removeByRefD at e2 ⊢
    simp only [Traced.result_bind, Traced.result_lift, Traced.result_lift'] at e2
    obtain ⟨leaf, q1, e2⟩ := bind_ok e2
    obtain ⟨⟨leaf', dr⟩, q2, e2⟩ := bind_ok e2
    obtain ⟨⟨r, s, st⟩, q3, e2⟩ := bind_ok e2
    obtain ⟨⟨kv', s', root⟩, q4, e2⟩ := bind_ok e2
    obtain ⟨a, q5, e2⟩ := bind_ok e2
    simp only [Traced.result_call, ok_bind] at e2
    by_cases hl : t.len = 0
    · simp [hl] at e2
    · simp [hl] at e2
      obtain ⟨rfl, rfl⟩ := e2
      refine ⟨(Traced.mapMem (fun m => { t with store := m.1, st := m.2 })
        (removeAscendD (t.store.setLeaf e.leafId leaf') t.st e.stack (match dr with
          | .done kv => .done kv
          | .underSize idx => .leafUnderSize idx))).trace, ?_, ?_⟩
      · rw [Traced.trace_bind]
        simp only [Traced.result_lift, Traced.result_lift', Traced.trace_lift, Traced.trace_lift', q1, List.nil_append]
        rw [Traced.trace_bind]
        simp only [Traced.result_lift, Traced.result_lift', Traced.trace_lift, Traced.trace_lift', q2, List.nil_append]
        rw [Traced.trace_bind]
        rw [q3]
        simp only at q4 q5
        simp [Traced.trace_bind, q4, q5, hl]
        cases dr <;> rfl
      · intro cb t' hm
        obtain ⟨m, -, rfl⟩ := Traced.mem_mapMem.1 hm
        rfl

end Bpt
