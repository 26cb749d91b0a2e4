import Mathlib.Data.List.Induction
import Verif.History
import Verif.Proofs.BulkLoad
import Verif.Proofs.Iter
import Verif.Proofs.Cursor
import Verif.Proofs.SearchOut

/-!
# The invariant of reachable maps
-/

namespace Bpt
open Spec
variable {K V A : Type} [LinearOrder K]

/-- `t` is a well-formed tree with content `l`. -/
def Inv (μ : Nat) (t : Tree K V A) (l : List (K × V)) : Prop :=
  ∃ (H : Nat) (g : T K V A H), WF μ t g ∧ g.toL = l ∧ t.len < 2 ^ 64

namespace Inv
variable {μ : Nat} {t : Tree K V A} {l : List (K × V)}

theorem reads (h : Inv μ t l) : ∃ L, Reads t L ∧ L.flatMap (·.2) = l := by
  obtain ⟨H, g, w, e, _⟩ := h
  exact ⟨g.leaves, w.reads, e⟩

theorem sorted (h : Inv μ t l) : Sorted l := by
  obtain ⟨H, g, w, e, _⟩ := h
  exact e ▸ w.sorted

theorem len (h : Inv μ t l) : t.len = l.length := by
  obtain ⟨H, g, w, e, _⟩ := h
  exact e ▸ w.len

theorem lt (h : Inv μ t l) : t.len < 2 ^ 64 := by
  obtain ⟨H, g, w, e, h⟩ := h
  exact h

theorem get (h : Inv μ t l) (k : K) : ∃ t', t.get k = .ok (lookup k l, t') ∧ Inv μ t' l ∧
    t'.st = t.st := by
  obtain ⟨H, g, w, e, hl⟩ := h
  obtain ⟨c, hc⟩ := get_ok w.reads k
  have e' : g.leaves.flatMap (·.2) = l := e
  rw [e'] at hc
  exact ⟨_, hc, ⟨H, g, w.cached c, e, hl⟩, rfl⟩

theorem shows (h : Inv μ t l) : Shows t l :=
  ⟨h.sorted, fun k => let ⟨t', h', _⟩ := h.get k; ⟨t', h'⟩⟩

theorem unique (h : Inv μ t l) {l' : List (K × V)} (h' : Shows t l') : l' = l := by
  refine sorted_ext h'.1 h.sorted ?_
  intro k
  obtain ⟨t1, h1⟩ := h'.2 k
  obtain ⟨t2, h2, _⟩ := h.get k
  rw [h1] at h2
  exact congrArg Prod.fst (Except.ok.inj h2)

variable [Augmentation K V A]

theorem new : Inv μ (Tree.new : Tree K V A) [] := by
  obtain ⟨g, h1, _, h3⟩ := new_ok (K := K) (V := V) (A := A) μ
  exact ⟨0, g, h1, h3, by rw [h1.len, h3]; simp⟩

theorem insert (hμ : μ ≤ 16) (h : Inv μ t l) (hl : t.len + 1 < 2 ^ 64) (k : K) (v : V) :
    ∃ t', t.insert k v = .ok (lookup k l, t') ∧ Inv μ t' (upsert k v l) ∧ t'.st = t.st := by
  obtain ⟨H, g, w, e, h1⟩ := h
  obtain ⟨t', H', g', h2, h3, h4, _, h5, _⟩ := insert_ok hμ w (w.depth h1) k v
  subst e
  refine ⟨t', h2, ⟨H', g', h3, h4, ?_⟩, h5⟩
  rw [h3.len, h4]
  have : (upsert k v g.toL).length ≤ g.toL.length + 1 := by
    have hs := w.sorted
    rw [upsert, List.length_append, List.length_cons]
    have : (g.toL.filter (fun e => decide (e.1 < k))).length
        + (g.toL.filter (fun e => decide (k < e.1))).length ≤ g.toL.length := by
      induction g.toL with
      | nil => simp
      | cons e l ih =>
        simp only [List.filter_cons, List.length_cons]
        by_cases h : e.1 < k
        · have : ¬ k < e.1 := lt_asymm h
          simp [h, this]; omega
        · by_cases h' : k < e.1 <;> simp [h, h'] <;> omega
    omega
  rw [w.len] at hl
  omega

theorem getMut (h : Inv μ t l) (k : K) (f : V → V) :
    ∃ t', t.getMut k f = .ok (lookup k l, t') ∧ Inv μ t' (Spec.modify k f l) ∧ t'.st = t.st ∧
      t'.rootAug = t.rootAug := by
  obtain ⟨H, g, w, e, h1⟩ := h
  obtain ⟨t', g', h2, h3, h4, h5, h6, _⟩ := getMut_ok w k f
  subst e
  refine ⟨t', h2, ⟨H, g', h3, h4, ?_⟩, h5, h6⟩
  rw [h3.len, h4, Spec.modify, List.length_map, ← w.len]
  exact h1

theorem remove (hμ : μ ≤ 16) (h : Inv μ t l) (k : K) :
    (∃ t', t.remove k = .ok (lookup k l, t') ∧ Inv μ t' (erase k l) ∧ t.st.LE t'.st ∧
      t.st.leafFixes ≤ t'.st.leafFixes ∧ t'.st.leafFixes ≤ t.st.leafFixes + 1 ∧
      (lookup k l = none → t' = t)) ∨
    (μ = 0 ∧ t.remove k = .error .panic) := by
  obtain ⟨H, g, w, e, h1⟩ := h
  subst e
  rcases remove_ok hμ w (w.depth h1) k with ⟨t', H', g', h2, h3, h4, _, h5, h6, h7, h8, _⟩ | h2
  · refine .inl ⟨t', h2, ⟨H', g', h3, h4, ?_⟩, h5, h6, h7, h8⟩
    have := w.len
    have : (erase k g.toL).length ≤ g.toL.length := List.length_filter_le _ _
    rw [h3.len, h4]; omega
  · exact .inr h2

end Inv

omit [LinearOrder K] in
theorem borrowed_front (l : List (K × V)) (n : Nat) :
    (borrowedSpec l 0 0 (List.replicate n .front)).map (·.1) = (List.range n).map (fun i => l[i]?) := by
  rw [borrowedSpec_front, List.map_map]
  refine List.map_congr_left ?_
  intro i _
  simp

omit [LinearOrder K] in
theorem borrowed_back (l : List (K × V)) (n : Nat) :
    (borrowedSpec l 0 0 (List.replicate n .back)).map (·.1)
      = (List.range n).map (fun i => l.reverse[i]?) := by
  have key : ∀ b, (borrowedSpec l 0 b (List.replicate n .back)).map (·.1)
      = (List.range n).map (fun i => l.reverse[b + i]?) := by
    intro b
    induction n generalizing b with
    | zero => rfl
    | succ n ih =>
      rw [List.replicate_succ, borrowedSpec, List.map_cons, ih, List.range_succ_eq_map, List.map_cons,
        List.map_map]
      congr 1
      · cases l <;> simp
      · refine List.map_congr_left ?_
        intro i _
        simp only [Function.comp]
        congr 1; omega
  simpa using key 0

section Calls
variable [Augmentation K V A]

theorem isEmpty_ok {μ : Nat} {t : Tree K V A} {l : List (K × V)} (h : Inv μ t l) :
    t.isEmpty = l.isEmpty := by
  unfold Tree.isEmpty
  rw [h.len]
  cases l <;> rfl

/-- One call: the same answer as the specification, or the known panic of removals on maps that were
bulk loaded. -/
theorem call_ok {μ : Nat} (hμ : μ ≤ 16) {t : Tree K V A} {l : List (K × V)} (h : Inv μ t l)
    (hl : t.len + 1 < 2 ^ 64) (c : Call K V) :
    (∃ t', t.call c = .ok ((Spec.call l c).1, t') ∧ Inv μ t' (Spec.call l c).2) ∨
    (μ = 0 ∧ ∃ k, c = .remove k ∧ t.call c = .error .panic) := by
  obtain ⟨L, r, e⟩ := h.reads
  cases c with
  | insert k v =>
    obtain ⟨t', h1, h2, _⟩ := h.insert hμ hl k v
    exact .inl ⟨t', by simp only [Tree.call, h1, ok_bind, pure_ok, Spec.call], h2⟩
  | remove k =>
    rcases h.remove hμ k with ⟨t', h1, h2, _⟩ | ⟨h0, h1⟩
    · exact .inl ⟨t', by simp only [Tree.call, h1, ok_bind, pure_ok, Spec.call], h2⟩
    · exact .inr ⟨h0, k, rfl, by simp only [Tree.call, h1, error_bind]⟩
  | get k =>
    obtain ⟨t', h1, h2, _⟩ := h.get k
    exact .inl ⟨t', by simp only [Tree.call, h1, ok_bind, pure_ok, Spec.call], h2⟩
  | getMut k f =>
    obtain ⟨t', h1, h2, _⟩ := h.getMut k f
    exact .inl ⟨t', by simp only [Tree.call, h1, ok_bind, pure_ok, Spec.call], h2⟩
  | first =>
    refine .inl ⟨t, ?_, h⟩
    simp only [Tree.call, first_ok r.base, e, ok_bind, pure_ok, Spec.call]
  | last =>
    refine .inl ⟨t, ?_, h⟩
    simp only [Tree.call, last_ok r.base, e, ok_bind, pure_ok, Spec.call]
  | len =>
    refine .inl ⟨t, ?_, h⟩
    simp only [Tree.call, pure_ok, Spec.call, h.len]
  | isEmpty =>
    refine .inl ⟨t, ?_, h⟩
    simp only [Tree.call, pure_ok, Spec.call, isEmpty_ok h]
  | iter n =>
    refine .inl ⟨t, ?_, h⟩
    obtain ⟨it, h1, _, h2⟩ := iter_runCalls_ok r.base (List.replicate n .front)
    simp only [Tree.call, h1, h2, ok_bind, pure_ok, Spec.call, e, borrowed_front]
  | iterBack n =>
    refine .inl ⟨t, ?_, h⟩
    obtain ⟨it, h1, _, h2⟩ := iter_runCalls_ok r.base (List.replicate n .back)
    simp only [Tree.call, h1, h2, ok_bind, pure_ok, Spec.call, e, borrowed_back]
  | cursorNext c =>
    refine .inl ⟨t, ?_, h⟩
    obtain ⟨o, h1, h2⟩ := nextWithValue_ok r c
    simp only [Tree.call, h1, h2, ok_bind, pure_ok, Spec.call, e]
  | cursorPrev c =>
    refine .inl ⟨t, ?_, h⟩
    obtain ⟨o, h1, h2⟩ := prevWithValue_ok r c
    simp only [Tree.call, h1, h2, ok_bind, pure_ok, Spec.call, e]
  | cursorValue c =>
    refine .inl ⟨t, ?_, h⟩
    simp only [Tree.call, cursorValue_ok r c, ok_bind, pure_ok, Spec.call, e]
  | getCursor k =>
    refine .inl ⟨t, ?_, h⟩
    obtain ⟨c, h1, h2⟩ := getCursor_ok r k
    simp only [Tree.call, h1, h2, ok_bind, pure_ok, Spec.call, e]
  | clear =>
    exact .inl ⟨Tree.new, rfl, Inv.new⟩

theorem call_length (l : List (K × V)) (c : Call K V) :
    (Spec.call l c).2.length ≤ l.length + 1 := by
  cases c <;> simp only [Spec.call, Spec.modify, List.length_map, List.length_nil] <;> try omega
  · unfold upsert
    rw [List.length_append, List.length_cons]
    rename_i k v
    have : (l.filter (fun e => decide (e.1 < k))).length
        + (l.filter (fun e => decide (k < e.1))).length ≤ l.length := by
      induction l with
      | nil => simp
      | cons e l ih =>
        simp only [List.filter_cons, List.length_cons]
        by_cases h : e.1 < k
        · have : ¬ k < e.1 := lt_asymm h
          simp [h, this]; omega
        · by_cases h' : k < e.1 <;> simp [h, h'] <;> omega
    omega
  · have := List.length_filter_le (fun e : K × V => e.1 ≠ ‹K›) l
    unfold erase; omega

theorem run_ok {μ : Nat} (h0 : 0 < μ) (hμ : μ ≤ 16) {t : Tree K V A} {l : List (K × V)}
    (h : Inv μ t l) (cs : List (Call K V)) (hl : t.len + cs.length < 2 ^ 64) :
    ∃ t', t.run cs = .ok ((Spec.run l cs).1, t') ∧ Inv μ t' (Spec.run l cs).2 := by
  induction cs generalizing t l with
  | nil => exact ⟨t, rfl, h⟩
  | cons c cs ih =>
    rw [List.length_cons] at hl
    rcases call_ok hμ h (by omega) c with ⟨t1, h1, h2⟩ | h1
    · have := call_length l c
      obtain ⟨t2, h3, h4⟩ := ih h2 (by rw [h2.len]; rw [h.len] at hl; omega)
      exact ⟨t2, by simp only [Tree.run, h1, ok_bind, h3, pure_ok, Spec.run], h4⟩
    · omega

end Calls

/-! ## Reachable maps -/

section Reach
variable [Augmentation K V A]

theorem reach_inv {μ : Nat} (hμ : μ ≤ 16) {start : Tree K V A → Prop} {upd : Prop}
    (hs : ∀ t, start t → t.len < 2 ^ 64 → ∃ (H : Nat) (g : T K V A H), WF μ t g ∧ AugWF t g)
    {t : Tree K V A} (hr : Reach start upd t) :
    ∃ (H : Nat) (g : T K V A H), WF μ t g ∧ t.len < 2 ^ 64 ∧
      ((upd → KeyOnly K V A) → AugWF t g) := by
  induction hr with
  | start h hl =>
    obtain ⟨H, g, h1, h2⟩ := hs _ h hl
    exact ⟨H, g, h1, hl, fun _ => h2⟩
  | @insert t t' k v o _ hl h ih =>
    obtain ⟨H, g, h1, h2, h3⟩ := ih
    obtain ⟨t1, H', g', r1, r2, r3, r4, r5⟩ := insert_ok hμ h1 (h1.depth h2) k v
    rw [h] at r1
    cases r1
    refine ⟨H', g', r2, ?_, fun hk => r4 (h3 hk)⟩
    obtain ⟨t2, q1, q2, _⟩ := Inv.insert hμ ⟨H, g, h1, rfl, h2⟩ hl k v
    rw [h] at q1; cases q1
    exact q2.lt
  | @remove t t' k o _ h ih =>
    obtain ⟨H, g, h1, h2, h3⟩ := ih
    rcases remove_ok hμ h1 (h1.depth h2) k with ⟨t1, H', g', r1, r2, r3, r4, r5⟩ | ⟨_, r1⟩
    · rw [h] at r1
      cases r1
      refine ⟨H', g', r2, ?_, fun hk => r4 (h3 hk)⟩
      have := List.length_filter_le (fun e : K × V => e.1 ≠ k) g.toL
      rw [r2.len, r3, erase]
      rw [h1.len] at h2; omega
    · rw [h] at r1; cases r1
  | @get t t' k o _ h ih =>
    obtain ⟨H, g, h1, h2, h3⟩ := ih
    obtain ⟨c, hc⟩ := get_ok h1.reads k
    rw [h] at hc
    cases hc
    exact ⟨H, g, h1.cached c, h2, fun hk => ⟨(h3 hk).ok, (h3 hk).root⟩⟩
  | @getMut t t' k f o hu _ h ih =>
    obtain ⟨H, g, h1, h2, h3⟩ := ih
    obtain ⟨t1, g', r1, r2, r3, r4, r5, r6, _⟩ := getMut_ok h1 k f
    rw [h] at r1
    cases r1
    refine ⟨H, g', r2, ?_, fun hk => ?_⟩
    · rw [r2.len, r3, Spec.modify, List.length_map, ← h1.len]; exact h2
    · obtain ⟨a1, a2⟩ := h3 hk
      obtain ⟨b1, b2⟩ := r6 (hk hu)
      refine ⟨b1 a1, ?_⟩
      rw [r5, b2]
      rcases a2 with a2 | ⟨a2, a3⟩
      · exact .inl a2
      · exact .inr ⟨by rw [r3, a2]; rfl, a3⟩
  | clear _ ih =>
    obtain ⟨g, h1, h2, h3⟩ := new_ok (K := K) (V := V) (A := A) μ
    exact ⟨0, g, h1, by show (0 : Nat) < _; omega, fun _ => h2⟩
  | @removeBy t t' Q _ q o _ h ih =>
    obtain ⟨H, g, h1, h2, h3⟩ := ih
    have r := removeBy_out hμ h1 (h1.depth h2) q
    rw [h] at r
    generalize g.searchEnd q = e at r
    cases e with
    | nothing => cases r; exact ⟨H, g, h1, h2, h3⟩
    | entry e =>
      rcases r with ⟨t1, H', g', l1, l2, r1, r2, r3, r4, r5⟩ | ⟨_, r1⟩
      · cases r1
        refine ⟨H', g', r2, ?_, fun hk => r5 (h3 hk)⟩
        rw [r2.len, r4]
        rw [h1.len, r3] at h2
        simp only [List.length_append, List.length_cons] at h2 ⊢
        omega
      · cases r1
    | noItem => obtain ⟨f, r⟩ := r; cases r
    | noChild => cases r
  | @getMutBy t t' Q _ q f o hu _ h ih =>
    obtain ⟨H, g, h1, h2, h3⟩ := ih
    have r := getMutBy_out h1 (h1.depth h2) q f
    rw [h] at r
    generalize g.searchEnd q = e at r
    cases e with
    | nothing => cases r; exact ⟨H, g, h1, h2, h3⟩
    | entry e =>
      obtain ⟨t1, g', l1, l2, r1, r2, r3, r4, r5, r6, r7⟩ := r
      cases r1
      refine ⟨H, g', r2, ?_, fun hk => ?_⟩
      · rw [r2.len, r4]
        rw [h1.len, r3] at h2
        simpa using h2
      · obtain ⟨a1, a2⟩ := h3 hk
        obtain ⟨b1, b2⟩ := r7 (hk hu)
        refine ⟨b1 a1, ?_⟩
        rw [r6, b2]
        rcases a2 with a2 | ⟨a2, a3⟩
        · exact .inl a2
        · rw [r3] at a2
          exact absurd a2 (by simp)
    | noItem => cases r
    | noChild => cases r

theorem new_start (t : Tree K V A) (h : t = Tree.new) (_ : t.len < 2 ^ 64) :
    ∃ (H : Nat) (g : T K V A H), WF 16 t g ∧ AugWF t g := by
  subst h
  obtain ⟨g, h1, h2, _⟩ := new_ok (K := K) (V := V) (A := A) 16
  exact ⟨0, g, h1, h2⟩

theorem loaded_start (t : Tree K V A) (h : Loaded t) (_ : t.len < 2 ^ 64) :
    ∃ (H : Nat) (g : T K V A H), WF 0 t g ∧ AugWF t g := by
  obtain ⟨data, hd, hb⟩ := h
  obtain ⟨t', H, g, h1, h2, h3, _⟩ := bulkLoad_ok (A := A) (μ := 0) (by omega) data hd (.inl rfl)
  rw [hb] at h1
  cases h1
  exact ⟨H, g, h2, h3⟩

theorem Reachable.wf {t : Tree K V A} (h : Reachable t) :
    ∃ (H : Nat) (g : T K V A H), WF 16 t g ∧ t.len < 2 ^ 64 ∧ (KeyOnly K V A → AugWF t g) := by
  obtain ⟨H, g, h1, h2, h3⟩ := reach_inv (by omega) new_start h
  exact ⟨H, g, h1, h2, fun hk => h3 fun _ => hk⟩

theorem ReachableNoMut.wf {t : Tree K V A} (h : ReachableNoMut t) :
    ∃ (H : Nat) (g : T K V A H), WF 16 t g ∧ t.len < 2 ^ 64 ∧ AugWF t g := by
  obtain ⟨H, g, h1, h2, h3⟩ := reach_inv (by omega) new_start h
  exact ⟨H, g, h1, h2, h3 False.elim⟩

theorem ReachableBulk.wf {t : Tree K V A} (h : ReachableBulk t) :
    ∃ (H : Nat) (g : T K V A H), WF 0 t g ∧ t.len < 2 ^ 64 ∧ (KeyOnly K V A → AugWF t g) := by
  obtain ⟨H, g, h1, h2, h3⟩ := reach_inv (by omega) loaded_start h
  exact ⟨H, g, h1, h2, fun hk => h3 fun _ => hk⟩

theorem ReachableBulkNoMut.wf {t : Tree K V A} (h : ReachableBulkNoMut t) :
    ∃ (H : Nat) (g : T K V A H), WF 0 t g ∧ t.len < 2 ^ 64 ∧ AugWF t g := by
  obtain ⟨H, g, h1, h2, h3⟩ := reach_inv (by omega) loaded_start h
  exact ⟨H, g, h1, h2, h3 False.elim⟩

theorem Reach.mono {start start' : Tree K V A → Prop} {upd upd' : Prop}
    (hs : ∀ t, start t → start' t) (hu : upd → upd') {t : Tree K V A} (h : Reach start upd t) :
    Reach start' upd' t := by
  induction h with
  | start h hl => exact .start (hs _ h) hl
  | insert _ hl h ih => exact .insert ih hl h
  | remove _ h ih => exact .remove ih h
  | get _ h ih => exact .get ih h
  | getMut u _ h ih => exact .getMut (hu u) ih h
  | clear _ ih => exact .clear ih
  | removeBy _ h ih => exact .removeBy ih h
  | getMutBy u _ h ih => exact .getMutBy (hu u) ih h

theorem ReachableNoMut.mut {t : Tree K V A} (h : ReachableNoMut t) : Reachable t :=
  Reach.mono (fun _ h => h) (fun h => h.elim) h

theorem new_loaded : Loaded (Tree.new : Tree K V A) :=
  ⟨[], List.Pairwise.nil, rfl⟩

theorem Reachable.bulk {t : Tree K V A} (h : Reachable t) : ReachableBulk t :=
  Reach.mono (fun _ h => h ▸ new_loaded) (fun h => h) h

theorem ReachableNoMut.bulk {t : Tree K V A} (h : ReachableNoMut t) : ReachableBulkNoMut t :=
  Reach.mono (fun _ h => h ▸ new_loaded) (fun h => h) h

theorem ReachableBulkNoMut.mut {t : Tree K V A} (h : ReachableBulkNoMut t) : ReachableBulk t :=
  Reach.mono (fun _ h => h) (fun h => h.elim) h

theorem Reachable.inv {t : Tree K V A} (h : Reachable t) : ∃ l, Inv 16 t l := by
  obtain ⟨H, g, h1, h2, _⟩ := h.wf
  exact ⟨g.toL, H, g, h1, rfl, h2⟩

theorem ReachableBulk.inv {t : Tree K V A} (h : ReachableBulk t) : ∃ l, Inv 0 t l := by
  obtain ⟨H, g, h1, h2, _⟩ := h.wf
  exact ⟨g.toL, H, g, h1, rfl, h2⟩

theorem insertAll_length (items : List (K × V)) : (insertAll [] items).length ≤ items.length := by
  induction items using List.reverseRecOn with
  | nil => simp [insertAll]
  | append_singleton items e ih =>
    have := call_length (insertAll [] items) (.insert e.1 e.2)
    simp only [insertAll, List.foldl_append, List.foldl_cons, List.foldl_nil, List.length_append,
      List.length_singleton] at ih ⊢
    simp only [Spec.call, insertAll] at this
    omega

/-- Every list of fewer than `2^64` insertions gives a reachable map. -/
theorem reach_insertAll (items : List (K × V)) (hl : items.length < 2 ^ 64) :
    ∃ t : Tree K V A, ReachableNoMut t ∧ Inv 16 t (insertAll [] items) := by
  induction items using List.reverseRecOn with
  | nil => exact ⟨Tree.new, .start rfl (by show (0:Nat) < _; omega), Inv.new⟩
  | append_singleton items e ih =>
    rw [List.length_append, List.length_singleton] at hl
    obtain ⟨t, h1, h2⟩ := ih (by omega)
    have hle := insertAll_length items
    have hlen : t.len + 1 < 2 ^ 64 := by rw [h2.len]; omega
    obtain ⟨t', r1, r2, _⟩ := h2.insert (by omega) hlen e.1 e.2
    refine ⟨t', .insert h1 hlen r1, ?_⟩
    simpa [insertAll] using r2

end Reach
/-! ## With augmentations in sync -/

section
variable [Augmentation K V A]

/-- `t` holds `l` and its augmentations are in sync. -/
def InvA (μ : Nat) (t : Tree K V A) (l : List (K × V)) : Prop :=
  ∃ (H : Nat) (g : T K V A H), WF μ t g ∧ g.toL = l ∧ t.len < 2 ^ 64 ∧ AugWF t g

theorem InvA.inv {μ : Nat} {t : Tree K V A} {l : List (K × V)} (h : InvA μ t l) : Inv μ t l := by
  obtain ⟨H, g, w, e, h, _⟩ := h
  exact ⟨H, g, w, e, h⟩

theorem Reachable.invA {t : Tree K V A} (h : Reachable t) (hk : KeyOnly K V A) :
    ∃ l, InvA 16 t l := by
  obtain ⟨H, g, h1, h2, h3⟩ := h.wf
  exact ⟨g.toL, H, g, h1, rfl, h2, h3 hk⟩

theorem ReachableBulk.invA {t : Tree K V A} (h : ReachableBulk t) (hk : KeyOnly K V A) :
    ∃ l, InvA 0 t l := by
  obtain ⟨H, g, h1, h2, h3⟩ := h.wf
  exact ⟨g.toL, H, g, h1, rfl, h2, h3 hk⟩

theorem ReachableNoMut.invA {t : Tree K V A} (h : ReachableNoMut t) : ∃ l, InvA 16 t l := by
  obtain ⟨H, g, h1, h2, h3⟩ := h.wf
  exact ⟨g.toL, H, g, h1, rfl, h2, h3⟩

theorem ReachableBulkNoMut.invA {t : Tree K V A} (h : ReachableBulkNoMut t) : ∃ l, InvA 0 t l := by
  obtain ⟨H, g, h1, h2, h3⟩ := h.wf
  exact ⟨g.toL, H, g, h1, rfl, h2, h3⟩

end
end Bpt
