import Verif.Proofs.CountLawful
import Verif.Proofs.CountCalls
import Verif.Proofs.Start
import Verif.Props.Demo

/-!
# C48: how much user code a call runs

`ucallC` is the call with its key comparisons counted, `ucallT` the call with its calls of user code
listed.
-/

namespace Bpt
open Bpt.Spec
variable {K V A : Type}

/-- A history of calls, with the number of key comparisons all of them make. -/
def Tree.urunC [Augmentation K V A] (t : Tree K V A) :
    List (Answers K × UCall K V) → Counted (List (Answer K V) × Tree K V A)
  | [] => return ([], t)
  | (o, c) :: cs => do
    let (a, t) ← t.ucallC o c
    let (as, t) ← t.urunC cs
    return (a :: as, t)

/-- `n` steps forward with a cursor, collecting the items, with the number of key comparisons they
make when the order is lawful. -/
def Cursor.walkC [LinearOrder K] (early : Bool) (t : Tree K V A) :
    Nat → Cursor K → Counted (List (K × V))
  | 0, _ => return []
  | n + 1, c => do
    match ← c.nextWithValueC (.ofOrder early c.k) t with
    | none => return []
    | some (c', v) =>
      let l ← c'.walkC early t n
      return (c'.k, v) :: l

/-- The counted calls and histories are the calls and histories. -/
theorem C48_program [Augmentation K V A] (t : Tree K V A) :
    (∀ o c, (t.ucallC o c).result = t.ucall o c) ∧ ∀ cs, (t.urunC cs).result = t.urun cs := by
  refine ⟨ucallC_result t, fun cs => ?_⟩
  induction cs generalizing t with
  | nil => rfl
  | cons c cs ih =>
    obtain ⟨o, c⟩ := c
    simp only [Tree.urunC, Tree.urun, Counted.result_bind, ucallC_result]
    congr 1
    funext p
    simp only [Counted.result_bind, ih]
    rfl

private theorem height_log {t : Tree K V A} {h : Nat} {g : T K V A (h + 1)} (w : WF0 1 t g) :
    h ≤ Nat.log 17 (g.toL.length / 16) := by
  have := root_size w.shape
  exact Nat.le_log_of_pow_le (by omega) ((Nat.le_div_iff_mul_le (by omega)).2 (by omega))

private theorem cost_log [Augmentation K V A] {t : Tree K V A} {l : List (K × V)} (h : UInvM 1 t l)
    (o : Answers K) (c : UCall K V) : (t.ucallC o c).cost ≤ 19 + 7 * Nat.log 17 (l.length / 16) := by
  obtain ⟨H, g, w, rfl⟩ := h.ghost
  have h1 := ucallC_cost w h.lt o c
  cases H with
  | zero => omega
  | succ h => have := height_log w; omega

/-- After any history on a new or evenly bulk-loaded map, whatever the comparisons answered, the
next call compares keys at most `19 + 7 * log₁₇ (n / 16)` times, `n` being the number of items held. -/
theorem C48_comparisons [Augmentation K V A] {t0 : Tree K V A} {l0 : List (K × V)}
    (h0 : Fresh t0 l0) (cs : List (Answers K × UCall K V))
    (hn : l0.length + cs.length < 2 ^ 64) (o : Answers K) (c : UCall K V) :
    ∃ as t l, t0.urun cs = .ok (as, t) ∧ Contents t l ∧
      (t.ucallC o c).cost ≤ 19 + 7 * Nat.log 17 (l.length / 16) := by
  obtain ⟨as, t, l, h1, h2, -⟩ := urun_ok h0.inv cs (by rw [h0.inv.len]; omega)
  exact ⟨as, t, l, h1, h2.contents, cost_log h2 o c⟩

/-- A whole history of `n` calls compares keys at most `n * (19 + 7 * log₁₇ ((m + n) / 16))` times,
`m` being the number of items at the start. -/
theorem C48_total [Augmentation K V A] {t0 : Tree K V A} {l0 : List (K × V)}
    (h0 : Fresh t0 l0) (cs : List (Answers K × UCall K V))
    (hn : l0.length + cs.length < 2 ^ 64) :
    (t0.urunC cs).cost ≤
      cs.length * (19 + 7 * Nat.log 17 ((l0.length + cs.length) / 16)) := by
  have main : ∀ (N : Nat) (cs : List (Answers K × UCall K V)) {t : Tree K V A} {l : List (K × V)},
      UInvM 1 t l → N < 2 ^ 64 → l.length + cs.length ≤ N →
      (t.urunC cs).cost ≤ cs.length * (19 + 7 * Nat.log 17 (N / 16)) := by
    intro N cs
    induction cs with
    | nil => intro t l _ _ _; exact Nat.zero_le _
    | cons c cs ih =>
      obtain ⟨o, c⟩ := c
      intro t l h hN hl
      rw [List.length_cons] at hl
      have hc := cost_log h o c
      have hm : Nat.log 17 (l.length / 16) ≤ Nat.log 17 (N / 16) :=
        Nat.log_mono_right (Nat.div_le_div_right (by omega))
      obtain ⟨a, t', l', h1, h2, h3⟩ := ucall_ok h (by rw [h.len]; omega) o c
      have := h3.length_le
      have hr : (t.ucallC o c).result = .ok (a, t') := by rw [ucallC_result, h1]
      have hi := ih h2 hN (by omega)
      have e : (t.urunC ((o, c) :: cs)).cost = (t.ucallC o c).cost + (t'.urunC cs).cost := by
        rw [Tree.urunC, Counted.cost_bind_ok hr]
        simp only
        rw [Counted.cost_bind]
        cases (t'.urunC cs).result <;> simp
      rw [e, List.length_cons, Nat.succ_mul]
      omega
  exact main _ cs h0.inv hn (Nat.le_refl _)

/-- With a lawful order, looking a key up again right after finding it compares keys at most 9 times,
however large the map is. -/
theorem C48_repeat [LinearOrder K] [Augmentation K V A] {t : Tree K V A} (h : ReachableBulk t) {k : K}
    {v : V} {t' : Tree K V A} (hg : t.get k = .ok (some v, t')) (early : Bool) :
    (t'.getC (.ofOrder early k)).cost ≤ 9 ∧
      ∃ t'', (t'.getC (.ofOrder early k)).result = .ok (some v, t'') := by
  obtain ⟨H, g, w, -, -⟩ := h.wf
  refine ⟨getC_again w.reads w.base.smallLeaves hg early, ?_⟩
  obtain ⟨c, hc⟩ := get_ok w.reads k
  rw [hg] at hc
  have e1 : some v = _ := congrArg Prod.fst (Except.ok.inj hc)
  have e2 : t' = _ := congrArg Prod.snd (Except.ok.inj hc)
  have w' := w.cached c
  obtain ⟨c', hc'⟩ := get_ok w'.reads k
  simp only at e1 e2
  rw [e1, e2]
  exact ⟨_, by rw [getC_result, getU_lawful w', hc']⟩

/-- With a lawful order, a cursor that starts at the first item visits the items in order, with at most
3 comparisons per step, however large the map is. -/
theorem C48_walk [LinearOrder K] [Augmentation K V A] {t : Tree K V A} (h : ReachableBulk t)
    {l : List (K × V)} (hl : Shows t l) {c : Cursor K} {v : V} (hc : t.cursorFirst = .ok (some (c, v)))
    (early : Bool) (n : Nat) :
    (c.walkC early t n).cost ≤ 3 * n ∧
      ∃ l', l = (c.k, v) :: l' ∧ (c.walkC early t n).result = .ok (l'.take n) := by
  obtain ⟨l0, hi⟩ := h.inv
  cases hi.unique hl
  obtain ⟨H, g, w, rfl, -⟩ := hi
  have r := w.reads
  have main : ∀ (n : Nat) (LA LB : List (Nat × List (K × V))) (i : Nat) (P Q : List (K × V)) (k : K)
      (v : V), g.leaves = LA ++ (i, P ++ (k, v) :: Q) :: LB →
      ((⟨k, i, P.length⟩ : Cursor K).walkC early t n).cost ≤ 3 * n ∧
      ((⟨k, i, P.length⟩ : Cursor K).walkC early t n).result
        = .ok ((Q ++ LB.flatMap (·.2)).take n) := by
    intro n
    induction n with
    | zero => intro LA LB i P Q k v _; exact ⟨Nat.le_refl _, by simp [Cursor.walkC]⟩
    | succ n ih =>
      intro LA LB i P Q k v hL
      obtain ⟨h1, h2⟩ := nextC_exact r hL early
      rcases forward_exact r hL with ⟨h3, h4⟩ | ⟨LA', i', P', k', v', Q', LB', h3, h4, h5⟩
      · rw [h4] at h2
        simp only [Cursor.walkC]
        refine ⟨?_, ?_⟩
        · rw [Counted.cost_bind_ok h2]; simp only [Counted.cost_pure]; omega
        · rw [Counted.result_bind, h2, h3]; rfl
      · rw [h5] at h2
        obtain ⟨h6, h7⟩ := ih _ _ _ _ _ _ _ h3
        simp only [Cursor.walkC]
        refine ⟨?_, ?_⟩
        · rw [Counted.cost_bind_ok h2]
          simp only
          have := Counted.then_le (f := fun l => (pure ((k', v') :: l) : Counted (List (K × V)))) h6
            fun _ => rfl
          omega
        · rw [Counted.result_bind, h2, h4]
          simp only [ok_bind, Counted.result_bind, h7, Counted.result_pure, List.take_succ_cons]
  obtain ⟨⟨i, d⟩, L', hL, hf⟩ := r.first
  unfold Tree.cursorFirst at hc
  simp only [hf, ok_bind, r.flat.get (LA := []) (LB := L') hL] at hc
  obtain ⟨kv, h1, h2⟩ := bind_ok hc
  cases h2
  cases d with
  | nil => simp [Leaf.dataAt, readAt] at h1
  | cons a d =>
    simp only [Leaf.dataAt, readAt, List.getElem?_cons_zero] at h1
    cases h1
    obtain ⟨h3, h4⟩ := main n [] L' i [] d kv.1 kv.2 hL
    refine ⟨h3, d ++ L'.flatMap (·.2), ?_, h4⟩
    show g.leaves.flatMap (·.2) = _
    rw [hL]; simp

/-- After any history on a new or evenly bulk-loaded map, the next call makes, besides
comparisons, at most `6 + 2 * log₁₇ (n / 16)` calls of user code (summaries of a node and copies of a key). -/
theorem C48_summaries [Augmentation K V A] {t0 : Tree K V A} {l0 : List (K × V)}
    (h0 : Fresh t0 l0) (cs : List (Answers K × UCall K V))
    (hn : l0.length + cs.length < 2 ^ 64) (o : Answers K) (c : UCall K V) :
    ∃ as t l, t0.urun cs = .ok (as, t) ∧ Contents t l ∧
      ((t.ucallT o c).trace.filter (fun e => decide (e.1 ≠ .compare))).length ≤
        6 + 2 * Nat.log 17 (l.length / 16) := by
  obtain ⟨as, t, l, h1, h2, -⟩ := urun_ok h0.inv cs (by rw [h0.inv.len]; omega)
  refine ⟨as, t, l, h1, h2.contents, ?_⟩
  obtain ⟨H, g, w, rfl⟩ := h2.ghost
  have h3 : _ ≤ _ := ucallT_work w h2.lt o c
  unfold Traced.work at h3
  cases H with
  | zero => omega
  | succ h => have := height_log w; omega

/-! ### Concrete counts -/

/-- Two levels and 100 items: at most 19 comparisons are allowed; this lookup makes 9, a repeated one
at most 9, 99 steps of a cursor 198, and the insertion below asks for 2 summaries. -/
example : (demo.getC (.ofOrder false 44)).cost = 9 := by decide +kernel

example : (match demo.get 50 with
    | .ok (some _, t') => some (t'.getC (.ofOrder false 50)).cost
    | _ => none) = some 8 := by decide +kernel

example : (match demo.cursorFirst with
    | .ok (some (c, _)) => some (c.walkC false demo 99).cost
    | _ => none) = some 198 := by decide +kernel

example : ((demo.ucallT (.ofOrder false 1000) (.insert 1000 3)).trace.filter
    (fun e => decide (e.1 ≠ .compare))).length = 2 := by decide +kernel

/-- Going backward is dearer: the cursor returned by a step to the previous leaf (from 45 to 44) names
the wrong leaf (src/tree/cursor.rs, `prev_with_value`), so the next step searches the tree again and
needs 4 comparisons here. -/
example : (match demo.getCursor 45 with
    | .ok (some (c, _)) => (match (c.prevWithValueC (.ofOrder false 45) demo).result with
      | .ok (some (c', _)) => some (c'.k, (c'.prevWithValueC (.ofOrder false 44) demo).cost)
      | _ => none)
    | _ => none) = some (44, 4) := by decide +kernel

example : ReachableBulk demo := demo_reach.bulk.mono (fun _ h => h) (fun h => h.elim)

/-! ### The hypotheses -/

/-- 100 insertions and 40 removals, with honest comparisons. -/
def countedHistory : List (Answers Nat × UCall Nat Nat) :=
  demoItems.map (fun e => (.ofOrder false e.1, .insert e.1 e.2)) ++
    (List.range 40).map (fun i => (.ofOrder true i, .remove))

example := C48_program demo
example := C48_comparisons (A := Count) .new countedHistory (by decide +kernel) (.ofOrder false 50) .remove
example := C48_total (A := Count) .new countedHistory (by decide +kernel)
example := C48_summaries (A := Count) .new countedHistory (by decide +kernel) (.ofOrder false 50) .remove
example {t'} (h : demo.get 50 = .ok (some 50, t')) := C48_repeat demo_reach.mut.bulk h true
example {c v} (h : demo.cursorFirst = .ok (some (c, v))) :=
  C48_walk demo_reach.mut.bulk demo_shows h false 99

end Bpt
