import Verif.Proofs.Lawful
import Verif.Proofs.Start
import Verif.Props.Demo

/-!
# C46: no implementation of the comparison traits can break the map's memory
-/

namespace Bpt
variable {K V A : Type}

/-- Whatever the user's comparisons answer, differently each time if they like, any history of calls
on a new or evenly bulk-loaded map (`Fresh`) runs without a fault (no panic, no undefined behaviour,
no endless descent); each call has one of the effects listed by `Effect` on the sequence of items; and at the end `len`, `drop` and
`into_iter` account for exactly the items that are left. -/
theorem C46_history [Augmentation K V A] {t0 : Tree K V A} {l0 : List (K × V)}
    (h0 : Fresh t0 l0) (cs : List (Answers K × UCall K V))
    (hn : l0.length + cs.length < 2 ^ 64) :
    ∃ as t' l', t0.urun cs = .ok (as, t') ∧
      Effects (cs.map (·.2)) as l0 l' ∧ Contents t' l' := by
  obtain ⟨as, t', l', h1, h2, h3⟩ := urun_ok h0.inv cs (by rw [h0.inv.len]; omega)
  exact ⟨as, t', l', h1, h3, h2.contents⟩

/-- The same for every prefix of a history: after any history the next call, whatever its
comparisons answer, has one of the listed effects. -/
theorem C46_step [Augmentation K V A] {t0 : Tree K V A} {l0 : List (K × V)}
    (h0 : Fresh t0 l0) (cs : List (Answers K × UCall K V)) (hn : l0.length + cs.length + 1 < 2 ^ 64)
    (o : Answers K) (c : UCall K V) :
    ∃ as t l, t0.urun cs = .ok (as, t) ∧ Contents t l ∧
      ∃ a t' l', t.ucall o c = .ok (a, t') ∧ Contents t' l' ∧ Effect c a l l' := by
  have hlen : ∀ (cs : List (Answers K × UCall K V)) as (l l' : List (K × V)),
      Effects (cs.map (·.2)) as l l' → l'.length ≤ l.length + cs.length := by
    intro cs
    induction cs with
    | nil => intro as l l' h; cases h; simp
    | cons c cs ih =>
      intro as l l' h
      cases h with
      | cons h1 h2 =>
        have := ih _ _ _ h2
        have := h1.length_le
        rw [List.length_cons]; omega
  obtain ⟨as, t, l, h1, h2, h3⟩ := urun_ok h0.inv cs (by rw [h0.inv.len]; omega)
  have := hlen _ _ _ _ h3
  obtain ⟨a, t', l', h4, h5, h6⟩ := ucall_ok h2 (by rw [h2.len]; omega) o c
  exact ⟨as, t, l, h1, h2.contents, a, t', l', h4, h5.contents, h6⟩

/-- When the comparisons are those of a linear order, on any reachable map (also a bulk-loaded one)
and for either search loop of the standard library, the calls of this model are the calls of the main
model: same answer, same tree, same fault. -/
theorem C46_lawful [LinearOrder K] [Augmentation K V A] {t : Tree K V A} (h : ReachableBulk t)
    (early : Bool) (c : Call K V) : t.ucall (c.answers early) c.lawless = t.call c := by
  obtain ⟨H, g, w, h2, _⟩ := h.wf
  exact ucall_lawful w (w.depth h2) early c

/-- Binary search, written out as the standard library does it, may replace the abstract search in
every call on a reachable map. -/
theorem C38_calls [LinearOrder K] [Augmentation K V A] {t : Tree K V A} (h : ReachableBulk t)
    (c : Call K V) : t.ucall (c.answers false) c.lawless = t.call c ∧
      t.ucall (c.answers true) c.lawless = t.call c :=
  ⟨C46_lawful h false c, C46_lawful h true c⟩

example (c : Call Nat Nat) : demoBulk.ucall (c.answers false) c.lawless = demoBulk.call c :=
  C46_lawful (demoBulk_reach.mono (fun _ h => h) (fun h => h.elim)) false c

/-! ### A map whose comparisons always answer "less" -/

/-- Every stored key is less than every argument. -/
def alwaysLess : Answers Nat := ⟨false, fun _ _ _ => .lt, fun _ _ => .lt, fun _ _ => false, fun _ => false⟩

/-- The first key of a node equals every argument, in the other search loop. -/
def alwaysEqual : Answers Nat := ⟨true, fun _ _ _ => .eq, fun _ _ => .eq, fun _ _ => true, fun _ => true⟩

/-- 70 insertions of one key, then a removal, a lookup and a cursor step. -/
def lawlessHistory : List (Answers Nat × UCall Nat Nat) :=
  (List.range 70).map (fun i => (alwaysLess, .insert 5 i)) ++
    [(alwaysEqual, .remove), (alwaysEqual, .get), (alwaysEqual, .cursorNext ⟨5, 0, 3⟩),
      (alwaysLess, .get), (alwaysEqual, .insert 6 100), (alwaysLess, .len)]

example : lawlessHistory.length < 2 ^ 64 := by decide

/-- The map keeps all 70 items of the same key; the removal takes one out. -/
example : (match (Tree.new : Tree Nat Nat Count).urun lawlessHistory with
    | .ok (as, t) => some (as.drop 70, t.len, t.root)
    | .error _ => none) =
    some ([.value (some 51), .value (some 50), .entry (some (5, 36)), .value none,
      .value (some 50), .number 69], 69, .inner 0) := by decide +kernel

example := C46_history (A := Count) .new lawlessHistory (by decide)
example := C46_step (A := Count) .new lawlessHistory (by decide) alwaysEqual .remove
example := C38_calls demoBulk_reach.mut (.remove 7)

end Bpt
