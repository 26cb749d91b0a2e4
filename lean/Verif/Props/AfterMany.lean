import Verif.Proofs.AfterMany

/-!
# C66: any number of caught panics, with a length field that goes wrong
-/

namespace Bpt
open Spec
variable {K V A : Type}

/-- `Damaged t l e`: the map `t` can be obtained by calls and caught panics of user code, `l` is what it would
contain if the interrupted insertions and removals were completed, and `e` of them were interrupted in
summary code or a destructor. Such an insertion splits no leaf and such a removal repairs no node. -/
inductive Damaged [LinearOrder K] [Augmentation K V A] : Tree K V A → List (K × V) → Nat → Prop where
  | start {t : Tree K V A} {l : List (K × V)} (h : ReachableEven t) (hl : Shows t l) : Damaged t l 0
  | call {t t' : Tree K V A} {l l' : List (K × V)} {e n' : Nat} {c : Call K V} {a a' : Answer K V}
      (h : Damaged t l e) (hn : l.length + 1 < 2 ^ 64) (hs : Spec.callLen l t.len c = some (a', l', n'))
      (hc : t.call c = .ok (a, t')) : Damaged t' l' e
  | comparison {t t' : Tree K V A} {l : List (K × V)} {e : Nat} {early : Bool} {c : Call K V} {cb : Callback}
      (h : Damaged t l e) (ht : (cb, t') ∈ (t.ucallT (c.answers early) c.lawless).trace)
      (hc : cb = .compare ∨ (∀ k v, c ≠ .insert k v) ∧ ∀ k, c ≠ .remove k) : Damaged t' l e
  | insert {t t' t1 : Tree K V A} {l : List (K × V)} {e : Nat} {early : Bool} {k : K} {v : V} {o : Option V}
      {cb : Callback} (h : Damaged t l e) (hn : l.length + 1 < 2 ^ 64) (h1 : t.insert k v = .ok (o, t1))
      (hleaf : t1.store.leaves.length = t.store.leaves.length) (ht : InsertCrash t early k v cb t') :
      Damaged t' (upsert k v l) (e + 1)
  | remove {t t' t1 : Tree K V A} {l : List (K × V)} {e : Nat} {early : Bool} {k : K} {o : Option V}
      {cb : Callback} (h : Damaged t l e) (h1 : t.remove k = .ok (o, t1)) (hst : t1.st = t.st)
      (ht : RemoveCrash t early k cb t') : Damaged t' (erase k l) (e + 1)

theorem Damaged.inv [LinearOrder K] [Augmentation K V A] {t : Tree K V A} {l : List (K × V)} {e : Nat}
    (h : Damaged t l e) : LInv t l ∧ t.len ≤ l.length + e ∧ l.length ≤ t.len + e := by
  induction h with
  | @start t l h hl =>
    obtain ⟨l', hi⟩ := h.inv
    obtain rfl := content_unique hi.shows hl
    exact ⟨⟨t, t.len, hi, rfl⟩, by rw [hi.len]; omega, by rw [hi.len]; omega⟩
  | @call t t' l l' e n' c a a' _ hn hs hc ih =>
    obtain ⟨⟨t0, n, hi, rfl⟩, h1, h2⟩ := ih
    have hs' : Spec.callLen l n c = some (a', l', n') := hs
    have hlen : t0.len + 1 < 2 ^ 64 := by rw [hi.len]; exact hn
    obtain ⟨u, g1, g2⟩ := callLen_ok (by omega) (by omega) hi hlen hs'
    rw [hc] at g1
    cases g1
    have := callLen_off hi hlen hs'
    simp only [Tree.withLen] at h1 h2 ⊢
    refine ⟨⟨u, n', g2, rfl⟩, ?_⟩
    rcases this with this | ⟨rfl, rfl⟩
    · omega
    · simp
  | @comparison t t' l e early c cb _ ht hc ih =>
    obtain ⟨hi, h1, h2⟩ := ih
    exact ⟨(hi.comparison ht hc).1, by rw [(hi.comparison ht hc).2]; exact h1, by rw [(hi.comparison ht hc).2]; exact h2⟩
  | @insert t t' t1 l e early k v o cb _ hn h1 hleaf ht ih =>
    obtain ⟨hi, b1, b2⟩ := ih
    obtain ⟨g1, g2⟩ := hi.insert hn h1 hleaf ht
    have q1 : (upsert k v l).length ≤ l.length + 1 := call_length l (.insert k v)
    have q2 := hi.upsert_length hn k v
    exact ⟨g1, by omega, by omega⟩
  | @remove t t' t1 l e early k o cb _ h1 hst ht ih =>
    obtain ⟨hi, b1, b2⟩ := ih
    obtain ⟨g1, g2, g3⟩ := hi.remove h1 hst ht
    have q1 : (erase k l).length ≤ l.length := List.length_filter_le _ _
    exact ⟨g1, by omega, by omega⟩

/-- After any number of caught panics, in comparisons, summary code and destructors, with calls in between,
`get` shows the content that the completed calls would have left, `len` is off by at most the number of
insertions and removals that were interrupted, and every later history of calls gives exactly the answers of
that content kept beside this length field (`Spec.runLen`). Where that specification has no answer the
history ends in a panic or in undefined behaviour.

Partial: interrupted insertions that split a leaf and removals that repair a node are excluded (see
`C62_split_refuted` and `C62_rotation_refuted`). -/
theorem C66_many_partial [LinearOrder K] [Augmentation K V A] {t : Tree K V A} {l : List (K × V)} {e : Nat}
    (h : Damaged t l e) :
    Shows t l ∧ t.len ≤ l.length + e ∧ l.length ≤ t.len + e ∧
    ∀ cs : List (Call K V), l.length + cs.length < 2 ^ 64 →
      (∀ as l' n', Spec.runLen l t.len cs = some (as, l', n') →
        ∃ u, t.run cs = .ok (as, u) ∧ Shows u l' ∧ u.len = n') ∧
      (Spec.runLen l t.len cs = none → ∃ f, t.run cs = .error f) := by
  obtain ⟨⟨t0, n, hi, rfl⟩, b1, b2⟩ := h.inv
  have sh : ∀ {u : Tree K V A} {l n}, Inv 1 u l → Shows (u.withLen n) l := fun {u l n} hi =>
    Bare.shows (t := u) (t' := u.withLen n) (Bare.refl : Bare u.store u.store) rfl hi.shows
  refine ⟨sh hi, b1, b2, fun cs hn => ⟨fun as l' n' hs => ?_, fun hs => ?_⟩⟩
  · obtain ⟨u, r1, r2⟩ := runLen_ok (by omega) (by omega) hi cs (by rw [hi.len]; exact hn) hs
    exact ⟨_, r1, sh r2, rfl⟩
  · exact runLen_fault (by omega) (by omega) hi cs (by rw [hi.len]; exact hn) hs

/-! ## The hypotheses are met -/

/-- An insertion that splits no leaf. -/
def okI (t : Tree Nat Nat Count) (k v : Nat) : Bool := match t.insert k v with
  | .ok (_, t1) => decide (t1.store.leaves.length = t.store.leaves.length)
  | .error _ => false

/-- A removal that repairs no node. -/
def okR (t : Tree Nat Nat Count) (k : Nat) : Bool := match t.remove k with
  | .ok (_, t1) => decide (t1.st = t.st)
  | .error _ => false

/-- The summary code panics while 1000 is inserted and a destructor while 1001 is, and then a destructor while
50 is removed: 101 items, with a length field of 100. -/
example : ∃ t : Tree Nat Nat Count,
    Damaged t (erase 50 (upsert 1001 8 (upsert 1000 7 demoContent))) 3 ∧ t.len = 100 ∧
    (erase 50 (upsert 1001 8 (upsert 1000 7 demoContent))).length = 101 := by
  have hI : ∀ t k v, okI t k v = true → ∃ o t1, t.insert k v = .ok (o, t1) ∧
      t1.store.leaves.length = t.store.leaves.length := by
    intro t k v h
    unfold okI at h
    split at h
    · next o t1 e => exact ⟨o, t1, e, of_decide_eq_true h⟩
    · cases h
  have hR : ∀ t k, okR t k = true → ∃ o t1, t.remove k = .ok (o, t1) ∧ t1.st = t.st := by
    intro t k h
    unfold okR at h
    split at h
    · next o t1 e => exact ⟨o, t1, e, of_decide_eq_true h⟩
    · cases h
  have h : (okI demo 1000 7 && (demo.ucallT ((Call.insert 1000 7).answers false) (.insert 1000 7)).trace.any
      (fun e1 => e1.1.isFromLeaf && okI e1.2 1001 8 &&
        (e1.2.insertD ((Call.insert 1001 8).answers false) 1001 8).trace.any (fun e2 => okR e2.2 50 &&
          (e2.2.removeD ((Call.remove (V := Nat) 50).answers false)).trace.any (fun e3 =>
            decide (e3.2.len = 100))))) = true := by decide +kernel
  simp only [Bool.and_eq_true, List.any_eq_true, decide_eq_true_eq] at h
  obtain ⟨a0, ⟨cb1, t1⟩, m1, ⟨f1, a1⟩, ⟨cb2, t2⟩, m2, a2, ⟨cb3, t3⟩, m3, hl⟩ := h
  obtain ⟨o, u0, i0, j0⟩ := hI _ _ _ a0
  obtain ⟨o', u1, i1, j1⟩ := hI _ _ _ a1
  obtain ⟨o'', u2, i2, j2⟩ := hR _ _ a2
  exact ⟨t3, .remove (early := false) (.insert (early := false) (.insert (early := false)
    (.start demo_reach.mut.even demo_shows) (by decide +kernel) i0 j0 (.inl ⟨m1, .inl f1⟩))
    (by decide +kernel) i1 j1 (.inr m2)) i2 j2 (.inr m3), hl, by decide +kernel⟩

end Bpt
