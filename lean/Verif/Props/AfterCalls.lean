import Verif.Proofs.AfterCalls
import Verif.Proofs.AfterLen
import Verif.Props.AfterIter

/-!
# C66: calls after a caught panic of user code

`ucallT` lists the summary code and the comparisons a call makes, `insertD` and `removeD` the destructors,
each with the map as it is in memory at that moment: the map a caller sees who catches the panic. The
theorems run any history of calls on that map, with no further panic of user code, and compare the answers
with `Spec.run`, the calls on a sorted association list. The comparisons are those of the linear order.
-/

namespace Bpt
open Spec
variable {K V A : Type}

/-- The pieces of user code other than comparisons that an insertion calls, each with the map at that
moment: `from_leaf` and `from_inner`, and the destructors. -/
def InsertCrash [LinearOrder K] [Augmentation K V A] (t : Tree K V A) (early : Bool) (k : K) (v : V)
    (cb : Callback) (t' : Tree K V A) : Prop :=
  (cb, t') ∈ (t.ucallT ((Call.insert k v).answers early) (.insert k v)).trace ∧ (cb.isFromLeaf ∨ cb.isFromInner) ∨
  (cb, t') ∈ (t.insertD ((Call.insert k v).answers early) k v).trace

/-- The same for a removal. -/
def RemoveCrash [LinearOrder K] [Augmentation K V A] (t : Tree K V A) (early : Bool) (k : K)
    (cb : Callback) (t' : Tree K V A) : Prop :=
  (cb, t') ∈ (t.ucallT ((Call.remove (V := V) k).answers early) .remove).trace ∧ (cb.isFromLeaf ∨ cb.isFromInner) ∨
  (cb, t') ∈ (t.removeD ((Call.remove (V := V) k).answers early)).trace

theorem InsertCrash.bare [LinearOrder K] [Augmentation K V A] {t : Tree K V A} {μ : Nat} {H : Nat}
    {g : T K V A H} (w : WF μ t g) (h2 : t.len < 2 ^ 64) {early : Bool} {k : K} {v : V} {o : Option V}
    {t1 : Tree K V A} (h1 : t.insert k v = .ok (o, t1))
    (hleaf : t1.store.leaves.length = t.store.leaves.length) {cb : Callback} {t' : Tree K V A}
    (ht : InsertCrash t early k v cb t') :
    Bare t1.store t'.store ∧ t1.root = t'.root ∧ t'.len = t.len := by
  have hu : t.insertU (.ofOrder early k) k v = .ok (o, t1) := by rw [insertU_lawful w (w.depth h2), h1]
  rcases ht with ⟨ht, hc⟩ | ht
  · have hr : (t.insertT (.ofOrder early k) k v).result = .ok (o, t1) := by rw [insertT_result, hu]
    have := insertT_bare _ t k v hr (by omega)
    have : (t.ucallT ((Call.insert k v).answers early) (.insert k v)).All _ :=
      Traced.all_bind this fun _ _ => Traced.all_pure
    obtain ⟨e1, e2, e3, -⟩ := this cb t' ht hc
    exact ⟨e1, e2, e3⟩
  · exact insertD_bare _ t k v hu (by omega) cb t' ht

theorem RemoveCrash.bare [LinearOrder K] [Augmentation K V A] {t : Tree K V A} {μ : Nat} {H : Nat}
    {g : T K V A H} (w : WF μ t g) (h2 : t.len < 2 ^ 64) {early : Bool} {k : K} {o : Option V}
    {t1 : Tree K V A} (h1 : t.remove k = .ok (o, t1)) (hst : t1.st = t.st) {cb : Callback} {t' : Tree K V A}
    (ht : RemoveCrash t early k cb t') :
    Bare t1.store t'.store ∧ t1.root = t'.root ∧ (t' = t1 ∨ t'.len = t.len) := by
  have hu : t.removeU (.ofOrder early k) = .ok (o, t1) := by rw [removeU_lawful w (w.depth h2), h1]
  rcases ht with ⟨ht, hc⟩ | ht
  · have hr : (t.removeT (.ofOrder early k)).result = .ok (o, t1) := by rw [removeT_result, hu]
    have := removeT_bare _ t hr hst
    have : (t.ucallT ((Call.remove (V := V) k).answers early) .remove).All _ :=
      Traced.all_bind this fun _ _ => Traced.all_pure
    obtain ⟨e1, e2, e3, -⟩ := this cb t' ht hc
    exact ⟨e1, e2, .inr e3⟩
  · exact removeD_bare _ t hu hst cb t' ht

theorem Inv.comparison [LinearOrder K] [Augmentation K V A] {t : Tree K V A} {l : List (K × V)} (hi : Inv 1 t l)
    {early : Bool} {c : Call K V} {cb : Callback} {t' : Tree K V A}
    (ht : (cb, t') ∈ (t.ucallT (c.answers early) c.lawless).trace)
    (hc : cb = .compare ∨ (∀ k v, c ≠ .insert k v) ∧ ∀ k, c ≠ .remove k) : Inv 1 t' l := by
  obtain ⟨H, g, w, hgl, h2⟩ := id hi
  have hu : UInvM 1 t g.toL := ⟨⟨H, g, w.base, rfl⟩, h2, by omega⟩
  have hc' : cb = .compare ∨ (∀ k v, c.lawless ≠ .insert k v) ∧ c.lawless ≠ .remove := by
    refine hc.imp id fun hc => ⟨fun k v e => ?_, fun e => ?_⟩
    · cases c <;> simp only [Call.lawless] at e <;> first | cases e | skip
      exact hc.1 _ _ rfl
    · cases c <;> simp only [Call.lawless] at e <;> first | cases e | skip
      exact hc.2 _ rfl
  have key : ∀ k, c.answers early = .ofOrder early k → Inv 1 t' l := by
    intro k hk
    rcases ucallT_compare hu _ _ cb t' ht hc' with rfl | ⟨r, hr⟩
    · exact hi
    · have e : t.ucall (c.answers early) .get = t.call (.get k) := by
        rw [hk]; exact ucall_lawful w (w.depth h2) early (.get k)
      rw [e] at hr
      obtain ⟨t1, g1, g2, -⟩ := hi.get k
      simp only [Tree.call, g1, ok_bind, pure_ok] at hr
      cases hr
      exact g2
  cases c with
  | insert k v => exact key k rfl
  | remove k => exact key k rfl
  | get k => exact key k rfl
  | getMut k f => exact key k rfl
  | getCursor k => exact key k rfl
  | cursorNext c => exact key c.k rfl
  | cursorPrev c => exact key c.k rfl
  | cursorValue c => exact key c.k rfl
  | _ => cases ht

theorem Inv.update [LinearOrder K] [Augmentation K V A] {t : Tree K V A} {l : List (K × V)} (hi : Inv 1 t l)
    (hn : t.len + 1 < 2 ^ 64) {early : Bool} {k : K} {v : V} (hk : lookup k l ≠ none) {cb : Callback}
    {t' : Tree K V A} (ht : InsertCrash t early k v cb t') : Inv 1 t' (upsert k v l) := by
  obtain ⟨H, g, w, hgl, h2⟩ := id hi
  obtain ⟨t1, g1, g2, -⟩ := hi.insert (by omega) hn k v
  obtain ⟨x, hx⟩ := Option.ne_none_iff_exists'.1 hk
  rw [hx] at g1
  obtain ⟨e1, e2⟩ := insert_updated g1
  obtain ⟨b1, b2, b3⟩ := InsertCrash.bare w h2 g1 e1 ht
  have hi' := b1.inv g2 b2
  rwa [show ({ t' with len := t1.len } : Tree K V A) = t' by rw [e2, ← b3]] at hi'

/-- A panic in a comparison during any call, and a panic in any user code called by anything but an
insertion or a removal, is as if the call had not been made: every later history of calls gives the answers
it would have given before. -/
theorem C66_comparison [LinearOrder K] [Augmentation K V A] {t : Tree K V A} (h : ReachableEven t)
    {l : List (K × V)} (hl : Shows t l) (early : Bool) (c : Call K V) (cb : Callback) (t' : Tree K V A)
    (ht : (cb, t') ∈ (t.ucallT (c.answers early) c.lawless).trace)
    (hc : cb = .compare ∨ (∀ k v, c ≠ .insert k v) ∧ ∀ k, c ≠ .remove k)
    (cs : List (Call K V)) (hn : l.length + cs.length < 2 ^ 64) :
    ∃ u, t'.run cs = .ok ((Spec.run l cs).1, u) ∧ Shows u (Spec.run l cs).2 := by
  obtain ⟨l', hi⟩ := h.inv
  obtain rfl := content_unique hi.shows hl
  have hi' := hi.comparison ht hc
  obtain ⟨u, e1, e2⟩ := run_ok (by omega) (by omega) hi' cs (by rw [hi'.len]; exact hn)
  exact ⟨u, e1, e2.shows⟩

/-- If the key was in the map, so that the insertion only replaces its value, a panic in `from_leaf`,
`from_inner` or a destructor is, for every later history of calls, as if the insertion had been completed. -/
theorem C66_update [LinearOrder K] [Augmentation K V A] {t : Tree K V A} (h : ReachableEven t)
    {l : List (K × V)} (hl : Shows t l) (early : Bool) (k : K) (v : V) (hk : lookup k l ≠ none)
    (cb : Callback) (t' : Tree K V A) (ht : InsertCrash t early k v cb t')
    (cs : List (Call K V)) (hn : l.length + 1 + cs.length < 2 ^ 64) :
    ∃ u, t'.run cs = .ok ((Spec.run (upsert k v l) cs).1, u) ∧ Shows u (Spec.run (upsert k v l) cs).2 := by
  obtain ⟨l', hi⟩ := h.inv
  obtain rfl := content_unique hi.shows hl
  have hi' := hi.update (by rw [hi.len]; omega) hk ht
  have hle : (upsert k v l').length ≤ l'.length + 1 := call_length l' (.insert k v)
  obtain ⟨u, r1, r2⟩ := run_ok (by omega) (by omega) hi' cs (by rw [hi'.len]; omega)
  exact ⟨u, r1, r2.shows⟩

/-- The maps that can be obtained by calls and any number of caught panics: in comparisons, in any user code
of calls other than insertions and removals, and in summary code or a destructor while the value of a key is
replaced. -/
inductive Battered [LinearOrder K] [Augmentation K V A] : Tree K V A → Prop where
  | start {t : Tree K V A} (h : ReachableEven t) : Battered t
  | call {t t' : Tree K V A} {c : Call K V} {a : Answer K V} (h : Battered t) (hn : t.len + 1 < 2 ^ 64)
      (hc : t.call c = .ok (a, t')) : Battered t'
  | comparison {t t' : Tree K V A} {early : Bool} {c : Call K V} {cb : Callback} (h : Battered t)
      (ht : (cb, t') ∈ (t.ucallT (c.answers early) c.lawless).trace)
      (hc : cb = .compare ∨ (∀ k v, c ≠ .insert k v) ∧ ∀ k, c ≠ .remove k) : Battered t'
  | update {t t' u : Tree K V A} {early : Bool} {k : K} {v w : V} {cb : Callback} (h : Battered t)
      (hn : t.len + 1 < 2 ^ 64) (hk : t.get k = .ok (some w, u)) (ht : InsertCrash t early k v cb t') : Battered t'

theorem Battered.inv [LinearOrder K] [Augmentation K V A] {t : Tree K V A} (h : Battered t) : ∃ l, Inv 1 t l := by
  induction h with
  | start h => exact h.inv
  | @call t t' c a _ hn hc ih =>
    obtain ⟨l, hi⟩ := ih
    rcases call_ok (by omega) hi hn c with ⟨u, h1, h2⟩ | ⟨e, -⟩
    · rw [hc] at h1
      cases h1
      exact ⟨_, h2⟩
    · omega
  | comparison _ ht hc ih =>
    obtain ⟨l, hi⟩ := ih
    exact ⟨l, hi.comparison ht hc⟩
  | @update t t' u early k v w cb _ hn hk ht ih =>
    obtain ⟨l, hi⟩ := ih
    obtain ⟨u', h1, -⟩ := hi.get k
    rw [hk] at h1
    cases h1' : lookup k l with
    | none => rw [h1'] at h1; cases h1
    | some x => exact ⟨_, hi.update hn (by rw [h1']; simp) ht⟩

/-- After any number of such caught panics the map still has a content that `get` shows, and every history of
calls gives the answers of a sorted association list with that content. -/
theorem C66_repeated [LinearOrder K] [Augmentation K V A] {t : Tree K V A} (h : Battered t) :
    ∃ l, Shows t l ∧ t.len = l.length ∧ ∀ cs : List (Call K V), l.length + cs.length < 2 ^ 64 →
      ∃ u, t.run cs = .ok ((Spec.run l cs).1, u) ∧ Shows u (Spec.run l cs).2 := by
  obtain ⟨l, hi⟩ := h.inv
  refine ⟨l, hi.shows, hi.len, fun cs hn => ?_⟩
  obtain ⟨u, r1, r2⟩ := run_ok (by omega) (by omega) hi cs (by rw [hi.len]; exact hn)
  exact ⟨u, r1, r2.shows⟩

/-- If the key was not in the map and no leaf is split, then after a panic in `from_leaf`, `from_inner` or
a destructor every later history of insertions, removals, `get`, `get_mut` and cursor calls gives the
answers it would have given after the completed insertion, as long as no removal empties the map; `len`
stays one too small.

Partial: insertions that split a leaf are excluded (see `C62_split_refuted`), so are histories that empty
the map (see `C66_insert_last`) and the calls that read `len` (see C65). -/
theorem C66_insert_partial [LinearOrder K] [Augmentation K V A] {t : Tree K V A} (h : ReachableEven t)
    {l : List (K × V)} (hl : Shows t l) (early : Bool) (k : K) (v : V) (hk : lookup k l = none)
    {o : Option V} {t1 : Tree K V A} (h1 : t.insert k v = .ok (o, t1))
    (hleaf : t1.store.leaves.length = t.store.leaves.length)
    (cb : Callback) (t' : Tree K V A) (ht : InsertCrash t early k v cb t')
    (cs : List (Call K V)) (hc : ∀ c ∈ cs, c.plain) (hn : l.length + 1 + cs.length < 2 ^ 64)
    (he : ∀ p, p <+: cs → (Spec.run (upsert k v l) p).2 ≠ []) :
    ∃ u, t'.run cs = .ok ((Spec.run (upsert k v l) cs).1, u) ∧ Shows u (Spec.run (upsert k v l) cs).2 ∧
      u.len + 1 = (Spec.run (upsert k v l) cs).2.length := by
  obtain ⟨H, g, w, h2, -⟩ := h.wf
  obtain ⟨l', hi⟩ := h.inv
  obtain rfl := content_unique hi.shows hl
  obtain ⟨t2, g1, g2, -⟩ := hi.insert (by omega) (by rw [hi.len]; omega) k v
  rw [h1] at g1
  cases g1
  rw [hk] at h1
  have hlen1 : t1.len = t.len + 1 := by
    rw [g2.len, hi.len]; exact upsert_new_length hk
  obtain ⟨b1, b2, b3⟩ := InsertCrash.bare w h2 h1 hleaf ht
  have hi' := b1.inv g2 b2
  have hlen := hi.len
  obtain ⟨u, n', r1, r2, r3⟩ := run_withLen (by omega) (by omega) hi' cs hc (by dsimp only; omega)
    (n := t.len) (.inr ⟨by dsimp only; omega, he⟩)
  rw [show ({ t' with len := t1.len } : Tree K V A).withLen t.len = t' by rw [← b3]; rfl] at r1
  refine ⟨_, r1, ?_, ?_⟩
  · exact Bare.shows (t := u) (t' := u.withLen n') (Bare.refl : Bare u.store u.store) rfl r2.shows
  · have := r2.len
    dsimp only at r3
    show n' + 1 = _
    omega

/-- The other side of `C66_insert_partial`: if only one item is left after such a history, removing it panics,
although no user code panics any more. -/
theorem C66_insert_last [LinearOrder K] [Augmentation K V A] {t : Tree K V A} (h : ReachableEven t)
    {l : List (K × V)} (hl : Shows t l) (early : Bool) (k : K) (v : V) (hk : lookup k l = none)
    {o : Option V} {t1 : Tree K V A} (h1 : t.insert k v = .ok (o, t1))
    (hleaf : t1.store.leaves.length = t.store.leaves.length)
    (cb : Callback) (t' : Tree K V A) (ht : InsertCrash t early k v cb t')
    (cs : List (Call K V)) (hc : ∀ c ∈ cs, c.plain) (hn : l.length + 1 + cs.length < 2 ^ 64)
    (he : ∀ p, p <+: cs → (Spec.run (upsert k v l) p).2 ≠ [])
    {x : K} {w : V} (hx : (Spec.run (upsert k v l) cs).2 = [(x, w)]) :
    ∃ u, t'.run cs = .ok ((Spec.run (upsert k v l) cs).1, u) ∧ u.remove x = .error .panic := by
  obtain ⟨H, g, w', h2, -⟩ := h.wf
  obtain ⟨l', hi⟩ := h.inv
  obtain rfl := content_unique hi.shows hl
  obtain ⟨t2, g1, g2, -⟩ := hi.insert (by omega) (by rw [hi.len]; omega) k v
  rw [h1] at g1
  cases g1
  rw [hk] at h1
  have hlen1 : t1.len = t.len + 1 := by
    rw [g2.len, hi.len]; exact upsert_new_length hk
  obtain ⟨b1, b2, b3⟩ := InsertCrash.bare w' h2 h1 hleaf ht
  have hi' := b1.inv g2 b2
  have hlen := hi.len
  obtain ⟨u, n', r1, r2, r3⟩ := run_withLen (by omega) (by omega) hi' cs hc (by dsimp only; omega)
    (n := t.len) (.inr ⟨by dsimp only; omega, he⟩)
  rw [show ({ t' with len := t1.len } : Tree K V A).withLen t.len = t' by rw [← b3]; rfl] at r1
  refine ⟨_, r1, ?_⟩
  have hul := r2.len
  rw [hx] at r2 hul
  rcases r2.remove (by omega) x with ⟨u', q1, -⟩ | ⟨q, -⟩
  · have hz : n' = 0 := by
      dsimp only at r3
      simp only [List.length_cons, List.length_nil] at hul
      omega
    subst hz
    rw [show lookup x [(x, w)] = some w by simp [lookup]] at q1
    exact remove_withLen_zero q1
  · omega

/-- If the removal neither moves an item between nodes nor merges nodes, then after a panic in `from_leaf`,
`from_inner` or a destructor every later history of insertions, removals, `get`, `get_mut` and cursor calls
gives the answers it would have given after the completed removal; `len` is right or stays one too large.

Partial: removals that repair a node are excluded (see `C62_rotation_refuted`), so are the calls that read
`len` (see C65). -/
theorem C66_remove_partial [LinearOrder K] [Augmentation K V A] {t : Tree K V A} (h : ReachableEven t)
    {l : List (K × V)} (hl : Shows t l) (early : Bool) (k : K) {o : Option V} {t1 : Tree K V A}
    (h1 : t.remove k = .ok (o, t1)) (hst : t1.st = t.st)
    (cb : Callback) (t' : Tree K V A) (ht : RemoveCrash t early k cb t')
    (cs : List (Call K V)) (hc : ∀ c ∈ cs, c.plain) (hn : l.length + cs.length < 2 ^ 64) :
    ∃ u, t'.run cs = .ok ((Spec.run (erase k l) cs).1, u) ∧ Shows u (Spec.run (erase k l) cs).2 ∧
      u.len + (erase k l).length = t'.len + (Spec.run (erase k l) cs).2.length ∧
      (t'.len = (erase k l).length ∨ t'.len = l.length) := by
  obtain ⟨H, g, w, h2, -⟩ := h.wf
  obtain ⟨l', hi⟩ := h.inv
  obtain rfl := content_unique hi.shows hl
  rcases hi.remove (by omega) k with ⟨t2, g1, g2, -⟩ | ⟨-, g1⟩
  · rw [h1] at g1
    cases g1
    obtain ⟨b1, b2, b3⟩ := RemoveCrash.bare w h2 h1 hst ht
    have hi' := b1.inv g2 b2
    have hlen := hi.len
    have hlen1 := g2.len
    have hle : (erase k l').length ≤ l'.length := List.length_filter_le _ _
    have hor : t'.len = (erase k l').length ∨ t'.len = l'.length := by
      rcases b3 with rfl | b3
      · exact .inl hlen1
      · exact .inr (b3.trans hlen)
    obtain ⟨u, n', r1, r2, r3⟩ := run_withLen (by omega) (by omega) hi' cs hc (by dsimp only; omega)
      (n := t'.len) (.inl (by dsimp only; omega))
    rw [show ({ t' with len := t1.len } : Tree K V A).withLen t'.len = t' from rfl] at r1
    refine ⟨_, r1, ?_, ?_, hor⟩
    · exact Bare.shows (t := u) (t' := u.withLen n') (Bare.refl : Bare u.store u.store) rfl r2.shows
    · have := r2.len
      dsimp only at r3
      show n' + _ = _
      omega
  · rw [h1] at g1; cases g1

/-! ## All calls, on a map with a wrong length -/

/-- After a panic in `from_leaf`, `from_inner` or a destructor during an insertion that splits no leaf, every
later history of calls gives the answers of the completed insertion kept with the old length in the length
field (`Spec.runLen`): until the map is cleared `len` is the old length counted up and down, `first`, `last`
and iterators find the map empty if that is 0, and a forward iteration stops after that many items.
Where that specification has no answer the history ends in a panic or in undefined behaviour.

Partial: insertions that split a leaf are excluded (see `C62_split_refuted`). -/
theorem C66_insert_len_partial [LinearOrder K] [Augmentation K V A] {t : Tree K V A} (h : ReachableEven t)
    {l : List (K × V)} (hl : Shows t l) (early : Bool) (k : K) (v : V)
    {o : Option V} {t1 : Tree K V A} (h1 : t.insert k v = .ok (o, t1))
    (hleaf : t1.store.leaves.length = t.store.leaves.length)
    (cb : Callback) (t' : Tree K V A) (ht : InsertCrash t early k v cb t')
    (cs : List (Call K V)) (hn : l.length + 1 + cs.length < 2 ^ 64) :
    (∀ as l' n', Spec.runLen (upsert k v l) l.length cs = some (as, l', n') →
      ∃ u, t'.run cs = .ok (as, u) ∧ Shows u l' ∧ u.len = n') ∧
    (Spec.runLen (upsert k v l) l.length cs = none → ∃ f, t'.run cs = .error f) := by
  obtain ⟨H, g, w, h2, -⟩ := h.wf
  obtain ⟨l0, hi⟩ := h.inv
  obtain rfl := content_unique hi.shows hl
  obtain ⟨t2, g1, g2, -⟩ := hi.insert (by omega) (by rw [hi.len]; omega) k v
  rw [h1] at g1
  cases g1
  obtain ⟨b1, b2, b3⟩ := InsertCrash.bare w h2 h1 hleaf ht
  have hi' := b1.inv g2 b2
  have hlen := hi.len
  have hlen1 : t1.len ≤ l0.length + 1 := by
    rw [g2.len]; exact call_length l0 (.insert k v)
  have et : ({ t' with len := t1.len } : Tree K V A).withLen l0.length = t' := by rw [← hlen, ← b3]; rfl
  refine ⟨fun as l' n' hs => ?_, fun hs => ?_⟩
  swap
  · have := runLen_fault (by omega) (by omega) hi' cs (by dsimp only; omega) hs
    rwa [et] at this
  obtain ⟨u, r1, r2⟩ := runLen_ok (by omega) (by omega) hi' cs (by dsimp only; omega) hs
  rw [et] at r1
  exact ⟨_, r1, Bare.shows (t := u) (t' := u.withLen n') (Bare.refl : Bare u.store u.store) rfl r2.shows, rfl⟩

/-- The same for a removal that neither moves an item between nodes nor merges nodes: the answers are those
of the completed removal, kept with the right length or the old one in the length field.

Partial: removals that repair a node are excluded (see `C62_rotation_refuted`). -/
theorem C66_remove_len_partial [LinearOrder K] [Augmentation K V A] {t : Tree K V A} (h : ReachableEven t)
    {l : List (K × V)} (hl : Shows t l) (early : Bool) (k : K) {o : Option V} {t1 : Tree K V A}
    (h1 : t.remove k = .ok (o, t1)) (hst : t1.st = t.st)
    (cb : Callback) (t' : Tree K V A) (ht : RemoveCrash t early k cb t') :
    ∃ n, (n = (erase k l).length ∨ n = l.length) ∧
      ∀ (cs : List (Call K V)), l.length + cs.length < 2 ^ 64 →
        (∀ as l' n', Spec.runLen (erase k l) n cs = some (as, l', n') →
          ∃ u, t'.run cs = .ok (as, u) ∧ Shows u l' ∧ u.len = n') ∧
        (Spec.runLen (erase k l) n cs = none → ∃ f, t'.run cs = .error f) := by
  obtain ⟨H, g, w, h2, -⟩ := h.wf
  obtain ⟨l0, hi⟩ := h.inv
  obtain rfl := content_unique hi.shows hl
  rcases hi.remove (by omega) k with ⟨t2, g1, g2, -⟩ | ⟨-, g1⟩
  · rw [h1] at g1
    cases g1
    obtain ⟨b1, b2, b3⟩ := RemoveCrash.bare w h2 h1 hst ht
    have hi' := b1.inv g2 b2
    have hlen := hi.len
    have hlen1 := g2.len
    have hle : (erase k l0).length ≤ l0.length := List.length_filter_le _ _
    refine ⟨t'.len, ?_, ?_⟩
    · rcases b3 with rfl | b3
      · exact .inl hlen1
      · exact .inr (b3.trans hlen)
    · intro cs hn
      refine ⟨fun as l' n' hs => ?_, fun hs => runLen_fault (by omega) (by omega) hi' cs (by dsimp only; omega) hs⟩
      obtain ⟨u, r1, r2⟩ := runLen_ok (by omega) (by omega) hi' cs (by dsimp only; omega) hs
      exact ⟨_, r1, Bare.shows (t := u) (t' := u.withLen n') (Bare.refl : Bare u.store u.store) rfl r2.shows, rfl⟩
  · rw [h1] at g1; cases g1

/-- If the summary code panics while an item is inserted into an empty map, removing that item panics,
although no user code panics any more. -/
theorem C66_empty_refuted : ∃ (cb : Callback) (t' : Tree Nat Nat Count) (w : Nat) (u : Tree Nat Nat Count),
    InsertCrash (Tree.new : Tree Nat Nat Count) false 1 2 cb t' ∧ t'.get 1 = .ok (some w, u) ∧
    t'.remove 1 = .error .panic := by
  let tr := ((Tree.new : Tree Nat Nat Count).ucallT ((Call.insert 1 2).answers false) (.insert 1 2)).trace
  have h : tr.any (fun e => e.1.isFromLeaf && (match e.2.get 1 with | .ok (some _, _) => true | _ => false) &&
      (match e.2.remove 1 with | .error .panic => true | _ => false)) = true := by decide +kernel
  obtain ⟨⟨cb, t'⟩, h1, h2⟩ := List.any_eq_true.1 h
  simp only [Bool.and_eq_true] at h2
  obtain ⟨⟨h2, h3⟩, h4⟩ := h2
  split at h3
  · next w u e =>
    split at h4
    · next e' => exact ⟨cb, t', w, u, .inl ⟨h1, .inl h2⟩, e, e'⟩
    · cases h4
  · cases h3

/-! ## The hypotheses are met -/

example (cb : Callback) (t' : Tree Nat Nat Count)
    (ht : (cb, t') ∈ (demo.ucallT ((Call.insert 1000 7).answers false) (.insert 1000 7)).trace)
    (hc : cb = .compare) :
    ∃ u, t'.run [.len, .insert 3 9, .first, .remove 3] =
      .ok ((Spec.run demoContent [.len, .insert 3 9, .first, .remove 3]).1, u) :=
  let ⟨u, h, _⟩ := C66_comparison demo_reach.mut.even demo_shows false (.insert 1000 7) cb t' ht (.inl hc)
    [.len, .insert 3 9, .first, .remove 3] (by decide +kernel)
  ⟨u, h⟩

example (cb : Callback) (t' : Tree Nat Nat Count) (ht : InsertCrash demo false 50 7 cb t') :
    ∃ u, t'.run [.len, .iter 4, .remove 50, .last, .clear, .isEmpty] =
      .ok ((Spec.run (upsert 50 7 demoContent) [.len, .iter 4, .remove 50, .last, .clear, .isEmpty]).1, u) :=
  let ⟨u, h, _⟩ := C66_update demo_reach.mut.even demo_shows false 50 7 (by decide +kernel) cb t' ht
    [.len, .iter 4, .remove 50, .last, .clear, .isEmpty] (by decide +kernel)
  ⟨u, h⟩
example : (demo.insertD ((Call.insert 50 7).answers false) 50 7).trace.map (·.1) =
    [.dropKey, .dropAug, .dropAug] := by decide +kernel

/-- Sixty later insertions and thirty removals. -/
def laterCalls : List (Call Nat Nat) :=
  (List.range 60).map (fun i => .insert (2 * i + 1) i) ++ (List.range 30).map (fun i => .remove (3 * i))

example (cb : Callback) (t' : Tree Nat Nat Count) (ht : InsertCrash demo false 1000 7 cb t') :
    ∃ u, t'.run laterCalls = .ok ((Spec.run (upsert 1000 7 demoContent) laterCalls).1, u) := by
  obtain ⟨o, t1, h1, -⟩ := C02_insert demo_reach.mut.bulk (by decide +kernel : demo.len + 1 < 2 ^ 64) 1000 7
  obtain ⟨u, h, -⟩ := C66_insert_partial demo_reach.mut.even demo_shows false 1000 7 (by decide +kernel) h1
    (by
      have : (demo.insert 1000 7).map (fun p => p.2.store.leaves.length) = .ok demo.store.leaves.length := by
        decide +kernel
      rw [h1] at this
      exact Except.ok.inj this) cb t' ht laterCalls
    (by
      intro c hc
      simp only [laterCalls, List.mem_append, List.mem_map] at hc
      rcases hc with ⟨i, -, rfl⟩ | ⟨i, -, rfl⟩ <;> trivial)
    (by decide +kernel)
    (by
      intro p hp
      rw [List.prefix_iff_eq_take] at hp
      have key : ∀ i ≤ 90, (Spec.run (upsert 1000 7 demoContent) (laterCalls.take i)).2.length ≠ 0 := by
        decide +kernel
      have hl : p.length ≤ 90 := by
        rw [hp, List.length_take]; have : laterCalls.length = 90 := by decide +kernel
        omega
      have := key _ hl
      rw [← hp] at this
      intro e; rw [e] at this; exact this rfl)
  exact ⟨u, h⟩

example (cb : Callback) (t' : Tree Nat Nat Count)
    (ht : InsertCrash (Tree.new : Tree Nat Nat Count) false 5 7 cb t') :
    ∃ u, t'.run [.insert 6 8, .remove 5] = .ok ([.value none, .value (some 7)], u) ∧ u.remove 6 = .error .panic := by
  have hr : Reachable (Tree.new : Tree Nat Nat Count) := .start rfl (by decide +kernel)
  obtain ⟨o, t1, h1, -⟩ := C02_insert hr.bulk
    (by decide +kernel : (Tree.new : Tree Nat Nat Count).len + 1 < 2 ^ 64) 5 7
  exact C66_insert_last hr.even (Inv.new (μ := 1)).shows false 5 7 rfl h1
    (by
      have : ((Tree.new : Tree Nat Nat Count).insert 5 7).map (fun p => p.2.store.leaves.length) =
          .ok (Tree.new : Tree Nat Nat Count).store.leaves.length := by decide +kernel
      rw [h1] at this
      exact Except.ok.inj this) cb t' ht [.insert 6 8, .remove 5]
    (by intro c hc; simp at hc; rcases hc with rfl | rfl <;> trivial) (by decide +kernel)
    (by
      intro p hp
      have : p ∈ [.insert 6 8, .remove 5].inits := (List.mem_inits _ _).2 hp
      simp at this
      rcases this with rfl | rfl | rfl <;> decide +kernel)
    (x := 6) (w := 8) (by decide +kernel)

example (cb : Callback) (t' : Tree Nat Nat Count) (ht : RemoveCrash demo false 50 cb t') :
    ∃ u, t'.run laterCalls = .ok ((Spec.run (erase 50 demoContent) laterCalls).1, u) := by
  obtain ⟨o, t1, h1, -⟩ := C03_remove demo_reach.mut.even 50
  obtain ⟨u, h, -⟩ := C66_remove_partial demo_reach.mut.even demo_shows false 50 h1
    (by
      have : (demo.remove 50).map (fun p => decide (p.2.st = demo.st)) = .ok true := by decide +kernel
      rw [h1] at this
      exact of_decide_eq_true (Except.ok.inj this)) cb t' ht laterCalls
    (by
      intro c hc
      simp only [laterCalls, List.mem_append, List.mem_map] at hc
      rcases hc with ⟨i, -, rfl⟩ | ⟨i, -, rfl⟩ <;> trivial)
    (by decide +kernel)
  exact ⟨u, h⟩

/-- The new key 1000 is found, but `len` is 100, `last` shows it, an iteration of 102 steps misses it, and after
`clear` all is well again. -/
example (cb : Callback) (t' : Tree Nat Nat Count) (ht : InsertCrash demo false 1000 7 cb t') :
    ∃ u es, t'.run [.get 1000, .len, .last, .iter 102, .iterBack 1, .clear, .insert 1 2, .len] =
      .ok ([.value (some 7), .number 100, .entry (some (1000, 7)), .entries es, .entries [some (1000, 7)],
        .done, .value none, .number 1], u) ∧ es[100]? = some none := by
  obtain ⟨o, t1, h1, -⟩ := C02_insert demo_reach.mut.bulk (by decide +kernel : demo.len + 1 < 2 ^ 64) 1000 7
  have key : ((Spec.runLen (upsert 1000 7 demoContent) demoContent.length
      [.get 1000, .len, .last, .iter 102, .iterBack 1, .clear, .insert 1 2, .len]).map (fun r =>
        decide (r.1 = [.value (some 7), .number 100, .entry (some (1000, 7)),
          .entries ((demoContent.map some) ++ [none, none]), .entries [some (1000, 7)],
          .done, .value none, .number 1]))) = some true := by decide +kernel
  cases hs : Spec.runLen (upsert 1000 7 demoContent) demoContent.length
      [.get 1000, .len, .last, .iter 102, .iterBack 1, .clear, .insert 1 2, .len] with
  | none => rw [hs] at key; cases key
  | some r =>
    obtain ⟨as, l', n'⟩ := r
    rw [hs] at key
    have has := of_decide_eq_true (Option.some.inj key)
    obtain ⟨hh, -⟩ := C66_insert_len_partial demo_reach.mut.even demo_shows false 1000 7 h1
      (by
        have : (demo.insert 1000 7).map (fun p => p.2.store.leaves.length) = .ok demo.store.leaves.length := by
          decide +kernel
        rw [h1] at this
        exact Except.ok.inj this) cb t' ht
      [.get 1000, .len, .last, .iter 102, .iterBack 1, .clear, .insert 1 2, .len] (by decide +kernel)
    obtain ⟨u, h, -⟩ := hh _ _ _ hs
    exact ⟨u, _, by rw [h]; exact congrArg (fun z => Except.ok (z, u)) has, by decide +kernel⟩

example (cb : Callback) (t' : Tree Nat Nat Count) (ht : RemoveCrash demo false 50 cb t') :
    ∃ u, t'.run [.get 50, .first, .clear, .len] =
      .ok ([.value none, .entry demoContent.head?, .done, .number 0], u) := by
  obtain ⟨o, t1, h1, -⟩ := C03_remove demo_reach.mut.even 50
  obtain ⟨n, hn, h⟩ := C66_remove_len_partial demo_reach.mut.even demo_shows false 50 h1
    (by
      have : (demo.remove 50).map (fun p => decide (p.2.st = demo.st)) = .ok true := by decide +kernel
      rw [h1] at this
      exact of_decide_eq_true (Except.ok.inj this)) cb t' ht
  have e1 : (erase 50 demoContent).length = 99 := by decide +kernel
  have e2 : demoContent.length = 100 := by decide +kernel
  have hn' : n = 99 ∨ n = 100 := by omega
  have key : ∀ n, n = 99 ∨ n = 100 → Spec.runLen (erase 50 demoContent) n [.get 50, .first, .clear, .len] =
      some ([.value none, .entry demoContent.head?, .done, .number 0], [], 0) := by
    rintro n (rfl | rfl) <;> decide +kernel
  obtain ⟨u, r, -⟩ := (h [.get 50, .first, .clear, .len] (by rw [e2]; decide)).1 _ _ _ (key n hn')
  exact ⟨u, r⟩

/-- A destructor panics while the value of 50 is replaced, and then a comparison while 51 is removed. -/
example : ∃ t : Tree Nat Nat Count, Battered t ∧ ∃ w u, t.get 50 = .ok (some w, u) ∧ w = 7 ∧ ∃ w' u', t.get 51 = .ok (some w', u') := by
  let tr1 := (demo.insertD ((Call.insert 50 7).answers false) 50 7).trace
  have h : tr1.any (fun e => (e.2.ucallT ((Call.remove (V := Nat) 51).answers false) .remove).trace.any (fun e' =>
      decide (e'.1 = .compare) && (match e'.2.get 50 with | .ok (some w, _) => decide (w = 7) | _ => false) &&
      (match e'.2.get 51 with | .ok (some _, _) => true | _ => false))) = true := by decide +kernel
  obtain ⟨⟨cb, t1⟩, h1, h2⟩ := List.any_eq_true.1 h
  obtain ⟨⟨cb', t2⟩, h3, h4⟩ := List.any_eq_true.1 h2
  simp only [Bool.and_eq_true, decide_eq_true_eq] at h4
  obtain ⟨⟨rfl, h5⟩, h6⟩ := h4
  have hg : ∃ w u, demo.get 50 = .ok (some w, u) := by
    obtain ⟨u, hu⟩ := demo_shows.2 50
    cases hk : lookup 50 demoContent with
    | none =>
      have : (lookup 50 demoContent).isSome = true := by decide +kernel
      rw [hk] at this; cases this
    | some w => exact ⟨w, u, by rw [hu, hk]⟩
  obtain ⟨w, u, hg⟩ := hg
  refine ⟨t2, .comparison (c := .remove 51) (.update (.start demo_reach.mut.even) (by decide +kernel) hg (.inr h1))
    h3 (.inl rfl), ?_⟩
  split at h5
  · next w u e =>
    split at h6
    · next w' u' e' => exact ⟨w, u, e, of_decide_eq_true h5, w', u', e'⟩
    · cases h6
  · cases h5

end Bpt
