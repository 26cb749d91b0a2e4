import Verif.Proofs.RawHistory
import Verif.Props.Map
import Verif.Props.OrderStatistics
import Verif.Props.BulkLoaded

/-!
# C43, C44: the tree on raw node arrays

In this model (`Model/Slots.lean`, `Model/RawTree.lean`, `RawRemove.lean`, `RawCursor.lean`) a node is
what it is in memory: fixed arrays whose slots are initialised or not, and a size. Reading or moving
out of a slot that is not initialised, or leaving an array, is the error `.ub`; the calls below are
those of `Verif/History.lean`, compared with the same sorted association list.
-/

namespace Bpt
namespace Raw
open Spec
variable {K V A : Type} [LinearOrder K] [Augmentation K V A]

/-! ## C43 -/

/-- **C43.** From an empty tree, every finite history of calls runs on the raw arrays without a fault,
and is answered, call by call, as by a sorted association list; the final content is that of the list. -/
theorem C43_history (cs : List (Call K V)) (hn : cs.length < 2 ^ 64) :
    ∃ u : Tree K V A, (Tree.new : Tree K V A).run cs = .ok ((Spec.run [] cs).1, u) ∧
      Shows u (Spec.run [] cs).2 := by
  obtain ⟨t, h1, h2⟩ := C01_history_refines (A := A) cs hn
  obtain ⟨⟨_, u⟩, h3, rfl, h4⟩ := run_sim cs (TreeRep.new (A := A)) _ h1
  exact ⟨u, h3, shows_of_rep h4 h2⟩

/-- **C43.** On every reachable tree, each call returns what the list returns, and what is then
observed is the new list. -/
theorem C43_call {u : Tree K V A} (h : Reachable u) {l : List (K × V)} (hl : Shows u l) (c : Call K V)
    (hn : u.len + 1 < 2 ^ 64) :
    ∃ u', u.call c = .ok ((Spec.call l c).1, u') ∧ Shows u' (Spec.call l c).2 := by
  obtain ⟨t, hr, ht⟩ := reachable_rep h
  obtain ⟨l', hi⟩ := hr.inv
  cases shows_unique hl (shows_of_rep ht hi.shows)
  rw [ht.len] at hn
  rcases call_ok (by omega) hi hn c with ⟨t', h1, h2⟩ | ⟨h0, _⟩
  · obtain ⟨⟨_, u'⟩, h3, rfl, h4⟩ := call_sim ht c _ h1
    exact ⟨u', h3, shows_of_rep h4 h2.shows⟩
  · omega

/-- **C43.** On every reachable tree no call faults: no access outside an array or to a slot that is
not initialised, no panic, no endless loop. -/
theorem C43_no_fault {u : Tree K V A} (h : Reachable u) :
    (∀ c : Call K V, u.len + 1 < 2 ^ 64 → ∃ a u', u.call c = .ok (a, u')) ∧
    (∀ ds, ∃ it as, u.iter = .ok it ∧ it.runCalls u ds = .ok as) ∧
    (∀ (Q : Type) [SearchAugmentation K V A Q] (q : Q), SearchInRange K V A →
      (∃ o, u.getByAugmentation q = .ok o) ∧
      (∃ o u', u.removeByAugmentation q = .ok (o, u')) ∧
      (∀ f, ∃ o u', u.getMutByAugmentation q f = .ok (o, u'))) ∧
    (∀ (R : Type) [RankAugmentation K V A R] (k : K), ∃ r, u.rankByAugmentation k = .ok r) ∧
    (∀ (σ R : Type) (v : Visitor K V A σ R) (st : σ),
      (∀ st ks as i, (v.visitInner st ks as).1 = .goDown i → i ≤ ks.length) →
      ∃ r, u.descendVisit v st = .ok r) := by
  obtain ⟨t, hr, ht⟩ := reachable_rep h
  obtain ⟨h1, h2, _, _, h5, h6, h7⟩ := C12_no_failure hr
  refine ⟨?_, ?_, ?_, ?_, ?_⟩
  · intro c hn
    rw [ht.len] at hn
    obtain ⟨a, t', h, _⟩ := h1 c hn
    obtain ⟨⟨_, u'⟩, h3, rfl, _⟩ := call_sim ht c _ h
    exact ⟨_, u', h3⟩
  · intro ds
    obtain ⟨it, as, h3, h4⟩ := h2 ds
    obtain ⟨it', h5, h6⟩ := iter_sim ht _ h3
    exact ⟨it', as, h5, (iterRunCalls_sim ht ds h6).eq h4⟩
  · intro Q _ q hq
    obtain ⟨⟨o, h3⟩, ⟨o', t', h4, _⟩, h8⟩ := h5 Q q hq
    refine ⟨⟨o, (getByAugmentation_sim ht q).eq h3⟩, ?_, ?_⟩
    · obtain ⟨⟨_, u'⟩, h, _⟩ := removeByAugmentation_sim ht q _ h4
      exact ⟨_, u', h⟩
    · intro f
      obtain ⟨o'', t'', h9, _⟩ := h8 f
      obtain ⟨⟨_, u'⟩, h, _⟩ := getMutByAugmentation_sim ht q f _ h9
      exact ⟨_, u', h⟩
  · intro R _ k
    obtain ⟨r, h3⟩ := h6 R k
    exact ⟨r, (rankByAugmentation_sim ht k).eq h3⟩
  · intro σ R v st hv
    obtain ⟨r, h3⟩ := h7 σ R v st hv
    exact ⟨r, (descendVisit_sim ht v st).eq h3⟩

/-- **C43.** Consuming a reachable tree: the owning iterator answers any calls like a double-ended
queue with the content; dropping it then destroys exactly what is left. When its node store is freed
afterwards, no slot of any leaf is initialised any more (everything was moved out, nothing is lost),
and every inner node destroys its keys and augmentations without touching an uninitialised slot. -/
theorem C43_into_iter {u : Tree K V A} (h : Reachable u) {l : List (K × V)} (hl : Shows u l)
    (ds : List Dir) :
    ∃ it it' it'', u.intoIter = .ok it ∧ it.runCalls ds = .ok ((pulls l ds).1, it') ∧
      it'.drop = .ok ((pulls l ds).2, it'') ∧ it''.store.LeavesEmpty ∧
      ∀ n, some n ∈ it''.store.inners → ∃ ks as, n.drop = .ok (ks, as) := by
  obtain ⟨t, hr, ht⟩ := reachable_rep h
  obtain ⟨l', hi⟩ := hr.inv
  cases shows_unique hl (shows_of_rep ht hi.shows)
  obtain ⟨it, it', h1, _, h2, h3⟩ := C08_into_iter hr.bulk hi.shows ds
  obtain ⟨r, g1, g2⟩ := intoIter_sim ht _ h1
  obtain ⟨⟨_, r'⟩, g3, rfl, g4⟩ := into_runCalls_sim ds g2 _ h2
  obtain ⟨⟨_, r''⟩, g5, rfl, g6⟩ := into_drop_sim g4 _ h3
  have hc : Counted r := by
    have hu : r.store = u.store ∧ r.len = u.len := by
      unfold Tree.intoIter at g1
      cases e1 : u.firstLeaf with
      | error _ => rw [e1] at g1; cases g1
      | ok a =>
        rw [e1, ok_bind] at g1
        cases e2 : u.lastLeaf with
        | error _ => rw [e2] at g1; cases g1
        | ok b =>
          rw [e2, ok_bind] at g1
          cases e3 : u.store.getLeaf b with
          | error _ => rw [e3] at g1; cases g1
          | ok b => rw [e3, ok_bind] at g1; cases g1; exact ⟨rfl, rfl⟩
    have hlen : u.len = l.length := by rw [ht.len, hi.len]
    have hs := inits_rep ht.store
    have hx := items_sum hr.bulk hi.shows
    exact ⟨by rw [hu.1, hu.2, hlen]; exact hs.1.trans hx, by rw [hu.1, hu.2, hlen]; exact hs.2.trans hx⟩
  refine ⟨r, r', r'', g1, g3, g5, (counted_dropAux _ (counted_runCalls ds hc g3) g5).empty g6, ?_⟩
  intro n hn
  rw [dropAux_inners _ g5, runCalls_inners ds g3] at hn
  have hu : r.store.inners = u.store.inners := by
    unfold Tree.intoIter at g1
    cases e1 : u.firstLeaf with
    | error _ => rw [e1] at g1; cases g1
    | ok a =>
      rw [e1, ok_bind] at g1
      cases e2 : u.lastLeaf with
      | error _ => rw [e2] at g1; cases g1
      | ok b =>
        rw [e2, ok_bind] at g1
        cases e3 : u.store.getLeaf b with
        | error _ => rw [e3] at g1; cases g1
        | ok b => rw [e3, ok_bind] at g1; cases g1; rfl
  rw [hu] at hn
  obtain ⟨i, hi', he⟩ := List.mem_iff_getElem.1 hn
  have := forall₂_get ht.store.inners i
  rw [List.getElem?_eq_getElem hi', he] at this
  cases hx : t.store.inners[i]? with
  | none => rw [hx] at this; cases this
  | some o =>
    rw [hx] at this
    cases this with
    | some hr => cases hr with
      | some hr => exact ⟨_, _, InnerS.C36_inner_drop_partial hr.holds⟩

/-- **C43.** Dropping a reachable tree destroys every item exactly once, in key order, and leaves no
slot of any leaf initialised. -/
theorem C43_drop {u : Tree K V A} (h : Reachable u) {l : List (K × V)} (hl : Shows u l) :
    ∃ it, u.drop = .ok (l, it) ∧ it.store.LeavesEmpty := by
  obtain ⟨it, it', it'', h1, h2, h3, h4, _⟩ := C43_into_iter h hl []
  cases h2
  refine ⟨it'', ?_, h4⟩
  unfold Tree.drop
  rw [h1, ok_bind]
  exact h3

/-- **C43.** Order statistics on the raw arrays: selection by position and rank. -/
theorem C43_select_rank {u : Tree K V Count} (h : Reachable u) {l : List (K × V)} (hl : Shows u l) :
    u.rootAug.count = l.length ∧ (∀ i : Nat, u.getByAugmentation i = .ok l[i]?) ∧
    (∀ k : K, u.rankByAugmentation k = .ok (
      if k ∈ l.map (·.1) then .ok (l.filter (fun e => e.1 < k)).length
      else .error (l.filter (fun e => e.1 < k)).length)) ∧
    ∀ i : Nat, ∃ u', u.removeByAugmentation i = .ok (l[i]?, u') ∧ Shows u' (l.eraseIdx i) := by
  obtain ⟨t, hr, ht⟩ := reachable_rep h
  obtain ⟨l', hi⟩ := hr.inv
  cases shows_unique hl (shows_of_rep ht hi.shows)
  obtain ⟨h1, h2, h3⟩ := C20_count_select hr.bulk hi.shows
  refine ⟨by rw [ht.rootAug, h1, h2], fun i => (getByAugmentation_sim ht i).eq (h3 i),
    fun k => (rankByAugmentation_sim ht k).eq (C21_rank hr.bulk hi.shows k), fun i => ?_⟩
  obtain ⟨t', h4, h5, _⟩ := C22_remove_by_index hr hi.shows i
  obtain ⟨⟨_, u'⟩, h6, rfl, h7⟩ := removeByAugmentation_sim ht i _ h4
  exact ⟨u', h6, shows_of_rep h7 h5⟩

/-- **C43.** Bulk loading sorted data on the raw arrays never faults and gives the same tree to any
call other than a removal as inserting the data one by one; a removal does so whenever it does not
panic (C19). -/
theorem C43_bulk_load (data : List (K × V)) (hd : data.Pairwise (fun a b => a.1 ≤ b.1))
    (hn : data.length < 2 ^ 64 - 1) :
    ∃ u : Tree K V A, Tree.bulkLoad data = .ok u ∧ Shows u (insertAll [] data) ∧
      (∀ c : Call K V, (∀ k, c ≠ .remove k) →
        (u.call c).map (·.1) = .ok (Spec.call (insertAll [] data) c).1) ∧
      (EvenlyGrouped (leavesFor (insertAll [] data).length) →
        ∀ cs : List (Call K V), data.length + cs.length < 2 ^ 64 →
        ∃ u', u.run cs = .ok ((Spec.run (insertAll [] data) cs).1, u') ∧
          Shows u' (Spec.run (insertAll [] data) cs).2) := by
  obtain ⟨t, h1, h2, h3⟩ := C18_bulk_load (A := A) data hd hn
  obtain ⟨u, g1, g2⟩ := bulkLoad_sim data _ h1
  refine ⟨u, g1, shows_of_rep g2 h2, ?_, ?_⟩
  · intro c hc
    have := h3 c hc
    cases hx : t.call c with
    | error _ => rw [hx] at this; cases this
    | ok y =>
      rw [hx] at this
      obtain ⟨y', g3, g4, _⟩ := call_sim g2 c _ hx
      rw [g3, ← this]
      show Except.ok y'.1 = Except.ok y.1
      rw [g4]
  · intro he cs hl
    obtain ⟨t', t'', h4, h5, h6⟩ := C19_after_bulk_load_partial (A := A) data hd he cs hl
    rw [h1] at h4
    cases h4
    obtain ⟨⟨_, u'⟩, g3, rfl, g4⟩ := run_sim cs g2 _ h5
    exact ⟨u', g3, shows_of_rep g4 h6⟩

/-! ## C44 -/

/-- **C44.** Cloning a reachable tree never faults; the copy is reachable, shows the same content and
has the same length and the same root augmentation. From then on original and copy are two independent
maps: a history `cs` on the one and a history `cs'` on the other are each answered as by a sorted map
that starts with the common content. (Both are values of the model, so a call on one takes and returns
that one only; the copy shares no node with the original.) -/
theorem C44_clone {u : Tree K V A} (h : Reachable u) {l : List (K × V)} (hl : Shows u l) :
    ∃ u', u.clone = .ok u' ∧ Reachable u' ∧ Shows u' l ∧ u'.len = u.len ∧ u'.rootAug = u.rootAug ∧
      ∀ cs cs' : List (Call K V), u.len + cs.length < 2 ^ 64 → u.len + cs'.length < 2 ^ 64 →
        ∃ v v', u.run cs = .ok ((Spec.run l cs).1, v) ∧ u'.run cs' = .ok ((Spec.run l cs').1, v') ∧
          Shows v (Spec.run l cs).2 ∧ Shows v' (Spec.run l cs').2 := by
  obtain ⟨t, hr, ht⟩ := reachable_rep h
  obtain ⟨l', hi⟩ := hr.inv
  cases shows_unique hl (shows_of_rep ht hi.shows)
  obtain ⟨u', h1, h2⟩ := clone_rep ht
  refine ⟨u', h1, .clone h h1, shows_of_rep h2 hi.shows, by rw [h2.len, ht.len],
    by rw [h2.rootAug, ht.rootAug], ?_⟩
  intro cs cs' hn hn'
  rw [ht.len] at hn hn'
  obtain ⟨t', h3, h4⟩ := run_ok (μ := 1) (by omega) (by omega) hi cs (by have := hi.len; omega)
  obtain ⟨t'', h3', h4'⟩ := run_ok (μ := 1) (by omega) (by omega) hi cs' (by have := hi.len; omega)
  obtain ⟨⟨_, v⟩, h5, rfl, h6⟩ := run_sim cs ht _ h3
  obtain ⟨⟨_, v'⟩, h7, rfl, h8⟩ := run_sim cs' h2 _ h3'
  exact ⟨v, v', h5, h7, shows_of_rep h6 h4.shows, shows_of_rep h8 h4'.shows⟩

/-! ## A concrete tree -/

/-- The tree of 100 insertions of `Props/Demo.lean` on raw arrays, with 60 of its keys removed again. -/
def demoCalls : List (Call Nat Nat) :=
  demoItems.map (fun e => Call.insert e.1 e.2) ++ (List.range 60).map (fun i => Call.remove (i + 20))

theorem reach_run {u u' : Tree K V A} {as} (cs : List (Call K V)) (h : Reachable u)
    (hn : u.len + cs.length < 2 ^ 64) (hc : u.run cs = .ok (as, u')) : Reachable u' := by
  induction cs generalizing u as with
  | nil => cases hc; exact h
  | cons c cs ih =>
    rw [List.length_cons] at hn
    obtain ⟨t, hr, ht⟩ := reachable_rep h
    obtain ⟨l, hi⟩ := hr.inv
    have hl := shows_of_rep ht hi.shows
    obtain ⟨u1, h1, h2⟩ := C43_call h hl c (by omega)
    rw [Tree.run, h1, ok_bind] at hc
    dsimp only at hc
    have h1r : Reachable u1 := reach_call h (by omega) h1
    have hlen : u1.len ≤ u.len + 1 := by
      obtain ⟨t1, hr1, ht1⟩ := reachable_rep h1r
      obtain ⟨l1, hi1⟩ := hr1.inv
      cases shows_unique h2 (shows_of_rep ht1 hi1.shows)
      rw [ht1.len, hi1.len, ht.len, hi.len]
      exact call_length l c
    cases hx : u1.run cs with
    | error _ => rw [hx] at hc; cases hc
    | ok y =>
      rw [hx, ok_bind] at hc
      cases hc
      exact ih h1r (by omega) hx

/-- The tree obtained by the calls. -/
def demoRaw : Tree Nat Nat Count :=
  match (Tree.new : Tree Nat Nat Count).run demoCalls with
  | .ok (_, t) => t
  | .error _ => Tree.new

theorem demoRaw_reach : Reachable demoRaw ∧ Shows demoRaw (Spec.run [] demoCalls).2 := by
  have hl : demoCalls.length < 2 ^ 64 := by
    simp only [demoCalls, demoItems, List.length_append, List.length_map, List.length_range]; omega
  obtain ⟨u, h1, h2⟩ := C43_history (A := Count) demoCalls hl
  have : demoRaw = u := by unfold demoRaw; rw [h1]
  rw [this]
  exact ⟨reach_run demoCalls .new (by rw [show (Tree.new : Tree Nat Nat Count).len = 0 from rfl, Nat.zero_add]; exact hl) h1, h2⟩

/-- After 160 calls 40 items are left, on several leaves under inner nodes. -/
example : demoRaw.len = 40 ∧ 0 < demoRaw.store.inners.length ∧ 1 < demoRaw.store.leaves.length := by
  decide +kernel

example : ∃ it it' it'', demoRaw.intoIter = .ok it ∧
    it.runCalls [.front, .back] = .ok ((pulls (Spec.run [] demoCalls).2 [.front, .back]).1, it') ∧
    it'.drop = .ok ((pulls (Spec.run [] demoCalls).2 [.front, .back]).2, it'') ∧
    it''.store.LeavesEmpty ∧
    ∀ n, some n ∈ it''.store.inners → ∃ ks as, n.drop = .ok (ks, as) :=
  C43_into_iter demoRaw_reach.1 demoRaw_reach.2 _

/-- The history is answered as expected. -/
example : ((Tree.new : Tree Nat Nat Unit).run
    [.insert 3 30, .insert 1 10, .insert 3 31, .get 3, .getMut 1 (· + 5), .remove 3, .remove 3, .first,
      .insert 9 90, .last, .len, .isEmpty, .iter 3, .iterBack 2, .cursorNext ⟨1, 7, 7⟩]).toOption.map (·.1)
    = some [.value none, .value none, .value (some 30), .value (some 31), .value (some 10),
      .value (some 31), .value none, .entry (some (1, 15)), .value none, .entry (some (9, 90)),
      .number 2, .flag false, .entries [some (1, 15), some (9, 90), none],
      .entries [some (9, 90), some (1, 15)], .entry (some (9, 90))] := by decide +kernel

example := C43_history (A := Count) demoCalls (by decide +kernel)
example := C43_call demoRaw_reach.1 demoRaw_reach.2 (.remove 45) (by decide +kernel)
example := C43_no_fault demoRaw_reach.1
example := C43_drop demoRaw_reach.1 demoRaw_reach.2
example := C43_select_rank demoRaw_reach.1 demoRaw_reach.2
example := C43_bulk_load (A := Count) ((List.range 500).map (fun i => (i, i)))
  (by rw [List.pairwise_map]; exact List.pairwise_lt_range.imp (fun h => h.le)) (by decide +kernel)
example := C44_clone demoRaw_reach.1 demoRaw_reach.2

/-- A loaded tree. -/
theorem demoRawLoaded : ∃ u : Tree Nat Nat Count, Tree.bulkLoad demoBulkItems = .ok u ∧ Reachable u ∧
    Shows u demoBulkItems := by
  obtain ⟨u, h1, h2⟩ := bulkLoad_sim demoBulkItems _ demoBulk_load.1
  refine ⟨u, h1, .load (demoBulkItems_sorted.imp (fun h => h.le)) ?_ h1 ?_, shows_of_rep h2 demoBulk_load.2.shows⟩
  · rw [insertAll_of_sorted demoBulkItems_sorted]; exact evenlyGrouped_small (by decide +kernel)
  · rw [h2.len]; exact demoBulk_load.2.lt

example : ∃ u : Tree Nat Nat Count, Tree.bulkLoad demoBulkItems = .ok u ∧
    ∃ it, u.drop = .ok (demoBulkItems, it) ∧ it.store.LeavesEmpty := by
  obtain ⟨u, h1, h2, h3⟩ := demoRawLoaded
  exact ⟨u, h1, C43_drop h2 h3⟩

end Raw
end Bpt
