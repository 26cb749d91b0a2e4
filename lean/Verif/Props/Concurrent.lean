import Verif.Model.Concurrent
import Verif.Props.Demo

/-!
# C13: the leaf cache never affects results
-/

namespace Bpt
open Spec
variable {K V A : Type} [LinearOrder K] [Augmentation K V A]

/-- Whatever the cache holds, any sequence of calls returns what the specification says. -/
theorem C13_cache_irrelevant {t : Tree K V A} (h : ReachableEven t) {l : List (K × V)} (hl : Shows t l)
    (c : Option Nat) (cs : List (Call K V)) (hn : l.length + cs.length < 2 ^ 64) :
    ∃ t', ({ t with store := { t.store with cached := c } } : Tree K V A).run cs =
      .ok ((Spec.run l cs).1, t') := by
  obtain ⟨H, g, w, h2, _⟩ := h.wf
  have hi : Inv 1 t g.toL := ⟨H, g, w, rfl, h2⟩
  cases hi.unique hl
  have hi' : Inv 1 { t with store := { t.store with cached := c } } g.toL :=
    ⟨H, g, w.cached c, rfl, h2⟩
  obtain ⟨t', h1, _⟩ := run_ok (by omega) (by omega) hi' cs (by rw [hi'.len]; exact hn)
  exact ⟨t', h1⟩

/-- The state of one reader that had to make the calls `cs`, on a map with content `l`. -/
def ReaderOk (t : Tree K V A) (l : List (K × V)) (cs : List (Call K V)) (r : Reader K V) : Prop :=
  (∃ n, r.todo = cs.drop n ∧ r.answers = (cs.take n).map (fun c => .ok (Spec.call l c).1)) ∧
  ∀ k i, r.pending = some (k, i) → (∃ cs', r.todo = .get k :: cs') ∧
    findInLeaf t.store i k = .ok (lookup k l)

omit [Augmentation K V A] in
theorem ReaderOk.finish {t : Tree K V A} {l : List (K × V)} {cs cs' : List (Call K V)}
    {c : Call K V} {r : Reader K V} (h : ReaderOk t l cs r) (ht : r.todo = c :: cs') :
    ReaderOk t l cs (r.finish (.ok (Spec.call l c).1)) := by
  obtain ⟨⟨n, h1, h2⟩, _⟩ := h
  refine ⟨⟨n + 1, ?_, ?_⟩, by simp [Reader.finish]⟩
  · simp [Reader.finish, h1]
  · have hc : cs[n]? = some c := by
      have := congrArg List.head? (h1.symm.trans ht)
      simpa using this
    rw [List.take_add_one, hc]
    simp [Reader.finish, h2]

theorem ReaderOk.load {t : Tree K V A} {l : List (K × V)} {cs : List (Call K V)}
    {r : Reader K V} (hi : Inv 0 t l) (hn : t.len + 1 < 2 ^ 64) (hs : ∀ c ∈ cs, c.shared)
    (h : ReaderOk t l cs r) (hp : r.pending = none) (c : Option Nat) :
    ReaderOk t l cs (r.load t c) := by
  obtain ⟨L, rd, e⟩ := hi.reads
  unfold Reader.load
  split
  · exact h
  · rename_i k cs' ht
    obtain ⟨o, ho, hh⟩ := rd.flat.tryCacheAt c k
    rw [ho]
    cases o with
    | some i =>
      obtain ⟨LA, x, LB, hc, rfl⟩ := hh i rfl
      simp only [findInLeaf_ok rd.flat hc, ok_bind, e]
      exact h.finish ht
    | none =>
      obtain ⟨LA, x, LB, hc, hf⟩ := rd.find k
      simp only [hf]
      refine ⟨h.1, ?_⟩
      intro k' i hki
      cases hki
      exact ⟨⟨cs', ht⟩, e ▸ findInLeaf_ok rd.flat hc⟩
  · rename_i call cs' hne ht
    have hm : call ∈ cs := by
      obtain ⟨n, h1, _⟩ := h.1
      have : call ∈ cs.drop n := by rw [← h1, ht]; exact List.mem_cons_self
      exact List.mem_of_mem_drop this
    obtain ⟨H, g, w, eg, hlt⟩ := hi
    have hi' : Inv 0 { t with store := { t.store with cached := c } } l :=
      ⟨H, g, w.cached c, eg, hlt⟩
    rcases call_ok (by omega) hi' hn call with ⟨t', h1, _⟩ | ⟨_, k, hk, _⟩
    · rw [h1]
      exact h.finish ht
    · have := hs call hm
      rw [hk] at this
      cases this

/-- Every reader of the system is fine. -/
def SysOk (t : Tree K V A) (l : List (K × V)) (css : List (List (Call K V))) (s : Sys K V) : Prop :=
  s.readers.length = css.length ∧
  ∀ (i : Nat) cs r, css[i]? = some cs → s.readers[i]? = some r → ReaderOk t l cs r

omit [Augmentation K V A] in
theorem SysOk.set {t : Tree K V A} {l : List (K × V)} {css : List (List (Call K V))} {s : Sys K V}
    (h : SysOk t l css s) {i : Nat} {r' : Reader K V} {hist}
    (hr : ∀ cs, css[i]? = some cs → ReaderOk t l cs r') :
    SysOk t l css { hist, readers := s.readers.set i r' } := by
  refine ⟨by simpa using h.1, ?_⟩
  intro j cs r hj hr'
  simp only [List.getElem?_set] at hr'
  split at hr'
  · rename_i e
    subst e
    split at hr'
    · cases hr'; exact hr cs hj
    · cases hr'
  · exact h.2 j cs r hj hr'

theorem Steps.ok {t : Tree K V A} {l : List (K × V)} (hi : Inv 0 t l) (hn : t.len + 1 < 2 ^ 64)
    {css : List (List (Call K V))} (hs : ∀ cs ∈ css, ∀ c ∈ cs, c.shared) {hist n} {s : Sys K V}
    (h : Steps t n (Sys.start hist css) s) : SysOk t l css s := by
  generalize e : Sys.start hist css = s0 at h
  induction h with
  | refl =>
    subst e
    refine ⟨by simp [Sys.start], ?_⟩
    intro i cs r h1 h2
    simp only [Sys.start, List.getElem?_map, h1, Option.map_some, Option.some.injEq] at h2
    subst h2
    exact ⟨⟨0, by simp, by simp⟩, by simp⟩
  | step _ st ih =>
    have ih := ih e
    cases st with
    | load hr hp ht hc =>
      refine ih.set ?_
      intro cs hcs
      exact (ih.2 _ cs _ hcs hr).load hi hn (hs cs (List.mem_of_getElem? hcs)) hp _
    | store hr hp =>
      refine ih.set ?_
      intro cs hcs
      have hk := ih.2 _ cs _ hcs hr
      obtain ⟨⟨cs', h1⟩, h2⟩ := hk.2 _ _ hp
      rw [h2]
      exact hk.finish h1

/-- Any number of concurrent readers, each with any list of `&self` calls, under every interleaving
of their atomic loads and stores of the cache, starting from any cache content: at every moment, the
answers a reader has received are the answers the specification gives to the calls it has completed,
in order. In particular no call fails. -/
theorem C13_concurrent_readers {t : Tree K V A} (h : ReachableBulk t) {l : List (K × V)}
    (hl : Shows t l) (hn : l.length + 1 < 2 ^ 64) {css : List (List (Call K V))}
    (hs : ∀ cs ∈ css, ∀ c ∈ cs, c.shared) {hist : List (Option Nat)} {n : Nat} {s : Sys K V}
    (he : Steps t n (Sys.start hist css) s) {i : Nat} {cs : List (Call K V)} {r : Reader K V}
    (hcs : css[i]? = some cs) (hr : s.readers[i]? = some r) :
    ∃ m, r.todo = cs.drop m ∧ r.answers = (cs.take m).map (fun c => .ok (Spec.call l c).1) := by
  obtain ⟨H, g, w, h2, _⟩ := h.wf
  have hi : Inv 0 t g.toL := ⟨H, g, w, rfl, h2⟩
  cases hi.unique hl
  exact ((he.ok hi (by rw [hi.len]; exact hn) hs).2 i cs r hcs hr).1

/-- Steps a reader may still take. -/
def Reader.fuel (r : Reader K V) : Nat := 2 * r.todo.length - (if r.pending.isSome then 1 else 0)

omit [LinearOrder K] [Augmentation K V A] in
theorem sum_set (f : Reader K V → Nat) {rs : List (Reader K V)} {i : Nat} {r r' : Reader K V}
    (hr : rs[i]? = some r) (h : f r' < f r) : ((rs.set i r').map f).sum < (rs.map f).sum := by
  induction rs generalizing i with
  | nil => simp at hr
  | cons x rs ih =>
    cases i with
    | zero =>
      simp only [List.getElem?_cons_zero, Option.some.injEq] at hr
      subst hr
      simp only [List.set_cons_zero, List.map_cons, List.sum_cons]
      omega
    | succ i =>
      have := ih (i := i) (by simpa using hr)
      simp only [List.set_cons_succ, List.map_cons, List.sum_cons]
      omega

theorem Step.fuel {t : Tree K V A} {l : List (K × V)} {css : List (List (Call K V))}
    {s s' : Sys K V} (ho : SysOk t l css s) (h : Step t s s') :
    (s'.readers.map Reader.fuel).sum < (s.readers.map Reader.fuel).sum := by
  cases h with
  | load hr hp ht hc =>
    refine sum_set _ hr ?_
    rename_i i r c
    obtain ⟨call, cs', e⟩ := List.exists_cons_of_ne_nil ht
    have fin : ∀ a, (r.finish a).fuel < r.fuel := by
      intro a
      simp only [Reader.fuel, Reader.finish, hp, e, List.tail_cons, List.length_cons]
      simp only [Option.isSome_none, Bool.false_eq_true, if_false]
      omega
    unfold Reader.load
    split
    · rename_i e'; rw [e] at e'; cases e'
    · split
      · exact fin _
      · exact fin _
      · split
        · exact fin _
        · simp only [Reader.fuel, hp, e, List.length_cons, Option.isSome_some, Option.isSome_none,
            Bool.false_eq_true, if_false, if_true]
          omega
    · exact fin _
  | store hr hp =>
    refine sum_set _ hr ?_
    rename_i i r k leafId
    have hlt : i < css.length := by
      have := (List.getElem?_eq_some_iff.1 hr).1
      rw [← ho.1]; exact this
    obtain ⟨⟨cs', h1⟩, _⟩ := (ho.2 i css[i] r (by simp [hlt]) hr).2 _ _ hp
    simp only [Reader.fuel, Reader.finish, hp, h1, List.tail_cons, List.length_cons,
      Option.isSome_some, Option.isSome_none, Bool.false_eq_true, if_false, if_true]
    omega

/-- Readers do not wait for one another: an execution never has more than two steps per call, and a
reader that has not finished can always take a step, whatever the others do. -/
theorem C13_wait_free {t : Tree K V A} (h : ReachableBulk t) (hn : t.len + 1 < 2 ^ 64)
    {css : List (List (Call K V))} (hs : ∀ cs ∈ css, ∀ c ∈ cs, c.shared)
    {hist : List (Option Nat)} (hh : hist ≠ []) {n : Nat} {s : Sys K V}
    (he : Steps t n (Sys.start hist css) s) :
    n ≤ 2 * (css.map List.length).sum ∧
    ∀ (i : Nat) (r : Reader K V), s.readers[i]? = some r → r.todo ≠ [] →
      ∃ s' r', Step t s s' ∧ s'.readers = s.readers.set i r' := by
  obtain ⟨H, g, w, h2, _⟩ := h.wf
  have hi : Inv 0 t g.toL := ⟨H, g, w, rfl, h2⟩
  constructor
  · have key : n + (s.readers.map Reader.fuel).sum ≤ 2 * (css.map List.length).sum := by
      generalize e : Sys.start hist css = s0 at he
      induction he with
      | refl =>
        subst e
        simp only [Sys.start]
        clear * -
        induction css with
        | nil => simp
        | cons cs css ih =>
          simp only [List.map_cons, List.sum_cons, Reader.fuel, Option.isSome_none,
            Bool.false_eq_true, if_false] at ih ⊢
          omega
      | step hsteps st ih =>
        have ih := ih e
        subst e
        have := st.fuel (hsteps.ok hi hn hs)
        omega
    omega
  · intro i r hr ht
    have hne : s.hist ≠ [] := by
      generalize e : Sys.start hist css = s0 at he
      induction he with
      | refl => subst e; exact hh
      | step _ st ih =>
        cases st with
        | load _ _ _ hc => exact List.ne_nil_of_mem hc
        | store => simp
    cases hp : r.pending with
    | none =>
      obtain ⟨c, hist', e⟩ := List.exists_cons_of_ne_nil hne
      exact ⟨_, _, .load (c := c) hr hp ht (by rw [e]; exact List.mem_cons_self), rfl⟩
    | some p => exact ⟨_, _, .store (k := p.1) (leafId := p.2) hr hp, rfl⟩

/-- Two readers of `demo`. -/
def demoReaders : List (List (Call Nat Nat)) :=
  [[.get 30, .get 31], [.get 77, .cursorNext ⟨5, 0, 9⟩, .len]]

/-- An execution: both readers load a meaningless cache value and miss; both store the leaf they
found; the first reader then loads its own, already overwritten, value, and hits. -/
theorem demo_execution : Steps demo 5 (Sys.start [some 12345] demoReaders)
    ⟨[some 1, some 0, some 12345],
      [⟨[], none, [.ok (.value (some 90)), .ok (.value (some 33))]⟩,
       ⟨[.cursorNext ⟨5, 0, 9⟩, .len], none, [.ok (.value (some 11))]⟩]⟩ := by
  have c0 : demo.store.tryCacheAt (some 12345) 30 = .ok none := by decide +kernel
  have c1 : demo.store.tryCacheAt (some 12345) 77 = .ok none := by decide +kernel
  have c2 : demo.store.tryCacheAt (some 0) 31 = .ok (some 0) := by decide +kernel
  have d0 : findDescendLeaf demo.store demo.root 30 = .ok 0 := by decide +kernel
  have d1 : findDescendLeaf demo.store demo.root 77 = .ok 1 := by decide +kernel
  have f0 : findInLeaf demo.store 0 30 = .ok (some 90) := by decide +kernel
  have f1 : findInLeaf demo.store 1 77 = .ok (some 11) := by decide +kernel
  have f2 : findInLeaf demo.store 0 31 = .ok (some 33) := by decide +kernel
  have s1 : Steps demo 1 (Sys.start [some 12345] demoReaders) ⟨[some 12345],
      [⟨[.get 30, .get 31], some (30, 0), []⟩,
       ⟨[.get 77, .cursorNext ⟨5, 0, 9⟩, .len], none, []⟩]⟩ := by
    have := Steps.step (t := demo) (.refl (s := Sys.start [some 12345] demoReaders))
      (.load (i := 0) (c := some 12345) rfl rfl (by simp) (by simp [Sys.start]))
    simpa [Sys.start, demoReaders, Reader.load, c0, d0] using this
  have s2 : Steps demo 2 (Sys.start [some 12345] demoReaders) ⟨[some 12345],
      [⟨[.get 30, .get 31], some (30, 0), []⟩,
       ⟨[.get 77, .cursorNext ⟨5, 0, 9⟩, .len], some (77, 1), []⟩]⟩ := by
    have := Steps.step s1 (.load (i := 1) (c := some 12345) rfl rfl (by simp) (by simp))
    simpa [Reader.load, c1, d1] using this
  have s3 : Steps demo 3 (Sys.start [some 12345] demoReaders) ⟨[some 0, some 12345],
      [⟨[.get 31], none, [.ok (.value (some 90))]⟩,
       ⟨[.get 77, .cursorNext ⟨5, 0, 9⟩, .len], some (77, 1), []⟩]⟩ := by
    have := Steps.step s2 (.store (i := 0) (k := 30) (leafId := 0) rfl rfl)
    simpa [Reader.finish, f0] using this
  have s4 : Steps demo 4 (Sys.start [some 12345] demoReaders) ⟨[some 1, some 0, some 12345],
      [⟨[.get 31], none, [.ok (.value (some 90))]⟩,
       ⟨[.cursorNext ⟨5, 0, 9⟩, .len], none, [.ok (.value (some 11))]⟩]⟩ := by
    have := Steps.step s3 (.store (i := 1) (k := 77) (leafId := 1) rfl rfl)
    simpa [Reader.finish, f1] using this
  have := Steps.step s4 (.load (i := 0) (c := some 0) rfl rfl (by simp) (by simp))
  simpa [Reader.load, Reader.finish, c2, f2] using this

example : ∃ m, ([.cursorNext ⟨5, 0, 9⟩, .len] : List (Call Nat Nat)) =
      [Call.get 77, .cursorNext ⟨5, 0, 9⟩, .len].drop m ∧
    [(.ok (.value (some 11)) : Res (Answer Nat Nat))] =
      ([Call.get 77, .cursorNext ⟨5, 0, 9⟩, .len].take m).map
        (fun c => .ok (Spec.call demoContent c).1) :=
  C13_concurrent_readers (i := 1) demo_reach.mut.bulk demo_shows (by decide)
    (by simp [demoReaders, Call.shared]) demo_execution rfl rfl

example : ∃ s' r', Step demo ⟨[some 1, some 0, some 12345],
      [⟨[], none, [.ok (.value (some 90)), .ok (.value (some 33))]⟩,
       ⟨[.cursorNext ⟨5, 0, 9⟩, .len], none, [.ok (.value (some 11))]⟩]⟩ s' ∧
    s'.readers = [⟨[], none, [.ok (.value (some 90)), .ok (.value (some 33))]⟩,
       ⟨[.cursorNext ⟨5, 0, 9⟩, .len], none, [.ok (.value (some 11))]⟩].set 1 r' :=
  (C13_wait_free demo_reach.mut.bulk (by decide +kernel) (by simp [demoReaders, Call.shared])
    (by simp) demo_execution).2 1 _ rfl (by simp)

example : ∃ t', ({ demo with store := { demo.store with cached := some 7 } } : Tree Nat Nat Count).run
    [.get 30, .insert 200 1, .remove 31, .get 31] =
      .ok ([.value (some 90), .value none, .value (some 33), .value none], t') := by
  obtain ⟨t', h⟩ := C13_cache_irrelevant demo_reach.mut.even demo_shows (some 7)
    [.get 30, .insert 200 1, .remove 31, .get 31] (by decide)
  refine ⟨t', h.trans ?_⟩
  have : (Spec.run demoContent [.get 30, .insert 200 1, .remove 31, .get 31]).1 =
    [.value (some 90), .value none, .value (some 33), .value none] := by decide +kernel
  rw [this]

end Bpt
