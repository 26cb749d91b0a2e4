import Verif.Proofs.AfterIter
import Verif.Props.DropAfter

/-!
# C65: iterators, `first` and `last` after a caught panic of user code

`ucallT` lists the summary code and the comparisons an insertion or a removal calls, `insertD` and
`removeD` the destructors, each with the map as it is in memory at that moment: the map a caller sees who
catches the panic. `Iter.runCalls` is a schedule of `next` and `next_back` calls on `iter()`.
-/

namespace Bpt
variable {K V A : Type}

/-- `first`, `last` and `iter` run without a fault on the map, and give only items of `l`. -/
def IteratesIn (t : Tree K V A) (l : List (K × V)) : Prop :=
  (∃ r, t.first = .ok r ∧ ∀ x, r = some x → x ∈ l) ∧ (∃ r, t.last = .ok r ∧ ∀ x, r = some x → x ∈ l) ∧
  ∃ it, t.iter = .ok it ∧ ∀ ds : List Dir, ∃ as, it.runCalls t ds = .ok as ∧
    ∀ a ∈ as, ∀ x, a.1 = some x → x ∈ l

/-- Iterating forwards gives the items `l`, in order, and then `None` forever. -/
def Yields (t : Tree K V A) (l : List (K × V)) : Prop :=
  ∃ it, t.iter = .ok it ∧ ∀ m, ∃ as, it.runCalls t (List.replicate m .front) = .ok as ∧
    as.map (·.1) = (l.map some ++ List.replicate m none).take m

theorem Holding.iterates {t : Tree K V A} {l : List (K × V)} {n : Nat} (h : Holding (· ∈ l) n t) (hn : n ≠ 0) :
    IteratesIn t l := by
  have w := h.walk hn
  obtain ⟨it, h1, h2, -⟩ := w.iter
  by_cases h0 : t.len = 0
  · obtain ⟨e1, e2⟩ := first_empty h0
    exact ⟨⟨none, e1, by simp⟩, ⟨none, e2, by simp⟩, it, h1, fun ds => w.runCalls ds h2⟩
  · obtain ⟨x, e1, e2⟩ := w.first_ok h0
    obtain ⟨y, e3, e4⟩ := w.last_ok h0
    exact ⟨⟨_, e1, by rintro _ ⟨⟩; exact e2⟩, ⟨_, e3, by rintro _ ⟨⟩; exact e4⟩, it, h1, fun ds => w.runCalls ds h2⟩

/-- After `from_leaf`, `from_inner` or a destructor panicked inside an insertion, with any history and any
comparisons: the insertion would have given a map with the items `l1`; `first`, `last` and any schedule of
calls on an iterator run without a fault and give only items of `l1`; iterating forwards gives the items of
`l1` in order, where the last one is missing if the insertion was to add a new item; and `first` gives the
first of these. -/
theorem C65_insert [Augmentation K V A] {t0 : Tree K V A} {l0 : List (K × V)}
    (h0 : Fresh t0 l0) (cs : List (Answers K × UCall K V)) (o : Answers K)
    (k : K) (v : V) (hn : l0.length + cs.length + 1 < 2 ^ 64) :
    ∃ as t l, t0.urun cs = .ok (as, t) ∧ Contents t l ∧
      ∃ a t1 l1, t.ucall o (.insert k v) = .ok (a, t1) ∧ Contents t1 l1 ∧
        Effect (.insert k v) a l l1 ∧
        ∀ cb t', ((cb, t') ∈ (t.ucallT o (.insert k v)).trace ∧ (cb.isFromLeaf ∨ cb.isFromInner) ∨
            (cb, t') ∈ (t.insertD o k v).trace) →
          IteratesIn t' l1 ∧ Yields t' (l1.take l.length) ∧ t'.first = .ok (l1.take l.length).head? := by
  obtain ⟨as, t, l, h1, h2, h3⟩ := urun_ok h0.inv cs (by rw [h0.inv.len]; omega)
  have hlen := h3.length_le
  have hlt : t.len + 1 < 2 ^ 64 := by rw [h2.len]; simp only [List.length_map] at hlen; omega
  obtain ⟨r, t1, l1, e1, e2, e3, e4⟩ := insertT_holding h2 hlt o k v
  obtain ⟨r', t1', l1', d1, d2, d3, d4⟩ := insertD_crash h2 hlt o k v
  rw [e1] at d1
  cases d1
  obtain rfl : l1 = l1' := by
    have := e2.contents.drop.symm.trans d2.contents.drop
    cases this; rfl
  refine ⟨as, t, l, h1, h2.contents, .value r, t1, l1, ?_, e2.contents, e3, fun cb t' ht => ?_⟩
  · simp only [Tree.ucall, e1, ok_bind, pure_ok]
  · have hpos : l1.length ≠ 0 := by cases e3 <;> simp
    have key : t'.drop = .ok (l1.take l.length) ∧ Holding (· ∈ l1) l1.length t' := by
      rcases ht with ⟨ht, hc⟩ | ht
      · have : (t.ucallT o (.insert k v)).All (fun c t' => c.isFromLeaf ∨ c.isFromInner →
            t'.drop = .ok (l1.take l.length) ∧ Holding (· ∈ l1) l1.length t') :=
          Traced.all_bind e4 fun _ _ => Traced.all_pure
        exact this cb t' ht hc
      · exact d4 cb t' ht
    have w := key.2.walk hpos
    exact ⟨key.2.iterates hpos, w.forward key.1, w.first_of_drop key.1⟩

/-- After `K::clone`, `from_leaf`, `from_inner` or a destructor panicked inside a removal from a map with at
least two items, with any history and any comparisons: the removal is complete, or `first`, `last` and any
schedule of calls on an iterator run without a fault and give only items the map had before.

Partial: not covered are `from_leaf` and the destructor of an augmentation called while two leaves are
merged (the calls made with the statistics showing a leaf merge and with the root still unchanged), and maps
with one item, for which see `C65_single` and `C65_first_refuted`. -/
theorem C65_remove_partial [Augmentation K V A] {t0 : Tree K V A} {l0 : List (K × V)}
    (h0 : Fresh t0 l0) (cs : List (Answers K × UCall K V)) (o : Answers K)
    (hn : l0.length + cs.length + 1 < 2 ^ 64) :
    ∃ as t l, t0.urun cs = .ok (as, t) ∧ Contents t l ∧
      ∃ a t1 l1, t.ucall o .remove = .ok (a, t1) ∧ Contents t1 l1 ∧ Effect .remove a l l1 ∧
        ∀ cb t', 2 ≤ l.length →
          ((cb, t') ∈ (t.ucallT o .remove).trace ∧ cb ≠ .compare ∧
              (cb.isFromLeaf → (t'.st.mergeWithLeftLeaf = t.st.mergeWithLeftLeaf ∧
                t'.st.mergeWithRightLeaf = t.st.mergeWithRightLeaf) ∨ t'.root ≠ t.root) ∨
            (cb, t') ∈ (t.removeD o).trace ∧ (cb = .dropKey ∨
              (t'.st.mergeWithLeftLeaf = t.st.mergeWithLeftLeaf ∧
                t'.st.mergeWithRightLeaf = t.st.mergeWithRightLeaf) ∨ t'.root ≠ t.root)) →
          t' = t1 ∨ IteratesIn t' l := by
  obtain ⟨as, t, l, h1, h2, h3⟩ := urun_ok h0.inv cs (by rw [h0.inv.len]; omega)
  obtain ⟨a, t1, l1, e1, e2, e3⟩ := ucall_ok h2 (by
    have := h3.length_le
    simp only [List.length_map] at this
    rw [h2.len]; omega) o .remove
  refine ⟨as, t, l, h1, h2.contents, a, t1, l1, e1, e2.contents, e3, fun cb t' hl hc => ?_⟩
  rcases hc with ⟨ht, hc1, hc2⟩ | ⟨ht, hc⟩
  · refine .inr ?_
    have hall : (t.ucallT o .remove).All (fun cb m => cb ≠ .compare →
        (cb.isFromLeaf → m.st.leafMerges = t.st.leafMerges ∨ m.root ≠ t.root) →
        ∃ n, Holding (· ∈ l) n m ∧ n + 1 = m.len) :=
      Traced.all_bind (removeT_holding (by omega) h2 o) fun _ _ => Traced.all_pure
    have hlen : (t.ucallT o .remove).All (fun _ m => m.len = t.len) :=
      Traced.all_bind (removeT_len o t) fun _ _ => Traced.all_pure
    obtain ⟨n, k1, k2⟩ := hall cb t' ht hc1 fun h => (hc2 h).imp (fun h => by simp [Statistic.leafMerges, h]) id
    have := hlen cb t' ht
    have := h2.len
    exact k1.iterates (by omega)
  · rcases removeD_points (by omega) h2 o cb t' ht with ⟨-, r, hr⟩ | ⟨-, hk⟩
    · refine .inl ?_
      simp only [Tree.ucall, hr, ok_bind, pure_ok] at e1
      exact (Prod.mk.inj (Except.ok.inj e1)).2
    · obtain ⟨-, n, k1, k2⟩ := hk (hc.imp id (Or.imp (fun h => by simp [Statistic.leafMerges, h]) id))
      rcases removeD_len o t cb t' ht with hlen | ⟨r, hr⟩
      · have := h2.len
        exact .inr (k1.iterates (by omega))
      · refine .inl ?_
        simp only [Tree.ucall, hr, ok_bind, pure_ok] at e1
        exact (Prod.mk.inj (Except.ok.inj e1)).2

/-- The removal of the only item of a map, with any history and any comparisons. Whichever summary code or
destructor panics before the removal is complete, `len` of the map left behind is still 1, but its only leaf
is empty: `first` and the first `next` of an iterator read a slot that holds no item, which is undefined
behaviour, and `last` overflows in `len - 1`. -/
theorem C65_single [Augmentation K V A] {t0 : Tree K V A} {l0 : List (K × V)}
    (h0 : Fresh t0 l0) (cs : List (Answers K × UCall K V)) (o : Answers K)
    (hn : l0.length + cs.length + 1 < 2 ^ 64) :
    ∃ as t l, t0.urun cs = .ok (as, t) ∧ Contents t l ∧
      ∃ a t1 l1, t.ucall o .remove = .ok (a, t1) ∧ Contents t1 l1 ∧ Effect .remove a l l1 ∧
        ∀ cb t', l.length = 1 →
          ((cb, t') ∈ (t.ucallT o .remove).trace ∧ cb ≠ .compare ∨ (cb, t') ∈ (t.removeD o).trace) →
          t' = t1 ∨ t'.len = 1 ∧ t'.first = .error .ub ∧ t'.last = .error .panic ∧
            ∃ it, t'.iter = .ok it ∧ ∀ ds, it.runCalls t' (.front :: ds) = .error .ub := by
  obtain ⟨as, t, l, h1, h2, h3⟩ := urun_ok h0.inv cs (by rw [h0.inv.len]; omega)
  obtain ⟨a, t1, l1, e1, e2, e3⟩ := ucall_ok h2 (by
    have := h3.length_le
    simp only [List.length_map] at this
    rw [h2.len]; omega) o .remove
  refine ⟨as, t, l, h1, h2.contents, a, t1, l1, e1, e2.contents, e3, fun cb t' hl hc => ?_⟩
  have hone : t.len = 1 := by rw [h2.len, hl]
  obtain ⟨i, hroot⟩ := h2.root_leaf (by omega)
  rcases hc with ⟨ht, hc1⟩ | ht
  · refine .inr ?_
    have hall : (t.ucallT o .remove).All (fun cb m => cb ≠ .compare →
        (cb.isFromLeaf → m.st.leafMerges = t.st.leafMerges ∨ m.root ≠ t.root) →
        ∃ n, Holding (· ∈ l) n m ∧ n + 1 = m.len) :=
      Traced.all_bind (removeT_holding (by omega) h2 o) fun _ _ => Traced.all_pure
    have hlen : (t.ucallT o .remove).All (fun _ m => m.len = t.len) :=
      Traced.all_bind (removeT_len o t) fun _ _ => Traced.all_pure
    have hst : (t.ucallT o .remove).All (fun _ m => m.st = t.st) :=
      Traced.all_bind (removeT_leaf_st o t hroot) fun _ _ => Traced.all_pure
    obtain ⟨n, k1, k2⟩ := hall cb t' ht hc1 fun _ => .inl (by rw [hst cb t' ht])
    have k3 := hlen cb t' ht
    obtain rfl : n = 0 := by omega
    exact ⟨by omega, k1.emptied (by omega)⟩
  · rcases removeD_points (by omega) h2 o cb t' ht with ⟨-, r, hr⟩ | ⟨-, hk⟩
    · refine .inl ?_
      simp only [Tree.ucall, hr, ok_bind, pure_ok] at e1
      exact (Prod.mk.inj (Except.ok.inj e1)).2
    · rcases removeD_len o t cb t' ht with hlen | ⟨r, hr⟩
      · rcases removeD_leaf_st o t hroot cb t' ht with hst | ⟨r, hr⟩
        · obtain ⟨-, n, k1, k2⟩ := hk (.inr (.inl (by rw [hst])))
          obtain rfl : n = 0 := by omega
          exact .inr ⟨by omega, k1.emptied (by omega)⟩
        · refine .inl ?_
          simp only [Tree.ucall, hr, ok_bind, pure_ok] at e1
          exact (Prod.mk.inj (Except.ok.inj e1)).2
      · refine .inl ?_
        simp only [Tree.ucall, hr, ok_bind, pure_ok] at e1
        exact (Prod.mk.inj (Except.ok.inj e1)).2

/-! ## Undefined behaviour in `first` -/

/-- Is there a crash point of the removal of `k`, after `cs`, after which `first` is undefined behaviour? -/
def firstFaults (cs : List (Call Nat Nat))
    (f : Tree Nat Nat Count → List (Callback × Tree Nat Nat Count)) : Bool :=
  match (Tree.new : Tree Nat Nat Count).run cs with
  | .ok (_, t) => (f t).any (fun e => match e.2.first with | .error .ub => true | _ => false)
  | .error _ => false

theorem firstFaults_spec {cs : List (Call Nat Nat)}
    {f : Tree Nat Nat Count → List (Callback × Tree Nat Nat Count)} (h : firstFaults cs f = true) :
    ∃ as t cb t', (Tree.new : Tree Nat Nat Count).run cs = .ok (as, t) ∧ (cb, t') ∈ f t ∧
      t'.first = .error .ub := by
  unfold firstFaults at h
  split at h
  · next as t e =>
    obtain ⟨⟨cb, t'⟩, h1, h3⟩ := List.any_eq_true.1 h
    split at h3
    · next e2 => exact ⟨as, t, cb, t', e, h1, e2⟩
    · cases h3
  · cases h

/-- If `from_leaf` panics while the only item of a map is removed, `first` on the map left behind is
undefined behaviour. -/
theorem C65_first_refuted : ∃ (cs : List (Call Nat Nat)) (k : Nat) (as : _) (t : _) (cb : Callback) (t' : _),
    (Tree.new : Tree Nat Nat Count).run cs = .ok (as, t) ∧
    (cb, t') ∈ (t.ucallT ((Call.remove (V := Nat) k).answers false) .remove).trace ∧
    t'.first = .error .ub := by
  obtain ⟨as, t, cb, t', h⟩ := firstFaults_spec (cs := [.insert 7 7])
    (f := fun t => (t.ucallT ((Call.remove (V := Nat) 7).answers false) .remove).trace) (by decide +kernel)
  exact ⟨[.insert 7 7], 7, as, t, cb, t', h⟩

/-- The same for the destructor of the old root augmentation. -/
theorem C65_first_destructor_refuted :
    ∃ (cs : List (Call Nat Nat)) (k : Nat) (as : _) (t : _) (cb : Callback) (t' : _),
    (Tree.new : Tree Nat Nat Count).run cs = .ok (as, t) ∧
    (cb, t') ∈ (t.removeD ((Call.remove (V := Nat) k).answers false)).trace ∧
    t'.first = .error .ub := by
  obtain ⟨as, t, cb, t', h⟩ := firstFaults_spec (cs := [.insert 7 7])
    (f := fun t => (t.removeD ((Call.remove (V := Nat) 7).answers false)).trace) (by decide +kernel)
  exact ⟨[.insert 7 7], 7, as, t, cb, t', h⟩

/-! ## Instances -/

/-- At each crash point after `cs`: the keys that `first`, `last` and the calls `ds` on an iterator give. -/
def afterCrash (cs : List (Call Nat Nat)) (f : Tree Nat Nat Count → List (Callback × Tree Nat Nat Count))
    (ds : List Dir) : List (Option (Option Nat) × Option (Option Nat) × List (Option Nat)) :=
  match (Tree.new : Tree Nat Nat Count).run cs with
  | .ok (_, t) => (f t).map (fun e =>
      ((match e.2.first with | .ok r => some (r.map (·.1)) | .error _ => none),
       (match e.2.last with | .ok r => some (r.map (·.1)) | .error _ => none),
       match e.2.iter with
       | .ok it => (match it.runCalls e.2 ds with | .ok as => as.map (·.1.map (·.1)) | .error _ => [])
       | .error _ => []))
  | .error _ => []

/-- An insertion that replaces a value, and one that adds a third item: the destructor of the old root
augmentation panics. The iterator stops before the last item in the second case. -/
example : afterCrash [.insert 1 1, .insert 2 2]
    (fun t => (t.insertD ((Call.insert 2 5).answers false) 2 5).trace) [.front, .front, .front] =
    [(some (some 1), some (some 2), [some 1, some 2, none]), (some (some 1), some (some 2), [some 1, some 2, none])] := by
  decide +kernel
example : afterCrash [.insert 1 1, .insert 2 2]
    (fun t => (t.insertD ((Call.insert 3 5).answers false) 3 5).trace) [.front, .front, .front, .back] =
    [(some (some 1), some (some 3), [some 1, some 2, none, none])] := by
  decide +kernel

/-- A removal from a map with two leaves that takes an item from the neighbour: after the comparisons, four
pieces of user code are called. -/
example : (afterCrash ((List.range 65).map (fun i => .insert i i) ++ (List.range 16).map (fun i => .remove i))
    (fun t => (t.ucallT ((Call.remove (V := Nat) 20).answers false) .remove).trace) [.front, .back, .back]).drop 1 =
    List.replicate 4 (some (some 16), some (some 64), [some 16, some 64, some 63]) := by
  decide +kernel

/-- The removal of the only item: after a panic of `from_leaf`, neither `first` nor `last` nor `next` runs. -/
example : (afterCrash [.insert 7 7]
    (fun t => (t.ucallT ((Call.remove (V := Nat) 7).answers false) .remove).trace) [.front]).drop 1 =
    [(none, none, [])] := by
  decide +kernel

end Bpt
