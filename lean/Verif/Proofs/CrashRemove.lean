import Verif.Proofs.CrashInsert

/-!
# The memory in which user code runs during a removal

From the first write on, one item less is in the chain of leaves than `len` says, so dropping the map
runs off the end of the chain: a panic, not undefined behaviour, as long as the descents to the first
and last leaf stay within the live nodes.
-/

namespace Bpt
variable {K V A : Type}

/-! ## Dropping a map with too large a length -/

theorem Down.first {s : Store K V A} {h : Nat} {id : NodeId} (a : Down s h id) (fuel : Nat)
    (hf : h ≤ fuel) : ∃ i l, s.leaves[i]? = some (some l) ∧
      descend (β := Empty) s (fun st i n => do let r ← firstStep st i n; return .inr r) fuel () id
        = .ok (.inr ((), i)) := by
  induction h generalizing id fuel with
  | zero =>
    obtain ⟨i, l, rfl, h1⟩ := a
    exact ⟨i, l, h1, by cases fuel <;> rfl⟩
  | succ h ih =>
    obtain ⟨i, n, rfl, h1, h2, h3⟩ := a
    obtain ⟨fuel, rfl⟩ : ∃ m, fuel = m + 1 := ⟨fuel - 1, by omega⟩
    have hlt : 0 < n.childs.length := by omega
    obtain ⟨j, l, h4, h5⟩ := ih (h3 _ (List.getElem_mem hlt)) fuel (by omega)
    refine ⟨j, l, h4, ?_⟩
    rw [descend, Store.getInner, h1]
    simp only [ok_bind, firstStep, childId_of_mem (List.getElem?_eq_getElem hlt), pure_ok]
    exact h5

/-- The forward direction of the owning iterator reads its length only to compare it with 0. -/
theorem nextAux_len (n : Nat) (it : IntoIter K V A) (a b : Nat) {o : Option (K × V)}
    {it' : IntoIter K V A} (h : ({ it with len := a + 1 } : IntoIter K V A).nextAux n = .ok (o, it')) :
    ({ it with len := b + 1 } : IntoIter K V A).nextAux n = .ok (o, { it' with len := b }) ∧
      it'.len = a := by
  induction n generalizing it with
  | zero => cases h
  | succ n ih =>
    unfold IntoIter.nextAux at h ⊢
    simp only at h ⊢
    rw [if_neg (by omega)] at h ⊢
    cases hg : it.store.getLeaf it.pos.1 with
    | error e => rw [hg] at h; cases h
    | ok leaf =>
      rw [hg] at h
      simp only [ok_bind] at h ⊢
      by_cases h1 : it.pos.2 < leaf.len
      · rw [if_pos h1] at h ⊢
        simp only [IntoIter.takeData] at h ⊢
        cases hd : leaf.data[it.pos.2]? with
        | none => rw [hd] at h; cases h
        | some kv =>
          rw [hd] at h
          simp only at h ⊢
          split
          · next hm => rw [if_pos hm] at h; cases h
          · next hm =>
            rw [if_neg hm] at h
            have h := Prod.mk.inj (Except.ok.inj h)
            rw [← h.1, ← h.2]
            exact ⟨rfl, rfl⟩
      · rw [if_neg h1] at h ⊢
        cases hx : leaf.next with
        | none => rw [hx] at h; cases h
        | some j =>
          rw [hx] at h
          exact ih { it with pos := (j, 0) } h

/-- At the end of the chain the iterator panics if it still expects items. -/
theorem next_end {L : List (Nat × List (K × V))} {it : IntoIter K V A} (hf : Flat0 it.store L)
    (hp : At L it.pos.1 it.pos.2 (L.flatMap (·.2)).length) (hl : it.len ≠ 0) :
    it.next = .error .panic := by
  obtain ⟨LA, x, LB, hL, hx, hs, ha⟩ := hp
  have hLB : LB = [] := by
    by_contra hne
    obtain ⟨y, LB', rfl⟩ := List.exists_cons_of_ne_nil hne
    have hy : y.2 ≠ [] := hf.data_ne (LA := LA ++ [x]) (LB := LB') (by simp [hL]) (.inl (by simp))
    have := List.length_pos_of_ne_nil hy
    rw [hL] at ha
    simp only [List.flatMap_append, List.flatMap_cons, List.length_append] at ha
    omega
  subst hLB
  have he : it.pos.2 = x.2.length := by
    rw [hL] at ha
    simp only [List.flatMap_append, List.flatMap_cons, List.flatMap_nil, List.length_append,
      List.length_nil] at ha
    omega
  unfold IntoIter.next IntoIter.nextAux
  rw [if_neg hl]
  simp only [← hx, hf.get hL, ok_bind, Leaf.len]
  rw [if_neg (by omega)]
  rfl

theorem dropAux_short {L : List (Nat × List (K × V))} (n : Nat) {it : IntoIter K V A} {a : Nat}
    (h : II L it a (L.flatMap (·.2)).length) (len : Nat)
    (hlen : it.len < len) (hn : len ≤ n) :
    ({ it with len := len } : IntoIter K V A).dropAux n = .error .panic := by
  induction n generalizing it a len with
  | zero => omega
  | succ n ih =>
    have hle := h.le
    have hl := h.len
    obtain ⟨b, rfl⟩ : ∃ b, len = b + 1 := ⟨len - 1, by omega⟩
    unfold IntoIter.dropAux
    by_cases hab : a < (L.flatMap (·.2)).length
    · obtain ⟨it1, h1, h2⟩ := into_next_ok h hab
      obtain ⟨a', ha'⟩ : ∃ a', it.len = a' + 1 := ⟨it.len - 1, by omega⟩
      have h1' : ({ it with len := a' + 1 } : IntoIter K V A).nextAux (it.store.leaves.length + 1)
          = .ok ((L.flatMap (·.2))[a]?, it1) := by
        rw [← ha']; exact h1
      obtain ⟨h3, h4⟩ := nextAux_len _ it a' b h1'
      rw [List.getElem?_eq_getElem hab] at h3
      unfold IntoIter.next
      simp only [h3, ok_bind]
      rw [ih h2 b (by omega) (by omega)]
      rfl
    · have ha : a = (L.flatMap (·.2)).length := by omega
      rw [next_end (it := { it with len := b + 1 }) h.flat (ha ▸ h.pos) (by simp)]
      rfl

theorem At.of_leaf {L : List (Nat × List (K × V))} {s : Store K V A} (hf : Flat0 s L) {i : Nat}
    {l : Leaf K V} (h : s.leaves[i]? = some (some l)) : ∃ n, At L i 0 n := by
  obtain ⟨x, hx, rfl⟩ := List.mem_map.1 (hf.live _ _ h)
  obtain ⟨LA, LB, rfl⟩ := List.append_of_mem hx
  exact ⟨_, LA, x, LB, rfl, rfl, Nat.zero_le _, rfl⟩

theorem At.le {L : List (Nat × List (K × V))} {i s n : Nat} (h : At L i s n) :
    n ≤ (L.flatMap (·.2)).length := by
  obtain ⟨LA, x, LB, rfl, -, h1, rfl⟩ := h
  simp only [List.flatMap_append, List.flatMap_cons, List.length_append]
  omega

theorem drop_short {t : Tree K V A} {L : List (Nat × List (K × V))} (hf : Flat0 t.store L)
    {i j : Nat} {l l' : Leaf K V} (hfirst : t.firstLeaf = .ok i)
    (hi : t.store.leaves[i]? = some (some l)) (hlast : t.lastLeaf = .ok j)
    (hj : t.store.leaves[j]? = some (some l')) (hlen : (L.flatMap (·.2)).length < t.len) :
    t.drop = .error .panic := by
  obtain ⟨a, ha⟩ := At.of_leaf hf hi
  have hget : t.store.getLeaf j = .ok l' := by simp [Store.getLeaf, hj]
  obtain ⟨i', s', hat⟩ := At.exists hf.ne (Nat.le_refl (L.flatMap (·.2)).length)
  have h : II L (⟨t.store, (L.flatMap (·.2)).length - a, (i, 0), (i', s'), []⟩ : IntoIter K V A) a
      (L.flatMap (·.2)).length :=
    ⟨hf, ha.le, le_rfl, rfl, ha, hat, by simp⟩
  have := dropAux_short (t.len + 1) h t.len (by simp only; omega) (by omega)
  rw [← this]
  unfold Tree.drop Tree.intoIter
  simp only [hfirst, hlast, hget, ok_bind, pure_ok, IntoIter.drop]
  exact dropAux_end _ (⟨t.store, t.len, (i, 0), (i', s'), []⟩ : IntoIter K V A) (j, l'.len)

/-- A memory in which the chain holds `n` items, all satisfying `P`, and the descents are safe. -/
structure Short (P : K × V → Prop) (s : Store K V A) (root : NodeId) (H n : Nat) : Prop where
  down : Down s H root
  fuel : H ≤ s.inners.length + 1
  chain : ∃ L, Flat0 s L ∧ (L.flatMap (·.2)).length = n ∧ ∀ x ∈ L.flatMap (·.2), P x

variable {P : K × V → Prop}

theorem Short.mem {s : Store K V A} {root : NodeId} {H n : Nat} (h : Short P s root H n) {i : Nat}
    {l : Leaf K V} (hl : s.getLeaf i = .ok l) : ∀ x ∈ l.data, P x := by
  obtain ⟨L, h1, -, h3⟩ := h.chain
  have hi : s.leaves[i]? = some (some l) := by
    unfold Store.getLeaf at hl
    split at hl
    · next e => cases hl; exact e
    · cases hl
  obtain ⟨x, hx', rfl⟩ := List.mem_map.1 (h1.live _ _ hi)
  obtain ⟨LA, LB, rfl⟩ := List.append_of_mem hx'
  have hg := h1.seg.get
  rw [hi] at hg
  cases hg
  intro y hy
  exact h3 y (List.mem_flatMap.2 ⟨_, hx', hy⟩)

theorem Short.drop {t : Tree K V A} {H n : Nat} (h : Short P t.store t.root H n) (hn : n < t.len) :
    t.drop = .error .panic := by
  obtain ⟨L, hf, rfl, -⟩ := h.chain
  obtain ⟨i, l, h1, h2⟩ := h.down.first t.store.fuel h.fuel
  obtain ⟨j, l', h3, h4⟩ := h.down.last t.store.fuel h.fuel
  refine drop_short hf (i := i) (j := j) ?_ h1 ?_ h3 hn
  · unfold Tree.firstLeaf descendLeaf
    rw [h2]; rfl
  · unfold Tree.lastLeaf descendLeaf
    rw [h4]; rfl

theorem Flat0.congr {s s' : Store K V A} {L : List (Nat × List (K × V))} (h : Flat0 s L)
    (e : s.leaves = s'.leaves) : Flat0 s' L :=
  ⟨e ▸ h.seg, h.nodup, e ▸ h.live, h.ne, h.nonempty⟩

theorem Short.set {s : Store K V A} {root : NodeId} {H k : Nat}
    (a : Short P s root H k) {j hj : Nat} {n n' : Inner K A}
    (hn : s.inners[j]? = some (some n)) (hd : Down s (hj + 1) (.inner j))
    (hlen : n'.childs.length = n'.keys.length + 1) (hc : ∀ c ∈ n'.childs, Down s hj c) :
    Short P (s.setInner j n') root H k := by
  obtain ⟨L, h1, h2⟩ := a.chain
  exact ⟨a.down.set hn hd hlen hc, by simpa [Store.setInner] using a.fuel, L, h1.congr rfl, h2⟩

theorem Short.leaf {s : Store K V A} {root : NodeId} {H k : Nat} (a : Short P s root H k) {i : Nat}
    {l l' : Leaf K V} (hl : s.getLeaf i = .ok l) (hp : l'.prev = l.prev) (hx : l'.next = l.next)
    (hne : l'.data ≠ []) (hP : ∀ x ∈ l'.data, P x) {k' : Nat}
    (hk : k' + l.data.length = k + l'.data.length) :
    Short P (s.setLeaf i l') root H k' ∧ ∀ h id, Down s h id → Down (s.setLeaf i l') h id := by
  obtain ⟨L, h1, h2⟩ := a.chain
  have hi : s.leaves[i]? = some (some l) := by
    unfold Store.getLeaf at hl
    split at hl
    · next e => cases hl; exact e
    · cases hl
  have hlt := (List.getElem?_eq_some_iff.1 hi).1
  have hd : ∀ h id, Down s h id → Down (s.setLeaf i l') h id := by
    intro h id hd
    refine Down.keep (s := s) (s' := s.setLeaf i l') (fun _ _ h => h) (fun j m hm => ?_) hd
    by_cases e : i = j
    · exact ⟨l', by subst e; simp [Store.setLeaf, hlt]⟩
    · exact ⟨m, by simp [Store.setLeaf, List.getElem?_set, e, hm]⟩
  refine ⟨⟨hd _ _ a.down, a.fuel, ?_⟩, hd⟩
  obtain ⟨x, hx', rfl⟩ := List.mem_map.1 (h1.live _ _ hi)
  obtain ⟨LA, LB, rfl⟩ := List.append_of_mem hx'
  obtain ⟨i, d⟩ := x
  have hg := h1.seg.get
  simp only at hg hi
  rw [hi] at hg
  cases hg
  obtain ⟨d', p', n'⟩ := l'
  simp only at hp hx hne hk
  subst hp hx
  refine ⟨LA ++ (i, d') :: LB, ⟨Seg.update h1.seg h1.nodup, by simpa using h1.nodup, ?_, by simp, ?_⟩, ?_, ?_⟩
  · intro q m hm
    have := live_set h1.live (by simp) q m hm
    simpa using this
  · intro h y hy
    have h' := h1.nonempty (by simpa using h)
    simp only [List.mem_append, List.mem_cons] at hy h'
    rcases hy with hy | rfl | hy
    · exact h' y (.inl hy)
    · exact hne
    · exact h' y (.inr (.inr hy))
  · have h2 := h2.1
    simp only [List.flatMap_append, List.flatMap_cons, List.length_append] at h2 ⊢
    omega
  · intro y hy
    have h3 := h2.2 y
    simp only [List.flatMap_append, List.flatMap_cons, List.mem_append] at hy h3
    rcases hy with hy | hy | hy
    · exact h3 (.inl hy)
    · exact hP y hy
    · exact h3 (.inr (.inr hy))

theorem Down.kids {s : Store K V A} {h i : Nat} {n : Inner K A} (a : Down s (h + 1) (.inner i))
    (hn : s.inners[i]? = some (some n)) :
    n.childs.length = n.keys.length + 1 ∧ ∀ c ∈ n.childs, Down s h c := by
  obtain ⟨i', n', e, h1, h2, h3⟩ := a
  cases e
  rw [hn] at h1
  cases h1
  exact ⟨h2, h3⟩

theorem Down.child {s : Store K V A} {h : Nat} {n : Inner K A} (a : ∀ c ∈ n.childs, Down s h c)
    {i : Nat} {c : NodeId} (hc : n.childId i = .ok c) : Down s h c := by
  refine a c ?_
  unfold Inner.childId readAt at hc
  split at hc
  · next e => cases hc; exact List.mem_of_getElem? e
  · cases hc

theorem Down.inner_child {s : Store K V A} {h : Nat} {n : Inner K A} (a : ∀ c ∈ n.childs, Down s h c)
    {i j : Nat} (hc : (do (← n.childId i).innerIdUnchecked : Res Nat) = .ok j) :
    Down s h (.inner j) := by
  obtain ⟨c, h1, h2⟩ := bind_ok hc
  have := Down.child a h1
  cases c with
  | inner k => cases h2; exact this
  | leaf k => cases h2

/-! ## Rotations and merges of inner nodes -/

theorem setKey_eq {n n' : Inner K A} {i : Nat} {k k' : K} (h : n.setKey i k = .ok (k', n')) :
    n'.childs = n.childs ∧ n'.keys.length = n.keys.length := by
  obtain ⟨old, h1, h⟩ := bind_ok h
  have h := (Prod.mk.inj (Except.ok.inj h)).2
  rw [← h]
  exact ⟨rfl, by simp⟩

theorem readAt_mem {α : Type} {l : List α} {i : Nat} {a : α} (h : readAt l i = .ok a) : a ∈ l := by
  unfold readAt at h
  split at h
  · next e => cases h; exact List.mem_of_getElem? e
  · cases h

theorem sliceRemove_eq {α : Type} {l l' : List α} {i : Nat} {a : α}
    (h : sliceRemove l i = .ok (a, l')) :
    i < l.length ∧ a ∈ l ∧ l'.length + 1 = l.length ∧ ∀ x ∈ l', x ∈ l := by
  unfold sliceRemove at h
  split at h
  · next e =>
    have h := Prod.mk.inj (Except.ok.inj h)
    rw [← h.1, ← h.2]
    have hlt := (List.getElem?_eq_some_iff.1 e).1
    refine ⟨hlt, List.mem_of_getElem? e, ?_, ?_⟩
    · simp only [List.length_append, List.length_take, List.length_drop]; omega
    · intro x hx
      rcases List.mem_append.1 hx with hx | hx
      · exact List.mem_of_mem_take hx
      · exact List.mem_of_mem_drop hx
  · cases h

theorem pop_eq {n n' : Inner K A} {k : K} {c : NodeId} {a : A} (h : n.pop = .ok ((k, c, a), n'))
    (hl : n.childs.length = n.keys.length + 1) :
    n'.childs.length = n'.keys.length + 1 ∧ c ∈ n.childs ∧ ∀ x ∈ n'.childs, x ∈ n.childs := by
  unfold Inner.pop at h
  split at h
  · cases h
  next h0 =>
  obtain ⟨k1, h1, h⟩ := bind_ok h
  obtain ⟨c1, h2, h⟩ := bind_ok h
  obtain ⟨a1, h3, h⟩ := bind_ok h
  have h := Prod.mk.inj (Except.ok.inj h)
  rw [← h.2]
  have hc : c1 = c := (Prod.mk.inj (Prod.mk.inj h.1).2).1
  subst hc
  refine ⟨?_, readAt_mem h2, fun x hx => List.mem_of_mem_take hx⟩
  simp only [Inner.len, List.length_take] at *
  omega

theorem popFront_eq {n n' : Inner K A} {k : K} {c : NodeId} {a : A}
    (h : n.popFront = .ok ((k, c, a), n')) (hl : n.childs.length = n.keys.length + 1) :
    n'.childs.length = n'.keys.length + 1 ∧ c ∈ n.childs ∧ ∀ x ∈ n'.childs, x ∈ n.childs := by
  unfold Inner.popFront at h
  obtain ⟨⟨k1, ks⟩, h1, h⟩ := bind_ok h
  obtain ⟨⟨c1, cs⟩, h2, h⟩ := bind_ok h
  obtain ⟨⟨a1, as⟩, h3, h⟩ := bind_ok h
  have h := Prod.mk.inj (Except.ok.inj h)
  rw [← h.2]
  have hc : c1 = c := (Prod.mk.inj (Prod.mk.inj h.1).2).1
  subst hc
  obtain ⟨-, -, e1, -⟩ := sliceRemove_eq h1
  obtain ⟨-, e2, e3, e4⟩ := sliceRemove_eq h2
  exact ⟨by simp only; omega, e2, e4⟩

theorem push_eq {n n' : Inner K A} {k : K} {c : NodeId} {a : A} (h : n.push k c a = .ok n')
    (hl : n.childs.length = n.keys.length + 1) :
    n'.childs.length = n'.keys.length + 1 ∧ ∀ x ∈ n'.childs, x ∈ n.childs ∨ x = c := by
  unfold Inner.push at h
  split at h
  · rw [← Except.ok.inj h]
    exact ⟨by simp [hl], fun x hx => by simpa using hx⟩
  · cases h

theorem pushFront_eq {n n' : Inner K A} {k : K} {c : NodeId} {a : A} (h : n.pushFront k c a = .ok n')
    (hl : n.childs.length = n.keys.length + 1) :
    n'.childs.length = n'.keys.length + 1 ∧ ∀ x ∈ n'.childs, x ∈ n.childs ∨ x = c := by
  unfold Inner.pushFront at h
  split at h
  · rw [← Except.ok.inj h]
    exact ⟨by simp [hl], fun x hx => by simpa [or_comm] using hx⟩
  · cases h

/-- An inner node is rewritten: what stays. -/
theorem Short.upd {s : Store K V A} {root : NodeId} {H k : Nat} (a : Short P s root H k) {j hj : Nat}
    {n n' : Inner K A} (hn : s.inners[j]? = some (some n)) (hd : Down s (hj + 1) (.inner j))
    (hlen : n'.childs.length = n'.keys.length + 1) (hc : ∀ c ∈ n'.childs, Down s hj c) :
    Short P (s.setInner j n') root H k ∧ (∀ h id, Down s h id → Down (s.setInner j n') h id) ∧
      ∀ (i : Nat) m, s.inners[i]? = some (some m) → ∃ m', (s.setInner j n').inners[i]? = some (some m') := by
  refine ⟨a.set hn hd hlen hc, fun _ _ h => h.set hn hd hlen hc, fun i m hm => ?_⟩
  rw [setInner_get hn]
  split
  · exact ⟨n', rfl⟩
  · exact ⟨m, hm⟩

section
variable [Augmentation K V A]

theorem rotRightT_short {pid : Nat} {s : Store K V A} {node : Inner K A} {root : NodeId}
    {H h k : Nat} (a : Short P s root H k) (hn : s.inners[pid]? = some (some node))
    (hd : Down s (h + 2) (.inner pid)) (slot : Nat) :
    (tryRotateRightInnerT pid s node slot).All (fun _ m => Short P m root H k) := by
  obtain ⟨hl, hc⟩ := hd.kids hn
  refine Traced.all_lift_bind fun ri hri => Traced.all_lift_bind fun li hli =>
    Traced.all_lift_bind fun prev hprev => ?_
  have hL := Down.inner_child hc hli
  have hR := Down.inner_child hc hri
  have hprev := getInner_eq hprev
  obtain ⟨hl1, hc1⟩ := hL.kids hprev
  split
  · refine Traced.all_lift_bind fun q hq => ?_
    obtain ⟨⟨k1, c1, a1⟩, prev'⟩ := q
    obtain ⟨e1, e2, e3⟩ := pop_eq hq hl1
    obtain ⟨s1, d1, g1⟩ := a.upd hprev hL e1 (fun c hc => hc1 c (e3 c hc))
    obtain ⟨n0, hn0⟩ := g1 _ _ hn
    have hc' := fun c hm => d1 _ _ (hc c hm)
    refine Traced.all_call_bind (s1.set hn0 (d1 _ _ hd) hl hc') ?_
    refine Traced.all_lift_bind fun q2 hq2 => ?_
    obtain ⟨k2, node'⟩ := q2
    obtain ⟨f1, f2⟩ := setKey_eq hq2
    refine Traced.all_lift_bind fun right hright => Traced.all_lift_bind fun right' hright' => ?_
    have hright := getInner_eq hright
    have hR1 := d1 _ _ hR
    obtain ⟨hl2, hc2⟩ := hR1.kids hright
    obtain ⟨p1, p2⟩ := pushFront_eq hright' hl2
    obtain ⟨s2, d2, g2⟩ := s1.upd hright hR1 p1 (fun c hc => (p2 c hc).elim (hc2 c)
      (fun e => e ▸ d1 _ _ (hc1 _ e2)))
    obtain ⟨n1, hn1⟩ := g2 _ _ hn0
    refine Traced.all_call_bind (s2.set hn1 (d2 _ _ (d1 _ _ hd)) (by rw [f1, f2, hl])
      (fun c hm => d2 _ _ (hc' c (f1 ▸ hm)))) ?_
    exact Traced.all_lift_bind fun _ _ => Traced.all_lift_bind fun _ _ => Traced.all_pure
  · exact Traced.all_pure

theorem rotLeftT_short {pid : Nat} {s : Store K V A} {node : Inner K A} {root : NodeId}
    {H h k : Nat} (a : Short P s root H k) (hn : s.inners[pid]? = some (some node))
    (hd : Down s (h + 2) (.inner pid)) (slot : Nat) :
    (tryRotateLeftInnerT pid s node slot).All (fun _ m => Short P m root H k) := by
  obtain ⟨hl, hc⟩ := hd.kids hn
  refine Traced.all_lift_bind fun ri hri => Traced.all_lift_bind fun li hli =>
    Traced.all_lift_bind fun prev hprev => ?_
  have hL := Down.inner_child hc hli
  have hR := Down.inner_child hc hri
  have hprev := getInner_eq hprev
  obtain ⟨hl1, hc1⟩ := hR.kids hprev
  split
  · refine Traced.all_lift_bind fun q hq => ?_
    obtain ⟨⟨k1, c1, a1⟩, prev'⟩ := q
    obtain ⟨e1, e2, e3⟩ := popFront_eq hq hl1
    obtain ⟨s1, d1, g1⟩ := a.upd hprev hR e1 (fun c hc => hc1 c (e3 c hc))
    obtain ⟨n0, hn0⟩ := g1 _ _ hn
    have hc' := fun c hm => d1 _ _ (hc c hm)
    refine Traced.all_call_bind (s1.set hn0 (d1 _ _ hd) hl hc') ?_
    refine Traced.all_lift_bind fun q2 hq2 => ?_
    obtain ⟨k2, node'⟩ := q2
    obtain ⟨f1, f2⟩ := setKey_eq hq2
    refine Traced.all_lift_bind fun right hright => Traced.all_lift_bind fun right' hright' => ?_
    have hright := getInner_eq hright
    have hL1 := d1 _ _ hL
    obtain ⟨hl2, hc2⟩ := hL1.kids hright
    obtain ⟨p1, p2⟩ := push_eq hright' hl2
    obtain ⟨s2, d2, g2⟩ := s1.upd hright hL1 p1 (fun c hc => (p2 c hc).elim (hc2 c)
      (fun e => e ▸ d1 _ _ (hc1 _ e2)))
    obtain ⟨n1, hn1⟩ := g2 _ _ hn0
    refine Traced.all_call_bind (s2.set hn1 (d2 _ _ (d1 _ _ hd)) (by rw [f1, f2, hl])
      (fun c hm => d2 _ _ (hc' c (f1 ▸ hm)))) ?_
    exact Traced.all_lift_bind fun _ _ => Traced.all_lift_bind fun _ _ => Traced.all_pure
  · exact Traced.all_pure

/-- In a merge of inner nodes everything is in place when user code runs, except one augmentation. -/
theorem mergeInnerT_mem (pid : Nat) (s : Store K V A) (node : Inner K A) (slot : Nat) :
    (mergeInnerNodeT pid s node slot).All (fun _ m => ∀ ok s' node',
      (mergeInnerNodeT pid s node slot).result = .ok (ok, s', node') →
      ∃ nx, m = s'.setInner pid nx ∧ nx.childs = node'.childs ∧ nx.keys = node'.keys) := by
  intro cb m hm ok s' node' hres
  by_cases hlt : slot < node.len
  · simp only [mergeInnerNodeT, hlt, not_true, if_false] at hm hres
    simp only [Traced.result_bind] at hres
    obtain ⟨li, h1, hres⟩ := bind_ok hres
    obtain ⟨ri, h2, hres⟩ := bind_ok hres
    obtain ⟨⟨r, sk, nd⟩, h3, hres⟩ := bind_ok hres
    obtain ⟨⟨rt, s1⟩, h4, hres⟩ := bind_ok hres
    obtain ⟨lf, h5, hres⟩ := bind_ok hres
    obtain ⟨lf', h6, hres⟩ := bind_ok hres
    simp only [Traced.result_bind, Traced.result_call, ok_bind] at hres
    obtain ⟨nd', h7, hres⟩ := bind_ok hres
    have hres := Except.ok.inj hres
    simp only [Prod.mk.injEq] at hres
    obtain ⟨rfl, rfl, rfl⟩ := hres
    obtain ⟨e1, e2⟩ := setAugmentation_eq h7
    refine ⟨nd, ?_, e1.symm, e2.symm⟩
    have peel : ∀ {α β : Type} {x : Res α} {y : α} {f : α → Traced (Store K V A) β},
        x = .ok y → (cb, m) ∈ ((liftM x : Traced (Store K V A) α) >>= f).trace →
        (cb, m) ∈ (f y).trace := by
      intro α β x y f hx h
      rcases Traced.mem_bind.1 h with h | ⟨a, ha, h⟩
      · simp at h
      · rw [Traced.result_lift, hx] at ha
        cases ha; exact h
    have hm := peel h1 hm
    have hm := peel h2 hm
    have hm := peel h3 hm
    have hm := peel h4 hm
    have hm := peel h5 hm
    have hm := peel h6 hm
    rcases Traced.mem_bind.1 hm with hm | ⟨_, -, hm⟩
    · simp only [Traced.trace_call, List.mem_singleton, Prod.mk.injEq] at hm
      exact hm.2
    · have := peel h7 hm
      simp at this
  · simp only [mergeInnerNodeT, hlt, not_false_eq_true, if_true] at hres
    simp only [Traced.result_bind] at hres
    cases hres

theorem setInner_setInner {s : Store K V A} {i : Nat} {a b : Inner K A} :
    (s.setInner i a).setInner i b = s.setInner i b := by
  simp [Store.setInner]

theorem handleInnerT_short {pid : Nat} {s : Store K V A} {st : Statistic} {node : Inner K A}
    {root : NodeId} {H h k : Nat} (a : Short P s root H k) (hn : s.inners[pid]? = some (some node))
    (hd : Down s (h + 2) (.inner pid)) {i : Nat} {kv : K × V} {r : DeleteResult K V}
    {s' : Store K V A} {st' : Statistic} {node' : Inner K A}
    (hrun : handleInnerUnderSize s st node i kv = .ok (r, s', st', node'))
    (a' : Short P (s'.setInner pid node') root H k) (hd' : Down (s'.setInner pid node') (h + 2) (.inner pid))
    (hn' : (s'.setInner pid node').inners[pid]? = some (some node')) :
    (handleInnerUnderSizeT pid s st node i kv).All (fun _ m => Short P m.1 root H k) := by
  rw [← handleInnerUnderSizeT_result pid] at hrun
  unfold handleInnerUnderSizeT at hrun ⊢
  rw [Traced.result_bind] at hrun
  obtain ⟨rotR, hR, hrun⟩ := bind_ok hrun
  have hRall : ∀ j, (tryRotateRightInnerT pid s node j).All (fun _ m => Short P m root H k) :=
    fun j => rotRightT_short a hn hd j
  have hLall : ∀ j, (tryRotateLeftInnerT pid s node j).All (fun _ m => Short P m root H k) :=
    fun j => rotLeftT_short a hn hd j
  refine Traced.all_bind ?_ fun rotR' hR' => ?_
  · split
    · exact Traced.all_mapMem (hRall _)
    · exact Traced.all_pure
  rw [hR] at hR'
  cases hR'
  cases rotR with
  | some q => exact Traced.all_pure
  | none =>
    simp only at hrun ⊢
    rw [Traced.result_bind] at hrun
    obtain ⟨rotL, hL, hrun⟩ := bind_ok hrun
    refine Traced.all_bind ?_ fun rotL' hL' => ?_
    · split
      · exact Traced.all_mapMem (hLall _)
      · exact Traced.all_pure
    rw [hL] at hL'
    cases hL'
    cases rotL with
    | some q => exact Traced.all_pure
    | none =>
      simp only at hrun ⊢
      have fin : ∀ (ms : Nat) (st1 : Statistic),
          (Traced.mapMem (·, st1) (mergeInnerNodeT pid s node ms) >>= fun (q : Bool × Store K V A × Inner K A) =>
            (if q.1 = true then
              (pure (DeleteResult.done kv, q.2.1, st1, q.2.2) : Traced (Store K V A × Statistic) _)
            else pure (.innerUnderSize kv, q.2.1, st1, q.2.2))).result = .ok (r, s', st', node') →
          (Traced.mapMem (·, st1) (mergeInnerNodeT pid s node ms) >>= fun (q : Bool × Store K V A × Inner K A) =>
            (if q.1 = true then
              (pure (DeleteResult.done kv, q.2.1, st1, q.2.2) : Traced (Store K V A × Statistic) _)
            else pure (.innerUnderSize kv, q.2.1, st1, q.2.2))).All (fun _ m => Short P m.1 root H k) := by
        intro ms st1 hrun
        rw [Traced.result_bind] at hrun
        obtain ⟨⟨ok, s2, n2⟩, hM, hrun⟩ := bind_ok hrun
        rw [Traced.result_mapMem] at hM
        have e : s2 = s' ∧ n2 = node' := by
          simp only at hrun
          split at hrun <;>
          · have := Except.ok.inj hrun
            simp only [Prod.mk.injEq] at this
            exact ⟨this.2.1, this.2.2.2⟩
        obtain ⟨rfl, rfl⟩ := e
        refine Traced.all_bind (Traced.all_mapMem (Traced.all_mono ?_ (mergeInnerT_mem pid s node ms)))
          fun q _ => ?_
        · intro c m hm
          obtain ⟨nx, rfl, e1, e2⟩ := hm _ _ _ hM
          obtain ⟨l1, c1⟩ := hd'.kids hn'
          have := a'.set (n' := nx) hn' hd' (by rw [e1, e2, l1]) (by rw [e1]; exact c1)
          rwa [setInner_setInner] at this
        · split <;> exact Traced.all_pure
      split at hrun
      · next h0 => simp only [h0, if_true]; exact fin _ _ hrun
      · next h0 => simp only [h0, if_false]; exact fin _ _ hrun

/-! ## Rotations of leaves -/

theorem leafPop_eq {l l' : Leaf K V} {kv : K × V} (h : l.pop = .ok (kv, l')) :
    l'.prev = l.prev ∧ l'.next = l.next ∧ l'.data.length + 1 = l.data.length ∧ l'.data ≠ [] ∧ kv ∈ l.data ∧ ∀ x ∈ l'.data, x ∈ l.data := by
  unfold Leaf.pop at h
  split at h
  · cases h
  next h0 =>
  obtain ⟨⟨kv1, d⟩, h1, h⟩ := bind_ok h
  have h' := (Prod.mk.inj (Except.ok.inj h)).1
  have h := (Prod.mk.inj (Except.ok.inj h)).2
  obtain ⟨-, hm, e, hs⟩ := sliceRemove_eq h1
  rw [← h, ← h']
  refine ⟨rfl, rfl, e, ?_, hm, hs⟩
  rintro rfl
  have h0 : minN < l.data.length := by
    have h0 : l.ableToLend = true := by simpa using h0
    exact of_decide_eq_true h0
  simp only [List.length_nil, minN] at *
  omega

theorem leafPopFront_eq {l l' : Leaf K V} {kv : K × V} (h : l.popFront = .ok (kv, l')) :
    l'.prev = l.prev ∧ l'.next = l.next ∧ l'.data.length + 1 = l.data.length ∧ l'.data ≠ [] ∧ kv ∈ l.data ∧ ∀ x ∈ l'.data, x ∈ l.data := by
  unfold Leaf.popFront at h
  split at h
  · cases h
  next h0 =>
  obtain ⟨⟨kv1, d⟩, h1, h⟩ := bind_ok h
  have h' := (Prod.mk.inj (Except.ok.inj h)).1
  have h := (Prod.mk.inj (Except.ok.inj h)).2
  obtain ⟨-, hm, e, hs⟩ := sliceRemove_eq h1
  rw [← h, ← h']
  refine ⟨rfl, rfl, e, ?_, hm, hs⟩
  rintro rfl
  have h0 : minN < l.data.length := by
    have h0 : l.ableToLend = true := by simpa using h0
    exact of_decide_eq_true h0
  simp only [List.length_nil, minN] at *
  omega

theorem deleteWithPush_eq {l l' : Leaf K V} {i : Nat} {x kv : K × V}
    (h : l.deleteWithPush i x = .ok (kv, l')) :
    l'.prev = l.prev ∧ l'.next = l.next ∧ l'.data.length = l.data.length ∧ l'.data ≠ [] ∧ ∀ y ∈ l'.data, y ∈ l.data ∨ y = x := by
  obtain ⟨⟨kv1, d⟩, h1, h⟩ := bind_ok h
  have h := (Prod.mk.inj (Except.ok.inj h)).2
  obtain ⟨-, -, e, hs⟩ := sliceRemove_eq h1
  rw [← h]
  refine ⟨rfl, rfl, by simpa using e, by simp, fun y hy => ?_⟩
  rcases List.mem_append.1 hy with hy | hy
  · exact .inl (hs y hy)
  · exact .inr (List.mem_singleton.1 hy)

theorem deleteWithPushFront_eq {l l' : Leaf K V} {i : Nat} {x kv : K × V}
    (h : l.deleteWithPushFront i x = .ok (kv, l')) :
    l'.prev = l.prev ∧ l'.next = l.next ∧ l'.data.length = l.data.length ∧ l'.data ≠ [] ∧ ∀ y ∈ l'.data, y ∈ l.data ∨ y = x := by
  unfold Leaf.deleteWithPushFront at h
  split at h
  · cases h
  obtain ⟨kv1, h1, h⟩ := bind_ok h
  have h := (Prod.mk.inj (Except.ok.inj h)).2
  have hlt : i < l.data.length := by
    unfold readAt at h1
    split at h1
    · next e => exact (List.getElem?_eq_some_iff.1 e).1
    · cases h1
  rw [← h]
  refine ⟨rfl, rfl, ?_, by simp, fun y hy => ?_⟩
  · simp only [List.cons_append, List.length_cons, List.length_append, List.length_take,
      List.length_drop]
    omega
  · simp only [List.cons_append, List.mem_cons, List.mem_append] at hy
    rcases hy with hy | hy | hy
    · exact .inr hy
    · exact .inl (List.mem_of_mem_take hy)
    · exact .inl (List.mem_of_mem_drop hy)

theorem rotRightLeafT_short {pid : Nat} {s : Store K V A} {node : Inner K A} {root : NodeId}
    {H k : Nat} (a : Short P s root H (k + 1)) (hn : s.inners[pid]? = some (some node))
    (hd : Down s 1 (.inner pid)) (slot idx : Nat) :
    (rotateRightForLeafT pid s node slot idx).All (fun _ m => Short P m root H k) := by
  obtain ⟨hl, hc⟩ := hd.kids hn
  refine Traced.all_lift_bind fun li _ => Traced.all_lift_bind fun ri _ =>
    Traced.all_lift_bind fun left hleft => Traced.all_guard fun _ =>
    Traced.all_lift_bind fun q hq => ?_
  obtain ⟨kv, left'⟩ := q
  obtain ⟨e1, e2, e3, e4, e5, e6⟩ := leafPop_eq hq
  obtain ⟨s1, d1⟩ := a.leaf (l' := left') hleft e1 e2 e4 (fun x hx => a.mem hleft x (e6 x hx)) (k' := k) (by omega)
  have ok1 : ∀ n' : Inner K A, n'.childs = node.childs → n'.keys = node.keys →
      Short P ((s.setLeaf li left').setInner pid n') root H k := fun n' f1 f2 =>
    s1.set (n := node) hn (d1 _ _ hd) (by rw [f1, f2, hl]) (fun c hm => d1 _ _ (hc c (f1 ▸ hm)))
  refine Traced.all_call_bind (ok1 node rfl rfl) <| Traced.all_lift_bind fun node' hnode' => ?_
  obtain ⟨f1, f2⟩ := setAugmentation_eq hnode'
  refine Traced.all_call_bind (ok1 node' f1 f2) <| Traced.all_lift_bind fun right hright =>
    Traced.all_lift_bind fun q2 hq2 => ?_
  obtain ⟨del, right'⟩ := q2
  obtain ⟨g1, g2, g3, g4, g5⟩ := deleteWithPushFront_eq hq2
  obtain ⟨s2, d2⟩ := s1.leaf (l' := right') hright g1 g2 g4
    (fun x hx => (g5 x hx).elim (s1.mem hright x) fun e => e ▸ a.mem hleft _ e5) (k' := k) (by omega)
  refine Traced.all_call_bind ?_ <| Traced.all_lift_bind fun _ _ => Traced.all_lift_bind fun _ _ =>
    Traced.all_pure
  exact s2.set (n := node) hn (d2 _ _ (d1 _ _ hd)) (by rw [f1, f2, hl])
    (fun c hm => d2 _ _ (d1 _ _ (hc c (f1 ▸ hm))))

theorem rotLeftLeafT_short {pid : Nat} {s : Store K V A} {node : Inner K A} {root : NodeId}
    {H k : Nat} (a : Short P s root H (k + 1)) (hn : s.inners[pid]? = some (some node))
    (hd : Down s 1 (.inner pid)) (slot idx : Nat) :
    (rotateLeftForLeafT pid s node slot idx).All (fun _ m => Short P m root H k) := by
  obtain ⟨hl, hc⟩ := hd.kids hn
  refine Traced.all_lift_bind fun li _ => Traced.all_lift_bind fun ri _ =>
    Traced.all_lift_bind fun left hleft => Traced.all_guard fun _ =>
    Traced.all_lift_bind fun q hq => ?_
  obtain ⟨kv, left'⟩ := q
  obtain ⟨e1, e2, e3, e4, e5, e6⟩ := leafPopFront_eq hq
  obtain ⟨s1, d1⟩ := a.leaf (l' := left') hleft e1 e2 e4 (fun x hx => a.mem hleft x (e6 x hx)) (k' := k) (by omega)
  have ok1 : ∀ n' : Inner K A, n'.childs = node.childs → n'.keys = node.keys →
      Short P ((s.setLeaf ri left').setInner pid n') root H k := fun n' f1 f2 =>
    s1.set (n := node) hn (d1 _ _ hd) (by rw [f1, f2, hl]) (fun c hm => d1 _ _ (hc c (f1 ▸ hm)))
  refine Traced.all_call_bind (ok1 node rfl rfl) <| Traced.all_lift_bind fun node' hnode' =>
    Traced.all_lift_bind fun _ _ => ?_
  obtain ⟨f1, f2⟩ := setAugmentation_eq hnode'
  refine Traced.all_call_bind (ok1 node' f1 f2) <| Traced.all_lift_bind fun right hright =>
    Traced.all_lift_bind fun q2 hq2 => ?_
  obtain ⟨del, right'⟩ := q2
  obtain ⟨g1, g2, g3, g4, g5⟩ := deleteWithPush_eq hq2
  obtain ⟨s2, d2⟩ := s1.leaf (l' := right') hright g1 g2 g4
    (fun x hx => (g5 x hx).elim (s1.mem hright x) fun e => e ▸ a.mem hleft _ e5) (k' := k) (by omega)
  refine Traced.all_call_bind ?_ <| Traced.all_lift_bind fun _ _ => Traced.all_lift_bind fun _ _ =>
    Traced.all_pure
  exact s2.set (n := node) hn (d2 _ _ (d1 _ _ hd)) (by rw [f1, f2, hl])
    (fun c hm => d2 _ _ (d1 _ _ (hc c (f1 ▸ hm))))

theorem mergeLeafT_kind (pid : Nat) (s : Store K V A) (node : Inner K A) (slot idx : Nat) :
    (mergeLeafNodeLeftT pid s node slot idx).All (fun c _ => c.isFromLeaf) ∧
    (mergeLeafNodeWithRightT pid s node slot idx).All (fun c _ => c.isFromLeaf) := by
  constructor
  · exact Traced.all_lift_bind fun _ _ => Traced.all_lift_bind fun _ _ => Traced.all_lift_bind fun _ _ =>
      Traced.all_lift_bind fun _ _ => Traced.all_lift_bind fun _ _ => Traced.all_call_bind rfl <|
      Traced.all_lift_bind fun _ _ => Traced.all_lift_bind fun _ _ => Traced.all_lift_bind fun _ _ =>
      Traced.all_pure
  · exact Traced.all_lift_bind fun _ _ => Traced.all_lift_bind fun _ _ => Traced.all_lift_bind fun _ _ =>
      Traced.all_lift_bind fun _ _ => Traced.all_lift_bind fun _ _ => Traced.all_lift_bind fun _ _ =>
      Traced.all_call_bind rfl <|
      Traced.all_lift_bind fun _ _ => Traced.all_lift_bind fun _ _ => Traced.all_lift_bind fun _ _ =>
      Traced.all_pure

theorem handleLeafT_short {pid : Nat} {s : Store K V A} {st : Statistic} {node : Inner K A}
    {root : NodeId} {H k : Nat} (a : Short P s root H (k + 1)) (hn : s.inners[pid]? = some (some node))
    (hd : Down s 1 (.inner pid)) (i idx : Nat) :
    (handleLeafUnderSizeT pid s st node i idx).All
      (fun c m => (c.isFromLeaf → m.2.leafMerges = st.leafMerges) → Short P m.1 root H k) := by
  refine Traced.all_lift_bind fun _ _ => Traced.all_lift_bind fun _ _ =>
    Traced.all_lift_bind fun fx _ => ?_
  cases fx with
  | rotateRight =>
    exact Traced.all_bind (Traced.all_mapMem (Traced.all_mono (fun _ _ h _ => h)
      (rotRightLeafT_short a hn hd _ _))) fun _ _ => Traced.all_pure
  | rotateLeft =>
    exact Traced.all_bind (Traced.all_mapMem (Traced.all_mono (fun _ _ h _ => h)
      (rotLeftLeafT_short a hn hd _ _))) fun _ _ => Traced.all_pure
  | mergeLeft =>
    refine Traced.all_bind (Traced.all_mapMem (Traced.all_mono (fun c m h h' => ?_)
      (mergeLeafT_kind _ _ _ _ _).1)) fun _ _ => Traced.all_pure
    have := h' h
    simp only [Statistic.leafMerges] at this
    omega
  | mergeRight =>
    refine Traced.all_bind (Traced.all_mapMem (Traced.all_mono (fun c m h h' => ?_)
      (mergeLeafT_kind _ _ _ _ _).2)) fun _ _ => Traced.all_pure
    have := h' h
    simp only [Statistic.leafMerges] at this
    omega

/-! ## The ascending loop -/

omit [Augmentation K V A] in
theorem Ctx.lens_plug {μ h H : Nat} {c : Ctx K V A h H} {x : T K V A h} (hc : c.Shape μ)
    (hx : x.Lens) : (c.plug x).Lens := by
  induction c with
  | nil => exact hx
  | cons f c ih =>
    obtain ⟨hS, -, -, hf, hcs⟩ := hc
    refine ih (x := f.fill x) hcs ⟨?_, ?_⟩
    · have := hf.1; have := hf.2
      simp only [Frame.fill, List.length_append, List.length_cons]
      simp only [Frame.LenOK] at hf
      omega
    · intro y hy
      simp only [Frame.fill, List.mem_append, List.mem_cons] at hy
      rcases hy with hy | rfl | hy
      · obtain ⟨_, _, h⟩ := hS.all.1 y hy; exact h.lensAll
      · exact hx
      · obtain ⟨_, _, h⟩ := hS.all.2 y hy; exact h.lensAll

omit [Augmentation K V A] in
theorem T.Lens.height {h : Nat} {x : T K V A h} (hx : x.Lens) : h ≤ x.nodes.length := by
  induction h with
  | zero => exact Nat.zero_le _
  | succ h ih =>
    have hl := hx.1
    cases hk : GNode.kids x with
    | nil => simp [hk] at hl
    | cons c cs =>
      have := ih (hx.2 c (by simp [hk]))
      simp only [T.nodes, hk, List.flatMap_cons, List.length_cons, List.length_append]
      omega

omit [Augmentation K V A] in
theorem Ctx.plug_nid {h H : Nat} {c : Ctx K V A h H} {x y : T K V A h} (e : x.nid = y.nid) :
    (c.plug x).nid = (c.plug y).nid := by
  induction c with
  | nil => exact e
  | cons f c ih => exact ih (x := f.fill x) (y := f.fill y) rfl

omit [Augmentation K V A] in
theorem Out.lens {μ m : Nat} {r : Bool} {h : Nat} {x : T K V A h} {kv : K × V}
    {d : DeleteResult K V} (ho : Out μ m r x kv d) : x.Lens := by
  rcases ho with ⟨-, ho⟩ | ⟨-, ho⟩
  · exact ho.lensAll
  · cases h with
    | zero => exact ho.elim
    | succ h => exact ho.1.lensAll

omit [Augmentation K V A] in
theorem ghost_short {μ h H n : Nat} {c : Ctx K V A h H} {x : T K V A h} {s : Store K V A}
    (hc : c.Shape μ) (hx : x.Lens)
    (hlv : ∀ y ∈ c.lvL ++ x.leaves ++ c.lvR, ∃ l, s.leaves[y.1]? = some (some l))
    (hm : IMem s.inners (x.nodes ++ c.nodes x.nid))
    (hn : ((x.nodes ++ c.nodes x.nid).map (·.1)).Nodup)
    (hch : ∃ L, Flat0 s L ∧ (L.flatMap (·.2)).length = n ∧ ∀ x ∈ L.flatMap (·.2), P x) :
    Short P s (c.plug x).nid H n ∧ Down s h x.nid ∧ StackDown s h (c.stack x.nid) := by
  have hP := Ctx.nodes_plug (c := c) (x := x)
  have hm' : IMem s.inners (c.plug x).nodes := hm.perm hP.symm
  have hL := Ctx.lens_plug hc hx
  have hd : Down s H (c.plug x).nid := T.down hm' (by
    intro y hy
    rw [Ctx.leaves_plug] at hy
    exact hlv y hy) hL
  have h1 := hL.height
  have h2 := hm'.length_le ((List.Perm.ids hP).2 hn)
  exact ⟨⟨hd, by omega, hch⟩, Ctx.stackDown hm' hd⟩

theorem remAscendT_short {μ : Nat} (hμ1 : 1 ≤ μ) (hμ : μ ≤ 16) {h H n : Nat} {c : Ctx K V A h H} {s : Store K V A}
    {st : Statistic} {x : T K V A h} {kv : K × V} {d : DeleteResult K V} {root : NodeId}
    (hroot : root = (c.plug x).nid)
    (hc : c.Shape μ) (ho : Out μ (c.min μ) c.flag x kv d)
    (hlv : ∀ y ∈ c.lvL ++ x.leaves ++ c.lvR, ∃ p n, s.leaves[y.1]? = some (some ⟨y.2, p, n⟩))
    (hm : IMem s.inners (x.nodes ++ c.nodes x.nid))
    (hn : ((x.nodes ++ c.nodes x.nid).map (·.1)).Nodup)
    (hch : ∃ L, Flat0 s L ∧ (L.flatMap (·.2)).length = n ∧ ∀ x ∈ L.flatMap (·.2), P x) :
    (removeAscendT s st (c.stack x.nid) d).All (fun _ m => Short P m.1 root H n) := by
  induction c generalizing s st d with
  | nil => exact Traced.all_pure
  | @cons h H f c ih =>
    obtain ⟨hsh, hdx, hstk⟩ := ghost_short hc ho.lens
      (fun y hy => by obtain ⟨p, n, h⟩ := hlv y hy; exact ⟨_, h⟩) hm hn hch
    rw [← hroot] at hsh
    obtain ⟨hS, hmin, h64, hf, hcs⟩ := hc
    have hm0 := hm
    simp only [Ctx.nodes, ← List.append_assoc] at hm hn
    have hget : s.inners[f.id]? = some (some (f.inner x.nid)) :=
      hm (f.id, f.inner x.nid) (by simp [Frame.nodes])
    have hxl : ∀ y ∈ x.leaves, ∃ p n, s.leaves[y.1]? = some (some ⟨y.2, p, n⟩) :=
      fun y hy => hlv y (List.mem_append_left _ (List.mem_append_right _ hy))
    have h1 : 1 ≤ f.len := by
      by_contra h0
      have := Ctx.min_zero (μ := μ) (c := c) (by omega)
      omega
    have hstep : ∃ g d1 inners st1,
        RemStep μ (c.min μ) c.flag s st f x (c.nodes (.inner f.id)) d kv g d1 inners st1 := by
      rcases ho with ⟨rfl, ho⟩ | ⟨rfl, ho⟩
      · exact done_step hf h64 hS hmin hxl hm hn ho
      · cases h with
        | zero => exact ho.elim
        | succ h => exact inner_step hμ (Ctx.min_le hμ) hf h64 hS hmin h1 hm hn ho
    obtain ⟨g, d1, inners, st1, hs⟩ := hstep
    have hlv' : ∀ y ∈ c.lvL ++ g.leaves ++ c.lvR, ∃ p n,
        ({ s with inners := inners } : Store K V A).leaves[y.1]? = some (some ⟨y.2, p, n⟩) := by
      intro y hy
      apply hlv y
      rw [hs.leaves] at hy
      simpa [Ctx.lvL, Ctx.lvR] using hy
    have hch' : ∃ L, Flat0 ({ s with inners := inners } : Store K V A) L ∧
        (L.flatMap (·.2)).length = n ∧ ∀ x ∈ L.flatMap (·.2), P x := by
      obtain ⟨L, e1, e2⟩ := hch
      exact ⟨L, e1.congr rfl, e2⟩
    have hroot' : root = (c.plug g).nid := by
      rw [hroot]
      exact Ctx.plug_nid (c := c) (x := (f.fill x : T K V A (h + 1))) (y := g)
        (T.nid_fill.trans hs.nid.symm)
    have him' : IMem inners (g.nodes ++ c.nodes g.nid) := by rw [hs.nid]; exact hs.imem
    have hnd' : ((g.nodes ++ c.nodes g.nid).map (·.1)).Nodup := by rw [hs.nid]; exact hs.nodup
    have hrec := ih (s := { s with inners := inners }) (st := st1) (d := d1) (x := g) hroot' hcs hs.out
      hlv' him' hnd' hch'
    obtain ⟨hsh', hdg, -⟩ := ghost_short (s := { s with inners := inners }) hcs hs.out.lens
      (fun y hy => by obtain ⟨p, n, h⟩ := hlv' y hy; exact ⟨_, h⟩) him' hnd' hch'
    rw [← hroot'] at hsh'
    rw [hs.nid] at hrec hdg
    have hrun := hs.run []
    simp only [Ctx.stack]
    rcases ho with ⟨rfl, ho⟩ | ⟨rfl, ho⟩
    · refine Traced.all_bind (newAugmentationT_all (fun _ => hsh) (fun _ => hsh)) fun a ha =>
        Traced.all_lift_bind fun nd hnd => Traced.all_lift_bind fun nd' hnd' => ?_
      rw [newAugmentationT_result] at ha
      simp only [removeAscend, ha, hnd, hnd', ok_bind, pure_ok] at hrun
      have hrun := Except.ok.inj hrun
      simp only [Prod.mk.injEq] at hrun
      obtain ⟨rfl, e2, rfl⟩ := hrun
      rw [e2]
      exact hrec
    · cases h with
      | zero => exact ho.elim
      | succ h =>
        refine Traced.all_lift_bind fun nd hnd => ?_
        have hnd := getInner_eq hnd
        rw [hget] at hnd
        cases hnd
        have hdf : Down s (h + 2) (.inner f.id) := hstk.1
        have hgi : s.getInner f.id = .ok (f.inner x.nid) := by simp [Store.getInner, hget]
        simp only [removeAscend, hgi, ok_bind] at hrun
        obtain ⟨⟨r', s', st', nd'⟩, hh, hrun⟩ := bind_ok hrun
        have hrun := Except.ok.inj hrun
        simp only [Prod.mk.injEq] at hrun
        obtain ⟨rfl, e2, rfl⟩ := hrun
        have hlt : f.id < s'.inners.length := by
          have : f.id < (s'.setInner f.id nd').inners.length := by
            rw [e2]
            have : inners[f.id]? = some (some (GNode.inner g)) := by
              have e := hs.nid
              have e : GNode.id g = f.id := by simpa [T.nid] using e
              exact hs.imem (f.id, GNode.inner g) (by rw [← e]; simp [T.nodes])
            exact (List.getElem?_eq_some_iff.1 this).1
          simpa [Store.setInner] using this
        refine Traced.all_bind (handleInnerT_short hsh hget hdf hh (e2 ▸ hsh') (e2 ▸ hdg)
          (by simp [Store.setInner, hlt])) fun q hq => ?_
        rw [handleInnerUnderSizeT_result, hh] at hq
        cases hq
        simp only
        rw [e2]
        exact hrec

/-! ## Removals -/

omit [Augmentation K V A] in
theorem WF0.short {t : Tree K V A} {μ H : Nat} {g : T K V A H} (w : WF0 μ t g)
    (hP : ∀ x ∈ g.toL, P x) : Short P t.store t.root H t.len := by
  refine ⟨?_, w.height_le_fuel, g.leaves, w.flat, w.len.symm, hP⟩
  rw [w.root]
  refine T.down w.imem (fun y hy => ?_) w.shape.lensAll
  obtain ⟨a, b, hab⟩ := List.append_of_mem hy
  have := w.seg
  rw [hab] at this
  exact ⟨_, this.get⟩

end

section
variable [LinearOrder K] [Augmentation K V A]

/-- The memory at the calls of user code, and the memory when the step at an undersized leaf is
complete. -/
theorem removeByRefT_short_step {μ : Nat} (hμ1 : 1 ≤ μ) (hμ : μ ≤ 16) {t t' : Tree K V A} {H H' : Nat} {g : T K V A H} {g' : T K V A H'}
    (w : WF0 μ t g) {c : Ctx K V A 0 H} {i : Nat} {d1 d2 : List (K × V)} {kv : K × V}
    (hp : c.plug ⟨i, d1 ++ kv :: d2⟩ = g) (hlen : c.LenOK)
    (hrun : t.removeByRef ⟨c.stack (.leaf i), i, d1.length⟩ = .ok (kv, t')) (w' : WF0 μ t' g')
    (hl' : t'.len + 1 = t.len) (hP : ∀ x ∈ g.toL, P x) (hP' : ∀ x ∈ g'.toL, P x) :
    (t.removeByRefT ⟨c.stack (.leaf i), i, d1.length⟩).All (fun cb m =>
      (cb.isFromLeaf → m.st.leafMerges = t.st.leafMerges ∨ m.root ≠ t.root) →
      ∃ H n, Short P m.store m.root H n ∧ n + 1 = m.len) ∧
    ((d1 ++ kv :: d2).length ≤ 16 → ∀ pid idx cid stack nd q,
      c.stack (.leaf i) = (pid, idx, cid) :: stack → t.store.getInner pid = .ok nd →
      handleLeafUnderSize t.store t.st nd idx d1.length = .ok q →
      Short P (q.2.1.setInner pid q.2.2.2) t.root H t'.len) := by
  obtain ⟨hcS, hxS⟩ := Ctx.shape_plug.1 ⟨hp ▸ w.shape, hlen⟩
  have hleaves : g.leaves = c.lvL ++ (i, d1 ++ kv :: d2) :: c.lvR := by
    rw [← hp, Ctx.leaves_plug]; simp [T.leaves]
  have hseg := w.seg
  have hlnd := w.lnodup
  have hlive := w.live
  rw [hleaves] at hseg hlnd hlive
  have hg : g.nodes.Perm (c.nodes (.leaf i)) := by
    rw [← hp]; exact Ctx.nodes_plug
  have hm := w.imem.perm hg
  have hn := (List.Perm.ids hg).1 w.inodup
  have hroot : t.root = (c.plug ⟨i, d1 ++ kv :: d2⟩).nid := by rw [w.root, hp]
  have hget : t.store.getLeaf i = .ok ⟨d1 ++ kv :: d2, lstId none c.lvL, hdId c.lvR none⟩ :=
    hseg.getLeaf
  have hget' : t.store.leaves[i]? = some (some ⟨d1 ++ kv :: d2, lstId none c.lvL, hdId c.lvR none⟩) :=
    hseg.get
  have h64 : (d1 ++ kv :: d2).length ≤ 64 := hxS.2
  have hlow : c.min μ ≤ (d1 ++ kv :: d2).length := hxS.1
  have hxl : (d1 ++ kv :: d2).length = d1.length + d2.length + 1 := by simp; omega
  have hmin16 := Ctx.min_le hμ (c := c)
  rw [← removeByRefT_result] at hrun
  unfold Tree.removeByRefT at hrun ⊢
  simp only [Traced.result_bind] at hrun
  obtain ⟨leaf, e1, hrun⟩ := bind_ok hrun
  obtain ⟨⟨l1, dr⟩, e2, hrun⟩ := bind_ok hrun
  obtain ⟨⟨r, s1, st1⟩, e3, hrun⟩ := bind_ok hrun
  simp only [Traced.result_bind] at hrun
  obtain ⟨⟨kv', s2, root⟩, e4, hrun⟩ := bind_ok hrun
  obtain ⟨a, e5, hrun⟩ := bind_ok hrun
  rw [if_neg (by omega)] at hrun
  have hrun := (Prod.mk.inj (Except.ok.inj hrun)).2
  have ht1 : t'.store = s2 := by rw [← hrun]
  have ht2 : t'.root = root := by rw [← hrun]
  simp only [Traced.result_lift] at e1 e2 e4
  rw [Traced.result_mapMem, removeAscendT_result] at e3
  rw [hget] at e1
  cases e1
  have hS' : Short P s2 root H' t'.len := ht1 ▸ ht2 ▸ w'.short hP'
  have hfinal : ∃ H n, Short P s2 root H n ∧ n + 1 = t.len := ⟨H', t'.len, hS', by omega⟩
  -- entries of the ascending loop
  have hloop : (removeAscendT (t.store.setLeaf i l1) t.st (c.stack (.leaf i))
      (match (generalizing := false) dr with
        | .done kv => .done kv | .underSize idx => .leafUnderSize idx)).All
      (fun cb m => (cb.isFromLeaf → m.2.leafMerges = t.st.leafMerges) →
        Short P m.1 t.root H t'.len) ∧
    ((d1 ++ kv :: d2).length ≤ 16 → ∀ pid idx cid stack nd q,
      c.stack (.leaf i) = (pid, idx, cid) :: stack → t.store.getInner pid = .ok nd →
      handleLeafUnderSize t.store t.st nd idx d1.length = .ok q →
      Short P (q.2.1.setInner pid q.2.2.2) t.root H t'.len) := by
    by_cases hlend : 16 < (d1 ++ kv :: d2).length
    · -- the leaf can lend
      have hab : (⟨d1 ++ kv :: d2, lstId none c.lvL, hdId c.lvR none⟩ : Leaf K V).ableToLend = true :=
        decide_eq_true hlend
      simp only [Leaf.tryDeleteAt, hab, if_true, sliceRemove_ok rfl, ok_bind, pure_ok] at e2
      obtain ⟨rfl, rfl⟩ := Prod.mk.inj (Except.ok.inj e2)
      have hseg1 := Seg.update (d' := d1 ++ d2) hseg hlnd
      obtain ⟨hsh, -⟩ := (w.short hP).leaf (l' := ⟨d1 ++ d2, lstId none c.lvL, hdId c.lvR none⟩)
        (k' := t'.len) hget rfl rfl
        (by
          intro h0
          have := congrArg List.length h0
          simp only [List.length_append, List.length_nil] at this
          omega)
        (fun y hy => (w.short hP).mem hget y (by
          rcases List.mem_append.1 hy with hy | hy
          · exact List.mem_append_left _ hy
          · exact List.mem_append_right _ (List.mem_cons_of_mem _ hy)))
        (by simp only [List.length_append, List.length_cons]; omega)
      let x' : GLeaf K V := ⟨i, d1 ++ d2⟩
      refine ⟨?_, fun h16 => by omega⟩
      refine Traced.all_mono (fun _ _ h _ => h) (remAscendT_short hμ1 hμ (c := c) (x := x') (kv := kv) ?_ hcS
        (.inl ⟨rfl, ?_, ?_⟩) ?_ ?_ ?_ hsh.chain)
      · rw [hroot]; exact Ctx.plug_nid rfl
      · simp only [x', List.length_append]; omega
      · simp only [x', List.length_append]; omega
      · intro y hy
        have hy' : y ∈ c.lvL ++ (i, d1 ++ d2) :: c.lvR := by simpa [T.leaves, x'] using hy
        obtain ⟨a, b, hab⟩ := List.append_of_mem hy'
        have := hseg1
        rw [hab] at this
        exact ⟨_, _, this.get⟩
      · simpa [T.nodes, x', Store.setLeaf] using hm
      · simpa [T.nodes, x'] using hn
    · -- the leaf is at the minimum
      have hab : (⟨d1 ++ kv :: d2, lstId none c.lvL, hdId c.lvR none⟩ : Leaf K V).ableToLend = false :=
        decide_eq_false hlend
      simp only [Leaf.tryDeleteAt, hab, Bool.false_eq_true, if_false, pure_ok] at e2
      obtain ⟨rfl, rfl⟩ := Prod.mk.inj (Except.ok.inj e2)
      have hset : t.store.setLeaf i ⟨d1 ++ kv :: d2, lstId none c.lvL, hdId c.lvR none⟩ = t.store := by
        simp only [Store.setLeaf, set_same hget']
      rw [hset] at e3 ⊢
      simp only at e3 ⊢
      cases c with
      | nil => exact ⟨Traced.all_pure, by intro _ _ _ _ _ _ _ h; cases h⟩
      | cons f c =>
        have hst : Short P t.store t.root H (t'.len + 1) := hl' ▸ w.short hP
        have hD : Down t.store 1 (.inner f.id) := by
          have hmp : IMem t.store.inners ((Ctx.cons f c).plug ⟨i, d1 ++ kv :: d2⟩).nodes := by
            rw [hp]; exact w.imem
          exact (Ctx.stackDown hmp (hroot ▸ hst.down)).2.1
        obtain ⟨hS, hmin, hf64, hf, hcs⟩ := hcS
        have h1 : 1 ≤ f.len := by
          by_contra h0
          have := Ctx.min_zero (μ := μ) (c := c) (by omega)
          omega
        simp only [Ctx.nodes] at hm hn
        simp only [Ctx.lvL, Ctx.lvR] at *
        obtain ⟨g0, d0, s0, st0, hs⟩ := leaf_step (s := t.store) (st := t.st) (LA := c.lvL) (LB := c.lvR) (kv := kv) (i := i)
          (d1 := d1) (d2 := d2) hμ (Ctx.min_le hμ) hf hf64 hS hmin h1 hm hn
          (by simpa using hseg) (by simpa using hlnd) (by simpa using hlive) hlow (by omega)
        have hfi : t.store.inners[f.id]? = some (some (f.inner (.leaf i))) :=
          hm (f.id, f.inner (.leaf i)) (by simp [Frame.nodes])
        have hlv : ∀ y ∈ c.lvL ++ g0.leaves ++ c.lvR, ∃ p n,
            s0.leaves[y.1]? = some (some ⟨y.2, p, n⟩) := by
          intro y hy
          obtain ⟨a, b, hab⟩ := List.append_of_mem hy
          have := hs.seg
          rw [hab] at this
          exact ⟨_, _, this.get⟩
        have him : IMem s0.inners (g0.nodes ++ c.nodes g0.nid) := by rw [hs.nid]; exact hs.imem
        have hnd : ((g0.nodes ++ c.nodes g0.nid).map (·.1)).Nodup := by rw [hs.nid]; exact hs.nodup
        -- the leaves of the final memory are those after the step at the leaf
        have hlvs : s2.leaves = s0.leaves := by
          have := remAscend_ok hμ (c := c) (s := s0) (st := st0) (x := g0)
            (x0 := f.fill ⟨i, d1 ++ kv :: d2⟩) (kv := kv) (d := d0) hs.nid hcs hs.out hlv him hnd
          rcases this with ⟨g1, d', inners, st', q1, q2, -⟩ | ⟨h0, -⟩
          · simp only [Ctx.stack] at e3
            rw [hs.run, ← hs.nid, q1] at e3
            have e3 := Except.ok.inj e3
            simp only [Prod.mk.injEq] at e3
            obtain ⟨rfl, rfl, rfl⟩ := e3
            rcases q2 with ⟨rfl, -⟩ | ⟨rfl, -⟩
            · have := Except.ok.inj e4
              simp only [Prod.mk.injEq] at this
              rw [← this.2.1]
            · obtain ⟨_, -, e4⟩ := bind_ok e4
              obtain ⟨_, -, e4⟩ := bind_ok e4
              split at e4
              · obtain ⟨_, -, e4⟩ := bind_ok e4
                have := Except.ok.inj e4
                simp only [Prod.mk.injEq] at this
                rw [← this.2.1]
              · have := Except.ok.inj e4
                simp only [Prod.mk.injEq] at this
                rw [← this.2.1]
          · omega
        have hch : ∃ L, Flat0 s0 L ∧ (L.flatMap (·.2)).length = t'.len ∧ ∀ x ∈ L.flatMap (·.2), P x := by
          obtain ⟨L, q1, q2⟩ := hS'.chain
          exact ⟨L, q1.congr hlvs, q2⟩
        have hrec := remAscendT_short hμ1 hμ (c := c) (s := s0) (st := st0) (x := g0) (kv := kv) (d := d0)
          (root := t.root) (by
            rw [hroot]
            exact Ctx.plug_nid (c := c) (x := (f.fill ⟨i, d1 ++ kv :: d2⟩ : T K V A 1)) (y := g0)
              (T.nid_fill.trans hs.nid.symm)) hcs hs.out hlv him hnd hch
        rw [hs.nid] at hrec
        simp only [Ctx.stack]
        have hrun1 := hs.run []
        have hgi : t.store.getInner f.id = .ok (f.inner (.leaf i)) := by simp [Store.getInner, hfi]
        simp only [removeAscend, hgi, ok_bind] at hrun1
        obtain ⟨⟨r', s', st', nd'⟩, hh, hrun1⟩ := bind_ok hrun1
        have hrun1 := Except.ok.inj hrun1
        simp only [Prod.mk.injEq] at hrun1
        obtain ⟨rfl, rfl, rfl⟩ := hrun1
        refine ⟨?_, fun _ pid idx cid stack nd q h1 h2 h3 => ?_⟩
        rotate_left
        · have h1 := (List.cons.inj h1).1
          simp only [Prod.mk.injEq] at h1
          obtain ⟨rfl, rfl, rfl⟩ := h1
          rw [hgi] at h2
          cases h2
          rw [hh] at h3
          cases h3
          have := (ghost_short (n := t'.len) (P := P) hcs hs.out.lens
            (fun y hy => by obtain ⟨p, n, h⟩ := hlv y hy; exact ⟨_, h⟩) him hnd hch).1
          rw [hroot]
          rw [show ((Ctx.cons f c).plug ⟨i, d1 ++ kv :: d2⟩ : T K V A H).nid = (c.plug g0).nid from
            Ctx.plug_nid (c := c) (x := (f.fill ⟨i, d1 ++ kv :: d2⟩ : T K V A 1)) (y := g0)
              (T.nid_fill.trans hs.nid.symm)]
          exact this
        refine Traced.all_lift_bind fun nd hnd' => ?_
        rw [hgi] at hnd'
        cases hnd'
        refine Traced.all_bind (handleLeafT_short hst hfi hD _ _) fun q hq => ?_
        rw [handleLeafUnderSizeT_result, hh] at hq
        cases hq
        exact Traced.all_mono (fun _ _ h _ => h) hrec
  obtain ⟨hloop, hstep⟩ := hloop
  refine ⟨?_, hstep⟩
  refine Traced.all_lift_bind fun q hq => Traced.all_lift_bind fun q1 hq1 => ?_
  rw [hget] at hq
  cases hq
  rw [e2] at hq1
  cases hq1
  refine Traced.all_bind (Traced.all_mapMem (Traced.all_mono (fun cb m h h' => ?_) hloop))
    fun q2 hq2 => ?_
  · refine ⟨H, t'.len, h fun hc => ?_, by simp only; omega⟩
    rcases h' hc with h' | h'
    · exact h'
    · exact absurd rfl h'
  rw [Traced.result_mapMem, removeAscendT_result, e3] at hq2
  cases hq2
  refine Traced.all_lift_bind fun q3 hq3 => ?_
  rw [e4] at hq3
  cases hq3
  refine Traced.all_bind (newAugmentationT_all (fun _ _ => hfinal)
    (fun _ _ => hfinal)) fun _ _ => Traced.all_guard fun _ => Traced.all_pure

theorem removeByRefT_short {μ : Nat} (hμ1 : 1 ≤ μ) (hμ : μ ≤ 16) {t t' : Tree K V A} {H H' : Nat} {g : T K V A H} {g' : T K V A H'}
    (w : WF0 μ t g) {c : Ctx K V A 0 H} {i : Nat} {d1 d2 : List (K × V)} {kv : K × V}
    (hp : c.plug ⟨i, d1 ++ kv :: d2⟩ = g) (hlen : c.LenOK)
    (hrun : t.removeByRef ⟨c.stack (.leaf i), i, d1.length⟩ = .ok (kv, t')) (w' : WF0 μ t' g')
    (hl' : t'.len + 1 = t.len) (hP : ∀ x ∈ g.toL, P x) (hP' : ∀ x ∈ g'.toL, P x) :
    (t.removeByRefT ⟨c.stack (.leaf i), i, d1.length⟩).All (fun cb m =>
      (cb.isFromLeaf → m.st.leafMerges = t.st.leafMerges ∨ m.root ≠ t.root) →
      ∃ H n, Short P m.store m.root H n ∧ n + 1 = m.len) :=
  (removeByRefT_short_step hμ1 hμ w hp hlen hrun w' hl' hP hP').1

end

section
variable [Augmentation K V A]

/-- From the first write of a removal on, the chain holds fewer items than `len` says, all of them
items of the map; the exception is `from_leaf` called while two leaves are merged. -/
theorem removeT_short {μ : Nat} (hμ1 : 1 ≤ μ) {t : Tree K V A} {l : List (K × V)} (h : UInvM μ t l) (o : Answers K) :
    (t.removeT o).All (fun cb m => cb ≠ .compare →
      (cb.isFromLeaf → m.st.leafMerges = t.st.leafMerges ∨ m.root ≠ t.root) →
      ∃ H n, Short (· ∈ l) m.store m.root H n ∧ n + 1 = m.len) := by
  obtain ⟨H, g, w, hl⟩ := h.ghost
  obtain ⟨c, x, hp, hlen, hdesc⟩ := descend_stackU w (w.depth h.lt) o
  have hleaves : g.leaves = c.lvL ++ (x.id, x.data) :: c.lvR := by
    rw [← hp, Ctx.leaves_plug]; simp [T.leaves]
  have hget := w.flat.get hleaves
  refine Traced.all_call_bind (fun h => absurd rfl h) <| Traced.all_lift_bind fun r hr => ?_
  unfold Tree.keyToRefU at hr
  rw [hdesc] at hr
  simp only [ok_bind] at hr
  simp only at hget
  rw [hget] at hr
  obtain ⟨i, d⟩ := x
  rcases locateSlotU_cases o d (lstId none c.lvL) (hdId c.lvR none) with ⟨a, kv, b, rfl, h1⟩ | ⟨a, b, rfl, h1⟩
  · obtain ⟨inst, -⟩ := exists_wellFoundedLT K
    simp only [ok_bind, h1, pure_ok] at hr
    cases hr
    rcases removeByRef_ok0 h.le w hp hlen with ⟨t', H', g', r1, r2, -, r4, -⟩ | ⟨r0, -⟩
    · refine Traced.all_bind (Traced.all_mono (fun _ _ h _ => h)
        (removeByRefT_short hμ1 h.le w hp hlen r1 r2 ?_ (fun x hx => hl ▸ hx) ?_)) fun _ _ => Traced.all_pure
      · rw [r2.len, w.len, r4, T.toL, hleaves]
        simp only [List.length_append, List.flatMap_append, List.flatMap_cons, List.length_cons]
        omega
      · intro y hy
        rw [r4] at hy
        rw [← hl, T.toL, hleaves]
        simp only [List.mem_append, List.flatMap_append, List.flatMap_cons, List.mem_cons] at hy ⊢
        tauto
    · omega
  · simp only [ok_bind, h1, pure_ok] at hr
    cases hr
    exact Traced.all_pure

/-- From the first write of a removal on, dropping the map panics; the exception is `from_leaf`
called while two leaves are merged. -/
theorem removeT_drop {μ : Nat} (hμ1 : 1 ≤ μ) {t : Tree K V A} {l : List (K × V)} (h : UInvM μ t l) (o : Answers K) :
    (t.removeT o).All (fun cb m => cb ≠ .compare →
      (cb.isFromLeaf → m.st.leafMerges = t.st.leafMerges ∨ m.root ≠ t.root) →
      m.drop = .error .panic) :=
  Traced.all_mono (fun _ _ h h1 h2 => by
    obtain ⟨H, n, h3, h4⟩ := h h1 h2
    exact h3.drop (by omega)) (removeT_short hμ1 h o)

end
end Bpt
