import Verif.Proofs.Crash

/-!
# The memory in which augmentations run during an insertion

Only what dropping the map needs: the descents to the first and last leaf, and the chain of leaves.
-/

namespace Bpt
variable {K V A : Type}

/-- `id` is the top of a tree of height `h` in the store whose leaves are live. -/
def Down (s : Store K V A) : Nat → NodeId → Prop
  | 0, id => ∃ i l, id = .leaf i ∧ s.leaves[i]? = some (some l)
  | h + 1, id => ∃ i n, id = .inner i ∧ s.inners[i]? = some (some n) ∧
      n.childs.length = n.keys.length + 1 ∧ ∀ c ∈ n.childs, Down s h c

/-- Following first children from `id` for `h` steps leads to leaf `f`. -/
def Leftmost (s : Store K V A) : Nat → NodeId → Nat → Prop
  | 0, id, f => id = .leaf f
  | h + 1, id, f => ∃ i n c, id = .inner i ∧ s.inners[i]? = some (some n) ∧
      n.childs.head? = some c ∧ Leftmost s h c f

theorem Down.unique {s : Store K V A} {h h' : Nat} {id : NodeId} (a : Down s h id)
    (b : Down s h' id) : h = h' := by
  induction h generalizing h' id with
  | zero =>
    obtain ⟨i, l, rfl, _⟩ := a
    cases h' with
    | zero => rfl
    | succ h' => obtain ⟨j, n, e, _⟩ := b; cases e
  | succ h ih =>
    obtain ⟨i, n, rfl, h1, h2, h3⟩ := a
    cases h' with
    | zero => obtain ⟨j, n, e, _⟩ := b; cases e
    | succ h' =>
      obtain ⟨j, n', e, h1', h2', h3'⟩ := b
      cases e
      rw [h1] at h1'
      cases h1'
      obtain ⟨c, hc⟩ : ∃ c, c ∈ n.childs := by
        cases hn : n.childs with
        | nil => simp [hn] at h2
        | cons c cs => exact ⟨c, by simp⟩
      rw [ih (h3 c hc) (h3' c hc)]

theorem Down.keep {s s' : Store K V A}
    (hi : ∀ (i : Nat) n, s.inners[i]? = some (some n) → s'.inners[i]? = some (some n))
    (hl : ∀ (i : Nat) l, s.leaves[i]? = some (some l) → ∃ l', s'.leaves[i]? = some (some l'))
    {h : Nat} {id : NodeId} (a : Down s h id) : Down s' h id := by
  induction h generalizing id with
  | zero =>
    obtain ⟨i, l, rfl, h1⟩ := a
    obtain ⟨l', h2⟩ := hl i l h1
    exact ⟨i, l', rfl, h2⟩
  | succ h ih =>
    obtain ⟨i, n, rfl, h1, h2, h3⟩ := a
    exact ⟨i, n, rfl, hi i n h1, h2, fun c hc => ih (h3 c hc)⟩

theorem Leftmost.keep {s s' : Store K V A}
    (hi : ∀ (i : Nat) n, s.inners[i]? = some (some n) → s'.inners[i]? = some (some n))
    {h : Nat} {id : NodeId} {f : Nat} (a : Leftmost s h id f) : Leftmost s' h id f := by
  induction h generalizing id with
  | zero => exact a
  | succ h ih =>
    obtain ⟨i, n, c, rfl, h1, h2, h3⟩ := a
    exact ⟨i, n, c, rfl, hi i n h1, h2, ih h3⟩

theorem setInner_get {s : Store K V A} {j : Nat} {n' n : Inner K A} (hj : s.inners[j]? = some (some n))
    (i : Nat) : (s.setInner j n').inners[i]? = if j = i then some (some n') else s.inners[i]? := by
  have hlt : j < s.inners.length := (List.getElem?_eq_some_iff.1 hj).1
  simp only [Store.setInner, List.getElem?_set, hlt, if_true]

/-- Rewriting an inner node with children of the right height. -/
theorem Down.set {s : Store K V A} {j hj : Nat} {n n' : Inner K A}
    {h : Nat} {id : NodeId} (a : Down s h id)
    (hn : s.inners[j]? = some (some n)) (hd : Down s (hj + 1) (.inner j))
    (hlen : n'.childs.length = n'.keys.length + 1) (hc : ∀ c ∈ n'.childs, Down s hj c) : Down (s.setInner j n') h id := by
  induction h generalizing id with
  | zero => exact a
  | succ h ih =>
    by_cases e : id = .inner j
    · subst e
      have := hd.unique a
      obtain rfl : hj = h := by omega
      exact ⟨j, n', rfl, by rw [setInner_get hn, if_pos rfl], hlen, fun c h => ih (hc c h)⟩
    · obtain ⟨i, m, rfl, h1, h2, h3⟩ := a
      refine ⟨i, m, rfl, ?_, h2, fun c hc => ih (h3 c hc)⟩
      rw [setInner_get hn, if_neg (by rintro rfl; exact e rfl), h1]

theorem Leftmost.set {s : Store K V A} {j : Nat} {n n' : Inner K A}
    {h : Nat} {id : NodeId} {f : Nat} (a : Leftmost s h id f)
    (hn : s.inners[j]? = some (some n)) (hh : n'.childs.head? = n.childs.head?) : Leftmost (s.setInner j n') h id f := by
  induction h generalizing id with
  | zero => exact a
  | succ h ih =>
    obtain ⟨i, m, c, rfl, h1, h2, h3⟩ := a
    by_cases e : j = i
    · subst e
      rw [hn] at h1
      cases h1
      exact ⟨j, n', c, rfl, by rw [setInner_get hn, if_pos rfl], by rw [hh, h2], ih h3⟩
    · exact ⟨i, m, c, rfl, by rw [setInner_get hn, if_neg e, h1], h2, ih h3⟩

/-- The nodes of the visit stack. -/
def StackDown (s : Store K V A) : Nat → List StackEntry → Prop
  | _, [] => True
  | h, e :: st => Down s (h + 1) (.inner e.1) ∧ StackDown s (h + 1) st

theorem StackDown.mono {s s' : Store K V A} (hk : ∀ h id, Down s h id → Down s' h id) {h : Nat}
    {st : List StackEntry} (a : StackDown s h st) : StackDown s' h st := by
  induction st generalizing h with
  | nil => trivial
  | cons e st ih => exact ⟨hk _ _ a.1, ih a.2⟩

/-- The node a split hands to its parent. -/
def RightDown (s : Store K V A) (h : Nat) : InsertResult K V → Prop
  | .split _ rc => Down s h rc
  | _ => True

/-- What dropping needs. -/
structure Mid (s : Store K V A) (root : NodeId) (H f : Nat) (lv : List (Option (Leaf K V)))
    (N : Nat) : Prop where
  down : Down s H root
  left : Leftmost s H root f
  leaves : s.leaves = lv
  size : N ≤ s.inners.length

theorem Mid.set {s : Store K V A} {root : NodeId} {H f : Nat} {lv : List (Option (Leaf K V))} {N : Nat}
    (a : Mid s root H f lv N) {j hj : Nat} {n n' : Inner K A}
    (hn : s.inners[j]? = some (some n)) (hd : Down s (hj + 1) (.inner j))
    (hlen : n'.childs.length = n'.keys.length + 1) (hc : ∀ c ∈ n'.childs, Down s hj c)
    (hh : n'.childs.head? = n.childs.head?) : Mid (s.setInner j n') root H f lv N :=
  ⟨a.down.set hn hd hlen hc, a.left.set hn hh, a.leaves, by simpa [Store.setInner] using a.size⟩

theorem addInner_keep {s : Store K V A} {n : Inner K A} {i : Nat} {m : Inner K A}
    (h : s.inners[i]? = some (some m)) : (s.addInner n).1.inners[i]? = some (some m) := by
  have hlt : i < s.inners.length := (List.getElem?_eq_some_iff.1 h).1
  simp only [Store.addInner]
  rw [List.getElem?_append_left hlt, h]

theorem Down.add {s : Store K V A} {n : Inner K A} {h : Nat} {id : NodeId} (a : Down s h id) :
    Down (s.addInner n).1 h id :=
  a.keep (fun _ _ h => addInner_keep h) (fun i l h => ⟨l, h⟩)

theorem Mid.add {s : Store K V A} {root : NodeId} {H f : Nat} {lv : List (Option (Leaf K V))} {N : Nat}
    (a : Mid s root H f lv N) {n : Inner K A} : Mid (s.addInner n).1 root H f lv N :=
  ⟨a.down.add, a.left.keep (fun _ _ h => addInner_keep h), a.leaves,
    by simp only [Store.addInner, List.length_append]; have := a.size; omega⟩

/-! ## Shapes of the rewritten nodes -/

theorem setAugmentation_eq {n n' : Inner K A} {i : Nat} {a : A} (h : n.setAugmentation i a = .ok n') :
    n'.childs = n.childs ∧ n'.keys = n.keys := by
  unfold Inner.setAugmentation at h
  split at h
  · cases h; exact ⟨rfl, rfl⟩
  · cases h

theorem sliceInsert_eq {α : Type} {l l' : List α} {i : Nat} {x : α} (h : sliceInsert l i x = .ok l') :
    i ≤ l.length ∧ l' = l.take i ++ x :: l.drop i := by
  unfold sliceInsert at h
  split at h
  · next hi => cases h; exact ⟨hi, rfl⟩
  · cases h

theorem mem_insert {α : Type} {l : List α} {i : Nat} {x c : α} (h : c ∈ l.take i ++ x :: l.drop i) :
    c ∈ l ∨ c = x := by
  simp only [List.mem_append, List.mem_cons] at h
  rcases h with h | h | h
  · exact .inl (List.mem_of_mem_take h)
  · exact .inr h
  · exact .inl (List.mem_of_mem_drop h)

theorem head_insert {α : Type} {l : List α} {i : Nat} {x : α} (h : l ≠ []) (hi : 0 < i) :
    (l.take i ++ x :: l.drop i).head? = l.head? := by
  obtain ⟨a, l, rfl⟩ := List.exists_cons_of_ne_nil h
  obtain ⟨i, rfl⟩ : ∃ j, i = j + 1 := ⟨i - 1, by omega⟩
  simp

theorem insertAt_eq {n n' : Inner K A} {i : Nat} {k : K} {c : NodeId} {a : A}
    (hl : n.childs.length = n.keys.length + 1) (h : n.insertAt i k c a = .ok n') :
    n'.childs.length = n'.keys.length + 1 ∧ (∀ x ∈ n'.childs, x ∈ n.childs ∨ x = c) ∧
      n'.childs.head? = n.childs.head? := by
  unfold Inner.insertAt at h
  split at h
  · cases h
  · obtain ⟨ks, h1, h⟩ := bind_ok h
    obtain ⟨cs, h2, h⟩ := bind_ok h
    obtain ⟨as, h3, h⟩ := bind_ok h
    cases h
    obtain ⟨l1, rfl⟩ := sliceInsert_eq h1
    obtain ⟨l2, rfl⟩ := sliceInsert_eq h2
    refine ⟨?_, fun x hx => mem_insert hx, head_insert (by rintro h; simp [h] at hl) (by omega)⟩
    simp only [List.length_append, List.length_take, List.length_cons, List.length_drop]
    omega

theorem split_eq {n n1 n2 : Inner K A} {i : Nat} {k k' : K} {c : NodeId} {a : A}
    (hl : n.childs.length = n.keys.length + 1) (h : n.split i k c a = .ok (k', n1, n2)) :
    n1.childs.length = n1.keys.length + 1 ∧ (∀ x ∈ n1.childs, x ∈ n.childs ∨ x = c) ∧
      n1.childs.head? = n.childs.head? ∧
    n2.childs.length = n2.keys.length + 1 ∧ (∀ x ∈ n2.childs, x ∈ n.childs ∨ x = c) := by
  have e32 : splitOrigin = 32 := rfl
  have hne : n.childs ≠ [] := by rintro h; simp [h] at hl
  unfold Inner.split at h
  split at h
  · cases h
  next hfull =>
  have hk : n.keys.length = 64 := by
    simpa [Inner.isFull, Inner.len, innerN] using hfull
  split at h
  · cases h
  next hi =>
  have hi : i ≤ 64 := by simpa [innerN] using hi
  split at h
  · next hlt =>
    obtain ⟨nk, h1, h⟩ := bind_ok h
    obtain ⟨ks, h2, h⟩ := bind_ok h
    obtain ⟨cs, h3, h⟩ := bind_ok h
    obtain ⟨as, h4, h⟩ := bind_ok h
    cases h
    obtain ⟨l2, rfl⟩ := sliceInsert_eq h2
    obtain ⟨l3, rfl⟩ := sliceInsert_eq h3
    refine ⟨?_, ?_, ?_, ?_, ?_⟩
    · simp only [List.length_append, List.length_take, List.length_cons, List.length_drop] at *
      omega
    · intro x hx
      exact (mem_insert hx).imp List.mem_of_mem_take id
    · have ht : n.childs.take splitOrigin ≠ [] := by
        intro h
        have := congrArg List.length h
        simp only [List.length_take, List.length_nil] at this
        omega
      show (List.take (i + 1) (n.childs.take splitOrigin) ++ c :: _).head? = _
      rw [head_insert ht (by omega), List.head?_take, if_neg (by rw [e32]; simp)]
    · simp only [List.length_drop]; omega
    · intro x hx; exact .inl (List.mem_of_mem_drop hx)
  · split at h
    · next h1 h2 =>
      obtain ⟨nk, h1, h⟩ := bind_ok h
      cases h
      refine ⟨?_, ?_, ?_, ?_, ?_⟩
      · simp only [List.length_take]; omega
      · intro x hx; exact .inl (List.mem_of_mem_take hx)
      · rw [List.head?_take, if_neg (by simp)]
      · simp only [List.length_append, List.length_take, List.length_cons, List.length_drop]
        omega
      · intro x hx
        simp only [List.mem_append, List.mem_cons] at hx
        rcases hx with h | h | h
        · exact .inl (List.mem_of_mem_drop (List.mem_of_mem_take h))
        · exact .inr h
        · exact .inl (List.mem_of_mem_drop h)
    · cases h
      refine ⟨?_, ?_, ?_, ?_, ?_⟩
      · simp only [List.length_take]; omega
      · intro x hx; exact .inl (List.mem_of_mem_take hx)
      · rw [List.head?_take, if_neg (by simp)]
      · simp only [List.length_cons, List.length_drop]; omega
      · intro x hx
        simp only [List.mem_cons] at hx
        exact hx.elim .inr (fun h => .inl (List.mem_of_mem_drop h))

/-! ## The ascending loop -/

section
variable [Augmentation K V A]

theorem getInner_eq {s : Store K V A} {i : Nat} {n : Inner K A} (h : s.getInner i = .ok n) :
    s.inners[i]? = some (some n) := by
  unfold Store.getInner at h
  split at h
  · next e => cases h; exact e
  · cases h

theorem insertAscendT_mid {root : NodeId} {H f : Nat} {lv : List (Option (Leaf K V))} {N : Nat}
    {stack : List StackEntry} {s : Store K V A} {r : InsertResult K V} {h : Nat}
    (a : Mid s root H f lv N) (hs : StackDown s h stack) (hr : RightDown s h r) :
    (insertAscendT s stack r).All (fun _ m => Mid m root H f lv N) ∧
    ∀ s' r', (insertAscendT s stack r).result = .ok (s', r') → Mid s' root H f lv N := by
  induction stack generalizing s r h with
  | nil => exact ⟨Traced.all_pure, fun s' r' e => by cases e; exact a⟩
  | cons e stack ih =>
    obtain ⟨id, idx, c⟩ := e
    have ha := fun i => newAugmentationT_all (i := i) (s := s)
      (P := fun _ (m : Store K V A) => Mid m root H f lv N) (fun _ => a) (fun _ => a)
    obtain ⟨i', n, e, hn, hl, hc⟩ := hs.1
    cases e
    -- rewriting only the augmentations
    have same : ∀ n1 n2 a1, s.getInner id = .ok n1 → n1.setAugmentation idx a1 = .ok n2 →
        Mid (s.setInner id n2) root H f lv N ∧ StackDown (s.setInner id n2) (h + 1) stack := by
      intro n1 n2 a1 h1 h2
      have h1 := getInner_eq h1
      rw [hn] at h1
      cases h1
      obtain ⟨e1, e2⟩ := setAugmentation_eq h2
      have hlen : n2.childs.length = n2.keys.length + 1 := by rw [e1, e2, hl]
      have hcs : ∀ c ∈ n2.childs, Down s h c := by rw [e1]; exact hc
      exact ⟨a.set hn hs.1 hlen hcs (by rw [e1]),
        hs.2.mono fun _ _ hd => hd.set hn hs.1 hlen hcs⟩
    cases r with
    | inserted =>
      constructor
      · refine Traced.all_bind (ha _) fun _ _ => Traced.all_lift_bind fun n1 h1 =>
          Traced.all_lift_bind fun n2 h2 => ?_
        obtain ⟨m1, m2⟩ := same n1 n2 _ h1 h2
        exact (ih m1 m2 (by exact trivial)).1
      · intro s' r' e
        simp only [insertAscendT, Traced.result_bind] at e
        obtain ⟨a1, -, e⟩ := bind_ok e
        obtain ⟨n1, h1, e⟩ := bind_ok e
        obtain ⟨n2, h2, e⟩ := bind_ok e
        obtain ⟨m1, m2⟩ := same n1 n2 _ h1 h2
        exact (ih m1 m2 (by exact trivial)).2 s' r' e
    | updated v =>
      constructor
      · refine Traced.all_bind (ha _) fun _ _ => Traced.all_lift_bind fun n1 h1 =>
          Traced.all_lift_bind fun n2 h2 => ?_
        obtain ⟨m1, m2⟩ := same n1 n2 _ h1 h2
        exact (ih m1 m2 (by exact trivial)).1
      · intro s' r' e
        simp only [insertAscendT, Traced.result_bind] at e
        obtain ⟨a1, -, e⟩ := bind_ok e
        obtain ⟨n1, h1, e⟩ := bind_ok e
        obtain ⟨n2, h2, e⟩ := bind_ok e
        obtain ⟨m1, m2⟩ := same n1 n2 _ h1 h2
        exact (ih m1 m2 (by exact trivial)).2 s' r' e
    | split key rc =>
      have hrc : Down s h rc := hr
      have kids : ∀ n1 n2 a1, s.getInner id = .ok n1 → n1.setAugmentation idx a1 = .ok n2 →
          n1 = n ∧ n2.childs.length = n2.keys.length + 1 ∧ n2.childs.head? = n.childs.head? ∧
          ∀ x, (x ∈ n2.childs ∨ x = rc) → Down s h x := by
        intro n1 n2 a1 h1 h2
        have h1 := getInner_eq h1
        rw [hn] at h1
        cases h1
        obtain ⟨e1, e2⟩ := setAugmentation_eq h2
        refine ⟨rfl, by rw [e1, e2, hl], by rw [e1], ?_⟩
        rw [e1]
        rintro x (hx | rfl)
        · exact hc x hx
        · exact hrc
      have ins : ∀ n1 n2 a1 a2 n3, s.getInner id = .ok n1 → n1.setAugmentation idx a1 = .ok n2 →
          n2.insertAt idx key rc a2 = .ok n3 →
          Mid (s.setInner id n3) root H f lv N ∧ StackDown (s.setInner id n3) (h + 1) stack := by
        intro n1 n2 a1 a2 n3 h1 h2 h3
        obtain ⟨-, k2, k3, k4⟩ := kids n1 n2 a1 h1 h2
        obtain ⟨j1, j2, j3⟩ := insertAt_eq k2 h3
        have hcs : ∀ c ∈ n3.childs, Down s h c := fun x hx => k4 x (j2 x hx)
        exact ⟨a.set hn hs.1 j1 hcs (by rw [j3, k3]),
          hs.2.mono fun _ _ hd => hd.set hn hs.1 j1 hcs⟩
      have spl : ∀ n1 n2 a1 a2 k' n3 n4, s.getInner id = .ok n1 → n1.setAugmentation idx a1 = .ok n2 →
          n2.split idx key rc a2 = .ok (k', n3, n4) →
          Mid ((s.setInner id n3).addInner n4).1 root H f lv N ∧
          StackDown ((s.setInner id n3).addInner n4).1 (h + 1) stack ∧
          RightDown (V := V) ((s.setInner id n3).addInner n4).1 (h + 1)
            (.split k' (.inner ((s.setInner id n3).addInner n4).2)) := by
        intro n1 n2 a1 a2 k' n3 n4 h1 h2 h3
        obtain ⟨-, k2, k3, k4⟩ := kids n1 n2 a1 h1 h2
        obtain ⟨j1, j2, j3, j4, j5⟩ := split_eq k2 h3
        have hcs : ∀ c ∈ n3.childs, Down s h c := fun x hx => k4 x (j2 x hx)
        refine ⟨(a.set hn hs.1 j1 hcs (by rw [j3, k3])).add,
          hs.2.mono fun _ _ hd => (hd.set hn hs.1 j1 hcs).add, ?_⟩
        refine ⟨_, n4, rfl, by simp [Store.addInner], j4, ?_⟩
        intro x hx
        exact ((k4 x (j5 x hx)).set hn hs.1 j1 hcs).add
      constructor
      · refine Traced.all_bind (ha _) fun a2 _ => Traced.all_bind (ha _) fun a1 _ =>
          Traced.all_lift_bind fun n1 h1 => Traced.all_lift_bind fun n2 h2 => ?_
        split
        · refine Traced.all_lift_bind fun n3 h3 => ?_
          obtain ⟨m1, m2⟩ := ins n1 n2 _ _ n3 h1 h2 h3
          exact (ih m1 m2 (by exact trivial)).1
        · refine Traced.all_lift_bind fun r3 h3 => ?_
          obtain ⟨k', n3, n4⟩ := r3
          obtain ⟨m1, m2, m3⟩ := spl n1 n2 _ _ k' n3 n4 h1 h2 h3
          exact (ih m1 m2 m3).1
      · intro s' r' e
        simp only [insertAscendT, Traced.result_bind] at e
        obtain ⟨a2, -, e⟩ := bind_ok e
        obtain ⟨a1, -, e⟩ := bind_ok e
        obtain ⟨n1, h1, e⟩ := bind_ok e
        obtain ⟨n2, h2, e⟩ := bind_ok e
        split at e
        · simp only [Traced.result_bind] at e
          obtain ⟨n3, h3, e⟩ := bind_ok e
          obtain ⟨m1, m2⟩ := ins n1 n2 _ _ n3 h1 h2 h3
          exact (ih m1 m2 (by exact trivial)).2 s' r' e
        · simp only [Traced.result_bind] at e
          obtain ⟨⟨k', n3, n4⟩, h3, e⟩ := bind_ok e
          obtain ⟨m1, m2, m3⟩ := spl n1 n2 _ _ k' n3 n4 h1 h2 h3
          exact (ih m1 m2 m3).2 s' r' e

end

/-! ## Dropping from such a memory -/

theorem childId_of_mem {n : Inner K A} {i : Nat} {c : NodeId} (h : n.childs[i]? = some c) :
    n.childId i = .ok c := by
  simp [Inner.childId, readAt, h]

theorem Down.last {s : Store K V A} {h : Nat} {id : NodeId} (a : Down s h id) (fuel : Nat)
    (hf : h ≤ fuel) : ∃ i l, s.leaves[i]? = some (some l) ∧
      descend (β := Empty) s (fun st i n => do let r ← lastStep st i n; return .inr r) fuel () id
        = .ok (.inr ((), i)) := by
  induction h generalizing id fuel with
  | zero =>
    obtain ⟨i, l, rfl, h1⟩ := a
    exact ⟨i, l, h1, by cases fuel <;> rfl⟩
  | succ h ih =>
    obtain ⟨i, n, rfl, h1, h2, h3⟩ := a
    obtain ⟨fuel, rfl⟩ : ∃ m, fuel = m + 1 := ⟨fuel - 1, by omega⟩
    have hlt : n.keys.length < n.childs.length := by omega
    obtain ⟨j, l, h4, h5⟩ := ih (h3 _ (List.getElem_mem hlt)) fuel (by omega)
    refine ⟨j, l, h4, ?_⟩
    rw [descend, Store.getInner, h1]
    simp only [ok_bind, lastStep, Inner.len,
      childId_of_mem (List.getElem?_eq_getElem hlt), pure_ok]
    exact h5

theorem Leftmost.first {s : Store K V A} {h : Nat} {id : NodeId} {f : Nat} (a : Leftmost s h id f)
    (fuel : Nat) (hf : h ≤ fuel) :
      descend (β := Empty) s (fun st i n => do let r ← firstStep st i n; return .inr r) fuel () id
        = .ok (.inr ((), f)) := by
  induction h generalizing id fuel with
  | zero =>
    have : id = .leaf f := a
    subst this
    cases fuel <;> rfl
  | succ h ih =>
    obtain ⟨i, n, c, rfl, h1, h2, h3⟩ := a
    obtain ⟨fuel, rfl⟩ : ∃ m, fuel = m + 1 := ⟨fuel - 1, by omega⟩
    rw [descend, Store.getInner, h1]
    simp only [ok_bind, firstStep, childId_of_mem (List.head?_eq_getElem? ▸ h2), pure_ok]
    exact ih h3 fuel (by omega)

/-- The forward direction of the owning iterator does not read its other end. -/
theorem nextAux_end (n : Nat) (it : IntoIter K V A) (e : Nat × Nat) :
    ({ it with end_ := e } : IntoIter K V A).nextAux n
      = (it.nextAux n).map (fun r => (r.1, { r.2 with end_ := e })) := by
  induction n generalizing it with
  | zero => rfl
  | succ n ih =>
    unfold IntoIter.nextAux
    simp only
    by_cases h0 : it.len = 0
    · rw [if_pos h0, if_pos h0]; rfl
    · simp only [if_neg h0]
      cases it.store.getLeaf it.pos.1 with
      | error e => rfl
      | ok leaf =>
        simp only [ok_bind]
        by_cases h1 : it.pos.2 < leaf.len
        · simp only [if_pos h1, IntoIter.takeData]
          cases leaf.data[it.pos.2]? with
          | none => rfl
          | some kv =>
            simp only
            split <;> rfl
        · simp only [if_neg h1]
          cases leaf.next with
          | none => rfl
          | some j => exact ih { it with pos := (j, 0) }

theorem dropAux_end (n : Nat) (it : IntoIter K V A) (e : Nat × Nat) :
    ({ it with end_ := e } : IntoIter K V A).dropAux n = it.dropAux n := by
  induction n generalizing it with
  | zero => rfl
  | succ n ih =>
    unfold IntoIter.dropAux IntoIter.next
    rw [nextAux_end]
    cases it.nextAux (it.store.leaves.length + 1) with
    | error e => rfl
    | ok r =>
      obtain ⟨o, it'⟩ := r
      cases o with
      | none => rfl
      | some kv =>
        simp only [Except.map, ok_bind, ih]

theorem At.exists {L : List (Nat × List (K × V))} (hne : L ≠ []) {n : Nat}
    (h : n ≤ (L.flatMap (·.2)).length) : ∃ i s, At L i s n := by
  induction L generalizing n with
  | nil => exact absurd rfl hne
  | cons x L ih =>
    by_cases hn : n ≤ x.2.length
    · exact ⟨x.1, n, [], x, L, rfl, rfl, hn, by simp⟩
    · have hL : L ≠ [] := by
        rintro rfl
        simp at h
        omega
      simp only [List.flatMap_cons, List.length_append] at h
      obtain ⟨i, s, LA, y, LB, e, h1, h2, h3⟩ := ih hL (n := n - x.2.length) (by omega)
      refine ⟨i, s, x :: LA, y, LB, by rw [e]; rfl, h1, h2, ?_⟩
      simp only [List.flatMap_cons, List.length_append]
      omega

theorem drop_mid {t : Tree K V A} {L : List (Nat × List (K × V))} (hf : Flat0 t.store L)
    {x : Nat × List (K × V)} {L' : List (Nat × List (K × V))} (hL : L = x :: L')
    (hfirst : t.firstLeaf = .ok x.1) {i : Nat} {l : Leaf K V}
    (hlast : t.lastLeaf = .ok i) (hi : t.store.leaves[i]? = some (some l))
    (hlen : t.len ≤ (L.flatMap (·.2)).length) :
    t.drop = .ok ((L.flatMap (·.2)).take t.len) := by
  have hget : t.store.getLeaf i = .ok l := by simp [Store.getLeaf, hi]
  obtain ⟨j, s, hat⟩ := At.exists hf.ne hlen
  have h : II L (⟨t.store, t.len, (x.1, 0), (j, s), []⟩ : IntoIter K V A) 0 t.len :=
    ⟨hf, Nat.zero_le _, hlen, rfl, ⟨[], x, L', hL, rfl, Nat.zero_le _, rfl⟩, hat, by simp⟩
  have := into_dropAux_ok (t.len + 1) h (by omega)
  rw [List.drop_zero] at this
  rw [← this]
  unfold Tree.drop Tree.intoIter
  simp only [hfirst, hlast, hget, ok_bind, pure_ok, IntoIter.drop]
  exact dropAux_end _ (⟨t.store, t.len, (x.1, 0), (j, s), []⟩ : IntoIter K V A) (i, l.len)

theorem Mid.drop {t : Tree K V A} {H : Nat} {lv : List (Option (Leaf K V))}
    {s0 : Store K V A} {L : List (Nat × List (K × V))} (hf : Flat0 s0 L)
    {x : Nat × List (K × V)} {L' : List (Nat × List (K × V))} (hL : L = x :: L')
    {N : Nat} (hN : H ≤ N + 1) (hlv : s0.leaves = lv) {s : Store K V A}
    (m : Mid s t.root H x.1 lv N)
    (hlen : t.len ≤ (L.flatMap (·.2)).length) :
    ({ t with store := s } : Tree K V A).drop = .ok ((L.flatMap (·.2)).take t.len) := by
  have e : s0.leaves = s.leaves := by rw [hlv, m.leaves]
  have hf' : Flat0 s L := ⟨e ▸ hf.seg, hf.nodup, e ▸ hf.live, hf.ne, hf.nonempty⟩
  have hfuel : H ≤ s.fuel := by have := m.size; unfold Store.fuel; omega
  obtain ⟨i, l, h1, h2⟩ := m.down.last s.fuel hfuel
  refine drop_mid (t := { t with store := s }) hf' hL ?_ (i := i) (l := l) ?_ h1 hlen
  · unfold Tree.firstLeaf descendLeaf
    rw [m.left.first s.fuel hfuel]; rfl
  · unfold Tree.lastLeaf descendLeaf
    rw [h2]; rfl

/-! ## The memory the ascending loop starts from -/

theorem spine_mem {α : Type} {P Q : α → Prop} {l : List α} (h : SpineL P Q l) :
    ∀ a ∈ l, P a ∨ Q a := by
  induction l with
  | nil => simp
  | cons a l ih =>
    rw [SpineL_cons] at h
    intro b hb
    rcases List.mem_cons.1 hb with rfl | hb
    · have := h.1
      split at this
      · exact .inr this
      · exact .inl this
    · exact ih h.2 b hb

/-- Every node has one child more than keys. -/
def T.Lens : {h : Nat} → T K V A h → Prop
  | 0, _ => True
  | _ + 1, x => (GNode.kids x).length = (GNode.keys x).length + 1 ∧ ∀ c ∈ GNode.kids x, T.Lens c

theorem T.ShapeTop.lensAll {μ h : Nat} {x : T K V A h} {m : Nat} {r : Bool}
    (hx : x.ShapeTop μ m r) : x.Lens := by
  induction h generalizing m r with
  | zero => trivial
  | succ h ih =>
    refine ⟨hx.lens.1, fun c hc => ?_⟩
    rcases spine_mem hx.2.2.2.2 c hc with h | h
    · exact ih h
    · exact ih h

theorem T.down {s : Store K V A} {h : Nat} {x : T K V A h}
    (hm : IMem s.inners x.nodes) (hl : ∀ y ∈ x.leaves, ∃ l, s.leaves[y.1]? = some (some l))
    (hx : x.Lens) : Down s h x.nid := by
  induction h with
  | zero =>
    obtain ⟨l, hl⟩ := hl (GLeaf.id x, GLeaf.data x) (by simp [T.leaves])
    exact ⟨GLeaf.id x, l, rfl, hl⟩
  | succ h ih =>
    refine ⟨GNode.id x, GNode.inner x, rfl, hm (GNode.id x, GNode.inner x) (by simp [T.nodes]), ?_, ?_⟩
    · simp [GNode.inner, hx.1]
    · intro c hc
      simp only [GNode.inner, List.mem_map] at hc
      obtain ⟨y, hy, rfl⟩ := hc
      have hm' : IMem s.inners y.nodes := fun p hp => hm p (by
        simp only [T.nodes, List.mem_cons, List.mem_flatMap]
        exact .inr ⟨y, hy, hp⟩)
      have hl' : ∀ z ∈ y.leaves, ∃ l, s.leaves[z.1]? = some (some l) := fun z hz => hl z (by
        simp only [T.leaves, List.mem_flatMap]
        exact ⟨y, hy, hz⟩)
      exact ih hm' hl' (hx.2 y hy)

theorem T.leftmost {s : Store K V A} {μ h : Nat} {x : T K V A h} {m : Nat} {r : Bool}
    (hm : IMem s.inners x.nodes) (hx : x.ShapeTop μ m r) :
    ∃ y L, x.leaves = y :: L ∧ Leftmost s h x.nid y.1 := by
  induction h generalizing m r with
  | zero => exact ⟨_, [], rfl, rfl⟩
  | succ h ih =>
    have hlen := hx.lens.1
    obtain ⟨k, ks, hk⟩ : ∃ k ks, GNode.kids x = k :: ks := by
      cases hk : GNode.kids x with
      | nil => simp [hk] at hlen
      | cons k ks => exact ⟨k, ks, rfl⟩
    have hm' : IMem s.inners k.nodes := fun p hp => hm p (by
      simp only [T.nodes, List.mem_cons, List.mem_flatMap]
      exact .inr ⟨k, by simp [hk], hp⟩)
    have hsh := hx.2.2.2.2
    rw [hk] at hsh
    have : ∃ m' r', k.ShapeTop μ m' r' := by
      rcases spine_mem hsh k (by simp) with h | h
      · exact ⟨_, _, h⟩
      · exact ⟨_, _, h⟩
    obtain ⟨m', r', hk'⟩ := this
    obtain ⟨y, L, h1, h2⟩ := ih hm' hk'
    refine ⟨y, L ++ ks.flatMap T.leaves, ?_, GNode.id x, GNode.inner x, k.nid, rfl,
      hm (GNode.id x, GNode.inner x) (by simp [T.nodes]), by simp [GNode.inner, hk], h2⟩
    simp [T.leaves, hk, h1]

theorem Ctx.stackDown {s : Store K V A} {h H : Nat} {c : Ctx K V A h H} {x : T K V A h}
    (hm : IMem s.inners (c.plug x).nodes) (hd : Down s H (c.plug x).nid) :
    Down s h x.nid ∧ StackDown s h (c.stack x.nid) := by
  induction c with
  | nil => exact ⟨hd, trivial⟩
  | cons f c ih =>
    obtain ⟨h1, h2⟩ := ih (x := f.fill x) hm hd
    refine ⟨?_, h1, h2⟩
    obtain ⟨i, n, e, hn, -, hc⟩ := h1
    cases e
    have : s.inners[f.id]? = some (some (f.inner x.nid)) := by
      refine hm (f.id, f.inner x.nid) ((Ctx.nodes_plug (c := Ctx.cons f c)).symm.subset ?_)
      simp [Ctx.nodes, Frame.nodes]
    rw [T.nid_fill] at *
    rw [Frame.fill_id] at hn
    rw [hn] at this
    cases this
    exact hc _ (by simp [Frame.inner])

/-! ## Insertions -/

section
variable [Augmentation K V A]

omit [Augmentation K V A] in
theorem insertLeafT_kind (o : Answers K) (s : Store K V A) (id : Nat) (k : K) (v : V) :
    (insertLeafT o s id k v).All (fun c _ => c = .compare ∨ c = .cloneKey) := by
  refine Traced.all_lift_bind fun leaf _ => Traced.all_call_bind (.inl rfl) ?_
  refine Traced.all_lift_bind fun slot _ => Traced.all_lift_bind fun r _ => ?_
  split
  · exact Traced.all_pure
  · exact Traced.all_pure
  · exact Traced.all_lift_bind fun _ _ => Traced.all_lift_bind fun _ _ =>
      Traced.all_lift_bind fun _ _ => Traced.all_call_bind (.inr rfl) <|
      Traced.all_lift_bind fun _ _ => Traced.all_lift_bind fun _ _ => Traced.all_pure

/-- The memory of an insertion once the leaf is written: where the search ends, what is invariant from
there on, and what the invariant gives. -/
theorem insert_mid {μ : Nat} {t : Tree K V A} {l : List (K × V)} (h : UInvM μ t l) (hl1 : t.len + 1 < 2 ^ 64)
    (o : Answers K) (k : K) (v : V) :
    ∃ r0 t'' l'', t.insertU o k v = .ok (r0, t'') ∧ UInvM μ t'' l'' ∧
      Effect (.insert k v) (.value r0) l l'' ∧
      ∃ stack id s1 r H f N, descendLeaf t.store (stackStepU o) [] t.root = .ok (stack, id) ∧
        insertLeafU o t.store id k v = .ok (s1, r) ∧
        Mid s1 t.root H f s1.leaves N ∧ StackDown s1 0 stack ∧ RightDown s1 0 r ∧
        ∀ m, Mid m t.root H f s1.leaves N →
          ({ t with store := m } : Tree K V A).drop = .ok (l''.take l.length) ∧
          ∃ H L, Down m H t.root ∧ H ≤ m.fuel ∧ Flat0 m L ∧ L.flatMap (·.2) = l'' := by
  obtain ⟨r0, t'', l'', hrun0, hU, heff⟩ := insertU_ok h hl1 o k v
  refine ⟨r0, t'', l'', hrun0, hU, heff, ?_⟩
  obtain ⟨H, g, w, hl⟩ := h.ghost
  obtain ⟨c, x, hp, hlen, hdesc⟩ := descend_stackU w (w.depth h.lt) o
  obtain ⟨hcS, hxS⟩ := Ctx.shape_plug.1 ⟨hp ▸ w.shape, hlen⟩
  have hleaves : g.leaves = c.lvL ++ (x.id, x.data) :: c.lvR := by
    rw [← hp, Ctx.leaves_plug]; simp [T.leaves]
  obtain ⟨slot, hslot, hin⟩ := locateSlotU_ok o ⟨x.data, lstId none c.lvL, hdId c.lvR none⟩
  obtain ⟨s1, r, u, hins, li⟩ := insertLeafAt_ok (s := t.store) (LA := c.lvL) (LB := c.lvR) (id := x.id)
    (d := x.data) (hleaves ▸ w.seg) (hleaves ▸ w.lnodup) (hleaves ▸ w.live) hxS.2 hin k v
  obtain ⟨t', H', g', hrun, hw, -, hlvs, -⟩ := insert_core h.le w hp hlen li
  have hget := w.flat.get hleaves
  have hinsU : insertLeafU o t.store x.id k v = .ok (s1, r) := by
    unfold insertLeafU
    simp only at hget
    rw [hget]
    simp only [ok_bind, hslot, hins]
  have hrun' : t.insertU o k v = .ok (r.kind, t') := by
    unfold Tree.insertU
    rw [descendInsertU_eq, hdesc]
    simp only [ok_bind, hinsU]
    exact hrun
  rw [hrun'] at hrun0
  obtain ⟨rfl, rfl⟩ := Prod.mk.inj (Except.ok.inj hrun0)
  -- the content of the final tree
  have hL2 : l'' = g'.toL := by
    have e1 := hU.contents.drop
    have e2 := drop_ok hw.reads
    rw [e1] at e2
    exact Except.ok.inj e2
  -- the leaf part left every leaf of the path live
  have hlive : ∀ y ∈ (c.plug x).leaves, ∃ l, s1.leaves[y.1]? = some (some l) := by
    intro y hy
    rw [Ctx.leaves_plug] at hy
    have : y.1 ∈ (c.lvL ++ u.leaves ++ c.lvR).map (·.1) := by
      have hu : x.id ∈ u.leaves.map (·.1) := by
        have := li.nid
        cases u with
        | one y => simpa [Up.nid, Up.leaves, T.leaves, T.nid] using this.symm
        | two y m z =>
          have : y.id = x.id := by simpa [Up.nid, T.nid] using this
          simp [Up.leaves, T.leaves, ← this]
      simp only [T.leaves, List.mem_append, List.mem_singleton] at hy
      simp only [List.map_append, List.mem_append]
      rcases hy with (hy | rfl) | hy
      · exact .inl (.inl (List.mem_map_of_mem hy))
      · exact .inl (.inr hu)
      · exact .inr (List.mem_map_of_mem hy)
    obtain ⟨y', hy', e⟩ := List.mem_map.1 this
    obtain ⟨a, b, hab⟩ := List.append_of_mem hy'
    have := li.seg
    rw [hab] at this
    exact ⟨_, e ▸ this.get⟩
  have hm : IMem s1.inners (c.plug x).nodes := by rw [li.inners, hp]; exact w.imem
  have hroot : t.root = (c.plug x).nid := by rw [hp]; exact w.root
  have hdown : Down s1 H t.root := hroot ▸ T.down hm hlive (hp ▸ w.shape.lensAll)
  obtain ⟨y, L, hy, hleft⟩ := T.leftmost (s := s1) hm (hp ▸ w.shape)
  have hmid : Mid s1 t.root H y.1 s1.leaves s1.inners.length :=
    ⟨hdown, hroot ▸ hleft, rfl, le_rfl⟩
  have hstack := (Ctx.stackDown hm (hroot ▸ hdown)).2
  have hr : RightDown s1 0 r := by
    have := li.res
    cases r with
    | inserted => trivial
    | updated v => trivial
    | split m rc =>
      rcases li.cases with ⟨a, k0, v0, b, -, -, e, -⟩ | ⟨a, b, -, -, -, e, -⟩ |
        ⟨a, b, i, d1, m', w', d2, -, -, -, -, -, -, -, e, e'⟩
      · cases e
      · cases e
      · cases e
        have hi : (i, (m, w') :: d2) ∈ c.lvL ++ u.leaves ++ c.lvR := by
          rw [e']; simp [Up.leaves, T.leaves]
        obtain ⟨a, b, hab⟩ := List.append_of_mem hi
        have := li.seg
        rw [hab] at this
        exact ⟨i, _, rfl, this.get⟩
  obtain ⟨hA, hB⟩ := insertAscendT_mid hmid hstack hr
  -- the leaves of the final tree
  have hhead : ∃ d L', g'.leaves = (y.1, d) :: L' := by
    rw [hlvs]
    rw [Ctx.leaves_plug] at hy
    cases hc : c.lvL with
    | cons z zs =>
      rw [hc] at hy
      simp only [List.cons_append, List.cons.injEq] at hy
      obtain ⟨rfl, -⟩ := hy
      exact ⟨_, _, rfl⟩
    | nil =>
      rw [hc] at hy
      simp only [T.leaves, List.nil_append, List.cons_append, List.cons.injEq] at hy
      obtain ⟨rfl, -⟩ := hy
      have := li.nid
      cases u with
      | one y =>
        have : y.id = x.id := by simpa [Up.nid, T.nid] using this
        exact ⟨_, _, by simp [Up.leaves, T.leaves, this]; exact ⟨rfl, rfl⟩⟩
      | two y m z =>
        have : y.id = x.id := by simpa [Up.nid, T.nid] using this
        exact ⟨_, _, by simp [Up.leaves, T.leaves, this]; exact ⟨rfl, rfl⟩⟩
  obtain ⟨d, L', hg'⟩ := hhead
  have hH : H ≤ s1.inners.length + 1 := by
    have := w.height_le_fuel
    unfold Store.fuel at this
    rw [li.inners]; omega
  have hlv : t'.store.leaves = s1.leaves := by
    obtain ⟨⟨s2, r2⟩, h2, h3⟩ := bind_ok hrun
    have := (hB s2 r2 (by rw [insertAscendT_result]; exact h2)).leaves
    rw [← this]
    unfold Tree.finishInsert at h3
    cases r2 with
    | inserted =>
      obtain ⟨a, -, h3⟩ := bind_ok h3
      rw [← (Prod.mk.inj (Except.ok.inj h3)).2]
    | updated v =>
      obtain ⟨a, -, h3⟩ := bind_ok h3
      rw [← (Prod.mk.inj (Except.ok.inj h3)).2]
    | split k rc =>
      obtain ⟨a, -, h3⟩ := bind_ok h3
      obtain ⟨a, -, h3⟩ := bind_ok h3
      obtain ⟨a, -, h3⟩ := bind_ok h3
      rw [← (Prod.mk.inj (Except.ok.inj h3)).2]
  have hle : t.len ≤ (g'.leaves.flatMap (·.2)).length := by
    have e1 : t.len = l.length := h.len
    rw [e1]
    show l.length ≤ g'.toL.length
    rw [← hL2]
    generalize r.kind = rr at heff
    cases heff <;> simp
  have hdrop : ∀ m, Mid m t.root H y.1 s1.leaves s1.inners.length →
      ({ t with store := m } : Tree K V A).drop = .ok (l''.take l.length) ∧
      ∃ H L, Down m H t.root ∧ H ≤ m.fuel ∧ Flat0 m L ∧ L.flatMap (·.2) = l'' := by
    intro m hm
    refine ⟨?_, H, g'.leaves, hm.down, ?_, ?_, hL2.symm⟩
    rotate_left
    · have := hm.size; unfold Store.fuel; omega
    · have e : t'.store.leaves = m.leaves := by rw [hlv, hm.leaves]
      have hf := hw.flat
      exact ⟨e ▸ hf.seg, hf.nodup, e ▸ hf.live, hf.ne, hf.nonempty⟩
    have := Mid.drop (t := t) (x := (y.1, d)) hw.flat hg' hH hlv hm hle
    rw [this, hL2, h.len]
    rfl
  exact ⟨_, _, s1, r, H, y.1, _, hdesc, hinsU, hmid, hstack, hr, hdrop⟩

/-- The crash points of the summary code in an insertion: what dropping the map does there, and what
lookups need. -/
theorem insertT_crash {μ : Nat} {t : Tree K V A} {l : List (K × V)} (h : UInvM μ t l) (hl1 : t.len + 1 < 2 ^ 64)
    (o : Answers K) (k : K) (v : V) :
    ∃ r t'' l'', t.insertU o k v = .ok (r, t'') ∧ UInvM μ t'' l'' ∧
      Effect (.insert k v) (.value r) l l'' ∧
      (t.insertT o k v).All (fun c t' => c.isFromLeaf ∨ c.isFromInner →
        t'.drop = .ok (l''.take l.length) ∧ ∃ H L, Down t'.store H t'.root ∧ H ≤ t'.store.fuel ∧
          Flat0 t'.store L ∧ L.flatMap (·.2) = l'')  := by
  obtain ⟨r0, t'', l'', hrun0, hU, heff, stack, id0, s1, r, H, f, N, hdesc, hinsU, hmid, hstack, hr,
    hdrop⟩ := insert_mid h hl1 o k v
  refine ⟨r0, t'', l'', hrun0, hU, heff, ?_⟩
  obtain ⟨hA, hB⟩ := insertAscendT_mid hmid hstack hr
  refine Traced.all_mapMem (Traced.all_mono
    (P := fun c m => c.isFromLeaf ∨ c.isFromInner → Mid m t.root H f s1.leaves N)
    (fun c m hm hc => hdrop m (hm hc)) ?_)
  have hleaf : ∀ id, (insertLeafT o t.store id k v).All
      (fun c m => c.isFromLeaf ∨ c.isFromInner → Mid m t.root H f s1.leaves N) := by
    intro id
    refine Traced.all_mono ?_ (insertLeafT_kind o t.store id k v)
    rintro c m (rfl | rfl) (h | h) <;> cases h
  have hasc : ∀ s2 r2 st id, descendLeaf t.store (stackStepU o) [] t.root = .ok (st, id) →
      insertLeafU o t.store id k v = .ok (s2, r2) →
      st = stack ∧ s2 = s1 ∧ r2 = r := by
    intro s2 r2 st id h1 h2
    rw [hdesc] at h1
    obtain ⟨rfl, rfl⟩ := Prod.mk.inj (Except.ok.inj h1)
    rw [hinsU] at h2
    obtain ⟨rfl, rfl⟩ := Prod.mk.inj (Except.ok.inj h2)
    exact ⟨rfl, rfl, rfl⟩
  refine Traced.all_bind ?_ ?_
  · cases hroot' : t.root with
    | leaf i => rw [hroot'] at hleaf; exact hleaf i
    | inner i =>
      rw [hroot'] at hleaf hdesc hA
      refine Traced.all_call_bind (by rintro (h | h) <;> cases h) <|
        Traced.all_lift_bind fun p hp => Traced.all_bind (hleaf _) fun q hq => ?_
      obtain ⟨st, id⟩ := p
      obtain ⟨s2, r2⟩ := q
      rw [insertLeafT_result] at hq
      rw [hroot'] at hasc
      obtain ⟨rfl, rfl, rfl⟩ := hasc s2 r2 st id hp hq
      exact Traced.all_mono (fun _ _ hm _ => hm) hA
  · rintro ⟨s2, r2⟩ h2
    rw [descendInsertT_result, descendInsertU_eq, hdesc] at h2
    simp only [ok_bind, hinsU] at h2
    have := hB s2 r2 (by rw [insertAscendT_result]; exact h2)
    exact finishInsertT_kind _ _ _ (fun _ _ => this) (fun _ _ => this)

theorem insertT_drop {μ : Nat} {t : Tree K V A} {l : List (K × V)} (h : UInvM μ t l) (hl1 : t.len + 1 < 2 ^ 64)
    (o : Answers K) (k : K) (v : V) :
    ∃ r t'' l'', t.insertU o k v = .ok (r, t'') ∧ UInvM μ t'' l'' ∧
      Effect (.insert k v) (.value r) l l'' ∧
      (t.insertT o k v).All (fun c t' => c.isFromLeaf ∨ c.isFromInner →
        t'.drop = .ok (l''.take l.length)) := by
  obtain ⟨r, t'', l'', h1, h2, h3, h4⟩ := insertT_crash h hl1 o k v
  exact ⟨r, t'', l'', h1, h2, h3, Traced.all_mono (fun _ _ h hc => (h hc).1) h4⟩

end
end Bpt
