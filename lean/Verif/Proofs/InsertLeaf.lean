import Verif.Proofs.Descend
import Verif.Model.Unordered

/-!
# Insertion into a leaf
-/

namespace Bpt
variable {K V A : Type}

/-- Result of an insertion below: one tree, or a tree that was split in two. -/
inductive Up (K V A : Type) (h : Nat) where
  | one (x : T K V A h)
  | two (x : T K V A h) (k : K) (y : T K V A h)

namespace Up
variable {h : Nat}

def nid : Up K V A h → NodeId
  | one x => x.nid
  | two x _ _ => x.nid

def inorder : Up K V A h → List (E K)
  | one x => x.inorder
  | two x k y => x.inorder ++ E.sep k :: y.inorder

def leaves : Up K V A h → List (Nat × List (K × V))
  | one x => x.leaves
  | two x _ y => x.leaves ++ y.leaves

def nodes : Up K V A h → List (Nat × Inner K A)
  | one x => x.nodes
  | two x _ y => x.nodes ++ y.nodes

def Shape (μ m : Nat) (r : Bool) : Up K V A h → Prop
  | one x => T.ShapeTop μ m r x
  | two x _ y => T.ShapeTop μ 16 false x ∧ T.ShapeTop μ 16 r y

def AugOK [Augmentation K V A] : Up K V A h → Prop
  | one x => x.AugOK
  | two x _ y => x.AugOK ∧ y.AugOK

/-- The insertion result that goes with the tree(s). -/
def Res : Up K V A h → InsertResult K V → Prop
  | one _, .updated _ => True
  | one _, .inserted => True
  | two _ k y, .split k' i => k = k' ∧ i = y.nid
  | _, _ => False

end Up

section
variable [LinearOrder K]

theorem kv_cases {d : List (K × V)} (h : (d.map (·.1)).Pairwise (· < ·)) (k : K) :
    (∃ a v b, d = a ++ (k, v) :: b ∧ (∀ x ∈ a, x.1 < k) ∧ (∀ x ∈ b, k < x.1)) ∨
    (∃ a b, d = a ++ b ∧ (∀ x ∈ a, x.1 < k) ∧ (∀ x ∈ b, k < x.1)) := by
  rcases sorted_cases h k with ⟨a, b, e, h1, h2⟩ | ⟨a, b, e, h1, h2⟩
  · obtain ⟨a', b', rfl, rfl, hb⟩ := List.map_eq_append_iff.1 e
    obtain ⟨⟨k', v⟩, b'', rfl, hk, rfl⟩ := List.map_eq_cons_iff.1 hb
    simp only at hk
    subst hk
    exact .inl ⟨a', v, b'', rfl, by simpa using h1, by simpa using h2⟩
  · obtain ⟨a', b', rfl, rfl, rfl⟩ := List.map_eq_append_iff.1 e
    exact .inr ⟨a', b', rfl, by simpa using h1, by simpa using h2⟩

theorem locateSlot_found {a b : List (K × V)} {k : K} {v : V} {p n : Option Nat}
    (h1 : ∀ x ∈ a, x.1 < k) :
    (⟨a ++ (k, v) :: b, p, n⟩ : Leaf K V).locateSlot k = .found a.length := by
  unfold Leaf.locateSlot Leaf.keys
  rw [List.map_append, List.map_cons]
  rw [bsearch_found (by simpa using h1)]
  simp

theorem locateSlot_vacant {a b : List (K × V)} {k : K} {p n : Option Nat}
    (h1 : ∀ x ∈ a, x.1 < k) (h2 : ∀ x ∈ b, k < x.1) :
    (⟨a ++ b, p, n⟩ : Leaf K V).locateSlot k = .vacant a.length := by
  unfold Leaf.locateSlot Leaf.keys
  rw [List.map_append]
  rw [bsearch_vacant (by simpa using h1) (by simpa using h2)]
  simp

end

/-- Replacing the items of one leaf. -/
theorem Seg.update {m : List (Option (Leaf K V))} {LA LB : List (Nat × List (K × V))} {id : Nat}
    {d d' : List (K × V)} {p n : Option Nat}
    (hs : Seg m p (LA ++ (id, d) :: LB) n)
    (hn : ((LA ++ (id, d) :: LB).map (·.1)).Nodup) :
    Seg (m.set id (some ⟨d', lstId p LA, hdId LB n⟩)) p (LA ++ (id, d') :: LB) n := by
  have hlt : id < m.length := hs.lt (by simp)
  rw [Seg.append] at hs ⊢
  simp only [List.map_append, List.map_cons, List.nodup_append, List.nodup_cons, List.mem_cons] at hn
  refine ⟨?_, ?_, ?_⟩
  · refine Seg.set ?_ (by simpa using hs.1)
    intro hi
    exact hn.2.2 id hi id (.inl rfl) rfl
  · simp [List.getElem?_set_self hlt]
  · exact Seg.set hn.2.1.1 hs.2.2

theorem sliceInsert_ok {α : Type} {l r : List α} {x : α} :
    sliceInsert (l ++ r) l.length x = .ok (l ++ x :: r) := by
  simp [sliceInsert]

theorem sliceInsert_ok' {α : Type} {l r : List α} {x : α} {i : Nat} (h : i = l.length) :
    sliceInsert (l ++ r) i x = .ok (l ++ x :: r) := by
  subst h; exact sliceInsert_ok

/-- The effect of the leaf part of an insertion at a given slot. -/
structure LeafInsert0 (s s' : Store K V A) (LA LB : List (Nat × List (K × V))) (id : Nat)
    (d : List (K × V)) (slot : Slot) (k : K) (v : V) (r : InsertResult K V) (u : Up K V A 0) :
    Prop where
  inners : s'.inners = s.inners
  seg : Seg s'.leaves none (LA ++ u.leaves ++ LB) none
  nodup : ((LA ++ u.leaves ++ LB).map (·.1)).Nodup
  live : ∀ i l, s'.leaves[i]? = some (some l) → i ∈ (LA ++ u.leaves ++ LB).map (·.1)
  res : u.Res r
  nid : u.nid = .leaf id
  cases : (∃ a k0 v0 b, d = a ++ (k0, v0) :: b ∧ slot = .found a.length ∧
            r = .updated v0 ∧ u = .one ⟨id, a ++ (k0, v) :: b⟩) ∨
          (∃ a b, d = a ++ b ∧ slot = .vacant a.length ∧ d.length < 64 ∧
            r = .inserted ∧ u = .one ⟨id, a ++ (k, v) :: b⟩) ∨
          (∃ a b i d1 m w d2, d = a ++ b ∧ slot = .vacant a.length ∧
            d1 ++ (m, w) :: d2 = a ++ (k, v) :: b ∧ 32 ≤ d1.length ∧ d1.length ≤ 33 ∧
            31 ≤ d2.length ∧ d2.length ≤ 32 ∧
            r = .split m (.leaf i) ∧ u = .two ⟨id, d1⟩ m ⟨i, (m, w) :: d2⟩)
  slots : s'.leaves.length + 1 = s.leaves.length + u.leaves.length

/-- A search result that stays within a list. -/
def Slot.InRange : Slot → Nat → Prop
  | .found i, n => i < n
  | .vacant i, n => i ≤ n

theorem insertLeafAt_ok {s : Store K V A} {LA LB : List (Nat × List (K × V))} {id : Nat}
    {d : List (K × V)}
    (hs : Seg s.leaves none (LA ++ (id, d) :: LB) none)
    (hn : ((LA ++ (id, d) :: LB).map (·.1)).Nodup)
    (hl : ∀ i l, s.leaves[i]? = some (some l) → i ∈ (LA ++ (id, d) :: LB).map (·.1))
    (h64 : d.length ≤ 64) {slot : Slot} (hslot : slot.InRange d.length) (k : K) (v : V) :
    ∃ s' r u, insertLeafAt s id ⟨d, lstId none LA, hdId LB none⟩ slot k v = .ok (s', r) ∧
      LeafInsert0 s s' LA LB id d slot k v r u := by
  have hget := hs.getLeaf
  have hlt : id < s.leaves.length := hs.lt (by simp)
  simp only at hget
  -- live leaves after rewriting leaf `id` only
  have hlive : ∀ (x : Leaf K V) (d' : List (K × V)) i l,
      (s.leaves.set id (some x))[i]? = some (some l) →
      i ∈ (LA ++ [(id, d')] ++ LB).map (·.1) := by
    intro x d' i l hi
    by_cases h : id = i
    · subst h; simp
    · rw [List.getElem?_set_ne h] at hi
      have := hl i l hi
      simpa using this
  have hcase : (∃ a k0 v0 b, d = a ++ (k0, v0) :: b ∧ slot = .found a.length) ∨
      (∃ a b, d = a ++ b ∧ slot = .vacant a.length) := by
    cases slot with
    | found i =>
      have hi : i < d.length := hslot
      refine .inl ⟨d.take i, d[i].1, d[i].2, d.drop (i + 1), ?_, ?_⟩
      · exact (List.take_append_drop i d).symm.trans (by rw [List.drop_eq_getElem_cons hi])
      · simp only [List.length_take]; rw [Nat.min_eq_left (by omega)]
    | vacant i =>
      have hi : i ≤ d.length := hslot
      refine .inr ⟨d.take i, d.drop i, by simp, ?_⟩
      simp only [List.length_take]; rw [Nat.min_eq_left hi]
  rcases hcase with ⟨a, k0, v0, b, rfl, rfl⟩ | ⟨a, b, rfl, rfl⟩
  · -- update
    refine ⟨s.setLeaf id ⟨a ++ (k0, v) :: b, lstId none LA, hdId LB none⟩, .updated v0,
      .one ⟨id, a ++ (k0, v) :: b⟩, ?_, ?_⟩
    · simp [insertLeafAt, Leaf.upsertAt, Leaf.dataAt, readAt]
    · refine ⟨rfl, ?_, ?_, ?_, trivial, rfl, .inl ⟨a, k0, v0, b, rfl, rfl, rfl, rfl⟩,
        by simp [Store.setLeaf, Up.leaves, T.leaves]⟩
      · simpa [Up.leaves, T.leaves, Store.setLeaf] using Seg.update hs hn
      · simpa [Up.leaves, T.leaves] using hn
      · exact hlive _ _
  · by_cases hfull : (a ++ b).length < 64
    · -- room
      refine ⟨(s.setLeaf id ⟨a ++ (k, v) :: b, lstId none LA, hdId LB none⟩).cacheLeaf id, .inserted,
        .one ⟨id, a ++ (k, v) :: b⟩, ?_, ?_⟩
      · have : (⟨a ++ b, lstId none LA, hdId LB none⟩ : Leaf K V).isFull = false := by
          simp only [Leaf.isFull, Leaf.len, leafN, beq_eq_false_iff_ne]; omega
        simp [insertLeafAt, Leaf.upsertAt, this, sliceInsert_ok]
      · refine ⟨rfl, ?_, ?_, ?_, trivial, rfl,
          .inr (.inl ⟨a, b, rfl, rfl, hfull, rfl, rfl⟩),
          by simp [Store.setLeaf, Store.cacheLeaf, Up.leaves, T.leaves]⟩
        · simpa [Up.leaves, T.leaves, Store.setLeaf, Store.cacheLeaf] using Seg.update hs hn
        · simpa [Up.leaves, T.leaves] using hn
        · exact hlive _ _
    · -- split
      have hlen : (a ++ b).length = 64 := by omega
      have hfull' : (⟨a ++ b, lstId none LA, hdId LB none⟩ : Leaf K V).isFull = true := by
        simp only [Leaf.isFull, Leaf.len, beq_iff_eq]; omega
      -- the two halves
      obtain ⟨d1, m, w, d2, hcat, hl1, hl1', hl2, hl2', hsplit⟩ : ∃ d1 m w d2,
          d1 ++ (m, w) :: d2 = a ++ (k, v) :: b ∧ 32 ≤ d1.length ∧ d1.length ≤ 33 ∧
          31 ≤ d2.length ∧ d2.length ≤ 32 ∧
          (⟨a ++ b, lstId none LA, hdId LB none⟩ : Leaf K V).splitNewLeaf a.length (k, v)
            s.leaves.length id = .ok (⟨d1, lstId none LA, some s.leaves.length⟩,
              ⟨(m, w) :: d2, some id, hdId LB none⟩) := by
        have hne : ¬ ((⟨a ++ b, lstId none LA, hdId LB none⟩ : Leaf K V).len ≠ leafN) := by
          simp only [Leaf.len, leafN]; omega
        by_cases hi : a.length < 32
        · have hdrop : (a ++ b).drop 32 = b.drop (32 - a.length) := by
            rw [List.drop_append, List.drop_eq_nil_of_le (by omega)]; simp
          have htake : (a ++ b).take 32 = a ++ b.take (32 - a.length) := by
            rw [List.take_append, List.take_of_length_le (by omega)]
          have hb : (b.drop (32 - a.length)).length = 32 := by
            simp at hlen ⊢; omega
          rcases hbd : b.drop (32 - a.length) with _ | ⟨⟨m, w⟩, d2⟩
          · simp [hbd] at hb
          · refine ⟨a ++ (k, v) :: b.take (32 - a.length), m, w, d2, ?_, ?_, ?_, ?_, ?_, ?_⟩
            · rw [← hbd]; simp
            · simp at hlen ⊢; omega
            · simp at hlen ⊢; omega
            · rw [hbd] at hb; simp at hb; omega
            · rw [hbd] at hb; simp at hb; omega
            · simp only [Leaf.splitNewLeaf, if_neg hne, if_pos hi, hdrop, htake, sliceInsert_ok,
                ok_bind, hbd, pure_ok]
        · have hdrop : (a ++ b).drop 32 = a.drop 32 ++ b := by
            rw [List.drop_append, show 32 - a.length = 0 by omega]; simp
          have htake : (a ++ b).take 32 = a.take 32 := by
            rw [List.take_append, show 32 - a.length = 0 by omega]; simp
          have hins : sliceInsert (a.drop 32 ++ b) (a.length - 32) (k, v)
              = .ok (a.drop 32 ++ (k, v) :: b) := sliceInsert_ok' (by simp)
          have hb : (a.drop 32 ++ (k, v) :: b).length = 33 := by
            simp at hlen ⊢; omega
          rcases hbd : a.drop 32 ++ (k, v) :: b with _ | ⟨⟨m, w⟩, d2⟩
          · simp at hbd
          · refine ⟨a.take 32, m, w, d2, ?_, ?_, ?_, ?_, ?_, ?_⟩
            · rw [← hbd, ← List.append_assoc, List.take_append_drop]
            · simp; omega
            · simp
            · rw [hbd] at hb; simp at hb; omega
            · rw [hbd] at hb; simp at hb; omega
            · simp only [Leaf.splitNewLeaf, if_neg hne, if_neg hi, hdrop, htake, hins,
                ok_bind, hbd, pure_ok]
      -- freshness
      have hfresh : s.leaves.length ∉ (LA ++ (id, a ++ b) :: LB).map (·.1) := by
        intro hi; exact absurd (hs.lt hi) (lt_irrefl _)
      have hidne : id ≠ s.leaves.length := by omega
      simp only [List.map_append, List.map_cons, List.mem_append, List.mem_cons, not_or] at hfresh
      have hs0 := hs
      have hs1 := hs.push (v := none)
      have hget1 : (s.reserveLeaf.1).getLeaf id = .ok ⟨a ++ b, lstId none LA, hdId LB none⟩ := by
        have := hs1.getLeaf (s := s.reserveLeaf.1)
        simpa using this
      rw [Seg.append, Seg.cons] at hs1
      simp only [List.map_append, List.map_cons, List.nodup_append, List.nodup_cons,
        List.mem_cons] at hn
      have hA : id ∉ LA.map (·.1) := fun hi => hn.2.2 id hi id (.inl rfl) rfl
      have hB : id ∉ LB.map (·.1) := hn.2.1.1
      -- the store after the split and after fixing the next leaf
      let lLeaf : Leaf K V := ⟨d1, lstId none LA, some s.leaves.length⟩
      let rLeaf : Leaf K V := ⟨(m, w) :: d2, some id, hdId LB none⟩
      let m1 := (s.leaves ++ [none]).set id (some lLeaf)
      have hlen1 : m1.length = s.leaves.length + 1 := by simp [m1]
      obtain ⟨m2, hm2, hm2len, hm2A, hm2id, hm2B, hm2live⟩ :
          ∃ m2 : List (Option (Leaf K V)),
          ((match rLeaf.next with
            | some next => do
              let nl ← ({ s with leaves := m1 } : Store K V A).getLeaf next
              return ({ s with leaves := m1 } : Store K V A).setLeaf next
                (nl.setPrev (some s.leaves.length))
            | none => return ({ s with leaves := m1 } : Store K V A) : Bpt.Res (Store K V A))
              = .ok { s with leaves := m2 }) ∧
          m2.length = m1.length ∧ Seg m2 none LA (some id) ∧ m2[id]? = some (some lLeaf) ∧
          Seg m2 (some s.leaves.length) LB none ∧
          ∀ (i : Nat) (l : Leaf K V), m2[i]? = some (some l) → (∃ l', s.leaves[i]? = some (some l')) := by
        have hm1A : Seg m1 none LA (some id) := Seg.set hA (by simpa using hs1.1)
        have hm1id : m1[id]? = some (some lLeaf) := by
          simp only [m1]; rw [List.getElem?_set_self (by simp; omega)]
        have hm1B : Seg m1 (some id) LB none := Seg.set hB hs1.2.2
        have hm1live : ∀ (i : Nat) (l : Leaf K V), m1[i]? = some (some l) → ∃ l', s.leaves[i]? = some (some l') := by
          intro i l hi
          by_cases h : id = i
          · subst h; exact ⟨_, hs0.get⟩
          · simp only [m1] at hi
            rw [List.getElem?_set_ne h] at hi
            rcases Nat.lt_or_ge i s.leaves.length with h' | h'
            · rw [List.getElem?_append_left h'] at hi; exact ⟨l, hi⟩
            · rw [List.getElem?_append_right h'] at hi
              rcases Nat.eq_zero_or_pos (i - s.leaves.length) with h0 | h0
              · simp [h0] at hi
              · rw [List.getElem?_eq_none (by simp; omega)] at hi; simp at hi
        rcases hLB : LB with _ | ⟨⟨j, e⟩, LB'⟩
        · refine ⟨m1, ?_, rfl, hm1A, hm1id, trivial, hm1live⟩
          simp [rLeaf, hLB]
        · subst hLB
          have hjid : j ≠ id := by rintro rfl; simp at hB
          have hjA : j ∉ LA.map (·.1) := by
            intro hj; exact hn.2.2 j hj j (.inr (by simp)) rfl
          have hjB : j ∉ LB'.map (·.1) := by
            have := hn.2.1.2; simp at this; simpa using this.1
          have hj : m1[j]? = some (some ⟨e, some id, hdId LB' none⟩) := hm1B.1
          have hjlt : j < m1.length := hm1B.lt (by simp)
          refine ⟨m1.set j (some ⟨e, some s.leaves.length, hdId LB' none⟩), ?_, by simp,
            hm1A.set hjA, ?_, ⟨?_, ?_⟩, ?_⟩
          · simp [rLeaf, Store.getLeaf, hj, Store.setLeaf, Leaf.setPrev]
          · rw [List.getElem?_set_ne hjid]; exact hm1id
          · simp [List.getElem?_set_self hjlt]
          · exact hm1B.2.set hjB
          · intro i l hi
            by_cases h : j = i
            · subst h; exact hm1live _ _ hj
            · rw [List.getElem?_set_ne h] at hi; exact hm1live i l hi
      -- the final store
      have hrlt : s.leaves.length < m2.length := by omega
      refine ⟨({ s with leaves := m2.set s.leaves.length (some rLeaf) } : Store K V A).cacheLeaf
          (if splitOrigin ≤ a.length then s.leaves.length else id),
        .split m (.leaf s.leaves.length), .two ⟨id, d1⟩ m ⟨s.leaves.length, (m, w) :: d2⟩, ?_, ?_⟩
      · have hup : (⟨a ++ b, lstId none LA, hdId LB none⟩ : Leaf K V).upsertAt (.vacant a.length) k v
            = .ok (⟨a ++ b, lstId none LA, hdId LB none⟩, .isFull a.length k v) := by
          simp [Leaf.upsertAt, hfull']
        have hrid : (s.reserveLeaf).2 = s.leaves.length := rfl
        have hset : (s.reserveLeaf.1).setLeaf id lLeaf = { s with leaves := m1 } := rfl
        unfold insertLeafAt
        rw [hup, ok_bind]
        simp only [hget1, ok_bind, hrid, hsplit]
        simp only [Leaf.dataAt, readAt, List.getElem?_cons_zero, ok_bind]
        change (((match rLeaf.next with
            | some next => do
              let nl ← ((s.reserveLeaf.1).setLeaf id lLeaf).getLeaf next
              return ((s.reserveLeaf.1).setLeaf id lLeaf).setLeaf next
                (nl.setPrev (some s.leaves.length))
            | none => return ((s.reserveLeaf.1).setLeaf id lLeaf) : Bpt.Res (Store K V A))) >>= _)
              = _
        rw [hset, hm2, ok_bind]
        simp only [Store.assignLeaf, if_pos hrlt, Store.setLeaf, ok_bind, pure_ok, rLeaf]
      · have hrA : s.leaves.length ∉ LA.map (·.1) := hfresh.1
        have hrB : s.leaves.length ∉ LB.map (·.1) := hfresh.2.2
        have hrid : s.leaves.length ≠ id := hfresh.2.1
        refine ⟨rfl, ?_, ?_, ?_, ⟨rfl, rfl⟩, rfl, .inr (.inr ⟨a, b, s.leaves.length, d1, m, w, d2,
          rfl, rfl, hcat, hl1, hl1', hl2, hl2', rfl, rfl⟩),
          by simp [Store.cacheLeaf, Up.leaves, T.leaves]; omega⟩
        · simp only [Store.cacheLeaf, Up.leaves, T.leaves, List.append_assoc]
          rw [Seg.append]
          refine ⟨by simpa using hm2A.set hrA, ?_, ?_, ?_⟩
          · rw [List.getElem?_set_ne hrid, hm2id]; simp [lLeaf]
          · simp [List.getElem?_set_self hrlt, rLeaf]
          · exact hm2B.set hrB
        · simp only [Up.leaves, T.leaves, List.append_assoc, List.map_append, List.map_cons,
            List.map_nil, List.nodup_append, List.nodup_cons, List.mem_append, List.mem_cons,
            List.not_mem_nil, List.cons_append, List.nil_append]
          refine ⟨hn.1, ⟨?_, hrB, hn.2.1.2⟩, ?_⟩
          · rintro (h | h)
            · exact hidne h
            · exact hB h
          · rintro x hx y (rfl | rfl | hy)
            · exact hn.2.2 x hx _ (.inl rfl)
            · rintro rfl; exact hrA hx
            · exact hn.2.2 x hx y (.inr hy)
        · intro i l hi
          simp only [Store.cacheLeaf] at hi
          simp only [Up.leaves, T.leaves, List.append_assoc, List.map_append, List.map_cons,
            List.map_nil, List.mem_append, List.mem_cons, List.not_mem_nil]
          by_cases h : s.leaves.length = i
          · subst h; simp
          · rw [List.getElem?_set_ne h] at hi
            obtain ⟨l', hl'⟩ := hm2live i l hi
            have := hl i l' hl'
            simp only [List.map_append, List.map_cons, List.mem_append, List.mem_cons] at this
            tauto


section
variable [LinearOrder K]

/-- The effect of the leaf part of an insertion. -/
structure LeafInsert (s s' : Store K V A) (LA LB : List (Nat × List (K × V))) (id : Nat)
    (d : List (K × V)) (k : K) (v : V) (r : InsertResult K V) (u : Up K V A 0) : Prop where
  inners : s'.inners = s.inners
  seg : Seg s'.leaves none (LA ++ u.leaves ++ LB) none
  nodup : ((LA ++ u.leaves ++ LB).map (·.1)).Nodup
  live : ∀ i l, s'.leaves[i]? = some (some l) → i ∈ (LA ++ u.leaves ++ LB).map (·.1)
  res : u.Res r
  nid : u.nid = .leaf id
  cases : (∃ a v0 b, d = a ++ (k, v0) :: b ∧ (∀ x ∈ a, x.1 < k) ∧ (∀ x ∈ b, k < x.1) ∧
            r = .updated v0 ∧ u = .one ⟨id, a ++ (k, v) :: b⟩) ∨
          (∃ a b, d = a ++ b ∧ (∀ x ∈ a, x.1 < k) ∧ (∀ x ∈ b, k < x.1) ∧ d.length < 64 ∧
            r = .inserted ∧ u = .one ⟨id, a ++ (k, v) :: b⟩) ∨
          (∃ a b i d1 m w d2, d = a ++ b ∧ (∀ x ∈ a, x.1 < k) ∧ (∀ x ∈ b, k < x.1) ∧
            d1 ++ (m, w) :: d2 = a ++ (k, v) :: b ∧ 32 ≤ d1.length ∧ d1.length ≤ 33 ∧
            31 ≤ d2.length ∧ d2.length ≤ 32 ∧
            r = .split m (.leaf i) ∧ u = .two ⟨id, d1⟩ m ⟨i, (m, w) :: d2⟩)

theorem insertLeaf_eq {s : Store K V A} {id : Nat} {k : K} {v : V} :
    insertLeaf s id k v = (do
      let leaf ← s.getLeaf id
      insertLeafAt s id leaf (leaf.locateSlot k) k v) := by
  unfold insertLeaf insertLeafAt Leaf.tryUpsert Leaf.upsertAt
  cases s.getLeaf id with
  | error e => rfl
  | ok leaf => cases leaf.locateSlot k <;> rfl

theorem insertLeaf_ok {s : Store K V A} {LA LB : List (Nat × List (K × V))} {id : Nat}
    {d : List (K × V)}
    (hs : Seg s.leaves none (LA ++ (id, d) :: LB) none)
    (hn : ((LA ++ (id, d) :: LB).map (·.1)).Nodup)
    (hl : ∀ i l, s.leaves[i]? = some (some l) → i ∈ (LA ++ (id, d) :: LB).map (·.1))
    (hd : (d.map (·.1)).Pairwise (· < ·)) (h64 : d.length ≤ 64) (k : K) (v : V) :
    ∃ s' r u slot, insertLeaf s id k v = .ok (s', r) ∧ LeafInsert s s' LA LB id d k v r u ∧
      LeafInsert0 s s' LA LB id d slot k v r u := by
  have hget := hs.getLeaf
  simp only at hget
  rw [insertLeaf_eq, hget, ok_bind]
  rcases kv_cases hd k with ⟨a, v0, b, rfl, h1, h2⟩ | ⟨a, b, rfl, h1, h2⟩
  · rw [locateSlot_found h1]
    obtain ⟨s', r, u, hrun, h0⟩ := insertLeafAt_ok hs hn hl h64 (slot := .found a.length)
      (by simp [Slot.InRange]) k v
    refine ⟨s', r, u, _, hrun, ⟨h0.inners, h0.seg, h0.nodup, h0.live, h0.res, h0.nid, .inl ?_⟩, h0⟩
    rcases h0.cases with ⟨a', k0, v0', b', e, hi, hr, hu⟩ | ⟨_, _, _, hi, _⟩ |
      ⟨_, _, _, _, _, _, _, _, hi, _⟩
    · obtain ⟨rfl, e2⟩ := List.append_inj e (by simpa using hi)
      simp only [List.cons.injEq, Prod.mk.injEq] at e2
      obtain ⟨⟨rfl, rfl⟩, rfl⟩ := e2
      exact ⟨a, v0, b, rfl, h1, h2, hr, hu⟩
    · cases hi
    · cases hi
  · rw [locateSlot_vacant h1 h2]
    obtain ⟨s', r, u, hrun, h0⟩ := insertLeafAt_ok hs hn hl h64 (slot := .vacant a.length)
      (by simp [Slot.InRange]) k v
    refine ⟨s', r, u, _, hrun, ⟨h0.inners, h0.seg, h0.nodup, h0.live, h0.res, h0.nid, .inr ?_⟩, h0⟩
    rcases h0.cases with ⟨_, _, _, _, _, hi, _⟩ | ⟨a', b', e, hi, h64', hr, hu⟩ |
      ⟨a', b', i, d1, m, w, d2, e, hi, h3⟩
    · cases hi
    · obtain ⟨rfl, rfl⟩ := List.append_inj e (by simpa using hi)
      exact .inl ⟨a, b, rfl, h1, h2, h64', hr, hu⟩
    · obtain ⟨rfl, rfl⟩ := List.append_inj e (by simpa using hi)
      exact .inr ⟨a, b, i, d1, m, w, d2, rfl, h1, h2, h3⟩

end
end Bpt
