import Verif.Proofs.InsertLeaf
import Verif.Proofs.PermTac

/-!
# The ascending phase of an insertion
-/

namespace Bpt
variable {K V A : Type}

/-- The store holds the tree `x` (links of the leaves not considered). -/
structure Holds {h : Nat} (s : Store K V A) (x : T K V A h) : Prop where
  inner : IMem s.inners x.nodes
  leaf : ∀ y ∈ x.leaves, ∃ p n, s.leaves[y.1]? = some (some ⟨y.2, p, n⟩)

section
variable [Augmentation K V A]

theorem newAug_ok {h : Nat} {s : Store K V A} {x : T K V A h} (hx : Holds s x) :
    newAugmentationForId s x.nid = .ok x.topAug := by
  cases h with
  | zero =>
    obtain ⟨p, n, hp⟩ := hx.leaf (GLeaf.id x, GLeaf.data x) (by simp [T.leaves])
    simp only at hp
    simp [newAugmentationForId, Store.getLeaf, hp, leafAug, T.topAug, Leaf.keys, Leaf.values]
  | succ h =>
    have := hx.inner.get nodes_head
    simp only [T.nid_succ, newAugmentationForId]
    rw [this]
    simp [innerAug, T.topAug, GNode.inner]

end

theorem IMem.update {m : List (Option (Inner K A))} {P Q : List (Nat × Inner K A)} {i : Nat}
    {n n' : Inner K A} (hm : IMem m (P ++ (i, n) :: Q))
    (hn : ((P ++ (i, n) :: Q).map (·.1)).Nodup) :
    IMem (m.set i (some n')) (P ++ (i, n') :: Q) := by
  have hlt : i < m.length := hm.lt (by simp)
  simp only [List.map_append, List.map_cons, List.nodup_append, List.nodup_cons,
    List.mem_cons] at hn
  rw [IMem.append, IMem.cons] at hm ⊢
  refine ⟨hm.1.set ?_, ?_, hm.2.2.set hn.2.1.1⟩
  · intro hi; exact hn.2.2 i hi i (.inl rfl) rfl
  · simp [List.getElem?_set_self hlt]

theorem List.Perm.ids {L L' : List (Nat × Inner K A)} (h : L.Perm L') :
    (L.map (·.1)).Nodup ↔ (L'.map (·.1)).Nodup := (h.map _).nodup_iff

/-! ## Node-level facts -/

theorem setAug_inner {h : Nat} {f : Frame K A (T K V A h)} (hf : f.LenOK) {i : NodeId} {a : A} :
    (f.inner i).setAugmentation f.kidsL.length a = .ok ((f.setAug a).inner i) := by
  have h1 := hf.2.1
  have hlt : f.kidsL.length < (f.inner i).augs.length := by simp [Frame.inner]; omega
  rw [Inner.setAugmentation, if_pos hlt]
  simp [Frame.inner, Frame.setAug, ← h1]

theorem insertAt_inner {h : Nat} {f : Frame K A (T K V A h)} (hf : f.LenOK) {i j : NodeId} {a : A}
    {k : K} (hlen : f.len < 64) :
    (f.inner i).insertAt f.kidsL.length k j a =
      .ok ⟨f.keysL ++ k :: f.keysR, f.kidsL.map T.nid ++ i :: j :: f.kidsR.map T.nid,
        f.augsL ++ f.aug :: a :: f.augsR⟩ := by
  obtain ⟨h1, h2, h3, h4⟩ := hf
  simp only [Frame.len] at hlen
  have hc : ¬ (¬ f.kidsL.length ≤ (f.inner i).len ∨ (f.inner i).isFull = true) := by
    simp [Inner.isFull, Inner.len, Frame.inner, innerN]; omega
  rw [Inner.insertAt, if_neg hc]
  have e1 : sliceInsert (f.inner i).keys f.kidsL.length k = .ok (f.keysL ++ k :: f.keysR) :=
    sliceInsert_ok' h1.symm
  have e2 : sliceInsert (f.inner i).childs (f.kidsL.length + 1) j
      = .ok ((f.kidsL.map T.nid ++ [i]) ++ j :: f.kidsR.map T.nid) := by
    have : (f.inner i).childs = (f.kidsL.map T.nid ++ [i]) ++ f.kidsR.map T.nid := by
      simp [Frame.inner]
    rw [this]; exact sliceInsert_ok' (by simp)
  have e3 : sliceInsert (f.inner i).augs (f.kidsL.length + 1) a
      = .ok ((f.augsL ++ [f.aug]) ++ a :: f.augsR) := by
    have : (f.inner i).augs = (f.augsL ++ [f.aug]) ++ f.augsR := by simp [Frame.inner]
    rw [this]; exact sliceInsert_ok' (by simp [h2])
  simp [e1, e2, e3]

/-- Splitting a full node equals inserting the new entry and cutting in the middle. -/
theorem split_inner {kl kr : List K} {cl cr : List NodeId} {al ar : List A} {c : NodeId} {a : A}
    (h1 : kl.length = cl.length) (h2 : al.length = cl.length) (h3 : kr.length = cr.length)
    (h4 : ar.length = cr.length) (h64 : kl.length + kr.length = 64) (k : K) (nc : NodeId) (na : A) :
    ∃ kA m kB cA cB aA aB,
      (⟨kl ++ kr, cl ++ c :: cr, al ++ a :: ar⟩ : Inner K A).split cl.length k nc na
        = .ok (m, ⟨kA, cA, aA⟩, ⟨kB, cB, aB⟩) ∧
      kl ++ k :: kr = kA ++ m :: kB ∧ cl ++ c :: nc :: cr = cA ++ cB ∧
      al ++ a :: na :: ar = aA ++ aB ∧
      kA.length = 32 ∧ kB.length = 32 ∧ cA.length = 33 ∧ cB.length = 33 ∧ aA.length = 33 ∧
      aB.length = 33 := by
  have hfull : (!(⟨kl ++ kr, cl ++ c :: cr, al ++ a :: ar⟩ : Inner K A).isFull) = false := by
    simp [Inner.isFull, Inner.len, innerN]; omega
  rw [Inner.split, hfull]
  simp only [Bool.false_eq_true, if_false]
  rw [if_neg (show ¬ 64 < cl.length by omega)]
  by_cases hlt : cl.length < 32
  · rw [if_pos hlt]
    -- the promoted key comes from the right part
    have ek : (kl ++ kr).take 31 = kl ++ kr.take (31 - kl.length) := by
      rw [List.take_append, List.take_of_length_le (by omega)]
    have ec : (cl ++ c :: cr).take 32 = (cl ++ [c]) ++ cr.take (31 - cl.length) := by
      rw [List.take_append, List.take_of_length_le (by omega)]
      rw [show 32 - cl.length = (31 - cl.length) + 1 by omega]; simp
    have ea : (al ++ a :: ar).take 32 = (al ++ [a]) ++ ar.take (31 - al.length) := by
      rw [List.take_append, List.take_of_length_le (by omega)]
      rw [show 32 - al.length = (31 - al.length) + 1 by omega]; simp
    have hm : 31 - kl.length < kr.length := by omega
    have ekd : (kl ++ kr).drop 32 = kr.drop (31 - kl.length + 1) := by
      rw [List.drop_append, List.drop_eq_nil_of_le (by omega)]
      simp; congr 1; omega
    have ecd : (cl ++ c :: cr).drop 32 = cr.drop (31 - cl.length) := by
      rw [List.drop_append, List.drop_eq_nil_of_le (by omega)]
      rw [show 32 - cl.length = (31 - cl.length) + 1 by omega]; simp
    have ead : (al ++ a :: ar).drop 32 = ar.drop (31 - al.length) := by
      rw [List.drop_append, List.drop_eq_nil_of_le (by omega)]
      rw [show 32 - al.length = (31 - al.length) + 1 by omega]; simp
    have er : readAt (kl ++ kr) 31 = .ok (kr[31 - kl.length]'hm) := by
      simp only [readAt]
      rw [List.getElem?_append_right (by omega), List.getElem?_eq_getElem hm]
    have i1 : sliceInsert (kl ++ kr.take (31 - kl.length)) cl.length k
        = .ok (kl ++ k :: kr.take (31 - kl.length)) := sliceInsert_ok' h1.symm
    have i2 : sliceInsert ((cl ++ [c]) ++ cr.take (31 - cl.length)) (cl.length + 1) nc
        = .ok ((cl ++ [c]) ++ nc :: cr.take (31 - cl.length)) := sliceInsert_ok' (by simp)
    have i3 : sliceInsert ((al ++ [a]) ++ ar.take (31 - al.length)) (cl.length + 1) na
        = .ok ((al ++ [a]) ++ na :: ar.take (31 - al.length)) := sliceInsert_ok' (by simp [h2])
    refine ⟨kl ++ k :: kr.take (31 - kl.length), kr[31 - kl.length]'hm,
      kr.drop (31 - kl.length + 1), (cl ++ [c]) ++ nc :: cr.take (31 - cl.length),
      cr.drop (31 - cl.length), (al ++ [a]) ++ na :: ar.take (31 - al.length),
      ar.drop (31 - al.length), ?_, ?_, ?_, ?_, ?_, ?_, ?_, ?_, ?_, ?_⟩
    · simp only [splitOrigin, Nat.reduceSub, er, ek, ec, ea, i1, i2, i3, ok_bind, pure_ok, ekd, ecd, ead]
    · rw [List.append_assoc, List.cons_append, ← List.drop_eq_getElem_cons, List.take_append_drop]
    · simp
    · simp
    all_goals simp; omega
  · rw [if_neg hlt]
    by_cases hgt : 32 < cl.length
    · rw [if_pos hgt]
      have hm : 32 < kl.length := by omega
      have er : readAt (kl ++ kr) 32 = .ok (kl[32]'hm) := by
        simp only [readAt]
        rw [List.getElem?_append_left hm, List.getElem?_eq_getElem hm]
      have ek : (kl ++ kr).take 32 = kl.take 32 := by
        rw [List.take_append, show 32 - kl.length = 0 by omega]; simp
      have ec : (cl ++ c :: cr).take 33 = cl.take 33 := by
        rw [List.take_append, show 33 - cl.length = 0 by omega]; simp
      have ea : (al ++ a :: ar).take 33 = al.take 33 := by
        rw [List.take_append, show 33 - al.length = 0 by omega]; simp
      have k1 : ((kl ++ kr).drop 33).take (cl.length - 1 - 32) = kl.drop 33 := by
        rw [List.drop_append, show 33 - kl.length = 0 by omega, List.drop_zero,
          List.take_append, List.take_of_length_le (by simp; omega)]
        simp; omega
      have k2 : (kl ++ kr).drop (32 + (cl.length - 1 - 32) + 1) = kr := by
        rw [show 32 + (cl.length - 1 - 32) + 1 = kl.length by omega]; simp
      have c1 : ((cl ++ c :: cr).drop 33).take (cl.length - 32) = cl.drop 33 ++ [c] := by
        rw [List.drop_append, show 33 - cl.length = 0 by omega, List.drop_zero,
          List.take_append, List.take_of_length_le (by simp; omega)]
        rw [show cl.length - 32 - (cl.drop 33).length = 1 by simp; omega]; simp
      have c2 : (cl ++ c :: cr).drop (33 + (cl.length - 32)) = cr := by
        rw [show 33 + (cl.length - 32) = cl.length + 1 by omega, List.drop_append,
          List.drop_eq_nil_of_le (by omega)]
        simp
      have a1 : ((al ++ a :: ar).drop 33).take (cl.length - 32) = al.drop 33 ++ [a] := by
        rw [List.drop_append, show 33 - al.length = 0 by omega, List.drop_zero,
          List.take_append, List.take_of_length_le (by simp; omega)]
        rw [show cl.length - 32 - (al.drop 33).length = 1 by simp; omega]; simp
      have a2 : (al ++ a :: ar).drop (33 + (cl.length - 32)) = ar := by
        rw [show 33 + (cl.length - 32) = al.length + 1 by omega, List.drop_append,
          List.drop_eq_nil_of_le (by omega)]
        simp
      refine ⟨kl.take 32, kl[32]'hm, kl.drop 33 ++ k :: kr, cl.take 33,
        (cl.drop 33 ++ [c]) ++ nc :: cr, al.take 33, (al.drop 33 ++ [a]) ++ na :: ar,
        ?_, ?_, ?_, ?_, ?_, ?_, ?_, ?_, ?_, ?_⟩
      · simp only [er, ek, ec, ea, k1, k2, c1, c2, a1, a2, ok_bind, pure_ok]
      · rw [← List.cons_append, ← List.drop_eq_getElem_cons, ← List.append_assoc,
          List.take_append_drop]
      · simp only [List.append_assoc, List.singleton_append]
        rw [← List.append_assoc (as := cl.take 33), List.take_append_drop]
      · simp only [List.append_assoc, List.singleton_append]
        rw [← List.append_assoc (as := al.take 33), List.take_append_drop]
      all_goals simp; omega
    · rw [if_neg hgt]
      have hkl : kl.length = 32 := by omega
      have hcl : cl.length = 32 := by omega
      have hal : al.length = 32 := by omega
      have ek : (kl ++ kr).take 32 = kl := by rw [← hkl]; simp
      have ekd : (kl ++ kr).drop 32 = kr := by rw [← hkl]; simp
      have ec : (cl ++ c :: cr).take 33 = cl ++ [c] := by
        rw [List.take_append, List.take_of_length_le (by omega), hcl]; simp
      have ecd : (cl ++ c :: cr).drop 33 = cr := by
        rw [List.drop_append, List.drop_eq_nil_of_le (by omega), hcl]; simp
      have ea : (al ++ a :: ar).take 33 = al ++ [a] := by
        rw [List.take_append, List.take_of_length_le (by omega), hal]; simp
      have ead : (al ++ a :: ar).drop 33 = ar := by
        rw [List.drop_append, List.drop_eq_nil_of_le (by omega), hal]; simp
      refine ⟨kl, k, kr, cl ++ [c], nc :: cr, al ++ [a], na :: ar, ?_, rfl, ?_, ?_, ?_, ?_, ?_, ?_, ?_, ?_⟩
      · simp only [ek, ekd, ec, ecd, ea, ead, pure_ok]
      · simp
      · simp
      all_goals first | omega | (simp; omega)

/-! ## One step -/

theorem T.ShapeTop.mono {μ m m' : Nat} {r : Bool} {h : Nat} {x : T K V A h} (hm : m' ≤ m)
    (hx : T.ShapeTop μ m r x) : T.ShapeTop μ m' r x := by
  cases h with
  | zero => exact ⟨by have := hx.1; omega, hx.2⟩
  | succ h => exact ⟨by have := hx.1; omega, hx.2⟩

theorem mnAt_false {μ h : Nat} : mnAt μ h false = 16 := by cases h <;> rfl

theorem mnAt_le {μ h : Nat} {r : Bool} (hμ : μ ≤ 16) : mnAt μ h r ≤ 16 := by
  cases h <;> cases r <;> simp [mnAt] <;> omega

theorem spine_fill {μ : Nat} {r : Bool} {h : Nat} {f : Frame K A (T K V A h)} {x : T K V A h}
    (hs : f.Sides μ r) (hx : T.ShapeTop μ (mnAt μ h (f.holeFlag r)) (f.holeFlag r) x) :
    SpineL (fun c => T.ShapeTop μ 16 false c) (fun c => T.ShapeTop μ (mnAt μ h r) r c)
      (f.kidsL ++ x :: f.kidsR) := by
  rw [SpineL_append (by simp), SpineL_cons]
  refine ⟨hs.1, ?_, hs.2⟩
  simp only [Frame.holeFlag] at hx
  split
  · next h => simpa [h] using hx
  · next h =>
    have : f.kidsR.isEmpty = false := by simpa using h
    simpa [this, mnAt_false] using hx

/-- The value carried by an insertion result. -/
def InsertResult.kind : InsertResult K V → Option V
  | .updated v => some v
  | _ => none

/-- The frame after the child in the hole was split in `x`, `k` and a right part. -/
def Frame.widen {h : Nat} [Augmentation K V A] (f : Frame K A (T K V A h)) (x : T K V A h) (k : K)
    (y : T K V A h) : Frame K A (T K V A h) :=
  { f with keysL := f.keysL ++ [k], kidsL := f.kidsL ++ [x], augsL := f.augsL ++ [x.topAug],
           aug := y.topAug }

section
variable [Augmentation K V A]

theorem Frame.widen_lenOK {h : Nat} {f : Frame K A (T K V A h)} {x y : T K V A h} {k : K}
    (hf : f.LenOK) : (f.widen x k y).LenOK := by
  obtain ⟨h1, h2, h3, h4⟩ := hf
  simp [Frame.widen, Frame.LenOK, h1, h2, h3, h4]

theorem Frame.widen_inL {h : Nat} {f : Frame K A (T K V A h)} {x y : T K V A h} {k : K}
    (hf : f.LenOK) : (f.widen x k y).inL = f.inL ++ x.inorder ++ [E.sep k] := by
  simp only [Frame.widen, Frame.inL, List.map_append, List.map_cons, List.map_nil]
  rw [interL_append (by simp [hf.1])]
  simp [interL]

omit [Augmentation K V A] in
theorem countP_set_some {m : List (Option (Inner K A))} {i : Nat} {n n' : Inner K A}
    (h : m[i]? = some (some n)) :
    (m.set i (some n')).countP (·.isSome) = m.countP (·.isSome) := by
  induction m generalizing i with
  | nil => simp at h
  | cons a m ih =>
    cases i with
    | zero =>
      obtain rfl : a = some n := by simpa using h
      simp
    | succ i =>
      rw [List.set_cons_succ, List.countP_cons, List.countP_cons, ih (by simpa using h)]

/-- What one step of the ascending loop does. -/
structure AscendStep {h : Nat} (s : Store K V A) (f : Frame K A (T K V A h)) (u : Up K V A h)
    (Lc : List (Nat × Inner K A)) (r : InsertResult K V)
    (u1 : Up K V A (h + 1)) (r1 : InsertResult K V) (inners : List (Option (Inner K A))) :
    Prop where
  run : ∀ stk, insertAscend s ((f.id, f.kidsL.length, u.nid) :: stk) r
    = insertAscend { s with inners := inners } stk r1
  res : u1.Res r1
  nid : u1.nid = .inner f.id
  kind : r1.kind = r.kind
  imem : IMem inners (u1.nodes ++ Lc)
  nodup : ((u1.nodes ++ Lc).map (·.1)).Nodup
  inorder : u1.inorder = f.inL ++ u.inorder ++ f.inR
  leaves : u1.leaves = f.lvL ++ u.leaves ++ f.lvR
  shape : ∀ μ m rr, μ ≤ 16 → f.Sides μ rr → m ≤ f.len →
    u.Shape μ (mnAt μ h (f.holeFlag rr)) (f.holeFlag rr) → u1.Shape μ m rr
  aug : f.AugOK → u.AugOK → u1.AugOK
  count : u1.nodes.length + s.inners.length
    = u.nodes.length + (f.nodes u.nid).length + inners.length
  alloc : inners.countP (·.isSome) + s.inners.length
    = s.inners.countP (·.isSome) + inners.length

theorem ascend_step {h : Nat} {s : Store K V A} {f : Frame K A (T K V A h)} {u : Up K V A h}
    {Lc : List (Nat × Inner K A)} {r : InsertResult K V} (hf : f.LenOK) (h64 : f.len ≤ 64)
    (hlv : ∀ y ∈ u.leaves, ∃ p n, s.leaves[y.1]? = some (some ⟨y.2, p, n⟩))
    (hm : IMem s.inners (u.nodes ++ f.nodes u.nid ++ Lc))
    (hn : ((u.nodes ++ f.nodes u.nid ++ Lc).map (·.1)).Nodup) (hr : u.Res r) :
    ∃ u1 r1 inners, AscendStep s f u Lc r u1 r1 inners := by
  have hget : s.getInner f.id = .ok (f.inner u.nid) :=
    hm.get (p := (f.id, f.inner u.nid)) (by simp [Frame.nodes])
  have hgot : s.inners[f.id]? = some (some (f.inner u.nid)) :=
    hm (f.id, f.inner u.nid) (by simp [Frame.nodes])
  cases u with
  | one x =>
    simp only [Up.nid, Up.nodes, Up.leaves, Up.inorder] at *
    have hx : newAugmentationForId s x.nid = .ok x.topAug :=
      newAug_ok ⟨(IMem.append.1 (IMem.append.1 hm).1).1, hlv⟩
    have hp : (x.nodes ++ f.nodes x.nid ++ Lc).Perm
        ([] ++ (f.id, f.inner x.nid) :: (x.nodes ++ f.side ++ Lc)) := by
      simp only [Frame.nodes]; perm
    have hm' := IMem.update (n' := (f.setAug x.topAug).inner x.nid) (hm.perm hp)
      ((List.Perm.ids hp).1 hn)
    have hn' := (List.Perm.ids hp).1 hn
    have hp2 : (T.nodes (h := h + 1) ((f.setAug x.topAug).fill x) ++ Lc).Perm
        ((f.id, (f.setAug x.topAug).inner x.nid) :: (x.nodes ++ f.side ++ Lc)) := by
      refine (T.nodes_fill.append_right Lc).trans ?_
      simp only [Frame.nodes]
      show (x.nodes ++ (f.id, (f.setAug x.topAug).inner x.nid) :: f.side ++ Lc).Perm _
      perm
    have hf' : (f.setAug x.topAug).LenOK := hf
    refine ⟨.one ((f.setAug x.topAug).fill x), r,
      s.inners.set f.id (some ((f.setAug x.topAug).inner x.nid)), ?_, ?_, rfl, rfl,
      hm'.perm hp2.symm, ?_, ?_, ?_, ?_, ?_, ?_, ?_⟩
    · intro stk
      cases r with
      | updated v => simp [insertAscend, Up.nid, hx, hget, setAug_inner hf, Store.setInner]
      | inserted => simp [insertAscend, Up.nid, hx, hget, setAug_inner hf, Store.setInner]
      | split k i => exact hr.elim
    · cases r <;> first | trivial | exact hr.elim
    · exact (List.Perm.ids hp2).2 (by simpa using hn')
    · exact T.inorder_fill hf'
    · exact T.leaves_fill
    · intro μ m rr _ h1 h2 h3
      exact (T.shape_fill (f := f.setAug x.topAug).2 ⟨⟨h1, h2, h64, hf'⟩, h3⟩).1
    · intro h1 h2
      exact (T.augOK_fill hf').2 ⟨h1, rfl, h2⟩
    · have h1 := hp.length_eq
      have h2 := hp2.length_eq
      simp only [List.length_append, List.length_cons, List.length_nil] at h1 h2
      simp only [Up.nodes, Up.nid, List.length_set]
      omega
    · rw [countP_set_some hgot, List.length_set]
  | two x k y =>
    obtain rfl : r = .split k y.nid := by
      cases r with
      | split k' i => rw [hr.1, hr.2]
      | updated v => exact hr.elim
      | inserted => exact hr.elim
    simp only [Up.nid, Up.nodes, Up.leaves, Up.inorder] at *
    have hm1 := IMem.append.1 (IMem.append.1 (IMem.append.1 hm).1).1
    have hx : newAugmentationForId s x.nid = .ok x.topAug :=
      newAug_ok ⟨hm1.1, fun z hz => hlv z (by simp [hz])⟩
    have hy : newAugmentationForId s y.nid = .ok y.topAug :=
      newAug_ok ⟨hm1.2, fun z hz => hlv z (by simp [hz])⟩
    have hp : (x.nodes ++ y.nodes ++ f.nodes x.nid ++ Lc).Perm
        ([] ++ (f.id, f.inner x.nid) :: (x.nodes ++ y.nodes ++ f.side ++ Lc)) := by
      simp only [Frame.nodes]; perm
    have hn' := (List.Perm.ids hp).1 hn
    have hm' := fun n' => IMem.update (n' := n') (hm.perm hp) hn'
    have hf' : (f.setAug x.topAug).LenOK := hf
    have hfw : (f.widen x k y).LenOK := Frame.widen_lenOK hf
    have hio : T.inorder (h := h + 1) ((f.widen x k y).fill y)
        = f.inL ++ (x.inorder ++ E.sep k :: y.inorder) ++ f.inR := by
      rw [T.inorder_fill hfw, Frame.widen_inL hf]
      simp [Frame.widen, Frame.inR]
    have hlvs : T.leaves (h := h + 1) ((f.widen x k y).fill y)
        = f.lvL ++ (x.leaves ++ y.leaves) ++ f.lvR := by
      rw [T.leaves_fill]
      simp [Frame.widen, Frame.lvL, Frame.lvR]
    have hkn : (((f.widen x k y).fill y).kids.flatMap T.nodes ++ Lc).Perm
        (x.nodes ++ y.nodes ++ f.side ++ Lc) := by
      simp only [Frame.fill, Frame.widen, Frame.side]; perm
    have hsh : ∀ μ rr, μ ≤ 16 → f.Sides μ rr →
        Up.Shape μ (mnAt μ h (f.holeFlag rr)) (f.holeFlag rr) (.two x k y) →
        (f.widen x k y).Sides μ rr ∧
          T.ShapeTop μ (mnAt μ h (f.holeFlag rr)) (f.holeFlag rr) y := by
      rintro μ rr hμ ⟨h1, h2⟩ ⟨h3, h4⟩
      refine ⟨⟨?_, h2⟩, h4.mono (mnAt_le hμ)⟩
      intro c hc
      simp only [Frame.widen, List.mem_append, List.mem_singleton] at hc
      rcases hc with hc | rfl
      · exact h1 c hc
      · exact h3
    have haug : f.AugOK → Up.AugOK (.two x k y) →
        T.AugOK (h := h + 1) ((f.widen x k y).fill y) := by
      rintro ⟨h1, h2, h3, h4⟩ ⟨h5, h6⟩
      refine (T.augOK_fill hfw).2 ⟨⟨?_, h2, ?_, h4⟩, rfl, h6⟩
      · simp [Frame.widen, h1]
      · intro c hc
        simp only [Frame.widen, List.mem_append, List.mem_singleton] at hc
        rcases hc with hc | rfl
        · exact h3 c hc
        · exact h5
    by_cases hroom : f.len < 64
    · -- there is room for the new child
      have hnf : ((f.setAug x.topAug).inner x.nid).isFull = false := by
        simp only [Frame.len] at hroom
        simp [Inner.isFull, Inner.len, Frame.inner, Frame.setAug, innerN]; omega
      have hins : ((f.setAug x.topAug).inner x.nid).insertAt f.kidsL.length k y.nid y.topAug
          = .ok ((f.widen x k y).inner y.nid) := by
        have := insertAt_inner (i := x.nid) (j := y.nid) (a := y.topAug) (k := k) hf' hroom
        simp only [Frame.setAug] at this ⊢
        rw [this]
        simp [Frame.inner, Frame.widen]
      have hp2 : (T.nodes (h := h + 1) ((f.widen x k y).fill y) ++ Lc).Perm
          ((f.id, (f.widen x k y).inner y.nid) :: (x.nodes ++ y.nodes ++ f.side ++ Lc)) := by
        simp only [T.nodes, GNode.inner_fill]
        exact List.Perm.cons _ hkn
      refine ⟨.one ((f.widen x k y).fill y), .inserted,
        s.inners.set f.id (some ((f.widen x k y).inner y.nid)), ?_, trivial, rfl, rfl,
        (hm' _).perm hp2.symm, (List.Perm.ids hp2).2 (by simpa using hn'), hio, hlvs, ?_, haug,
        ?_, by rw [countP_set_some hgot, List.length_set]⟩
      · intro stk
        simp only [insertAscend, Up.nid, hx, hy, ok_bind, hget, setAug_inner hf, hnf, Bool.not_false,
          if_true, hins, Store.setInner]
      · intro μ m rr hμ h1 h2 h3
        have h4 := hsh μ rr hμ h1 h3
        refine (T.shape_fill (f := f.widen x k y).2 ⟨⟨h4.1, ?_, ?_, hfw⟩, h4.2⟩).1
        · simp only [Frame.len, Frame.widen, List.length_append, List.length_singleton] at h2 ⊢
          omega
        · simp only [Frame.len, Frame.widen, List.length_append, List.length_singleton] at hroom ⊢
          omega
      · have h1 := hp.length_eq
        have h2 := hp2.length_eq
        simp only [List.length_append, List.length_cons, List.length_nil] at h1 h2
        simp only [Up.nodes, Up.nid, List.length_set, List.length_append]
        omega
    · -- the node is split
      obtain ⟨h1, h2, h3, h4⟩ := id hf
      have hl64 : f.keysL.length + f.keysR.length = 64 := by
        simp only [Frame.len] at hroom h64; omega
      have hfull : ((f.setAug x.topAug).inner x.nid).isFull = true := by
        simp [Inner.isFull, Inner.len, Frame.inner, Frame.setAug, innerN, hl64]
      obtain ⟨kA, m, kB, cA, cB, aA, aB, hsp, ek, ec, ea, l1, l2, l3, l4, l5, l6⟩ :=
        split_inner (kl := f.keysL) (kr := f.keysR) (cl := f.kidsL.map T.nid)
          (cr := f.kidsR.map T.nid) (al := f.augsL) (ar := f.augsR) (c := x.nid) (a := x.topAug)
          (by simpa using h1) (by simpa using h2) (by simpa using h3) (by simpa using h4) hl64
          k y.nid y.topAug
      have ec' : (f.kidsL ++ x :: y :: f.kidsR).map T.nid = cA ++ cB := by simpa using ec
      obtain ⟨xA, xB, ex, rfl, rfl⟩ := List.map_eq_append_iff.1 ec'
      have hW : (f.widen x k y).fill y = ⟨f.id, kA ++ m :: kB, xA ++ xB, aA ++ aB⟩ := by
        simp [Frame.fill, Frame.widen, ← ek, ← ex, ← ea]
      rw [hW] at hio hlvs hkn haug
      simp only [List.length_map] at l3 l4 hsp
      let gA : GNode K A (T K V A h) := ⟨f.id, kA, xA, aA⟩
      let gB : GNode K A (T K V A h) := ⟨s.inners.length, kB, xB, aB⟩
      have hp2 : (T.nodes (h := h + 1) gA ++ T.nodes (h := h + 1) gB ++ Lc).Perm
          ((s.inners.length, gB.inner) :: (f.id, gA.inner) ::
            (x.nodes ++ y.nodes ++ f.side ++ Lc)) := by
        refine List.Perm.trans ?_ ((hkn.cons _).cons _)
        simp only [T.nodes, gA, gB]
        perm
      have hA := hm' gA.inner
      have hlt : ∀ j ∈ ((f.id, gA.inner) :: (x.nodes ++ y.nodes ++ f.side ++ Lc)).map (·.1),
          j < s.inners.length := by
        intro j hj
        have := hA.lt hj
        simpa using this
      have hlen : (s.inners.set f.id (some gA.inner)).length = s.inners.length := by simp
      refine ⟨.two gA m gB, .split m (.inner s.inners.length),
        s.inners.set f.id (some gA.inner) ++ [some gB.inner], ?_, ⟨rfl, rfl⟩, rfl, rfl, ?_, ?_, ?_,
        ?_, ?_, ?_, ?_, ?_⟩
      · intro stk
        have hsp' : ((f.setAug x.topAug).inner x.nid).split f.kidsL.length k y.nid y.topAug
            = .ok (m, gA.inner, gB.inner) := hsp
        simp only [insertAscend, Up.nid, hx, hy, ok_bind, hget, setAug_inner hf, hfull,
          Bool.not_true, Bool.false_eq_true, if_false, hsp', Store.setInner, Store.addInner, hlen]
      · refine IMem.perm hp2.symm (IMem.cons.2 ⟨?_, IMem.push hA⟩)
        simp only
        rw [List.getElem?_append_right (by simp)]
        simp
      · refine (List.Perm.ids hp2).2 ?_
        rw [List.map_cons, List.nodup_cons]
        refine ⟨fun hj => absurd (hlt _ hj) (lt_irrefl _), ?_⟩
        simpa using hn'
      · refine Eq.trans ?_ hio
        simp only [Up.inorder, T.inorder, gA, gB, List.map_append]
        rw [inter_append (by simp; omega) (by simp; omega)]
      · refine Eq.trans ?_ hlvs
        simp [Up.leaves, T.leaves, gA, gB]
      · intro μ m' rr hμ h1 h2 h3
        have h4 := hsh μ rr hμ h1 h3
        have h5 : SpineL (fun c => T.ShapeTop μ 16 false c)
            (fun c => T.ShapeTop μ (mnAt μ h rr) rr c) (xA ++ xB) := by
          have := spine_fill h4.1 h4.2
          simpa [Frame.widen, ex] using this
        have hxB : xB ≠ [] := by rintro rfl; simp at l4
        rw [SpineL_append hxB] at h5
        refine ⟨⟨(by simp only [gA]; omega), (by simp only [gA]; omega), (by simp only [gA]; omega),
          (by simp only [gA]; omega), ?_⟩, ⟨(by simp only [gB]; omega), (by simp only [gB]; omega), (by simp only [gB]; omega),
          (by simp only [gB]; omega), h5.2⟩⟩
        simp only [mnAt_false, SpineL_same, gA]
        exact h5.1
      · intro h1 h2
        have h3 := haug h1 h2
        simp only [T.AugOK, List.map_append] at h3
        have h4 := List.append_inj h3.1 (by simp; omega)
        exact ⟨⟨h4.1, fun c hc => h3.2 c (List.mem_append_left _ hc)⟩,
          ⟨h4.2, fun c hc => h3.2 c (List.mem_append_right _ hc)⟩⟩
      · have h1 := hp.length_eq
        have h2 := hp2.length_eq
        simp only [List.length_append, List.length_cons, List.length_nil] at h1 h2
        simp only [Up.nodes, Up.nid, List.length_set, List.length_append, List.length_cons,
          List.length_nil]
        omega
      · rw [List.countP_append, countP_set_some hgot, List.length_append, List.length_set]
        simp only [List.countP_cons, List.countP_nil, Option.isSome_some, if_true, List.length_cons,
          List.length_nil]
        omega

/-- The whole ascending loop. -/
theorem ascend_ok {μ : Nat} (hμ : μ ≤ 16) {h H : Nat} {c : Ctx K V A h H} {s : Store K V A}
    {u : Up K V A h} {r : InsertResult K V} {x0 : T K V A h} (hid : u.nid = x0.nid)
    (hc : c.Shape μ) (hu : u.Shape μ (c.min μ) c.flag)
    (hlv : ∀ y ∈ c.lvL ++ u.leaves ++ c.lvR, ∃ p n, s.leaves[y.1]? = some (some ⟨y.2, p, n⟩))
    (hm : IMem s.inners (u.nodes ++ c.nodes u.nid))
    (hn : ((u.nodes ++ c.nodes u.nid).map (·.1)).Nodup) (hr : u.Res r) :
    ∃ (u' : Up K V A H) (r' : InsertResult K V) (inners : List (Option (Inner K A))),
      insertAscend s (c.stack u.nid) r = .ok ({ s with inners := inners }, r') ∧
      u'.Res r' ∧ r'.kind = r.kind ∧ u'.nid = (c.plug x0).nid ∧
      IMem inners u'.nodes ∧ (u'.nodes.map (·.1)).Nodup ∧
      u'.inorder = c.inL ++ u.inorder ++ c.inR ∧ u'.leaves = c.lvL ++ u.leaves ++ c.lvR ∧
      u'.Shape μ (rootMin H) true ∧ (c.AugOK → u.AugOK → u'.AugOK) ∧
      u'.nodes.length + s.inners.length
        = u.nodes.length + (c.nodes u.nid).length + inners.length ∧
      inners.countP (·.isSome) + s.inners.length
        = s.inners.countP (·.isSome) + inners.length := by
  induction c generalizing s r with
  | nil =>
    refine ⟨u, r, s.inners, rfl, hr, rfl, hid, ?_, ?_, ?_, ?_, hu, fun _ h => h, by simp [Ctx.nodes], rfl⟩
    · simpa [Ctx.nodes] using hm
    · simpa [Ctx.nodes] using hn
    · simp [Ctx.inL, Ctx.inR]
    · simp [Ctx.lvL, Ctx.lvR]
  | cons f c ih =>
    obtain ⟨hS, hmin, h64, hf, hcs⟩ := hc
    simp only [Ctx.nodes, ← List.append_assoc] at hm hn
    obtain ⟨u1, r1, inners, st⟩ := ascend_step (s := s) (f := f) (u := u)
      (Lc := c.nodes (.inner f.id)) hf h64
      (fun y hy => hlv y (by simp [hy])) hm hn hr
    have := ih (s := { s with inners := inners }) (u := u1) (r := r1) (x0 := f.fill x0)
      (by rw [st.nid]; rfl) hcs
      (st.shape μ (c.min μ) c.flag hμ hS hmin hu)
      (by
        rw [st.leaves]
        intro y hy
        exact hlv y (by simpa [Ctx.lvL, Ctx.lvR, or_assoc] using hy))
      (by rw [st.nid]; exact st.imem) (by rw [st.nid]; exact st.nodup) st.res
    obtain ⟨u', r', inners', h1, h2, h3, h4, h5, h6, h7, h8, h9, h10, h11, h12⟩ := this
    refine ⟨u', r', inners', ?_, h2, h3.trans st.kind, h4, h5, h6, ?_, ?_, h9, ?_, ?_, ?_⟩
    · simp only [Ctx.stack]
      rw [st.run, ← st.nid]
      exact h1
    · rw [h7, st.inorder]; simp [Ctx.inL, Ctx.inR]
    · rw [h8, st.leaves]; simp [Ctx.lvL, Ctx.lvR]
    · rintro ⟨ha, hb⟩ hc
      exact h10 hb (st.aug ha hc)
    · have := st.count
      rw [st.nid] at h11
      simp only [Ctx.nodes, List.length_append] at h11 ⊢
      omega
    · have := st.alloc
      simp only at h12
      omega

end

end Bpt
