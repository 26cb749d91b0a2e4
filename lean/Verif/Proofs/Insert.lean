import Verif.Proofs.Content
import Verif.MemorySpec

/-!
# Insertion
-/

namespace Bpt
variable {K V A : Type}

theorem descendInsert_eq [LinearOrder K] [Augmentation K V A] (s : Store K V A) (root : NodeId)
    (k : K) (v : V) : descendInsert s root k v = (do
      let (stack, leafId) ← descendLeaf s (insertDescendStep k) [] root
      let (s, r) ← insertLeaf s leafId k v
      insertAscend s stack r) := by
  cases root with
  | inner i => rfl
  | leaf i =>
    simp only [descendInsert, descendLeaf, Store.fuel, descend, ok_bind, pure_ok]
    cases insertLeaf s i k v with
    | error e => rfl
    | ok p => cases p; rfl

section
variable [LinearOrder K]

theorem pairwise_insert {P Q : List (E K)} {z : E K} (h : (P ++ Q).Pairwise E.R)
    (h1 : ∀ e ∈ P, e.R z) (h2 : ∀ e ∈ Q, z.R e) : (P ++ z :: Q).Pairwise E.R := by
  rw [List.pairwise_append] at h ⊢
  refine ⟨h.1, List.pairwise_cons.2 ⟨h2, h.2.1⟩, ?_⟩
  intro a ha b hb
  rw [List.mem_cons] at hb
  rcases hb with rfl | hb
  · exact h1 a ha
  · exact h.2.2 a ha b hb

/-- Adding the separator of a split leaf. -/
theorem pairwise_split {P Q : List (E K)} {d1 : List K} {m : K} (hne : d1 ≠ [])
    (h : (P ++ (d1.map E.key ++ E.key m :: Q)).Pairwise E.R) :
    (P ++ (d1.map E.key ++ E.sep m :: E.key m :: Q)).Pairwise E.R := by
  rw [← List.append_assoc] at h ⊢
  refine pairwise_insert h ?_ ?_
  · obtain ⟨x0, d, rfl⟩ := List.exists_cons_of_ne_nil hne
    rw [List.pairwise_append] at h
    intro e he
    rw [List.mem_append] at he
    rcases he with he | he
    · have h1 := h.1
      rw [List.pairwise_append] at h1
      have h2 : e.R (.key x0) := h1.2.2 e he _ (by simp)
      have h3 : (E.key x0).R (.key m) := h.2.2 _ (by simp) _ (by simp)
      exact h2.trans (c := .sep m) h3
    · have h3 : e.R (.key m) := h.2.2 e (List.mem_append_right _ he) _ (by simp)
      obtain ⟨a, -, rfl⟩ := List.mem_map.1 he
      exact h3
  · intro e he
    rw [List.pairwise_append, List.pairwise_cons] at h
    rw [List.mem_cons] at he
    rcases he with rfl | he
    · exact le_refl m
    · have := h.2.1.1 e he
      cases e with
      | key b => exact le_of_lt this
      | sep b => exact this

open Spec
variable [Augmentation K V A]

/-- The account of nodes of an insertion: the tables grow by as many slots as there are new nodes, and
every new node is in the tree. -/
structure InsAccount {H H' : Nat} (t : Tree K V A) (g : T K V A H) (t' : Tree K V A)
    (g' : T K V A H') : Prop where
  low : H ≤ H'
  nodes : g'.nodes.length + t.store.inners.length = g.nodes.length + t'.store.inners.length
  alloc : t'.store.allocatedInners + t.store.inners.length
    = t.store.allocatedInners + t'.store.inners.length
  leaves : g'.leaves.length + t.store.leaves.length = g.leaves.length + t'.store.leaves.length

omit [LinearOrder K] in
/-- The part of an insertion after the leaf: the ascending loop and the root. -/
theorem insert_core {μ : Nat} (hμ : μ ≤ 16) {t : Tree K V A} {H : Nat} {g : T K V A H}
    (w : WF0 μ t g) {c : Ctx K V A 0 H} {x : GLeaf K V} (hp : c.plug x = g) (hlen : c.LenOK)
    {s1 : Store K V A} {slot : Slot} {k : K} {v : V} {r : InsertResult K V} {u : Up K V A 0}
    (li : LeafInsert0 t.store s1 c.lvL c.lvR x.id x.data slot k v r u) :
    ∃ (t' : Tree K V A) (H' : Nat) (g' : T K V A H'),
      (do
        let (s, r) ← insertAscend s1 (c.stack (.leaf x.id)) r
        t.finishInsert s r) = .ok (r.kind, t') ∧
      WF0 μ t' g' ∧ g'.inorder = c.inL ++ u.inorder ++ c.inR ∧
      g'.leaves = c.lvL ++ u.leaves ++ c.lvR ∧ (AugWF t g → AugWF t' g') ∧ t'.st = t.st ∧
      InsAccount t g t' g' := by
  have hsh := Ctx.shape_plug.1 ⟨hp ▸ w.shape, hlen⟩
  obtain ⟨hcS, hxS⟩ := hsh
  have hleaves : g.leaves = c.lvL ++ (x.id, x.data) :: c.lvR := by
    rw [← hp, Ctx.leaves_plug]; simp [T.leaves]
  have htoL : g.toL = c.lvL.flatMap (·.2) ++ x.data ++ c.lvR.flatMap (·.2) := by
    simp [T.toL, hleaves]
  have h64 : x.data.length ≤ 64 := hxS.2
  -- the state handed to the ascending loop
  have hnodes : u.nodes = [] := by
    cases u <;> rfl
  have hg : g.nodes.Perm (u.nodes ++ c.nodes u.nid) := by
    rw [hnodes, li.nid, ← hp]
    exact Ctx.nodes_plug
  have hm : IMem s1.inners (u.nodes ++ c.nodes u.nid) := by
    rw [li.inners]; exact w.imem.perm hg
  have hn : ((u.nodes ++ c.nodes u.nid).map (·.1)).Nodup := (List.Perm.ids hg).1 w.inodup
  have hlv : ∀ y ∈ c.lvL ++ u.leaves ++ c.lvR, ∃ p n,
      s1.leaves[y.1]? = some (some ⟨y.2, p, n⟩) := by
    intro y hy
    obtain ⟨a, b, hab⟩ := List.append_of_mem hy
    have := li.seg
    rw [hab] at this
    exact ⟨_, _, this.get⟩
  have hμ1 : c.min μ ≤ 16 := by
    cases c with
    | nil => simp [Ctx.min, rootMin]
    | cons f c => exact mnAt_le hμ
  have hmin1 : ∀ n, c.min μ ≤ x.data.length → x.data.length ≤ n → c.min μ ≤ n := by
    intros; omega
  have hu : u.Shape μ (c.min μ) c.flag := by
    have hlow : c.min μ ≤ x.data.length := hxS.1
    rcases li.cases with ⟨a, k0, v0, b, e, -, -, rfl⟩ | ⟨a, b, e, -, h4, -, rfl⟩ |
      ⟨a, b, i, d1, m, w, d2, e, -, h3, h4, h5, h6, h7, -, rfl⟩
    · rw [e] at hlow h64
      simp only [List.length_append, List.length_cons] at hlow h64
      exact ⟨by simp only [List.length_append, List.length_cons]; omega,
        by simp only [List.length_append, List.length_cons]; omega⟩
    · rw [e] at hlow h4
      simp only [List.length_append] at hlow h4
      exact ⟨by simp only [List.length_append, List.length_cons]; omega,
        by simp only [List.length_append, List.length_cons]; omega⟩
    · exact ⟨⟨by simp only; omega, by simp only; omega⟩,
        ⟨by simp only [List.length_cons]; omega, by simp only [List.length_cons]; omega⟩⟩
  have hid : u.nid = T.nid (K := K) (V := V) (A := A) (h := 0) x := li.nid
  obtain ⟨u', r', inners, hrun, hres, hkind, hnid, him, hnd, hio, hlvs, hshape, haug, hcnt, hall⟩ :=
    ascend_ok hμ (x0 := x) hid hcS hu hlv hm hn li.res
  have hlct : u'.leaves.length + t.store.leaves.length = g.leaves.length + s1.leaves.length := by
    have := li.slots
    rw [hlvs, hleaves]
    simp only [List.length_append, List.length_cons]
    omega
  have hgl := hg.length_eq
  rw [li.inners] at hcnt hall
  rw [List.length_append] at hgl
  simp only [hnodes, List.length_nil, Nat.zero_add] at hcnt hgl
  have hdi : insertAscend s1 (c.stack (.leaf x.id)) r = .ok ({ s1 with inners := inners }, r') := by
    rw [← hrun, li.nid]
  have hroot : t.root = u'.nid := by rw [w.root, hnid, hp]
  have hc3 : (u'.leaves.flatMap (·.2)).length
      = if r.kind.isSome then g.toL.length else g.toL.length + 1 := by
    rw [hlvs, htoL]
    rcases li.cases with ⟨a, k0, v0, b, e, -, rfl, rfl⟩ | ⟨a, b, e, -, -, rfl, rfl⟩ |
      ⟨a, b, i, d1, m, w', d2, e, -, h3, h4, h5, h6, h7, rfl, rfl⟩
    · rw [e]; simp [Up.leaves, T.leaves, InsertResult.kind]
    · rw [e]; simp [Up.leaves, T.leaves, InsertResult.kind]; omega
    · rw [e]
      have := congrArg List.length h3
      simp [Up.leaves, T.leaves, InsertResult.kind] at this ⊢; omega
  have hseg := li.seg
  have hlnd := li.nodup
  have hlive := li.live
  rw [← hlvs] at hseg hlnd hlive
  rw [← hlvs, ← hio]
  have haug' : AugWF t g → u'.AugOK := by
    intro ha
    have := Ctx.augOK_of_plug hlen (hp ▸ ha.ok)
    refine haug this.1 ?_
    cases u with
    | one x => trivial
    | two x k y => exact ⟨trivial, trivial⟩
  have hold : ∀ y ∈ u'.leaves, ∃ p n, s1.leaves[y.1]? = some (some ⟨y.2, p, n⟩) := by
    intro y hy; rw [hlvs] at hy; exact hlv y hy
  rw [← hkind] at hc3 ⊢
  cases u' with
  | one z =>
    have hz : newAugmentationForId { s1 with inners := inners } t.root = .ok z.topAug := by
      rw [hroot]; exact newAug_ok ⟨him, hold⟩
    cases r' with
    | split k' i => exact hres.elim
    | updated v0 =>
      refine ⟨{ t with store := { s1 with inners := inners }, rootAug := z.topAug }, H, z, ?_, ?_,
        rfl, rfl, ?_, rfl, Nat.le_refl _, ?_, hall, hlct⟩
      · simp only [Tree.finishInsert, hdi, ok_bind, hz, pure_ok, InsertResult.kind]
      · refine ⟨hroot, him, hnd, hseg, hlnd, hlive, hshape, ?_⟩
        refine Eq.trans ?_ hc3.symm
        simp [InsertResult.kind, w.len]
      · exact fun ha => ⟨haug' ha, .inl rfl⟩
      · simp only [Up.nodes] at hcnt; simp only; omega
    | inserted =>
      refine ⟨{ t with store := { s1 with inners := inners }, rootAug := z.topAug,
                       len := t.len + 1 }, H, z, ?_, ?_, rfl, rfl, ?_, rfl,
        Nat.le_refl _, ?_, hall, hlct⟩
      · simp only [Tree.finishInsert, hdi, ok_bind, hz, pure_ok, InsertResult.kind]
      · refine ⟨hroot, him, hnd, hseg, hlnd, hlive, hshape, ?_⟩
        refine Eq.trans ?_ hc3.symm
        simp [InsertResult.kind, w.len]
      · exact fun ha => ⟨haug' ha, .inl rfl⟩
      · simp only [Up.nodes] at hcnt; simp only; omega
  | two y m z =>
    obtain rfl : r' = .split m z.nid := by
      cases r' with
      | split k' i => rw [hres.1, hres.2]
      | updated v => exact hres.elim
      | inserted => exact hres.elim
    simp only [Up.nodes, Up.leaves, Up.nid, Up.inorder] at him hold hnd hroot hseg hlnd hlive hc3 ⊢
    have hm2 := IMem.append.1 him
    have hy : newAugmentationForId { s1 with inners := inners } t.root = .ok y.topAug := by
      rw [hroot]; exact newAug_ok ⟨hm2.1, fun q hq => hold q (by simp [hq])⟩
    have hz : newAugmentationForId { s1 with inners := inners } z.nid = .ok z.topAug :=
      newAug_ok ⟨hm2.2, fun q hq => hold q (by simp [hq])⟩
    let gn : GNode K A (T K V A H) := ⟨inners.length, [m], [y, z], [y.topAug, z.topAug]⟩
    have hnew : Inner.newFromIter [m] [t.root, z.nid] [y.topAug, z.topAug] = .ok gn.inner := by
      simp [Inner.newFromIter, innerN, gn, GNode.inner, hroot]
    refine ⟨{ t with store := { s1 with inners := inners ++ [some gn.inner] },
                     root := .inner inners.length, rootAug := innerAug V gn.inner,
                     len := t.len + 1 }, H + 1, gn, ?_, ?_, ?_, ?_, ?_⟩
    · simp only [Tree.finishInsert, hdi, ok_bind, hy, hz, hnew, pure_ok, Store.addInner,
        InsertResult.kind]
    · have hnodes : T.nodes (h := H + 1) gn = (inners.length, gn.inner) :: (y.nodes ++ z.nodes) := by
        simp [T.nodes, gn]
      have hlv2 : T.leaves (h := H + 1) gn = y.leaves ++ z.leaves := by
        simp [T.leaves, gn]
      refine ⟨rfl, ?_, ?_, hlv2 ▸ hseg, hlv2 ▸ hlnd, hlv2 ▸ hlive, ?_, ?_⟩
      · rw [hnodes, IMem.cons]
        refine ⟨by simp, IMem.push him⟩
      · rw [hnodes, List.map_cons, List.nodup_cons]
        refine ⟨fun hj => absurd (him.lt hj) (lt_irrefl _), hnd⟩
      · refine ⟨by simp [gn, rootMin], by simp [gn], by simp [gn], by simp [gn], ?_⟩
        refine ⟨hshape.1, ?_⟩
        exact hshape.2.mono (mnAt_le hμ)
      · simp only [T.toL, hlv2]
        refine Eq.trans ?_ hc3.symm
        simp [InsertResult.kind, w.len]
    · simp [T.inorder, gn, inter]
    · have hlv2 : T.leaves (h := H + 1) gn = y.leaves ++ z.leaves := by
        simp [T.leaves, gn]
      exact hlv2
    · refine ⟨fun ha => ⟨?_, .inl rfl⟩, rfl, Nat.le_succ _, ?_, ?_, by
        simpa [T.leaves, gn, Up.leaves] using hlct⟩
      rotate_left
      · simp only [Up.nodes, List.length_append] at hcnt
        simp only [T.nodes, gn, List.length_cons, List.flatMap_cons, List.flatMap_nil,
          List.length_append, List.length_nil]
        omega
      · simp only [Store.allocatedInners, List.countP_append, List.length_append, List.countP_cons,
          List.countP_nil, Option.isSome_some, if_true, List.length_cons, List.length_nil]
        omega
      have := haug' ha
      refine ⟨by simp [gn], ?_⟩
      intro q hq
      simp only [gn, List.mem_cons, List.not_mem_nil, or_false] at hq
      rcases hq with rfl | rfl
      · exact this.1
      · exact this.2

theorem insert_eq {t : Tree K V A} {k : K} {v : V} : t.insert k v = (do
    let (s, r) ← descendInsert t.store t.root k v
    t.finishInsert s r) := by
  unfold Tree.insert Tree.finishInsert
  cases descendInsert t.store t.root k v with
  | error e => rfl
  | ok p => obtain ⟨s, r⟩ := p; cases r <;> rfl

/-- Insertion into a well-formed tree: no fault, the result is well formed and holds the updated
map. -/
theorem insert_ok {μ : Nat} (hμ : μ ≤ 16) {t : Tree K V A} {H : Nat} {g : T K V A H} (w : WF μ t g)
    (hH : H ≤ maxDepth) (k : K) (v : V) :
    ∃ (t' : Tree K V A) (H' : Nat) (g' : T K V A H'),
      t.insert k v = .ok (lookup k g.toL, t') ∧ WF μ t' g' ∧
      g'.toL = upsert k v g.toL ∧ (AugWF t g → AugWF t' g') ∧ t'.st = t.st ∧
      InsAccount t g t' g' := by
  obtain ⟨c, x, hp, hdesc, hloc⟩ := descend_stack w hH k
  have hsh := Ctx.shape_plug.1 ⟨hp ▸ w.shape, hloc.lenOK⟩
  obtain ⟨hcS, hxS⟩ := hsh
  have hleaves : g.leaves = c.lvL ++ (x.id, x.data) :: c.lvR := by
    rw [← hp, Ctx.leaves_plug]; simp [T.leaves]
  have hin : g.inorder = c.inL ++ x.data.map (fun kv => E.key kv.1) ++ c.inR := by
    rw [← hp, Ctx.inorder_plug hloc.lenOK]; rfl
  have htoL : g.toL = c.lvL.flatMap (·.2) ++ x.data ++ c.lvR.flatMap (·.2) := by
    simp [T.toL, hleaves]
  have hkeys := hloc.keys hcS
  have hord := w.ord
  rw [hin] at hord
  have hd : (x.data.map (·.1)).Pairwise (· < ·) := by
    have h1 := (List.pairwise_append.1 (List.pairwise_append.1 hord).1).2.1
    rw [List.pairwise_map] at h1 ⊢
    exact h1
  have h64 : x.data.length ≤ 64 := hxS.2
  obtain ⟨s1, r, u, slot, hins, li, li0⟩ := insertLeaf_ok (s := t.store) (LA := c.lvL) (LB := c.lvR) (id := x.id)
    (d := x.data) (hleaves ▸ w.seg) (hleaves ▸ w.lnodup) (hleaves ▸ w.live) hd h64 k v
  obtain ⟨t', H', g', hrun, hw, hio, hlvs, haug, hst⟩ := insert_core hμ w.base hp hloc.lenOK li0
  have hfull : t.insert k v = .ok (r.kind, t') := by
    rw [insert_eq, descendInsert_eq, hdesc]
    simp only [ok_bind, hins]
    exact hrun
  have hu'ord : g'.inorder.Pairwise E.R := by
    rw [hio]
    rcases li.cases with ⟨a, v0, b, e, -, -, -, rfl⟩ | ⟨a, b, e, h1, h2, -, -, rfl⟩ |
      ⟨a, b, i, d1, m, w', d2, e, h1, h2, h3, h4, h5, h6, h7, -, rfl⟩
    · rw [e] at hord
      simpa [Up.inorder, T.inorder] using hord
    · rw [e] at hord
      have := pairwise_insert (P := c.inL ++ a.map (fun kv => E.key kv.1))
        (Q := b.map (fun kv => E.key kv.1) ++ c.inR) (z := E.key k)
        (by simpa using hord)
        (by
          intro e he
          rw [List.mem_append] at he
          rcases he with he | he
          · exact hloc.before e he
          · obtain ⟨p, hp, rfl⟩ := List.mem_map.1 he
            exact h1 p hp)
        (by
          intro e he
          rw [List.mem_append] at he
          rcases he with he | he
          · obtain ⟨p, hp, rfl⟩ := List.mem_map.1 he
            exact h2 p hp
          · exact hloc.after e he)
      simpa [Up.inorder, T.inorder] using this
    · rw [e] at hord
      have := pairwise_insert (P := c.inL ++ a.map (fun kv => E.key kv.1))
        (Q := b.map (fun kv => E.key kv.1) ++ c.inR) (z := E.key k)
        (by simpa using hord)
        (by
          intro e he
          rw [List.mem_append] at he
          rcases he with he | he
          · exact hloc.before e he
          · obtain ⟨p, hp, rfl⟩ := List.mem_map.1 he
            exact h1 p hp)
        (by
          intro e he
          rw [List.mem_append] at he
          rcases he with he | he
          · obtain ⟨p, hp, rfl⟩ := List.mem_map.1 he
            exact h2 p hp
          · exact hloc.after e he)
      have e2 : d1.map (fun kv => E.key kv.1) ++ E.key m :: d2.map (fun kv => E.key kv.1)
          = a.map (fun kv => E.key kv.1) ++ E.key k :: b.map (fun kv => E.key kv.1) := by
        have := congrArg (List.map (fun kv : K × V => E.key kv.1)) h3
        simpa using this
      have := pairwise_split (P := c.inL) (d1 := d1.map (·.1)) (m := m)
        (Q := d2.map (fun kv => E.key kv.1) ++ c.inR)
        (by
          intro h0
          have : d1.length = 0 := by simpa using congrArg List.length h0
          omega)
        (by
          have e3 : d1.map (fun kv => E.key kv.1) ++ (E.key m :: (d2.map (fun kv => E.key kv.1)
              ++ c.inR)) = a.map (fun kv => E.key kv.1) ++ E.key k ::
                (b.map (fun kv => E.key kv.1) ++ c.inR) := by
            rw [← List.cons_append, ← List.append_assoc, e2]; simp
          have e4 : (d1.map (·.1)).map E.key = d1.map (fun kv => E.key kv.1) := by simp
          rw [e4, e3]
          simpa using this)
      simpa [Up.inorder, T.inorder, Function.comp_def] using this
  have hcont : g'.toL = upsert k v g.toL ∧ lookup k g.toL = r.kind ∧
      ((upsert k v g.toL).length = if r.kind.isSome then g.toL.length else g.toL.length + 1) := by
    rw [T.toL, hlvs, htoL]
    rcases li.cases with ⟨a, v0, b, e, h1, h2, rfl, rfl⟩ | ⟨a, b, e, h1, h2, -, rfl, rfl⟩ |
      ⟨a, b, i, d1, m, w', d2, e, h1, h2, h3, h4, h5, h6, h7, rfl, rfl⟩
    all_goals
      have hA : ∀ e ∈ c.lvL.flatMap (·.2) ++ a, e.1 < k := by
        intro e he
        rw [List.mem_append] at he
        rcases he with he | he
        · exact hkeys.1 e he
        · exact h1 e he
      have hB : ∀ e ∈ b ++ c.lvR.flatMap (·.2), k < e.1 := by
        intro e he
        rw [List.mem_append] at he
        rcases he with he | he
        · exact h2 e he
        · exact hkeys.2 e he
    · have e1 : c.lvL.flatMap (·.2) ++ x.data ++ c.lvR.flatMap (·.2)
          = (c.lvL.flatMap (·.2) ++ a) ++ (k, v0) :: (b ++ c.lvR.flatMap (·.2)) := by
        rw [e]; simp
      rw [e1, upsert_found hA hB, lookup_found hA]
      refine ⟨by simp [Up.leaves, T.leaves], rfl, by simp [InsertResult.kind]⟩
    · have e1 : c.lvL.flatMap (·.2) ++ x.data ++ c.lvR.flatMap (·.2)
          = (c.lvL.flatMap (·.2) ++ a) ++ (b ++ c.lvR.flatMap (·.2)) := by
        rw [e]; simp
      rw [e1, upsert_vacant hA hB, lookup_none hA hB]
      refine ⟨by simp [Up.leaves, T.leaves], rfl, by simp [InsertResult.kind]; omega⟩
    · have e1 : c.lvL.flatMap (·.2) ++ x.data ++ c.lvR.flatMap (·.2)
          = (c.lvL.flatMap (·.2) ++ a) ++ (b ++ c.lvR.flatMap (·.2)) := by
        rw [e]; simp
      rw [e1, upsert_vacant hA hB, lookup_none hA hB]
      refine ⟨?_, rfl, by simp [InsertResult.kind]; omega⟩
      have e2 : c.lvL.flatMap (·.2) ++ a ++ (k, v) :: (b ++ c.lvR.flatMap (·.2))
          = c.lvL.flatMap (·.2) ++ (d1 ++ (m, w') :: d2) ++ c.lvR.flatMap (·.2) := by
        rw [h3]; simp
      rw [e2]
      simp [Up.leaves, T.leaves]
  obtain ⟨hc1, hc2, -⟩ := hcont
  exact ⟨t', H', g', by rw [hfull, hc2], hw.ordered hu'ord, hc1, haug, hst⟩

end
end Bpt
