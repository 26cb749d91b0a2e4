import Verif.Proofs.NodeCount
import Verif.Proofs.Lawful
import Verif.Props.Books

/-!
# Merges of inner nodes over a life
-/

namespace Bpt
open Spec
variable {K V A : Type}

/-! ## Trees of two levels and more -/

theorem leaves_count {μ h m : Nat} {r : Bool} {x : T K V A h} (hx : T.ShapeTop μ m r x) :
    x.toL.length ≤ 64 * x.leaves.length := by
  induction h generalizing m r with
  | zero =>
    have : (GLeaf.data x).length ≤ 64 := hx.2
    simpa [T.toL, T.leaves] using this
  | succ h ih =>
    have hk : ∀ a ∈ GNode.kids x, (∃ m' r', T.ShapeTop μ m' r' a) := by
      refine SpineL_same.1 (SpineL_mono ?_ ?_ hx.2.2.2.2)
      · intro a _ ha; exact ⟨_, _, ha⟩
      · intro a _ ha; exact ⟨_, _, ha⟩
    have : ∀ xs : List (T K V A h), (∀ a ∈ xs, a.toL.length ≤ 64 * a.leaves.length) →
        ((xs.flatMap (fun c => c.leaves)).flatMap (·.2)).length
          ≤ 64 * (xs.flatMap (fun c => c.leaves)).length := by
      intro xs hxs
      induction xs with
      | nil => simp
      | cons a xs ihx =>
        have h1 := hxs a (by simp)
        have h2 := ihx (fun b hb => hxs b (by simp [hb]))
        simp only [T.toL] at h1
        simp only [List.flatMap_cons, List.flatMap_append, List.length_append] at *
        omega
    exact this _ fun a ha => by obtain ⟨m', r', h1⟩ := hk a ha; exact ih h1

theorem two_levels {μ H : Nat} {g : T K V A H} (hg : T.ShapeTop μ (rootMin H) true g)
    (hl : 4160 < g.toL.length) : 2 ≤ H := by
  have h1 := leaves_count hg
  match H, g, hg with
  | 0, g, hg => simp [T.leaves] at h1; omega
  | 1, g, hg =>
    have h2 := hg.2.1
    have h3 := hg.2.2.1
    have h4 : ∀ xs : List (T K V A 0), (xs.flatMap (fun c => T.leaves c)).length = xs.length := by
      intro xs
      induction xs with
      | nil => rfl
      | cons a xs ih => rw [List.flatMap_cons, List.length_append, ih]; simp [T.leaves]; omega
    have h5 := h4 (GNode.kids g)
    simp only [T.leaves] at h1 h5
    omega
  | H + 2, g, hg => omega

theorem nodes_ge {μ h m : Nat} {r : Bool} {x : T K V A h} (hx : T.ShapeTop μ m r x) :
    h ≤ x.nodes.length := by
  induction h generalizing m r with
  | zero => omega
  | succ h ih =>
    have hk : ∀ a ∈ GNode.kids x, (∃ m' r', T.ShapeTop μ m' r' a) := by
      refine SpineL_same.1 (SpineL_mono ?_ ?_ hx.2.2.2.2)
      · intro a _ ha; exact ⟨_, _, ha⟩
      · intro a _ ha; exact ⟨_, _, ha⟩
    have h3 := hx.2.2.1
    cases hc : GNode.kids x with
    | nil => rw [hc] at h3; simp at h3
    | cons c cs =>
      obtain ⟨m', r', h1⟩ := hk c (by simp [hc])
      have := ih h1
      simp only [T.nodes, hc, List.length_cons, List.flatMap_cons, List.length_append]
      omega

theorem root_nodes_ge {μ H : Nat} {g : T K V A H} (hx : T.ShapeTop μ (rootMin H) true g) (hH : 2 ≤ H) :
    H < g.nodes.length := by
  obtain ⟨H, rfl⟩ : ∃ n, H = n + 1 := ⟨H - 1, by omega⟩
  have hk : ∀ a ∈ GNode.kids g, (∃ m' r', T.ShapeTop μ m' r' a) := by
    refine SpineL_same.1 (SpineL_mono ?_ ?_ hx.2.2.2.2)
    · intro a _ ha; exact ⟨_, _, ha⟩
    · intro a _ ha; exact ⟨_, _, ha⟩
  have h2 : 1 ≤ (GNode.keys g).length := hx.1
  have h3 := hx.2.2.1
  match hc : GNode.kids g with
  | [] => rw [hc] at h3; simp at h3
  | [_] => rw [hc, List.length_singleton] at h3; omega
  | c :: d :: cs =>
    obtain ⟨m1, r1, h4⟩ := hk c (by simp [hc])
    obtain ⟨m2, r2, h5⟩ := hk d (by simp [hc])
    have := nodes_ge h4
    have := nodes_ge h5
    simp only [T.nodes, hc, List.length_cons, List.flatMap_cons, List.length_append]
    omega

/-! ## Filling and emptying -/

section
variable [LinearOrder K] [Augmentation K V A]

theorem run_append {t t' : Tree K V A} {cs ds : List (Call K V)} {as}
    (h : t.run (cs ++ ds) = .ok (as, t')) :
    ∃ as1 t1 as2, t.run cs = .ok (as1, t1) ∧ t1.run ds = .ok (as2, t') := by
  induction cs generalizing t as with
  | nil => exact ⟨[], t, as, rfl, h⟩
  | cons c cs ih =>
    rw [List.cons_append, Tree.run] at h
    obtain ⟨⟨a, t2⟩, h1, h2⟩ := bind_ok h
    obtain ⟨⟨as', t3⟩, h3, h4⟩ := bind_ok h2
    cases h4
    obtain ⟨as1, t1, as2, h5, h6⟩ := ih h3
    refine ⟨a :: as1, t1, as2, ?_, h6⟩
    rw [Tree.run, h1, ok_bind]
    dsimp only
    rw [h5]; rfl

/-- What a list of removals does to the number of nodes. -/
theorem removes_account {μ : Nat} (hμ : μ ≤ 16) (ks : List K) {t t' : Tree K V A} {l : List (K × V)}
    {as} (hi : Inv μ t l) (h : t.run (ks.map (fun k => .remove k)) = .ok (as, t')) :
    t'.levels ≤ t.levels ∧ t'.innersInTree + (t.levels - t'.levels) + t'.mergedInners
      = t.innersInTree + t.mergedInners := by
  induction ks generalizing t l as with
  | nil => cases h; exact ⟨Nat.le_refl _, by omega⟩
  | cons k ks ih =>
    rw [List.map_cons, Tree.run] at h
    obtain ⟨⟨a, t1⟩, h1, h2⟩ := bind_ok h
    obtain ⟨⟨as', t2⟩, h3, h4⟩ := bind_ok h2
    cases h4
    rw [Tree.call] at h1
    obtain ⟨⟨o, t3⟩, h5, h6⟩ := bind_ok h1
    cases h6
    obtain ⟨t4, e2, hi2, -⟩ : ∃ t2, t.remove k = .ok (lookup k l, t2) ∧ Inv μ t2 (erase k l) ∧ True := by
      rcases hi.remove hμ k with ⟨t2, e2, h2, -⟩ | ⟨-, e2⟩
      · exact ⟨t2, e2, h2, trivial⟩
      · rw [h5] at e2; cases e2
    rw [h5] at e2
    cases e2
    obtain ⟨b1, b2⟩ := ih hi2 h3
    obtain ⟨H, g, w, rfl, hn⟩ := hi
    rcases remove_ok hμ w (w.depth hn) k with ⟨t5, H', g', h2, w', -, -, -, -, -, -, ac⟩ | ⟨-, h2⟩
    · rw [h5] at h2
      cases h2
      have c1 := ac.low
      have c2 : _ + _ + t1.mergedInners = _ + t.mergedInners := ac.nodes
      rw [w'.levels hi2.lt] at b1 b2
      rw [w'.innersInTree hi2.lt] at b2
      rw [w.levels hn, w.innersInTree hn]
      exact ⟨by omega, by omega⟩
    · rw [h5] at h2; cases h2

/-- Inserts do not merge. -/
theorem inserts_st {μ : Nat} (hμ : μ ≤ 16) (kvs : List (K × V)) {t t' : Tree K V A} {l : List (K × V)}
    {as} (hi : Inv μ t l) (hl : t.len + kvs.length < 2 ^ 64)
    (h : t.run (kvs.map (fun e => .insert e.1 e.2)) = .ok (as, t')) : t'.st = t.st := by
  induction kvs generalizing t l as with
  | nil => cases h; rfl
  | cons e kvs ih =>
    rw [List.length_cons] at hl
    rw [List.map_cons, Tree.run] at h
    obtain ⟨⟨a, t1⟩, h1, h2⟩ := bind_ok h
    obtain ⟨⟨as', t2⟩, h3, h4⟩ := bind_ok h2
    cases h4
    obtain ⟨t3, h5, h6, h7⟩ := hi.insert hμ (by omega) e.1 e.2
    rw [Tree.call, h5] at h1
    cases h1
    have := call_length l (.insert e.1 e.2)
    simp only [Spec.call] at this
    rw [← h7]
    exact ih h6 (by rw [h6.len]; rw [hi.len] at hl; omega) h3

omit [Augmentation K V A] in
theorem inserts_spec (kvs : List (K × V)) (l : List (K × V))
    (hd : (kvs.map (·.1)).Nodup) (hl : ∀ e ∈ kvs, ∀ a ∈ l, a.1 ≠ e.1) :
    (Spec.run l (kvs.map (fun e => .insert e.1 e.2))).2.length = l.length + kvs.length ∧
    ∀ a ∈ (Spec.run l (kvs.map (fun e => .insert e.1 e.2))).2, a ∈ l ∨ a ∈ kvs := by
  induction kvs generalizing l with
  | nil => exact ⟨rfl, fun a h => .inl h⟩
  | cons e kvs ih =>
    have hm : ∀ a ∈ upsert e.1 e.2 l, a = e ∨ a ∈ l := by
      intro a ha
      simp only [upsert, List.mem_append, List.mem_filter, List.mem_cons] at ha
      rcases ha with ha | ha | ha
      · exact .inr ha.1
      · exact .inl ha
      · exact .inr ha.1
    have hlen : (upsert e.1 e.2 l).length = l.length + 1 := by
      have : ∀ l : List (K × V), (∀ a ∈ l, a.1 ≠ e.1) → (l.filter (fun a => decide (a.1 < e.1))).length
          + (l.filter (fun a => decide (e.1 < a.1))).length = l.length := by
        intro l hl
        induction l with
        | nil => rfl
        | cons a l ih =>
          have h1 := ih (fun b hb => hl b (by simp [hb]))
          have h2 := hl a (by simp)
          rcases lt_or_gt_of_ne h2 with h3 | h3
          · have : ¬ e.1 < a.1 := lt_asymm h3
            simp [List.filter_cons, h3, this]; omega
          · have : ¬ a.1 < e.1 := lt_asymm h3
            simp [List.filter_cons, h3, this]; omega
      have := this l (hl e (by simp))
      simp only [upsert, List.length_append, List.length_cons] at *
      omega
    rw [List.map_cons, List.nodup_cons] at hd
    have := ih (upsert e.1 e.2 l) hd.2 (by
      intro b hb a ha
      rcases hm a ha with rfl | ha
      · intro he
        exact hd.1 (he ▸ List.mem_map_of_mem hb)
      · exact hl b (by simp [hb]) a ha)
    refine ⟨?_, ?_⟩
    · have h1 : (Spec.run l (Call.insert e.1 e.2 :: kvs.map (fun e => .insert e.1 e.2))).2
          = (Spec.run (upsert e.1 e.2 l) (kvs.map (fun e => .insert e.1 e.2))).2 := rfl
      rw [List.map_cons, h1, this.1, hlen, List.length_cons]
      omega
    · intro a ha
      rcases this.2 a ha with h | h
      · rcases hm a h with rfl | h
        · exact .inr (by simp)
        · exact .inl h
      · exact .inr (by simp [h])

omit [Augmentation K V A] in
theorem removes_spec (ks : List K) (l : List (K × V)) (h : ∀ a ∈ l, a.1 ∈ ks) :
    (Spec.run l (ks.map (fun k => .remove k))).2 = [] := by
  induction ks generalizing l with
  | nil =>
    cases l with
    | nil => rfl
    | cons a l => exact absurd (h a (by simp)) (by simp)
  | cons k ks ih =>
    refine ih (erase k l) fun a ha => ?_
    simp only [erase, List.mem_filter, decide_eq_true_eq] at ha
    have := h a ha.1
    simp only [List.mem_cons] at this
    exact this.resolve_left (by simpa using ha.2)

/-- Filling an empty map with more than 4160 distinct keys and removing them all merges inner nodes. -/
theorem fill_empty_merges (kvs : List (K × V)) (hd : (kvs.map (·.1)).Nodup) (h1 : 4160 < kvs.length)
    (h2 : 2 * kvs.length < 2 ^ 64) :
    ∃ as t', (Tree.new : Tree K V A).run (kvs.map (fun e => .insert e.1 e.2)
      ++ (kvs.map (·.1)).map (fun k => .remove k)) = .ok (as, t') ∧ 0 < t'.mergedInners := by
  obtain ⟨t', h3, h4⟩ := run_ok (by omega) (Nat.le_refl 16) (Inv.new (K := K) (V := V) (A := A))
    (kvs.map (fun e => .insert e.1 e.2) ++ (kvs.map (·.1)).map (fun k => .remove k)) (by
      have : (Tree.new : Tree K V A).len = 0 := rfl
      simp only [List.length_append, List.length_map]; omega)
  refine ⟨_, t', h3, ?_⟩
  obtain ⟨as1, t1, as2, h5, h6⟩ := run_append h3
  obtain ⟨t1', h7, h8⟩ := run_ok (by omega) (Nat.le_refl 16) (Inv.new (K := K) (V := V) (A := A))
    (kvs.map (fun e => .insert e.1 e.2)) (by
      have : (Tree.new : Tree K V A).len = 0 := rfl
      simp only [List.length_map]; omega)
  rw [h5] at h7
  cases h7
  have hsp := inserts_spec kvs [] hd (by simp)
  have hst := inserts_st (Nat.le_refl 16) kvs Inv.new (by
    have : (Tree.new : Tree K V A).len = 0 := rfl
    omega) h5
  obtain ⟨b1, b2⟩ := removes_account (Nat.le_refl 16) _ h8 h6
  obtain ⟨t2, h9, h10⟩ := run_ok (by omega) (Nat.le_refl 16) h8
    ((kvs.map (·.1)).map (fun k => .remove k)) (by
      rw [h8.len, hsp.1]
      simp only [List.length_map, List.length_nil]; omega)
  rw [h6] at h9
  cases h9
  rw [removes_spec _ _ (fun a ha => by
    rcases hsp.2 a ha with h | h
    · simp at h
    · exact List.mem_map_of_mem h)] at h10
  have hm : t1.mergedInners = 0 := by rw [Tree.mergedInners, hst]; rfl
  obtain ⟨H', g', w', e', hn'⟩ := h10
  have hH' : H' = 0 := by
    cases H' with
    | zero => rfl
    | succ n =>
      have h11 := root_size w'.shape
      have : 0 < 17 ^ n := Nat.pow_pos (by omega)
      rw [e'] at h11
      simp at h11
  subst hH'
  obtain ⟨H, g, w, e, hn⟩ := h8
  have h12 : 4160 < g.toL.length := by rw [e, hsp.1, List.length_nil]; omega
  have h13 := root_nodes_ge w.shape (two_levels w.shape h12)
  rw [w.levels hn, w'.levels hn', w.innersInTree hn, w'.innersInTree hn', hm] at b2
  have h14 : g'.nodes.length = 0 := rfl
  omega

/-- The merges of a life that ends with a drop. -/
theorem life_merges {μ : Nat} (h0 : 0 < μ) (hμ : μ ≤ 16) (cs : List (Call K V))
    (hc : Call.clear ∉ cs) (e : Bool) {t : Tree K V A} {l l'} (hi : Inv μ t l) (hu : UInvM μ t l')
    (hl : t.len + cs.length < 2 ^ 64) {as} {t' : Tree K V A} (h : t.run cs = .ok (as, t')) {b}
    (hb : (t.lifeL (cs.map (fun c => (c.answers e, c.lawless))) .drop).result = .ok b) :
    b.merges = t'.mergedInners := by
  induction cs generalizing t l l' as b with
  | nil =>
    cases h
    rw [List.map_nil, Tree.lifeL, Logged.result_bind] at hb
    obtain ⟨_, -, hb⟩ := bind_ok hb
    cases hb
    rfl
  | cons c cs ih =>
    rw [List.length_cons] at hl
    rw [Tree.run] at h
    obtain ⟨⟨a, t1⟩, h1, h2⟩ := bind_ok h
    obtain ⟨⟨as', t2⟩, h3, h4⟩ := bind_ok h2
    cases h4
    have hlaw : t.ucall (c.answers e) c.lawless = t.call c := by
      obtain ⟨H, g, w, -, hn⟩ := hi
      exact ucall_lawful w (w.depth hn) e c
    rcases call_ok hμ hi (by omega) c with ⟨t1', h5, h6⟩ | ⟨h5, -⟩
    swap
    · omega
    rw [h1] at h5
    cases h5
    have hlen := call_length l c
    rcases ucall_or hu (by omega) (c.answers e) c.lawless with ⟨a', t1', l1, h7, h8, -⟩ | ⟨h7, -⟩
    swap
    · omega
    rw [hlaw, h1] at h7
    cases h7
    rw [List.map_cons, Tree.lifeL, Logged.result_bind, ucallL_result hu, hlaw, h1, ok_bind,
      Logged.result_bind] at hb
    obtain ⟨b', hb1, hb2⟩ := bind_ok hb
    cases hb2
    have := ih (fun hm => hc (by simp [hm])) h6 h8 (by rw [h6.len]; rw [hi.len] at hl; omega) h3 hb1
    rw [← this]
    have : c.lawless.closes t = 0 := by
      cases c <;> first | rfl | exact absurd (List.mem_cons_self) hc
    dsimp only
    omega

end
end Bpt
