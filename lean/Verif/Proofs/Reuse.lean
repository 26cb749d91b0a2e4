import Verif.Model.Reuse
import Verif.ReuseSpec
import Verif.Proofs.CountLawful

/-!
# A store with unreachable leaves behaves like the store without them
-/

namespace Bpt
variable {K V A : Type}

/-! ## Simulation -/

/-- When `y` succeeds so does `x`, with a related result. -/
def Sim {α β : Type} (x : Res α) (y : Res β) (R : α → β → Prop) : Prop :=
  ∀ b, y = .ok b → ∃ a, x = .ok a ∧ R a b

namespace Sim
variable {α β γ δ : Type} {R : α → β → Prop} {S : γ → δ → Prop}

theorem bind {x : Res α} {y : Res β} {f : α → Res γ} {g : β → Res δ} (h : Sim x y R)
    (hf : ∀ a b, R a b → Sim (f a) (g b) S) : Sim (x >>= f) (y >>= g) S := by
  intro d hd
  obtain ⟨b, h1, h2⟩ := bind_ok hd
  obtain ⟨a, h3, h4⟩ := h b h1
  obtain ⟨c, h5, h6⟩ := hf a b h4 d h2
  exact ⟨c, by rw [h3]; exact h5, h6⟩

theorem same {x : Res α} {f : α → Res γ} {g : α → Res δ} (hf : ∀ a, x = .ok a → Sim (f a) (g a) S) :
    Sim (x >>= f) (x >>= g) S := by
  intro d hd
  obtain ⟨b, h1, h2⟩ := bind_ok hd
  obtain ⟨c, h5, h6⟩ := hf b h1 d h2
  exact ⟨c, by rw [h1]; exact h5, h6⟩

theorem ret {a : α} {b : β} (h : R a b) : Sim (pure a) (pure b) R := by
  intro b' hb
  cases hb
  exact ⟨a, rfl, h⟩

theorem ok {a : α} {b : β} (h : R a b) : Sim (.ok a) (.ok b) R := by
  intro b' hb
  cases hb
  exact ⟨a, rfl, h⟩

theorem err {x : Res α} {e : Fault} : Sim x (.error e) R := fun _ h => by cases h

theorem refl {x : Res α} {R : α → α → Prop} (h : ∀ a, R a a) : Sim x x R := fun b hb => ⟨b, hb, h b⟩

theorem mono {x : Res α} {y : Res β} {R' : α → β → Prop} (h : Sim x y R) (hr : ∀ a b, R a b → R' a b) :
    Sim x y R' := fun b hb => let ⟨a, h1, h2⟩ := h b hb; ⟨a, h1, hr a b h2⟩

theorem ite {c : Prop} [Decidable c] {x x' : Res α} {y y' : Res β} (h : c → Sim x y R)
    (h' : ¬ c → Sim x' y' R) : Sim (if c then x else x') (if c then y else y') R := by
  split
  · next hc => exact h hc
  · next hc => exact h' hc

end Sim

/-- `s` is `u` with more leaves, in the slots `J`, which are free in `u`. `c`: the cached leaf is not one
of them. -/
structure Junk (J : Nat → Prop) (c : Prop) (s u : Store K V A) : Prop where
  inners : s.inners = u.inners
  cached : s.cached = u.cached
  len : s.leaves.length = u.leaves.length
  agree : ∀ i : Nat, ¬ J i → s.leaves[i]? = u.leaves[i]?
  junk : ∀ i : Nat, J i → u.leaves[i]? = some none
  cache : c → ∀ i : Nat, u.cached = some i → ¬ J i

namespace Junk
variable {J : Nat → Prop} {c : Prop} {s u : Store K V A}

theorem getInner (h : Junk J c s u) (i : Nat) : Sim (s.getInner i) (u.getInner i) Eq := by
  unfold Store.getInner; rw [h.inners]; exact Sim.refl fun _ => rfl

theorem getInnerE (h : Junk J c s u) (i : Nat) : s.getInner i = u.getInner i := by
  unfold Store.getInner; rw [h.inners]

theorem setInner (h : Junk J c s u) (i : Nat) (n : Inner K A) : Junk J c (s.setInner i n) (u.setInner i n) :=
  ⟨by simp [Store.setInner, h.inners], h.cached, h.len, h.agree, h.junk, h.cache⟩

theorem addInner (h : Junk J c s u) (n : Inner K A) : Junk J c (s.addInner n).1 (u.addInner n).1 :=
  ⟨by simp [Store.addInner, h.inners], h.cached, h.len, h.agree, h.junk, h.cache⟩

theorem takeInner (h : Junk J c s u) (i : Nat) :
    Sim (s.takeInner i) (u.takeInner i) (fun a b => a.1 = b.1 ∧ Junk J c a.2 b.2) := by
  unfold Store.takeInner
  rw [h.inners]
  split
  · exact Sim.ok ⟨rfl, ⟨rfl, h.cached, h.len, h.agree, h.junk, h.cache⟩⟩
  · exact Sim.err

theorem not_of_live (h : Junk J c s u) {i : Nat} {l : Leaf K V} (hl : u.leaves[i]? = some (some l)) : ¬ J i :=
  fun hj => by rw [h.junk i hj] at hl; cases hl

theorem getLeaf (h : Junk J c s u) (i : Nat) : Sim (s.getLeaf i) (u.getLeaf i)
    (fun a b => a = b ∧ ¬ J i) := by
  unfold Store.getLeaf
  intro b hb
  split at hb
  · next l he =>
    cases hb
    have hj := h.not_of_live he
    rw [h.agree i hj, he]
    exact ⟨_, rfl, rfl, hj⟩
  · cases hb

theorem set {i : Nat} (h : Junk J c s u) (hi : ¬ J i) (o : Option (Leaf K V)) :
    Junk J c { s with leaves := s.leaves.set i o } { u with leaves := u.leaves.set i o } := by
  refine ⟨h.inners, h.cached, by simp [h.len], fun j hj => ?_, fun j hj => ?_, h.cache⟩
  · dsimp only
    rw [List.getElem?_set, List.getElem?_set, h.agree j hj, h.len]
  · dsimp only
    rw [List.getElem?_set_ne (fun e : i = j => hi (e.symm ▸ hj))]
    exact h.junk j hj

theorem setLeaf {i : Nat} (h : Junk J c s u) (hi : ¬ J i) (l : Leaf K V) :
    Junk J c (s.setLeaf i l) (u.setLeaf i l) := h.set hi (some l)

theorem takeLeaf (h : Junk J c s u) (i : Nat) :
    Sim (s.takeLeaf i) (u.takeLeaf i) (fun a b => a.1 = b.1 ∧ Junk J c a.2 b.2) := by
  unfold Store.takeLeaf
  intro b hb
  split at hb
  · next l he =>
    cases hb
    have hj := h.not_of_live he
    rw [h.agree i hj, he]
    exact ⟨_, rfl, rfl, h.set hj none⟩
  · cases hb

theorem lt (h : Junk J c s u) {i : Nat} (hi : J i) : i < u.leaves.length :=
  (List.getElem?_eq_some_iff.1 (h.junk i hi)).1

theorem reserve (h : Junk J c s u) : Junk J c s.reserveLeaf.1 u.reserveLeaf.1 ∧
    s.reserveLeaf.2 = u.reserveLeaf.2 ∧ ¬ J u.reserveLeaf.2 := by
  refine ⟨⟨h.inners, h.cached, by simp [Store.reserveLeaf, h.len], fun i hi => ?_, fun i hi => ?_, h.cache⟩,
    by simp [Store.reserveLeaf, h.len], fun hj => absurd (h.lt hj) (by simp [Store.reserveLeaf])⟩
  · simp only [Store.reserveLeaf]
    rw [List.getElem?_append, List.getElem?_append, h.len, h.agree i hi]
  · simp only [Store.reserveLeaf]
    rw [List.getElem?_append_left (h.lt hi)]
    exact h.junk i hi

theorem assignLeaf (h : Junk J c s u) {i : Nat} (hi : ¬ J i) (l : Leaf K V) :
    Sim (s.assignLeaf i l) (u.assignLeaf i l) (Junk J c) := by
  unfold Store.assignLeaf
  rw [h.len]
  split
  · exact Sim.ok (h.setLeaf hi l)
  · exact Sim.err

theorem cacheLeaf {i : Nat} (h : Junk J c s u) (hi : ¬ J i) :
    Junk J True (s.cacheLeaf i) (u.cacheLeaf i) :=
  ⟨h.inners, rfl, h.len, h.agree, h.junk, fun _ j hj => by cases hj; exact hi⟩

theorem weaken (h : Junk J True s u) : Junk J c s u :=
  ⟨h.inners, h.cached, h.len, h.agree, h.junk, fun _ => h.cache trivial⟩

theorem tryGet (h : Junk J c s u) {i : Nat} (hi : ¬ J i) : s.tryGetLeaf i = u.tryGetLeaf i := by
  unfold Store.tryGetLeaf
  rw [h.agree i hi]

theorem tryCache [LinearOrder K] (h : Junk J True s u) (k : K) : s.tryCache k = u.tryCache k := by
  unfold Store.tryCache Store.tryCacheAt
  rw [h.cached]
  cases hc : u.cached with
  | none => rfl
  | some i => simp only [h.tryGet (h.cache trivial i hc)]

theorem descendLeaf {σ : Type} (h : Junk J c s u) (step : σ → Nat → Inner K A → Res (σ × NodeId)) (st : σ)
    (root : NodeId) : descendLeaf s step st root = descendLeaf u step st root := by
  have key : ∀ {β : Type} (st' : σ → Nat → Inner K A → Res (β ⊕ (σ × NodeId))) f st r,
      descend s st' f st r = descend u st' f st r := by
    intro β st' f
    induction f with
    | zero =>
      intro st r
      cases r <;> rfl
    | succ f ih =>
      intro st r
      cases r with
      | leaf i => rfl
      | inner i =>
        rw [descend, descend, h.getInnerE i]
        congr 1; funext node; congr 1; funext x
        rcases x with b | ⟨st2, c⟩
        · rfl
        · exact ih _ _
  unfold Bpt.descendLeaf Store.fuel
  rw [key, h.inners]

end Junk

/-! ## Insertion -/

section
variable {J : Nat → Prop} {c : Prop} {s u : Store K V A}

theorem newAug_sim [Augmentation K V A] (h : Junk J c s u) (id : NodeId) :
    Sim (newAugmentationForId s id) (newAugmentationForId u id) Eq := by
  cases id with
  | inner i =>
    refine Sim.bind (h.getInner i) ?_
    rintro a _ rfl
    exact Sim.ret rfl
  | leaf i =>
    refine Sim.bind (h.getLeaf i) ?_
    rintro a b ⟨rfl, -⟩
    exact Sim.ret rfl

/-- Relinking the leaf after the one changed. -/
theorem relink_sim (h : Junk J c s u) (nx : Option Nat) (f : Leaf K V → Leaf K V) :
    Sim (match nx with
      | some next => do
        let nl ← s.getLeaf next
        return s.setLeaf next (f nl)
      | none => return s : Res (Store K V A))
      (match nx with
      | some next => do
        let nl ← u.getLeaf next
        return u.setLeaf next (f nl)
      | none => return u : Res (Store K V A)) (Junk J c) := by
  cases nx with
  | none => exact Sim.ret h
  | some i =>
    refine Sim.bind (h.getLeaf i) ?_
    rintro a b ⟨rfl, hj⟩
    exact Sim.ret (h.setLeaf hj _)

theorem insertLeaf_sim [LinearOrder K] (h : Junk J c s u) (id : Nat) (k : K) (v : V) :
    Sim (insertLeaf s id k v) (insertLeaf u id k v) (fun a b => a.2 = b.2 ∧ Junk J c a.1 b.1 ∧
      ((∃ v0, b.2 = .updated v0) ∨ Junk J True a.1 b.1)) := by
  unfold insertLeaf
  refine Sim.bind (h.getLeaf id) ?_
  rintro a b ⟨rfl, hj⟩
  refine Sim.same ?_
  rintro ⟨l', r⟩ -
  cases r with
  | inserted =>
    have := (h.setLeaf hj l').cacheLeaf hj
    exact Sim.ret ⟨rfl, this.weaken, .inr this⟩
  | updated v0 => exact Sim.ret ⟨rfl, h.setLeaf hj _, .inl ⟨v0, rfl⟩⟩
  | isFull idx k v =>
    obtain ⟨h1, e1, hrid⟩ := h.reserve
    dsimp only
    generalize s.reserveLeaf = sr at *
    generalize u.reserveLeaf = ur at *
    obtain ⟨s1, rid⟩ := sr
    obtain ⟨u1, rid'⟩ := ur
    dsimp only at h1 e1 hrid ⊢
    subst e1
    refine Sim.bind (h1.getLeaf id) ?_
    rintro a2 b2 ⟨rfl, -⟩
    refine Sim.same ?_
    rintro ⟨ll, rl⟩ -
    have h2 := h1.setLeaf hj ll
    dsimp only
    refine Sim.same ?_
    rintro kv -
    refine Sim.bind (relink_sim h2 rl.next _) ?_
    rintro a3 b3 h3
    refine Sim.bind (h3.assignLeaf hrid rl) ?_
    rintro a4 b4 h4
    have : Junk J True (a4.cacheLeaf (if splitOrigin ≤ idx then rid else id))
        (b4.cacheLeaf (if splitOrigin ≤ idx then rid else id)) := h4.cacheLeaf (by split <;> assumption)
    exact Sim.ret ⟨rfl, this.weaken, .inr this⟩

theorem insertAscend_sim [Augmentation K V A] (h : Junk J c s u) (stack : List StackEntry)
    (r : InsertResult K V) : Sim (insertAscend s stack r) (insertAscend u stack r)
      (fun a b => a.2 = b.2 ∧ Junk J c a.1 b.1) := by
  induction stack generalizing s u r with
  | nil => exact Sim.ret ⟨rfl, h⟩
  | cons e stack ih =>
    obtain ⟨id, idx, child⟩ := e
    cases r with
    | split key rc =>
      refine Sim.bind (newAug_sim h rc) ?_
      rintro ra _ rfl
      refine Sim.bind (newAug_sim h child) ?_
      rintro ca _ rfl
      refine Sim.bind (h.getInner id) ?_
      rintro n _ rfl
      refine Sim.same ?_
      rintro n -
      refine Sim.ite (fun _ => ?_) fun _ => ?_
      · refine Sim.same ?_
        rintro n -
        exact ih (h.setInner _ _) _
      · refine Sim.same ?_
        rintro ⟨pk, n, nn⟩ -
        have e : ((s.setInner id n).addInner nn).2 = ((u.setInner id n).addInner nn).2 := by
          simp [Store.addInner, Store.setInner, h.inners]
        simp only [e]
        exact ih ((h.setInner _ _).addInner _) _
    | inserted =>
      refine Sim.bind (newAug_sim h child) ?_
      rintro ca _ rfl
      refine Sim.bind (h.getInner id) ?_
      rintro n _ rfl
      refine Sim.same ?_
      rintro n -
      exact ih (h.setInner _ _) _
    | updated v =>
      refine Sim.bind (newAug_sim h child) ?_
      rintro ca _ rfl
      refine Sim.bind (h.getInner id) ?_
      rintro n _ rfl
      refine Sim.same ?_
      rintro n -
      exact ih (h.setInner _ _) _

theorem descendInsert_sim [LinearOrder K] [Augmentation K V A] (h : Junk J c s u) (root : NodeId) (k : K)
    (v : V) : Sim (descendInsert s root k v) (descendInsert u root k v)
      (fun a b => a.2 = b.2 ∧ Junk J c a.1 b.1) := by
  cases root with
  | leaf i => exact (insertLeaf_sim h i k v).mono fun _ _ h => ⟨h.1, h.2.1⟩
  | inner i =>
    unfold descendInsert insertInner
    dsimp only
    rw [h.descendLeaf]
    refine Sim.same ?_
    rintro ⟨stack, leaf⟩ -
    refine Sim.bind (insertLeaf_sim h leaf k v) ?_
    rintro ⟨a, r⟩ ⟨b, _⟩ ⟨rfl, h1, -⟩
    exact insertAscend_sim h1 stack r

/-- Trees on such stores. -/
structure TRel (J : Nat → Prop) (c : Prop) (t w : Tree K V A) : Prop where
  root : t.root = w.root
  aug : t.rootAug = w.rootAug
  len : t.len = w.len
  st : t.st = w.st
  store : Junk J c t.store w.store

theorem insert_sim [LinearOrder K] [Augmentation K V A] {t w : Tree K V A} (h : TRel J c t w) (k : K) (v : V) :
    Sim (t.insert k v) (w.insert k v) (fun a b => a.1 = b.1 ∧ TRel J c a.2 b.2) := by
  unfold Tree.insert
  rw [h.root]
  refine Sim.bind (descendInsert_sim h.store _ k v) ?_
  rintro ⟨a, r⟩ ⟨b, _⟩ ⟨rfl, h1⟩
  dsimp only at h1 ⊢
  cases r with
  | inserted =>
    refine Sim.bind (newAug_sim h1 _) ?_
    rintro ra _ rfl
    exact Sim.ret ⟨rfl, rfl, rfl, by rw [h.len], h.st, h1⟩
  | updated v0 =>
    refine Sim.bind (newAug_sim h1 _) ?_
    rintro ra _ rfl
    exact Sim.ret ⟨rfl, rfl, rfl, h.len, h.st, h1⟩
  | split k nc =>
    refine Sim.bind (newAug_sim h1 _) ?_
    rintro ra _ rfl
    refine Sim.bind (newAug_sim h1 _) ?_
    rintro ra2 _ rfl
    refine Sim.same ?_
    rintro n -
    refine Sim.ret ⟨rfl, ?_, rfl, by rw [h.len], h.st, h1.addInner n⟩
    simp [Store.addInner, h1.inners]

/-! ## Reading -/

/-- In a simulation the second program may be assumed to succeed. -/
theorem Sim.of_ok {α β : Type} {x : Res α} {y : Res β} {R : α → β → Prop}
    (h : ∀ b, y = .ok b → Sim x y R) : Sim x y R := fun b hb => h b hb b hb

theorem findDescendLeaf_sim [LinearOrder K] (h : Junk J c s u) (root : NodeId) (k : K) :
    findDescendLeaf s root k = findDescendLeaf u root k := by
  unfold findDescendLeaf; rw [h.descendLeaf]

theorem findInLeaf_sim [LinearOrder K] (h : Junk J c s u) (i : Nat) (k : K) :
    Sim (findInLeaf s i k) (findInLeaf u i k) (fun a b => a = b ∧ ¬ J i) := by
  unfold findInLeaf
  refine Sim.bind (h.getLeaf i) ?_
  rintro a b ⟨rfl, hj⟩
  refine Sim.same ?_
  rintro ⟨-, o⟩ -
  exact Sim.ret ⟨rfl, hj⟩

theorem get_sim [LinearOrder K] {t w : Tree K V A} (h : TRel J True t w) (k : K) :
    Sim (t.get k) (w.get k) (fun a b => a.1 = b.1 ∧ TRel J True a.2 b.2) := by
  unfold Tree.get
  rw [h.store.tryCache, h.root, findDescendLeaf_sim h.store]
  refine Sim.same ?_
  rintro (_ | i) -
  · refine Sim.same ?_
    rintro i -
    dsimp only
    have e1 : findInLeaf (t.store.cacheLeaf i) i k = findInLeaf t.store i k := rfl
    have e2 : findInLeaf (w.store.cacheLeaf i) i k = findInLeaf w.store i k := rfl
    rw [e1, e2]
    refine Sim.bind (findInLeaf_sim h.store i k) ?_
    rintro a b ⟨rfl, hj⟩
    exact Sim.ret ⟨rfl, rfl, h.aug, h.len, h.st, h.store.cacheLeaf hj⟩
  · refine Sim.bind (findInLeaf_sim h.store i k) ?_
    rintro a b ⟨rfl, hj⟩
    exact Sim.ret ⟨rfl, h⟩

theorem updateInLeaf_sim [LinearOrder K] (h : Junk J c s u) (i : Nat) (k : K) (f : V → V) :
    Sim (updateInLeaf s i k f) (updateInLeaf u i k f) (fun a b => a.1 = b.1 ∧ Junk J c a.2 b.2) := by
  unfold updateInLeaf
  refine Sim.bind (h.getLeaf i) ?_
  rintro a b ⟨rfl, hj⟩
  split
  · refine Sim.same ?_
    rintro kv -
    exact Sim.ret ⟨rfl, h.setLeaf hj _⟩
  · exact Sim.ret ⟨rfl, h⟩

theorem getMut_sim [LinearOrder K] {t w : Tree K V A} (h : TRel J True t w) (k : K) (f : V → V) :
    Sim (t.getMut k f) (w.getMut k f) (fun a b => a.1 = b.1 ∧ TRel J True a.2 b.2) := by
  unfold Tree.getMut
  rw [h.store.tryCache, h.root, findDescendLeaf_sim h.store]
  refine Sim.same ?_
  rintro (_ | i) -
  · refine Sim.same ?_
    rintro i -
    dsimp only
    refine Sim.of_ok ?_
    intro b hb
    have hj : ¬ J i := by
      obtain ⟨x, hx, -⟩ := bind_ok hb
      unfold updateInLeaf at hx
      obtain ⟨l, hl, -⟩ := bind_ok hx
      exact (h.store.getLeaf i l hl).elim fun _ h => h.2.2
    refine Sim.bind (updateInLeaf_sim (h.store.cacheLeaf hj) i k f) ?_
    rintro ⟨a, s'⟩ ⟨_, u'⟩ ⟨rfl, h1⟩
    exact Sim.ret ⟨rfl, rfl, h.aug, h.len, h.st, h1⟩
  · refine Sim.bind (updateInLeaf_sim h.store i k f) ?_
    rintro ⟨a, s'⟩ ⟨_, u'⟩ ⟨rfl, h1⟩
    exact Sim.ret ⟨rfl, rfl, h.aug, h.len, h.st, h1⟩

theorem locateLeaf_sim [LinearOrder K] {t w : Tree K V A} (h : TRel J True t w) (k : K) :
    t.locateLeaf k = w.locateLeaf k := by
  unfold Tree.locateLeaf
  rw [h.store.tryCache, h.root, findDescendLeaf_sim h.store]

theorem firstLeaf_sim {t w : Tree K V A} (h : TRel J c t w) : t.firstLeaf = w.firstLeaf := by
  unfold Tree.firstLeaf; rw [h.root, h.store.descendLeaf]

theorem lastLeaf_sim {t w : Tree K V A} (h : TRel J c t w) : t.lastLeaf = w.lastLeaf := by
  unfold Tree.lastLeaf; rw [h.root, h.store.descendLeaf]

theorem isEmpty_sim {t w : Tree K V A} (h : TRel J c t w) : t.isEmpty = w.isEmpty := by
  unfold Tree.isEmpty; rw [h.len]

theorem first_sim {t w : Tree K V A} (h : TRel J c t w) : Sim t.first w.first Eq := by
  unfold Tree.first
  rw [isEmpty_sim h, firstLeaf_sim h]
  refine Sim.ite (fun _ => Sim.ret rfl) fun _ => Sim.same ?_
  rintro i -
  refine Sim.bind (h.store.getLeaf i) ?_
  rintro a b ⟨rfl, -⟩
  exact Sim.refl fun _ => rfl

theorem last_sim {t w : Tree K V A} (h : TRel J c t w) : Sim t.last w.last Eq := by
  unfold Tree.last
  rw [isEmpty_sim h, lastLeaf_sim h]
  refine Sim.ite (fun _ => Sim.ret rfl) fun _ => Sim.same ?_
  rintro i -
  refine Sim.bind (h.store.getLeaf i) ?_
  rintro a b ⟨rfl, -⟩
  exact Sim.refl fun _ => rfl

theorem iter_sim {t w : Tree K V A} (h : TRel J c t w) : Sim t.iter w.iter Eq := by
  unfold Tree.iter
  rw [firstLeaf_sim h, h.len]
  refine Sim.same ?_
  rintro i -
  refine Sim.bind (h.store.getLeaf i) ?_
  rintro a b ⟨rfl, -⟩
  exact Sim.ret rfl

theorem iterCall_sim {t w : Tree K V A} (h : TRel J c t w) (it : Iter K V) (d : Dir) :
    Sim (it.call t d) (it.call w d) Eq := by
  cases d with
  | front =>
    unfold Iter.call Iter.next
    dsimp only
    refine Sim.ite (fun _ => Sim.ret rfl) fun _ => ?_
    split
    · exact Sim.ret rfl
    · refine Sim.same ?_
      rintro kv -
      refine Sim.ite (fun _ => Sim.ret rfl) fun _ => ?_
      split
      · refine Sim.bind (h.store.getLeaf _) ?_
        rintro a b ⟨rfl, -⟩
        exact Sim.ret rfl
      · exact Sim.ret rfl
  | back =>
    unfold Iter.call Iter.nextBack
    dsimp only
    refine Sim.ite (fun _ => Sim.ret rfl) fun _ => ?_
    split
    · refine Sim.ite (fun _ => Sim.refl fun _ => rfl) fun _ => ?_
      split
      · exact Sim.ret rfl
      · refine Sim.bind (h.store.getLeaf _) ?_
        rintro a b ⟨rfl, -⟩
        exact Sim.refl fun _ => rfl
    · rw [lastLeaf_sim h]
      refine Sim.same ?_
      rintro i -
      refine Sim.bind (h.store.getLeaf _) ?_
      rintro a b ⟨rfl, -⟩
      exact Sim.refl fun _ => rfl

theorem runCalls_sim {t w : Tree K V A} (h : TRel J c t w) (it : Iter K V) (ds : List Dir) :
    Sim (it.runCalls t ds) (it.runCalls w ds) Eq := by
  induction ds generalizing it with
  | nil => exact Sim.ret rfl
  | cons d ds ih =>
    refine Sim.bind (iterCall_sim h it d) ?_
    rintro ⟨o, it'⟩ _ rfl
    refine Sim.bind (ih it') ?_
    rintro r _ rfl
    exact Sim.ret rfl

/-! ## Cursors -/

theorem cursorLocate_sim [LinearOrder K] {t w : Tree K V A} (h : TRel J True t w) (cu : Cursor K)
    (hc : ¬ J cu.leafIdHint) : Sim (cu.locateLeaf t) (cu.locateLeaf w) Eq := by
  unfold Cursor.locateLeaf
  rw [h.store.tryGet hc, locateLeaf_sim h]
  refine Sim.same ?_
  rintro (_ | l) -
  · refine Sim.same ?_
    rintro i -
    refine Sim.bind (h.store.getLeaf i) ?_
    rintro a b ⟨rfl, -⟩
    exact Sim.ret rfl
  · exact Sim.ret rfl

theorem cursorNext_sim [LinearOrder K] {t w : Tree K V A} (h : TRel J True t w) (cu : Cursor K)
    (hc : ¬ J cu.leafIdHint) : Sim (cu.nextWithValue t) (cu.nextWithValue w) Eq := by
  refine Sim.bind (cursorLocate_sim h cu hc) ?_
  rintro ⟨i, l⟩ _ rfl
  refine Sim.same ?_
  rintro o -
  unfold forwardFrom
  refine Sim.ite (fun _ => Sim.refl fun _ => rfl) fun _ => ?_
  split
  · exact Sim.ret rfl
  · refine Sim.bind (h.store.getLeaf _) ?_
    rintro a b ⟨rfl, -⟩
    exact Sim.refl fun _ => rfl

theorem prevLeafEnd_sim {t w : Tree K V A} (h : TRel J c t w) (l : Leaf K V) :
    Sim (prevLeafEnd t l) (prevLeafEnd w l) Eq := by
  unfold prevLeafEnd
  split
  · refine Sim.bind (h.store.getLeaf _) ?_
    rintro a b ⟨rfl, -⟩
    exact Sim.refl fun _ => rfl
  · exact Sim.ret rfl

theorem cursorPrev_sim [LinearOrder K] {t w : Tree K V A} (h : TRel J True t w) (cu : Cursor K)
    (hc : ¬ J cu.leafIdHint) : Sim (cu.prevWithValue t) (cu.prevWithValue w) Eq := by
  refine Sim.bind (cursorLocate_sim h cu hc) ?_
  rintro ⟨i, l⟩ _ rfl
  refine Sim.bind (R := Eq) ?_ ?_
  · unfold Cursor.prevPos
    refine Sim.ite (fun _ => Sim.ite (fun _ => Sim.ret rfl) fun _ => prevLeafEnd_sim h l) fun _ =>
      Sim.ite (fun _ => Sim.ret rfl) fun _ => prevLeafEnd_sim h l
  · rintro o _ rfl
    exact Sim.refl fun _ => rfl

theorem cursorValue_sim [LinearOrder K] {t w : Tree K V A} (h : TRel J True t w) (cu : Cursor K)
    (hc : ¬ J cu.leafIdHint) : Sim (cu.value t) (cu.value w) Eq := by
  refine Sim.bind (cursorLocate_sim h cu hc) ?_
  rintro ⟨i, l⟩ _ rfl
  exact Sim.refl fun _ => rfl

theorem getCursor_sim [LinearOrder K] {t w : Tree K V A} (h : TRel J c t w) (k : K) :
    Sim (t.getCursor k) (w.getCursor k) Eq := by
  unfold Tree.getCursor
  rw [h.root, findDescendLeaf_sim h.store]
  refine Sim.same ?_
  rintro i -
  refine Sim.bind (h.store.getLeaf _) ?_
  rintro a b ⟨rfl, -⟩
  exact Sim.refl fun _ => rfl

/-! ## Removal -/

section
variable [Augmentation K V A]

/-- Related stores next to equal parents. -/
def OSim (J : Nat → Prop) (c : Prop) : Option (Store K V A × Inner K A) → Option (Store K V A × Inner K A) → Prop
  | some a, some b => Junk J c a.1 b.1 ∧ a.2 = b.2
  | none, none => True
  | _, _ => False

theorem tryRotateRightInner_sim (h : Junk J c s u) (node : Inner K A) (slot : Nat) :
    Sim (tryRotateRightInner s node slot) (tryRotateRightInner u node slot) (OSim J c) := by
  unfold tryRotateRightInner
  refine Sim.same ?_
  rintro c1 -
  refine Sim.same ?_
  rintro rid -
  refine Sim.same ?_
  rintro c2 -
  refine Sim.same ?_
  rintro lid -
  refine Sim.bind (h.getInner lid) ?_
  rintro p _ rfl
  refine Sim.ite (fun _ => ?_) fun _ => Sim.ret trivial
  refine Sim.same ?_
  rintro ⟨⟨k, ch, a⟩, p⟩ -
  have h1 := h.setInner lid p
  refine Sim.same ?_
  rintro ⟨sk, node⟩ -
  refine Sim.bind (h1.getInner rid) ?_
  rintro r _ rfl
  refine Sim.same ?_
  rintro r -
  refine Sim.same ?_
  rintro n1 -
  refine Sim.same ?_
  rintro n2 -
  exact Sim.ret ⟨h1.setInner rid r, rfl⟩

theorem tryRotateLeftInner_sim (h : Junk J c s u) (node : Inner K A) (slot : Nat) :
    Sim (tryRotateLeftInner s node slot) (tryRotateLeftInner u node slot) (OSim J c) := by
  unfold tryRotateLeftInner
  refine Sim.same ?_
  rintro c1 -
  refine Sim.same ?_
  rintro rid -
  refine Sim.same ?_
  rintro c2 -
  refine Sim.same ?_
  rintro lid -
  refine Sim.bind (h.getInner rid) ?_
  rintro p _ rfl
  refine Sim.ite (fun _ => ?_) fun _ => Sim.ret trivial
  refine Sim.same ?_
  rintro ⟨⟨k, ch, a⟩, p⟩ -
  have h1 := h.setInner rid p
  refine Sim.same ?_
  rintro ⟨sk, node⟩ -
  refine Sim.bind (h1.getInner lid) ?_
  rintro r _ rfl
  refine Sim.same ?_
  rintro r -
  refine Sim.same ?_
  rintro n1 -
  refine Sim.same ?_
  rintro n2 -
  exact Sim.ret ⟨h1.setInner lid r, rfl⟩

theorem mergeInnerNode_sim (h : Junk J c s u) (node : Inner K A) (slot : Nat) :
    Sim (mergeInnerNode s node slot) (mergeInnerNode u node slot)
      (fun a b => a.1 = b.1 ∧ Junk J c a.2.1 b.2.1 ∧ a.2.2 = b.2.2) := by
  unfold mergeInnerNode
  refine Sim.ite (fun _ => Sim.err) fun _ => ?_
  refine Sim.same ?_
  rintro c1 -
  refine Sim.same ?_
  rintro lid -
  refine Sim.same ?_
  rintro c2 -
  refine Sim.same ?_
  rintro rid -
  refine Sim.same ?_
  rintro ⟨res, sk, node⟩ -
  refine Sim.bind (h.takeInner rid) ?_
  rintro ⟨r, s1⟩ ⟨_, u1⟩ ⟨rfl, h1⟩
  refine Sim.bind (h1.getInner lid) ?_
  rintro l _ rfl
  refine Sim.same ?_
  rintro l -
  refine Sim.same ?_
  rintro n -
  exact Sim.ret ⟨rfl, h1.setInner lid l, rfl⟩

theorem handleInnerUnderSize_sim (h : Junk J c s u) (st : Statistic) (node : Inner K A) (i : Nat)
    (d : K × V) : Sim (handleInnerUnderSize s st node i d) (handleInnerUnderSize u st node i d)
      (fun a b => a.1 = b.1 ∧ Junk J c a.2.1 b.2.1 ∧ a.2.2 = b.2.2) := by
  unfold handleInnerUnderSize
  refine Sim.bind (R := OSim J c) (Sim.ite (fun _ => tryRotateRightInner_sim h _ _) fun _ => Sim.ret trivial) ?_
  rintro (_ | ⟨s1, n1⟩) (_ | ⟨u1, n2⟩) ho
  · refine Sim.bind (R := OSim J c) (Sim.ite (fun _ => tryRotateLeftInner_sim h _ _) fun _ => Sim.ret trivial) ?_
    rintro (_ | ⟨s1, n1⟩) (_ | ⟨u1, n2⟩) ho
    · dsimp only
      refine Sim.bind (mergeInnerNode_sim h _ _) ?_
      rintro ⟨ok, s1, n1⟩ ⟨_, u1, _⟩ ⟨rfl, h1, rfl⟩
      exact Sim.ite (fun _ => Sim.ret ⟨rfl, h1, rfl⟩) fun _ => Sim.ret ⟨rfl, h1, rfl⟩
    · exact ho.elim
    · exact ho.elim
    · obtain ⟨h1, rfl⟩ := ho
      exact Sim.ret ⟨rfl, h1, rfl⟩
  · exact ho.elim
  · exact ho.elim
  · obtain ⟨h1, rfl⟩ := ho
    exact Sim.ret ⟨rfl, h1, rfl⟩

theorem rotateRightForLeaf_sim (h : Junk J c s u) (node : Inner K A) (slot d : Nat) :
    Sim (rotateRightForLeaf s node slot d) (rotateRightForLeaf u node slot d)
      (fun a b => a.1 = b.1 ∧ Junk J c a.2.1 b.2.1 ∧ a.2.2 = b.2.2) := by
  unfold rotateRightForLeaf
  refine Sim.same ?_
  rintro c1 -
  refine Sim.same ?_
  rintro lid -
  refine Sim.same ?_
  rintro c2 -
  refine Sim.same ?_
  rintro rid -
  refine Sim.bind (h.getLeaf lid) ?_
  rintro l _ ⟨rfl, hl⟩
  refine Sim.ite (fun _ => Sim.err) fun _ => ?_
  refine Sim.same ?_
  rintro ⟨kv, l⟩ -
  have h1 := h.setLeaf hl l
  refine Sim.same ?_
  rintro n -
  refine Sim.bind (h1.getLeaf rid) ?_
  rintro r _ ⟨rfl, hr⟩
  refine Sim.same ?_
  rintro ⟨del, r⟩ -
  refine Sim.same ?_
  rintro n -
  refine Sim.same ?_
  rintro ⟨-, n⟩ -
  exact Sim.ret ⟨rfl, ((h1.setLeaf hr r).cacheLeaf hr).weaken, rfl⟩

theorem rotateLeftForLeaf_sim (h : Junk J c s u) (node : Inner K A) (slot d : Nat) :
    Sim (rotateLeftForLeaf s node slot d) (rotateLeftForLeaf u node slot d)
      (fun a b => a.1 = b.1 ∧ Junk J c a.2.1 b.2.1 ∧ a.2.2 = b.2.2) := by
  unfold rotateLeftForLeaf
  refine Sim.same ?_
  rintro c1 -
  refine Sim.same ?_
  rintro lid -
  refine Sim.same ?_
  rintro c2 -
  refine Sim.same ?_
  rintro rid -
  refine Sim.bind (h.getLeaf rid) ?_
  rintro l _ ⟨rfl, hl⟩
  refine Sim.ite (fun _ => Sim.err) fun _ => ?_
  refine Sim.same ?_
  rintro ⟨kv, l⟩ -
  have h1 := h.setLeaf hl l
  refine Sim.same ?_
  rintro n -
  refine Sim.same ?_
  rintro fst -
  refine Sim.bind (h1.getLeaf lid) ?_
  rintro r _ ⟨rfl, hr⟩
  refine Sim.same ?_
  rintro ⟨del, r⟩ -
  refine Sim.same ?_
  rintro n -
  refine Sim.same ?_
  rintro ⟨-, n⟩ -
  exact Sim.ret ⟨rfl, ((h1.setLeaf hr r).cacheLeaf hr).weaken, rfl⟩

theorem mergeLeafNodeLeft_sim (h : Junk J c s u) (node : Inner K A) (slot d : Nat) :
    Sim (mergeLeafNodeLeft s node slot d) (mergeLeafNodeLeft u node slot d)
      (fun a b => a.1 = b.1 ∧ Junk J c a.2.1 b.2.1 ∧ a.2.2 = b.2.2) := by
  unfold mergeLeafNodeLeft
  refine Sim.same ?_
  rintro c1 -
  refine Sim.same ?_
  rintro lid -
  refine Sim.same ?_
  rintro c2 -
  refine Sim.same ?_
  rintro rid -
  refine Sim.bind (h.takeLeaf rid) ?_
  rintro ⟨r, s1⟩ ⟨_, u1⟩ ⟨rfl, h1⟩
  refine Sim.bind (h1.getLeaf lid) ?_
  rintro l _ ⟨rfl, hl⟩
  refine Sim.same ?_
  rintro ⟨kv, l⟩ -
  refine Sim.same ?_
  rintro n -
  refine Sim.bind (relink_sim (h1.setLeaf hl l) l.next _) ?_
  rintro s2 u2 h2
  refine Sim.same ?_
  rintro ⟨ok, -, n⟩ -
  exact Sim.ret ⟨rfl, (h2.cacheLeaf hl).weaken, rfl⟩

theorem mergeLeafNodeWithRight_sim (h : Junk J c s u) (node : Inner K A) (slot d : Nat) :
    Sim (mergeLeafNodeWithRight s node slot d) (mergeLeafNodeWithRight u node slot d)
      (fun a b => a.1 = b.1 ∧ Junk J c a.2.1 b.2.1 ∧ a.2.2 = b.2.2) := by
  unfold mergeLeafNodeWithRight
  refine Sim.same ?_
  rintro c1 -
  refine Sim.same ?_
  rintro lid -
  refine Sim.same ?_
  rintro c2 -
  refine Sim.same ?_
  rintro rid -
  refine Sim.bind (h.takeLeaf rid) ?_
  rintro ⟨r, s1⟩ ⟨_, u1⟩ ⟨rfl, h1⟩
  refine Sim.bind (h1.getLeaf lid) ?_
  rintro l _ ⟨rfl, hl⟩
  refine Sim.same ?_
  rintro ⟨kv, l⟩ -
  refine Sim.same ?_
  rintro l -
  refine Sim.same ?_
  rintro n -
  refine Sim.bind (relink_sim (h1.setLeaf hl l) l.next _) ?_
  rintro s2 u2 h2
  refine Sim.same ?_
  rintro ⟨ok, -, n⟩ -
  exact Sim.ret ⟨rfl, (h2.cacheLeaf hl).weaken, rfl⟩

theorem handleLeafUnderSize_sim (h : Junk J c s u) (st : Statistic) (node : Inner K A) (i k : Nat) :
    Sim (handleLeafUnderSize s st node i k) (handleLeafUnderSize u st node i k)
      (fun a b => a.1 = b.1 ∧ Junk J c a.2.1 b.2.1 ∧ a.2.2 = b.2.2) := by
  unfold handleLeafUnderSize
  have sib : ∀ (p : Prop) [Decidable p] (j : Nat),
      Sim (if p then do
          let id ← (← node.childId j).leafIdUnchecked
          let l ← s.getLeaf id
          return some l
        else return none : Res (Option (Leaf K V)))
        (if p then do
          let id ← (← node.childId j).leafIdUnchecked
          let l ← u.getLeaf id
          return some l
        else return none : Res (Option (Leaf K V))) Eq := by
    intro p _ j
    refine Sim.ite (fun _ => ?_) fun _ => Sim.ret rfl
    refine Sim.same ?_
    rintro c1 -
    refine Sim.same ?_
    rintro id -
    refine Sim.bind (h.getLeaf id) ?_
    rintro l _ ⟨rfl, -⟩
    exact Sim.ret rfl
  refine Sim.bind (sib _ _) ?_
  rintro p _ rfl
  refine Sim.bind (sib _ _) ?_
  rintro n _ rfl
  refine Sim.same ?_
  rintro (_ | _ | _ | _) -
  · refine Sim.bind (rotateRightForLeaf_sim h _ _ _) ?_
    rintro ⟨del, s1, n1⟩ ⟨_, u1, _⟩ ⟨rfl, h1, rfl⟩
    exact Sim.ret ⟨rfl, h1, rfl⟩
  · refine Sim.bind (rotateLeftForLeaf_sim h _ _ _) ?_
    rintro ⟨del, s1, n1⟩ ⟨_, u1, _⟩ ⟨rfl, h1, rfl⟩
    exact Sim.ret ⟨rfl, h1, rfl⟩
  · refine Sim.bind (mergeLeafNodeLeft_sim h _ _ _) ?_
    rintro ⟨del, s1, n1⟩ ⟨_, u1, _⟩ ⟨rfl, h1, rfl⟩
    exact Sim.ret ⟨rfl, h1, rfl⟩
  · refine Sim.bind (mergeLeafNodeWithRight_sim h _ _ _) ?_
    rintro ⟨del, s1, n1⟩ ⟨_, u1, _⟩ ⟨rfl, h1, rfl⟩
    exact Sim.ret ⟨rfl, h1, rfl⟩

theorem removeAscend_sim (h : Junk J c s u) (st : Statistic) (stack : List StackEntry) (r : DeleteResult K V) :
    Sim (removeAscend s st stack r) (removeAscend u st stack r)
      (fun a b => a.1 = b.1 ∧ Junk J c a.2.1 b.2.1 ∧ a.2.2 = b.2.2) := by
  induction stack generalizing s u st r with
  | nil => exact Sim.ret ⟨rfl, h, rfl⟩
  | cons e stack ih =>
    obtain ⟨pid, idx, child⟩ := e
    cases r with
    | done kv =>
      refine Sim.bind (newAug_sim h child) ?_
      rintro ca _ rfl
      refine Sim.bind (h.getInner pid) ?_
      rintro n _ rfl
      refine Sim.same ?_
      rintro n -
      exact ih (h.setInner _ _) _ _
    | innerUnderSize kv =>
      refine Sim.bind (h.getInner pid) ?_
      rintro n _ rfl
      refine Sim.bind (handleInnerUnderSize_sim h _ _ _ _) ?_
      rintro ⟨r, s1, st1, n1⟩ ⟨_, u1, _⟩ ⟨rfl, h1, h2⟩
      cases h2
      exact ih (h1.setInner _ _) _ _
    | leafUnderSize i =>
      refine Sim.bind (h.getInner pid) ?_
      rintro n _ rfl
      refine Sim.bind (handleLeafUnderSize_sim h _ _ _ _) ?_
      rintro ⟨r, s1, st1, n1⟩ ⟨_, u1, _⟩ ⟨rfl, h1, h2⟩
      cases h2
      exact ih (h1.setInner _ _) _ _

theorem removeRoot_sim (h : Junk J c s u) (root : NodeId) (r : DeleteResult K V) :
    Sim (removeRoot s root r) (removeRoot u root r)
      (fun a b => a.1 = b.1 ∧ Junk J c a.2.1 b.2.1 ∧ a.2.2 = b.2.2) := by
  cases r with
  | done kv => exact Sim.ret ⟨rfl, h, rfl⟩
  | innerUnderSize kv =>
    refine Sim.same ?_
    rintro id -
    refine Sim.bind (h.getInner id) ?_
    rintro n _ rfl
    refine Sim.ite (fun _ => ?_) fun _ => Sim.ret ⟨rfl, h, rfl⟩
    refine Sim.same ?_
    rintro ch -
    exact Sim.ret ⟨rfl, h, rfl⟩
  | leafUnderSize i =>
    refine Sim.same ?_
    rintro id -
    refine Sim.bind (h.getLeaf id) ?_
    rintro n _ ⟨rfl, hj⟩
    refine Sim.same ?_
    rintro ⟨kv, l⟩ -
    exact Sim.ret ⟨rfl, h.setLeaf hj l, rfl⟩

theorem removeByRef_sim {t w : Tree K V A} (h : TRel J c t w) (e : EntryRef) :
    Sim (t.removeByRef e) (w.removeByRef e) (fun a b => a.1 = b.1 ∧ TRel J c a.2 b.2) := by
  unfold Tree.removeByRef
  rw [h.st, h.root, h.len]
  refine Sim.bind (h.store.getLeaf _) ?_
  rintro l _ ⟨rfl, hj⟩
  refine Sim.same ?_
  rintro ⟨l, dr⟩ -
  refine Sim.bind (removeAscend_sim (h.store.setLeaf hj l) _ _ _) ?_
  rintro ⟨r, s1, st⟩ ⟨_, u1, _⟩ ⟨rfl, h1, rfl⟩
  refine Sim.bind (removeRoot_sim h1 _ _) ?_
  rintro ⟨kv, s2, root⟩ ⟨_, u2, _⟩ ⟨rfl, h2, rfl⟩
  refine Sim.bind (newAug_sim h2 _) ?_
  rintro a _ rfl
  refine Sim.ite (fun _ => Sim.err) fun _ => ?_
  exact Sim.ret ⟨rfl, rfl, rfl, rfl, rfl, h2⟩

theorem remove_sim [LinearOrder K] {t w : Tree K V A} (h : TRel J c t w) (k : K) :
    Sim (t.remove k) (w.remove k) (fun a b => a.1 = b.1 ∧ TRel J c a.2 b.2) := by
  unfold Tree.remove Tree.removeImpl
  refine Sim.bind (R := fun a b => a.1 = b.1 ∧ TRel J c a.2 b.2) ?_ ?_
  · refine Sim.bind (R := Eq) ?_ ?_
    · unfold Tree.keyToRef
      rw [h.root, h.store.descendLeaf]
      refine Sim.same ?_
      rintro ⟨st, i⟩ -
      refine Sim.bind (h.store.getLeaf _) ?_
      rintro l _ ⟨rfl, hj⟩
      exact Sim.refl fun _ => rfl
    · rintro (_ | e) _ rfl
      · exact Sim.ret ⟨rfl, h⟩
      · refine Sim.bind (removeByRef_sim h e) ?_
        rintro ⟨kv, t1⟩ ⟨_, w1⟩ ⟨rfl, h1⟩
        exact Sim.ret ⟨rfl, h1⟩
  · rintro ⟨kv, t1⟩ ⟨_, w1⟩ ⟨rfl, h1⟩
    exact Sim.ret ⟨rfl, h1⟩

end
end

/-! ## Histories -/

section
variable {J : Nat → Prop} [LinearOrder K] [Augmentation K V A]

theorem call_sim {t w : Tree K V A} (h : TRel J True t w) (cl : Call K V)
    (hh : ∀ i, cl.hint = some i → ¬ J i) :
    Sim (t.call cl) (w.call cl)
      (fun a b => a.1 = b.1 ∧ ∃ J', (∀ i, J' i → J i) ∧ TRel (J' : Nat → Prop) True a.2 b.2) := by
  have keep : ∀ {x : Answer K V}, (x, t).1 = (x, w).1 ∧
      ∃ J', (∀ i, J' i → J i) ∧ TRel (J' : Nat → Prop) True (x, t).2 (x, w).2 :=
    ⟨rfl, J, fun _ h => h, h⟩
  cases cl with
  | insert k v =>
    refine Sim.bind (insert_sim h k v) ?_
    rintro ⟨o, t1⟩ ⟨_, w1⟩ ⟨rfl, h1⟩
    exact Sim.ret ⟨rfl, J, fun _ h => h, h1⟩
  | remove k =>
    refine Sim.bind (remove_sim h k) ?_
    rintro ⟨o, t1⟩ ⟨_, w1⟩ ⟨rfl, h1⟩
    exact Sim.ret ⟨rfl, J, fun _ h => h, h1⟩
  | get k =>
    refine Sim.bind (get_sim h k) ?_
    rintro ⟨o, t1⟩ ⟨_, w1⟩ ⟨rfl, h1⟩
    exact Sim.ret ⟨rfl, J, fun _ h => h, h1⟩
  | getMut k f =>
    refine Sim.bind (getMut_sim h k f) ?_
    rintro ⟨o, t1⟩ ⟨_, w1⟩ ⟨rfl, h1⟩
    exact Sim.ret ⟨rfl, J, fun _ h => h, h1⟩
  | first =>
    refine Sim.bind (first_sim h) ?_
    rintro o _ rfl
    exact Sim.ret keep
  | last =>
    refine Sim.bind (last_sim h) ?_
    rintro o _ rfl
    exact Sim.ret keep
  | len =>
    simp only [Tree.call, h.len]
    exact Sim.ret keep
  | isEmpty =>
    simp only [Tree.call, isEmpty_sim h]
    exact Sim.ret keep
  | iter n =>
    refine Sim.bind (iter_sim h) ?_
    rintro it _ rfl
    refine Sim.bind (runCalls_sim h it _) ?_
    rintro o _ rfl
    exact Sim.ret keep
  | iterBack n =>
    refine Sim.bind (iter_sim h) ?_
    rintro it _ rfl
    refine Sim.bind (runCalls_sim h it _) ?_
    rintro o _ rfl
    exact Sim.ret keep
  | cursorNext cu =>
    refine Sim.bind (cursorNext_sim h cu (hh _ rfl)) ?_
    rintro o _ rfl
    exact Sim.ret keep
  | cursorPrev cu =>
    refine Sim.bind (cursorPrev_sim h cu (hh _ rfl)) ?_
    rintro o _ rfl
    exact Sim.ret keep
  | cursorValue cu =>
    refine Sim.bind (cursorValue_sim h cu (hh _ rfl)) ?_
    rintro o _ rfl
    exact Sim.ret keep
  | getCursor k =>
    refine Sim.bind (getCursor_sim h k) ?_
    rintro (_ | ⟨cu, v⟩) _ rfl
    · exact Sim.ret keep
    · exact Sim.ret keep
  | clear =>
    refine Sim.ret ⟨rfl, fun _ => False, fun _ h => h.elim, rfl, rfl, rfl, rfl, rfl, rfl, rfl, fun _ _ => rfl,
      fun _ h => h.elim, fun _ _ _ h => h⟩

theorem run_sim {t w : Tree K V A} (h : TRel J True t w) (cs : List (Call K V))
    (hh : ∀ cl ∈ cs, ∀ i, cl.hint = some i → ¬ J i) :
    Sim (t.run cs) (w.run cs)
      (fun a b => a.1 = b.1 ∧ ∃ J', (∀ i, J' i → J i) ∧ TRel (J' : Nat → Prop) True a.2 b.2) := by
  induction cs generalizing J t w with
  | nil => exact Sim.ret ⟨rfl, J, fun _ h => h, h⟩
  | cons cl cs ih =>
    refine Sim.bind (call_sim h cl (hh cl (by simp))) ?_
    rintro ⟨a, t1⟩ ⟨_, w1⟩ ⟨rfl, J1, hJ, h1⟩
    refine Sim.bind (ih h1 fun c hc i hi hj => hh c (by simp [hc]) i hi (hJ i hj)) ?_
    rintro ⟨as, t2⟩ ⟨_, w2⟩ ⟨rfl, J2, hJ2, h2⟩
    exact Sim.ret ⟨rfl, J2, fun i hi => hJ i (hJ2 i hi), h2⟩

end

/-! ## Dropping -/

section
variable {J : Nat → Prop} {c : Prop}

/-- Owning iterators on such stores. -/
structure IRel (J : Nat → Prop) (c : Prop) (a b : IntoIter K V A) : Prop where
  store : Junk J c a.store b.store
  len : a.len = b.len
  pos : a.pos = b.pos
  end_ : a.end_ = b.end_
  taken : a.taken = b.taken

theorem nextAux_sim (f : Nat) {a b : IntoIter K V A} (h : IRel J c a b) :
    Sim (IntoIter.nextAux f a) (IntoIter.nextAux f b) (fun x y => x.1 = y.1 ∧ IRel J c x.2 y.2) := by
  induction f generalizing a b with
  | zero => exact Sim.err
  | succ f ih =>
    unfold IntoIter.nextAux
    rw [h.len, h.pos]
    refine Sim.ite (fun _ => Sim.ret ⟨rfl, h⟩) fun _ => ?_
    refine Sim.bind (h.store.getLeaf _) ?_
    rintro l _ ⟨rfl, -⟩
    refine Sim.ite (fun _ => ?_) fun _ => ?_
    · unfold IntoIter.takeData
      rw [h.taken]
      split
      · exact Sim.err
      · split
        · exact Sim.err
        · exact Sim.ret ⟨rfl, h.store, rfl, rfl, h.end_, rfl⟩
    · split
      · exact ih ⟨h.store, rfl, rfl, h.end_, h.taken⟩
      · exact Sim.err

theorem dropAux_sim (f : Nat) {a b : IntoIter K V A} (h : IRel J c a b) :
    Sim (IntoIter.dropAux f a) (IntoIter.dropAux f b) Eq := by
  induction f generalizing a b with
  | zero => exact Sim.err
  | succ f ih =>
    unfold IntoIter.dropAux IntoIter.next
    rw [h.store.len]
    refine Sim.bind (nextAux_sim _ h) ?_
    rintro ⟨o, a1⟩ ⟨_, b1⟩ ⟨rfl, h1⟩
    cases o with
    | none => exact Sim.ret rfl
    | some kv =>
      refine Sim.bind (ih h1) ?_
      rintro r _ rfl
      exact Sim.ret rfl

theorem drop_sim {t w : Tree K V A} (h : TRel J c t w) : Sim t.drop w.drop Eq := by
  unfold Tree.drop Tree.intoIter IntoIter.drop
  rw [firstLeaf_sim h, lastLeaf_sim h, h.len]
  refine Sim.bind (R := IRel J c) ?_ ?_
  · refine Sim.same ?_
    rintro i -
    refine Sim.same ?_
    rintro j -
    refine Sim.bind (h.store.getLeaf _) ?_
    rintro l _ ⟨rfl, -⟩
    exact Sim.ret ⟨h.store, rfl, rfl, rfl, rfl⟩
  · rintro a b h
    rw [h.len]
    exact dropAux_sim _ h

end

/-! ## A new tree on a used store -/

section
variable [Augmentation K V A]

/-- The store without its leaves. -/
def Store.bare (s : Store K V A) : Store K V A := { s with leaves := s.leaves.map fun _ => none }

theorem newOn_rel (s : Store K V A) (c : Prop) (hc : c → ∀ i, s.cached = some i → ¬ s.HasLeaf i) :
    TRel s.HasLeaf c (Tree.newOn s) (Tree.newOn s.bare) := by
  refine ⟨?_, rfl, rfl, rfl, rfl, rfl, ?_, fun i hi => ?_, fun i hi => ?_, hc⟩
  · simp [Tree.newOn, Store.newEmptyLeaf, Store.bare]
  · simp [Tree.newOn, Store.newEmptyLeaf, Store.bare]
  · simp only [Tree.newOn, Store.newEmptyLeaf, Store.bare]
    rw [List.getElem?_append, List.getElem?_append, List.length_map]
    split
    · next hlt =>
      rw [List.getElem?_map, List.getElem?_eq_getElem hlt]
      have : s.leaves[i] = none := by
        cases e : s.leaves[i] with
        | none => rfl
        | some l => exact (hi ⟨l, by rw [List.getElem?_eq_getElem hlt, e]⟩).elim
      rw [this]
      rfl
    · rfl
  · obtain ⟨l, hl⟩ := hi
    have hlt := (List.getElem?_eq_some_iff.1 hl).1
    simp only [Tree.newOn, Store.newEmptyLeaf, Store.bare]
    rw [List.getElem?_append_left (by simpa using hlt), List.getElem?_map, hl]
    rfl

theorem newOn_inv [LinearOrder K] (μ : Nat) (s : Store K V A) : Inv μ (Tree.newOn s.bare) [] := by
  refine ⟨0, (⟨s.leaves.length, []⟩ : GLeaf K V), ?_, rfl, by simp [Tree.newOn]⟩
  refine ⟨by simp [Tree.newOn, Store.newEmptyLeaf, Store.bare, T.nid], by simp [T.nodes], by simp [T.nodes],
    ?_, by simp [T.leaves], ?_, by simp [T.inorder], ⟨Nat.zero_le _, by simp⟩, rfl⟩
  · refine ⟨?_, trivial⟩
    simp only [Tree.newOn, Store.newEmptyLeaf, Store.bare]
    rw [List.getElem?_append_right (by simp)]
    simp
    rfl
  · intro i l hi
    simp only [Tree.newOn, Store.newEmptyLeaf, Store.bare] at hi
    rw [List.getElem?_append] at hi
    split at hi
    · rw [List.getElem?_map] at hi
      cases h : s.leaves[i]? <;> simp [h] at hi
    · rw [List.length_map] at *
      have : i - s.leaves.length = 0 := by
        rcases Nat.eq_zero_or_pos (i - s.leaves.length) with h | h
        · exact h
        · rw [List.getElem?_eq_none (by simp only [List.length_singleton]; exact h)] at hi
          cases hi
      simp [T.leaves]
      omega

end

section
variable [LinearOrder K]

/-- The first insertion makes the leaf it goes to the cached one. -/
theorem insert_first_sim [Augmentation K V A] {J : Nat → Prop} {c : Prop} {t w : Tree K V A} (h : TRel J c t w)
    {i : Nat} (hw : w.root = .leaf i) (k : K) (v : V) :
    Sim (t.insert k v) (w.insert k v) (fun a b => a.1 = b.1 ∧ (b.1 = none → TRel J True a.2 b.2)) := by
  unfold Tree.insert
  rw [h.root, hw]
  refine Sim.bind (insertLeaf_sim h.store i k v) ?_
  rintro ⟨a, r⟩ ⟨b, _⟩ ⟨rfl, h1, h2⟩
  dsimp only at h1 h2 ⊢
  cases r with
  | inserted =>
    refine Sim.bind (newAug_sim h1 _) ?_
    rintro ra _ rfl
    rcases h2 with ⟨v0, h2⟩ | h2
    · cases h2
    · exact Sim.ret ⟨rfl, fun _ => ⟨rfl, rfl, by rw [h.len], h.st, h2⟩⟩
  | updated v0 =>
    refine Sim.bind (newAug_sim h1 _) ?_
    rintro ra _ rfl
    exact Sim.ret ⟨rfl, fun h => by cases h⟩
  | split k nc =>
    refine Sim.bind (newAug_sim h1 _) ?_
    rintro ra _ rfl
    refine Sim.bind (newAug_sim h1 _) ?_
    rintro ra2 _ rfl
    refine Sim.same ?_
    rintro n -
    rcases h2 with ⟨v0, h2⟩ | h2
    · cases h2
    · refine Sim.ret ⟨rfl, fun _ => ⟨?_, rfl, by rw [h.len], h.st, h2.addInner n⟩⟩
      simp [Store.addInner, h2.inners]

/-- After a lookup that finds its key, the leaf found is the cached one. -/
theorem get_caches {t t' : Tree K V A} {L} (r : Reads t L) {k : K} {v : V}
    (h : t.get k = .ok (some v, t')) :
    ∃ i, t'.store.tryCache k = .ok (some i) ∧ findInLeaf t'.store i k = .ok (some v) := by
  obtain ⟨o, ho, hh⟩ := r.flat.tryCacheAt t.store.cached k
  have ho' : t.store.tryCache k = .ok o := ho
  unfold Tree.get at h
  rw [ho'] at h
  cases o with
  | some i =>
    simp only [ok_bind] at h
    obtain ⟨w, h1, h2⟩ := bind_ok h
    cases h2
    exact ⟨i, ho', h1⟩
  | none =>
    obtain ⟨LA, ⟨i, d⟩, LB, hc, hf⟩ := r.find k
    simp only [ok_bind, hf] at h
    obtain ⟨w, h1, h2⟩ := bind_ok h
    cases h2
    have r' := r.cached (some i)
    have hL := findInLeaf_ok r'.flat hc
    have hL' : findInLeaf (t.store.cacheLeaf i) i k = .ok (Spec.lookup k (L.flatMap (·.2))) := hL
    have h1' := h1
    rw [hL'] at h1
    have hlook : Spec.lookup k (L.flatMap (·.2)) = some v := Except.ok.inj h1
    rcases hc.split r.flat.sorted with ⟨a, v', b, h0, h1, h2, h3, h4, h5⟩ |
      ⟨a, b, h0, h1, h2, h3, h4, h5⟩
    · simp only at h0
      refine ⟨i, ?_, h1'⟩
      have hin := inRange_mem r.flat hc.eq (kv := (k, v')) (by simp [h0])
      have hg : t.store.tryGetLeaf i = some ⟨d, lstId none LA, hdId LB none⟩ := by
        have := r.flat.get hc.eq
        simp only at this
        unfold Store.getLeaf at this
        unfold Store.tryGetLeaf
        split at this
        · next e => cases this; simp [e]
        · cases this
      have hg' : (t.store.cacheLeaf i).tryGetLeaf i = some ⟨d, lstId none LA, hdId LB none⟩ := hg
      unfold Store.tryCache Store.tryCacheAt
      simp only [Store.cacheLeaf] at hg' ⊢
      simp only [hg']
      simp only at hin
      rw [hin]
      rfl
    · rw [h3, Spec.lookup_none h4 h5] at hlook
      cases hlook

/-- A cache hit still is one in a new tree on the store. -/
theorem newOn_get [Augmentation K V A] {s : Store K V A} {k : K} {i : Nat} {o : Option V}
    (h : s.tryCache k = .ok (some i)) (hf : findInLeaf s i k = .ok o) :
    (Tree.newOn s).get k = .ok (o, Tree.newOn s) := by
  have live : ∀ (j : Nat) (l : Leaf K V), s.leaves[j]? = some (some l) → (Tree.newOn s).store.leaves[j]? = some (some l) := by
    intro j l hl
    simp only [Tree.newOn, Store.newEmptyLeaf]
    rw [List.getElem?_append_left (List.getElem?_eq_some_iff.1 hl).1, hl]
  have h1 : (Tree.newOn s).store.tryCache k = .ok (some i) := by
    unfold Store.tryCache Store.tryCacheAt at h ⊢
    have e : (Tree.newOn s).store.cached = s.cached := rfl
    rw [e]
    cases hc : s.cached with
    | none => rw [hc] at h; cases h
    | some j =>
      rw [hc] at h
      simp only at h ⊢
      unfold Store.tryGetLeaf at h ⊢
      cases hj : s.leaves[j]? with
      | none => simp only [hj] at h; cases h
      | some x =>
        cases x with
        | none => simp only [hj] at h; cases h
        | some l =>
          simp only [hj] at h
          simp only [live j l hj]
          exact h
  have h2 : findInLeaf (Tree.newOn s).store i k = .ok o := by
    unfold findInLeaf Store.getLeaf at hf ⊢
    cases hj : s.leaves[i]? with
    | none => simp only [hj] at hf; cases hf
    | some x =>
      cases x with
      | none => simp only [hj] at hf; cases hf
      | some l =>
        simp only [hj] at hf
        simp only [live i l hj]
        exact hf
  simp only [Tree.get, h1, h2, ok_bind, pure_ok]

/-- The cursor at a key of the map finds its leaf by the hint alone. -/
theorem getCursor_hint {t : Tree K V A} {L} (r : Reads t L) {k : K} {v : V}
    (hk : Spec.lookup k (L.flatMap (·.2)) = some v) :
    ∃ (c : Cursor K) (l : Leaf K V), t.getCursor k = .ok (some (c, some v)) ∧ c.k = k ∧
      t.store.tryGetLeaf c.leafIdHint = some l ∧ l.inRange k = .ok true := by
  obtain ⟨LA, ⟨i, d⟩, LB, hc, hf⟩ := r.find k
  rcases hc.split r.flat.sorted with ⟨a, v', b, h0, h1, h2, h3, h4, h5⟩ | ⟨a, b, h0, h1, h2, h3, h4, h5⟩
  · simp only at h0
    subst h0
    have hin := inRange_mem r.flat hc.eq (kv := (k, v')) (by simp)
    have hg := r.flat.get hc.eq
    rw [h3, Spec.lookup_found h4] at hk
    cases hk
    refine ⟨⟨k, i, a.length⟩, _, ?_, rfl, ?_, hin⟩
    · unfold Tree.getCursor
      simp only [hf, ok_bind, hg, lswv_found h1, pure_ok]
    · simp only at hg ⊢
      unfold Store.getLeaf at hg
      unfold Store.tryGetLeaf
      split at hg
      · next e => cases hg; simp [e]
      · cases hg
  · rw [h3, Spec.lookup_none h4 h5] at hk
    cases hk

theorem newOn_cursor [Augmentation K V A] {t : Tree K V A} {c : Cursor K} {l : Leaf K V}
    (h : t.store.tryGetLeaf c.leafIdHint = some l) (hin : l.inRange c.k = .ok true) :
    c.value (Tree.newOn t.store) = c.value t := by
  have h' : (Tree.newOn t.store).store.tryGetLeaf c.leafIdHint = some l := by
    unfold Store.tryGetLeaf at h ⊢
    cases hj : t.store.leaves[c.leafIdHint]? with
    | none => simp only [hj] at h; cases h
    | some x =>
      cases x with
      | none => simp only [hj] at h; cases h
      | some l' =>
        simp only [hj] at h
        simp only [Tree.newOn, Store.newEmptyLeaf]
        rw [List.getElem?_append_left (List.getElem?_eq_some_iff.1 hj).1, hj]
        exact h
  unfold Cursor.value Cursor.locateLeaf
  simp only [h, h', hin, ok_bind, pure_ok, if_true]

theorem newOn_iter [Augmentation K V A] (s : Store K V A) :
    (Tree.newOn s).call (.iter 1) = .ok (.entries [none], Tree.newOn s) := by
  have hg : (Tree.newOn s).store.getLeaf s.leaves.length = .ok Leaf.empty := by
    simp [Tree.newOn, Store.newEmptyLeaf, Store.getLeaf]
  have hf : (Tree.newOn s).firstLeaf = .ok s.leaves.length := by
    simp only [Tree.newOn, Store.newEmptyLeaf, Tree.firstLeaf, descendLeaf, Store.fuel, descend, ok_bind, pure_ok]
  have hi : (Tree.newOn s).iter = .ok ⟨0, some Leaf.empty, 0, none⟩ := by
    simp only [Tree.iter, hf, ok_bind, hg, pure_ok]
    rfl
  simp only [Tree.call, hi, ok_bind, List.replicate, Iter.runCalls, Iter.call, Iter.next, if_true, pure_ok,
    List.map_cons, List.map_nil]

end
end Bpt
