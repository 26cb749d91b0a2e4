import Verif.Proofs.CloneCrash
import Verif.Props.Raw

/-!
# C57: the calls of user code inside `clone`, and their panics

`(c, w)` in the trace of `Tree.cloneT` is a call `c` of `Clone::clone` of a key, a value or an augmentation,
and `w` says what the copy consists of at that moment. A panic of that call runs `w.unwind`. The original is
borrowed by `clone`, and not changed.
-/

namespace Bpt
namespace Raw
variable {K V A : Type}

/-- The keys among the things cloned. -/
def Cloned.keys (l : List (Cloned K V A)) : List K :=
  l.filterMap (fun c => match c with | .key k => some k | _ => none)

/-- The values among the things cloned. -/
def Cloned.vals (l : List (Cloned K V A)) : List V :=
  l.filterMap (fun c => match c with | .value v => some v | _ => none)

/-- The augmentations among the things cloned. -/
def Cloned.augs (l : List (Cloned K V A)) : List A :=
  l.filterMap (fun c => match c with | .aug a => some a | _ => none)

section
variable {l l' : List (Cloned K V A)} {β : Type}

theorem Cloned.keys_append : keys (l ++ l') = keys l ++ keys l' := List.filterMap_append
theorem Cloned.vals_append : vals (l ++ l') = vals l ++ vals l' := List.filterMap_append
theorem Cloned.augs_append : augs (l ++ l') = augs l ++ augs l' := List.filterMap_append
theorem Cloned.keys_flatMap (m : List β) (f : β → List (Cloned K V A)) :
    keys (m.flatMap f) = m.flatMap (fun b => keys (f b)) := List.filterMap_flatMap
theorem Cloned.vals_flatMap (m : List β) (f : β → List (Cloned K V A)) :
    vals (m.flatMap f) = m.flatMap (fun b => vals (f b)) := List.filterMap_flatMap
theorem Cloned.augs_flatMap (m : List β) (f : β → List (Cloned K V A)) :
    augs (m.flatMap f) = m.flatMap (fun b => augs (f b)) := List.filterMap_flatMap
theorem Cloned.keys_key (m : List K) : keys (m.map (.key : K → Cloned K V A)) = m := by
  simp [keys, List.filterMap_map, Function.comp_def]
theorem Cloned.keys_val (m : List V) : keys (m.map (.value : V → Cloned K V A)) = [] := by
  simp [keys, List.filterMap_map, Function.comp_def]
theorem Cloned.keys_aug (m : List A) : keys (m.map (.aug : A → Cloned K V A)) = [] := by
  simp [keys, List.filterMap_map, Function.comp_def]
theorem Cloned.vals_key (m : List K) : vals (m.map (.key : K → Cloned K V A)) = [] := by
  simp [vals, List.filterMap_map, Function.comp_def]
theorem Cloned.vals_val (m : List V) : vals (m.map (.value : V → Cloned K V A)) = m := by
  simp [vals, List.filterMap_map, Function.comp_def]
theorem Cloned.vals_aug (m : List A) : vals (m.map (.aug : A → Cloned K V A)) = [] := by
  simp [vals, List.filterMap_map, Function.comp_def]
theorem Cloned.augs_key (m : List K) : augs (m.map (.key : K → Cloned K V A)) = [] := by
  simp [augs, List.filterMap_map, Function.comp_def]
theorem Cloned.augs_val (m : List V) : augs (m.map (.value : V → Cloned K V A)) = [] := by
  simp [augs, List.filterMap_map, Function.comp_def]
theorem Cloned.augs_aug (m : List A) : augs (m.map (.aug : A → Cloned K V A)) = m := by
  simp [augs, List.filterMap_map, Function.comp_def]

end

/-- C57: the program with the trace computes what `clone` computes. -/
theorem C57_same_program (t : Tree K V A) : t.cloneT.result = t.clone := cloneT_result t

variable [LinearOrder K] [Augmentation K V A]

/-- C57: a panic of `K::clone`, `V::clone` or `A::clone` inside `clone` unwinds without undefined behaviour and
without a second panic. -/
theorem C57_unwinding {u : Tree K V A} (h : Reachable u) {c : Cloned K V A} {w : Clones K V A}
    (hm : (c, w) ∈ u.cloneT.trace) : ∃ dropped, w.unwind = .ok dropped := by
  obtain ⟨t, _, ht⟩ := reachable_rep h
  obtain ⟨u', hc⟩ := cloneT_tally ht
  obtain ⟨pre, post, e⟩ := List.append_of_mem hm
  exact ⟨_, unwind_good (hc.here pre c w post e).1⟩

/-- C57: nothing is dropped twice by such a panic. The clones made before it (`pre` are the calls that have
returned) are exactly, in this order, the keys and augmentations dropped and those leaked; the cloned values
are all leaked. -/
theorem C57_account {u : Tree K V A} (h : Reachable u) {pre post : List (Cloned K V A × Clones K V A)}
    {c : Cloned K V A} {w : Clones K V A} {ks : List K} {as : List A}
    (ht : u.cloneT.trace = pre ++ (c, w) :: post) (hu : w.unwind = .ok (ks, as)) :
    ks ++ w.leakedKeys = Cloned.keys (pre.map (·.1)) ∧ as ++ w.leakedAugs = Cloned.augs (pre.map (·.1)) ∧
    w.leakedVals = Cloned.vals (pre.map (·.1)) := by
  obtain ⟨t, _, hr⟩ := reachable_rep h
  obtain ⟨u', hc⟩ := cloneT_tally hr
  obtain ⟨hg, ho⟩ := hc.here pre c w post ht
  rw [unwind_good hg] at hu
  cases hu
  rw [List.nil_append] at ho
  rw [← ho]
  open Cloned in
  have k1 : (fun o => keys (innerOwn o : List (Cloned K V A))) = innerKeys := by
    funext o; cases o <;> simp [innerOwn, innerKeys, keys_append, keys_key, keys_aug, keys]
  have k2 : (fun o => keys (leafOwn o : List (Cloned K V A))) = leafKeys := by
    funext o; cases o <;> simp [leafOwn, leafKeys, keys_append, keys_key, keys_val, keys]
  have a1 : (fun o => augs (innerOwn o : List (Cloned K V A))) = innerAugs := by
    funext o; cases o <;> simp [innerOwn, innerAugs, augs_append, augs_key, augs_aug, augs]
  have a2 : (fun o => augs (leafOwn o : List (Cloned K V A))) = fun _ => [] := by
    funext o; cases o <;> simp [leafOwn, augs_append, augs_key, augs_val, augs]
  have v1 : (fun o => vals (innerOwn o : List (Cloned K V A))) = fun _ => [] := by
    funext o; cases o <;> simp [innerOwn, vals_append, vals_key, vals_aug, vals]
  have v2 : (fun o => vals (leafOwn o : List (Cloned K V A))) = leafVals := by
    funext o; cases o <;> simp [leafOwn, leafVals, vals_append, vals_key, vals_val, vals]
  have e0 : ∀ (α β : Type) (l : List α), l.flatMap (fun _ => ([] : List β)) = [] := by
    intro α β l; simp
  refine ⟨?_, ?_, ?_⟩
  · simp only [Clones.own, keys_append, keys_flatMap, keys_key, keys_val, keys_aug, List.nil_append,
      List.append_nil, Clones.leakedKeys, List.append_assoc, k1, k2]
  · simp only [Clones.own, augs_append, augs_flatMap, augs_key, augs_val, augs_aug, List.nil_append,
      List.append_nil, Clones.leakedAugs, List.append_assoc, a1, a2, e0]
  · simp only [Clones.own, vals_append, vals_flatMap, vals_key, vals_val, vals_aug, List.nil_append,
      List.append_nil, Clones.leakedVals, List.append_assoc, v1, v2, e0]

/-- C57: `clone` clones every key and every value of the map once, some more keys (the separators in the inner
nodes), and augmentations: one for the root, and for each inner node in the store one more than it has
separators. -/
theorem C57_calls {u : Tree K V A} (h : Reachable u) {l : List (K × V)} (hl : Shows u l) :
    ∃ seps, (Cloned.keys (u.cloneT.trace.map (·.1))).Perm (seps ++ l.map (·.1)) ∧
      (Cloned.vals (u.cloneT.trace.map (·.1))).Perm (l.map (·.2)) ∧
      (Cloned.augs (u.cloneT.trace.map (·.1))).length =
        1 + seps.length + u.store.inners.countP (·.isSome) := by
  obtain ⟨t, hb, hr⟩ := reachable_rep h
  obtain ⟨l', hi⟩ := hb.inv
  cases shows_unique hl (shows_of_rep hr hi.shows)
  obtain ⟨u', hc⟩ := cloneT_tally hr
  have hd := hc.done
  rw [List.nil_append] at hd
  rw [← hd]
  have hp := items_perm hb.bulk hi.shows
  open Cloned in
  have e0 : ∀ (α β : Type) (l : List α), l.flatMap (fun _ => ([] : List β)) = [] := by
    intro α β l; simp
  refine ⟨keys (innerClones t.store.inners : List (Cloned K V A)), ?_, ?_, ?_⟩
  · have k2 : (fun o => keys (leafCloned o : List (Cloned K V A))) = fun o => (leafItems o).map (·.1) := by
      funext o
      cases o <;> simp [leafCloned, leafItems, keys_append, keys_key, keys_val, keys]
    rw [← List.singleton_append, keys_append, keys_append]
    show ([] ++ _ : List K).Perm _
    rw [List.nil_append]
    refine List.Perm.append_left _ ?_
    rw [leafClones, keys_flatMap, k2, ← List.map_flatMap]
    exact hp.map _
  · have v1 : (fun o => vals (innerCloned o : List (Cloned K V A))) = fun _ => [] := by
      funext o; cases o <;> simp [innerCloned, vals_append, vals_key, vals_aug, vals]
    have v2 : (fun o => vals (leafCloned o : List (Cloned K V A))) = fun o => (leafItems o).map (·.2) := by
      funext o
      cases o <;> simp [leafCloned, leafItems, vals_append, vals_key, vals_val, vals]
    rw [← List.singleton_append, vals_append, vals_append, innerClones, vals_flatMap, v1, e0, List.nil_append]
    show ([] ++ _ : List V).Perm _
    rw [List.nil_append, leafClones, vals_flatMap, v2, ← List.map_flatMap]
    exact hp.map _
  · have a2 : (fun o => augs (leafCloned o : List (Cloned K V A))) = fun _ => [] := by
      funext o; cases o <;> simp [leafCloned, augs_append, augs_key, augs_val, augs]
    rw [← List.singleton_append, augs_append, augs_append, leafClones, augs_flatMap, a2, e0, List.append_nil,
      List.length_append]
    have key : ∀ {ms : List (Option (Inner K A))} {ns : List (Option (InnerS K A))},
        List.Forall₂ (Option.Rel InnerRep) ms ns →
        (augs (innerClones ms : List (Cloned K V A))).length =
          (keys (innerClones ms : List (Cloned K V A))).length + ns.countP (·.isSome) := by
      intro ms ns hf
      induction hf with
      | nil => rfl
      | cons ho _ ih =>
        cases ho with
        | none => simpa [innerClones, innerCloned] using ih
        | @some m n hmn =>
          have := hmn.holds.alen
          simp only [innerClones, innerCloned, List.flatMap_cons, augs_append, keys_append, augs_key, augs_aug,
            keys_key, keys_aug, List.length_append, List.countP_cons, Option.isSome_some, List.length_nil,
            if_true] at ih ⊢
          omega
    have := key hr.store.inners
    show 1 + _ = _
    omega

/-! ## Instances -/

-- the map of `Props/Raw`: 40 entries on two leaves under one inner node; 41 keys, 40 values and 3
-- augmentations are cloned
example : (Cloned.keys (demoRaw.cloneT.trace.map (·.1))).length = 41 ∧
    (Cloned.vals (demoRaw.cloneT.trace.map (·.1))).length = 40 ∧
    (Cloned.augs (demoRaw.cloneT.trace.map (·.1))).length = 3 := by decide +kernel

-- a panic in the third call (`A::clone` for the first child): the root augmentation is dropped, a key leaks;
-- a panic in the last call: one key and three augmentations are dropped, 40 keys and 39 values leak
example : (demoRaw.cloneT.trace[2]?.map (fun e => (e.2.unwind, e.2.leakedKeys, e.2.leakedAugs))) =
      some (.ok ([], [demoRaw.rootAug]), [45], []) ∧
    (demoRaw.cloneT.trace[83]?.map (fun e => (e.2.unwind.toOption.map (fun d => (d.1.length, d.2.length)),
      e.2.leakedKeys.length, e.2.leakedVals.length))) = some (some (1, 3), 40, 39) := by decide +kernel

example {c : Cloned Nat Nat Count} {w : Clones Nat Nat Count} (h : (c, w) ∈ demoRaw.cloneT.trace) :
    ∃ dropped, w.unwind = .ok dropped := C57_unwinding demoRaw_reach.1 h

example := C57_same_program demoRaw
example {pre post : List (Cloned Nat Nat Count × Clones Nat Nat Count)} {c w ks as}
    (ht : demoRaw.cloneT.trace = pre ++ (c, w) :: post) (hu : w.unwind = .ok (ks, as)) :=
  C57_account demoRaw_reach.1 ht hu
example := C57_calls demoRaw_reach.1 demoRaw_reach.2

end Raw
end Bpt
