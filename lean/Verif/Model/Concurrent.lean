import Verif.History

/-!
# Concurrent readers of a shared map

All readers hold `&BPlusTree`, so the only shared memory that changes is the atomic `cached_leaf`
(src/tree/node_stores/vec_backed.rs:8, 224-246), accessed with `Relaxed` ordering. The model:

* the nodes are the fixed tree `t` (no `&mut` exists while readers run);
* the atomic is the list of all values it has ever held; a relaxed load may return **any** of them
  (more than the hardware allows, since coherence forbids a reader to go back);
* one atomic access is one step. What a reader does between two atomic accesses is local.

`usize::MAX`, the value of a fresh cache, is `none`.
-/

namespace Bpt
variable {K V A : Type} [LinearOrder K] [Augmentation K V A]

/-- The calls that take `&self` (src/tree/mod.rs:344, 496-607, 609-760): they do not change the map. -/
def Call.shared : Call K V → Bool
  | .get _ | .first | .last | .len | .isEmpty | .iter _ | .iterBack _ | .cursorNext _
  | .cursorPrev _ | .cursorValue _ | .getCursor _ => true
  | .insert _ _ | .remove _ | .getMut _ _ | .clear => false

/-- A reader: the calls it still has to make, the answers received so far, and the leaf that the
current `get` has found but not yet written to the cache. -/
structure Reader (K V : Type) where
  todo : List (Call K V)
  pending : Option (K × Nat)
  answers : List (Res (Answer K V))

/-- The reader returns from its current call. -/
def Reader.finish (r : Reader K V) (a : Res (Answer K V)) : Reader K V :=
  { todo := r.todo.tail, pending := none, answers := r.answers ++ [a] }

/-- One call up to (but excluding) its write to the cache, given the value `c` its load of the cache
returned. `get` (mod.rs:344-354): a hit searches the cached leaf and returns; a miss descends
(418-433) and is about to write the leaf found. The other `&self` calls load the cache at most once
(`locate_leaf`, mod.rs:583-607) and never write it. -/
def Reader.load (t : Tree K V A) (c : Option Nat) (r : Reader K V) : Reader K V :=
  match r.todo with
  | [] => r
  | .get k :: _ =>
    match t.store.tryCacheAt c k with
    | .error e => r.finish (.error e)
    | .ok (some leafId) => r.finish (findInLeaf t.store leafId k >>= fun v => .ok (.value v))
    | .ok none =>
      match findDescendLeaf t.store t.root k with
      | .error e => r.finish (.error e)
      | .ok leafId => { r with pending := some (k, leafId) }
  | call :: _ =>
    r.finish (({ t with store := { t.store with cached := c } } : Tree K V A).call call >>=
      fun p => .ok p.1)

/-- The readers and the values the atomic has held. -/
structure Sys (K V : Type) where
  hist : List (Option Nat)
  readers : List (Reader K V)

/-- One step of one reader: an atomic load, or the atomic store of `find_in_leaf_and_cache_it`
(mod.rs:483-495) followed by the search of the leaf. -/
inductive Step (t : Tree K V A) : Sys K V → Sys K V → Prop
  | load {s : Sys K V} {i : Nat} {r : Reader K V} {c : Option Nat} :
      s.readers[i]? = some r → r.pending = none → r.todo ≠ [] → c ∈ s.hist →
      Step t s { s with readers := s.readers.set i (r.load t c) }
  | store {s : Sys K V} {i : Nat} {r : Reader K V} {k : K} {leafId : Nat} :
      s.readers[i]? = some r → r.pending = some (k, leafId) →
      Step t s { hist := some leafId :: s.hist,
                 readers := s.readers.set i
                  (r.finish (findInLeaf t.store leafId k >>= fun v => .ok (.value v))) }

/-- `n` steps. -/
inductive Steps (t : Tree K V A) : Nat → Sys K V → Sys K V → Prop
  | refl {s} : Steps t 0 s s
  | step {n s s' s''} : Steps t n s s' → Step t s' s'' → Steps t (n + 1) s s''

/-- Readers about to make the given calls; the cache holds any of the values `hist`. -/
def Sys.start (hist : List (Option Nat)) (css : List (List (Call K V))) : Sys K V :=
  { hist, readers := css.map (fun cs => { todo := cs, pending := none, answers := [] }) }

end Bpt
