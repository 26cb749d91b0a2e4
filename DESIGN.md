# Formal model of sweep-bptree: design

The Rust crate in /repo (shuoli84/sweep-bptree) is modelled in Lean 4 under `lean/Verif/`.
Nothing in /repo is compiled or run; the model was written from the text.

## Layout

* `Verif/Model/*`  the model, function by function, each definition citing file and lines.
* `Verif/Spec.lean`  the specification: sorted association lists, nothing about trees.
* `Verif/AugSpec.lean`, `History.lean`, `SetHistory.lean`, `Structure.lean`, `RawHistory.lean`,
  `LawlessHistory.lean`, `LenSpec.lean`  further vocabulary of the theorems: what ranks and groups mean, calls and
  their answers on the tree and on the specification, what a well-shaped tree is, histories on raw
  arrays, effects of calls under arbitrary comparisons, a map with a wrong length field.
* `Verif/Proofs/*`  invariants and helper lemmas.
* `Verif/Props/*`  the property theorems only, with an `example` beside each that shows its
  hypotheses are met by a concrete non-trivial case.

## What the model is

* **Errors are values.** Every fallible operation returns `Except Fault _` with
  `Fault = panic | ub | fuel`. A Rust `panic!/unwrap/unreachable!/assert!/debug_assert!` is
  `panic`; an unchecked access out of range, to an uninitialised slot or to a freed or
  never-allocated node is `ub`; `fuel` is produced when a pointer-chasing loop runs longer than
  the store has nodes (the model's stand-in for "does not terminate"). "No fault" theorems exclude
  all three.
* **Heap-faithful.** The node store is two growable arrays of optional nodes plus the cached leaf
  id, exactly as `NodeStoreVec`. Nodes refer to each other by id. Tree functions thread the store.
  Nothing is assumed about sharing, links or freed nodes; that is what the invariant proves.
* **Node contents** are lists of initialised elements in the main model; a second, lower layer
  (`Model/Slots.lean`) models the fixed arrays of `MaybeUninit` slots and proves that the node
  operations refine the list operations without reading uninitialised slots.
* **Keys** are a linear order, the `Ord` contract of Rust; in the main model equal keys are
  identified and `Borrow<Q>` lookups use `Q = K`. Keys that compare equal but differ, and lookups by
  another form of the key, are the subject of C49.
* **Augmentations** are a type class with `default`, `from_inner`, `from_leaf`; search and rank
  augmentations are further classes, as in `src/augment/mod.rs`.
* `usize`/`u16` counters are natural numbers. Where a width matters (traversal stack of 15 levels)
  the bound `len < 2^64` is an explicit hypothesis.
* Binary search (`slice::binary_search_by_key`) is modelled by its specification on sorted slices in
  the main model; C38 shows the halving search meets it.

* Four further layers are linked to the main model by theorems, not by assumption: raw node arrays
  (`Model/Slots`, `RawTree`, `RawRemove`, `RawCursor`; C35, C43, C44), comparisons as arbitrary
  answers with the standard library's search loops written out (`Model/Unordered`; C46, C38), the
  memory at every call of user code (`Model/Crash`; C45), and concurrent readers as small steps
  (`Model/Concurrent`; C13).
* `Model/RawRemove` leaves out the destruction of the moved augmentations in `merge_inner_node`; with
  it the double drop of C36 appears, so C43 is about augmentations whose destruction does nothing.

## Trusted base

Lean's kernel; the axioms `propext`, `Classical.choice`, `Quot.sound`; the faithfulness of the
definitions in `Verif/Model` to the Rust text (each cites its lines); the reading of Rust semantics
above (debug assertions on, except in `Model/Release`; `MaybeUninit`/`Box`/`Vec` behave as documented; relaxed atomic loads
return some value previously stored, or the initial one).

## Properties: what is modelled and how proved

| id | model | method |
|----|-------|--------|
| C01 | all map calls on the heap tree | refinement: invariant `Inv tree content`, simulation of each call, induction on the history |
| C02, C03, C04 | insert, remove, len | corollaries of the simulation lemmas, stated on reachable maps |
| C05, C06 | `Iter` state machine over leaf links | invariant on (remaining segment of the leaf list), induction on calls |
| C07 | same | false of the code (`next_back` neither decrements `len` nor checks for crossing): refuted by a witness; partial theorem for unmixed schedules |
| C08 | `IntoIter` with the set of slots already taken | deque invariant, induction on the schedule |
| C09 | first/last descents | leftmost/rightmost leaf of the ghost tree |
| C10, C11 | shape of the ghost tree, `VisitStack` capacity | invariant (same height, sizes), counting lemma `len >= 16*17^(h-1)`; the stored array stack refines the list used by the model (`C11_stack`) |
| C12 | every call | all simulation lemmas have an `ok` conclusion; the maps are those of `ReachableEven` (`Verif/EvenHistory.lean`): from an empty map or from a bulk load that leaves no lone child, as for C03, C13, C22, C33, C40, C41, C43, C44, C57, C59 |
| C13 | cached leaf as shared state, small-step readers | get result independent of cache; induction on the interleaving |
| C14-C17 | `Cursor` with arbitrary hints | "a live leaf that passes the range test is the right leaf"; C17 is false on empty trees (uninitialised read): witness + partial |
| C18 | bulk_load / from_iter | layer-by-layer construction of the ghost tree |
| C19 | calls after bulk load | false (a lone child in the last chunk makes a later remove panic): witness + partial (inserts/reads always; removes when no layer has a lone last child; otherwise correct-or-panic), and the exact condition: right for every history iff no layer has a lone last child; for all other sizes removing the keys in descending order panics |
| C20-C22 | Count | stored augmentations are exact (C24) + arithmetic over the path |
| C23 | get_mut | simulation lemma |
| C24 | generic augmentation | invariant "stored = recomputed"; homomorphism law collapses it; the same invariant next to the order-free one (`Proofs/Sync`) for comparisons that answer anything |
| C25-C29 | GroupCount, ExtractGroupSize | group summaries; C26-C29 are false in general (stale counter in `from_leaf`, dropped accumulator in `fold_inner`): witnesses + partial |
| C30, C31 | BPlusTreeSet, MergeIterInner, Union | refinement to the map; merge state machine invariant |
| C32, C33 | clear, pairs of histories | corollaries of C01 |
| C34 | descend_visit with an arbitrary stateful visitor | induction on height |
| C35 | 64-slot arrays | slot-level refinement |
| C36 | drop accounting | values: books of a whole life balance, call by call (`Props/Ownership`). Keys and augmentations: the mutating functions are written again with a log of clones, makings and drops (`Model/Ledger`); any weight on keys and augmentations is conserved, so the multisets agree (`Props/Books`). Refuted: one augmentation is dropped twice per merge of inner nodes, and `into_iter` forgets the root augmentation; both counted exactly; a life of 4161 or more distinct keys, filled and emptied, does merge inner nodes (`Props/BooksMerge`). The same for lives that begin with a bulk load (`Props/Loads`) |
| C37 | store slots | part of the invariant |
| C38 | halving search | loop invariant |
| C39 | additive weights | as C20 with weights |
| C40 | Statistic | case analysis of the fix-up loop |
| C41 | get_by / remove_by / descents with an arbitrary user search | the search answer is an arbitrary function; induction on height |
| C42 | augmentation search as a multiset of duplicate keys | exactness of stored augmentations (C24) |
| C43 | the whole tree on raw arrays | simulation of the list model call by call, then the list theorems |
| C44 | clone on raw arrays | the clone is equal as a tree, its slots are the initialised ones |
| C45 | insertion, removal and lookups again, listing the memory at every call of user code (`Model/Crash`) | invariants of the half-done states: safe descents and leaf chain; the listing of crash points agrees with the separately written ledger of C36 (`C45_points`); false at two crash points: witnesses + partial; exactly what dropping does there, by following the chain of leaves to where it breaks (`Proofs/CrashExact`) |
| C46 | the tree with comparisons answered by an arbitrary adversary, search loops written out | order-free part of the invariant (`WF0`), for a new map and after a bulk load without a lone child (`Fresh`, `Verif/StartSpec.lean`); effect of each call on the item sequence; with lawful answers it is the main model (`C46_lawful`) |
| C47 | slots and nodes of the store | leaves: the invariant; inner nodes and slots: a history that leaks one of each per round, for any number of rounds; and the exact account of every history, by adding to the specifications of insert and remove how many nodes they add, free and leave (`Proofs/NodeCount`); the same account from bulk loads of any size (`Proofs/NodeCountBulk`) |
| C48 | the calls of C46 with comparisons counted (`Model/Count`), the traces of C45 | counted calls give the same results; bounds per search, per level, height bounded by the content |
| C49 | the calls of C46 with comparisons answered by the rank of the key | the calls commute with renaming keys (`Proofs/MapKeys*`), so ranks evolve as in the ordered model; with the effect on items from C46 this fixes the items; `bulk_load` commutes with renaming too (`Proofs/MapKeysBulk`) |
| C50 | `BPlusTreeMap` written out (`Model/Map`), histories mixing calls by key, index and rank; fused iterator | `InvA` preserved by every call, refinement of `Spec.mapRun`; from the exact iterator behaviour |
| C51 | the four queries of GroupCount, exactly | a leaf's summary is the right summary of the leaf with copies of its last group added (`inflate`); so all summaries are right for inflated leaves; `Verif/GroupSpec.lean` states the error without the code |
| C52 | `examples/date_statistic.rs` written out (`Model/Dates`) | the statistics are a homomorphism from lists of dates in order; induction on height for the visitor |
| C53 | every call of `from_leaf` and `from_inner` in the traced calls of C45 with its slice lengths (`Verif/CallbackSpec.lean`) | every traced store satisfies the size bounds at the node handed over; along the ghost steps of C46; for bulk loads the exact list of calls (`Spec.loadFolds`, `Verif/LoadSpec.lean`) by induction over the layers (`Proofs/BulkCalls`) |
| C54 | `bulk_load` with the answers of `==` as an argument (`Model/BulkLedger`); later calls as in C46 | the invariant of C46 with the minimum on the right spine as a parameter (0 after any load, 1 without a lone child) holds after the load and is kept by every call |
| C55 | `Model/Release`: every function with a `debug_assert!` or a subtraction that can wrap, written again as the release build runs it (suffix `R`) | `DebugAgree x y` (equal unless `x` panics) is a congruence for binds, branches and loops; key counts on the right spine (`T.spine`) through bulk load and removals of the last entry for the undefined behaviour |
| C56 | `Model/BulkCrash`: `bulk_load` written so that it lists, at each call of user code, what every local variable owns (`Wreck`); `Wreck.unwind` is what the destructors then do, with the unfinished inner node as an array of slots | induction over the loops: the items owned are a permutation of the data; the calls with a bad unwinding are counted exactly; what has been cloned or made so far is counted against what is owned (`Proofs/BulkTally`) |
| C57 | `Model/CloneCrash`: `clone` on the arrays of the nodes, listing at each call of user code what the copy consists of; `Clones.unwind` is what the destructors then do | induction over the loops, on trees that represent reachable ones: what has been built is, in order, what has been cloned |
| C58 | `Model/Reuse`: `BPlusTree::new` on any store; `Verif/ReuseSpec.lean`: no cursor of the older map | simulation of every call by the same call on the store without the old leaves (`Proofs/Reuse`), then the history theorem of C01; refuted in general by the cache hit |
| C59 | `Model/DropPanic`: `drop` of maps and owning iterators, `clear`, `Drop for InnerNode`, on the arrays, with the rules of unwinding (fields are still destroyed, a second panic aborts); `Verif/DropPanicSpec.lean` says which destructors run | the run with panics is computed from the plain one (C43) by induction over the loops; a panic inside `remove_slot_with_right` is refuted for every inner node of every reachable map; `Model/DropInsert` lists the destructors run by an insertion with the memory each sees, and the invariant of C45 for the ascending loop covers them (any comparisons, any history); `Model/DropRemove` does the same for a removal, where the memory at each destructor has the leaves and edges of one at which summary code runs (`Near` in `Proofs/DropRemove`), so the outcome at the crash points of C45 carries over; when no leaf is split or repaired the memory is that of the completed call up to augmentations (`Bare` in `Proofs/Aftermath`) |
| C60 | `Model/PublicNodes`: the safe public methods of leaves, inner nodes and the store on the arrays, with any arguments and any comparisons; `Verif/PublicSpec.lean` says for each call whether it answers, panics or is undefined behaviour, and what a careful caller observes | simulation call by call between the arrays and the specification (exact theorems); careful callers by induction over the calls; false without the conditions, with undefined behaviour for every type and every item |
| C61 | `bulk_load` with any answers of `==`; `Verif/ShapeSpec.lean`: the packed tree of a list | the loops of `bulk_load` build the ghost tree group by group (`Built`, `Proofs/Bulk`), which is the packed tree; uniqueness and the number of levels by induction over the packing |
| C62 | the traced calls of C45, followed by `get` on the map left in memory | comparisons: the memory is that before the call or after a lookup; summary code in calls that split and repair nothing: by induction over the ascent, the memory differs from the final one only in augmentations of inner nodes, which lookups do not read; lookups at every crash point: the descents stay inside the live leaves (`Down`) and the chain holds only items of the map; false when a leaf is split or repaired, with concrete histories |
| C63 | the three calls by a user's search, no condition on its answers; `Verif/SearchSpec.lean` says where a search ends on the nested tree that visitors see | exact outcome by induction over the descent; removal at a slot that does not exist never returns (all five fix-ups of the leaf read or remove that slot); false with undefined behaviour for a search in safe code. Because a call that returns always ended at an entry, the reachable maps of all other properties allow any search |
| C64 | the calls by a user's search, rank or visitor with the user code they call and the memory it runs in (`Model/SearchCrash`); which nodes are shown, on the nested tree (`Verif/QuerySpec.lean`) | exact trace by induction over the descent; the path to an item is unique, so a removal by search continues as the removal of the found key |
| C65 | the traced calls of C45 and C59, followed by `first`, `last` and any schedule of iterator calls on the map left in memory | no live leaf is empty and neighbours of live leaves are live, which the iterator keeps as an invariant of its two positions; forwards: simulation with the owning iterator, whose items are those of `drop`; false for the removal of the only item, for every history, and with a concrete one |
| C66 | the traced calls of C45 and C59, followed by any history of calls on the map left in memory, compared with the specification of C01 | the invariant of reachable maps does not mention the values of the augmentations, so the map left behind satisfies it once `len` is corrected; calls that only count `len` up or down commute with changing it; the step lemmas of C01 then give the whole history; calls that read `len` are compared with a specification that has a separate length field (LenSpec.lean); false when a removal empties the map, with a concrete crash |

## What is not modelled

* `COVERAGE.md` (made by `tools/coverage.py`) lists every function of `src` with the definitions whose
  comments cite its lines, and says why a function has none.
* `src/map.rs` (`BPlusTreeMap`) forwards each call to `BPlusTree` and is written out in `Model/Map`
  (C50); the other theorems are stated on `BPlusTree`.
* `NodeStore` is modelled for its only implementation, `NodeStoreVec`; `with_capacity` is `default`.
* `Debug`, `print`, `validate`, `*_vec`, and what is under `cfg(test)`.
* `statistic` is a field read; the counters are modelled (C40).
* Panics in the `Drop` of user types other than those of C59, in allocation, and in user closures other
  than those listed in `Model/Crash`, `Model/BulkCrash`, `Model/CloneCrash`, `Model/SearchCrash`,
  `Model/DropPanic`, `Model/DropInsert` and `Model/DropRemove`.
* `K: Borrow<Q>` with `Q` different from `K` in the main model; C49 covers it for maps that start empty or
  from a bulk load, C46 for arbitrary comparisons.

Not expressible here: memory reclamation by the allocator, actual weak-memory behaviour of `Relaxed`
beyond "returns some stored value", running time (calls of user code are counted, C48).
