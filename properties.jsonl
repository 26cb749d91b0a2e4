{"id": "C01", "title": "Map refinement over whole histories", "statement": "Starting from an empty map, any finite sequence of insert, remove, get, get_mut, first, last, len, is_empty, iter and clear calls returns, call by call, exactly what a plain sorted association list returns for the same sequence.", "quantifier": "every key type with a total order, every value type, every augmentation, every finite sequence of calls (of total length below 2^64)", "why_tests_cant": "Splits, borrows, merges and root growth/collapse depend on the whole history; a test fixes finitely many histories.", "anchors": ["src/tree/mod.rs::BPlusTree::insert", "src/tree/mod.rs::BPlusTree::get", "src/tree/tree_remove.rs::remove_impl", "src/map.rs::BPlusTreeMap"]}
{"id": "C02", "title": "insert: previous value, frame and lookup", "statement": "insert(k, v) returns the value previously stored under k (None if k was absent); afterwards get(k) is v, and get of every other key is unchanged.", "quantifier": "every reachable map, every key k, value v and every other key", "why_tests_cant": "The key may land in any leaf of any tree shape, including one that splits all the way to the root.", "anchors": ["src/tree/mod.rs::BPlusTree::insert", "src/tree/mod.rs::insert_inner", "src/tree/mod.rs::insert_leaf", "src/tree/leaf_node.rs::try_upsert", "src/tree/leaf_node.rs::split_new_leaf", "src/tree/inner_node.rs::split"]}
{"id": "C03", "title": "remove: returned value, frame and absence", "statement": "remove(k) returns the value stored under k (None and no change if k is absent); afterwards get(k) is None and get of every other key is unchanged.", "quantifier": "every map reachable from an empty one, or from a bulk load whose leaves group without a lone child (always so up to 4160 keys; C19 for the others), by inserts, removes and reads; every key", "why_tests_cant": "Removal may rotate or merge at every level; which one depends on sibling sizes along the path.", "anchors": ["src/tree/tree_remove.rs::remove_impl", "src/tree/tree_remove.rs::remove_by_ref", "src/tree/tree_remove.rs::handle_leaf_under_size", "src/tree/tree_remove.rs::handle_inner_under_size"]}
{"id": "C04", "title": "len and is_empty are exact", "statement": "len() is the number of distinct keys stored and is_empty() holds exactly when no key is stored.", "quantifier": "every reachable map (including bulk-loaded ones)", "why_tests_cant": "len is maintained incrementally and separately from the nodes; drift needs a particular history.", "anchors": ["src/tree/mod.rs::BPlusTree::len", "src/tree/mod.rs::BPlusTree::is_empty"]}
{"id": "C05", "title": "Forward iteration is the sorted content", "statement": "iter() driven with next() yields every stored pair exactly once in strictly ascending key order, then None on every further call; size_hint/len is the exact number of remaining items at every step.", "quantifier": "every reachable map and every number of next calls, including calls after exhaustion", "why_tests_cant": "Iteration follows leaf links maintained by every split and merge in the history.", "anchors": ["src/tree/iterator.rs::Iter", "src/tree/mod.rs::first_leaf"]}
{"id": "C06", "title": "Backward iteration is the reversed content", "statement": "iter() driven only with next_back() yields exactly the reverse of the forward order, then None on every further call.", "quantifier": "every reachable map and every number of next_back calls", "why_tests_cant": "Uses the prev links and the last leaf, both maintained across all structural changes.", "anchors": ["src/tree/iterator.rs::Iter::next_back", "src/tree/mod.rs::last_leaf"]}
{"id": "C07", "title": "Double-ended borrowed iterator: each item exactly once", "statement": "For any interleaving of next() and next_back() on iter(), each stored pair is yielded exactly once overall (front items from the front, back items from the back), and len()/size_hint is exact after each call.", "quantifier": "every reachable map and every finite word over {next, next_back}", "why_tests_cant": "The failure needs a mixed schedule of the two ends; there are 2^n schedules.", "anchors": ["src/tree/iterator.rs::Iter::next", "src/tree/iterator.rs::Iter::next_back", "src/tree/iterator.rs::Iter::size_hint"]}
{"id": "C08", "title": "Owning iterator: exactly-once under any interleaving", "statement": "into_iter() driven by any interleaving of next() and next_back() yields front items from the front and back items from the back of the sorted content, each exactly once, never reads an item's storage twice, then None forever; its len is exact at every step; dropping it midway visits exactly the not-yet-yielded items.", "quantifier": "every reachable map (including bulk-loaded), every finite word over {next, next_back}, every point at which it is dropped", "why_tests_cant": "Double reads would be double drops; only particular interleavings near the crossing point could trigger them.", "anchors": ["src/tree/iterator.rs::IntoIter", "src/tree/leaf_node.rs::take_data", "src/tree/mod.rs::into_parts"]}
{"id": "C09", "title": "first and last are minimum and maximum", "statement": "first() is the pair with the smallest key, last() the pair with the largest key; both are None exactly on an empty map.", "quantifier": "every reachable map (including bulk-loaded)", "why_tests_cant": "Depends on the outermost path of arbitrary tree shapes.", "anchors": ["src/tree/mod.rs::BPlusTree::first", "src/tree/mod.rs::BPlusTree::last"]}
{"id": "C10", "title": "Balance and node occupancy", "statement": "Every root-to-leaf descent visits the same number of inner nodes; every node visited has at most 64 keys; in maps built without bulk loading every non-root node has at least 16 keys and an inner root at least one.", "quantifier": "every reachable map and every choice of child at every level of descend_visit", "why_tests_cant": "A shape invariant must hold in all reachable shapes, not in sampled ones.", "anchors": ["src/tree/visit.rs::descend_visit", "src/tree/inner_node.rs::split", "src/tree/tree_remove.rs::merge_inner_node", "src/tree/consts.rs"]}
{"id": "C11", "title": "Bounded depth: the traversal stack never overflows", "statement": "A map holding fewer than 2^64 items never has more than 15 inner levels, so insert and remove never hit the fixed-capacity traversal stack's assertion.", "quantifier": "every reachable map with fewer than 2^64 items, including maps that started from bulk_load", "why_tests_cant": "Overflow would need astronomically many items; no test can build such a tree.", "anchors": ["src/tree/entry_ref.rs::VisitStack", "src/tree/consts.rs::MAX_DEPTH"]}
{"id": "C12", "title": "No panic, no undefined behaviour", "statement": "No sequence of insert, remove, get, get_mut, first, last, iter, into_iter, cursor and order-statistic calls on a map that started empty or was bulk loaded without a lone child panics, dereferences a freed or never-allocated node, or reads an uninitialised or out-of-range slot.", "quantifier": "every finite sequence of API calls from an empty map, or from a bulk load whose leaves group without a lone child (C19 for the others), all arguments (cursor_first/Cursor::last on an empty tree are C17)", "why_tests_cant": "The crate uses unchecked indexing everywhere; a bad access needs a rare structural coincidence.", "anchors": ["src/tree/node_stores/vec_backed.rs::get_inner", "src/tree/node_stores/vec_backed.rs::get_leaf", "src/tree/leaf_node.rs::data_at", "src/tree/inner_node.rs::child_id"]}
{"id": "C13", "title": "The leaf cache never affects results, under any concurrent schedule", "statement": "The result of get/get_mut does not depend on what earlier or concurrent reads left in the shared cached-leaf slot: for any interleaving of any number of concurrent get calls on a shared map, every call returns the value stored under its key.", "quantifier": "every reachable map, any number of readers with any key lists, every interleaving of their atomic cache loads and stores, every initial cache content", "why_tests_cant": "Interleavings of relaxed atomics cannot be enumerated by tests.", "anchors": ["src/tree/node_stores/vec_backed.rs::try_cache", "src/tree/node_stores/vec_backed.rs::cache_leaf", "src/tree/leaf_node.rs::in_range", "src/tree/mod.rs::BPlusTree::get"]}
{"id": "C14", "title": "Cursor::next from any cursor, however stale", "statement": "Cursor::next (and next_with_value) returns a cursor on the smallest stored key strictly greater than the cursor's key together with its current value, or None if there is none, no matter what happened to the tree since the cursor was created.", "quantifier": "every reachable tree and every cursor value: any key, any leaf hint, any offset hint (hence any history between creation and use)", "why_tests_cant": "Hints can be stale in unboundedly many ways (leaf split, merged, freed, key removed).", "anchors": ["src/tree/cursor.rs::next_with_value", "src/tree/cursor.rs::locate_leaf", "src/tree/leaf_node.rs::in_range"]}
{"id": "C15", "title": "Cursor::prev from any cursor, however stale", "statement": "Cursor::prev (and prev_with_value) returns a cursor on the largest stored key strictly smaller than the cursor's key together with its current value, or None if there is none, no matter what happened to the tree since the cursor was created.", "quantifier": "every reachable tree and every cursor value", "why_tests_cant": "As for next; moreover prev stores a leaf hint that belongs to the wrong leaf when it crosses a leaf boundary, which must be harmless.", "anchors": ["src/tree/cursor.rs::prev_with_value", "src/tree/cursor.rs::locate_leaf"]}
{"id": "C16", "title": "Cursor::value, exists and get_cursor read the current map", "statement": "Cursor::value is the value currently stored under the cursor's key (None if it was removed) and exists agrees; get_cursor(k) returns a cursor whose key is k together with the value currently stored under k, if any.", "quantifier": "every reachable tree, every cursor value, every key", "why_tests_cant": "Same staleness argument.", "anchors": ["src/tree/cursor.rs::value", "src/tree/cursor.rs::exists", "src/tree/mod.rs::get_cursor"]}
{"id": "C17", "title": "Cursor::first and Cursor::last", "statement": "cursor_first / Cursor::first return a cursor on the smallest key (with its value), Cursor::last on the largest, and None on an empty tree.", "quantifier": "every reachable tree, including empty ones", "why_tests_cant": "The empty tree still owns an empty leaf; the accessors use unchecked slot access on it.", "anchors": ["src/tree/cursor.rs::first", "src/tree/cursor.rs::last", "src/tree/mod.rs::cursor_first"]}
{"id": "C18", "title": "Bulk loading equals repeated insertion", "statement": "bulk_load of a key-sorted list, and from_iter of an arbitrary list, give a map with exactly the content obtained by inserting the pairs one by one in order: for duplicate keys the last pair wins; iteration, get, len, first, last and cursors agree.", "quantifier": "every list of pairs (sorted for bulk_load, arbitrary for from_iter), of any length", "why_tests_cant": "Layer building depends on the length modulo 64 and 65 at every level.", "anchors": ["src/tree/bulk_load.rs::bulk_load", "src/tree/bulk_load.rs::build_inner_layer", "src/tree/bulk_load.rs::DeDupKeepLast", "src/map.rs::from_iter"]}
{"id": "C19", "title": "Bulk-loaded maps support every later operation", "statement": "After from_iter/bulk_load, any sequence of later inserts, removes and reads behaves like the sorted association list, without panicking.", "quantifier": "every input list and every later sequence of calls", "why_tests_cant": "Only particular lengths (a lone child in the last chunk of a layer) give the shape that matters.", "anchors": ["src/tree/bulk_load.rs::build_inner_layer", "src/tree/tree_remove.rs::handle_leaf_under_size"]}
{"id": "C20", "title": "Order statistics: count and select", "statement": "With the Count augmentation, root_augmentation().count() equals len(), and get_by_augmentation(i) is the i-th pair in key order (None iff i >= len).", "quantifier": "every reachable map with Count (including bulk-loaded) and every index", "why_tests_cant": "Counts are maintained incrementally on every path of every operation.", "anchors": ["src/augment/count.rs::Count", "src/tree/mod.rs::get_ref_by_augmentation"]}
{"id": "C21", "title": "Order statistics: rank", "statement": "With Count, rank_by_augmentation(k) is Ok(number of keys < k) if k is stored and Err(number of keys < k) otherwise; it is inverse to select.", "quantifier": "every reachable map with Count and every key, stored or not", "why_tests_cant": "Wrong only for keys whose path passes a stale count.", "anchors": ["src/augment/count.rs::fold_inner", "src/augment/count.rs::fold_leaf", "src/tree/mod.rs::rank_by_augmentation"]}
{"id": "C22", "title": "Order statistics: positional removal and update", "statement": "With Count, remove_by_augmentation(i) removes and returns exactly the i-th pair (None and no change iff i >= len); get_mut_by_augmentation(i) gives access to exactly the i-th value and changes nothing else.", "quantifier": "every map with Count reachable from an empty one or from a bulk load whose leaves group without a lone child, every index, every update of the value", "why_tests_cant": "Same structural cases as remove, reached by position.", "anchors": ["src/tree/mod.rs::remove_by_augmentation", "src/tree/mod.rs::get_mut_by_augmentation"]}
{"id": "C23", "title": "get_mut changes one value only", "statement": "Updating a value through get_mut(k) changes the value stored under k and nothing else: keys, order, len, every other value and key-only augmentations stay the same; get_mut(k) is None iff k is absent.", "quantifier": "every reachable map, key and update function", "why_tests_cant": "The leaf is found through the cache or by descent in an arbitrary tree.", "anchors": ["src/tree/mod.rs::get_mut", "src/tree/mod.rs::find_in_leaf_mut"]}
{"id": "C24", "title": "Augmentations stay in sync", "statement": "For any user augmentation whose from_inner over children equals from_leaf over their concatenated content, root_augmentation() equals from_leaf of the whole current content after any sequence of inserts and removes (including value-overwriting inserts). The augmentation shown for every child at every level is the one of the child as it is now. None of this depends on what key comparisons answer.", "quantifier": "every such augmentation, every finite history from an empty map (and from bulk_load) without get_mut (with get_mut if the augmentation ignores values); also with arbitrary answers to every key comparison", "why_tests_cant": "Every structural path has to refresh every ancestor's stored augmentation.", "anchors": ["src/augment/mod.rs::Augmentation", "src/tree/mod.rs::new_augmentation_for_id", "src/tree/mod.rs::root_augmentation"]}
{"id": "C25", "title": "GroupCount: number of groups", "statement": "With GroupCount over a grouping that is monotone in the key order, root_augmentation().group_count() is the number of distinct groups among the stored keys.", "quantifier": "every reachable map with GroupCount, every monotone grouping", "why_tests_cant": "Groups may straddle any leaf or inner boundary of any shape.", "anchors": ["src/augment/group.rs::GroupCount::merge_with", "src/augment/group.rs::from_leaf", "src/augment/group.rs::group_count"]}
{"id": "C26", "title": "GroupCount: size of the largest group", "statement": "With GroupCount, root_augmentation().max_group() is the largest group present together with the number of stored keys in it (None iff empty).", "quantifier": "every reachable map with GroupCount, every monotone grouping", "why_tests_cant": "Depends on how many groups share one leaf.", "anchors": ["src/augment/group.rs::from_leaf", "src/augment/group.rs::max_group"]}
{"id": "C27", "title": "GroupCount: select inside a group", "statement": "With GroupCount, get_by_augmentation((g, i)) is the i-th pair (in key order) among those whose group is g, and None iff the group has at most i members.", "quantifier": "every reachable map with GroupCount, every group (present or not) and offset", "why_tests_cant": "Depends on stored per-child counts along the path.", "anchors": ["src/augment/group.rs::locate_in_inner", "src/augment/group.rs::locate_in_leaf"]}
{"id": "C28", "title": "GroupCount: rank inside a group", "statement": "With GroupCount, rank_by_augmentation(k) is Ok or Err (k stored or not) of (group of k, number of stored keys of that group smaller than k).", "quantifier": "every reachable map with GroupCount and every key", "why_tests_cant": "Wrong only in trees with at least two inner levels, out of reach of the project's tests.", "anchors": ["src/augment/group.rs::fold_inner", "src/augment/group.rs::fold_leaf"]}
{"id": "C29", "title": "GroupCount: group size visitor", "statement": "descend_visit(ExtractGroupSize::new(g)) returns Some(number of stored keys whose group is g).", "quantifier": "every reachable map with GroupCount and every group", "why_tests_cant": "Depends on stored per-child counts along the path.", "anchors": ["src/augment/group.rs::visit::ExtractGroupSize"]}
{"id": "C30", "title": "Set semantics", "statement": "BPlusTreeSet insert returns true iff the key was absent, remove returns true iff it was present, contains/len/first/last/iter/into_iter/clear agree with the mathematical set built by the same calls; from_iter builds the set of its items.", "quantifier": "every finite sequence of set calls from an empty set", "why_tests_cant": "Same structural cases as the map.", "anchors": ["src/set.rs::BPlusTreeSet"]}
{"id": "C31", "title": "Set union", "statement": "a.union(&b) yields exactly the elements of the union, each once, in ascending order, then None; at every step its size_hint brackets the true number of remaining items, min() gives the least element left, and a clone goes on like the original.", "quantifier": "every pair of reachable sets and every number of next calls", "why_tests_cant": "The merge state machine has a peeked element whose handling depends on the interleaving of the two key sequences.", "anchors": ["src/merge_iter.rs::MergeIterInner::nexts", "src/set.rs::union", "src/set.rs::iter::Union"]}
{"id": "C32", "title": "clear", "statement": "After clear() the map is empty (len 0, first/last/get None, iteration empty) and can be used like a new one.", "quantifier": "every reachable map and every later history", "why_tests_cant": "Covers all prior histories.", "anchors": ["src/tree/mod.rs::clear"]}
{"id": "C33", "title": "History independence", "statement": "Two histories that end with the same set of key-value pairs are indistinguishable by get, len, first, last, iteration, cursor movement, count, select and rank.", "quantifier": "every pair of finite histories with equal final content", "why_tests_cant": "Quantifies over pairs of unbounded histories (different tree shapes).", "anchors": ["src/tree/mod.rs::BPlusTree"]}
{"id": "C34", "title": "descend_visit follows the visitor", "statement": "descend_visit shows the visitor one node per level from the root, with the node's keys and augmentations, follows exactly the child index it returns, stops at Cancel with None and at Complete(r) with Some(r), always terminates, and panics only if the visitor returns an index greater than the number of keys.", "quantifier": "every reachable tree and every visitor, including stateful and adversarial ones", "why_tests_cant": "Quantifies over all visitors.", "anchors": ["src/tree/visit.rs::descend_visit"]}
{"id": "C35", "title": "Node storage: in-bounds, initialised, nothing lost", "statement": "Every node-level move (insert into a slot, erase, split, borrow, merge, push, pop) on the fixed 64-slot arrays touches only in-range slots, reads only initialised slots, and leaves exactly the expected sequence in the initialised prefix.", "quantifier": "every node content of every admissible size and every admissible index", "why_tests_cant": "Off-by-one slot errors only show up for particular sizes and indices, and then as memory corruption.", "anchors": ["src/tree/slice_utils.rs", "src/tree/leaf_node.rs", "src/tree/inner_node.rs"]}
{"id": "C36", "title": "Ownership: every value and augmentation is dropped or returned exactly once", "statement": "Every inserted value is, over the life of the map, either handed back to the caller exactly once or dropped exactly once; the same holds for keys and for augmentation values owned by nodes.", "quantifier": "every history including merges, root collapse, clear, drop and partial consumption of into_iter", "why_tests_cant": "Double drops and leaks depend on which merges the history performs.", "anchors": ["src/tree/mod.rs::Drop", "src/tree/inner_node.rs::Drop", "src/tree/inner_node.rs::merge_next", "src/tree/iterator.rs::IntoIter::drop"]}
{"id": "C37", "title": "Freed leaves are really freed, live leaves are reachable", "statement": "A leaf that was merged away is never reached again through the tree, the leaf links, the cache or a cursor hint, and every leaf still held by the store belongs to the current tree.", "quantifier": "every reachable tree", "why_tests_cant": "A dangling link needs a specific merge next to a specific neighbour.", "anchors": ["src/tree/node_stores/vec_backed.rs::take_leaf", "src/tree/tree_remove.rs::merge_leaf_node_left", "src/tree/tree_remove.rs::merge_leaf_node_with_right"]}
{"id": "C38", "title": "Binary search agrees with the linear specification", "statement": "On strictly increasing keys the halving search used to locate a slot returns Ok(i) iff the i-th key equals the query and Err(i) with i the number of smaller keys otherwise.", "quantifier": "every strictly increasing key list and every query", "why_tests_cant": "Off-by-one errors depend on list length and query position.", "anchors": ["src/tree/leaf_node.rs::locate_slot", "src/tree/inner_node.rs::locate_child"]}
{"id": "C39", "title": "Weighted selection for custom augmentations", "statement": "For an additive weight augmentation (each pair has a natural-number weight, nodes store the sum), the search of the shipped examples finds the pair that covers the given offset of the cumulative weight, and None iff the offset is at least the total.", "quantifier": "every reachable map, every weight function of key and value, every offset", "why_tests_cant": "Needs all stored sums on the path to be right.", "anchors": ["examples/augment_even_count.rs", "examples/duplicate_key.rs", "src/tree/mod.rs::get_by_augmentation"]}
{"id": "C40", "title": "Rebalancing statistics", "statement": "Each removal performs at most one leaf-level fix and none if nothing is removed; the statistic counters never decrease on a removal, start at zero after clear, and are changed by no other call.", "quantifier": "every reachable tree and every call", "why_tests_cant": "Quantifies over all histories.", "anchors": ["src/tree/mod.rs::Statistic", "src/tree/tree_remove.rs::handle_leaf_under_size"]}
{"id": "C41", "title": "Arbitrary user searches are safe", "statement": "For any search augmentation that respects the bounds of the slices it is given, get_by_augmentation returns None or an entry of the map, remove_by_augmentation removes exactly that entry and get_mut_by_augmentation gives access to exactly that entry's value; nothing else changes.", "quantifier": "every reachable map, every in-range search augmentation (even a nonsensical one) and every query", "why_tests_cant": "Quantifies over all user implementations of a trait.", "anchors": ["src/tree/mod.rs::get_ref_by_augmentation", "src/tree/mod.rs::remove_by_augmentation", "src/tree/mod.rs::get_mut_by_augmentation", "src/augment/mod.rs::SearchAugmentation"]}
{"id": "C42", "title": "Duplicate keys through an augmentation", "statement": "The multiset of examples/duplicate_key.rs (a map from keys to repetition counts with an augmentation summing them) behaves as a sorted multiset: its length is the number of insertions minus successful deletions and selection by position is selection in the sorted multiset.", "quantifier": "every sequence of insertions and deletions and every position", "why_tests_cant": "The example asserts three values of one multiset.", "anchors": ["examples/duplicate_key.rs"]}
{"id": "C43", "title": "The whole API never touches uninitialised memory and still behaves as a sorted map", "statement": "With nodes represented as fixed arrays of slots that are initialised or not, every call of a history (insert, remove, get, get_mut, iteration, cursors, searches by augmentation, clear, bulk loading, consuming and dropping the tree) reads, moves and overwrites initialised slots only, stays inside the arrays, never panics, and answers as a sorted association list does; when a tree is consumed or dropped every item is moved out or destroyed exactly once.", "quantifier": "every finite history, every key and value type, every augmentation whose destruction is a no-op (see C36 for the others), every schedule of the owning iterator", "why_tests_cant": "Undefined behaviour may go unnoticed in any number of runs; the claim is about all histories and all tree shapes.", "anchors": ["src/tree/leaf_node.rs", "src/tree/inner_node.rs", "src/tree/mod.rs", "src/tree/tree_remove.rs", "src/tree/iterator.rs", "src/tree/bulk_load.rs", "src/tree/node_stores/vec_backed.rs"]}
{"id": "C44", "title": "Clone", "statement": "Cloning a map succeeds, the clone has the same content, length and root augmentation, and from then on the clone and the original answer any calls as two independent maps with that content.", "quantifier": "every reachable map and every pair of later histories", "why_tests_cant": "Clone copies partially initialised arrays and node ids; a mistake may only show in a later call on a particular shape.", "anchors": ["src/tree/node_stores/vec_backed.rs::NodeStoreVec", "src/tree/leaf_node.rs::Clone", "src/tree/inner_node.rs::Clone", "src/tree/mod.rs::BPlusTree"]}
{"id": "C45", "title": "Panicking user code leaves a map that is safe to drop", "statement": "If a key comparison, Clone of a key, or the augmentation's from_leaf/from_inner panics in the middle of a call and the panic is caught, the map can still be dropped without undefined behaviour, no item being dropped twice; after a panicking comparison, or any panic in a call other than insert and remove, the map still holds exactly the items it held before and all later calls behave as usual.", "quantifier": "every finite history of calls on a new map or one bulk-loaded without a lone child (any data, any answers of ==), every next call, every point of that call at which user code runs, every answer of the comparisons", "why_tests_cant": "The crash point ranges over every call of user code inside every fix-up of every reachable tree; the harm (use of a freed or half-linked node) only shows when the map is dropped later.", "anchors": ["src/tree/mod.rs::insert_leaf", "src/tree/mod.rs::insert", "src/tree/mod.rs::Drop", "src/tree/tree_remove.rs::remove_by_ref", "src/tree/tree_remove.rs::merge_leaf_node_left", "src/tree/tree_remove.rs::merge_leaf_node_with_right", "src/tree/iterator.rs::IntoIter"]}
{"id": "C46", "title": "An inconsistent ordering of the keys is safe", "statement": "Whatever the key comparisons answer, consistent or not and possibly differently each time, no call panics, runs forever or has undefined behaviour; an insertion adds its item or replaces the value of one item, a removal removes at most one item and returns its value, lookups and cursors return an item that is there, nothing else changes or is lost; and len, dropping the map and consuming it account for exactly the items present. If the comparisons are those of a linear order, all answers are those of a sorted map. The tree keeps its shape too: all leaves at one depth, at most 15 inner levels, node sizes within bounds.", "quantifier": "every finite history of calls on a new map or one bulk-loaded without a lone child (any data, any answers of ==), every answer of every single comparison, both known search loops of slice::binary_search", "why_tests_cant": "The space of inconsistent comparison functions is unbounded; the type system lets safe code provide any of them.", "anchors": ["src/tree/mod.rs::insert", "src/tree/mod.rs::get", "src/tree/tree_remove.rs::remove", "src/tree/leaf_node.rs::locate_slot", "src/tree/inner_node.rs::locate_child", "src/tree/cursor.rs", "src/tree/node_stores/vec_backed.rs::try_cache"]}
{"id": "C47", "title": "Memory is bounded by the content", "statement": "The memory a map keeps (allocated nodes and the tables that hold them) is bounded by a function of the largest number of entries it ever held; in particular, filling and emptying a map over and over does not make it grow.", "quantifier": "every finite history of calls and every bound on the number of entries held at a time", "why_tests_cant": "A leak of one node per cycle is invisible in a test of a few calls; the bound ranges over histories of any length.", "anchors": ["src/tree/node_stores/vec_backed.rs::reserve_leaf", "src/tree/node_stores/vec_backed.rs::add_inner", "src/tree/node_stores/vec_backed.rs::take_leaf", "src/tree/tree_remove.rs::remove_by_ref"]}
{"id": "C48", "title": "The amount of user code a call runs is logarithmic in the content", "statement": "Whatever the key comparisons answer, a call (insert, remove, get, get_mut, a cursor step or read) on a map with n items compares keys at most 19 + 7*log17(n/16) times and makes at most 6 + 2*log17(n/16) other calls of user code (copies of a key, summaries of a node); with a lawful order, looking a found key up again makes at most 9 comparisons, and each step of a cursor walking forward at most 3, however large the map is.", "quantifier": "every finite history of calls on a new map or one bulk-loaded without a lone child (any data, any answers of ==), every next call, every answer of every comparison, both known search loops of slice::binary_search; for the last two, every reachable or bulk-loaded map and every length of walk", "why_tests_cant": "Timing and call counts of a few runs say nothing about the worst history; the bound ranges over all histories and all tree heights.", "anchors": ["src/tree/mod.rs::insert", "src/tree/mod.rs::get", "src/tree/mod.rs::key_to_ref", "src/tree/leaf_node.rs::in_range", "src/tree/leaf_node.rs::locate_slot", "src/tree/inner_node.rs::locate_child", "src/tree/node_stores/vec_backed.rs::try_cache", "src/tree/cursor.rs::next_with_value", "src/tree/tree_remove.rs::remove_by_ref"]}
{"id": "C49", "title": "Keys that compare equal but differ: the stored key stays, lookups go by rank", "statement": "When keys are ordered by a rank that does not see all of the key (a case-insensitive name, a record with an id), inserting a key of the same rank as a stored one replaces only the value and keeps the stored key; get, get_mut and remove, given any borrowed form of the key, act on the item of that rank; first, last, iteration and cursors show the keys that were stored; at the end drop and into_iter account for exactly the items of that history. bulk_load of data in rank order and FromIterator keep, of the items of one rank, the last one with its own key.", "quantifier": "every key type, every rank into a linear order, every finite history of calls on a new or bulk-loaded map (no lone child, see C19), every input of bulk_load in rank order and of FromIterator, both known search loops of slice::binary_search, every augmentation", "why_tests_cant": "Tests use integer keys, for which equal means identical; which of two equal keys survives splits, rotations and merges ranges over all histories.", "anchors": ["src/tree/mod.rs::insert", "src/tree/mod.rs::get", "src/tree/mod.rs::get_mut", "src/tree/mod.rs::remove", "src/tree/leaf_node.rs::try_upsert", "src/tree/cursor.rs::next_with_value", "src/map.rs::insert", "src/tree/bulk_load.rs::bulk_load", "src/map.rs::from_iter"]}
{"id": "C50", "title": "The public map type under mixed histories; fused iterators", "statement": "A BPlusTreeMap with the Count augmentation, new or collected from items, answers every history that freely mixes insert, remove, get, get_mut, len, is_empty, iter, root_augmentation, get_by_augmentation, get_mut_by_augmentation, remove_by_augmentation and rank_by_augmentation like one sorted list of entries. Its iter() keeps the promise of FusedIterator: once next has returned None, every later call returns None, whatever was read from the back before, and len() of the iterator never panics.", "quantifier": "all key and value types, all histories of calls, all start items of an unaffected size (C19), all interleavings of next and next_back", "why_tests_cant": "A removal by index in one place changes ranks, counts and indices everywhere else; the property is about every order of such calls, and a fused iterator must stay at None for ever.", "anchors": ["src/map.rs: BPlusTreeMap, FromIterator, iter::Iter", "src/tree/mod.rs: get_by_augmentation, remove_by_augmentation, rank_by_augmentation", "src/tree/iterator.rs: Iter"]}
{"id": "C51", "title": "What the group augmentation answers, exactly", "statement": "For a monotone grouping, in every map: call the home leaf of a group the leaf in which it begins, and its surplus the number of entries of that leaf in groups strictly between the group of the leaf's first entry and the group, not counting one entry of each. max_group() reports the group of the largest key with its size plus its surplus. Selecting (g, i) finds the members in the home leaf, then nothing for surplus many indices, then the remaining members; all selections are right if and only if the surplus is 0 or the group lies in one leaf. ExtractGroupSize returns the size plus the surplus if some leaf but the last ends inside the group, and the size otherwise. rank_by_augmentation counts the members, and the surplus, of those leaves on the left that the descent still remembers (a node left through its first child makes it forget), plus the smaller members in the key's own leaf. The surplus is at most 61, and 61 occurs.", "quantifier": "all key, value and group types, all monotone groupings, all reachable maps (bulk-loaded or not), all groups, indices and keys", "why_tests_cant": "The answers depend on where the leaves end, hence on the whole history; only a proof gives the exact error for every content and shape.", "anchors": ["src/augment/group.rs: GroupCount::from_leaf, from_inner, locate_in_inner, locate_in_leaf, fold_inner, fold_leaf, ExtractGroupSize", "src/tree/mod.rs: get_by_augmentation, rank_by_augmentation, descend_visit, root_augmentation"]}
{"id": "C52", "title": "The date statistics of the example", "statement": "In a map keyed by dates with the DateStatistic augmentation of the repository's example: root_augmentation() is the first and the last date of the map, each with the number of entries in its year, in its month and on its day; the CountForYear visitor returns the number of entries of the given year and never reaches its unreachable!().", "quantifier": "all value types, all reachable nonempty maps of dates, bulk-loaded or not, all years", "why_tests_cant": "The counters of the outermost dates are merged along every split, rotation and merge; the visitor skips whole subtrees on the strength of them, and stops early, so its answer depends on the shape of the tree.", "anchors": ["examples/date_statistic.rs: Date, DateStatistic, CountForYear", "src/tree/mod.rs: descend_visit, root_augmentation"]}
{"id": "C53", "title": "What a user's augmentation is given", "statement": "Every time a call on a map runs the user's Augmentation::from_leaf, it gets between 1 and 64 entries; every time it runs from_inner, it gets between 1 and 64 keys and exactly one more augmentation than keys. There is one exception, and it always happens: a removal that takes out the only entry of the map calls from_leaf with empty slices. If from_leaf panics on them (as that of the repository's date example does), a map stays behind that reports one entry and panics when it is dropped. In bulk_load the calls, in order, are: from_leaf once per leaf with 64 entries each and the rest in the last, then level by level from_inner with 64 keys and 65 augmentations each and the rest in the last, and at the end once more the call for the root; a lone child left over gives from_inner no key and one augmentation, the second exception.", "quantifier": "all key, value and augmentation types, all histories of calls from an empty map or one bulk-loaded without a lone child, all answers of the key comparison, all calls; all bulk loads of fewer than 2^64 items", "why_tests_cant": "The augmentation is user code that may index or unwrap its slices; the sizes it is given depend on every split, rotation and merge along the history.", "anchors": ["src/augment/mod.rs: Augmentation::from_leaf, from_inner", "src/tree/mod.rs: insert, new_augmentation_for_id", "src/tree/tree_remove.rs: remove_by_ref and the rotate and merge functions", "examples/date_statistic.rs: DateStatistic::from_leaf", "src/tree/bulk_load.rs: bulk_load, build_inner_layer"]}
{"id": "C54", "title": "Bulk loads of unsorted data or with an inconsistent ==", "statement": "bulk_load asks for sorted data but does not check it. Whatever the order of its data and whatever == answers when it compares neighbours, it succeeds; the map then holds, in their order, exactly the items that are not followed by one that == called equal, and the last item is always among them. Whatever the comparisons answer afterwards, every call has one of its listed effects on the sequence of items, up to a removal that panics if there is one; until then len, drop and into_iter account for exactly the items left. No call reads or writes memory it should not, and none runs forever. No removal panics if the leaves group without a lone child, for example when at most 4160 items are kept. The same goes for from_iter, whatever an inconsistent order makes of its sort.", "quantifier": "all key, value and augmentation types, all data of fewer than 2^64 items in any order, all answers of == (also inconsistent ones), all histories of calls with any answers of the comparisons", "why_tests_cant": "Misuse of this kind has no expected output to compare with; that memory stays intact has to hold for every order of the data, every answer and every later history.", "anchors": ["src/tree/bulk_load.rs: bulk_load, build_inner_layer, DeDupKeepLast", "src/map.rs: FromIterator", "src/tree/mod.rs: new_from_parts"]}
{"id": "C55", "title": "Release builds", "statement": "In a release build debug assertions are off and arithmetic wraps around. Any sequence of calls that does not panic in a debug build gives the same answers and the same map in a release build. So every history from an empty map succeeds, whatever the comparisons answer, and len, drop and into_iter account for exactly the items left; likewise after a bulk load whose leaves group without a lone child. After any other bulk load this can fail: the release build does what the debug build does up to a removal that panics in the debug build; that removal then panics in the release build as well, or reads a child that was never written.", "quantifier": "all key, value and augmentation types, all trees, all histories of calls, all answers of the comparisons and of ==", "why_tests_cant": "cargo test runs with debug assertions. Code that is kept safe only by a debug_assert! passes every test and is undefined behaviour for the users of the release build; showing that no history gets there needs all histories.", "anchors": ["src/tree/slice_utils.rs: slice_insert, slice_remove", "src/tree/leaf_node.rs, src/tree/inner_node.rs: debug_assert! in every operation", "src/tree/tree_remove.rs: merge_inner_node, handle_leaf_under_size", "src/tree/bulk_load.rs: build_inner_layer"]}
{"id": "C56", "title": "A panic of user code during a bulk load", "statement": "Wherever a call of user code (==, K::clone, A::clone, from_leaf, from_inner) panics inside bulk_load or from_iter, every item of the data is in exactly one place: destroyed because the next item had the same key, still in the iterator, or in a leaf. No item is dropped twice: unwinding drops the items still in the iterator and leaks those in leaves. Unwinding is not undefined behaviour and does not panic. The number of calls of == is one less than the number of items, and A::clone is called once per node below the root.", "quantifier": "all key, value and augmentation types, all data of fewer than 2^64 items in any order, all answers of ==, all calls of user code inside bulk_load as crash points", "why_tests_cant": "Every call of user code is a crash point, and a load of n items has more than n of them, each with another division of the items among iterator, leaf and store.", "anchors": ["src/tree/bulk_load.rs: bulk_load, build_inner_layer, DeDupKeepLast", "src/tree/leaf_node.rs: set_data, key_range", "src/tree/inner_node.rs: new_from_iter, Drop for InnerNode", "src/tree/mod.rs: new_from_parts"]}
{"id": "C57", "title": "Panics while a map is cloned", "statement": "clone() of a map calls Clone once for each value and each key of the map, for some further keys, and for augmentations: one, plus for each inner node one more than it has separator keys. If any of these calls panics, unwinding has no undefined behaviour and no second panic, and nothing is dropped twice: the clones made so far are exactly those dropped by the unwinding and those leaked; the cloned values are all leaked.", "quantifier": "every map reachable by any history of calls from an empty map or from a bulk load whose leaves group without a lone child, and every call of user code made by clone()", "why_tests_cant": "the panic can come at any of the calls, on a tree of any shape; a double drop or a read of an unwritten slot during unwinding need not be visible", "anchors": ["src/tree/mod.rs: BPlusTree (derive Clone)", "src/tree/node_stores/vec_backed.rs: Clone for NodeStoreVec", "src/tree/leaf_node.rs: Clone for LeafNode", "src/tree/inner_node.rs: Clone for InnerNode, Drop for InnerNode"]}
{"id": "C58", "title": "A new tree on a used store", "statement": "BPlusTree::new(store) is an empty map whatever nodes the store holds, for example when the store is a clone of another tree's node_store(): every history of calls on it answers like an empty map, and dropping it destroys the entries inserted into it and nothing else.", "quantifier": "all key, value and augmentation types, all stores, all histories of calls", "why_tests_cant": "The store carries hidden state (leaves, free slots, the remembered leaf) that the new tree inherits; every later call must be checked against every such state.", "anchors": ["src/tree/mod.rs: BPlusTree::new, node_store, get, get_mut", "src/tree/node_stores/vec_backed.rs: NodeStoreVec (Clone), try_cache, cached_leaf", "src/tree/cursor.rs: locate_leaf"]}
{"id": "C59", "title": "Destructors that panic", "statement": "A destructor of a key, a value or an augmentation that panics while a map or an owning iterator is dropped, while a map is cleared, or inside an insertion or a removal causes no undefined behaviour: nothing is destroyed twice. drop destroys the items in key order up to and including the first one with a panicking destructor and leaks the other items; then it destroys the rest of what it owns. clear leaves an empty map in every case. After a panic inside an insertion, dropping the map drops the items of the completed insertion except possibly the last, and lookups are safe and never answer a value that is not there. After a panic inside a removal, the removal is complete or dropping the map panics, and lookups are safe and answer only values the map had. If the insertion splits no leaf, or the removal moves and merges nothing, get answers for every key as after the completed call, whichever destructor panicked.", "quantifier": "every map reachable by any history of calls from an empty map or from a bulk load whose leaves group without a lone child, every sequence of calls on the owning iterator before it is dropped, and every choice of the destructors that panic", "why_tests_cant": "the panic can come from any of the objects, on a tree of any shape, and a double drop need not be visible", "anchors": ["src/tree/iterator.rs: Drop for IntoIter", "src/tree/mod.rs: Drop for BPlusTree, clear", "src/tree/inner_node.rs: Drop for InnerNode, remove_slot_with_right", "src/tree/tree_remove.rs: remove_by_ref and the functions it calls", "src/tree/mod.rs: insert_inner, insert_leaf, remove"]}
{"id": "C60", "title": "Safe methods of the exported node types", "statement": "LeafNode, InnerNode and NodeStoreVec are exported, so a program without unsafe code can call their public safe methods with any arguments and in any order: every such sequence of calls is answered or panics (the store's get_inner and get_leaf are documented to panic for an id that is not there), and a node that is dropped destroys each of its keys and augmentations once. None of it is undefined behaviour.", "quantifier": "every sequence of calls with every argument, on a leaf from new(), an inner node from new_from_iter with any iterators, and a store from new(); every order and every binary search that answers an index within the slice", "why_tests_cant": "the reads of uninitialised slots depend on the exact sequence of calls and indices, and usually return plausible garbage", "anchors": ["src/tree/leaf_node.rs: new, set_data, data_at, try_data_at, value_at_mut, keys, values, in_range, key_range, locate_slot", "src/tree/inner_node.rs: new_from_iter, push, key, locate_child, clone, Drop", "src/tree/node_stores/vec_backed.rs: get_inner, get_leaf, take_leaf, assign_leaf, try_cache", "src/tree/mod.rs: NodeStore"]}
{"id": "C61", "title": "The shape of a bulk-loaded map", "statement": "bulk_load (and FromIterator) makes the one packed tree of the items it keeps: leaves of 64 items, inner nodes of 65 children, remainders only in the last node of each level, between two children the first key of the right one, and each child's current augmentation. Two loads that keep the same items cannot be told apart by any descend_visit visitor, and no map with as many items has fewer levels.", "quantifier": "every input of every length in any order, every behaviour of ==, every augmentation, every visitor", "why_tests_cant": "the remainders at every level depend on the exact length; a wrong separator or a node one short shows only at particular lengths", "anchors": ["src/tree/bulk_load.rs: bulk_load, build_inner_layer", "src/tree/visit.rs: DescendVisit", "examples/visit_depth.rs"]}
{"id": "C62", "title": "What lookups see after a caught panic of user code", "statement": "If a comparison panics during any call, or any user code panics during a call other than insert or remove, and the caller catches the panic, then get answers for every key and len are as if the call had not been made. If from_leaf or from_inner panics during an insert or remove, get answers for every key as after the completed call (and len is the old one). In any case lookups after such a panic run without a fault and never give a wrong value: each answers None or the value of an item of the map. The completeness half is false: when the insertion splits a leaf, or the removal takes an item from a neighbouring leaf, keys the call does not mention are no longer found.", "quantifier": "every reachable map (also from bulk_load), every call with any arguments, every piece of user code it calls at any depth of the tree, both search loops of the standard library", "why_tests_cant": "the crash points of a call depend on the shape of the whole path from root to leaf; the keys that become invisible depend on which nodes are split or repaired", "anchors": ["src/tree/mod.rs: BPlusTree::insert, insert_leaf, insert_inner, get", "src/tree/tree_remove.rs: remove_by_ref, rotate_left_for_leaf", "src/augment/mod.rs: Augmentation::from_leaf, from_inner"]}
{"id": "C63", "title": "Searches with arbitrary answers", "statement": "Whatever a user's SearchAugmentation (a safe trait) answers, get_by_augmentation, get_mut_by_augmentation and remove_by_augmentation are safe: they answer None, act on exactly the entry the search ends at, or panic. The last part is false: a search that answers a child index or a slot its slices do not have makes get_by_augmentation and get_mut_by_augmentation undefined behaviour, already on the empty map. The rest holds exactly: the calls return iff the search gives up or ends at an existing entry, and then return that entry, update exactly its value, or remove exactly it; a call that returns leaves a good map whatever the search did on the way.", "quantifier": "every reachable map (also from bulk_load), every search written by the user, with any answers, every query and update function", "why_tests_cant": "a test tries a few searches; the claim is about every function a user can write in safe code, at every depth of the tree", "anchors": ["src/augment/mod.rs: SearchAugmentation", "src/tree/mod.rs: get_by_augmentation, get_mut_by_augmentation, remove_by_augmentation, get_ref_by_augmentation"]}
{"id": "C64", "title": "Panics in a user's search, rank or visitor", "statement": "get_by_augmentation, get_mut_by_augmentation, rank_by_augmentation and descend_visit show the user's code each node on the way from the root to a leaf exactly once, with all keys and all augmentations or values of that node (for ranks: the augmentations left of the key), whatever the code answers; if any of these calls panics and the caller catches the panic, the map is exactly the map before the call. remove_by_augmentation makes the calls of its search first, on the unchanged map, and after that exactly the calls of user code, in the same memory states, that remove of the found key makes after its comparisons; so a panic there has the same consequences as a panic in remove.", "quantifier": "every reachable map (also from bulk_load), every search, rank augmentation and visitor a user can write, with any answers and at any query or key, every call of user code at any depth", "why_tests_cant": "the calls depend on the user's answers and on the shape of the whole path; a test fixes one search, one panic position and one tree", "anchors": ["src/tree/mod.rs: get_ref_by_augmentation, get_by_augmentation, get_mut_by_augmentation, rank_by_augmentation, remove_by_augmentation", "src/tree/visit.rs: descend_visit", "src/augment/mod.rs: SearchAugmentation, RankAugmentation"]}
{"id": "C65", "title": "Iterators, first and last after a caught panic", "statement": "After a panic in summary code (from_leaf, from_inner) or in a destructor inside an insertion or a removal, caught by the caller, first, last and any schedule of next and next_back calls on iter() are safe on the map left behind and give only items of the map: after an insertion the items of the completed insertion, in order, where the last one is missing if a new item was added; after a removal only items the map had before. For removals this is false of the code in two cases: while two leaves are merged (see C45 and C59), and when the only item of the map is removed: len is then still 1 while the only leaf is empty, so first and next read a slot without an item (undefined behaviour) and last overflows.", "quantifier": "every history of calls with any comparisons (also starting from bulk_load with evenly grouped leaves), every crash point in summary code or a destructor, every schedule of iterator calls of any length", "why_tests_cant": "the crash point can be at any depth of the tree and the iteration can follow any schedule; a test fixes one of each", "anchors": ["src/tree/iterator.rs: Iter::new, Iter::next, Iter::next_back", "src/tree/mod.rs: BPlusTree::first, BPlusTree::last, BPlusTree::insert", "src/tree/tree_remove.rs: remove_impl"]}
{"id": "C66", "title": "Calls after a caught panic", "statement": "After a caught panic of user code the map can go on being used. A panic in a comparison is, for every later history of calls, as if the call had not been made. A panic in summary code (from_leaf, from_inner) or in a destructor while insert replaces the value of a key is, for every later history, as if the insertion had been completed. If insert adds a key, or remove takes one out, later insertions, removals, get, get_mut and cursor calls answer as after the completed call, although len stays off by one until the map is cleared; len, is_empty, first, last and iterators answer as a map with the completed content and that wrong length. All this holds for any number of such panics, with calls in between; len is then off by at most the number of interrupted insertions and removals. For added keys this is false of the code when a later removal empties the map: len is then already 0 and the removal panics. It is also false when the interrupted call split a leaf or repaired an underfull node (see C59 and C62).", "quantifier": "every reachable map (also after bulk_load with evenly grouped leaves), every crash point in a comparison, summary code or a destructor, every later history of calls of any length", "why_tests_cant": "the damage of a crash shows only in later calls, at any distance; a test fixes one crash point and one later history", "anchors": ["src/tree/mod.rs: BPlusTree::insert, insert_inner, insert_leaf, get, get_mut", "src/tree/tree_remove.rs: remove_impl, remove_by_ref", "src/tree/cursor.rs: Cursor::next_with_value, Cursor::prev_with_value, Cursor::value"]}
