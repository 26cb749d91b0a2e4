{
 "claims": [
  {
   "property": "C01",
   "status": "proved",
   "theorems": [
    "Bpt.C01_history_refines"
   ],
   "note": ""
  },
  {
   "property": "C02",
   "status": "proved",
   "theorems": [
    "Bpt.C02_insert"
   ],
   "note": ""
  },
  {
   "property": "C03",
   "status": "proved",
   "theorems": [
    "Bpt.C03_remove"
   ],
   "note": ""
  },
  {
   "property": "C04",
   "status": "proved",
   "theorems": [
    "Bpt.C04_len"
   ],
   "note": ""
  },
  {
   "property": "C05",
   "status": "proved",
   "theorems": [
    "Bpt.C05_iter_forward"
   ],
   "note": ""
  },
  {
   "property": "C06",
   "status": "proved",
   "theorems": [
    "Bpt.C06_iter_backward"
   ],
   "note": ""
  },
  {
   "property": "C07",
   "status": "partial",
   "theorems": [
    "Bpt.C07_exact_behaviour",
    "Bpt.C07_iter_both_ends_partial",
    "Bpt.C07_yielded_twice_refuted",
    "Bpt.C07_size_hint_refuted"
   ],
   "note": "False of the code: when the two ends meet, next_back does not stop next, and size_hint ignores next_back. The partial theorem covers schedules not longer than the map; C07_exact_behaviour is the full behaviour."
  },
  {
   "property": "C08",
   "status": "proved",
   "theorems": [
    "Bpt.C08_into_iter",
    "Bpt.C08_exactly_once",
    "Bpt.C08_then_none"
   ],
   "note": ""
  },
  {
   "property": "C09",
   "status": "proved",
   "theorems": [
    "Bpt.C09_first_last"
   ],
   "note": ""
  },
  {
   "property": "C10",
   "status": "proved",
   "theorems": [
    "Bpt.C10_structure",
    "Bpt.C10_structure_bulk",
    "Bpt.C10_depth_visitor"
   ],
   "note": ""
  },
  {
   "property": "C11",
   "status": "proved",
   "theorems": [
    "Bpt.C11_depth",
    "Bpt.C11_depth_inserted",
    "Bpt.C11_stack"
   ],
   "note": ""
  },
  {
   "property": "C12",
   "status": "proved",
   "theorems": [
    "Bpt.C12_no_failure"
   ],
   "note": ""
  },
  {
   "property": "C13",
   "status": "proved",
   "theorems": [
    "Bpt.C13_cache_irrelevant",
    "Bpt.C13_concurrent_readers",
    "Bpt.C13_wait_free"
   ],
   "note": ""
  },
  {
   "property": "C14",
   "status": "proved",
   "theorems": [
    "Bpt.C14_cursor_next"
   ],
   "note": ""
  },
  {
   "property": "C15",
   "status": "proved",
   "theorems": [
    "Bpt.C15_cursor_prev"
   ],
   "note": ""
  },
  {
   "property": "C16",
   "status": "proved",
   "theorems": [
    "Bpt.C16_cursor_value"
   ],
   "note": ""
  },
  {
   "property": "C17",
   "status": "partial",
   "theorems": [
    "Bpt.C17_cursor_first_last_partial",
    "Bpt.C17_cursor_first_empty_refuted",
    "Bpt.C17_cursor_last_empty_refuted",
    "Bpt.C17_cursor_empty_refuted"
   ],
   "note": "False of the code on an empty map (first reads an uninitialised slot, last underflows). The partial theorem covers every non-empty map."
  },
  {
   "property": "C18",
   "status": "proved",
   "theorems": [
    "Bpt.C18_bulk_load",
    "Bpt.C18_from_iter",
    "Bpt.C18_same_as_inserting"
   ],
   "note": ""
  },
  {
   "property": "C19",
   "status": "partial",
   "theorems": [
    "Bpt.C19_after_bulk_load_partial",
    "Bpt.C19_after_from_iter_partial",
    "Bpt.C19_small_partial",
    "Bpt.C19_right_or_panic_partial",
    "Bpt.C19_without_removals_partial",
    "Bpt.C19_uneven_refuted",
    "Bpt.C19_exactly_when",
    "Bpt.C19_from_iter_exactly_when",
    "Bpt.C19_remove_panics_refuted"
   ],
   "note": "False of the code: a bulk load may leave a node with a single child, and a later removal panics (C19_remove_panics_refuted, 4161 items). The exact condition is proved: every later history is right if and only if the leaves group, layer by layer, without a lone last child (C19_exactly_when, C19_from_iter_exactly_when); for every other size removing the keys from the largest down panics (C19_uneven_refuted). Reads and insertions are always right, a removal is right or panics."
  },
  {
   "property": "C20",
   "status": "proved",
   "theorems": [
    "Bpt.C20_count_select",
    "Bpt.C20_lawless"
   ],
   "note": "C20_lawless: also with arbitrary answers to every key comparison."
  },
  {
   "property": "C21",
   "status": "proved",
   "theorems": [
    "Bpt.C21_rank",
    "Bpt.C21_rank_select_inverse"
   ],
   "note": ""
  },
  {
   "property": "C22",
   "status": "proved",
   "theorems": [
    "Bpt.C22_remove_by_index",
    "Bpt.C22_update_by_index",
    "Bpt.C22_lawless_remove",
    "Bpt.C22_lawless_update"
   ],
   "note": "C22_lawless_*: also with arbitrary answers to every key comparison."
  },
  {
   "property": "C23",
   "status": "proved",
   "theorems": [
    "Bpt.C23_get_mut"
   ],
   "note": ""
  },
  {
   "property": "C24",
   "status": "proved",
   "theorems": [
    "Bpt.C24_in_sync",
    "Bpt.C24_in_sync_key_only",
    "Bpt.C24_every_level",
    "Bpt.C24_every_level_key_only",
    "Bpt.C24_lawless",
    "Bpt.C24_lawless_root"
   ],
   "note": "C24_lawless and C24_lawless_root: also with arbitrary answers to every key comparison."
  },
  {
   "property": "C25",
   "status": "proved",
   "theorems": [
    "Bpt.C25_group_count"
   ],
   "note": ""
  },
  {
   "property": "C26",
   "status": "partial",
   "theorems": [
    "Bpt.C26_max_group_partial",
    "Bpt.C26_sparse_partial",
    "Bpt.C26_max_group_refuted"
   ],
   "note": "False of the code: from_leaf does not reset the size of the last group when a third group starts. The partial theorems: the group named is right and its size never too small; exact if every group between two others has one member or at least 63. The exact answer in every map is C51."
  },
  {
   "property": "C27",
   "status": "partial",
   "theorems": [
    "Bpt.C27_sparse_partial",
    "Bpt.C27_first_partial",
    "Bpt.C27_sound_partial",
    "Bpt.C27_small_partial",
    "Bpt.C27_select_refuted"
   ],
   "note": "False of the code as a consequence of C26. The partial theorems: exact under the condition of C26, for maps with fewer than 32 entries, and for the first member of any group; whatever is found is in the group. The exact answer in every map is C51."
  },
  {
   "property": "C28",
   "status": "partial",
   "theorems": [
    "Bpt.C28_rank_partial",
    "Bpt.C28_small_partial",
    "Bpt.C28_group_partial",
    "Bpt.C28_rank_refuted"
   ],
   "note": "False of the code: fold_inner forgets the rank at a node entered through its first child (C28_rank_refuted, two inner levels). The partial theorems: exact under the condition of C26 below 544 entries, and always below 32; Ok/Err and the group are always right. The exact answer in every map is C51."
  },
  {
   "property": "C29",
   "status": "partial",
   "theorems": [
    "Bpt.C29_sparse_partial",
    "Bpt.C29_small_partial",
    "Bpt.C29_group_size_refuted"
   ],
   "note": "False of the code as a consequence of C26. The partial theorems: exact under the condition of C26 and for maps with fewer than 32 entries. The exact answer in every map is C51."
  },
  {
   "property": "C30",
   "status": "proved",
   "theorems": [
    "Bpt.C30_set_history",
    "Bpt.C30_from_iter"
   ],
   "note": ""
  },
  {
   "property": "C31",
   "status": "proved",
   "theorems": [
    "Bpt.C31_union",
    "Bpt.C31_min_clone"
   ],
   "note": ""
  },
  {
   "property": "C32",
   "status": "proved",
   "theorems": [
    "Bpt.C32_clear"
   ],
   "note": ""
  },
  {
   "property": "C33",
   "status": "proved",
   "theorems": [
    "Bpt.C33_history_independence",
    "Bpt.C33_history_independence_bulk",
    "Bpt.C33_order_statistics"
   ],
   "note": ""
  },
  {
   "property": "C34",
   "status": "proved",
   "theorems": [
    "Bpt.C34_descend_visit",
    "Bpt.C34_no_failure"
   ],
   "note": ""
  },
  {
   "property": "C35",
   "status": "proved",
   "theorems": [
    "Bpt.InnerS.C35_inner_new",
    "Bpt.InnerS.C35_inner_read",
    "Bpt.InnerS.C35_inner_locate",
    "Bpt.InnerS.C35_inner_set",
    "Bpt.InnerS.C35_inner_insert",
    "Bpt.InnerS.C35_inner_remove_slot",
    "Bpt.InnerS.C35_inner_pop",
    "Bpt.InnerS.C35_inner_push",
    "Bpt.InnerS.C35_inner_merge",
    "Bpt.InnerS.C35_inner_split",
    "Bpt.InnerS.C35_inner_clone",
    "Bpt.LeafS.C35_leaf_read",
    "Bpt.LeafS.C35_leaf_set_data",
    "Bpt.LeafS.C35_leaf_upsert",
    "Bpt.LeafS.C35_leaf_split",
    "Bpt.LeafS.C35_leaf_delete",
    "Bpt.LeafS.C35_leaf_pop",
    "Bpt.LeafS.C35_leaf_delete_with_push",
    "Bpt.LeafS.C35_leaf_delete_with_push_front",
    "Bpt.LeafS.C35_leaf_merge_right",
    "Bpt.LeafS.C35_leaf_merge_right_delete",
    "Bpt.LeafS.C35_leaf_take",
    "Bpt.LeafS.C35_leaf_clone"
   ],
   "note": ""
  },
  {
   "property": "C36",
   "status": "partial",
   "theorems": [
    "Bpt.C36_keys",
    "Bpt.C36_augmentations_partial",
    "Bpt.C36_augmentations_refuted",
    "Bpt.InnerS.C36_inner_drop_partial",
    "Bpt.InnerS.C36_merge_double_drop_refuted",
    "Bpt.C36_drop_entries",
    "Bpt.C36_values_loaded",
    "Bpt.C36_keys_loaded",
    "Bpt.C36_augmentations_loaded_partial",
    "Bpt.C36_values"
   ],
   "note": "Values (C36_values) and keys with all their clones (C36_keys) are proved for every history under any comparisons, to the drop of the map or of a partly consumed into_iter. For augmentations the property is false of the code: merge_inner_node drops the emptied right node, whose Drop drops an augmentation that has already been moved into the left node (C36_merge_double_drop_refuted), and into_iter forgets the root augmentation. C36_augmentations_partial gives the exact account: made plus one per merge of inner nodes = dropped plus the forgotten one, so a life without such a merge that ends with a drop drops each augmentation exactly once. C36_augmentations_refuted: every life that inserts at least 4161 distinct keys, removes them all and drops the map drops more augmentations than were ever made. The *_loaded theorems say the same of lives that begin with a bulk load of any data with any answers of ==, unless a removal panics on a lone child (C19)."
  },
  {
   "property": "C37",
   "status": "proved",
   "theorems": [
    "Bpt.C37_leaves"
   ],
   "note": ""
  },
  {
   "property": "C38",
   "status": "proved",
   "theorems": [
    "Bpt.C38_bsearch",
    "Bpt.C38_halving",
    "Bpt.C38_node_search",
    "Bpt.C38_calls"
   ],
   "note": ""
  },
  {
   "property": "C39",
   "status": "proved",
   "theorems": [
    "Bpt.C39_weighted_select",
    "Bpt.C39_weighted_remove",
    "Bpt.C39_even_count"
   ],
   "note": ""
  },
  {
   "property": "C40",
   "status": "proved",
   "theorems": [
    "Bpt.C40_statistics",
    "Bpt.C40_statistics_search"
   ],
   "note": ""
  },
  {
   "property": "C41",
   "status": "proved",
   "theorems": [
    "Bpt.C41_any_search"
   ],
   "note": ""
  },
  {
   "property": "C42",
   "status": "proved",
   "theorems": [
    "Bpt.C42_duplicate_key"
   ],
   "note": ""
  },
  {
   "property": "C43",
   "status": "proved",
   "theorems": [
    "Bpt.Raw.C43_history",
    "Bpt.Raw.C43_call",
    "Bpt.Raw.C43_no_fault",
    "Bpt.Raw.C43_into_iter",
    "Bpt.Raw.C43_drop",
    "Bpt.Raw.C43_select_rank",
    "Bpt.Raw.C43_bulk_load"
   ],
   "note": "Simulation between the list model and the raw-array model, then the list theorems. Augmentations: destruction of the augmentation in merge_inner_node is left out (C36). Iter::next_back mixed with next is as in C07; removals after bulk loading as in C19."
  },
  {
   "property": "C44",
   "status": "proved",
   "theorems": [
    "Bpt.Raw.C44_clone"
   ],
   "note": "Cloning of K, V and the augmentation is modelled as the identity on values."
  },
  {
   "property": "C45",
   "status": "partial",
   "theorems": [
    "Bpt.C45_program",
    "Bpt.C45_points",
    "Bpt.C45_comparison",
    "Bpt.C45_insert_partial",
    "Bpt.C45_remove_partial",
    "Bpt.C45_clone_refuted",
    "Bpt.C45_merge_refuted",
    "Bpt.C45_clone_exact",
    "Bpt.C45_remove_exact"
   ],
   "note": "False of the code at two crash points: K::clone in the split of a leaf (C45_clone_refuted) and from_leaf in the merge of two leaves (C45_merge_refuted) leave a map whose drop is undefined behaviour. The partial theorems cover every other crash point: comparisons and all calls except insert/remove lose nothing; from_leaf/from_inner in an insertion leave a map that drops cleanly (leaking at most one item); any other crash point in a removal leaves a map whose drop panics without undefined behaviour. Both failing points are described exactly: C45_clone_exact (every K::clone of every insertion after any history leaves a map whose drop is undefined behaviour) and C45_remove_exact (at every crash point of a removal the drop panics if the last leaf is still there and is undefined behaviour otherwise). Starts as in C46. Panicking Drop of keys, values or augmentations is C59. C45_points: the listing of crash points is complete with respect to the ledger of C36 (every copy of a key and every summary made by an insertion or removal is a listed crash point, in the same order)."
  },
  {
   "property": "C46",
   "status": "proved",
   "theorems": [
    "Bpt.C46_structure",
    "Bpt.C46_structure_new",
    "Bpt.C46_history",
    "Bpt.C46_step",
    "Bpt.C46_lawful"
   ],
   "note": "Histories start from a new map or from a bulk load of any data, with any answers of ==, that leaves no lone child (`Fresh`, Verif/StartSpec.lean; after other loads see C54). get_mut's closure and the augmentation are total functions; panicking user code is C45. C46_structure: the shape after such histories; C20, C22 and C24 have *_lawless theorems."
  },
  {
   "property": "C47",
   "status": "partial",
   "theorems": [
    "Bpt.C47_leaves_partial",
    "Bpt.C47_memory_refuted",
    "Bpt.C47_no_bound_refuted",
    "Bpt.C47_account_partial",
    "Bpt.C47_leaves_bulk_partial",
    "Bpt.C47_account_bulk_partial"
   ],
   "note": "False of the code: when the root inner node is left with one child, that child becomes the root and the old root node stays allocated; and slots of the node tables are never used again (C47_memory_refuted: n rounds of filling with 65 keys and emptying leave an empty map with at least n allocated inner nodes and n leaf slots; C47_no_bound_refuted). C47_leaves_partial: the leaves allocated are at most one per 16 entries held now. C47_account_partial is the exact account over every history: inner nodes allocated = inner nodes of the tree + levels the tree has lost since new/clear; slots = nodes allocated + nodes merged away since new/clear; and the inner nodes of the tree are at most one per 16 leaves. C47_leaves_bulk_partial and C47_account_bulk_partial: the same from bulk loads of any size, with one more leaf and one more inner node per level at the right edge."
  },
  {
   "property": "C48",
   "status": "proved",
   "theorems": [
    "Bpt.C48_program",
    "Bpt.C48_comparisons",
    "Bpt.C48_total",
    "Bpt.C48_repeat",
    "Bpt.C48_walk",
    "Bpt.C48_summaries"
   ],
   "note": "Starts as in C46. Comparisons are counted by a second version of the calls whose results are proved equal to the calls (C48_program). Wall-clock time and the work of the crate itself are not modelled. A cursor going backward has no such bound: after a step to the previous leaf it names the wrong leaf and the next step searches again (example in Props/Count)."
  },
  {
   "property": "C49",
   "status": "proved",
   "theorems": [
    "Bpt.C49_history",
    "Bpt.C49_ranks",
    "Bpt.C49_insert",
    "Bpt.C49_from_iter",
    "Bpt.C49_load",
    "Bpt.C49_last",
    "Bpt.C49_plain"
   ],
   "note": "Keys carry a rank in a linear order; the calls are those of C46 with the comparisons answered by the rank. C49_plain: with rank = id the specification is the one of the other properties. Histories start from an empty map or from a bulk load in rank order that leaves no lone child (FreshBy); C49_load and C49_from_iter hold for every load: there the last key of a rank stays, not the first."
  },
  {
   "property": "C50",
   "status": "proved",
   "theorems": [
    "Bpt.C50_history",
    "Bpt.C50_after_from_iter",
    "Bpt.C50_iter_fused"
   ],
   "note": "C50_history and C50_after_from_iter: mixed histories by key, index and rank; C50_iter_fused: the map iterator is fused and its len() never panics."
  },
  {
   "property": "C51",
   "status": "proved",
   "theorems": [
    "Bpt.C51_max_group",
    "Bpt.C51_select",
    "Bpt.C51_select_iff",
    "Bpt.C51_group_size",
    "Bpt.C51_rank",
    "Bpt.C51_overcount_le",
    "Bpt.C51_overcount_tight"
   ],
   "note": "The exact answer of each of the four queries in every map, with the exact condition for selection to be right; the error is at most 61 except for rank, which can also lose members."
  },
  {
   "property": "C52",
   "status": "proved",
   "theorems": [
    "Bpt.C52_root",
    "Bpt.C52_count_for_year"
   ],
   "note": "The two unwraps of an empty slice in the example are replaced by the default value in the model; removing the only entry reaches one of them (C53)."
  },
  {
   "property": "C53",
   "status": "proved",
   "theorems": [
    "Bpt.C53_arguments",
    "Bpt.C53_last_removal",
    "Bpt.C53_load",
    "Bpt.C53_load_arguments"
   ],
   "note": "Calls and starts of C46, traced as in C45. C53_last_removal: removing the only entry passes empty slices; DateStatistic::from_leaf of the example unwraps there. C53_load: the exact sequence of calls in bulk_load; C53_load_arguments: the same bounds there, except from_inner with no key and one augmentation for a lone child (C19)."
  },
  {
   "property": "C54",
   "status": "proved",
   "theorems": [
    "Bpt.C54_load",
    "Bpt.C54_history",
    "Bpt.C54_even",
    "Bpt.C54_lawful",
    "Bpt.C54_from_iter"
   ],
   "note": "C54_history, C54_load, C54_even, C54_from_iter; C54_lawful connects it with the main model. Whether a removal panics after a load with a lone child is settled for lawful orders by C19_exactly_when."
  },
  {
   "property": "C55",
   "status": "partial",
   "theorems": [
    "Bpt.C55_same",
    "Bpt.C55_history",
    "Bpt.C55_load",
    "Bpt.C55_even",
    "Bpt.C55_loaded_partial",
    "Bpt.C55_release_refuted",
    "Bpt.C55_lawful",
    "Bpt.C55_reachable"
   ],
   "note": "Everything up to the first debug panic is proved for all trees and histories (C55_same), and that panic is impossible from an empty map or after an even bulk load. False of the code after bulk loads that leave an inner node alone: C55_release_refuted gives, for every such load, a run of removals that is undefined behaviour in a release build (smallest: 270465 items)."
  },
  {
   "property": "C56",
   "status": "partial",
   "theorems": [
    "Bpt.C56_same_program",
    "Bpt.C56_one_owner",
    "Bpt.C56_no_double_drop",
    "Bpt.C56_clones",
    "Bpt.C56_unwinding_partial",
    "Bpt.C56_no_panic_in_unwinding",
    "Bpt.C56_bad_calls",
    "Bpt.C56_bad_calls_nodes",
    "Bpt.C56_unwinding_small",
    "Bpt.C56_refuted_unwinding",
    "Bpt.C56_calls"
   ],
   "note": "C56_one_owner, C56_no_double_drop and C56_no_panic_in_unwinding hold at every crash point; C56_unwinding_partial excludes K::clone and A::clone. False of the code there: C56_refuted_unwinding, in every load that keeps more than 64 items, because an inner node under construction has size 0 and its destructor drops one augmentation that was never written. C56_clones: of the keys and augmentations made so far, none is dropped twice by the unwinding, and (outside A::clone and the last call) all are dropped. C56_bad_calls counts these crash points exactly; C56_unwinding_small: none with at most 64 items. C56_calls: how often == and A::clone are called."
  },
  {
   "property": "C57",
   "status": "proved",
   "theorems": [
    "Bpt.Raw.C57_same_program",
    "Bpt.Raw.C57_unwinding",
    "Bpt.Raw.C57_account",
    "Bpt.Raw.C57_calls"
   ],
   "note": "C57_unwinding: every crash point of clone unwinds safely; C57_account: clones made so far = dropped + leaked, in order; C57_calls: what is cloned. For maps from empty ones and from bulk loads of even size."
  },
  {
   "property": "C58",
   "status": "partial",
   "theorems": [
    "Bpt.C58_history_partial",
    "Bpt.C58_after_insert_partial",
    "Bpt.C58_refuted",
    "Bpt.C58_refuted_cursor",
    "Bpt.C58_leak"
   ],
   "note": "False of the code: C58_refuted (any map, any key looked up before) and C58_refuted_cursor (cursors of the older map): the store's remembered leaf is believed by get, get_mut and cursors. Proved when the remembered leaf is gone (C58_history_partial, e.g. after a bulk load) and from the first insertion on (C58_after_insert_partial), without cursors of the older map. C58_leak: what the store held is never dropped."
  },
  {
   "property": "C59",
   "status": "partial",
   "theorems": [
    "Bpt.C59_insert_shows_partial",
    "Bpt.C59_remove_shows_partial",
    "Bpt.C59_split_refuted",
    "Bpt.C59_rotation_refuted",
    "Bpt.C59_insert_program",
    "Bpt.C59_insert_points",
    "Bpt.C59_insert_last",
    "Bpt.C59_insert",
    "Bpt.Raw.C59_drop_partial",
    "Bpt.Raw.C59_once_partial",
    "Bpt.Raw.C59_items_partial",
    "Bpt.Raw.C59_into_iter_partial",
    "Bpt.Raw.C59_clear_partial",
    "Bpt.Raw.C59_remove_refuted",
    "Bpt.C59_remove_program",
    "Bpt.C59_remove_points",
    "Bpt.C59_remove_last",
    "Bpt.C59_remove_exact",
    "Bpt.C59_remove_partial",
    "Bpt.C59_remove_aug_refuted"
   ],
   "note": "False of the code for removals that merge: C59_remove_refuted (the augmentation given up by an inner node in a merge is destroyed before the node's size is updated) and C59_remove_aug_refuted (the augmentation replaced while two leaves are merged is destroyed when the right leaf is gone and still named). Proved for drop, for clear, for owning iterators after any calls (C59_drop_partial, C59_once_partial, C59_items_partial, C59_into_iter_partial, C59_clear_partial), for every destructor run inside an insertion (C59_insert; C59_insert_points counts them), and inside a removal for every destructor of a key and for those of augmentations outside leaf merges (C59_remove_partial; C59_remove_points counts them); C59_remove_exact says what happens at each of the others. C59_insert_last and C59_remove_last say what len and root_augmentation are. Lookups are those of the completed call when no leaf is split and nothing is moved or merged (C59_insert_shows_partial, C59_remove_shows_partial), and not otherwise (C59_split_refuted, C59_rotation_refuted)."
  },
  {
   "property": "C60",
   "status": "partial",
   "theorems": [
    "Bpt.C60_leaf_exact",
    "Bpt.C60_leaf_partial",
    "Bpt.C60_leaf_refuted",
    "Bpt.C60_inner_exact",
    "Bpt.C60_inner_partial",
    "Bpt.C60_inner_refuted",
    "Bpt.C60_store_exact",
    "Bpt.C60_store_partial",
    "Bpt.C60_store_refuted"
   ],
   "note": "False of the code: data_at, value_at_mut and key do not check the index, set_data twice makes keys() read unwritten slots, in_range reads the first key of an empty leaf, push does not check for room, new_from_iter accepts too few augmentations and unwinds through an unwritten one, and get_inner/get_leaf do not check the id although they are documented to panic. The exact theorems say what every sequence of calls does; the partial theorems cover careful callers."
  },
  {
   "property": "C61",
   "status": "proved",
   "theorems": [
    "Bpt.C61_packed",
    "Bpt.C61_from_iter",
    "Bpt.C61_same_items",
    "Bpt.C61_levels",
    "Bpt.C61_fewest_levels"
   ],
   "note": "The packed tree is defined from the items alone (Verif/ShapeSpec.lean: cut into pieces of 64, then of 65) and shown to be unique; a map is compared with it through every visitor."
  },
  {
   "property": "C62",
   "status": "partial",
   "theorems": [
    "Bpt.C62_comparison",
    "Bpt.C62_insert_partial",
    "Bpt.C62_remove_partial",
    "Bpt.C62_insert_lookups",
    "Bpt.C62_remove_lookups_partial",
    "Bpt.C62_insert_no_wrong_value",
    "Bpt.C62_remove_no_wrong_value_partial",
    "Bpt.C62_split_refuted",
    "Bpt.C62_rotation_refuted"
   ],
   "note": "False of the code when summary code (from_leaf) panics in an insertion that splits a leaf (C62_split_refuted: the new right half is not yet linked) or in a removal that takes an item from a neighbour (C62_rotation_refuted: the item is in neither leaf): other keys are no longer found. The partial theorems cover comparisons in all calls, all user code in calls other than insert and remove, and summary code in insertions without a split and removals without a repair, at every level of the tree. C62_insert_lookups/C62_insert_no_wrong_value and their removal versions show that lookups at all these crash points are safe and never give a wrong value (for removals not at from_leaf in the merge of two leaves, which is C45_merge_refuted). C45 covers dropping the map left behind."
  },
  {
   "property": "C63",
   "status": "partial",
   "theorems": [
    "Bpt.C63_get",
    "Bpt.C63_get_mut",
    "Bpt.C63_remove",
    "Bpt.C63_refuted",
    "Bpt.C63_in_range_partial"
   ],
   "note": "False of the code: C63_refuted gives a search in safe code and maps (the empty one, and one with two leaves) on which the calls are undefined behaviour. C63_get, C63_get_mut and C63_remove give the exact outcome for every search, with no condition on its answers; C63_in_range_partial (with C41) is the safety claim for searches that stay within their slices. descend_visit checks the index instead and panics (C34)."
  },
  {
   "property": "C64",
   "status": "proved",
   "theorems": [
    "Bpt.C64_program",
    "Bpt.C64_search",
    "Bpt.C64_visit",
    "Bpt.C64_rank",
    "Bpt.C64_remove",
    "Bpt.C64_remove_drop"
   ],
   "note": "The nodes shown are specified on the nested tree that visitors see (Verif/QuerySpec.lean). C64_remove ties remove_by_augmentation to remove, so C45, C53 and C62 carry over; C64_remove_drop spells out the drop. A search naming an item that does not exist is C63."
  },
  {
   "property": "C65",
   "status": "partial",
   "theorems": [
    "Bpt.C65_insert",
    "Bpt.C65_remove_partial",
    "Bpt.C65_single",
    "Bpt.C65_first_refuted",
    "Bpt.C65_first_destructor_refuted"
   ],
   "note": "False of the code for removals. C65_insert covers all crash points of summary code and all destructors of an insertion. C65_remove_partial covers removals from maps with at least two items, outside the merge of two leaves. C65_single proves that in the removal of the only item every crash point before completion makes first and next undefined behaviour; C65_first_refuted and C65_first_destructor_refuted are concrete histories. K::clone in the split of a leaf (C45) is not included for insertions."
  },
  {
   "property": "C66",
   "status": "partial",
   "theorems": [
    "Bpt.C66_comparison",
    "Bpt.C66_update",
    "Bpt.C66_repeated",
    "Bpt.C66_insert_partial",
    "Bpt.C66_insert_last",
    "Bpt.C66_remove_partial",
    "Bpt.C66_insert_len_partial",
    "Bpt.C66_remove_len_partial",
    "Bpt.C66_empty_refuted",
    "Bpt.C66_many_partial"
   ],
   "note": "False of the code in general. C66_comparison and C66_update are complete; C66_repeated combines them for any number of caught panics with calls in between. C66_insert_partial: a new key, no leaf split, later calls that do not read len, no removal that empties the map; C66_insert_last proves that after such a history the removal of the last item always panics, and C66_empty_refuted is a concrete case. C66_remove_partial: no repair of an underfull node, later calls that do not read len. C66_insert_len_partial and C66_remove_len_partial give the exact answers of all later calls, also those that read len, by a specification with a separate length field (LenSpec.lean); where that specification has no answer they prove that the history ends in a panic or undefined behaviour. C66_many_partial combines all of these for any number of caught panics with calls in between, and bounds the error of len by the number of interrupted insertions and removals. The splits and repairs are excluded because keys are lost there (C59_split_refuted, C59_rotation_refuted, C62_split_refuted, C62_rotation_refuted)."
  }
 ]
}