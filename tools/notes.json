{
 "C07": {
  "note": "False of the code: when the two ends meet, next_back does not stop next, and size_hint ignores next_back. The partial theorem covers schedules not longer than the map; C07_exact_behaviour is the full behaviour."
 },
 "C17": {
  "note": "False of the code on an empty map (first reads an uninitialised slot, last underflows). The partial theorem covers every non-empty map."
 },
 "C36": {
  "status": "partial",
  "note": "Values (C36_values) and keys with all their clones (C36_keys) are proved for every history under any comparisons, to the drop of the map or of a partly consumed into_iter. For augmentations the property is false of the code: merge_inner_node drops the emptied right node, whose Drop drops an augmentation that has already been moved into the left node (C36_merge_double_drop_refuted), and into_iter forgets the root augmentation. C36_augmentations_partial gives the exact account: made plus one per merge of inner nodes = dropped plus the forgotten one, so a life without such a merge that ends with a drop drops each augmentation exactly once. C36_augmentations_refuted: every life that inserts at least 4161 distinct keys, removes them all and drops the map drops more augmentations than were ever made. The *_loaded theorems say the same of lives that begin with a bulk load of any data with any answers of ==, unless a removal panics on a lone child (C19)."
 },
 "C19": {
  "note": "False of the code: a bulk load may leave a node with a single child, and a later removal panics (C19_remove_panics_refuted, 4161 items). The exact condition is proved: every later history is right if and only if the leaves group, layer by layer, without a lone last child (C19_exactly_when, C19_from_iter_exactly_when); for every other size removing the keys from the largest down panics (C19_uneven_refuted). Reads and insertions are always right, a removal is right or panics."
 },
 "C26": {
  "note": "False of the code: from_leaf does not reset the size of the last group when a third group starts. The partial theorems: the group named is right and its size never too small; exact if every group between two others has one member or at least 63. The exact answer in every map is C51."
 },
 "C27": {
  "note": "False of the code as a consequence of C26. The partial theorems: exact under the condition of C26, for maps with fewer than 32 entries, and for the first member of any group; whatever is found is in the group. The exact answer in every map is C51."
 },
 "C28": {
  "note": "False of the code: fold_inner forgets the rank at a node entered through its first child (C28_rank_refuted, two inner levels). The partial theorems: exact under the condition of C26 below 544 entries, and always below 32; Ok/Err and the group are always right. The exact answer in every map is C51."
 },
 "C29": {
  "note": "False of the code as a consequence of C26. The partial theorems: exact under the condition of C26 and for maps with fewer than 32 entries. The exact answer in every map is C51."
 },
 "C43": {
  "note": "Simulation between the list model and the raw-array model, then the list theorems. Augmentations: destruction of the augmentation in merge_inner_node is left out (C36). Iter::next_back mixed with next is as in C07; removals after bulk loading as in C19."
 },
 "C44": {
  "note": "Cloning of K, V and the augmentation is modelled as the identity on values."
 },
 "C46": {
  "note": "Histories start from a new map or from a bulk load of any data, with any answers of ==, that leaves no lone child (`Fresh`, Verif/StartSpec.lean; after other loads see C54). get_mut's closure and the augmentation are total functions; panicking user code is C45. C46_structure: the shape after such histories; C20, C22 and C24 have *_lawless theorems."
 },
 "C45": {
  "note": "False of the code at two crash points: K::clone in the split of a leaf (C45_clone_refuted) and from_leaf in the merge of two leaves (C45_merge_refuted) leave a map whose drop is undefined behaviour. The partial theorems cover every other crash point: comparisons and all calls except insert/remove lose nothing; from_leaf/from_inner in an insertion leave a map that drops cleanly (leaking at most one item); any other crash point in a removal leaves a map whose drop panics without undefined behaviour. Both failing points are described exactly: C45_clone_exact (every K::clone of every insertion after any history leaves a map whose drop is undefined behaviour) and C45_remove_exact (at every crash point of a removal the drop panics if the last leaf is still there and is undefined behaviour otherwise). Starts as in C46. Panicking Drop of keys, values or augmentations is C59. C45_points: the listing of crash points is complete with respect to the ledger of C36 (every copy of a key and every summary made by an insertion or removal is a listed crash point, in the same order)."
 },
 "C47": {
  "note": "False of the code: when the root inner node is left with one child, that child becomes the root and the old root node stays allocated; and slots of the node tables are never used again (C47_memory_refuted: n rounds of filling with 65 keys and emptying leave an empty map with at least n allocated inner nodes and n leaf slots; C47_no_bound_refuted). C47_leaves_partial: the leaves allocated are at most one per 16 entries held now. C47_account_partial is the exact account over every history: inner nodes allocated = inner nodes of the tree + levels the tree has lost since new/clear; slots = nodes allocated + nodes merged away since new/clear; and the inner nodes of the tree are at most one per 16 leaves. C47_leaves_bulk_partial and C47_account_bulk_partial: the same from bulk loads of any size, with one more leaf and one more inner node per level at the right edge."
 },
 "C48": {
  "note": "Starts as in C46. Comparisons are counted by a second version of the calls whose results are proved equal to the calls (C48_program). Wall-clock time and the work of the crate itself are not modelled. A cursor going backward has no such bound: after a step to the previous leaf it names the wrong leaf and the next step searches again (example in Props/Count)."
 },
 "C49": {
  "note": "Keys carry a rank in a linear order; the calls are those of C46 with the comparisons answered by the rank. C49_plain: with rank = id the specification is the one of the other properties. Histories start from an empty map or from a bulk load in rank order that leaves no lone child (FreshBy); C49_load and C49_from_iter hold for every load: there the last key of a rank stays, not the first."
 },
 "C50": {
  "note": "C50_history and C50_after_from_iter: mixed histories by key, index and rank; C50_iter_fused: the map iterator is fused and its len() never panics."
 },
 "C51": {
  "note": "The exact answer of each of the four queries in every map, with the exact condition for selection to be right; the error is at most 61 except for rank, which can also lose members."
 },
 "C52": {
  "note": "The two unwraps of an empty slice in the example are replaced by the default value in the model; removing the only entry reaches one of them (C53)."
 },
 "C53": {
  "note": "Calls and starts of C46, traced as in C45. C53_last_removal: removing the only entry passes empty slices; DateStatistic::from_leaf of the example unwraps there. C53_load: the exact sequence of calls in bulk_load; C53_load_arguments: the same bounds there, except from_inner with no key and one augmentation for a lone child (C19)."
 },
 "C54": {
  "note": "C54_history, C54_load, C54_even, C54_from_iter; C54_lawful connects it with the main model. Whether a removal panics after a load with a lone child is settled for lawful orders by C19_exactly_when."
 },
 "C55": {
  "note": "Everything up to the first debug panic is proved for all trees and histories (C55_same), and that panic is impossible from an empty map or after an even bulk load. False of the code after bulk loads that leave an inner node alone: C55_release_refuted gives, for every such load, a run of removals that is undefined behaviour in a release build (smallest: 270465 items)."
 },
 "C56": {
  "note": "C56_one_owner, C56_no_double_drop and C56_no_panic_in_unwinding hold at every crash point; C56_unwinding_partial excludes K::clone and A::clone. False of the code there: C56_refuted_unwinding, in every load that keeps more than 64 items, because an inner node under construction has size 0 and its destructor drops one augmentation that was never written. C56_clones: of the keys and augmentations made so far, none is dropped twice by the unwinding, and (outside A::clone and the last call) all are dropped. C56_bad_calls counts these crash points exactly; C56_unwinding_small: none with at most 64 items. C56_calls: how often == and A::clone are called."
 },
 "C57": {
  "note": "C57_unwinding: every crash point of clone unwinds safely; C57_account: clones made so far = dropped + leaked, in order; C57_calls: what is cloned. For maps from empty ones and from bulk loads of even size."
 },
 "C58": {
  "note": "False of the code: C58_refuted (any map, any key looked up before) and C58_refuted_cursor (cursors of the older map): the store's remembered leaf is believed by get, get_mut and cursors. Proved when the remembered leaf is gone (C58_history_partial, e.g. after a bulk load) and from the first insertion on (C58_after_insert_partial), without cursors of the older map. C58_leak: what the store held is never dropped."
 },
 "C59": {
  "note": "False of the code for removals that merge: C59_remove_refuted (the augmentation given up by an inner node in a merge is destroyed before the node's size is updated) and C59_remove_aug_refuted (the augmentation replaced while two leaves are merged is destroyed when the right leaf is gone and still named). Proved for drop, for clear, for owning iterators after any calls (C59_drop_partial, C59_once_partial, C59_items_partial, C59_into_iter_partial, C59_clear_partial), for every destructor run inside an insertion (C59_insert; C59_insert_points counts them), and inside a removal for every destructor of a key and for those of augmentations outside leaf merges (C59_remove_partial; C59_remove_points counts them); C59_remove_exact says what happens at each of the others. C59_insert_last and C59_remove_last say what len and root_augmentation are. Lookups are those of the completed call when no leaf is split and nothing is moved or merged (C59_insert_shows_partial, C59_remove_shows_partial), and not otherwise (C59_split_refuted, C59_rotation_refuted)."
 },
 "C60": {
  "status": "partial",
  "note": "False of the code: data_at, value_at_mut and key do not check the index, set_data twice makes keys() read unwritten slots, in_range reads the first key of an empty leaf, push does not check for room, new_from_iter accepts too few augmentations and unwinds through an unwritten one, and get_inner/get_leaf do not check the id although they are documented to panic. The exact theorems say what every sequence of calls does; the partial theorems cover careful callers."
 },
 "C61": {
  "note": "The packed tree is defined from the items alone (Verif/ShapeSpec.lean: cut into pieces of 64, then of 65) and shown to be unique; a map is compared with it through every visitor."
 },
 "C20": {
  "note": "C20_lawless: also with arbitrary answers to every key comparison."
 },
 "C22": {
  "note": "C22_lawless_*: also with arbitrary answers to every key comparison."
 },
 "C24": {
  "note": "C24_lawless and C24_lawless_root: also with arbitrary answers to every key comparison."
 },
 "C62": {
  "note": "False of the code when summary code (from_leaf) panics in an insertion that splits a leaf (C62_split_refuted: the new right half is not yet linked) or in a removal that takes an item from a neighbour (C62_rotation_refuted: the item is in neither leaf): other keys are no longer found. The partial theorems cover comparisons in all calls, all user code in calls other than insert and remove, and summary code in insertions without a split and removals without a repair, at every level of the tree. C62_insert_lookups/C62_insert_no_wrong_value and their removal versions show that lookups at all these crash points are safe and never give a wrong value (for removals not at from_leaf in the merge of two leaves, which is C45_merge_refuted). C45 covers dropping the map left behind."
 },
 "C63": {
  "note": "False of the code: C63_refuted gives a search in safe code and maps (the empty one, and one with two leaves) on which the calls are undefined behaviour. C63_get, C63_get_mut and C63_remove give the exact outcome for every search, with no condition on its answers; C63_in_range_partial (with C41) is the safety claim for searches that stay within their slices. descend_visit checks the index instead and panics (C34)."
 },
 "C64": {
  "note": "The nodes shown are specified on the nested tree that visitors see (Verif/QuerySpec.lean). C64_remove ties remove_by_augmentation to remove, so C45, C53 and C62 carry over; C64_remove_drop spells out the drop. A search naming an item that does not exist is C63."
 },
 "C65": {
  "note": "False of the code for removals. C65_insert covers all crash points of summary code and all destructors of an insertion. C65_remove_partial covers removals from maps with at least two items, outside the merge of two leaves. C65_single proves that in the removal of the only item every crash point before completion makes first and next undefined behaviour; C65_first_refuted and C65_first_destructor_refuted are concrete histories. K::clone in the split of a leaf (C45) is not included for insertions."
 },
 "C66": {
  "note": "False of the code in general. C66_comparison and C66_update are complete; C66_repeated combines them for any number of caught panics with calls in between. C66_insert_partial: a new key, no leaf split, later calls that do not read len, no removal that empties the map; C66_insert_last proves that after such a history the removal of the last item always panics, and C66_empty_refuted is a concrete case. C66_remove_partial: no repair of an underfull node, later calls that do not read len. C66_insert_len_partial and C66_remove_len_partial give the exact answers of all later calls, also those that read len, by a specification with a separate length field (LenSpec.lean); where that specification has no answer they prove that the history ends in a panic or undefined behaviour. C66_many_partial combines all of these for any number of caught panics with calls in between, and bounds the error of len by the number of interrupted insertions and removals. The splits and repairs are excluded because keys are lost there (C59_split_refuted, C59_rotation_refuted, C62_split_refuted, C62_rotation_refuted)."
 }
}