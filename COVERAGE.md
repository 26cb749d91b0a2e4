# Which definitions model which function

Generated by `tools/coverage.py` from the citations in the comments of `lean/Verif/Model`.
Functions under `cfg(test)` are not listed. A dash marks a function no definition cites; the
reason is given at the end.

## src/augment/count.rs

| function | lines | modelled by |
|---|---|---|
| `Count::count` | 12-14 | — |
| `Count as Augmentation::from_leaf` | 18-20 | Augment: `(instance)` |
| `Count as Augmentation::from_inner` | 22-24 | Augment: `(instance)` |
| `Count as SearchAugmentation::locate_in_leaf` | 31-37 | Augment: `(instance)` |
| `Count as SearchAugmentation::locate_in_inner` | 39-50 | Augment: `countLocate`, `(instance)` |
| `Count as RankAugmentation::initial_value` | 57-59 | Augment: `(instance)` |
| `Count as RankAugmentation::fold_inner` | 62-67 | Augment: `(instance)` |
| `Count as RankAugmentation::fold_leaf` | 69-79 | Augment: `(instance)` |

## src/augment/group.rs

| function | lines | modelled by |
|---|---|---|
| `GroupCount as Default::default` | 25-27 | Augment: `(instance)` |
| `GroupCount::is_zero` | 31-33 | — |
| `GroupCount::group_count` | 35-41 | Augment: `count` |
| `GroupCount::max_group` | 44-54 | Augment: `maxGroup` |
| `GroupCount::merge_with` | 57-143 | Augment: `mergeWith` |
| `GroupCount as Augmentation::from_leaf` | 156-193 | Augment: `LeafScan`, `leafScanStep`, `scanLeaf`, `(instance)` |
| `GroupCount as Augmentation::from_inner` | 195-203 | Augment: `(instance)` |
| `GroupCount as SearchAugmentation::locate_in_leaf` | 214-233 | Augment: `locateLeafLoop`, `(instance)` |
| `GroupCount as SearchAugmentation::locate_in_inner` | 235-272 | Augment: `locateInnerLoop`, `(instance)` |
| `GroupCount as RankAugmentation::initial_value` | 283-285 | Augment: `(instance)` |
| `GroupCount as RankAugmentation::fold_inner` | 287-312 | Augment: `sumSameGroup`, `foldInner`, `(instance)` |
| `GroupCount as RankAugmentation::fold_leaf` | 314-357 | Augment: `foldLeaf`, `(instance)` |
| `new` | 374-380 | Augment: `extractGroupSize` |
| `visit_inner` | 389-417 | Augment: `extractInnerLoop`, `extractGroupSize` |
| `visit_leaf` | 419-429 | Augment: `extractLeafLoop`, `extractGroupSize` |
| `Tuple2 as FromRef::from_ref` | 438-440 | Augment: `Tuple2` |

## src/augment/mod.rs

| function | lines | modelled by |
|---|---|---|
| `Augmentation::is_zst` | 11-13 | Basic: `Augmentation` |
| `Augmentation::is_zst` | 71-73 | Basic: `unitAug` |
| `Augmentation::from_leaf` | 76-76 | Basic: `unitAug` |
| `Augmentation::from_inner` | 79-79 | Basic: `unitAug` |

## src/map.rs

| function | lines | modelled by |
|---|---|---|
| `BPlusTreeMap as Default::default` | 15-17 | Map: `new` |
| `BPlusTreeMap::new` | 32-36 | Map: `new` |
| `BPlusTreeMap::len` | 40-42 | Map: `len` |
| `BPlusTreeMap::is_empty` | 55-57 | Map: `isEmpty` |
| `BPlusTreeMap::insert` | 73-75 | Map: `insert` |
| `BPlusTreeMap::get` | 90-95 | Map: `get` |
| `BPlusTreeMap::get_mut` | 109-114 | Map: `getMut` |
| `BPlusTreeMap::remove` | 129-134 | Map: `remove` |
| `BPlusTreeMap::iter` | 152-159 | Map: `iter` |
| `BPlusTreeMap::root_augmentation` | 162-164 | Map: `rootAugmentation` |
| `BPlusTreeMap::get_by_augmentation` | 185-190 | Map: `getByAugmentation` |
| `BPlusTreeMap::get_mut_by_augmentation` | 210-215 | Map: `getMutByAugmentation` |
| `BPlusTreeMap::remove_by_augmentation` | 236-241 | Map: `removeByAugmentation` |
| `BPlusTreeMap::rank_by_augmentation` | 269-274 | Map: `rankByAugmentation` |
| `BPlusTreeMap::descend_visit` | 279-284 | Map: `descendVisit` |
| `BPlusTreeMap as FromIterator::from_iter` | 300-306 | Bulk: `Tree.fromIter`; Map: `fromIter` |
| `size_hint` | 322-324 | Map: `MapIter.sizeHint` |
| `next` | 327-329 | Map: `MapIter.next` |
| `next_back` | 333-335 | Map: `MapIter.nextBack` |

## src/merge_iter.rs

| function | lines | modelled by |
|---|---|---|
| `MergeIterInner as Clone::clone` | 28-34 | Set: `clone` |
| `MergeIterInner as Debug::fmt` | 42-48 | — |
| `MergeIterInner::new` | 53-55 | Set: `new` |
| `MergeIterInner::nexts` | 64-95 | Set: `fetch`, `nexts` |
| `MergeIterInner::lens` | 98-107 | Set: `lens` |

## src/set.rs

| function | lines | modelled by |
|---|---|---|
| `BPlusTreeSet as Default::default` | 11-13 | — |
| `BPlusTreeSet::new` | 26-32 | Set: `new` |
| `BPlusTreeSet::len` | 50-52 | Set: `len` |
| `BPlusTreeSet::is_empty` | 67-69 | Set: `isEmpty` |
| `BPlusTreeSet::insert` | 83-85 | Set: `insert` |
| `BPlusTreeSet::remove` | 100-106 | Set: `remove` |
| `BPlusTreeSet::contains` | 121-127 | Set: `contains` |
| `BPlusTreeSet::clear` | 143-145 | Set: `clear` |
| `BPlusTreeSet::first` | 163-165 | Set: `first` |
| `BPlusTreeSet::last` | 183-185 | Set: `last` |
| `BPlusTreeSet::iter` | 203-207 | Set: `iterCalls` |
| `BPlusTreeSet::union` | 229-232 | Set: `new` |
| `BPlusTreeSet as FromIterator::from_iter` | 246-252 | Set: `fromIter` |
| `BPlusTreeSet as IntoIterator::into_iter` | 275-279 | Set: `intoIterCalls` |
| `size_hint` | 299-301 | Set: `iterCalls` |
| `next` | 303-305 | Set: `iterNext`, `iterCalls` |
| `next_back` | 309-311 | Set: `iterCalls` |
| `size_hint` | 326-328 | Set: `intoIterCalls` |
| `next` | 330-332 | Set: `intoIterCalls` |
| `next_back` | 336-338 | Set: `intoIterCalls` |
| `clone` | 354-356 | Set: `clone` |
| `next` | 362-365 | Set: `next` |
| `size_hint` | 367-371 | Set: `sizeHint` |
| `min` | 373-375 | Set: `min` |

## src/tree/bulk_load.rs

| function | lines | modelled by |
|---|---|---|
| `crate::BPlusTree::bulk_load` | 8-55 | Bulk: `LayerNode`, `linkFromPrev`, `bulkLeaves`, `Tree.bulkLoad`; BulkCrash: `bulkLeavesT`, `Tree.bulkLoadT`; BulkLedger: `Tree.bulkLoadU`, `bulkLeavesL`, `Tree.bulkLoadL`; RawCursor: `linkFromPrev`, `bulkLeaves`, `Tree.bulkLoad`; Release: `bulkLeavesR`, `Tree.bulkLoadUR` |
| `crate::BPlusTree::build_inner_layer` | 59-102 | Bulk: `expectStartKey`, `buildInner`, `buildLayer`, `buildInnerLayer`; BulkCrash: `cloneOptionT`, `cloneKeysT`, `cloneAugsT`, `buildInnerT` …; BulkLedger: `buildInnerL`, `buildLayerL`, `buildInnerLayerL`; RawCursor: `buildInner`, `buildLayer`, `buildInnerLayer` |
| `DeDupKeepLast as Iterator::next` | 122-135 | Bulk: `dedupKeepLast`; BulkCrash: `dedupNextT`; BulkLedger: `dedupU` |
| `DedupByExt::dedup_keep_last` | 139-149 | — |

## src/tree/cursor.rs

| function | lines | modelled by |
|---|---|---|
| `Cursor::new` | 24-30 | — |
| `Cursor::key` | 34-36 | — |
| `Cursor::first` | 39-56 | Cursor: `Tree.cursorFirst`; RawCursor: `Tree.cursorFirst` |
| `Cursor::last` | 60-76 | Cursor: `Tree.cursorLast`; RawCursor: `Tree.cursorLast` |
| `Cursor::prev` | 80-82 | Cursor: `Cursor.prev` |
| `Cursor::prev_with_value` | 86-132 | Count: `Cursor.hintHitsC`, `Cursor.prevPosC`, `Cursor.prevWithValueC`; Cursor: `prevLeafEnd`, `Cursor.hintHits`, `Cursor.prevPos`, `Cursor.prevWithValue`; RawCursor: `prevLeafEnd`, `cursorHintHits`, `cursorPrevPos`, `cursorPrevWithValue`; Release: `prevLeafEndR`, `Cursor.prevPosUR`, `Cursor.prevWithValueUR`; Unordered: `Cursor.hintHitsU`, `Cursor.prevPosU`, `Cursor.prevWithValueU` |
| `Cursor::next` | 136-138 | Cursor: `Cursor.next` |
| `Cursor::next_with_value` | 141-185 | Count: `Cursor.hintHitsC`, `Cursor.nextOffsetC`, `Cursor.nextWithValueC`; Cursor: `Cursor.hintHits`, `Cursor.nextOffset`, `forwardFrom`, `Cursor.nextWithValue`; RawCursor: `cursorHintHits`, `cursorNextOffset`, `forwardFrom`, `cursorNextWithValue`; Release: `Cursor.nextWithValueUR`; Unordered: `Cursor.hintHitsU`, `Cursor.nextOffsetU`, `Cursor.nextWithValueU` |
| `Cursor::exists` | 188-190 | Cursor: `Cursor.exists` |
| `Cursor::value` | 193-207 | Count: `Cursor.hintHitsC`, `Cursor.valueC`; Cursor: `Cursor.value`; RawCursor: `cursorValue`; Release: `Cursor.valueUR`; Unordered: `Cursor.valueU` |
| `Cursor::locate_leaf` | 210-225 | Count: `Cursor.locateLeafC`; Cursor: `Cursor.locateLeaf`; RawCursor: `cursorLocateLeaf`; Release: `Cursor.locateLeafUR`; Unordered: `Cursor.locateLeafU` |

## src/tree/entry_ref.rs

| function | lines | modelled by |
|---|---|---|
| `StackEntry::invalid` | 16-22 | VisitStack: `StackEntry.invalid` |
| `VisitStack::new` | 49-54 | VisitStack: `new` |
| `VisitStack::push` | 56-67 | Tree: `pushStack`; VisitStack: `push` |
| `VisitStack::pop` | 69-83 | VisitStack: `pop` |
| `EntryRefDetached::into_ref` | 96-103 | — |
| `EntryRef::new` | 115-122 | — |
| `EntryRef::into_detached` | 124-130 | — |

## src/tree/inner_node.rs

| function | lines | modelled by |
|---|---|---|
| `InnerNode as Drop::drop` | 26-37 | CloneCrash: `dropSlot`, `Clones.unwind`; DropPanic: `dropSlotsP`, `_root_.Bpt.InnerS.dropP`; Ledger: `Inner.dropEvents`; PublicNodes: `unwind`; RawCursor: `cloneInner`; Slots: `drop` |
| `InnerNode as Clone::clone` | 41-69 | CloneCrash: `(instance)`, `cloneSlotsT`, `_root_.Bpt.InnerS.cloneT`; Inner: `newFromIter`; PublicNodes: `InnerCall`; RawCursor: `cloneInner`; Slots: `clonePrefix`, `clone` |
| `InnerNode::len` | 74-76 | Inner: `len`; PublicNodes: `InnerCall` |
| `InnerNode::is_empty` | 79-81 | Inner: `isEmpty`; PublicNodes: `InnerCall` |
| `InnerNode::max_capacity` | 84-86 | PublicNodes: `InnerCall` |
| `InnerNode::split_origin_size` | 89-91 | Basic: `splitOrigin`; PublicNodes: `InnerCall` |
| `InnerNode::split_new_size` | 94-96 | PublicNodes: `InnerCall` |
| `InnerNode::minimum_size` | 99-101 | PublicNodes: `InnerCall` |
| `InnerNode::able_to_lend` | 104-106 | Inner: `ableToLend`; PublicNodes: `InnerCall`; RawTree: `innerAbleToLend` |
| `InnerNode::is_full` | 109-111 | Inner: `isFull`; PublicNodes: `InnerCall` |
| `InnerNode::empty` | 114-120 | Slots: `uninit`, `empty` |
| `InnerNode::new_from_iter` | 132-163 | BulkCrash: `InnerS.unfinished`, `cloneKeysT`, `cloneAugsT`; Inner: `newFromIter`; PublicNodes: `newFromIterPublic`; Slots: `fill`, `newFromIter` |
| `InnerNode::keys` | 165-177 | Slots: `keys` |
| `InnerNode::augmentations` | 179-192 | Slots: `augmentations` |
| `InnerNode::set_augmentation` | 195-201 | DropInsert: `insertAscendD`; Inner: `setAugmentation`; Ledger: `Inner.setAugmentationL`; Slots: `setAugmentation` |
| `InnerNode::locate_child` | 205-222 | Basic: `bsearch`; BinarySearch: `halvingSearch`, `earlySearch`; Count: `searchC`, `Inner.locateChildC`; Inner: `locateChild`; PublicNodes: `InnerCall`, `locateChildBy`; Slots: `locateChild`; Unordered: `searchU`, `Inner.locateChildU` |
| `InnerNode::insert_at` | 225-251 | Inner: `insertAt`; Release: `Inner.insertAtR`; Slots: `insertAt` |
| `InnerNode::split` | 257-397 | Inner: `split`; Release: `Inner.splitR`; Slots: `splitLow`, `splitHigh`, `split` |
| `InnerNode::remove_slot_with_right` | 401-419 | DropPanic: `_root_.Bpt.InnerS.removeSlotWithRightToDrop`; Inner: `removeSlotWithRight`; Ledger: `Inner.removeSlotWithRightL`; Release: `Inner.removeSlotWithRightR`; Slots: `removeSlotWithRight` |
| `InnerNode::merge_next` | 421-446 | Inner: `mergeNext`; Ledger: `mergeInnerNodeL`; Release: `Inner.mergeNextR`; Slots: `mergeNext` |
| `InnerNode::pop` | 449-470 | Inner: `pop`; Release: `Inner.popR`; Slots: `pop` |
| `InnerNode::pop_front` | 472-484 | Inner: `popFront`; Release: `Inner.popFrontR`; Slots: `popFront` |
| `InnerNode::push` | 486-493 | Inner: `push`; PublicNodes: `InnerCall`; Slots: `push` |
| `InnerNode::push_front` | 495-506 | Inner: `pushFront`; Slots: `pushFront` |
| `InnerNode::key` | 554-556 | Basic: `readAt`; PublicNodes: `InnerCall`; Slots: `read`, `key` |
| `InnerNode::set_key` | 558-562 | Basic: `readAt`; Inner: `setKey`; Slots: `read`, `setKey` |
| `InnerNode::child_id` | 564-566 | Basic: `readAt`; Inner: `childId`; Slots: `read`, `childId` |
| `InnerNode::key_area_mut` | 568-576 | — |
| `InnerNode::key_area` | 578-586 | — |
| `InnerNode::augmentation_area` | 588-596 | — |
| `InnerNode::augmentation_area_mut` | 598-606 | — |
| `InnerNode::child_area_mut` | 608-616 | — |
| `InnerNode::child_area` | 618-626 | — |

## src/tree/iterator.rs

| function | lines | modelled by |
|---|---|---|
| `Iter::new` | 19-30 | Iter: `Tree.iter`; RawCursor: `Tree.iter` |
| `Iter as Iterator::size_hint` | 37-39 | Iter: `Iter.sizeHint`; RawCursor: `Iter.runCalls` |
| `Iter as Iterator::next` | 41-70 | Iter: `Iter.next`; RawCursor: `Iter.next` |
| `Iter as DoubleEndedIterator::next_back` | 74-110 | Iter: `Iter.nextBack`; RawCursor: `Iter.nextBack`; Release: `Iter.nextBackR` |
| `IntoIter::new` | 126-141 | Iter: `Tree.intoIter`; RawCursor: `Tree.intoIter` |
| `IntoIter as Iterator::size_hint` | 148-150 | Iter: `IntoIter.sizeHint` |
| `IntoIter as Iterator::next` | 152-183 | Iter: `IntoIter.nextAux`; RawCursor: `IntoIter.nextAux`; Release: `IntoIter.nextAuxR` |
| `IntoIter as DoubleEndedIterator::next_back` | 187-218 | Iter: `IntoIter.nextBackAux`; RawCursor: `IntoIter.nextBackAux`; Release: `IntoIter.nextBackAuxR` |
| `IntoIter as Drop::drop` | 225-228 | DropPanic: `dropItemP`, `IntoIter.dropAuxP`, `IntoIter.dropP`; Iter: `IntoIter.dropAux`; RawCursor: `IntoIter.dropAux`; Release: `IntoIter.dropAuxR` |

## src/tree/leaf_node.rs

| function | lines | modelled by |
|---|---|---|
| `LeafNode as Clone::clone` | 26-54 | CloneCrash: `(instance)`, `cloneSlotsT`, `_root_.Bpt.LeafS.cloneT`; PublicNodes: `LeafCall`; RawCursor: `cloneLeaf`; Slots: `clonePrefix`, `clone` |
| `LeafNode::new` | 58-68 | Leaf: `empty`, `deleteWithPushFront`; PublicNodes: `LeafCall`; Slots: `uninit`, `new` |
| `LeafNode::len` | 70-72 | Leaf: `len`; PublicNodes: `LeafCall` |
| `LeafNode::is_empty` | 74-76 | PublicNodes: `LeafCall` |
| `LeafNode::split_origin_size` | 78-80 | Basic: `splitOrigin`; PublicNodes: `LeafCall` |
| `LeafNode::max_capacity` | 83-85 | PublicNodes: `LeafCall` |
| `LeafNode::minimum_size` | 89-96 | Basic: `minN`; PublicNodes: `LeafCall` |
| `LeafNode::is_full` | 98-100 | Leaf: `isFull`; PublicNodes: `LeafCall` |
| `LeafNode::able_to_lend` | 102-104 | Leaf: `ableToLend`; PublicNodes: `LeafCall`; RawTree: `leafAbleToLend` |
| `LeafNode::in_range` | 106-123 | Count: `Leaf.inRangeC`; Leaf: `inRange`; PublicNodes: `LeafCall`, `inRangeBy`; Release: `Leaf.inRangeUR`; Slots: `inRange`; Unordered: `Leaf.inRangeU` |
| `LeafNode::key_range` | 125-134 | BulkCrash: `Leaf.keyRangeT`; BulkLedger: `Leaf.keyRangeL`; Leaf: `keyRange`; PublicNodes: `LeafCall`; RawCursor: `keyRange`; Release: `Leaf.keyRangeR` |
| `LeafNode::is_size_minimum` | 136-138 | PublicNodes: `LeafCall`, `publicCall` |
| `LeafNode::set_prev` | 140-142 | Leaf: `setPrev`; PublicNodes: `LeafCall` |
| `LeafNode::prev` | 144-146 | PublicNodes: `LeafCall` |
| `LeafNode::set_next` | 148-150 | Leaf: `setNext`; PublicNodes: `LeafCall` |
| `LeafNode::next` | 152-154 | PublicNodes: `LeafCall` |
| `LeafNode::set_data` | 156-168 | Bulk: `bulkLeaves`; BulkCrash: `setDataT`; PublicNodes: `LeafCall`, `setDataChecked`; Release: `bulkLeavesR`; Slots: `setData` |
| `LeafNode::data_at` | 170-177 | Basic: `readAt`; Leaf: `dataAt`; PublicNodes: `LeafCall`; Slots: `read`, `dataAt` |
| `LeafNode::value_at_mut` | 180-182 | PublicNodes: `LeafCall`, `valueAtMut` |
| `LeafNode::try_data_at` | 184-194 | Leaf: `tryDataAt`; PublicNodes: `LeafCall`; Slots: `tryDataAt` |
| `LeafNode::try_upsert` | 213-234 | DropInsert: `insertLeafD`; Leaf: `tryUpsert`; Ledger: `insertLeafL`; Release: `Leaf.upsertAtR`; Slots: `tryUpsert`; Unordered: `Leaf.upsertAt` |
| `LeafNode::split_new_leaf` | 236-294 | Leaf: `splitNewLeaf`; Release: `Leaf.splitNewLeafR`; Slots: `splitNewLeaf` |
| `LeafNode::try_delete_at` | 296-308 | Leaf: `tryDeleteAt`; Release: `Leaf.tryDeleteAtR`; Slots: `tryDeleteAt` |
| `LeafNode::locate_slot` | 311-317 | Basic: `bsearch`; BinarySearch: `halvingSearch`, `earlySearch`; Count: `searchC`, `Leaf.locateSlotC`; Leaf: `locateSlot`; PublicNodes: `LeafCall`, `locateSlotBy`; Slots: `locateSlot`; Unordered: `searchU`, `Leaf.locateSlotU` |
| `LeafNode::locate_slot_with_value` | 320-341 | Count: `Leaf.locateSlotWithValueC`; Leaf: `locateSlotWithValue`; PublicNodes: `LeafCall`, `locateSlotWithValueBy`; RawTree: `locateSlotWithValue`; Unordered: `Leaf.locateSlotWithValueU` |
| `LeafNode::locate_slot_mut` | 343-364 | Count: `updateInLeafC`; RawTree: `updateInLeaf`; Tree: `updateInLeaf`; Unordered: `updateInLeafU` |
| `LeafNode::pop` | 367-377 | Leaf: `pop`; Release: `Leaf.popR`; Slots: `pop` |
| `LeafNode::pop_front` | 379-388 | Leaf: `popFront`; Release: `Leaf.popFrontR`; Slots: `popFront` |
| `LeafNode::delete_with_push` | 391-402 | Leaf: `deleteWithPush`; Release: `Leaf.deleteWithPushR`; Slots: `deleteWithPush` |
| `LeafNode::delete_with_push_front` | 405-415 | Leaf: `deleteWithPushFront`; Slots: `deleteWithPushFront` |
| `LeafNode::merge_right_delete_first` | 418-469 | Leaf: `mergeRightDeleteFirst`; Slots: `mergeRightDeleteFirst` |
| `LeafNode::merge_right` | 472-488 | Leaf: `mergeRight`; Slots: `mergeRight` |
| `LeafNode::take_data` | 491-501 | Iter: `IntoIter.takeData`; Release: `IntoIter.takeDataR`; Slots: `takeData` |
| `LeafNode::extend` | 503-515 | Leaf: `extend`; Slots: `extend` |
| `LeafNode::delete_at` | 517-525 | Leaf: `deleteAt`; Release: `Leaf.deleteAtR`; Slots: `deleteAt` |
| `LeafNode::keys` | 527-539 | Leaf: `keys`; PublicNodes: `LeafCall`; Slots: `keys` |
| `LeafNode::values` | 541-553 | Leaf: `values`; PublicNodes: `LeafCall`; Slots: `values` |
| `LeafNode::key_area_mut` | 555-563 | — |
| `LeafNode::key_area` | 565-573 | — |
| `LeafNode::value_area_mut` | 575-583 | — |
| `LeafNode::value_area` | 585-593 | — |

## src/tree/mod.rs

| function | lines | modelled by |
|---|---|---|
| `BPlusTree::new` | 100-110 | RawTree: `Tree.new`; Reuse: `Tree.newOn`; Tree: `Tree.new` |
| `BPlusTree::new_from_parts` | 113-133 | Bulk: `Tree.newFromParts`; BulkCrash: `Tree.newFromPartsT`; BulkLedger: `Tree.newFromPartsL`; RawCursor: `Tree.newFromParts` |
| `BPlusTree::len` | 141-143 | — |
| `BPlusTree::is_empty` | 146-148 | RawTree: `Tree.isEmpty`; Tree: `Tree.isEmpty` |
| `BPlusTree::root_augmentation` | 151-153 | — |
| `BPlusTree::insert` | 156-197 | Count: `Tree.insertC`; Crash: `Tree.finishInsertT`, `Tree.insertT`; DropInsert: `Tree.finishInsertD`, `Tree.insertD`; Ledger: `Tree.finishInsertL`, `Tree.insertL`; RawTree: `Tree.insert`; Release: `Tree.insertUR`; Tree: `Tree.insert`; Unordered: `Tree.finishInsert`, `Tree.insertU` |
| `BPlusTree::statistic` | 209-211 | — |
| `BPlusTree::descend_insert` | 213-223 | Count: `descendInsertC`; Crash: `descendInsertT`; DropInsert: `descendInsertD`; Ledger: `descendInsertL`; RawTree: `descendInsert`; Release: `descendInsertUR`; Tree: `descendInsert`; Unordered: `descendInsertU` |
| `BPlusTree::insert_inner` | 225-296 | Count: `stackStepC`, `descendInsertC`; Crash: `insertAscendT`, `descendInsertT`; DropInsert: `insertAscendD`, `descendInsertD`; Ledger: `insertAscendL`, `descendInsertL`; RawTree: `insertDescendStep`, `insertAscend`, `insertInner`; Release: `insertAscendR`, `descendInsertUR`; Tree: `descend`, `insertDescendStep`, `insertAscend`, `insertInner`; Unordered: `stackStepU`, `descendInsertU` |
| `BPlusTree::new_augmentation_for_id` | 298-309 | Crash: `Callback.ofLeaf`, `Callback.ofInner`, `newAugmentationT`; Ledger: `newAugmentationL`; RawTree: `newAugmentationForId`; Tree: `newAugmentationForId` |
| `BPlusTree::insert_leaf` | 311-341 | Count: `insertLeafC`; Crash: `insertLeafT`; DropInsert: `insertLeafD`; Ledger: `insertLeafL`; RawTree: `setPrevOfNext`, `insertLeaf`; Release: `insertLeafAtR`, `insertLeafUR`; Tree: `insertLeaf`; Unordered: `insertLeafAt`, `insertLeafU` |
| `BPlusTree::get` | 344-354 | Concurrent: `Call.shared`, `Reader.load`; Count: `Tree.getC`; Crash: `Tree.getT`; RawTree: `Tree.get`; Release: `Tree.getUR`; Tree: `Tree.get`; Unordered: `Tree.getU` |
| `BPlusTree::get_mut` | 357-372 | Count: `Tree.getMutC`; Crash: `Tree.getMutT`; RawTree: `Tree.getMut`; Release: `Tree.getMutUR`; Tree: `Tree.getMut`; Unordered: `Tree.getMutU` |
| `BPlusTree::first` | 375-394 | RawTree: `firstStep`, `Tree.first`; Tree: `descend`, `firstStep`, `Tree.first` |
| `BPlusTree::last` | 397-416 | RawTree: `lastStep`, `Tree.last`; Release: `Tree.lastR`; Tree: `descend`, `lastStep`, `Tree.last` |
| `BPlusTree::find_descend` | 418-433 | Concurrent: `Reader.load`; Count: `findDescendLeafC`; RawTree: `locateStep`, `findDescendLeaf`, `Tree.get`; Tree: `descend`, `locateStep`, `findDescendLeaf`, `Tree.get`; Unordered: `findDescendLeafU` |
| `BPlusTree::find_in_leaf` | 435-442 | Count: `findInLeafC`; RawTree: `findInLeaf`; Tree: `descend`, `findInLeaf`; Unordered: `findInLeafU` |
| `BPlusTree::find_descend_mut` | 444-456 | RawTree: `locateStep`, `Tree.getMut`; Tree: `descend`, `locateStep` |
| `BPlusTree::find_in_leaf_mut` | 458-465 | RawTree: `Tree.getMut` |
| `BPlusTree::find_in_leaf_mut_and_cache_it` | 467-479 | RawTree: `Tree.getMut` |
| `BPlusTree::find_in_leaf_and_cache_it` | 483-495 | Concurrent: `Step`; RawTree: `Tree.get`; Tree: `Tree.get` |
| `BPlusTree::remove` | 498-504 | Concurrent: `Call.shared`; Count: `Tree.removeC`; Crash: `Tree.removeT`; DropRemove: `Tree.removeD`; Ledger: `Tree.removeL`; RawRemove: `Tree.remove`; Release: `Tree.removeUR`; Remove: `Tree.remove`; Unordered: `Tree.removeU` |
| `BPlusTree::key_to_ref` | 506-532 | Concurrent: `Call.shared`; Count: `stackStepC`, `Tree.keyToRefC`; Crash: `Tree.removeT`; DropRemove: `Tree.removeD`; RawRemove: `Tree.keyToRef`; Remove: `Tree.keyToRef`; Tree: `descend`; Unordered: `stackStepU`, `Tree.keyToRefU` |
| `BPlusTree::first_leaf` | 535-555 | Concurrent: `Call.shared`; RawTree: `firstStep`, `Tree.firstLeaf`; Tree: `firstStep`, `Tree.firstLeaf` |
| `BPlusTree::last_leaf` | 558-578 | Concurrent: `Call.shared`; RawTree: `lastStep`, `Tree.lastLeaf`; Tree: `lastStep`, `Tree.lastLeaf` |
| `BPlusTree::locate_leaf` | 583-607 | Concurrent: `Call.shared`, `Reader.load`; Count: `Tree.locateLeafC`; RawTree: `locateStep`, `Tree.locateLeaf`; Release: `Cursor.locateLeafUR`; Tree: `locateStep`, `Tree.locateLeaf`; Unordered: `Cursor.locateLeafU` |
| `BPlusTree::descend_visit_inner` | 609-623 | Concurrent: `Call.shared`; Tree: `descend` |
| `BPlusTree::iter` | 626-628 | Concurrent: `Call.shared` |
| `BPlusTree::cursor_first` | 632-634 | Concurrent: `Call.shared` |
| `BPlusTree::get_cursor` | 637-660 | Concurrent: `Call.shared`; Count: `Tree.getCursorC`; Cursor: `Tree.getCursor`; RawCursor: `Tree.getCursor`; RawTree: `locateStep`; Tree: `locateStep`; Unordered: `Tree.getCursorU` |
| `BPlusTree::clear` | 663-666 | Concurrent: `Call.shared`; Crash: `Tree.ucallT`; DropPanic: `Tree.clearP`; Ledger: `Tree.ucallL`; RawTree: `Tree.clear`; Tree: `Tree.clear` |
| `BPlusTree::get_ref_by_augmentation` | 669-703 | Concurrent: `Call.shared`; RawCursor: `searchStep`, `Tree.getRefByAugmentation`; SearchCrash: `searchStepT`, `Tree.getRefByAugmentationT`; Tree: `descend`; Visit: `searchStep`, `Tree.getRefByAugmentation` |
| `BPlusTree::get_by_augmentation` | 706-712 | Concurrent: `Call.shared`; RawCursor: `Tree.getByAugmentation`; SearchCrash: `Tree.getByAugmentationT`; Visit: `Tree.getByAugmentation` |
| `BPlusTree::get_mut_by_augmentation` | 715-723 | Concurrent: `Call.shared`; RawCursor: `Tree.getMutByAugmentation`; SearchCrash: `Tree.getMutByAugmentationT`; Visit: `Tree.getMutByAugmentation` |
| `BPlusTree::rank_by_augmentation` | 726-758 | Concurrent: `Call.shared`; RawCursor: `rankStep`, `Tree.rankByAugmentation`; SearchCrash: `rankStepT`, `Tree.rankByAugmentationT`; Tree: `descend`; Visit: `rankStep`, `Tree.rankByAugmentation` |
| `BPlusTree::remove_by_augmentation` | 761-767 | RawCursor: `Tree.removeByAugmentation`; SearchCrash: `Tree.removeByAugmentationT`; Visit: `Tree.removeByAugmentation` |
| `BPlusTree::get_by_ref` | 770-774 | RawCursor: `Tree.getByAugmentation`; SearchCrash: `Tree.getByAugmentationT`; Visit: `Tree.getByAugmentation` |
| `BPlusTree::get_mut_by_ref` | 777-788 | RawCursor: `Tree.getMutByAugmentation`; SearchCrash: `Tree.getMutByAugmentationT`; Visit: `Tree.getMutByAugmentation` |
| `BPlusTree as Drop::drop` | 819-821 | DropPanic: `Tree.dropP`; Iter: `Tree.drop`; Ledger: `Tree.dropL`; Release: `Tree.dropR` |
| `BPlusTree as IntoIterator::into_iter` | 828-830 | — |
| `_ensure_send` | 960-963 | — |

## src/tree/node_id.rs

| function | lines | modelled by |
|---|---|---|
| `InnerNodeId::from_usize` | 9-11 | — |
| `InnerNodeId::as_usize` | 14-16 | — |
| `LeafNodeId::from_usize` | 24-26 | — |
| `LeafNodeId::as_usize` | 29-31 | — |
| `NodeId::leaf_id` | 42-47 | — |
| `NodeId::leaf_id_unchecked` | 50-55 | Basic: `NodeId.leafIdUnchecked` |
| `NodeId::inner_id` | 58-63 | — |
| `NodeId::inner_id_unchecked` | 66-71 | Basic: `NodeId.innerIdUnchecked` |
| `NodeId as From::from` | 75-77 | — |
| `NodeId as From::from` | 81-83 | — |

## src/tree/node_stores/vec_backed.rs

| function | lines | modelled by |
|---|---|---|
| `NodeStoreVec as Clone::clone` | 12-20 | CloneCrash: `(instance)`, `cloneInnersT`, `cloneLeavesT`, `Store.cloneT`; DropPanic: `dropInnersP`; RawCursor: `Store.clone` |
| `NodeStoreVec as Default::default` | 24-30 | RawTree: `empty`; Store: `empty` |
| `NodeStoreVec::new` | 35-37 | — |
| `NodeStoreVec::with_capacity` | 40-46 | — |
| `NodeStoreVec as NodeStore::inner_n` | 89-91 | — |
| `NodeStoreVec as NodeStore::leaf_n` | 93-95 | — |
| `NodeStoreVec as NodeStore::new_empty_leaf` | 115-120 | PublicNodes: `publicCall`; RawTree: `newEmptyLeaf`; Store: `newEmptyLeaf` |
| `NodeStoreVec as NodeStore::add_inner` | 122-126 | PublicNodes: `publicCall`; RawTree: `addInner`; Store: `addInner` |
| `NodeStoreVec as NodeStore::get_inner` | 129-139 | PublicNodes: `publicCall`; RawTree: `getInner`; Store: `getInner` |
| `NodeStoreVec as NodeStore::try_get_inner` | 141-144 | PublicNodes: `tryGetInner`, `publicCall` |
| `NodeStoreVec as NodeStore::get_mut_inner` | 147-157 | PublicNodes: `publicCall`; RawTree: `getInner`; Store: `getInner` |
| `NodeStoreVec as NodeStore::take_inner` | 159-161 | PublicNodes: `publicCall`; RawTree: `takeInner`; Store: `takeInner` |
| `NodeStoreVec as NodeStore::put_back_inner` | 163-165 | PublicNodes: `putBackInner`, `publicCall` |
| `NodeStoreVec as NodeStore::reserve_leaf` | 167-171 | PublicNodes: `publicCall`; RawTree: `reserveLeaf`; Store: `reserveLeaf` |
| `NodeStoreVec as NodeStore::get_leaf` | 174-184 | PublicNodes: `publicCall`; RawTree: `getLeaf`; Store: `getLeaf` |
| `NodeStoreVec as NodeStore::try_get_leaf` | 186-189 | PublicNodes: `publicCall`; RawTree: `tryGetLeaf`; Store: `tryGetLeaf` |
| `NodeStoreVec as NodeStore::get_mut_leaf` | 192-200 | PublicNodes: `publicCall`; RawTree: `getLeaf`; Store: `getLeaf` |
| `NodeStoreVec as NodeStore::take_leaf` | 202-204 | PublicNodes: `publicCall`; RawTree: `takeLeaf`; Store: `takeLeaf` |
| `NodeStoreVec as NodeStore::assign_leaf` | 206-208 | PublicNodes: `publicCall`; RawTree: `assignLeaf`; Store: `assignLeaf` |
| `NodeStoreVec as NodeStore::get_mut_inner_ptr` | 211-222 | PublicNodes: `publicCall`; RawTree: `getInner`; Store: `getInner` |
| `NodeStoreVec as NodeStore::cache_leaf` | 224-227 | PublicNodes: `publicCall`; RawTree: `cacheLeaf`; Store: `cacheLeaf` |
| `NodeStoreVec as NodeStore::try_cache` | 229-246 | Count: `Store.tryCacheC`; PublicNodes: `tryCacheBy`, `publicCall`; RawTree: `tryCache`; Release: `Store.tryCacheUR`; Store: `tryCacheAt`, `tryCache`; Unordered: `Store.tryCacheU` |
| `_ensure_send` | 250-253 | — |

## src/tree/slice_utils.rs

| function | lines | modelled by |
|---|---|---|
| `slice_insert` | 10-20 | Basic: `sliceInsert`; Release: `sliceInsertR`; Slots: `insert` |
| `slice_remove` | 27-36 | Basic: `sliceRemove`; Release: `sliceRemoveR`; Slots: `remove` |
| `move_to_slice` | 41-46 | Slots: `moveTo` |

## src/tree/tree_remove.rs

| function | lines | modelled by |
|---|---|---|
| `BPlusTree::remove_impl` | 8-16 | Count: `Tree.removeC`; Crash: `Tree.removeT`; DropRemove: `Tree.removeD`; Ledger: `Tree.removeL`; RawRemove: `Tree.removeImpl`; Release: `Tree.removeImplUR`; Remove: `Tree.removeImpl`; Unordered: `Tree.removeImplU` |
| `BPlusTree::remove_by_ref` | 18-95 | Crash: `removeAscendT`, `Tree.removeByRefT`; DropRemove: `removeAscendD`, `Tree.removeByRefD`; Ledger: `removeAscendL`, `Tree.removeByRefL`; RawRemove: `removeAscend`, `removeRoot`, `Tree.removeByRef`; Release: `removeAscendR`, `removeRootR`, `Tree.removeByRefR`; Remove: `removeAscend`, `removeRoot`, `Tree.removeByRef` |
| `BPlusTree::handle_inner_under_size` | 97-129 | Crash: `handleInnerUnderSizeT`; DropRemove: `handleInnerUnderSizeD`; Ledger: `handleInnerUnderSizeL`; RawRemove: `handleInnerUnderSize`; Release: `handleInnerUnderSizeR`; Remove: `handleInnerUnderSize` |
| `BPlusTree::handle_leaf_under_size` | 131-233 | Crash: `handleLeafUnderSizeT`; DropRemove: `handleLeafUnderSizeD`; Ledger: `handleLeafUnderSizeL`; RawRemove: `chooseFix`, `siblingLeaf`, `handleLeafUnderSize`; Release: `handleLeafUnderSizeR`; Remove: `chooseFix`, `handleLeafUnderSize` |
| `BPlusTree::try_rotate_right_for_inner_node` | 235-267 | Crash: `tryRotateRightInnerT`; DropRemove: `tryRotateRightInnerD`; Ledger: `tryRotateRightInnerL`; RawRemove: `tryRotateRightInner`; Release: `tryRotateRightInnerR`; Remove: `tryRotateRightInner` |
| `BPlusTree::try_rotate_left_for_inner_node` | 269-302 | Crash: `tryRotateLeftInnerT`; DropRemove: `tryRotateLeftInnerD`; Ledger: `tryRotateLeftInnerL`; RawRemove: `tryRotateLeftInner`; Release: `tryRotateLeftInnerR`; Remove: `tryRotateLeftInner` |
| `BPlusTree::merge_inner_node` | 304-330 | Crash: `mergeInnerNodeT`; DropRemove: `mergeInnerNodeD`; Ledger: `mergeInnerNodeL`; RawRemove: `mergeInnerNode`; Release: `mergeInnerNodeR`; Remove: `mergeInnerNode`; Slots: `mergeInnerNode` |
| `BPlusTree::rotate_right_for_leaf` | 332-361 | Crash: `rotateRightForLeafT`; DropRemove: `rotateRightForLeafD`; Ledger: `rotateRightForLeafL`; RawRemove: `rotateRightForLeaf`; Release: `rotateRightForLeafR`; Remove: `rotateRightForLeaf` |
| `BPlusTree::rotate_left_for_leaf` | 363-391 | Crash: `rotateLeftForLeafT`; DropRemove: `rotateLeftForLeafD`; Ledger: `rotateLeftForLeafL`; RawRemove: `rotateLeftForLeaf`; Release: `rotateLeftForLeafR`; Remove: `rotateLeftForLeaf` |
| `BPlusTree::merge_leaf_node_left` | 393-418 | Crash: `mergeLeafNodeLeftT`; DropRemove: `mergeLeafNodeLeftD`; Ledger: `mergeLeafNodeLeftL`; RawRemove: `relinkNext`, `mergeLeafNodeLeft`; Release: `mergeLeafNodeLeftR`; Remove: `relinkNext`, `mergeLeafNodeLeft` |
| `BPlusTree::merge_leaf_node_with_right` | 420-447 | Crash: `mergeLeafNodeWithRightT`; DropRemove: `mergeLeafNodeWithRightD`; Ledger: `mergeLeafNodeWithRightL`; RawRemove: `relinkNext`, `mergeLeafNodeWithRight`; Release: `mergeLeafNodeWithRightR`; Remove: `relinkNext`, `mergeLeafNodeWithRight` |

## src/tree/visit.rs

| function | lines | modelled by |
|---|---|---|
| `super::BPlusTree::descend_visit` | 25-58 | RawCursor: `visitStep`, `Tree.descendVisit`; SearchCrash: `visitStepT`, `Tree.descendVisitT`; Tree: `descend`; Visit: `visitStep`, `Tree.descendVisit` |

## Functions no definition cites

* `Count::count` (src/augment/count.rs): reads the only field; `Count` is that number (`Model/Augment.lean`)
* `GroupCount::is_zero` (src/augment/group.rs): a test for one constructor; not called by the crate
* `MergeIterInner as Debug::fmt` (src/merge_iter.rs): formatting
* `BPlusTreeSet as Default::default` (src/set.rs): `BPlusTreeSet::new`, modelled as `TreeSet.new`
* `DedupByExt::dedup_keep_last` (src/tree/bulk_load.rs): constructor of the iterator `dedupKeepLast` models
* `Cursor::new` (src/tree/cursor.rs): constructor of the record `Cursor`
* `Cursor::key` (src/tree/cursor.rs): field read of the record `Cursor`
* `EntryRefDetached::into_ref` (src/tree/entry_ref.rs): re-attaches the borrow; no run-time effect on the fields of `EntryRef`
* `EntryRef::new` (src/tree/entry_ref.rs): constructor of the record `EntryRef`
* `EntryRef::into_detached` (src/tree/entry_ref.rs): detaches the borrow; no run-time effect on the fields of `EntryRef`
* `InnerNode::key_area_mut` (src/tree/inner_node.rs): an unchecked sub-slice of the slot array; each use in `Model/Slots.lean` reads the slots directly and faults outside the array
* `InnerNode::key_area` (src/tree/inner_node.rs): an unchecked sub-slice of the slot array; each use in `Model/Slots.lean` reads the slots directly and faults outside the array
* `InnerNode::augmentation_area` (src/tree/inner_node.rs): an unchecked sub-slice of the slot array; each use in `Model/Slots.lean` reads the slots directly and faults outside the array
* `InnerNode::augmentation_area_mut` (src/tree/inner_node.rs): an unchecked sub-slice of the slot array; each use in `Model/Slots.lean` reads the slots directly and faults outside the array
* `InnerNode::child_area_mut` (src/tree/inner_node.rs): an unchecked sub-slice of the slot array; each use in `Model/Slots.lean` reads the slots directly and faults outside the array
* `InnerNode::child_area` (src/tree/inner_node.rs): an unchecked sub-slice of the slot array; each use in `Model/Slots.lean` reads the slots directly and faults outside the array
* `LeafNode::key_area_mut` (src/tree/leaf_node.rs): an unchecked sub-slice of the slot array; each use in `Model/Slots.lean` reads the slots directly and faults outside the array
* `LeafNode::key_area` (src/tree/leaf_node.rs): an unchecked sub-slice of the slot array; each use in `Model/Slots.lean` reads the slots directly and faults outside the array
* `LeafNode::value_area_mut` (src/tree/leaf_node.rs): an unchecked sub-slice of the slot array; each use in `Model/Slots.lean` reads the slots directly and faults outside the array
* `LeafNode::value_area` (src/tree/leaf_node.rs): an unchecked sub-slice of the slot array; each use in `Model/Slots.lean` reads the slots directly and faults outside the array
* `BPlusTree::len` (src/tree/mod.rs): field read `Tree.len`
* `BPlusTree::root_augmentation` (src/tree/mod.rs): field read `Tree.rootAug`
* `BPlusTree::statistic` (src/tree/mod.rs): field read `Tree.st`
* `BPlusTree as IntoIterator::into_iter` (src/tree/mod.rs): `IntoIter::new`, modelled as `Tree.intoIter`
* `_ensure_send` (src/tree/mod.rs): a compile-time check of `Send`; what it is for is C13
* `InnerNodeId::from_usize` (src/tree/node_id.rs): ids are natural numbers
* `InnerNodeId::as_usize` (src/tree/node_id.rs): ids are natural numbers
* `LeafNodeId::from_usize` (src/tree/node_id.rs): ids are natural numbers
* `LeafNodeId::as_usize` (src/tree/node_id.rs): ids are natural numbers
* `NodeId::leaf_id` (src/tree/node_id.rs): pattern matching on `NodeId`
* `NodeId::inner_id` (src/tree/node_id.rs): pattern matching on `NodeId`
* `NodeId as From::from` (src/tree/node_id.rs): the constructors of `NodeId`
* `NodeId as From::from` (src/tree/node_id.rs): the constructors of `NodeId`
* `NodeStoreVec::new` (src/tree/node_stores/vec_backed.rs): `default`
* `NodeStoreVec::with_capacity` (src/tree/node_stores/vec_backed.rs): `default` up to allocation
* `NodeStoreVec as NodeStore::inner_n` (src/tree/node_stores/vec_backed.rs): the constant `innerN`
* `NodeStoreVec as NodeStore::leaf_n` (src/tree/node_stores/vec_backed.rs): the constant `leafN`
* `_ensure_send` (src/tree/node_stores/vec_backed.rs): a compile-time check of `Send`; what it is for is C13
