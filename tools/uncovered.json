{
 "Count::count": "reads the only field; `Count` is that number (`Model/Augment.lean`)",
 "GroupCount::is_zero": "a test for one constructor; not called by the crate",
 "MergeIterInner as Debug::fmt": "formatting",
 "BPlusTreeSet as Default::default": "`BPlusTreeSet::new`, modelled as `TreeSet.new`",
 "DedupByExt::dedup_keep_last": "constructor of the iterator `dedupKeepLast` models",
 "Cursor::new": "constructor of the record `Cursor`",
 "Cursor::key": "field read of the record `Cursor`",
 "EntryRefDetached::into_ref": "re-attaches the borrow; no run-time effect on the fields of `EntryRef`",
 "EntryRef::new": "constructor of the record `EntryRef`",
 "EntryRef::into_detached": "detaches the borrow; no run-time effect on the fields of `EntryRef`",
 "BPlusTree::len": "field read `Tree.len`",
 "BPlusTree::root_augmentation": "field read `Tree.rootAug`",
 "BPlusTree::statistic": "field read `Tree.st`",
 "BPlusTree as IntoIterator::into_iter": "`IntoIter::new`, modelled as `Tree.intoIter`",
 "_ensure_send": "a compile-time check of `Send`; what it is for is C13",
 "NodeId::leaf_id": "pattern matching on `NodeId`",
 "NodeId::inner_id": "pattern matching on `NodeId`",
 "NodeId as From::from": "the constructors of `NodeId`",
 "NodeStoreVec::new": "`default`",
 "NodeStoreVec::with_capacity": "`default` up to allocation",
 "NodeStoreVec as NodeStore::inner_n": "the constant `innerN`",
 "NodeStoreVec as NodeStore::leaf_n": "the constant `leafN`",
 "InnerNodeId::from_usize": "ids are natural numbers",
 "InnerNodeId::as_usize": "ids are natural numbers",
 "LeafNodeId::from_usize": "ids are natural numbers",
 "LeafNodeId::as_usize": "ids are natural numbers",
 "InnerNode::key_area": "an unchecked sub-slice of the slot array; each use in `Model/Slots.lean` reads the slots directly and faults outside the array",
 "InnerNode::key_area_mut": "an unchecked sub-slice of the slot array; each use in `Model/Slots.lean` reads the slots directly and faults outside the array",
 "InnerNode::augmentation_area": "an unchecked sub-slice of the slot array; each use in `Model/Slots.lean` reads the slots directly and faults outside the array",
 "InnerNode::augmentation_area_mut": "an unchecked sub-slice of the slot array; each use in `Model/Slots.lean` reads the slots directly and faults outside the array",
 "InnerNode::child_area": "an unchecked sub-slice of the slot array; each use in `Model/Slots.lean` reads the slots directly and faults outside the array",
 "InnerNode::child_area_mut": "an unchecked sub-slice of the slot array; each use in `Model/Slots.lean` reads the slots directly and faults outside the array",
 "LeafNode::key_area": "an unchecked sub-slice of the slot array; each use in `Model/Slots.lean` reads the slots directly and faults outside the array",
 "LeafNode::key_area_mut": "an unchecked sub-slice of the slot array; each use in `Model/Slots.lean` reads the slots directly and faults outside the array",
 "LeafNode::value_area": "an unchecked sub-slice of the slot array; each use in `Model/Slots.lean` reads the slots directly and faults outside the array",
 "LeafNode::value_area_mut": "an unchecked sub-slice of the slot array; each use in `Model/Slots.lean` reads the slots directly and faults outside the array"
}