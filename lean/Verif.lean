import Verif.Model.Basic
import Verif.Model.Leaf
import Verif.Model.Inner
import Verif.Model.Store
import Verif.Model.Tree
import Verif.Model.Remove
import Verif.Model.Cursor
import Verif.Model.Iter
import Verif.Model.Bulk
import Verif.Model.Visit
import Verif.Model.VisitStack
import Verif.Model.Augment
import Verif.Model.Set
import Verif.Spec
import Verif.Proofs.Insert
import Verif.Proofs.Remove
import Verif.Proofs.Mutate
import Verif.Proofs.Cursor
import Verif.Proofs.Iter
import Verif.Model.Examples
import Verif.Proofs.Search
import Verif.SearchSpec
import Verif.Proofs.SearchOut
import Verif.Proofs.VisitStack
import Verif.Proofs.Weighted
import Verif.Proofs.Hom
import Verif.Proofs.Bulk
import Verif.Proofs.BulkLoad
import Verif.AugSpec
import Verif.History
import Verif.Proofs.SpecLemmas
import Verif.Proofs.ReachInv
import Verif.EvenHistory
import Verif.Proofs.ReachEven
import Verif.Props.Demo
import Verif.Props.Map
import Verif.Props.Iterators
import Verif.Proofs.WeightedTree
import Verif.Props.OrderStatistics
import Verif.Props.Augmentations
import Verif.Props.Multiset
import Verif.SetHistory
import Verif.Proofs.Sets
import Verif.Props.Sets
import Verif.Structure
import Verif.Proofs.Structure
import Verif.Proofs.Rank
import Verif.Props.Structure
import Verif.Props.Searches
import Verif.Props.Safety
import Verif.Props.BulkLoaded
import Verif.Props.Aftermath
import Verif.Proofs.Group
import Verif.Proofs.GroupTree
import Verif.Props.Groups
import Verif.Model.Concurrent
import Verif.Model.BinarySearch
import Verif.Props.Concurrent
import Verif.Props.BinarySearch
import Verif.Model.Slots
import Verif.Proofs.Slots
import Verif.Props.Slots
import Verif.Props.InnerSlots
import Verif.Model.RawTree
import Verif.Model.RawRemove
import Verif.Model.RawCursor
import Verif.Proofs.RawNode
import Verif.Proofs.RawTree
import Verif.Proofs.RawRemove
import Verif.Proofs.RawCursor
import Verif.Proofs.RawBulk
import Verif.RawHistory
import Verif.Proofs.RawInto
import Verif.Proofs.RawHistory
import Verif.Props.Raw
import Verif.Model.Unordered
import Verif.LawlessHistory
import Verif.Proofs.Unordered
import Verif.Proofs.Lawful
import Verif.Props.Unordered
import Verif.Model.Crash
import Verif.Proofs.Crash
import Verif.Proofs.CrashInsert
import Verif.Proofs.CrashRemove
import Verif.Proofs.CrashExact
import Verif.Proofs.Aftermath
import Verif.MadeSpec
import Verif.Proofs.CrashLedger
import Verif.Props.Crash
import Verif.Props.Ownership
import Verif.MemorySpec
import Verif.MemoryLife
import Verif.Proofs.Memory
import Verif.Proofs.NodeCount
import Verif.Proofs.NodeCountBulk
import Verif.Props.Memory
import Verif.Model.Count
import Verif.Proofs.Count
import Verif.Proofs.CountLawful
import Verif.Proofs.CountCalls
import Verif.Props.Count
import Verif.EquivSpec
import Verif.Proofs.MapKeys
import Verif.Proofs.MapKeysCalls
import Verif.Proofs.MapKeysRun
import Verif.Proofs.EquivSpec
import Verif.Proofs.MapKeysBulk
import Verif.Props.Keys
import Verif.Model.Map
import Verif.MapHistory
import Verif.Props.MapApi
import Verif.GroupSpec
import Verif.Proofs.GroupExact
import Verif.Props.GroupsExact
import Verif.Model.Dates
import Verif.DateSpec
import Verif.Proofs.Dates
import Verif.Props.Dates
import Verif.CallbackSpec
import Verif.Proofs.CrashArgs
import Verif.Props.Arguments
import Verif.Model.Ledger
import Verif.OwnershipSpec
import Verif.Proofs.Ledger
import Verif.Proofs.LedgerBal
import Verif.Proofs.LedgerRemove
import Verif.Proofs.LedgerLife
import Verif.Props.Books
import Verif.Proofs.MergeCount
import Verif.Props.BooksMerge
import Verif.Model.BulkLedger
import Verif.LoadSpec
import Verif.Proofs.BulkLedger
import Verif.StartSpec
import Verif.Proofs.Start
import Verif.Props.Loads
import Verif.Props.Starts
import Verif.ReleaseSpec
import Verif.Model.Release
import Verif.Proofs.Release
import Verif.Proofs.ReleaseRemove
import Verif.Props.Release
import Verif.Model.BulkCrash
import Verif.Model.CloneCrash
import Verif.Proofs.BulkCrash
import Verif.Proofs.BulkTally
import Verif.Proofs.BulkCalls
import Verif.Proofs.CloneCrash
import Verif.Proofs.Reuse
import Verif.Props.Reuse
import Verif.Props.BulkCrash
import Verif.Props.CloneCrash
import Verif.Model.DropPanic
import Verif.Model.DropInsert
import Verif.Model.DropRemove
import Verif.DropPanicSpec
import Verif.Proofs.DropPanic
import Verif.Proofs.DropInsert
import Verif.Proofs.DropRemove
import Verif.Proofs.DropLast
import Verif.Proofs.DropBare
import Verif.Proofs.AfterIter
import Verif.LenSpec
import Verif.Proofs.AfterCalls
import Verif.Proofs.AfterLen
import Verif.Props.DropPanic
import Verif.Props.DropInsert
import Verif.Props.DropRemove
import Verif.Props.DropAfter
import Verif.Props.AfterIter
import Verif.Props.AfterCalls
import Verif.Proofs.AfterMany
import Verif.Props.AfterMany
import Verif.Model.PublicNodes
import Verif.PublicSpec
import Verif.Proofs.PublicNodes
import Verif.Props.PublicNodes
import Verif.ShapeSpec
import Verif.Proofs.Shape
import Verif.Props.Shape
import Verif.SyncSpec
import Verif.Proofs.Sync
import Verif.Props.Sync
import Verif.QuerySpec
import Verif.Model.SearchCrash
import Verif.Proofs.SearchCrash
import Verif.Props.SearchCrash
