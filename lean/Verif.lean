import Verif.Model.SizedEncode
import Verif.Model.SizedStr
import Verif.Model.Slot
import Verif.Proofs.Encode
import Verif.Proofs.Local
import Verif.Proofs.RoundTrip
import Verif.Proofs.Ends
import Verif.Proofs.MaxSize
import Verif.Proofs.Sizes
import Verif.Proofs.Quiet
import Verif.Proofs.Utf8
import Verif.Props.Streams
import Verif.Props.Encoding
import Verif.Props.Decoding
import Verif.Props.Sizes
import Verif.Props.Slots
import Verif.Props.Iterators
import Verif.Props.SizedSlices
import Verif.Props.SizedStrings
import Verif.Props.Texts
import Verif.Props.Primitives
import Verif.Props.Derived
import Verif.Props.Sharing
import Verif.Props.Maps
import Verif.Props.DecodeErrors
import Verif.Spec.Accepts
import Verif.Spec.Canonical
import Verif.Spec.Calendar
import Verif.Spec.Reach
import Verif.Spec.Refuses
import Verif.Proofs.Accepts
import Verif.Proofs.AcceptsTy
import Verif.Proofs.Canonical
import Verif.Proofs.Reach
import Verif.Proofs.Refuses
import Verif.Props.Language
import Verif.Props.Refusals
import Verif.Model.Macro
import Verif.Spec.Macro
import Verif.Proofs.Macro
import Verif.Props.Macros
import Verif.Model.Ownership
import Verif.Spec.Ownership
import Verif.Proofs.Ownership
import Verif.Props.Ownership
import Verif.Model.Party
import Verif.Spec.Party
import Verif.Proofs.Party
import Verif.Props.Parties
import Verif.Model.Shared
import Verif.Spec.Shared
import Verif.Proofs.Shared
import Verif.Props.Concurrency
import Verif.Spec.Evolution
import Verif.Proofs.Evolution
import Verif.Props.Evolution
import Verif.Model.Memory
import Verif.Spec.Memory
import Verif.Proofs.Memory
import Verif.Proofs.MemoryTy
import Verif.Model.SlotMemory
import Verif.Spec.SlotMemory
import Verif.Proofs.SlotMemory
import Verif.Props.Memory
import Verif.Model.BuildMemory
import Verif.Spec.BuildMemory
import Verif.Proofs.BuildMemory
import Verif.Props.BuildMemory
import Verif.Model.Track
import Verif.Spec.Track
import Verif.Proofs.Track
import Verif.Proofs.TrackBalance
import Verif.Proofs.TrackTidy
import Verif.Proofs.TrackLost
import Verif.Proofs.TrackKeep
import Verif.Props.Track
import Verif.Model.View
import Verif.Spec.View
import Verif.Proofs.View
import Verif.Props.Views
import Verif.Model.ErrorTypes
import Verif.Spec.ErrorTypes
import Verif.Proofs.ErrorTypes
import Verif.Proofs.ErrorTypesWithin
import Verif.Proofs.ErrorMessages
import Verif.Props.ErrorTypes
import Verif.Proofs.Poisoned
import Verif.Model.Recursive
import Verif.Spec.Recursive
import Verif.Proofs.Recursive
import Verif.Proofs.RecursiveTy
import Verif.Proofs.RecursiveEnds
import Verif.Props.Recursive
import Verif.Model.Features
import Verif.Spec.Features
import Verif.Proofs.Features
import Verif.Props.Features
import Verif.Model.Benchmark
import Verif.Spec.Benchmark
import Verif.Proofs.Benchmark
import Verif.Props.Benchmarks
import Verif.Model.Capacity
import Verif.Props.Capacity
import Verif.Model.Cost
import Verif.Spec.Cost
import Verif.Proofs.Cost
import Verif.Proofs.CostTy
import Verif.Proofs.CostTrack
import Verif.Proofs.CostRate
import Verif.Props.Costs
import Verif.Model.Locks
import Verif.Spec.Locks
import Verif.Proofs.Locks
import Verif.Proofs.LocksEnd
import Verif.Props.Locks
import Verif.Proofs.LocksExclude
import Verif.Model.Custom
import Verif.Spec.Custom
import Verif.Proofs.Custom
import Verif.Proofs.CustomCalls
import Verif.Props.Custom
import Verif.Proofs.CustomMaps
import Verif.Props.CustomMaps
import Verif.Model.Client
import Verif.Spec.Client
import Verif.Proofs.Client
import Verif.Props.Client
import Verif.Model.Unwind
import Verif.Spec.Unwind
import Verif.Proofs.Unwind
import Verif.Props.Unwind
import Verif.Spec.Longest
import Verif.Proofs.Longest
import Verif.Props.Longest
import Verif.Spec.Portable
import Verif.Proofs.Portable
import Verif.Props.Portable
import Verif.Model.SizeConst
import Verif.Spec.SizeConst
import Verif.Proofs.SizeConst
import Verif.Props.SizeConst
import Verif.Model.Formatting
import Verif.Props.Formatting
import Verif.Proofs.Cells
import Verif.Props.Cells
import Verif.Model.Lazy
import Verif.Spec.Lazy
import Verif.Proofs.Lazy
import Verif.Proofs.LazyMade
import Verif.Proofs.LazyEnds
import Verif.Props.Lazy
import Verif.Model.Scope
import Verif.Spec.Scope
import Verif.Proofs.Scope
import Verif.Props.Scope
import Verif.Proofs.Agree
import Verif.Props.Agree
import Verif.Model.CopyIter
import Verif.Spec.CopyIter
import Verif.Proofs.CopyIter
import Verif.Props.CopyIter
import Verif.Props.Tests
import Verif.Model.StringErrors
import Verif.Proofs.StringErrors
import Verif.Props.StringErrors
import Verif.Model.SliceMemory
import Verif.Spec.SliceMemory
import Verif.Proofs.SliceMemory
import Verif.Proofs.SliceMemoryOps
import Verif.Proofs.SliceMemoryRun
import Verif.Proofs.SliceMemoryList
import Verif.Props.SliceMemory
import Verif.Model.Generic
import Verif.Spec.Generic
import Verif.Proofs.Generic
import Verif.Proofs.GenericDecode
import Verif.Props.Generic
import Verif.Model.Graph
import Verif.Spec.Graph
import Verif.Proofs.Graph
import Verif.Props.Graph
import Verif.Model.Equality
import Verif.Spec.Equality
import Verif.Proofs.Equality
import Verif.Props.Equality
import Verif.Proofs.Delimited
import Verif.Model.Contracts
import Verif.Spec.Contracts
import Verif.Proofs.Contracts
import Verif.Props.Contracts
import Verif.Proofs.Balanced
import Verif.Props.Exact
import Verif.Spec.Stops
import Verif.Proofs.Stops
import Verif.Props.Stops
import Verif.Model.Chars
import Verif.Spec.Chars
import Verif.Proofs.Chars
import Verif.Props.Chars
import Verif.Spec.Exact
import Verif.Proofs.Exact
import Verif.Props.ExactTypes
import Verif.Spec.Taken
import Verif.Proofs.Taken
import Verif.Proofs.Furthest
import Verif.Props.Taken
import Verif.Proofs.RecursiveExact
import Verif.Props.RecursiveExact
import Verif.Proofs.Completes
import Verif.Props.Completion
import Verif.Proofs.RecursiveDepth
import Verif.Props.RecursiveDepth
import Verif.Spec.Trailing
import Verif.Proofs.Trailing
import Verif.Props.Trailing
import Verif.Spec.GraphSteps
import Verif.Proofs.GraphSteps
import Verif.Proofs.GraphExact
import Verif.Props.GraphExact
import Verif.Spec.LocksExact
import Verif.Proofs.LocksExact
import Verif.Props.LocksExact
import Verif.Model.Reserve
import Verif.Spec.Reserve
import Verif.Proofs.Reserve
import Verif.Props.Reserve
import Verif.Spec.Leaks
import Verif.Proofs.Leaks
import Verif.Proofs.LeaksMap
import Verif.Proofs.LeaksTy
import Verif.Props.Leaks
import Verif.Spec.LeaksError
import Verif.Proofs.LeaksError
import Verif.Props.LeaksError
import Verif.Model.Order
import Verif.Spec.Order
import Verif.Proofs.Order
import Verif.Props.Order
import Verif.Model.Tally
import Verif.Spec.Tally
import Verif.Proofs.Tally
import Verif.Proofs.TallyFits
import Verif.Proofs.TallyTy
import Verif.Proofs.TallyEmits
import Verif.Proofs.TallyExact
import Verif.Props.Tallies
import Verif.Spec.Recast
import Verif.Proofs.Recast
import Verif.Proofs.RecastRead
import Verif.Props.Recast
import Verif.Model.Guards
import Verif.Spec.Guards
import Verif.Proofs.Guards
import Verif.Proofs.GuardsSnap
import Verif.Props.Guards
import Verif.Model.Consumer
import Verif.Spec.Consumer
import Verif.Proofs.Consumer
import Verif.Props.Consumer
import Verif.Model.Source
import Verif.Spec.Source
import Verif.Proofs.Source
import Verif.Props.Source
import Verif.Proofs.MacrosExact
import Verif.Props.MacrosExact
import Verif.Spec.Damage
import Verif.Proofs.Damage
import Verif.Props.Damage
import Verif.Model.UnwindMap
import Verif.Proofs.UnwindMap
import Verif.Proofs.UnwindPairs
import Verif.Props.UnwindMap
import Verif.Model.Receiver
import Verif.Spec.Receiver
import Verif.Proofs.Receiver
import Verif.Props.Receiver
import Verif.Model.Sender
import Verif.Spec.Sender
import Verif.Proofs.Sender
import Verif.Proofs.Datagrams
import Verif.Props.Sender
import Verif.Model.Scarce
import Verif.Spec.Scarce
import Verif.Proofs.Scarce
import Verif.Proofs.ScarceAsks
import Verif.Props.Scarce
import Verif.Model.Place
import Verif.Spec.Place
import Verif.Proofs.Place
import Verif.Props.Place
import Verif.Spec.Sorted
import Verif.Proofs.Sorted
import Verif.Props.Sorted
import Verif.Model.DebugErrors
import Verif.Model.Secrecy
import Verif.Model.Writers
import Verif.Spec.DebugErrors
import Verif.Spec.Secrecy
import Verif.Spec.Writers
import Verif.Proofs.DebugErrors
import Verif.Proofs.Secrecy
import Verif.Proofs.Writers
import Verif.Model.Borrows
import Verif.Spec.Borrows
import Verif.Proofs.Borrows
import Verif.Proofs.BorrowsRun
import Verif.Proofs.StackedBorrows
import Verif.Proofs.TreeBorrows
import Verif.Proofs.BorrowsOnce
import Verif.Proofs.BorrowsEnded
import Verif.Model.SlotBorrows
import Verif.Spec.SlotBorrows
import Verif.Proofs.Nested
import Verif.Proofs.SlotBorrows
import Verif.Proofs.SlotBorrowsRun
import Verif.Proofs.SlotBorrowsEnded
import Verif.Proofs.Written
import Verif.Proofs.SlotWritten
import Verif.Model.Protectors
import Verif.Spec.Protectors
import Verif.Proofs.Protectors
import Verif.Proofs.ProtectorsRun
import Verif.Proofs.ProtectorsSlot
import Verif.Proofs.ProtectorsShape
import Verif.Props.DebugErrors
import Verif.Props.Secrecy
import Verif.Props.Writers
import Verif.Props.Borrows
import Verif.Props.SlotBorrows
import Verif.Props.Protectors
import Verif.Model.IterBorrows
import Verif.Spec.IterBorrows
import Verif.Proofs.IterBorrows
import Verif.Proofs.IterBorrowsRun
import Verif.Proofs.IterBorrowsEnded
import Verif.Props.IterBorrows
import Verif.Model.IterProtectors
import Verif.Spec.IterProtectors
import Verif.Proofs.IterProtectors
import Verif.Props.IterProtectors
import Verif.Model.StreamBorrows
import Verif.Model.StreamProtectors
import Verif.Spec.StreamBorrows
import Verif.Spec.StreamProtectors
import Verif.Proofs.StreamBorrows
import Verif.Proofs.StreamProtectors
import Verif.Proofs.StreamWritten
import Verif.Props.StreamBorrows
import Verif.Props.StreamProtectors
import Verif.Proofs.TreeKept
import Verif.Proofs.KeptRun
import Verif.Spec.StackKept
import Verif.Proofs.StackKept
import Verif.Props.TreeKept
import Verif.Props.StackKept
import Verif.Proofs.KeptOthers
import Verif.Props.KeptOthers
import Verif.Spec.MutKept
import Verif.Proofs.MutKept
import Verif.Proofs.MutRun
import Verif.Props.MutKept
import Verif.Proofs.MutPut
import Verif.Props.MutPut
import Verif.Proofs.Incomparable
import Verif.Props.Incomparable
import Verif.Spec.PtrKept
import Verif.Proofs.PtrKept
import Verif.Props.PtrKept
import Verif.Proofs.PtrTree
import Verif.Proofs.PtrRun
import Verif.Props.PtrTree
import Verif.Proofs.EachKept
import Verif.Props.EachKept
import Verif.Proofs.EachTree
import Verif.Props.EachTree
