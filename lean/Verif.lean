import Verif.Model.Monad
import Verif.Model.Statistics
import Verif.Model.Types
import Verif.Model.Cache
import Verif.Model.Iterators
import Verif.Model.Ops
import Verif.Model.World
import Verif.Proofs.Mid
import Verif.Proofs.Lists
import Verif.Proofs.Rep
import Verif.Proofs.Prim
import Verif.Proofs.Struct
import Verif.Proofs.InsertSim
import Verif.Proofs.Sim
import Verif.Spec.Observe
import Verif.Proofs.Clean
import Verif.Proofs.Effects
import Verif.Proofs.Closed
import Verif.Proofs.ReadOnly
import Verif.Proofs.Keeps
import Verif.Proofs.WorldInv
import Verif.Spec.Environment
import Verif.Spec.Demo
import Verif.Proofs.Bridge
import Verif.Proofs.Mru
import Verif.Proofs.Outcomes
import Verif.Proofs.Elem
import Verif.Spec.Record
import Verif.Proofs.Record
import Verif.Proofs.Evolve
import Verif.Props.Insert
import Verif.Props.Lookup
import Verif.Props.Erase
import Verif.Spec.History
import Verif.Spec.Time
import Verif.Proofs.HistoryInv
import Verif.Props.Timed
import Verif.Spec.Classes
import Verif.Proofs.KeepEnts
import Verif.Props.Expiry
import Verif.Spec.Positions
import Verif.Proofs.Walk
import Verif.Props.Iterators
import Verif.Proofs.Silent
import Verif.Proofs.Tally
import Verif.Spec.Trace
import Verif.Proofs.Count
import Verif.Proofs.Anatomy
import Verif.Spec.StatHistory
import Verif.Proofs.Minds
import Verif.Proofs.StatInv
import Verif.Spec.DemoTrace
import Verif.Props.Stats
import Verif.Spec.Safe
import Verif.Proofs.SafeCalls
import Verif.Props.Exceptions
import Verif.Model.Held
import Verif.Spec.Worlds
import Verif.Proofs.Raw
import Verif.Proofs.Pair
import Verif.Proofs.Copy
import Verif.Proofs.Own
import Verif.Proofs.Equal
import Verif.Props.World
import Verif.Proofs.Stale
import Verif.Props.Copies
import Verif.Spec.Textbook
import Verif.Proofs.Refine
import Verif.Proofs.Ages
import Verif.Props.History
import Verif.Spec.Ranges
import Verif.Proofs.Ranges
import Verif.Props.Ranges
import Verif.Model.Overloads
import Verif.Proofs.Overloads
import Verif.Props.Overloads
import Verif.Model.Hash
import Verif.Props.Hash
import Verif.Spec.Stack
import Verif.Proofs.Stack
import Verif.Props.Inclusion
import Verif.Model.Wrap
import Verif.Spec.Wrap
import Verif.Proofs.Wrap
import Verif.Proofs.Memo
import Verif.Props.Wrap
import Verif.Props.WrapThrow
import Verif.Spec.Reorder
import Verif.Proofs.Twin
import Verif.Proofs.TwinStep
import Verif.Proofs.TwinWorld
import Verif.Props.Order
import Verif.Props.Agree
import Verif.Spec.Shortcut
import Verif.Proofs.Shortcut
import Verif.Props.Shortcut
import Verif.Model.Reenter
import Verif.Spec.Reenter
import Verif.Proofs.Reenter
import Verif.Proofs.ReenterCalls
import Verif.Proofs.ReenterMiss
import Verif.Props.Reenter
import Verif.Spec.ReenterTrace
import Verif.Proofs.ReenterTrace
import Verif.Proofs.ReenterLog
import Verif.Props.ReenterTrace
import Verif.Model.IterObjects
import Verif.Spec.IterObjects
import Verif.Proofs.IterObjects
import Verif.Props.IterObjects
import Verif.Props.IterMore
import Verif.Model.Table
import Verif.Spec.Table
import Verif.Proofs.Table
import Verif.Props.Table
import Verif.Spec.ListFault
import Verif.Proofs.ListFault
import Verif.Props.ListFault
import Verif.Props.Machine
import Verif.Model.Cost
import Verif.Spec.Cost
import Verif.Proofs.Cost
import Verif.Proofs.CostBound
import Verif.Proofs.CostPays
import Verif.Proofs.CostStep
import Verif.Proofs.CostExact
import Verif.Props.Cost
import Verif.Props.CostExact
import Verif.Model.HashFault
import Verif.Spec.HashFault
import Verif.Proofs.HashFault
import Verif.Proofs.HashFaultCalls
import Verif.Props.HashFault
import Verif.Spec.TimedMachine
import Verif.Proofs.TimedMachine
import Verif.Props.TimedMachine
import Verif.Model.Examples
import Verif.Spec.Examples
import Verif.Proofs.Examples
import Verif.Props.Examples
import Verif.Spec.Competitive
import Verif.Proofs.Competitive
import Verif.Props.Competitive
import Verif.Model.Moves
import Verif.Proofs.Moves
import Verif.Props.Moves
import Verif.Tests.Script
import Verif.Tests.Cache
import Verif.Tests.Callbacks
import Verif.Tests.Statistics
import Verif.Tests.Timed
import Verif.Tests.Iterators
import Verif.Tests.Wrap
import Verif.Tests.Counts
import Verif.Tests.Moves
import Verif.Spec.Many
import Verif.Proofs.Many
import Verif.Props.Many
import Verif.Model.Alias
import Verif.Spec.Alias
import Verif.Proofs.Alias
import Verif.Props.Alias
import Verif.Spec.ManyTimed
import Verif.Proofs.ManyTimed
import Verif.Props.ManyTimed
import Verif.Spec.Watched
import Verif.Proofs.Journal
import Verif.Proofs.Watched
import Verif.Props.Watched
import Verif.Model.LastAccessed
import Verif.Props.LastAccessed
import Verif.Tests.LastAccessed
import Verif.Proofs.Filed
import Verif.Props.TimeOrder
import Verif.Props.BaseSwap
import Verif.Spec.WatchedTimed
import Verif.Proofs.Latest
import Verif.Proofs.Seen
import Verif.Proofs.WatchedTimed
import Verif.Props.WatchedTimed
import Verif.Proofs.AssignOther
import Verif.Props.AssignOther
import Verif.Spec.TimedWrap
import Verif.Proofs.TimedWrap
import Verif.Props.TimedWrap
import Verif.Model.Counters
import Verif.Spec.Counters
import Verif.Proofs.Counters
import Verif.Props.Counters
import Verif.Model.Functors
import Verif.Spec.Functors
import Verif.Proofs.Functors
import Verif.Props.Functors
import Verif.Model.Layers
import Verif.Spec.Layers
import Verif.Proofs.Layers
import Verif.Proofs.LayersSame
import Verif.Proofs.LayersEnd
import Verif.Proofs.LayersLoad
import Verif.Proofs.LayersOne
import Verif.Props.Layers
import Verif.Spec.LayersTrace
import Verif.Proofs.LayersTrace
import Verif.Props.LayersTrace
import Verif.Model.Floating
import Verif.Spec.Floating
import Verif.Proofs.Floating
import Verif.Props.Floating
import Verif.Model.Durations
import Verif.Proofs.Durations
import Verif.Props.Durations
import Verif.Model.Comparison
import Verif.Spec.Comparison
import Verif.Proofs.Comparison
import Verif.Props.Comparison
import Verif.Model.Asserts
import Verif.Proofs.Asserts
import Verif.Props.Asserts
import Verif.Model.Optional
import Verif.Spec.Optional
import Verif.Proofs.Optional
import Verif.Props.Optional
import Verif.Model.Entry
import Verif.Spec.Entry
import Verif.Proofs.Entry
import Verif.Props.Entry
