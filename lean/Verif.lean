import Verif.Util
import Verif.Model.Manager
import Verif.Model.FastHash
import Verif.Model.Itch
import Verif.Spec
import Verif.Feed
import Verif.Trades
import Verif.Priority
import Verif.Proof.Lists
import Verif.Proof.Prim
import Verif.Proof.Core
import Verif.Proof.Exec
import Verif.Proof.Step
import Verif.Proof.Chain
import Verif.Proof.Match
import Verif.Proof.Activate
import Verif.Proof.Recalc
import Verif.Proof.MatchBook
import Verif.Proof.Ops
import Verif.Proof.Events
import Verif.Proof.StepEv
import Verif.Proof.Mgr
import Verif.Proof.Reach
import Verif.Proof.Calls
import Verif.Proof.Demo
import Verif.Props.Safety
import Verif.Props.State
import Verif.Props.Calls
import Verif.Props.Trades
import Verif.Proof.Feeds
import Verif.Props.Feeds
import Verif.Proof.Prices
import Verif.Props.Prices
import Verif.Proof.Greedy
import Verif.Proof.Lines
import Verif.Proof.Whole
import Verif.Proof.Quiet
import Verif.Proof.Incoming
import Verif.Proof.Land
import Verif.Proof.LandOps
import Verif.Proof.MgrLines
import Verif.Proof.Depth
import Verif.Proof.Modify
import Verif.Proof.Trailing
import Verif.Props.Trailing
import Verif.Props.Lines
import Verif.Props.Moves
import Verif.Props.Filled
import Verif.Props.FastHash
import Verif.Props.Validate
import Verif.Props.ItchDecode
import Verif.Props.ItchStream
import Verif.Props.Avl
import Verif.Client
import Verif.Proof.Client
import Verif.Props.Client
import Verif.Textbook
import Verif.Proof.Textbook
import Verif.Proof.TextbookStep
import Verif.Props.Textbook
import Verif.Sequence
import Verif.Proof.Volume
import Verif.Props.Sequence
import Verif.Model.Feeder
import Verif.Props.ItchRobust
import Verif.Props.Feeder
import Verif.Model.Cli
import Verif.Cli
import Verif.Proof.Cli
import Verif.Props.Cli
import Verif.Model.Aggressive
import Verif.Tape
import Verif.Proof.Aggressive
import Verif.Props.Aggressive
import Verif.Props.Agreement
import Verif.Venue
import Verif.Proof.Pit
import Verif.Proof.PitStop
import Verif.Proof.PitTrail
import Verif.Proof.PitCross
import Verif.Proof.PitOps
import Verif.Proof.PitMgr
import Verif.Props.Venue
import Verif.Shards
import Verif.Proof.Division
import Verif.Proof.Shards
import Verif.Props.Shards
import Verif.Recast
import Verif.Proof.Recast
import Verif.Proof.RecastVenue
import Verif.Props.Recast
import Verif.Equiv
import Verif.Proof.Equiv
import Verif.Props.Laws
import Verif.Model.Optimized
import Verif.Tally
import Verif.Proof.Optimized
import Verif.Props.Optimized
import Verif.Props.OptimizedFeed
import Verif.Props.OptimizedTotal
import Verif.Proof.Tally
import Verif.Props.Tally
import Verif.Props.TallyBalance
import Verif.Seen
import Verif.News
import Verif.Model.Stats
import Verif.Model.Text
import Verif.Told
import Verif.Proof.Text
import Verif.Props.Text
import Verif.Model.ItchText
import Verif.Props.ItchText
import Verif.Props.News
import Verif.Model.Bench
import Verif.Props.Bench
import Verif.Requests
import Verif.Count
import Verif.Proof.Balance
import Verif.Props.Count
import Verif.Redraw
import Verif.Proof.Redraw
import Verif.Props.Redraw
import Verif.Model.Console
import Verif.Console
import Verif.Props.Console
import Verif.Logs
import Verif.Proof.Twin
import Verif.Proof.TwinMgr
import Verif.Props.Logs
import Verif.Proof.Future
import Verif.Saved
import Verif.Proof.Valid
import Verif.Props.Restore
import Verif.Budget
import Verif.Proof.Budget
import Verif.Proof.BudgetVenue
import Verif.Props.Budget
import Verif.Inert
import Verif.Proof.Inert
import Verif.Proof.InertVenue
import Verif.Props.Inert
import Verif.Best
import Verif.Props.Best
import Verif.Props.Reopen
import Verif.Rescale
import Verif.Proof.Settle
import Verif.Proof.Rescale
import Verif.Proof.RescalePit
import Verif.Proof.RescaleVenue
import Verif.Props.Rescale
import Verif.Model.Watch
import Verif.Glimpse
import Verif.Proof.Watch
import Verif.Proof.WatchEngine
import Verif.Proof.WatchOps
import Verif.Proof.WatchMgr
import Verif.Props.Glimpse
import Verif.Model.Live
import Verif.Moments
import Verif.Proof.Live
import Verif.Props.Live
import Verif.Share
import Verif.Props.Share
import Verif.Model.Heap
import Verif.Model.HeapEngine
import Verif.Model.HeapManager
import Verif.Pointers
import Verif.Proof.HeapList
import Verif.Proof.HeapRep
import Verif.Proof.HeapPrim
import Verif.Proof.HeapLevel
import Verif.Proof.HeapBook
import Verif.Proof.HeapCore
import Verif.Proof.HeapStep
import Verif.Proof.HeapRec
import Verif.Proof.HeapChain
import Verif.Proof.HeapMatch
import Verif.Proof.HeapStops
import Verif.Proof.HeapRecalc
import Verif.Proof.HeapMatchBook
import Verif.Proof.HeapOps
import Verif.Proof.HeapFree
import Verif.Proof.HeapMgr
import Verif.Proof.HeapShow
import Verif.Props.Pointers
import Verif.Model.Factory
import Verif.Props.Factory
import Verif.Tests.Engine
import Verif.Tests.Scenarios
import Verif.Proof.FeedAt
import Verif.Revival
import Verif.Proof.Haunts
import Verif.Proof.Revive
import Verif.Props.Revival
import Verif.Proof.Rest
import Verif.Props.Again
import Verif.Dict
import Verif.Model.Index
import Verif.Proof.Index
import Verif.Proof.Buckets
import Verif.Props.Index
import Verif.Props.Buckets
import Verif.Props.Manual
import Verif.Thrown
import Verif.Proof.Thrown
import Verif.Props.Thrown
import Verif.Proof.Grows
import Verif.Proof.Paused
