import Verif.Model.Basic
import Verif.Model.Worker
import Verif.Model.Queue
import Verif.Model.Multi
import Verif.Model.Single
import Verif.Model.Handler
import Verif.Proof.Matching
import Verif.Proof.WMap
import Verif.Proof.Busy
import Verif.Proof.Laws
import Verif.Proof.MultiLaws
import Verif.Proof.SingleLaws
import Verif.Proof.Wp
import Verif.Proof.Life
import Verif.Proof.Refine
import Verif.Proof.RefineDone
import Verif.Proof.RefineTimer
import Verif.Proof.RefineStep
import Verif.Proof.LifeInv
import Verif.Proof.Potential
import Verif.Proof.Frames
import Verif.Proof.Trace
import Verif.Proof.Enter
import Verif.Spec.Run
import Verif.Spec.Exec
import Verif.Props.Accounting
import Verif.Spec.Capability
import Verif.Proof.Capability
import Verif.Proof.Provenance
import Verif.Proof.Dispatch
import Verif.Proof.Reports
import Verif.Props.Dispatch
import Verif.Spec.Protocol
import Verif.Proof.Registry
import Verif.Proof.Total
import Verif.Proof.Headers
import Verif.Props.Commands
import Verif.Proof.Heartbeat
import Verif.Proof.Frozen
import Verif.Proof.Numbers
import Verif.Proof.Persist
import Verif.Props.Replies
import Verif.Props.Workers
import Verif.Proof.Expiry
import Verif.Proof.Liveness
import Verif.Proof.Counters
import Verif.Proof.Ops
import Verif.Proof.Stall
import Verif.Proof.Order
import Verif.Proof.Parsing
import Verif.Proof.Erase
import Verif.Props.Liveness
import Verif.Props.Robustness
import Verif.Props.Stats
import Verif.Props.Queues
import Verif.Props.Matching
import Verif.Model.Zmq
import Verif.Model.Notifier
import Verif.Model.Reactor
import Verif.Spec.Outputs
import Verif.Spec.System
import Verif.Spec.Form
import Verif.Proof.Outputs
import Verif.Proof.Framing
import Verif.Proof.System
import Verif.Proof.Loop
import Verif.Proof.Delivery
import Verif.Proof.Form
import Verif.Props.Reactor
import Verif.Props.Notifier
import Verif.Model.Config
import Verif.Model.Core
import Verif.Spec.Config
import Verif.Proof.Config
import Verif.Props.Config
import Verif.Props.Progress
import Verif.Props.Monitor
import Verif.Props.System
import Verif.Proof.Time
import Verif.Props.RealTime
import Verif.Proof.Service
import Verif.Props.Service
import Verif.Proof.Completion
import Verif.Props.Starvation
import Verif.Proof.Overflow
import Verif.Props.Overflow
import Verif.Proof.Texts
import Verif.Props.Texts
import Verif.Spec.Renaming
import Verif.Props.Opaque
import Verif.Model.Munin
import Verif.Props.Munin
import Verif.Props.Drain
import Verif.Props.Retry
import Verif.Props.Layout
import Verif.Props.Process
import Verif.Props.OneWorker
import Verif.Props.Peer
import Verif.Props.Credentials
import Verif.Props.Rest
import Verif.Props.Balance
import Verif.Props.Log
import Verif.Props.Conversation
import Verif.Props.Fifo
import Verif.Props.Unseen
import Verif.Props.Rota
import Verif.Props.Interface
import Verif.Props.Policy
import Verif.Props.AnyHandlers
import Verif.Props.Nested
import Verif.Props.Apart
import Verif.Props.Faults
import Verif.Props.Names
import Verif.Props.Memory
import Verif.Props.ProcLog
import Verif.Props.AllFaults
import Verif.Props.Stuck
import Verif.Props.Restart
import Verif.Props.Clients
import Verif.Props.Volume
import Verif.Props.JobLife
import Verif.Props.Fatal
import Verif.Spec.Journal
import Verif.Proof.Journal
import Verif.Props.Journal
import Verif.Spec.Attempts
import Verif.Proof.Ledger
import Verif.Proof.Attempts
import Verif.Props.Attempts
import Verif.Proof.Anew
import Verif.Props.Anew
import Verif.Proof.Heard
import Verif.Props.Heard
import Verif.Proof.Ticks
import Verif.Props.Ticks
import Verif.Proof.Clock
import Verif.Props.Clock
import Verif.Proof.Frugal
import Verif.Props.Frugal
import Verif.Proof.Paused
import Verif.Props.Paused
import Verif.Proof.Limits
import Verif.Proof.Patience
import Verif.Props.Limits
import Verif.Proof.Removals
import Verif.Props.Removals
import Verif.Proof.Units
import Verif.Props.Units
import Verif.Proof.Exchange
import Verif.Props.Exchange
import Verif.Spec.Demand
import Verif.Proof.Demand
import Verif.Props.Demand
import Verif.Spec.Titles
import Verif.Props.Titles
import Verif.Spec.Listing
import Verif.Props.Listing
import Verif.Spec.Unasked
import Verif.Props.Unasked
import Verif.Spec.Groups
import Verif.Props.Groups
import Verif.Spec.Services
import Verif.Props.Services
import Verif.Props.Registry
import Verif.Tests.Queues
import Verif.Tests.Broker
import Verif.Tests.Config
import Verif.Tests.Reactor
