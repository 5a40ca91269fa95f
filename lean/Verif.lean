import Verif.Model.Ipv8
import Verif.Model.Python
import Verif.Lemmas.Derive
import Verif.Props.Basic
import Verif.Props.Header
import Verif.Props.Payload
import Verif.Props.Packet
import Verif.Props.Cursor
import Verif.Props.Bounded
import Verif.Props.Crypto
import Verif.Props.Community
import Verif.Props.Network
import Verif.Props.Python
import Verif.Props.System
import Verif.Props.Relay
import Verif.Props.Errors
import Verif.Props.ByteOrder
import Verif.Conformance
import Verif.Props.Backlog
import Verif.Props.Process
import Verif.Props.Pool
import Verif.Props.World
import Verif.Props.Authentic
import Verif.Props.Node
import Verif.Props.Isolation
import Verif.Props.Replay
import Verif.Props.Config
import Verif.Props.Join
import Verif.Props.Truncated
import Verif.Props.Linear
import Verif.Props.Stateful
import Verif.Props.Cluster
import Verif.Props.Live
import Verif.Props.Wire
import Verif.Props.LiveNode
import Verif.Props.LivePool
import Verif.Props.Panics
import Verif.Props.Hostile
import Verif.Props.Fields
import Verif.Props.Composite
import Verif.Props.Rayon
import Verif.Props.Cost
import Verif.Props.Recursive
import Verif.Props.WorkersPool
import Verif.Props.LiveWorkers
import Verif.Props.LiveWorld
import Verif.Props.LiveSigned
import Verif.Props.Memory
import Verif.Props.Drain
import Verif.Props.Writer
import Verif.Props.Heap
import Verif.Props.Machine
import Verif.Props.Concurrent
import Verif.Props.LiveMachine
import Verif.Props.Questions
import Verif.Props.Visitor
import Verif.Props.Fairness
import Verif.Props.Program
import Verif.Props.Game
import Verif.Props.Shared
import Verif.Props.Crash
import Verif.Props.Deque
import Verif.Props.Queues
import Verif.Props.Log
import Verif.Model.Locks
import Verif.Props.Locks
import Verif.Props.Mutex
import Verif.Model.Nested
import Verif.Props.Nested
import Verif.Props.Single
import Verif.Props.Conversation
import Verif.Model.Startup
import Verif.Props.Startup
import Verif.Model.Gil
import Verif.Props.Gil
import Verif.Props.Meaning
import Verif.Props.OneForm
import Verif.Props.OnceOnly
import Verif.Props.InOrder
