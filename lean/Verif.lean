import Verif.Props.Address
import Verif.Props.Admin
import Verif.Props.AdminCalls
import Verif.Props.Cached
import Verif.Props.Cluster
import Verif.Props.Config
import Verif.Props.Conns
import Verif.Props.Cosigner
import Verif.Props.Crash
import Verif.Props.CrashNeeded
import Verif.Props.Deals
import Verif.Props.Deploy
import Verif.Props.Disk
import Verif.Props.Duration
import Verif.Props.Elect
import Verif.Props.Encodings
import Verif.Props.Ends
import Verif.Props.Env
import Verif.Props.Existing
import Verif.Props.Extract
import Verif.Props.FS
import Verif.Props.Failover
import Verif.Props.Faults
import Verif.Props.Fields
import Verif.Props.FilePV
import Verif.Props.Forgets
import Verif.Props.Gather
import Verif.Props.Gogo
import Verif.Props.Growth
import Verif.Props.Grpc
import Verif.Props.GrpcText
import Verif.Props.Guard
import Verif.Props.Halt
import Verif.Props.Homes
import Verif.Props.Init
import Verif.Props.KeyFile
import Verif.Props.KeyMem
import Verif.Props.KeyText
import Verif.Props.Known
import Verif.Props.Lives
import Verif.Props.Locks
import Verif.Props.Lured
import Verif.Props.Meanwhile
import Verif.Props.Membership
import Verif.Props.Migrate
import Verif.Props.Mislabel
import Verif.Props.Mixed
import Verif.Props.Modes
import Verif.Props.NoConflict
import Verif.Props.Node
import Verif.Props.Nonces
import Verif.Props.Overlap
import Verif.Props.PrivFile
import Verif.Props.Private
import Verif.Props.Program
import Verif.Props.Proxy
import Verif.Props.Races
import Verif.Props.Raft
import Verif.Props.Remote
import Verif.Props.Replica
import Verif.Props.Requorum
import Verif.Props.Resign
import Verif.Props.Restarts
import Verif.Props.Retime
import Verif.Props.Retry
import Verif.Props.Round
import Verif.Props.RoundMem
import Verif.Props.Sentries
import Verif.Props.Sequence
import Verif.Props.Server
import Verif.Props.Services
import Verif.Props.Shadow
import Verif.Props.Shamir
import Verif.Props.Shared
import Verif.Props.SignPhase
import Verif.Props.SignState
import Verif.Props.Single
import Verif.Props.Start
import Verif.Props.Startup
import Verif.Props.StateCmd
import Verif.Props.StateFile
import Verif.Props.StateSet
import Verif.Props.StateText
import Verif.Props.System
import Verif.Props.Timed
import Verif.Props.Torn
import Verif.Props.TornSign
import Verif.Props.Unit
import Verif.Props.Url
import Verif.Props.UrlText
import Verif.Props.Validator
import Verif.Props.Whole
import Verif.Props.WholeMem
import Verif.Props.WholeRest
import Verif.Props.Wire
import Verif.Axioms
