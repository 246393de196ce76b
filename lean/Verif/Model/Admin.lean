import Verif.Model.Protowire
import Verif.Model.Raft
/-
The raft administration service that every node offers to anyone on its gRPC port: `signer/raft_store.go:109`
`raftadmin.Register(grpcServer, s.raft)`. The service is third-party (github.com/Jille/raftadmin v1.2.0, `go.mod:9`); of its
methods `ApplyLog`, `AddVoter`, `AddNonvoter`, `DemoteVoter` and `RemoveServer` are modelled, which hand their arguments to the methods of `raft.Raft` of
the same names without looking at them.
-/
namespace Horcrux

/-- raftadmin `message ApplyLogRequest`. -/
structure ApplyLogReq where
  data : Bytes
  extensions : Bytes
  deriving DecidableEq, Repr

def applyLogHandler : Handler ApplyLogReq where
  wireType n := if n = 1 ∨ n = 2 then some 2 else none
  set m n v := match n, v with
    | 1, .len bs => some { m with data := bs }
    | 2, .len bs => some { m with extensions := bs }
    | _, _ => none

/-- A call of `ApplyLog` with the given bytes at a node in the given raft state: the error and the proposals made. `res` is
what the future returns. -/
def adminApplyLog (st : RaftState) (res : Option RaftErr) (bs : Bytes) : Option RaftErr × List Bytes :=
  match gDecode applyLogHandler ⟨[], []⟩ bs with
  | none => (some .raft, [])
  | some req => if st ≠ .leader then (some .notLeader, []) else (res, [req.data])

/-- raftadmin `message AddVoterRequest`, and `message AddNonvoterRequest` with the same fields. -/
structure AddVoterReq where
  id : Bytes
  address : Bytes
  previousIndex : Nat
  deriving DecidableEq, Repr

def addVoterHandler : Handler AddVoterReq where
  wireType n := if n = 1 ∨ n = 2 then some 2 else if n = 3 then some 0 else none
  set m n v := match n, v with
    | 1, .len bs => if utf8Valid bs then some { m with id := bs } else none
    | 2, .len bs => if utf8Valid bs then some { m with address := bs } else none
    | 3, .varint x => some { m with previousIndex := x }
    | _, _ => none

/-- raftadmin `message RemoveServerRequest`, and `message DemoteVoterRequest` with the same fields. -/
structure RemoveServerReq where
  id : Bytes
  previousIndex : Nat
  deriving DecidableEq, Repr

def removeServerHandler : Handler RemoveServerReq where
  wireType n := if n = 1 then some 2 else if n = 2 then some 0 else none
  set m n v := match n, v with
    | 1, .len bs => if utf8Valid bs then some { m with id := bs } else none
    | 2, .varint x => some { m with previousIndex := x }
    | _, _ => none

/-- hashicorp/raft `nextConfiguration` for `AddNonvoter`: an existing server with the ID gets the address and stays a voter if it
is one, otherwise the server is appended. -/
def cfgAddNonvoter (id addr : Bytes) : List Server → List Server
  | [] => [⟨false, id, addr⟩]
  | s :: cfg => if s.id = id then ⟨s.voter, id, addr⟩ :: cfg else s :: cfgAddNonvoter id addr cfg

/-- hashicorp/raft `nextConfiguration` for `DemoteVoter`: the first server with the ID is a voter no longer. -/
def cfgDemote (id : Bytes) : List Server → List Server
  | [] => []
  | s :: cfg => if s.id = id then ⟨false, s.id, s.addr⟩ :: cfg else s :: cfgDemote id cfg

inductive AdminMethod where
  | addVoter
  | addNonvoter
  | demoteVoter
  | removeServer
  deriving DecidableEq

/-- A call of `AddVoter`, `AddNonvoter`, `DemoteVoter` or `RemoveServer` with the given bytes: the configuration of the raft cluster afterwards. `st` is the
raft state of the node that is called, `index` the index of the current configuration: a previous index other than 0 must be
that one. -/
def adminMembers (st : RaftState) (index : Nat) (m : AdminMethod) (bs : Bytes) (cfg : List Server) : List Server :=
  match m with
  | .addVoter =>
    match gDecode addVoterHandler ⟨[], [], 0⟩ bs with
    | none => cfg
    | some r => (cfgChange (st = .leader && (r.previousIndex = 0 || r.previousIndex = index)) (cfgAddVoter r.id r.address cfg)).getD cfg
  | .addNonvoter =>
    match gDecode addVoterHandler ⟨[], [], 0⟩ bs with
    | none => cfg
    | some r => (cfgChange (st = .leader && (r.previousIndex = 0 || r.previousIndex = index)) (cfgAddNonvoter r.id r.address cfg)).getD cfg
  | .demoteVoter =>
    match gDecode removeServerHandler ⟨[], 0⟩ bs with
    | none => cfg
    | some r => (cfgChange (st = .leader && (r.previousIndex = 0 || r.previousIndex = index)) (cfgDemote r.id cfg)).getD cfg
  | .removeServer =>
    match gDecode removeServerHandler ⟨[], 0⟩ bs with
    | none => cfg
    | some r => (cfgChange (st = .leader && (r.previousIndex = 0 || r.previousIndex = index)) (cfgRemove r.id cfg)).getD cfg

/-- Calls one after the other. -/
def adminRun : List Server → List (RaftState × Nat × AdminMethod × Bytes) → List Server
  | cfg, [] => cfg
  | cfg, (st, i, m, bs) :: calls => adminRun (adminMembers st i m bs cfg) calls

end Horcrux
