import Verif.Model.Start
import Verif.Model.Raft
/-
Who takes part in raft: `signer/raft_store.go:129-195` on a node started by `cmd/horcrux/cmd/cosigner.go:131-232`, and
`signer/grpc_server.go:69-88` (`horcrux elect`).

Simplified: the files of the raft library open without errors. `raft.BootstrapCluster` is modelled from knowledge of
hashicorp/raft: it refuses a node that has any raft state and a configuration that `checkConfiguration` does not accept.
-/
namespace Horcrux

/-- `raft_store.go:129-135` `p2pURLToRaftAddress`; `urlHost` is the host part (with the port) that `url.Parse` finds,
`none` if it fails. -/
def raftAddr (urlHost : Str → Option Str) (u : Str) : Bytes :=
  match urlHost u with
  | none => u
  | some h => h

/-- `raft_store.go:179-193` with `cosigner.go:222-227`: the configuration to bootstrap with. The zero value of the
suffrage is `Voter`. -/
def bootServers (urlHost : Str → Option Str) (id : Int) (c : CosignerConfig) : List Server :=
  ⟨true, decInt id, raftAddr urlHost c.p2pListen⟩ ::
    c.peers.map fun p => ⟨true, decInt p.shareID, raftAddr urlHost p.p2pAddr⟩

/-- `raft_store.go:194`: the raft configuration of the node afterwards (`none`: it has none and stays out of every
election); `stored` is the one in its raft directory. The result of the call is not looked at. -/
def bootstrap (stored : Option (List Server)) (new : List Server) : Option (List Server) :=
  match stored with
  | some old => some old
  | none => if configOk new then some new else none

/-- A call of the raft library. -/
inductive Transfer where
  | toServer (id addr : Bytes)   -- `LeadershipTransferToServer`
  | toAny                        -- `LeadershipTransfer`
  deriving DecidableEq, Repr

/-- The loop of `grpc_server.go:75-83`. -/
def transferLoop (urlHost : Str → Option Str) (leaderID : Bytes) : List CosignerPeer → Option (Bytes × Bytes)
  | [] => none
  | p :: ps =>
    if decInt p.shareID = leaderID then some (decInt p.shareID, raftAddr urlHost p.p2pAddr)
    else transferLoop urlHost leaderID ps

/-- `grpc_server.go:69-88` `TransferLeadership`: the raft call made and the answer (ID and address); the outcome of the
raft call is not looked at, and there is never an error. -/
def transferLeadership (urlHost : Str → Option Str) (peers : List CosignerPeer) (leaderID : Bytes) :
    Transfer × (Bytes × Bytes) :=
  if leaderID ≠ [] then
    match transferLoop urlHost leaderID peers with
    | some (i, a) => (.toServer i a, (i, a))
    | none => (.toAny, ([], []))
  else (.toAny, ([], []))

end Horcrux
