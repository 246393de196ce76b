import Verif.Model.System
import Verif.Model.Grpc
/-
A sign request that reaches a node other than the leader: `signer/threshold_validator.go:298-311`,
`signer/raft_events.go:39-76`, `signer/grpc_server.go:18-35`. The node asked may meanwhile not be the leader either, and
then passes the request on in the same way, so a request can take several hops.

Simplified: the transport delivers what is sent; a call that fails or times out on the way is not modelled here (it is a
`proxyDone` with an error in `Verif.Model.Validator`).
-/
namespace Horcrux

/-- The signature in the answer of a remote `SignBlock` as the caller gets it (`grpc_server.go:28-33`,
`raft_events.go:69-75`). All errors of a remote call look the same to the caller: gRPC wraps them, so the test of
`threshold_validator.go:302` never succeeds. No answer ends in a timeout. -/
def remoteAnswer : VOut → Except Err Slice
  | .ret _ _ sig _ none =>
    match recvSignBlockRes (sendSignBlockRes sig) with
    | some sig' => .ok sig'
    | none => .error .external
  | _ => .error .external

/-- Replace a node's validator. -/
def Sys.setV (s : Sys) (p : Nat) (v : VState) : Sys := { s with vs := fun j => if j = p then v else s.vs j }

/-- A sign request on its way over `hops` (nodes, with the numbers of their calls) to the leader `q.leader`. -/
def Sys.signVia (C : Crypto) (vcfg : ValidatorCfg) (cfg : Nat → CosignerCfg) (n : Nat) :
    Sys → Bytes → List (Nat × Nat) → Req → VOut × Sys
  | s, _, [], q => s.signBlock C vcfg cfg n q
  | s, chainID, (p, id) :: hops, q =>
    -- line 298
    let s1 := s.setV p ((s.vs p).step C vcfg (.call id q.block .follower)).2
    -- line 300
    let r : Except Err Slice × Sys :=
      match recvSignBlock (sendSignBlock chainID q.block) with
      | none => (.error .external, s1)
      | some (c, b) =>
        let r := Sys.signVia C vcfg cfg n s1 c hops { q with block := b }
        (remoteAnswer r.1, r.2)
    -- lines 301-311
    let d := (r.2.vs p).step C vcfg (.proxyDone id r.1)
    (d.1, r.2.setV p d.2)

/-- A sequence of events; every sign request comes with its chain ID and the nodes it passes on the way to the leader. -/
def Sys.runVia (C : Crypto) (vcfg : ValidatorCfg) (cfg : Nat → CosignerCfg) (n : Nat) : Sys →
    List (Bytes × List (Nat × Nat) × SysEv) → List (Req × VOut) × Sys
  | s, [] => ([], s)
  | s, (chainID, hops, .sign q) :: es =>
    let r := s.signVia C vcfg cfg n chainID hops q
    let rest := Sys.runVia C vcfg cfg n r.2 es
    ((q, r.1) :: rest.1, rest.2)
  | s, (_, _, e) :: es => Sys.runVia C vcfg cfg n (s.step C vcfg cfg n e).2 es

end Horcrux
