import Verif.Model.Admin
import Verif.Model.Proxy
/-
Nodes whose raft was shut down through the administration service: `signer/raft_store.go:109`
`raftadmin.Register(grpcServer, s.raft)` offers a method `Shutdown` that calls `raft.Shutdown` of the node
(github.com/Jille/raftadmin v1.2.0). The process goes on, and with it the cosigner and the connections to the chain nodes; but
the node leads no more, knows no leader (`raft.Leader` is empty) and applies no entries.

Of raft is used: there is a leader only as long as more than half of the members run it, and only such a member leads or
knows the leader. Simplified: a leader without a majority notices at once; no request is under way when raft is shut down.
-/
namespace Horcrux

/-- raftadmin `message ShutdownRequest`: no fields. -/
def shutdownHandler : Handler Unit where
  wireType _ := none
  set _ _ _ := none

/-- The cluster, and which nodes run raft. -/
structure Halt where
  sys : Sys
  up : Nat → Bool

/-- More than half of the members `1..n` run raft. -/
def Halt.elects (n : Nat) (h : Halt) : Bool := decide (n < 2 * ((List.range' 1 n).filter h.up).length)

/-- `threshold_validator.go:298-311` with `raft_events.go:39-52` on a node that knows no leader. -/
def Sys.noLeader (C : Crypto) (vcfg : ValidatorCfg) (s : Sys) (p id : Nat) (b : Block) : VOut × Sys :=
  let s1 := s.setV p ((s.vs p).step C vcfg (.call id b .follower)).2
  let d := (s1.vs p).step C vcfg (.proxyDone id (.error .external))
  (d.1, s1.setV p d.2)

/-- A sign request on its way, as `Sys.signVia`. -/
def Halt.signVia (C : Crypto) (vcfg : ValidatorCfg) (cfg : Nat → CosignerCfg) (n : Nat) :
    Halt → Bytes → List (Nat × Nat) → Req → VOut × Sys
  | h, _, [], q =>
    if h.elects n && h.up q.leader then h.sys.signBlock C vcfg cfg n q else h.sys.noLeader C vcfg q.leader q.id q.block
  | h, chainID, (p, id) :: hops, q =>
    if h.elects n && h.up p then
      let s1 := h.sys.setV p ((h.sys.vs p).step C vcfg (.call id q.block .follower)).2
      let r : Except Err Slice × Sys :=
        match recvSignBlock (sendSignBlock chainID q.block) with
        | none => (.error .external, s1)
        | some (c, b) =>
          let r := Halt.signVia C vcfg cfg n { h with sys := s1 } c hops { q with block := b }
          (remoteAnswer r.1, r.2)
      let d := (r.2.vs p).step C vcfg (.proxyDone id r.1)
      (d.1, r.2.setV p d.2)
    else h.sys.noLeader C vcfg p id q.block

inductive HaltEv where
  /-- a call of `Shutdown` at a node, with the bytes of the request -/
  | shutdown (p : Nat) (bs : Bytes)
  /-- anything else; a sign request with its chain ID and the nodes it passes on the way to the leader -/
  | sys (chainID : Bytes) (hops : List (Nat × Nat)) (e : SysEv)

/-- The node that a request comes to. -/
def entryNode (hops : List (Nat × Nat)) (q : Req) : Nat :=
  match hops with
  | [] => q.leader
  | (p, _) :: _ => p

/-- One event; the answer to a sign request, with the node it came to. -/
def Halt.step (C : Crypto) (vcfg : ValidatorCfg) (cfg : Nat → CosignerCfg) (n : Nat) (h : Halt) :
    HaltEv → Option (Nat × Req × VOut) × Halt
  | .shutdown p bs =>
    match gDecode shutdownHandler () bs with
    | none => (none, h)
    | some _ => (none, { h with up := fun j => if j = p then false else h.up j })
  | .sys chainID hops (.sign q) =>
    let r := h.signVia C vcfg cfg n chainID hops q
    (some (entryNode hops q, q, r.1), { h with sys := r.2 })
  | .sys _ _ (.deliver p r) =>
    if h.up p then (none, { h with sys := (h.sys.step C vcfg cfg n (.deliver p r)).2 }) else (none, h)
  | .sys _ _ (.other p op) => (none, { h with sys := (h.sys.step C vcfg cfg n (.other p op)).2 })
  | .sys _ _ (.restart p lv lc) =>
    (none, ⟨(h.sys.step C vcfg cfg n (.restart p lv lc)).2, fun j => if j = p then true else h.up j⟩)

/-- A sequence of events, with the answers to the sign requests. -/
def Halt.run (C : Crypto) (vcfg : ValidatorCfg) (cfg : Nat → CosignerCfg) (n : Nat) : Halt → List HaltEv →
    List (Nat × Req × VOut) × Halt
  | h, [] => ([], h)
  | h, e :: es =>
    let r := h.step C vcfg cfg n e
    let rest := Halt.run C vcfg cfg n r.2 es
    (r.1.toList ++ rest.1, rest.2)

end Horcrux
