import Verif.Model.Remote
import Verif.Model.Proxy
/-
A request from the bytes a chain node sends to the bytes it gets back: the connection loop of a node
(`signer/remote_signer.go:64-182`) with the threshold validator (`signer/threshold_validator.go:89-125`) whose `SignBlock`
goes through the cluster (`Verif.Model.Proxy`, `Verif.Model.System`). This puts together what
`cmd/horcrux/cmd/cosigner.go:174-258` puts together.
-/
namespace Horcrux

/-- A request without its block: the nodes it passes (`hops`, the first is the node the chain node is connected to; none if
that is the leader), and `Req`'s other fields. -/
structure Way where
  hops : List (Nat × Nat)
  id : Nat
  leader : Nat
  ps : List Nat
  order : Nat → List Int
  mapOrder : Nat → List Nat
  rnd1 : Nat → Nat → Rand
  rnd2 : Nat → Nat → Rand

def Way.req (w : Way) (b : Block) : Req := ⟨w.id, b, w.leader, w.ps, w.order, w.mapOrder, w.rnd1, w.rnd2⟩

/-- `threshold_validator.go:89-100, 112-118`: the block for which `SignBlock` is called when a message is handled. -/
def PMsg.block (chainID : Bytes) : PMsg → Option Block
  | .signVoteRequest (some v) _ => match voteBlock chainID v with | .ok b => some b | _ => none
  | .signProposalRequest (some p) _ => match proposalBlock chainID p with | .ok b => some b | _ => none
  | _ => none

/-- What a call of `SignBlock` returned, if it did. -/
def VOut.result : VOut → Option (Slice × GoTime × Option Err)
  | .ret _ _ sig stamp e => some (sig, stamp, e)
  | _ => none

/-- `remote_signer.go:105-121` on an open connection of a running node with `stream` still to be read, in a cluster in state
`s`: what the loop does, or `none` if the call of the validator does not return; and the cluster afterwards. -/
def Sys.serve (text : Err → Bytes) (C : Crypto) (vcfg : ValidatorCfg) (cfg : Nat → CosignerCfg) (n : Nat) (chainID : Bytes)
    (s : Sys) (stream : Bytes) (way : Way) : Option (List Act × Loop) × Sys :=
  let iter := fun sb => loopIter text ⟨true, 0, [], true, .threshold chainID vcfg.pubKey sb, true⟩ (.live (some stream))
  let idle := fun _ : Block => ((none : Slice), GoTime.zero, (none : Option Err))
  match readMsg stream with
  | none => (some (iter idle), s)
  | some (m, _) =>
    match m.block chainID with
    | none => (some (iter idle), s)
    | some b =>
      let r := s.signVia C vcfg cfg n chainID way.hops (way.req b)
      (r.1.result.map fun res => iter (fun _ => res), r.2)

/-- What happens: bytes arrive at a node on an open connection, or something else. -/
inductive NodeEv where
  | bytes (stream : Bytes) (way : Way)
  | sys (e : SysEv)

/-- A sequence of events, with what was done for the requests. -/
def Sys.runNode (text : Err → Bytes) (C : Crypto) (vcfg : ValidatorCfg) (cfg : Nat → CosignerCfg) (n : Nat)
    (chainID : Bytes) : Sys → List NodeEv → List (Option (List Act × Loop)) × Sys
  | s, [] => ([], s)
  | s, .bytes stream way :: es =>
    let r := s.serve text C vcfg cfg n chainID stream way
    let rest := Sys.runNode text C vcfg cfg n chainID r.2 es
    (r.1 :: rest.1, rest.2)
  | s, .sys e :: es => Sys.runNode text C vcfg cfg n chainID (s.step C vcfg cfg n e).2 es

end Horcrux
