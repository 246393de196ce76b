import Verif.Model.Proxy
/-
The whole cluster with everything overlapping: any number of calls of `SignBlock` on all nodes at once
(`signer/threshold_validator.go:290-477`), whichever nodes take themselves for the leader; the calls that rounds make to
cosigners (`signer/local_cosigner.go`), whose steps come in any order; answers that arrive late or never; requests that are
passed on (`signer/raft_events.go:39-76`, `signer/grpc_server.go:18-35`); raft events; restarts. The steps are those of
`Verif.Model.Validator` and `Verif.Model.Cosigner`.

Simplified, always so that more can happen than in the code: a cosigner serves any step at any time, whoever asks for it; a
round may use every answer that a cosigner ever gave for the sign bytes of its block; a node that passed a request on may
get every answer that any node ever returned for that block; raft may bring every record that was ever made, in any order
and number. After a panic a process goes on (in the code it ends and starts again).
-/
namespace Horcrux

/-- All nodes; the answers of cosigners to calls to sign (which cosigner, the sign bytes, the answer); the answers that the
round of each call has (node, call, cosigner); the records of signatures that were made; and the returned calls. -/
structure Net where
  vs : Nat → VState
  cs : Nat → CState
  sent : List (Nat × Bytes × SignRes)
  table : Nat → Nat → Nat → Option SignRes
  made : List SSC
  outs : List (Nat × VOut)

/-- All nodes just started, with the sign states of their files and the records of earlier times. -/
def Net.start (lv lc : Nat → SignState) (old : List SSC) : Net :=
  ⟨fun p => .start (lv p), fun p => .start (lc p), [], fun _ _ _ => none, old, []⟩

/-- What can happen. `p`, `l` are nodes, `id` a call on the node, `i` a position in a list of answers. -/
inductive NetEv where
  /-- `SignBlock` is called (`threshold_validator.go:89-125`) -/
  | call (p id : Nat) (b : Block) (role : Role)
  /-- `raft_events.go:64-67`, `grpc_server.go:18-27`: the request of call `id` of `p` reaches the node `l` -/
  | passOn (p id l id' : Nat) (role : Role)
  /-- `grpc_server.go:28-33`, `raft_events.go:68-75`: its answer reaches `p` -/
  | reply (p id i : Nat)
  /-- `raft_events.go:47-50, 68-70`: it fails -/
  | lost (p id : Nat) (e : Err)
  /-- `threshold_validator.go:329-346` -/
  | poll (p id : Nat)
  /-- `threshold_validator.go:351-359` -/
  | lookup (p id : Nat)
  /-- `threshold_validator.go:238-243`: an answer of a cosigner comes into the array of the round -/
  | answer (p id i : Nat)
  /-- `threshold_validator.go:426-453` -/
  | assemble (p id : Nat)
  /-- `threshold_validator.go:383, 389, 420` -/
  | giveUp (p id : Nat) (e : Err)
  /-- `threshold_validator.go:455-468` -/
  | save (p id : Nat)
  /-- `threshold_validator.go:471-476` -/
  | emit (p id : Nat)
  /-- a step of the cosigner of `p` (`raft_events.go:36` is one of them) -/
  | cos (p : Nat) (op : CosOp)
  /-- somebody answers in the name of the cosigner of `p` -/
  | lie (p : Nat) (bs : Bytes) (r : SignRes)
  /-- `raft_events.go:28-35` -/
  | deliver (p : Nat) (r : SSC)
  /-- a node ends and starts again with the sign states `lv`, `lc` of its two files (`cosigner.go:159-191`) -/
  | restart (p : Nat) (lv lc : SignState)

section
variable (C : Crypto) (vcfg : ValidatorCfg) (cfg : Nat → CosignerCfg) (n : Nat) (chainID : Bytes)

/-- The validator of `p` makes a step. A round starts without answers (`threshold_validator.go:405`). -/
def Net.act (s : Net) (p : Nat) (ev : VEv) : Net :=
  let r := (s.vs p).step C vcfg ev
  let s' := { s with vs := fun j => if j = p then r.2 else s.vs j }
  match r.1 with
  | .tau => s'
  | .startRound id _ _ => { s' with table := fun j i q => if j = p ∧ i = id then none else s.table j i q }
  | .ret .. => { s' with outs := s.outs ++ [(p, r.1)] }

/-- `threshold_validator.go:405, 412-415, 238-243`: the share signatures and the ephemeral public key of a round of `p`. -/
def Net.shares (s : Net) (p id : Nat) : List Bytes × Bytes :=
  ((List.range n).map fun j => match s.table p id (j + 1) with | some r => r.signature.bytes | none => [],
   match s.table p id p with | some r => r.ephemeralPublic.bytes | none => [])

/-- One step; `none` if it is not possible now. -/
def Net.step (s : Net) : NetEv → Option Net
  | .call p id b role => some (s.act C vcfg p (.call id b role))
  | .passOn p id l id' role =>
    match (s.vs p).calls id with
    | some (b, .proxy) =>
      match recvSignBlock (sendSignBlock chainID b) with
      | some (_, b') => some (s.act C vcfg l (.call id' b' role))
      | none => none
    | _ => none
  | .reply p id i =>
    match (s.vs p).calls id, s.outs[i]? with
    | some (b, .proxy), some (_, .ret id' b'' sig stamp e) =>
      match recvSignBlock (sendSignBlock chainID b) with
      | some (_, b') =>
        if b'' = b' then some (s.act C vcfg p (.proxyDone id (remoteAnswer (.ret id' b'' sig stamp e)))) else none
      | none => none
    | _, _ => none
  | .lost p id e => some (s.act C vcfg p (.proxyDone id (.error e)))
  | .poll p id => some (s.act C vcfg p (.poll id))
  | .lookup p id => some (s.act C vcfg p (.lookup id))
  | .answer p id i =>
    match (s.vs p).calls id, s.sent[i]? with
    | some (b, .round), some (q, bs, r) =>
      if bs = b.signBytes then
        some { s with table := fun j i x => if j = p ∧ i = id ∧ x = q then some r else s.table j i x }
      else none
    | _, _ => none
  | .assemble p id =>
    some (s.act C vcfg p (.roundDone id (.sigs (s.shares n p id).1 (s.shares n p id).2)))
  | .giveUp p id e => some (s.act C vcfg p (.roundDone id (.failed e)))
  | .save p id =>
    match (s.vs p).calls id with
    | some (b, .save sig) => some { s.act C vcfg p (.save id) with made := s.made ++ [b.record sig] }
    | _ => none
  | .emit p id => some (s.act C vcfg p (.emit id))
  | .cos p op =>
    let r := (s.cs p).step C (cfg p) op
    let s' := { s with cs := fun j => if j = p then r.2 else s.cs j }
    match op, r.1 with
    | .sign bs, .ok (.signed x) => some { s' with sent := s.sent ++ [(p, bs, x)] }
    | _, _ => some s'
  | .lie p bs r => some { s with sent := s.sent ++ [(p, bs, r)] }
  | .deliver p r => if r ∈ s.made then some (s.act C vcfg p (.lss r)) else none
  | .restart p lv lc =>
    some { s with vs := fun j => if j = p then .start lv else s.vs j, cs := fun j => if j = p then .start lc else s.cs j }

/-- A run. -/
def Net.run : Net → List NetEv → Option Net
  | s, [] => some s
  | s, e :: es => (s.step C vcfg cfg n chainID e).bind fun s' => Net.run s' es

end

end Horcrux
