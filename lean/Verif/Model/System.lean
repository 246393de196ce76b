import Verif.Model.Validator
/-
The whole cluster: every node has a threshold validator (`signer/threshold_validator.go`) and a local cosigner
(`signer/local_cosigner.go`), put together in `cmd/horcrux/cmd/cosigner.go:174-255`. Sign requests arrive one after the
other (each chain node waits for the answer, and `PvGuard` serialises them, see C49).
-/
namespace Horcrux

/-- The nodes by cosigner ID. -/
structure Sys where
  vs : Nat → VState
  cs : Nat → CState

/-- `threshold_validator.go:315-320`: the key under which a block is signed. -/
def Block.key (b : Block) : HRST := ⟨b.height, b.round, b.step, b.timestamp.unixNano⟩

/-- A sign request as served by the leader: the block, the participants (the peers that answer first and the leader
itself), and the iteration orders and randomness on the way. `id` names the call. -/
structure Req where
  id : Nat
  block : Block
  leader : Nat
  ps : List Nat
  order : Nat → List Int
  mapOrder : Nat → List Nat
  rnd1 : Nat → Nat → Rand
  rnd2 : Nat → Nat → Rand

/-- `threshold_validator.go:426-476`: the last part of a call that has the share signatures. -/
def VState.assembleAndSave (C : Crypto) (vcfg : ValidatorCfg) (v : VState) (id : Nat) (shares : List Bytes) (eph : Bytes) :
    VOut × VState :=
  match v.step C vcfg (.roundDone id (.sigs shares eph)) with
  | (.tau, v2) =>
    match v2.step C vcfg (.save id) with
    | (.tau, v3) => v3.step C vcfg (.emit id)
    | r => r
  | r => r

/-- `threshold_validator.go:326-361`: what a call that does not start a round at once does until it returns or starts one
after all, at most `k` looks, with nothing else happening on the node meanwhile. -/
def VState.wait (C : Crypto) (vcfg : ValidatorCfg) (id : Nat) : Nat → VState → VOut × VState
  | 0, v => (.tau, v)
  | k + 1, v =>
    match v.calls id with
    | some (_, .poll _) =>
      match v.step C vcfg (.poll id) with
      | (.tau, v') => VState.wait C vcfg id k v'
      | r => r
    | some (_, .lookup) => v.step C vcfg (.lookup id)
    | _ => (.tau, v)

/-- `threshold_validator.go:290-361` on the leader, uninterrupted: the call starts a round or returns. -/
def VState.begin (C : Crypto) (vcfg : ValidatorCfg) (v : VState) (id : Nat) (b : Block) : VOut × VState :=
  match v.calls id with
  | some _ => (.tau, v)
  | none =>
    match v.step C vcfg (.call id b .leader) with
    | (.tau, v1) => v1.wait C vcfg id 100
    | r => r

/-- `threshold_validator.go:290-477` on the leader, uninterrupted. -/
def Sys.signBlock (C : Crypto) (vcfg : ValidatorCfg) (cfg : Nat → CosignerCfg) (n : Nat) (s : Sys) (q : Req) :
    VOut × Sys :=
  match (s.vs q.leader).begin C vcfg q.id q.block with
  | (.startRound _ _ _, v1) =>
    -- lines 363-425
    let r := roundShares C cfg q.ps q.leader n q.block.key q.block.signBytes q.order q.mapOrder q.rnd1 q.rnd2 s.cs
    let v := v1.assembleAndSave C vcfg q.id r.1.1 r.1.2
    (v.1, ⟨fun p => if p = q.leader then v.2 else s.vs p, r.2⟩)
  | (o, v1) => (o, { s with vs := fun p => if p = q.leader then v1 else s.vs p })

/-- What happens in the cluster. -/
inductive SysEv where
  /-- a sign request -/
  | sign (q : Req)
  /-- raft applies an `LSS` event on a node (`raft_events.go:28-37`) -/
  | deliver (p : Nat) (r : SSC)
  /-- a cosigner serves any other call (a late get-parts call, a repeated sign call, …) -/
  | other (p : Nat) (op : CosOp)
  /-- a node starts again and loads the sign states `lv`, `lc` from its two files (`cosigner.go:159-191`) -/
  | restart (p : Nat) (lv lc : SignState)

/-- One event, with the answer to a sign request. -/
def Sys.step (C : Crypto) (vcfg : ValidatorCfg) (cfg : Nat → CosignerCfg) (n : Nat) (s : Sys) :
    SysEv → Option (Req × VOut) × Sys
  | .sign q => let r := s.signBlock C vcfg cfg n q; (some (q, r.1), r.2)
  | .deliver p ssc =>
    (none, ⟨fun j => if j = p then ((s.vs p).step C vcfg (.lss ssc)).2 else s.vs j,
            fun j => if j = p then ((s.cs p).step C (cfg p) (.saveLSS ssc)).2 else s.cs j⟩)
  | .other p op => (none, { s with cs := fun j => if j = p then ((s.cs p).step C (cfg p) op).2 else s.cs j })
  | .restart p lv lc =>
    (none, ⟨fun j => if j = p then VState.start lv else s.vs j, fun j => if j = p then CState.start lc else s.cs j⟩)

/-- Every node just started, with the sign states of its files. -/
def Sys.start (lv lc : Nat → SignState) : Sys := ⟨fun p => .start (lv p), fun p => .start (lc p)⟩

/-- A sequence of events, with the answers to the sign requests. -/
def Sys.run (C : Crypto) (vcfg : ValidatorCfg) (cfg : Nat → CosignerCfg) (n : Nat) : Sys → List SysEv →
    List (Req × VOut) × Sys
  | s, [] => ([], s)
  | s, e :: es =>
    let r := s.step C vcfg cfg n e
    let rest := Sys.run C vcfg cfg n r.2 es
    (r.1.toList ++ rest.1, rest.2)

end Horcrux
