import Verif.Model.SignState
import Verif.Model.Wire
import Verif.Model.Round
/-
`signer/threshold_validator.go`: `SignBlock` with concurrent calls and raft events, as a transition system. Each
critical section under `lastSignStateMutex` or `lastSignStateInitiatedMutex` is one atomic step; between the steps of a
call any steps of other calls and raft events may happen.
-/
namespace Horcrux

/-- `threshold_validator.go:127-133` `Block`. -/
structure Block where
  height : Int
  round : Int
  step : Int
  signBytes : Bytes
  timestamp : GoTime
  deriving DecidableEq, Repr

/-- `threshold_validator.go:265-269`. -/
def Block.hrs (b : Block) : HRS := ⟨b.height, b.round, b.step⟩

/-- The immutable part of a validator (`threshold_validator.go:20-43`). -/
structure ValidatorCfg where
  threshold : Int
  pubKey : Bytes

/-- `threshold_validator.go:263-288` `getExistingBlockSignature`: the signature (`none` is nil) or the error. The
returned time is always the block's own. -/
def existingSignature (lss : SignState) (b : Block) : Except Err Slice :=
  match lss.getFromCache b.hrs with
  | (_, some r) =>
    if b.step = stepPropose ∨ b.signBytes = r.signBytes.bytes then .ok r.signature
    else
      match onlyDifferByTimestamp r.step r.signBytes.bytes b.signBytes with
      | some e => .error e
      | none => .ok none
  | (latest, none) =>
    if latest.height > b.height ∨ (latest.height = b.height ∧ latest.round > b.round) ∨
        (latest.height = b.height ∧ latest.round = b.round ∧ latest.step > b.step) then .error .beyondBlock
    else .error .stillWaiting

/-- Where a call of `SignBlock` is. -/
inductive Phase where
  /-- lines 300-311: waiting for the leader's answer -/
  | proxy
  /-- lines 329-346, with the loop variable -/
  | poll (i : Nat)
  /-- lines 351-359 -/
  | lookup
  /-- lines 363-453 -/
  | round
  /-- lines 455-468, with the verified signature -/
  | save (sig : Bytes)
  /-- lines 471-476 -/
  | emit (sig : Bytes)
  deriving DecidableEq, Repr

/-- What raft says when a call starts (lines 295, 298). -/
inductive Role where
  | notInitialized
  | follower
  | leader
  deriving DecidableEq, Repr

/-- How a signing round ends: it fails before assembling (lines 383, 389, 420; the error is not further specified),
or the share signatures and the ephemeral public key are there. -/
inductive RoundRes where
  | failed (e : Err)
  | sigs (shareSignatures : List Bytes) (ephemeralPublic : Bytes)
  deriving DecidableEq, Repr

/-- A validator process: the two sign states, the running calls (by an arbitrary number), and the raft emissions. -/
structure VState where
  lss : SignState
  init : SignState
  calls : Nat → Option (Block × Phase)
  emitted : List SSC

/-- `threshold_validator.go:56-75` `NewThresholdValidator`: the watermark of started blocks is that of the loaded state,
with an empty cache. -/
def VState.start (loaded : SignState) : VState :=
  { lss := loaded
    init := ⟨loaded.height, loaded.round, loaded.step, none, none, none, fun _ => none⟩
    calls := fun _ => none
    emitted := [] }

/-- Steps. `lss` is a raft event (`raft_events.go:35`). -/
inductive VEv where
  | call (id : Nat) (b : Block) (role : Role)
  | proxyDone (id : Nat) (r : Except Err Slice)
  | poll (id : Nat)
  | lookup (id : Nat)
  | roundDone (id : Nat) (r : RoundRes)
  | save (id : Nat)
  | emit (id : Nat)
  | lss (ssc : SSC)

/-- What a step shows: nothing, that a signing round for a block starts (`again` if the block had been started before),
or that a call returns. -/
inductive VOut where
  | tau
  | startRound (id : Nat) (b : Block) (again : Bool)
  | ret (id : Nat) (b : Block) (sig : Slice) (stamp : GoTime) (err : Option Err)
  deriving DecidableEq

/-- Put a call into a phase. -/
def VState.setPhase (s : VState) (id : Nat) (b : Block) (p : Phase) : VState :=
  { s with calls := fun i => if i = id then some (b, p) else s.calls i }

/-- A call returns. -/
def VState.finish (s : VState) (id : Nat) : VState := { s with calls := fun i => if i = id then none else s.calls i }

/-- The record of a signed block (`threshold_validator.go:455-461`). -/
def Block.record (b : Block) (sig : Bytes) : SSC := ⟨b.height, b.round, b.step, some sig, some b.signBytes⟩

/-- One step. Steps that are not possible (a call under a number in use, a step of a call in another phase) do nothing.
A panic in a round (threshold below 1, share ID outside the table; see C20, C31) ends the process: nothing follows. -/
def VState.step (C : Crypto) (cfg : ValidatorCfg) (s : VState) : VEv → VOut × VState
  | .call id b role =>
    match s.calls id with
    | some _ => (.tau, s)
    | none =>
      match role with
      -- line 296
      | .notInitialized => (.ret id b none b.timestamp (some .raftNotInitialized), s)
      -- line 298
      | .follower => (.tau, s.setPhase id b .proxy)
      | .leader =>
        -- line 324
        match s.init.save (SSC.new b.height b.round b.step) with
        | (none, init') => (.startRound id b false, { s with init := init' }.setPhase id b .round)
        -- line 326
        | (some (.sameHRS _), init') => (.tau, { s with init := init' }.setPhase id b (.poll 0))
        -- line 350
        | (some _, init') => (.tau, { s with init := init' }.setPhase id b .lookup)
  | .proxyDone id r =>
    match s.calls id with
    | some (b, .proxy) =>
      match r with
      -- lines 301-310
      | .error e => (.ret id b none b.timestamp (some e), s.finish id)
      -- line 311
      | .ok sig => (.ret id b sig b.timestamp none, s.finish id)
    | _ => (.tau, s)
  | .poll id =>
    match s.calls id with
    | some (b, .poll i) =>
      match existingSignature s.lss b with
      -- lines 332-335
      | .ok none => (.startRound id b true, s.setPhase id b .round)
      -- line 336
      | .ok (some sig) => (.ret id b (some sig) b.timestamp none, s.finish id)
      -- lines 339-341, and 347-349 after the last iteration
      | .error .stillWaiting =>
        if i + 1 < 100 then (.tau, s.setPhase id b (.poll (i + 1)))
        else (.ret id b none b.timestamp (some .timedOutWaitingForBlock), s.finish id)
      -- line 343
      | .error e => (.ret id b none b.timestamp (some e), s.finish id)
    | _ => (.tau, s)
  | .lookup id =>
    match s.calls id with
    | some (b, .lookup) =>
      match existingSignature s.lss b with
      -- line 353
      | .ok sig => (.ret id b sig b.timestamp none, s.finish id)
      -- line 355
      | .error _ => (.ret id b none b.timestamp (some .beyondBlock), s.finish id)
    | _ => (.tau, s)
  | .roundDone id r =>
    match s.calls id with
    | some (b, .round) =>
      match r with
      -- lines 384, 390, 421
      | .failed e => (.ret id b none b.timestamp (some e), s.finish id)
      | .sigs shares eph =>
        -- lines 426-453
        match assemble C cfg.threshold cfg.pubKey b.signBytes shares eph with
        | .ok sig => (.tau, s.setPhase id b (.save sig))
        | .err e => (.ret id b none b.timestamp (some e), s.finish id)
        | .panic => (.tau, s)   -- `assemble` does not panic
    | _ => (.tau, s)
  | .save id =>
    match s.calls id with
    | some (b, .save sig) =>
      match s.lss.save (b.record sig) with
      | (none, lss') => (.tau, { s with lss := lss' }.setPhase id b (.emit sig))
      -- line 465
      | (some (.sameHRS _), lss') => (.tau, { s with lss := lss' }.setPhase id b (.emit sig))
      -- line 466
      | (some e, lss') => (.ret id b none b.timestamp (some e), { s with lss := lss' }.finish id)
    | _ => (.tau, s)
  | .emit id =>
    match s.calls id with
    -- lines 471-476; whether raft accepts the emission does not matter
    | some (b, .emit sig) =>
      (.ret id b (some sig) b.timestamp none, { s with emitted := s.emitted ++ [b.record sig] }.finish id)
    | _ => (.tau, s)
  | .lss ssc => (.tau, { s with lss := (s.lss.save ssc).2 })

/-- `VRun C cfg s tr s'`: the steps of `tr`, each with what it shows, lead from `s` to `s'`. -/
inductive VRun (C : Crypto) (cfg : ValidatorCfg) : VState → List (VEv × VOut) → VState → Prop where
  | nil (s : VState) : VRun C cfg s [] s
  | snoc {s s1 s2 : VState} {tr : List (VEv × VOut)} {ev : VEv} {out : VOut} (h : VRun C cfg s tr s1)
      (hs : s1.step C cfg ev = (out, s2)) : VRun C cfg s (tr ++ [(ev, out)]) s2

/-! ### The wrappers -/

/-- `threshold_validator.go:94-100`: the block of a vote. `VoteToStep` (`sign_state.go:37-46`) and `VoteSignBytes` may
panic. -/
def voteBlock (chainID : Bytes) (v : Vote) : Out Block :=
  match voteTypeToStep v.type with
  | .panic => .panic
  | .err e => .err e
  | .ok step =>
    match voteSignBytes chainID v with
    | .panic => .panic
    | .err e => .err e
    | .ok bs => .ok ⟨v.height, v.round, step, bs, v.timestamp⟩

/-- `threshold_validator.go:101-106`: the vote after `SignBlock` returned `sig`, `stamp`. -/
def finishVote (v : Vote) (sig : Slice) (stamp : GoTime) : Vote := { v with signature := sig, timestamp := stamp }

/-- `threshold_validator.go:112-118`: the block of a proposal. -/
def proposalBlock (chainID : Bytes) (p : Proposal) : Out Block :=
  match proposalSignBytes chainID p with
  | .panic => .panic
  | .err e => .err e
  | .ok bs => .ok ⟨p.height, p.round, stepPropose, bs, p.timestamp⟩

/-- `threshold_validator.go:119-124`. -/
def finishProposal (p : Proposal) (sig : Slice) (stamp : GoTime) : Proposal :=
  { p with signature := sig, timestamp := stamp }

end Horcrux
