import Verif.Model.Cosigner
/-
`signer/threshold_validator.go`: the pieces of a signing round run by the leader (`SignBlock`, lines 363-453):
collecting the peers that answer, routing the secret parts, and assembling the signature.
-/
namespace Horcrux

/-! ### Routing -/

/-- `threshold_validator.go:205-220`: the parts sent to the participant with ID `peerID`. `entries` is the map
`encryptedEphemeralSharesThresholdMap` in the order of this iteration, each participant given by its ID (line 211
compares IDs). Of the answer of each participant only the first part addressed to `peerID` is considered (the `break`
of line 217), and it is sent if its source is a participant. -/
def partsFor (entries : List (Int × List SecretPart)) (peerID : Int) : List SecretPart :=
  entries.filterMap fun e =>
    match e.2.find? (fun p => decide (p.destinationID = peerID)) with
    | none => none
    | some p => if entries.any (fun e' => decide (e'.1 = p.sourceID)) then some p else none

/-! ### Assembling the signature -/

/-- `threshold_validator.go:427-438`: IDs (index + 1) and share signatures of the non-empty entries; `i` is the index
of the head of the list. -/
def collectSigs : Nat → List Bytes → List Nat × List Bytes
  | _, [] => ([], [])
  | i, s :: l =>
    let r := collectSigs (i + 1) l
    if s.length = 0 then r else ((i + 1) :: r.1, s :: r.2)

/-- `threshold_validator.go:427-453`: combine the share signatures and check the result. -/
def assemble (C : Crypto) (threshold : Int) (pub bs : Bytes) (shareSignatures : List Bytes) (ephemeralPublic : Bytes) :
    Out Bytes :=
  let r := collectSigs 0 shareSignatures
  if (r.1.length : Int) < threshold then .err .notEnoughCosigners
  else
    let signature := ephemeralPublic ++ C.combineShares shareSignatures.length r.1 r.2
    if C.verify pub bs signature then .ok signature else .err .combinedInvalid

/-! ### Collecting the participants -/

/-- The shared state of the goroutines started in `threshold_validator.go:376-395`: the map of joined peers, the wait
group counter, the peers whose `Done` is still due (it is deferred, so it runs after the lock is released), and
whether the main goroutine has passed the wait and entered itself. -/
structure Collect where
  joined : List Nat
  counter : Int
  due : List Nat
  proceeded : Bool
  deriving DecidableEq, Repr

/-- `threshold_validator.go:365, 368`: `Add(threshold - 1)` on a fresh wait group (a negative counter panics). -/
def Collect.start (threshold : Int) : Out Collect :=
  if threshold - 1 < 0 then .panic else .ok ⟨[], threshold - 1, [], false⟩

/-- What can happen during the collection. -/
inductive CollectEv where
  /-- `threshold_validator.go:179-183`: a peer fails. -/
  | failed (peer : Nat)
  /-- `threshold_validator.go:185-190`: a peer answered; its goroutine takes the lock. -/
  | answered (peer : Nat)
  /-- line 188: the deferred `Done` of a joined peer. -/
  | done (peer : Nat)
  /-- lines 389-395: the wait is over; the main goroutine adds itself (ID `self`). -/
  | proceed (self : Nat)
  deriving DecidableEq, Repr

/-- One step; `panic` is a negative wait group counter; events that are not possible leave the state unchanged. -/
def Collect.step (threshold : Int) (s : Collect) : CollectEv → Out Collect
  | .failed _ => .ok s
  | .answered p =>
    if (s.joined.length : Int) < threshold - 1 then .ok { s with joined := s.joined ++ [p], due := s.due ++ [p] }
    else .ok s
  | .done p =>
    if p ∈ s.due then
      if s.counter - 1 < 0 then .panic else .ok { s with counter := s.counter - 1, due := s.due.erase p }
    else .ok s
  | .proceed self =>
    if s.counter = 0 ∧ s.proceeded = false then .ok { s with joined := s.joined ++ [self], proceeded := true }
    else .ok s

/-- A schedule of steps. -/
def Collect.run (threshold : Int) : Collect → List CollectEv → Out Collect
  | s, [] => .ok s
  | s, e :: es =>
    match s.step threshold e with
    | .ok s' => Collect.run threshold s' es
    | .err x => .err x
    | .panic => .panic

/-! ### A whole round -/

/-- The share signatures array after the signing goroutines (`threshold_validator.go:405, 238-243`): entry
`id - 1` holds the share signature of the participant `id` if it signed. -/
def shareArray (total : Nat) (ps : List Nat) (res : Nat → Out SignRes) : List Bytes :=
  (List.range total).map fun i =>
    if i + 1 ∈ ps then
      match res (i + 1) with
      | .ok r => r.signature.bytes
      | _ => []
    else []

/-- The parts of a successful answer. -/
def okParts : Out (List SecretPart) → List SecretPart
  | .ok l => l
  | _ => []

/-- Lines 376-425 composed with the local cosigners of the participants `ps` (all with different IDs in `1..total`),
for participants that all answered the get-parts call: the share signatures and the ephemeral public key of the leader.
Every participant runs on its own state, so the order in which
they run does not matter; the iteration orders of the maps (`order`, `mapOrder`) and all randomness are parameters.
The calls to remote cosigners go through gRPC, whose encoding is treated in `Verif.Model.Grpc`. -/
def roundShares (C : Crypto) (cfg : Nat → CosignerCfg) (ps : List Nat) (leader : Nat) (total : Nat)
    (k : HRST) (bs : Bytes) (order : Nat → List Int) (mapOrder : Nat → List Nat)
    (rnd1 rnd2 : Nat → Nat → Rand) (st : Nat → CState) : (List Bytes × Bytes) × (Nat → CState) :=
  let got := fun p => getParts C (cfg p) k (order p) (rnd1 p) (st p)
  let parts := fun p => okParts (got p).1
  let res := fun p => setPartsAndSign C (cfg p) k bs
    (partsFor ((mapOrder p).map fun q : Nat => ((q : Int), parts q)) (p : Int)) (rnd2 p) (got p).2
  let eph : Bytes := match (res leader).1 with | .ok r => r.ephemeralPublic.bytes | _ => []
  ((shareArray total ps (fun p => (res p).1), eph), fun p => if p ∈ ps then (res p).2 else st p)

/-- Lines 376-453: `roundShares`, then the signature is assembled and checked. -/
def signRound (C : Crypto) (cfg : Nat → CosignerCfg) (ps : List Nat) (leader : Nat) (threshold : Int) (total : Nat)
    (pub : Bytes) (k : HRST) (bs : Bytes) (order : Nat → List Int) (mapOrder : Nat → List Nat)
    (rnd1 rnd2 : Nat → Nat → Rand) (st : Nat → CState) : Out Bytes × (Nat → CState) :=
  let r := roundShares C cfg ps leader total k bs order mapOrder rnd1 rnd2 st
  (assemble C threshold pub bs r.1.1 r.1.2, r.2)

end Horcrux
