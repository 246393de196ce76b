import Verif.Model.Gather
/-
`signer/threshold_validator.go:363-425` with `172-261`: both halves of a signing round with all their goroutines, together
with the cosigners that answer. `Gather` and `SignPhase` describe what the goroutines do with the answers, `getParts` and
`setPartsAndSign` what the answers are; here the two are put together. A cosigner answers some time between the call and its
return, or after the caller has given up. Simplified: the requests of this one round are the only ones the cosigners get, and
each serves its request in one go (several rounds at once are the subject of `Verif.Model.Overlap`).
-/
namespace Horcrux

/-- What is fixed for the round: the cosigners, the block and its sign bytes, and what chance decides: the iteration orders
of the peers maps of the cosigners (`local_cosigner.go:292`) and their randomness. -/
structure RoundCfg where
  cfg : Nat → CosignerCfg
  me : Nat
  peers : List Nat
  threshold : Int
  total : Nat
  k : HRST
  bs : Bytes
  order : Nat → List Int
  rnd1 : Nat → Nat → Rand
  rnd2 : Nat → Nat → Rand

/-- A round: the goroutines of its first half, what each cosigner has replied to the request for parts, the goroutines of the
second half once there are any, what each cosigner has replied to the request to sign, and the cosigners' states. -/
structure Whole where
  first : Gather
  got : Nat → Option (Out (List SecretPart))
  second : Option SignPhase
  ans : Nat → Option (Out SignRes)
  cs : Nat → CState

/-- `threshold_validator.go:363-379`. -/
def Whole.start (R : RoundCfg) (cs : Nat → CState) : Out Whole :=
  match Gather.start R.threshold R.peers with
  | .ok g => .ok ⟨g, fun _ => none, none, fun _ => none, cs⟩
  | .err e => .err e
  | .panic => .panic

/-- What can happen. -/
inductive WholeEv where
  /-- a cosigner (the leader's own: line 381, a peer: line 179) serves the request for parts -/
  | serveGet (p : Nat)
  /-- a goroutine of the first half takes a step -/
  | first (e : GatherEv)
  /-- lines 397-416: the main goroutine starts the second half -/
  | begin
  /-- lines 204-229: the goroutine of participant `p` has gone through the map in the order `ord` and the cosigner serves
  the request -/
  | serveSign (p : Nat) (ord : List Nat)
  /-- a goroutine of the second half takes a step -/
  | second (e : SignEv)

/-- The parts in a reply. -/
def Whole.parts (s : Whole) (p : Nat) : List SecretPart :=
  match s.got p with
  | some r => okParts r
  | none => []

/-- What a goroutine does with a reply presupposes that reply: a call returns what the cosigner answered, or fails (the
network may lose any answer, or a cosigner's own error is passed on). The leader's own cosigner is called directly
(line 381), so its answer is not lost. -/
def Whole.allows1 (R : RoundCfg) (s : Whole) : GatherEv → Bool
  | .answered p => match s.got p with | some (.ok _) => true | _ => false
  | .own ok => match s.got R.me with | some (.ok _) => ok | some (.err _) => !ok | _ => false
  | _ => true

/-- The same for the second half. Line 407-415: the leader's own cosigner is called directly as well, so its call fails only
if the cosigner answers with an error. -/
def Whole.allows2 (R : RoundCfg) (s : Whole) : SignEv → Bool
  | .answered p r => decide (s.ans p = some (.ok r))
  | .failed p => if p = R.me then (match s.ans p with | some (.err _) => true | _ => false) else true
  | _ => true

/-- One step; `panic` is a crash of the leader (of its goroutines or of its own cosigner). Events that are not possible leave the state unchanged. -/
def Whole.step (C : Crypto) (R : RoundCfg) (s : Whole) : WholeEv → Out Whole
  | .serveGet p =>
    if (p = R.me ∨ p ∈ R.peers) ∧ s.got p = none then
      let r := getParts C (R.cfg p) R.k (R.order p) (R.rnd1 p) (s.cs p)
      if p = R.me ∧ r.1 = .panic then .panic
      else .ok { s with got := fun q => if q = p then some r.1 else s.got q, cs := fun q => if q = p then r.2 else s.cs q }
    else .ok s
  | .first e =>
    if s.allows1 R e then
      match s.first.step R.threshold R.me e with
      | .ok g => .ok { s with first := g }
      | .err x => .err x
      | .panic => .panic
    else .ok s
  | .begin =>
    if s.first.main = .proceeded ∧ s.second = none then
      match SignPhase.start R.threshold R.total s.first.shared.joined with
      | .ok ph => .ok { s with second := some ph }
      | .err x => .err x
      | .panic => .panic
    else .ok s
  | .serveSign p ord =>
    if s.second ≠ none ∧ p ∈ s.first.shared.joined ∧ ord.Perm s.first.shared.joined ∧ s.ans p = none then
      let r := setPartsAndSign C (R.cfg p) R.k R.bs (partsFor (ord.map fun q : Nat => ((q : Int), s.parts q)) (p : Int))
        (R.rnd2 p) (s.cs p)
      if p = R.me ∧ r.1 = .panic then .panic
      else .ok { s with ans := fun q => if q = p then some r.1 else s.ans q, cs := fun q => if q = p then r.2 else s.cs q }
    else .ok s
  | .second e =>
    match s.second with
    | none => .ok s
    | some ph =>
      if s.allows2 R e then
        match ph.step R.me e with
        | .ok ph' => .ok { s with second := some ph' }
        | .err x => .err x
        | .panic => .panic
      else .ok s

/-- A schedule of steps. -/
def Whole.run (C : Crypto) (R : RoundCfg) : Whole → List WholeEv → Out Whole
  | s, [] => .ok s
  | s, e :: es =>
    match s.step C R e with
    | .ok s' => Whole.run C R s' es
    | .err x => .err x
    | .panic => .panic

end Horcrux
