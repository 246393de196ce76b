import Verif.Model.RoundMem
import Verif.Model.Whole
/-
`signer/threshold_validator.go:172-261,363-425`: the goroutines of `RoundMem`, access by access, together with the cosigners that
answer, as in `Whole`. Simplified as there: a cosigner serves a request in one go and gets only the requests of this round.
-/
namespace Horcrux

/-- A round: the memory of `RoundMem`, what each cosigner has replied to the two requests, and the cosigners' states. -/
structure WholeMem where
  first : GetMem
  got : Nat → Option (Out (List SecretPart))
  second : Option SignMem
  ans : Nat → Option (Out SignRes)
  cs : Nat → CState

/-- `threshold_validator.go:363-379`. -/
def WholeMem.start (R : RoundCfg) (cs : Nat → CState) : Out WholeMem :=
  match GetMem.start R.threshold R.peers with
  | .ok m => .ok ⟨m, fun _ => none, none, fun _ => none, cs⟩
  | .err e => .err e
  | .panic => .panic

/-- What can happen. -/
inductive WholeMemEv where
  /-- a cosigner (the leader's own: line 381, a peer: line 179) serves the request for parts -/
  | serveGet (p : Nat)
  | first (e : GetEv)
  /-- lines 397-412, in the iteration order `ord` -/
  | begin (ord : List Nat)
  /-- lines 204-229: the goroutine of participant `p` went through the map in the order `ord`, the cosigner serves the request -/
  | serveSign (p : Nat) (ord : List Nat)
  | second (e : SignMemEv)

/-- The parts in a reply. -/
def WholeMem.parts (s : WholeMem) (p : Nat) : List SecretPart :=
  match s.got p with
  | some r => okParts r
  | none => []

/-- A call returns what the cosigner answered, or fails; the leader's own cosigner is called directly (line 381). -/
def WholeMem.allows1 (R : RoundCfg) (s : WholeMem) : GetEv → Bool
  | .call p true => match s.got p with | some (.ok _) => true | _ => false
  | .own ok => match s.got R.me with | some (.ok _) => ok | some (.err _) => !ok | _ => false
  | _ => true

/-- The same for the second half (line 225). -/
def WholeMem.allows2 (R : RoundCfg) (s : WholeMem) : SignMemEv → Bool
  | .call p (some r) => decide (s.ans p = some (.ok r))
  | .call p none => if p = R.me then (match s.ans p with | some (.err _) => true | _ => false) else true
  | _ => true

/-- The goroutine of participant `p` has read the map and made its call. -/
def WholeMem.called (s : WholeMem) (p : Nat) : Bool :=
  match s.second with
  | none => false
  | some m => match m.signer p with | .absent => false | .reads => false | _ => true

/-- One step; `panic` is a crash of the leader. Events that are not possible leave the state unchanged. -/
def WholeMem.step (C : Crypto) (R : RoundCfg) (s : WholeMem) : WholeMemEv → Out WholeMem
  | .serveGet p =>
    if (p = R.me ∨ p ∈ R.peers) ∧ s.got p = none then
      let r := getParts C (R.cfg p) R.k (R.order p) (R.rnd1 p) (s.cs p)
      if p = R.me ∧ r.1 = .panic then .panic
      else .ok { s with got := fun q => if q = p then some r.1 else s.got q, cs := fun q => if q = p then r.2 else s.cs q }
    else .ok s
  | .first e =>
    if s.allows1 R e then
      match s.first.step R.threshold R.me e with
      | .ok g => .ok { s with first := g }
      | .err x => .err x
      | .panic => .panic
    else .ok s
  | .begin ord =>
    if s.first.lead = .past ∧ s.second.isNone = true ∧ ord.Perm s.first.map then
      match SignMem.start R.threshold R.total ord with
      | .ok m => .ok { s with second := some m }
      | .err x => .err x
      | .panic => .panic
    else .ok s
  | .serveSign p ord =>
    if s.called p = true ∧ ord.Perm s.first.map ∧ s.ans p = none then
      let r := setPartsAndSign C (R.cfg p) R.k R.bs (partsFor (ord.map fun q : Nat => ((q : Int), s.parts q)) (p : Int))
        (R.rnd2 p) (s.cs p)
      if p = R.me ∧ r.1 = .panic then .panic
      else .ok { s with ans := fun q => if q = p then some r.1 else s.ans q, cs := fun q => if q = p then r.2 else s.cs q }
    else .ok s
  | .second e =>
    match s.second with
    | none => .ok s
    | some m =>
      if s.allows2 R e then
        match m.step R.me e with
        | .ok m' => .ok { s with second := some m' }
        | .err x => .err x
        | .panic => .panic
      else .ok s

/-- A schedule of steps. -/
def WholeMem.run (C : Crypto) (R : RoundCfg) : WholeMem → List WholeMemEv → Out WholeMem
  | s, [] => .ok s
  | s, e :: es =>
    match s.step C R e with
    | .ok s' => WholeMem.run C R s' es
    | .err x => .err x
    | .panic => .panic

end Horcrux
