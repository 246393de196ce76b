import Verif.Model.Round
/-
`signer/threshold_validator.go:397-425` with `192-247`: the second half of a signing round, in which the participants are
asked to sign, one goroutine each, and the main goroutine waits for them or for the timeout.
-/
namespace Horcrux

/-- The state shared by the goroutines: the table of share signatures (line 405, an empty entry is nil), the ephemeral
public key (line 410, empty is nil), the wait group counter, the participants whose call is outstanding, those whose
deferred `Done` is still due, and how the wait of the main goroutine ended (`some true`: completed, `some false`: timeout). -/
structure SignPhase where
  sigs : List Bytes
  eph : Bytes
  counter : Int
  asked : List Nat
  due : List Nat
  ended : Option Bool
  deriving DecidableEq, Repr

/-- `threshold_validator.go:399-416`: `Add(threshold)` on a fresh wait group (a negative counter panics), a table of
`total` entries, and one goroutine per participant. -/
def SignPhase.start (threshold : Int) (total : Nat) (ps : List Nat) : Out SignPhase :=
  if threshold < 0 then .panic else .ok ⟨List.replicate total [], [], threshold, ps, [], none⟩

/-- What can happen. -/
inductive SignEv where
  /-- `threshold_validator.go:231-234`: the call to a participant fails. -/
  | failed (peer : Nat)
  /-- `threshold_validator.go:236-246`: a participant answered; its goroutine takes the lock and enters the answer. -/
  | answered (peer : Nat) (r : SignRes)
  /-- line 204: the deferred `Done`; it runs after the deferred unlock of line 239. -/
  | done (peer : Nat)
  /-- line 420: all `Done`s have run -/
  | proceed
  /-- line 420: four seconds have passed -/
  | timeout
  deriving DecidableEq, Repr

/-- One step; `me` is the leader's ID. A panic is an index outside the table (line 242) or a negative counter. Events that
are not possible leave the state unchanged. -/
def SignPhase.step (me : Nat) (s : SignPhase) : SignEv → Out SignPhase
  | .failed p =>
    if p ∈ s.asked then .ok { s with asked := s.asked.erase p, due := s.due ++ [p] } else .ok s
  | .answered p r =>
    if p ∈ s.asked then
      match goIndex s.sigs ((p : Int) - 1) with
      | none => .panic
      | some _ =>
        .ok { s with sigs := s.sigs.set (p - 1) r.signature.bytes
                     eph := if p = me then r.ephemeralPublic.bytes else s.eph
                     asked := s.asked.erase p, due := s.due ++ [p] }
    else .ok s
  | .done p =>
    if p ∈ s.due then
      if s.counter - 1 < 0 then .panic else .ok { s with counter := s.counter - 1, due := s.due.erase p }
    else .ok s
  | .proceed => if s.counter = 0 ∧ s.ended = none then .ok { s with ended := some true } else .ok s
  | .timeout => if s.ended = none then .ok { s with ended := some false } else .ok s

/-- A schedule of steps. -/
def SignPhase.run (me : Nat) : SignPhase → List SignEv → Out SignPhase
  | s, [] => .ok s
  | s, e :: es =>
    match s.step me e with
    | .ok s' => SignPhase.run me s' es
    | .err x => .err x
    | .panic => .panic

/-- Both halves of a round (`threshold_validator.go:363-425`): `es` is what happens while the peers are asked for secret
parts, `es'` what happens while the participants are asked to sign. The second half only begins once the first has
proceeded; otherwise the round ends with a timeout (line 390). `ok none` stands for that. -/
def leaderRound (threshold : Int) (total : Nat) (me : Nat) (es : List CollectEv) (es' : List SignEv) :
    Out (Option SignPhase) :=
  match Collect.start threshold with
  | .panic => .panic
  | .err e => .err e
  | .ok s0 =>
    match Collect.run threshold s0 es with
    | .panic => .panic
    | .err e => .err e
    | .ok s =>
      if s.proceeded = false then .ok none
      else
        match SignPhase.start threshold total s.joined with
        | .panic => .panic
        | .err e => .err e
        | .ok p0 =>
          match SignPhase.run me p0 es' with
          | .panic => .panic
          | .err e => .err e
          | .ok p => .ok (some p)

end Horcrux
