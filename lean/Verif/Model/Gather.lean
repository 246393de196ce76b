import Verif.Model.SignPhase
/-
`signer/threshold_validator.go:363-395` with `172-191` and `249-261`: the goroutines of the first half of a signing round.
One goroutine per peer asks for its secret parts, the main goroutine makes its own, and while it waits for the others one
more goroutine waits for the wait group (`waitUntilCompleteOrTimeout`). `Collect` describes what they share.
-/
namespace Horcrux

/-- Where the main goroutine is. -/
inductive MainAt where
  /-- lines 376-385: it makes its own parts -/
  | making
  /-- line 389 -/
  | waiting
  /-- line 384: its own parts failed; the call has returned -/
  | failed
  /-- line 390: the call has returned -/
  | timedOut
  /-- line 393 -/
  | proceeded
  deriving DecidableEq, Repr

/-- The goroutines: what they share, the peers whose calls are outstanding (those past the call but before their deferred
`Done` are `shared.due`; the others have ended), the main goroutine, and whether the goroutine of lines 251-254 runs. -/
structure Gather where
  shared : Collect
  asked : List Nat
  main : MainAt
  waiter : Bool
  deriving DecidableEq, Repr

/-- Lines 365-379. -/
def Gather.start (threshold : Int) (peers : List Nat) : Out Gather :=
  match Collect.start threshold with
  | .ok c => .ok ⟨c, peers, .making, false⟩
  | .err e => .err e
  | .panic => .panic

/-- What can happen. -/
inductive GatherEv where
  /-- lines 180-183: the call to a peer fails, its goroutine ends -/
  | failed (peer : Nat)
  /-- lines 185-190: a peer answered -/
  | answered (peer : Nat)
  /-- line 188: the deferred `Done`, with which a goroutine ends -/
  | done (peer : Nat)
  /-- lines 381-389: the main goroutine has its own parts, or not -/
  | own (ok : Bool)
  /-- lines 252-253: the wait group is at zero; the waiting goroutine closes the channel and ends -/
  | woken
  /-- lines 256-257 and 393-395 -/
  | proceed
  /-- lines 258-259 and 390 -/
  | timeout
  deriving DecidableEq, Repr

/-- What the shared state does. -/
def Gather.shareStep (threshold : Int) (s : Gather) (e : CollectEv) : Out Gather :=
  match s.shared.step threshold e with
  | .ok c => .ok { s with shared := c }
  | .err x => .err x
  | .panic => .panic

/-- One step; `me` is the leader's ID. Events that are not possible leave the state unchanged. -/
def Gather.step (threshold : Int) (me : Nat) (s : Gather) : GatherEv → Out Gather
  | .failed p => if p ∈ s.asked then .ok { s with asked := s.asked.erase p } else .ok s
  | .answered p => if p ∈ s.asked then { s with asked := s.asked.erase p }.shareStep threshold (.answered p) else .ok s
  | .done p => s.shareStep threshold (.done p)
  | .own ok =>
    if s.main = .making then
      if ok then .ok { s with main := .waiting, waiter := true } else .ok { s with main := .failed }
    else .ok s
  | .woken => if s.waiter = true ∧ s.shared.counter = 0 then .ok { s with waiter := false } else .ok s
  | .proceed =>
    if s.main = .waiting ∧ s.waiter = false then { s with main := .proceeded }.shareStep threshold (.proceed me) else .ok s
  | .timeout => if s.main = .waiting then .ok { s with main := .timedOut } else .ok s

/-- A schedule of steps. -/
def Gather.run (threshold : Int) (me : Nat) : Gather → List GatherEv → Out Gather
  | s, [] => .ok s
  | s, e :: es =>
    match s.step threshold me e with
    | .ok s' => Gather.run threshold me s' es
    | .err x => .err x
    | .panic => .panic

end Horcrux
