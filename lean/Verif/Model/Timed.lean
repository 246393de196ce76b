import Verif.Model.Proxy
/-
How long sign requests take: `signer/threshold_validator.go:290-477` and `signer/raft_events.go:39-76` with their waits.
Every node is a `VState` (`Verif.Model.Validator`); here the calls of all nodes get a clock. Times are in milliseconds.

Two numbers are parameters: how long a piece of a call takes at most that waits for no other machine (it computes, or waits
for a lock), and how long raft takes at most to say whether an emission is applied. Everything that waits for another
machine has the limits that the code sets.

Simplified: gRPC delivers a request at most once and an answer that was sent unchanged. A peer's answers within a signing
round are in `Verif.Model.Gather` and `Verif.Model.SignPhase`; here a half of a round ends at any time up to its limit.
The pause after the hundredth look for a signature (`threshold_validator.go:340` with `i` 99), after which a call returns an
error without a further look, is left out.
-/
namespace Horcrux

/-- The parameters. -/
structure Tempo where
  own : Nat
  raft : Nat

/-- `remote_cosigner.go:30`. -/
def rpcTimeout : Nat := 4000

/-- `threshold_validator.go:389, 420`. -/
def roundTimeout : Nat := 4000

/-- `raft_events.go:46`. -/
def leaderPause : Nat := 100

/-- `raft_events.go:41`. -/
def leaderTries : Nat := 30

/-- `threshold_validator.go:340`. -/
def pollPause : Nat := 10

/-- What a call waits for. -/
inductive TStage where
  /-- `raft_events.go:41-47` for a leader to be known, with the loop variable; 30 is after the loop -/
  | seek (i : Nat)
  /-- `raft_events.go:64-67` for the answer of a node -/
  | ask
  /-- `threshold_validator.go:381` for its own secret parts -/
  | own
  /-- `threshold_validator.go:389` -/
  | parts
  /-- `threshold_validator.go:420` -/
  | sign
  /-- for its turn, in another phase of `VState` -/
  | here
  /-- the call has returned -/
  | ended (sig : Slice) (err : Option Err)
  deriving DecidableEq, Repr

/-- A call of `SignBlock`: the node, what was asked for, the call that passed it on if it does not come from a chain node,
what raft said at the start, when it began, the node it was passed on to and when, what it waits for, since when, and the earliest
and the latest time at which it goes on. -/
structure TCall where
  node : Nat
  block : Block
  origin : Option Nat
  role : Role
  since : Nat
  asked : Option (Nat × Nat)
  stage : TStage
  at' : Nat
  wake : Nat
  due : Nat
  deriving DecidableEq

/-- All nodes, the time, and all calls so far; a call has the same number in the list and on its node. -/
structure Timed where
  nodes : Nat → VState
  now : Nat
  calls : List TCall

/-- The call has not returned. -/
def TCall.running (c : TCall) : Bool :=
  match c.stage with
  | .ended .. => false
  | _ => true

/-- Nothing has been asked yet. -/
def Timed.start (loaded : Nat → SignState) : Timed := ⟨fun n => VState.start (loaded n), 0, []⟩

/-- A call begins to wait for something: for at least `w`, and at most `d` more. -/
def TCall.wait (c : TCall) (now : Nat) (stage : TStage) (w d : Nat) : TCall :=
  { c with stage := stage, at' := now, wake := now + w, due := now + w + d }

/-- The clock of call `i` after a step of its node that shows `out` and leads to `v`. -/
def TCall.after (T : Tempo) (now : Nat) (i : Nat) (c : TCall) (out : VOut) (v : VState) : TCall :=
  match out with
  | .ret _ _ sig _ err => c.wait now (.ended sig err) 0 0
  | _ =>
    match v.calls i with
    | some (_, .proxy) => c.wait now (.seek 0) 0 T.own
    | some (_, .poll 0) => c.wait now .here 0 T.own
    | some (_, .poll (_ + 1)) => c.wait now .here pollPause T.own
    | some (_, .lookup) => c.wait now .here 0 T.own
    | some (_, .round) => c.wait now .own 0 T.own
    | some (_, .save _) => c.wait now .here 0 T.own
    | some (_, .emit _) => c.wait now .here 0 T.raft
    | none => c

/-- What can happen. Numbers `i`, `j` are calls. -/
inductive TEv where
  /-- time passes -/
  | tick (d : Nat)
  /-- a chain node asks node `n` -/
  | request (n : Nat) (b : Block) (role : Role)
  /-- `raft_events.go:42-50`: no leader is known, or none was known all the time -/
  | noLeader (i : Nat)
  /-- `raft_events.go:43, 64-67`: a leader is known and is sent the request -/
  | leader (i l : Nat)
  /-- `grpc_server.go:18-29`: it gets the request, whether or not someone still waits for the answer -/
  | arrive (i : Nat) (role : Role)
  /-- `raft_events.go:71-75`: the answer of call `j` -/
  | reply (i j : Nat)
  /-- `raft_events.go:68-70`: the connection fails -/
  | lost (i : Nat)
  /-- `raft_events.go:64`: the time for the answer is over -/
  | expire (i : Nat)
  /-- `threshold_validator.go:381-385` -/
  | ownParts (i : Nat) (err : Option Err)
  /-- `threshold_validator.go:389` -/
  | gathered (i : Nat)
  | partsTimeout (i : Nat)
  /-- `threshold_validator.go:420-443` -/
  | signed (i : Nat) (shares : List Bytes) (eph : Bytes)
  | signTimeout (i : Nat)
  /-- `threshold_validator.go:330` -/
  | poll (i : Nat)
  /-- `threshold_validator.go:351` -/
  | lookup (i : Nat)
  /-- `threshold_validator.go:463` -/
  | save (i : Nat)
  /-- `threshold_validator.go:471-476` -/
  | emit (i : Nat)
  /-- `raft_events.go:28-37` -/
  | lss (n : Nat) (ssc : SSC)

/-- Replace a node. -/
def Timed.setNode (s : Timed) (n : Nat) (v : VState) : Nat → VState := fun j => if j = n then v else s.nodes j

section
variable (T : Tempo) (C : Crypto) (cfg : ValidatorCfg)

/-- The node of call `i` makes the step `ev`. -/
def Timed.act (s : Timed) (i : Nat) (c : TCall) (ev : VEv) : Timed :=
  let r := (s.nodes c.node).step C cfg ev
  { s with nodes := s.setNode c.node r.2, calls := s.calls.set i (c.after T s.now i r.1 r.2) }

/-- A new call of `SignBlock` at node `n`. -/
def Timed.enter (s : Timed) (n : Nat) (b : Block) (origin : Option Nat) (role : Role) : Timed :=
  let i := s.calls.length
  let r := (s.nodes n).step C cfg (.call i b role)
  let c : TCall := ⟨n, b, origin, role, s.now, none, .here, s.now, s.now, s.now⟩
  { s with nodes := s.setNode n r.2, calls := s.calls ++ [c.after T s.now i r.1 r.2] }

/-- One step; `none` if it is not possible now. -/
def Timed.step (s : Timed) : TEv → Option Timed
  -- nobody waits longer than they may
  | .tick d => if s.calls.all (fun c => !c.running || decide (s.now + d ≤ c.due)) then some { s with now := s.now + d } else none
  | .request n b role => some (s.enter T C cfg n b none role)
  | .noLeader i => do
    let c ← s.calls[i]?
    match c.stage with
    | .seek k =>
      if s.now < c.wake then none
      else if k < leaderTries then
        some { s with calls := s.calls.set i (c.wait s.now (.seek (k + 1)) leaderPause T.own) }
      else some (s.act T C cfg i c (.proxyDone i (.error .external)))
    | _ => none
  | .leader i l => do
    let c ← s.calls[i]?
    match c.stage with
    | .seek k =>
      if s.now < c.wake ∨ ¬ k < leaderTries then none
      else some { s with calls := s.calls.set i { c.wait s.now .ask rpcTimeout T.own with asked := some (l, s.now) } }
    | _ => none
  | .arrive i role => do
    let c ← s.calls[i]?
    let (l, _) ← c.asked
    if s.calls.any (fun c' => c'.origin == some i) then none
    else some (s.enter T C cfg l (blockFromProto c.block.toProto) (some i) role)
  | .reply i j => do
    let c ← s.calls[i]?
    let c' ← s.calls[j]?
    if c.stage = .ask ∧ c'.origin = some i then
      match c'.stage with
      | .ended sig err => some (s.act T C cfg i c (.proxyDone i (remoteAnswer (.ret j c'.block sig c'.block.timestamp err))))
      | _ => none
    else none
  | .lost i => do
    let c ← s.calls[i]?
    if c.stage = .ask then some (s.act T C cfg i c (.proxyDone i (.error .external))) else none
  | .expire i => do
    let c ← s.calls[i]?
    if c.stage = .ask ∧ c.wake ≤ s.now then some (s.act T C cfg i c (.proxyDone i (.error .external))) else none
  | .ownParts i err => do
    let c ← s.calls[i]?
    if c.stage = .own then
      match err with
      | none => some { s with calls := s.calls.set i (c.wait s.now .parts roundTimeout T.own) }
      | some e => some (s.act T C cfg i c (.roundDone i (.failed e)))
    else none
  | .gathered i => do
    let c ← s.calls[i]?
    if c.stage = .parts then some { s with calls := s.calls.set i (c.wait s.now .sign roundTimeout T.own) } else none
  | .partsTimeout i => do
    let c ← s.calls[i]?
    if c.stage = .parts ∧ c.wake ≤ s.now then some (s.act T C cfg i c (.roundDone i (.failed .external))) else none
  | .signed i shares eph => do
    let c ← s.calls[i]?
    if c.stage = .sign then some (s.act T C cfg i c (.roundDone i (.sigs shares eph))) else none
  | .signTimeout i => do
    let c ← s.calls[i]?
    if c.stage = .sign ∧ c.wake ≤ s.now then some (s.act T C cfg i c (.roundDone i (.failed .external))) else none
  | .poll i => do
    let c ← s.calls[i]?
    if c.stage = .here ∧ c.wake ≤ s.now ∧ ((s.nodes c.node).calls i).any (fun p => p.2 matches .poll _) then
      some (s.act T C cfg i c (.poll i))
    else none
  | .lookup i => do
    let c ← s.calls[i]?
    if c.stage = .here ∧ ((s.nodes c.node).calls i).any (fun p => p.2 matches .lookup) then
      some (s.act T C cfg i c (.lookup i))
    else none
  | .save i => do
    let c ← s.calls[i]?
    if c.stage = .here ∧ ((s.nodes c.node).calls i).any (fun p => p.2 matches .save _) then
      some (s.act T C cfg i c (.save i))
    else none
  | .emit i => do
    let c ← s.calls[i]?
    if c.stage = .here ∧ ((s.nodes c.node).calls i).any (fun p => p.2 matches .emit _) then
      some (s.act T C cfg i c (.emit i))
    else none
  | .lss n ssc => some { s with nodes := s.setNode n ((s.nodes n).step C cfg (.lss ssc)).2 }

/-- A run. -/
def Timed.run : Timed → List TEv → Option Timed
  | s, [] => some s
  | s, e :: es => (s.step T C cfg e).bind fun s' => Timed.run s' es

end

end Horcrux
