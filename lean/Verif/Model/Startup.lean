import Verif.Model.Prim
/-
Starting a cosigner node: `cmd/horcrux/cmd/cosigner.go:220-253` against the goroutine of `signer/raft_store.go:117-127`
that runs `init` (`raft_store.go:87-115`). Which of the two makes the next step is arbitrary. Steps that cannot see the
validator are merged. Failing steps end the process and are left out; so is tearing of the racing pointer access
(`raft_store.go:84` and `:104`), which Go does not define but which one-word pointers do not show.
-/
namespace Horcrux

/-- The main goroutine: before `raftStore.Start()` (line 223), before `NewThresholdValidator` (line 228), before
`SetThresholdValidator` (line 238), before `StartRemoteSigners` (line 248), after it. -/
inductive MainPC where
  | start
  | newValidator
  | setValidator
  | startSigners
  | running
  deriving DecidableEq, Repr

/-- The goroutine of `init`: not there yet, before `Open` (line 97), before `RegisterCosignerGRPCServer` (line 102),
before `Serve` (line 111), serving. -/
inductive InitPC where
  | absent
  | openRaft
  | register
  | serve
  | serving
  deriving DecidableEq, Repr

/-- A node that starts. `validator` is the field of the store, `captured` that of the gRPC server once it is made. -/
structure Startup (V : Type) where
  main : MainPC
  init : InitPC
  /-- the local variable `val` -/
  val : Option V
  /-- `raft_store.go:61`; nil at first -/
  validator : Option V
  /-- `raft_store.go:102-106` -/
  captured : Option (Option V)
  crashed : Bool

variable {V : Type}

def Startup.zero : Startup V := ⟨.start, .absent, none, none, none, false⟩

/-- A step of one of the goroutines; an event that raft applies (`raft_events.go:28-37`), possible once raft is open; a
`SignBlock` call over gRPC (`grpc_server.go:19-35`), possible once the server serves; a request of a chain node. -/
inductive SEv where
  | main
  | init
  | lss
  | signBlock
  | node
  deriving DecidableEq, Repr

/-- Which validator a step used (`none` is a nil one: a panic). -/
inductive SOut (V : Type) where
  | quiet
  | used (v : Option V)
  deriving DecidableEq

/-- A method is called on the validator. -/
def Startup.use (s : Startup V) (v : Option V) : SOut V × Startup V :=
  match v with
  | some _ => (.used v, s)
  | none => (.used none, { s with crashed := true })

/-- One step; `conf` is the validator that `NewThresholdValidator` makes. A step that is not possible does nothing. -/
def Startup.step (conf : V) (s : Startup V) (e : SEv) : SOut V × Startup V :=
  if s.crashed then (.quiet, s) else
  match e with
  | .main =>
    match s.main with
    | .start => (.quiet, { s with main := .newValidator, init := .openRaft })
    | .newValidator => (.quiet, { s with main := .setValidator, val := some conf })
    | .setValidator => (.quiet, { s with main := .startSigners, validator := s.val })
    | .startSigners => (.quiet, { s with main := .running })
    | .running => (.quiet, s)
  | .init =>
    match s.init with
    | .absent => (.quiet, s)
    | .openRaft => (.quiet, { s with init := .register })
    | .register => (.quiet, { s with init := .serve, captured := some s.validator })
    | .serve => (.quiet, { s with init := .serving })
    | .serving => (.quiet, s)
  | .lss =>
    match s.init with
    | .absent => (.quiet, s)
    | .openRaft => (.quiet, s)
    | _ => s.use s.validator
  | .signBlock =>
    match s.init, s.captured with
    | .serving, some v => s.use v
    | _, _ => (.quiet, s)
  | .node =>
    match s.main with
    | .running => s.use s.val
    | _ => (.quiet, s)

/-- A schedule: the outputs and the last state. -/
def Startup.run (conf : V) (s : Startup V) : List SEv → List (SEv × SOut V) × Startup V
  | [] => ([], s)
  | e :: es =>
    let (o, s') := s.step conf e
    let (os, t) := s'.run conf es
    ((e, o) :: os, t)

end Horcrux
