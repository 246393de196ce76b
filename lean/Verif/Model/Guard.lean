import Verif.Model.Prim
/-
`signer/PvGuard.go`: any number of callers of the guarded validator. What the validator does inside a call is an
arbitrary machine of small steps; others may change its state meanwhile without passing the guard (raft events, calls
over gRPC: `raft_events.go:35`, `cosigner_grpc_server.go:28`).

`sync.Mutex` is modelled as: `Lock` returns only if nobody holds it (any waiting caller may be next), `Unlock` releases
it. A panic inside a call ends the process.
-/
namespace Horcrux

/-- The methods of a `PrivValidator`. -/
inductive PvMethod where
  | getPubKey
  | signVote
  | signProposal
  deriving DecidableEq, Repr

/-- `PvGuard.go:20-21, 27-28, 34-35`: whether the method takes `pvMutex`. -/
def PvMethod.locks : PvMethod → Bool
  | .getPubKey => true
  | .signVote => true
  | .signProposal => true

/-- A validator: requests, results, its state, and the local state of a running call. -/
structure Machine where
  Req : Type
  Res : Type
  State : Type
  Local : Type
  method : Req → PvMethod
  start : Req → Local
  step : State → Local → State → Local → Prop
  done : Local → Option Res
  env : State → State → Prop

variable {M : Machine}

/-- Where a call is. -/
inductive CallSt (M : Machine) where
  | idle
  /-- called, `Lock` has not returned -/
  | waiting (q : M.Req)
  /-- in the underlying validator -/
  | inside (q : M.Req) (l : M.Local)
  /-- the deferred `Unlock` is done -/
  | released (q : M.Req) (r : M.Res)
  /-- the caller has the result -/
  | returned (q : M.Req) (r : M.Res)

/-- The validator's state, the holder of the mutex, and the calls. Each call has its own number. -/
structure GState (M : Machine) where
  state : M.State
  lock : Option Nat
  call : Nat → CallSt M

def GState.start (s : M.State) : GState M := ⟨s, none, fun _ => .idle⟩

def GState.setCall (s : GState M) (i : Nat) (c : CallSt M) : GState M :=
  { s with call := fun j => if j = i then c else s.call j }

/-- Events: a call is made, gets past `Lock`, makes a step inside, leaves the validator and unlocks, returns; and a
change by others. -/
inductive GEv (M : Machine) where
  | inv (i : Nat) (q : M.Req)
  | acq (i : Nat)
  | inner (i : Nat)
  | rel (i : Nat) (q : M.Req) (r : M.Res)
  | ret (i : Nat) (r : M.Res)
  | env

/-- `PvGuard.go:19-37`, one step. -/
inductive GStep : GState M → GEv M → GState M → Prop where
  | inv {s : GState M} {i : Nat} {q : M.Req} (h : s.call i = .idle) : GStep s (.inv i q) (s.setCall i (.waiting q))
  | acq {s : GState M} {i : Nat} {q : M.Req} (h : s.call i = .waiting q)
      (hl : (M.method q).locks = true → s.lock = none) :
      GStep s (.acq i)
        { s.setCall i (.inside q (M.start q)) with lock := if (M.method q).locks then some i else s.lock }
  | inner {s : GState M} {i : Nat} {q : M.Req} {l l' : M.Local} {t : M.State} (h : s.call i = .inside q l)
      (hs : M.step s.state l t l') : GStep s (.inner i) { s.setCall i (.inside q l') with state := t }
  | rel {s : GState M} {i : Nat} {q : M.Req} {l : M.Local} {r : M.Res} (h : s.call i = .inside q l)
      (hd : M.done l = some r) :
      GStep s (.rel i q r) { s.setCall i (.released q r) with lock := if (M.method q).locks then none else s.lock }
  | ret {s : GState M} {i : Nat} {q : M.Req} {r : M.Res} (h : s.call i = .released q r) :
      GStep s (.ret i r) (s.setCall i (.returned q r))
  | env {s : GState M} {t : M.State} (h : M.env s.state t) : GStep s .env { s with state := t }

/-- A schedule of events from the start. -/
inductive GRun (s0 : M.State) : List (GEv M) → GState M → Prop where
  | nil : GRun s0 [] (.start s0)
  | snoc {tr : List (GEv M)} {s t : GState M} {e : GEv M} (h : GRun s0 tr s) (hs : GStep s e t) :
      GRun s0 (tr ++ [e]) t

end Horcrux
