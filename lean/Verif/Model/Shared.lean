import Verif.Model.Disk
/-
Several processes `horcrux cosigner start` with one home directory: `cmd/horcrux/cmd/cosigner.go:150-230` and
`signer/raft_store.go:87-203`. A process first loads its share sign state, then listens on its port, then opens the raft
log in the home directory, and only then serves the gRPC calls.

Simplified: the processes are those of one cosigner (same configuration and key file). `net.Listen` fails if and only if
a process on the same host (the same network namespace) listens on the port; `boltdb.NewBoltStore` waits without limit for
the lock of the file (external code, with its default options); the operating system releases ports and locks when a
process ends. The state of the validator (`cosigner.go:162-166`) and the requests of chain nodes before the raft log is
open (they crash the process, `raft` being nil) are left out.
-/
namespace Horcrux

/-- How far a start has come: the state file is loaded (`cosigner.go:170-174`), the port is taken
(`raft_store.go:93-96`), the raft log is open and calls are served (`raft_store.go:97-113`). -/
inductive Stage where
  | loaded
  | listening
  | serving
  deriving DecidableEq

/-- A process of the cosigner. -/
structure HProc where
  host : Nat
  /-- what the state file held when the process loaded it -/
  file : PFile
  stage : Stage
  mem : CState
  jobs : List Job

/-- The machines: the state file, the lock of the raft log, the port on every host, and the processes. -/
structure Shared where
  file : PFile
  lock : Option Nat
  port : Nat → Option Nat
  procs : Nat → Option HProc

/-- What can happen: process `p` is started on a host, goes on with its start (listens, opens the raft log), is called,
one of its goroutines marshals the state or writes the file, or it ends. -/
inductive HEv where
  | start (p host : Nat)
  | listen (p : Nat)
  | openLog (p : Nat)
  | op (p : Nat) (o : CosOp)
  | marshal (p i : Nat)
  | write (p i : Nat)
  | kill (p : Nat)
  deriving DecidableEq

/-- A process changes. -/
def Shared.setProc (s : Shared) (p : Nat) (q : HProc) : Shared :=
  { s with procs := fun i => if i = p then some q else s.procs i }

/-- A process ends, with its goroutines; the operating system releases what it held. -/
def Shared.die (s : Shared) (p : Nat) : Shared :=
  { s with lock := if s.lock = some p then none else s.lock,
           port := fun h => if s.port h = some p then none else s.port h,
           procs := fun i => if i = p then none else s.procs i }

/-- One event, with the answer if it is a call. -/
def Shared.step (C : Crypto) (cfg : CosignerCfg) (s : Shared) : HEv → Option (Out CosResp) × Shared
  | .start p host =>
    match s.procs p with
    | some _ => (none, s)
    | none => (none, s.setProc p ⟨host, s.file, .loaded, .start s.file.load, []⟩)
  | .listen p =>
    match s.procs p with
    | some q =>
      if q.stage = .loaded then
        match s.port q.host with
        | none => (none, { s.setProc p { q with stage := .listening } with
            port := fun h => if h = q.host then some p else s.port h })
        | some _ => (none, s.die p)
      else (none, s)
    | none => (none, s)
  | .openLog p =>
    match s.procs p with
    | some q =>
      if q.stage = .listening ∧ s.lock = none then
        (none, { s.setProc p { q with stage := .serving } with lock := some p })
      else (none, s)
    | none => (none, s)
  | .op p o =>
    match s.procs p with
    | some q =>
      if q.stage = .serving then
        match q.mem.step C cfg o with
        | (.panic, _) => (some .panic, s.die p)
        | (.ok a, m) => (some (.ok a), s.setProc p { q with mem := m, jobs := spawn q.mem m q.jobs })
        | (.err e, m) => (some (.err e), s.setProc p { q with mem := m, jobs := spawn q.mem m q.jobs })
      else (none, s)
    | none => (none, s)
  | .marshal p i =>
    match s.procs p with
    | some q =>
      match q.jobs[i]? with
      | some .started => (none, s.setProc p { q with jobs := q.jobs.set i (.marshalled q.mem.lss.persist) })
      | _ => (none, s)
    | none => (none, s)
  | .write p i =>
    match s.procs p with
    | some q =>
      match q.jobs[i]? with
      | some (.marshalled f) => (none, { s.setProc p { q with jobs := q.jobs.eraseIdx i } with file := f })
      | _ => (none, s)
    | none => (none, s)
  | .kill p => (none, s.die p)

/-- Nothing has been started. -/
def Shared.init (f : PFile) : Shared := ⟨f, none, fun _ => none, fun _ => none⟩

/-- A history. `ok tr s e` says which events are allowed after which histories, in which states. -/
inductive HRun (C : Crypto) (cfg : CosignerCfg) (ok : List (HEv × Option (Out CosResp)) → Shared → HEv → Prop)
    (s0 : Shared) : List (HEv × Option (Out CosResp)) → Shared → Prop where
  | nil : HRun C cfg ok s0 [] s0
  | snoc {tr : List (HEv × Option (Out CosResp))} {s : Shared} (h : HRun C cfg ok s0 tr s) (e : HEv) (he : ok tr s e) :
      HRun C cfg ok s0 (tr ++ [(e, (s.step C cfg e).1)]) (s.step C cfg e).2

end Horcrux
