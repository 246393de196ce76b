import Verif.Model.Disk
import Verif.Model.Remote
/-
Ending a cosigner process: `signer/services.go:11-24` (`WaitAndTerminate`) with the services that
`cmd/horcrux/cmd/cosigner.go:220-250` starts, tendermint's `libs/service` (`BaseService.Stop`, `IsRunning`) and
`libs/os` (`TrapSignal`: on the first SIGTERM or SIGINT a goroutine runs the callback and then calls `os.Exit(0)`; later
signals are not looked at), as the go.mod of the repository pins them.

The main loop of a remote signer (`remote_signer.go:64-123`) is taken apart into the steps between which `Stop` can come;
`Verif.Model.Remote` has one iteration as one step. `C74_refines` relates the two.

Simplified: `log.Fatal` and the errors of `Start` end the process before any service runs and are left out (tendermint's
`Start` of a new service whose `OnStart` returns nil succeeds); so is `Reset`, which nobody calls. Reading a message and
the handling of it are one step each. The share signatures are those of the local cosigner, over gRPC or raft
(`Verif.Model.Disk`); which requests reach it is not tied to what the loops read, so any are possible at any time.
-/
namespace Horcrux

/-! ### A service -/

/-- `BaseService`: the two flags. -/
structure Svc where
  started : Bool
  stopped : Bool
  deriving DecidableEq, Repr

/-- `IsRunning` -/
def Svc.running (s : Svc) : Bool := s.started && !s.stopped

/-- A service after `Start` (`cosigner.go:223`, `remote_signer.go:226`). -/
def Svc.fresh : Svc := ⟨true, false⟩

/-- `Stop`: whether it returned nil, and the service. Neither service overrides `OnStop`, so nothing else happens: the
gRPC server and raft go on (`raft_store.go:87-127` started them), and the loop goes on until it looks at `IsRunning`. -/
def Svc.stop (s : Svc) : Bool × Svc :=
  if s.stopped then (false, s)
  else if s.started then (true, { s with stopped := true })
  else (false, s)

/-! ### The loop of a remote signer, in small steps -/

/-- Where the loop is: at line 67, before `Dial` (line 78), at line 98, before `ReadMsg` (line 105), before
`handleRequest` (line 114), before `WriteMsg` (line 116), returned, or the process has panicked in it. A connection is
what is left of its stream. -/
inductive LPc where
  | top (conn : Option Bytes)
  | dial
  | check (stream : Bytes)
  | read (stream : Bytes)
  | handle (m : PMsg) (rest : Bytes)
  | write (r : PMsg) (rest : Bytes)
  | returned
  | crashed
  deriving DecidableEq

/-- What a step meets: whether dialling succeeds, and with what stream; what the validator does; whether writing
succeeds. -/
structure LEnv where
  dial : Option Bytes
  pv : PV
  writeOk : Bool

/-- One step of the loop while `IsRunning` is `running`. -/
def lstep (text : Err → Bytes) (running : Bool) (e : LEnv) : LPc → List Act × LPc
  | .top conn =>
    if running then
      match conn with
      | none => ([], .dial)
      | some s => ([], .check s)
    else (closeConn conn, .returned)
  | .dial =>
    match e.dial with
    | none => ([.dialFailed], .dial)
    | some s => ([.connect], .check s)
  | .check s => if running then ([], .read s) else ([.close], .returned)
  | .read s =>
    match readMsg s with
    | none => ([.close], .top none)
    | some (m, rest) => ([.read m], .handle m rest)
  | .handle m rest =>
    match handleRequest text e.pv m with
    | none => ([.crash], .crashed)
    | some r => ([], .write r rest)
  | .write r rest =>
    if e.writeOk then ([.write (writeMsg r)], .top (some rest)) else ([.write (writeMsg r), .close], .top none)
  | .returned => ([], .returned)
  | .crashed => ([], .crashed)

/-- A number of steps, each with the flag it meets. -/
def lrun (text : Err → Bytes) : LPc → List (Bool × LEnv) → List Act × LPc
  | pc, [] => ([], pc)
  | pc, (b, e) :: es =>
    let (a, pc') := lstep text b e pc
    let (a', pc'') := lrun text pc' es
    (a ++ a', pc'')

/-! ### The process -/

/-- The goroutine of `TrapSignal`: no signal yet; `Stop` has been called on the first `n` services; the callback has
returned. -/
inductive Trap where
  | waiting
  | stopping (n : Nat)
  | done
  deriving DecidableEq, Repr

/-- How the process ended. -/
inductive End where
  /-- `os.Exit(0)`, or `main` returning -/
  | exited
  /-- the panic of `services.go:18` -/
  | stopFailed
  /-- a panic of a loop or of the cosigner -/
  | crashed
  deriving DecidableEq, Repr

/-- The process: the raft store, the remote signers (one for each chain node) with their loops, the goroutine of
`TrapSignal`, and the cosigner with its state file. -/
structure Proc where
  store : Svc
  signers : List (Svc × LPc)
  trap : Trap
  ended : Option End
  disk : DState

/-- The services in the order of `cosigner.go:227` and `:248`. -/
def Proc.services (p : Proc) : List Svc := p.store :: p.signers.map Prod.fst

/-- The `n`-th service replaced. -/
def Proc.setService (p : Proc) (n : Nat) (v : Svc) : Proc :=
  match n with
  | 0 => { p with store := v }
  | n + 1 => { p with signers := p.signers.modify n (fun x => (v, x.2)) }

/-- A process at `services.go:12`, with `nodes` chain nodes: everything started, the loops at their beginning. -/
def Proc.boot (nodes : Nat) (d : DState) : Proc :=
  ⟨.fresh, List.replicate nodes (.fresh, .top none), .waiting, none, d⟩

/-- What can happen: a signal comes; the trap goroutine makes its next step; the process exits (which needs the callback
to have returned); a loop makes a step; the cosigner does something or a background write goes on; the operator starts
the process again. -/
inductive PEv where
  | signal
  | stop
  | exit
  | loop (i : Nat) (e : LEnv)
  | disk (e : DEv)
  | restart

/-- What an event does, besides changing the state: what a loop did, what the cosigner answered. -/
structure PObs where
  acts : List Act
  answer : Option (Out CosResp)

def PObs.nothing : PObs := ⟨[], none⟩

/-- The next step of the callback (`services.go:15-21`). -/
def Proc.stopNext (p : Proc) : Proc :=
  match p.trap with
  | .stopping n =>
    match p.services[n]? with
    | none => { p with trap := .done }
    | some v =>
      if v.stop.1 then { p.setService n v.stop.2 with trap := .stopping (n + 1) }
      else { p with ended := some .stopFailed }
  | _ => p

/-- One event while the process runs. -/
def Proc.live (C : Crypto) (cfg : CosignerCfg) (text : Err → Bytes) (p : Proc) : PEv → PObs × Proc
  | .signal => (.nothing, if p.trap = .waiting then { p with trap := .stopping 0 } else p)
  | .stop => (.nothing, p.stopNext)
  | .exit => (.nothing, if p.trap = .done then { p with ended := some .exited } else p)
  | .loop i e =>
    match p.signers[i]? with
    | none => (.nothing, p)
    | some (v, pc) =>
      let (acts, pc') := lstep text v.running e pc
      (⟨acts, none⟩,
        { p with signers := p.signers.set i (v, pc'), ended := if pc' = .crashed then some .crashed else none })
  | .disk e =>
    if e = .restart then (.nothing, p)
    else
      let (a, d) := p.disk.step C cfg e
      (⟨[], a⟩, { p with disk := d, ended := if d.alive then none else some .crashed })
  | .restart => (.nothing, p)

/-- One event after it has ended. -/
def Proc.dead (p : Proc) : PEv → PObs × Proc
  | .restart => (.nothing, Proc.boot p.signers.length (DState.boot p.disk.file))
  | _ => (.nothing, p)

/-- One event. -/
def Proc.step (C : Crypto) (cfg : CosignerCfg) (text : Err → Bytes) (p : Proc) (ev : PEv) : PObs × Proc :=
  if p.ended = none then p.live C cfg text ev else p.dead ev

/-- A history, with what was observed. `ok p e` says which events fate allows in which states. -/
inductive PRun (C : Crypto) (cfg : CosignerCfg) (text : Err → Bytes) (ok : Proc → PEv → Prop) (p0 : Proc) :
    List (PEv × PObs) → Proc → Prop where
  | nil : PRun C cfg text ok p0 [] p0
  | snoc {tr : List (PEv × PObs)} {p : Proc} (h : PRun C cfg text ok p0 tr p) (e : PEv) (he : ok p e) :
      PRun C cfg text ok p0 (tr ++ [(e, (p.step C cfg text e).1)]) (p.step C cfg text e).2

end Horcrux
