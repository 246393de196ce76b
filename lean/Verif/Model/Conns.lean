import Verif.Model.Services
/-
The TCP connections that the loop of a remote signer has open (`signer/remote_signer.go:64-123`), over the steps of
`Verif.Model.Services`. The loop dials (line 78) and then makes a secret connection over the new connection (line 87). If
that fails it goes on with `conn = nil` (lines 88-94), without `netConn.Close()`; `MakeSecretConnection` does not close it
either. What is counted is what the code opens and closes; the runtime may close a connection nobody refers to any more
when it collects garbage (Go's `netFD` has a finalizer), at a time the code has no influence on.
-/
namespace Horcrux

/-- What a step of the loop meets: `IsRunning`, `LEnv`, and (if getting a connection fails) whether the node had accepted the
TCP connection, so that it was the handshake that failed. -/
structure CEnv where
  running : Bool
  env : LEnv
  accepted : Bool

/-- The loop, and how many connections it has opened and not closed. -/
structure Conns where
  pc : LPc
  opened : Int

/-- The connections an action opens or closes: `remote_signer.go:78` and, when a dial fails, whether the TCP connection was
made; `remote_signer.go:69, 99, 108, 119`. -/
def Act.conns (accepted : Bool) : Act → Int
  | .dialFailed => if accepted then 1 else 0
  | .connect => 1
  | .close => -1
  | _ => 0

def Conns.step (text : Err → Bytes) (s : Conns) (e : CEnv) : List Act × Conns :=
  let r := lstep text e.running e.env s.pc
  (r.1, ⟨r.2, s.opened + (r.1.map (Act.conns e.accepted)).sum⟩)

def Conns.run (text : Err → Bytes) : Conns → List CEnv → List Act × Conns
  | s, [] => ([], s)
  | s, e :: es =>
    let r := s.step text e
    let rest := Conns.run text r.2 es
    (r.1 ++ rest.1, rest.2)

/-- `OnStart` (`remote_signer.go:58-61`): a new loop. -/
def Conns.start : Conns := ⟨.top none, 0⟩

end Horcrux
