import Verif.Model.Conns
/-
Vocabulary for the connections of a remote signer.
-/
namespace Horcrux.Spec

/-- How many connections the loop holds. -/
def held : LPc → Nat
  | .top none => 0
  | .top (some _) => 1
  | .dial => 0
  | .check _ => 1
  | .read _ => 1
  | .handle _ _ => 1
  | .write _ _ => 1
  | .returned => 0
  | .crashed => 1

/-- The loop is to get a connection, and the node accepts one over which no secret connection can be made. -/
def handshakeFails (pc : LPc) (e : CEnv) : Nat :=
  match pc, e.env.dial, e.accepted with
  | .dial, none, true => 1
  | _, _, _ => 0

/-- How often, in a run of the loop, the node accepted a connection over which no secret connection could be made. -/
def failedHandshakes (text : Err → Bytes) : Conns → List CEnv → Nat
  | _, [] => 0
  | s, e :: es =>
    handshakeFails s.pc e + failedHandshakes text (s.step text e).2 es

end Horcrux.Spec
