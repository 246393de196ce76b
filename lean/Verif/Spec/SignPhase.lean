import Verif.Model.SignPhase
/-
Specification: what each participant answered.
-/
namespace Horcrux.Spec
open Horcrux

/-- What came of the call to `p`: `none` while it is outstanding, `some none` if it failed, otherwise the answer. There is
one call per participant, so only the first such event counts. -/
def outcomeOf (p : Nat) : List SignEv → Option (Option SignRes)
  | [] => none
  | .failed q :: es => if q = p then some none else outcomeOf p es
  | .answered q r :: es => if q = p then some (some r) else outcomeOf p es
  | _ :: es => outcomeOf p es

/-- The share signature in an outcome; nothing if the call failed or is outstanding. -/
def sigIn : Option (Option SignRes) → Bytes
  | some (some r) => r.signature.bytes
  | _ => []

/-- The ephemeral public key in an outcome. -/
def ephIn : Option (Option SignRes) → Bytes
  | some (some r) => r.ephemeralPublic.bytes
  | _ => []

end Horcrux.Spec
