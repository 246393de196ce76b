import Verif.Model.StateCmd
/-
Specification: what `state show` is to print.
-/
namespace Horcrux.Spec
open Horcrux

/-- The bytes of an ASCII string. -/
def text (s : String) : Bytes := s.toList.map fun c => UInt8.ofNat c.toNat

/-- A line for a byte string that may be absent. -/
def shownOpt (label : String) (enc : Bytes → Bytes) : Slice → Bytes
  | none => []
  | some bs => text label ++ enc bs ++ text "\n"

/-- A state, as it is shown. -/
def shown (f : PFile) : Bytes :=
  text ("  Height:    " ++ toString f.height ++ "\n" ++ "  Round:     " ++ toString f.round ++ "\n" ++
    "  Step:      " ++ toString f.step ++ "\n") ++
  shownOpt "  Ephemeral Public Key: " b64Enc f.ephemeralPublic ++ shownOpt "  Signature: " b64Enc f.signature ++
  shownOpt "  SignBytes: " hexEnc f.signBytes

/-- Both states. -/
def shownBoth (pv share : PFile) : Bytes :=
  text "Private Validator State:\n" ++ shown pv ++ text "Share Sign State:\n" ++ shown share

end Horcrux.Spec
