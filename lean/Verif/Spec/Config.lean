import Verif.Model.Prim
/-
Specification vocabulary for the configuration: joining with a separator, decimal numerals, written peer lists.
-/
namespace Horcrux.Spec

/-- Texts joined by a separator byte: `p₁ sep p₂ sep … pₙ`. -/
def joinWith (sep : UInt8) : List Bytes → Bytes
  | [] => []
  | [p] => p
  | p :: ps => p ++ sep :: joinWith sep ps

/-- A decimal digit. -/
def IsDigit (c : UInt8) : Prop := 48 ≤ c.toNat ∧ c.toNat ≤ 57

/-- The value of a text of decimal digits. -/
def decValue (ds : Bytes) : Nat := ds.foldl (fun a c => a * 10 + (c.toNat - 48)) 0

/-- `s` is a decimal numeral, optionally with a sign, for the 64-bit integer `n`. -/
def Numeral (s : Bytes) (n : Int) : Prop :=
  IsI64 n ∧ ∃ ds : Bytes, ds ≠ [] ∧ (∀ c ∈ ds, IsDigit c) ∧
    ((s = ds ∧ n = decValue ds) ∨ (s = 43 :: ds ∧ n = decValue ds) ∨ (s = 45 :: ds ∧ n = -(decValue ds : Int)))

/-- A natural number in decimal. -/
def decimal (n : Nat) : Bytes :=
  if n < 10 then [48 + n.toUInt8] else decimal (n / 10) ++ [48 + (n % 10).toUInt8]

/-- An integer in decimal. -/
def intText (n : Int) : Bytes := if n < 0 then 45 :: decimal n.natAbs else decimal n.natAbs

/-- A list of (ID, address) in the documented form `addr|id,addr|id`. -/
def peersText (ps : List (Int × Bytes)) : Bytes := joinWith 44 (ps.map fun p => p.2 ++ 124 :: intText p.1)

end Horcrux.Spec
