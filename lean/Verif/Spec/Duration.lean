import Verif.Model.Config
import Verif.Spec.Config
import Verif.Spec.Url
/-
What C122 says about the text of a duration, by the documentation of `time.ParseDuration`: "a possibly signed sequence of decimal
numbers, each with optional fraction and a unit suffix, such as "300ms", "-1.5h" or "2h45m"". Nothing of the model of the library
is used.
-/
namespace Horcrux.Spec

/-- `u` is the name of a unit of `n` nanoseconds. -/
inductive UnitName : Str → Nat → Prop
  | nano : UnitName (text "ns") 1
  | us : UnitName (text "us") 1000
  | micro : UnitName [194, 181, 115] 1000
  | mu : UnitName [206, 188, 115] 1000
  | milli : UnitName (text "ms") 1000000
  | second : UnitName (text "s") 1000000000
  | minute : UnitName (text "m") 60000000000
  | hour : UnitName (text "h") 3600000000000

/-- A decimal number with a unit. -/
structure DurTerm where
  whole : Str          -- before the point
  part : Option Str    -- after the point, if there is one
  unit : Str
  size : Nat           -- of the unit, in nanoseconds

def DurTerm.text (t : DurTerm) : Str := t.whole ++ (match t.part with | none => [] | some p => 46 :: p) ++ t.unit

/-- There are digits and a unit. -/
def DurTerm.Ok (t : DurTerm) : Prop :=
  (∀ c ∈ t.whole, Digit c) ∧ (∀ p, t.part = some p → ∀ c ∈ p, Digit c) ∧
  (t.whole ≠ [] ∨ ∃ p, t.part = some p ∧ p ≠ []) ∧ UnitName t.unit t.size

/-- `p` is the longest beginning of `ds` whose value is a 64-bit integer. -/
def Kept (ds p : Str) : Prop :=
  p <+: ds ∧ decValue p < 2 ^ 63 ∧ ∀ q, q <+: ds → decValue q < 2 ^ 63 → q.length ≤ p.length

/-- The nanoseconds of a term; `fr f n k` is `f * n / 10 ^ k` as computed with floating-point numbers. -/
def DurTerm.Value (fr : Nat → Nat → Nat → Nat) (t : DurTerm) (v : Nat) : Prop :=
  match t.part with
  | none => v = decValue t.whole * t.size
  | some ds => ∃ p, Kept ds p ∧
      v = decValue t.whole * t.size + if decValue p = 0 then 0 else fr (decValue p) t.size p.length

/-- `s` is a sequence of terms that make `d` nanoseconds. -/
inductive DurText (fr : Nat → Nat → Nat → Nat) : Str → Nat → Prop
  | one (t : DurTerm) (v : Nat) : t.Ok → t.Value fr v → DurText fr t.text v
  | more (t : DurTerm) (v : Nat) (s : Str) (d : Nat) : t.Ok → t.Value fr v → DurText fr s d → DurText fr (t.text ++ s) (v + d)

/-- `s` is the text of the duration `d`: with or without sign, zero or a sequence of terms that fits into 64 bits. -/
def DurationText (fr : Nat → Nat → Nat → Nat) (s : Str) (d : Int) : Prop :=
  ∃ u n, (u = text "0" ∧ n = 0 ∨ DurText fr u n ∧ n < 2 ^ 63) ∧
    (s = u ∧ d = n ∨ s = text "+" ++ u ∧ d = n ∨ s = text "-" ++ u ∧ d = -(n : Int))

end Horcrux.Spec
