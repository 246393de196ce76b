import Verif.Model.Address
import Verif.Spec.StateCmd
/-
Specification: Bech32 (BIP-173) and what `cosigner address` is to print.
-/
namespace Horcrux.Spec
open Horcrux

/-! ### Bech32, from the text of BIP-173

The checksum is a code over the field with 32 elements: a string is valid if its polynomial leaves the remainder 1. -/

/-- Multiplication by `x` in `GF(2)[x] / (x^5 + x^3 + 1)`; elements are numbers below 32. -/
def gfTwice (a : Nat) : Nat := if a < 16 then 2 * a else (2 * a) ^^^ 41

/-- Multiplication. -/
def gfMul (a b : Nat) : Nat :=
  let t (i n : Nat) := if b.testBit i then n else 0
  t 0 a ^^^ t 1 (gfTwice a) ^^^ t 2 (gfTwice (gfTwice a)) ^^^ t 3 (gfTwice (gfTwice (gfTwice a))) ^^^
    t 4 (gfTwice (gfTwice (gfTwice (gfTwice a))))

/-- `x^6 + 29 x^5 + 22 x^4 + 20 x^3 + 21 x^2 + 29 x + 18`, without the leading term. -/
def bchGenerator : List Nat := [29, 22, 20, 21, 29, 18]

/-- The remainder of `r(x) x + v`, if `r` is a remainder (coefficients from the highest on). -/
def bchStep : List Nat → Nat → List Nat
  | c :: cs, v => List.zipWith (· ^^^ ·) (cs ++ [v]) (bchGenerator.map (gfMul c))
  | [], _ => []

/-- The remainder of the polynomial with leading coefficient 1 and then the given ones. -/
def bchRemainder (vs : List Nat) : List Nat := vs.foldl bchStep [0, 0, 0, 0, 0, 1]

/-- The `w` lowest bits of a number, the highest first. -/
def bits : Nat → Nat → List Bool
  | 0, _ => []
  | w + 1, n => n.testBit w :: bits w n

/-- The character for a value. -/
def bechChar (v : Nat) : UInt8 := (text "qpzry9x8gf2tvdw0s3jn54khce6mua7l").getD v 0

/-- `s` is the Bech32 string with human-readable part `hrp` for the bytes `data`, of at most `limit` characters: printable
characters in one case, the separator, the groups of five bits (padded with fewer than five zeros), six more for the
checksum. -/
def IsBech32 (limit : Nat) (hrp data s : Bytes) : Prop :=
  hrp ≠ [] ∧ (∀ c ∈ hrp, 33 ≤ c ∧ c ≤ 126) ∧ s.length ≤ limit ∧
  ¬ ((∃ c ∈ s, 65 ≤ c ∧ c ≤ 90) ∧ (∃ c ∈ s, 97 ≤ c ∧ c ≤ 122)) ∧
  ∃ vals sum : List Nat, (∀ v ∈ vals ++ sum, v < 32) ∧ sum.length = 6 ∧
    s = hrp ++ text "1" ++ (vals ++ sum).map bechChar ∧
    bchRemainder (hrp.map (fun c => c.toNat / 32) ++ [0] ++ hrp.map (fun c => c.toNat % 32) ++ vals ++ sum) =
      [0, 0, 0, 0, 0, 1] ∧
    ∃ pad < 5, vals.flatMap (bits 5) = data.flatMap (fun b => bits 8 b.toNat) ++ List.replicate pad false

/-! ### The output -/

/-- The string member with a name. -/
def jmember : JVal → String → Option Bytes
  | .obj l, n => go l n
  | _, _ => none
where
  go : JObj → String → Option Bytes
    | .nil, _ => none
    | .cons k v l, n => if k = text n then (match v with | .str s _ => some s | _ => none) else go l n

/-- The output shows the address in upper-case hexadecimal and the key as the JSON that a chain node prints. -/
def ShowsKey (addr pk out : Bytes) : Prop :=
  ∃ j h t k b, parseJson out = some j ∧
    jmember j "HexAddress" = some h ∧ hexDec h = some addr ∧ (∀ c ∈ h, ¬ (97 ≤ c ∧ c ≤ 122)) ∧
    jmember j "PubKey" = some t ∧ parseJson t = some k ∧
    jmember k "@type" = some (text "/cosmos.crypto.ed25519.PubKey") ∧ jmember k "key" = some b ∧ b64Dec b = some pk

/-- The amino encoding of an ed25519 key (the prefix of `tendermint/PubKeyEd25519`, the length, the key). -/
def aminoEd25519 (pk : Bytes) : Bytes := [0x16, 0x24, 0xDE, 0x64, UInt8.ofNat pk.length] ++ pk

/-- The output shows the consensus address and the consensus key for a prefix. -/
def ShowsCons (limit : Nat) (base addr pk out : Bytes) : Prop :=
  ∃ j a p, parseJson out = some j ∧ jmember j "ValConsAddress" = some a ∧ jmember j "ValConsPubAddress" = some p ∧
    IsBech32 limit (base ++ text "valcons") addr a ∧ IsBech32 limit (base ++ text "valconspub") (aminoEd25519 pk) p

end Horcrux.Spec
