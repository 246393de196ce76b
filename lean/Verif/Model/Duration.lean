import Verif.Model.Url
/-
The timeout in a configuration: `time.ParseDuration` (Go 1.17, from knowledge of the library), the places that use it
(`cmd/horcrux/cmd/config.go:209-212`, `cmd/horcrux/cmd/cosigner.go:210,221-222`, `signer/raft_store.go:66-76`) and what it is for
(`signer/raft_store.go:229,248`, with `Apply` of hashicorp/raft v1.3.3, from knowledge of the library).

Durations are nanoseconds. The one computation with floating-point numbers, `int64(float64(f) * (float64(unit) / scale))` with
`scale` a power of ten, is a parameter `fr f unit k`, `k` the exponent; its result is between 0 and the unit.
-/
namespace Horcrux

/-- `unitMap`: `ns`, `us`, `µs` (U+00B5), `μs` (U+03BC), `ms`, `s`, `m`, `h`. -/
def unitOf (u : Str) : Option Nat :=
  if u = [110, 115] then some 1
  else if u = [117, 115] ∨ u = [194, 181, 115] ∨ u = [206, 188, 115] then some 1000
  else if u = [109, 115] then some 1000000
  else if u = [115] then some 1000000000
  else if u = [109] then some 60000000000
  else if u = [104] then some 3600000000000
  else none

/-- `leadingInt`, having read `x`: the number and the rest, `none` for an overflow. -/
def leadingInt : Nat → Str → Option (Nat × Str)
  | x, [] => some (x, [])
  | x, c :: s =>
    if isDigit c then
      if x > (2 ^ 63 - 1) / 10 then none
      else if x * 10 + (c.toNat - 48) ≥ 2 ^ 63 then none
      else leadingInt (x * 10 + (c.toNat - 48)) s
    else some (x, c :: s)

/-- `leadingFraction`, having read `x` of `k` digits (`over`: further digits are ignored): number, number of digits, rest. -/
def leadingFraction : Nat → Nat → Bool → Str → Nat × Nat × Str
  | x, k, _, [] => (x, k, [])
  | x, k, over, c :: s =>
    if isDigit c then
      if over then leadingFraction x k true s
      else if x > (2 ^ 63 - 1) / 10 then leadingFraction x k true s
      else if x * 10 + (c.toNat - 48) ≥ 2 ^ 63 then leadingFraction x k true s
      else leadingFraction (x * 10 + (c.toNat - 48)) (k + 1) false s
    else (x, k, c :: s)

/-- Part of a number: digits and the point. -/
def numByte (c : UInt8) : Bool := c == 46 || isDigit c

/-- The part after the point: number, number of digits, whether there were any, rest. -/
def fraction : Str → Nat × Nat × Bool × Str
  | [] => (0, 0, false, [])
  | c :: s =>
    if c = 46 then
      let r := leadingFraction 0 0 false s
      (r.1, r.2.1, decide (s.length ≠ r.2.2.length), r.2.2)
    else (0, 0, false, c :: s)

/-- One pass of the loop of `ParseDuration`: the value of a term like `1.5s`, and the rest. -/
def durTerm (fr : Nat → Nat → Nat → Nat) (s : Str) : Option (Nat × Str) :=
  if (s.head?.map numByte).getD false = false then none
  else
    match leadingInt 0 s with
    | none => none
    | some (v, s1) =>
      let r := fraction s1
      if s.length = s1.length ∧ r.2.2.1 = false then none
      else if r.2.2.2.takeWhile (fun c => !numByte c) = [] then none
      else
        match unitOf (r.2.2.2.takeWhile fun c => !numByte c) with
        | none => none
        | some unit =>
          if v > (2 ^ 63 - 1) / unit then none
          else
            let w := v * unit + if r.1 > 0 then fr r.1 unit r.2.1 else 0
            if w ≥ 2 ^ 63 then none else some (w, r.2.2.2.dropWhile fun c => !numByte c)

/-- The loop of `ParseDuration`, at most `fuel` passes (each reads at least one byte). -/
def durTerms (fr : Nat → Nat → Nat → Nat) : Nat → Nat → Str → Option Nat
  | _, d, [] => some d
  | 0, _, _ :: _ => none
  | fuel + 1, d, c :: s =>
    match durTerm fr (c :: s) with
    | none => none
    | some (w, rest) => if d + w ≥ 2 ^ 63 then none else durTerms fr fuel (d + w) rest

/-- What is after the sign. -/
def parseUnsigned (fr : Nat → Nat → Nat → Nat) (s : Str) : Option Nat :=
  if s = [48] then some 0
  else if s = [] then none
  else durTerms fr s.length 0 s

/-- `time.ParseDuration`. -/
def parseDuration (fr : Nat → Nat → Nat → Nat) (s : Str) : Option Int :=
  match s with
  | [] => none
  | c :: t =>
    if c = 45 then (parseUnsigned fr t).map fun d : Nat => -(d : Int)
    else if c = 43 then (parseUnsigned fr t).map Int.ofNat
    else (parseUnsigned fr (c :: t)).map Int.ofNat

/-- The library as `config.go` uses it, with `time.ParseDuration` (line 209). -/
def durLib (fr : Nat → Nat → Nat → Nat) : Lib := goLib fun s => (parseDuration fr s).isSome

/-- `cosigner.go:210`: the timeout of the raft store. The error is dropped; the value is 0 then. -/
def startTimeout (fr : Nat → Nat → Nat → Nat) (c : CosignerConfig) : Int := (parseDuration fr c.timeout).getD 0

/-- How handing an entry to raft ends. -/
inductive Handed where
  | taken (after : Nat)    -- raft takes it
  | refused (after : Nat)  -- `ErrEnqueueTimeout`
  | waits                  -- not at all
  deriving DecidableEq, Repr

/-- `raft.Apply` up to the point where raft has the entry (`raft_store.go:229,248`): raft takes it after `takes` nanoseconds, if
ever; a timer runs only for a positive timeout. If both happen at once either may be chosen. Simplified: raft is not shut down
meanwhile. -/
inductive Applied (timeout : Int) (takes : Option Nat) : Handed → Prop
  | taken (a : Nat) : takes = some a → (0 < timeout → (a : Int) ≤ timeout) → Applied timeout takes (.taken a)
  | refused (d : Nat) : timeout = d → 0 < d → (∀ a, takes = some a → d ≤ a) → Applied timeout takes (.refused d)
  | waits : timeout ≤ 0 → takes = none → Applied timeout takes .waits

end Horcrux
