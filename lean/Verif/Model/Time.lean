import Verif.Model.Prim
/-
`time.Time` as used by the repository: seconds and nanoseconds relative to the Unix epoch.
-/
namespace Horcrux

/-- A `time.Time` instant: Unix seconds and nanoseconds within the second (`0 ≤ nsec < 10^9`).
Location and monotonic clock reading are not modelled (neither is observable in the modelled code). -/
structure GoTime where
  sec : Int
  nsec : Int
  deriving DecidableEq, Repr

/-- The zero `time.Time{}`: January 1, year 1, 00:00:00 UTC. It is what a protobuf message holds when
its (non-nullable) timestamp field is absent, and what `CosignerGetEphemeralSecretPartRequest{}` holds
when `Timestamp` is not set (`local_cosigner.go:442-446`). -/
def GoTime.zero : GoTime := ⟨-62135596800, 0⟩

/-- `time.Time.UnixNano`: `sec*1e9 + nsec` in wrapping `int64` arithmetic. -/
def GoTime.unixNano (t : GoTime) : Int := i64 (t.sec * 1000000000 + t.nsec)

/-- `time.Unix(0, n)`. -/
def GoTime.ofUnixNano (n : Int) : GoTime := ⟨n / 1000000000, n % 1000000000⟩

end Horcrux
