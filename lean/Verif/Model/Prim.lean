/-
Primitive notions shared by the whole model: byte strings, nil-able slices, fixed-width integer
conversions, Go outcomes, and the HRS/HRST keys of `signer/Cosigner.go`.
-/
namespace Horcrux

/-- A Go `[]byte` whose nil-ness does not matter. -/
abbrev Bytes := List UInt8

/-- A Go `[]byte` whose nil-ness matters: `none` is `nil`, `some []` is an empty non-nil slice. -/
abbrev Slice := Option Bytes

/-- The contents of a slice (`nil` has no contents), as seen by `bytes.Equal`, `len`, `append`. -/
def Slice.bytes (s : Slice) : Bytes := s.getD []

/-- Two's-complement conversion to `int64` (Go conversion / wrap-around arithmetic). -/
def i64 (x : Int) : Int := Int.bmod x (2 ^ 64)

/-- Two's-complement conversion to `int32`. -/
def i32 (x : Int) : Int := Int.bmod x (2 ^ 32)

/-- Two's-complement conversion to `int8`. -/
def i8 (x : Int) : Int := Int.bmod x (2 ^ 8)

/-- Conversion to `uint8`. -/
def u8 (x : Int) : Nat := (x % 256).toNat

/-- `x` is a value of Go type `int64`. -/
def IsI64 (x : Int) : Prop := -(2 ^ 63) ≤ x ∧ x < 2 ^ 63

/-- `x` is a value of Go type `int32`. -/
def IsI32 (x : Int) : Prop := -(2 ^ 31) ≤ x ∧ x < 2 ^ 31

/-- `x` is a value of Go type `int8`. -/
def IsI8 (x : Int) : Prop := -(2 ^ 7) ≤ x ∧ x < 2 ^ 7

instance (x : Int) : Decidable (IsI64 x) := by unfold IsI64; infer_instance
instance (x : Int) : Decidable (IsI32 x) := by unfold IsI32; infer_instance
instance (x : Int) : Decidable (IsI8 x) := by unfold IsI8; infer_instance

/-- `signer/Cosigner.go:9-13` `HRSKey`. -/
structure HRS where
  height : Int
  round : Int
  step : Int
  deriving DecidableEq, Repr

/-- `signer/Cosigner.go:15-20` `HRSTKey`. -/
structure HRST where
  height : Int
  round : Int
  step : Int
  timestamp : Int
  deriving DecidableEq, Repr

/-- The (height, round, step) part of an HRST key. -/
def HRST.hrs (k : HRST) : HRS := ⟨k.height, k.round, k.step⟩

/-- `signer/local_cosigner.go:21-48` `HRSTKey.Less`. -/
def HRST.less (a b : HRST) : Bool :=
  if a.height < b.height then true
  else if a.height > b.height then false
  else if a.round < b.round then true
  else if a.round > b.round then false
  else if a.step < b.step then true
  else false

/-- The errors returned by the modelled functions. Error strings are not modelled, only which
error is returned (each constructor cites where it is created). -/
inductive Err where
  /-- `sign_state.go:216` -/
  | heightRegression
  /-- `sign_state.go:225` -/
  | roundRegression
  /-- `sign_state.go:234` -/
  | stepRegression
  /-- `sign_state.go:203-207` `SameHRSError` -/
  | sameHRS (k : HRS)
  /-- `sign_state.go:170` (CheckHRS) -/
  | checkHeight
  /-- `sign_state.go:175` (CheckHRS) -/
  | checkRound
  /-- `sign_state.go:181` (CheckHRS) -/
  | checkStep
  /-- `sign_state.go:190` -/
  | noSignBytes
  /-- `sign_state.go:303` -/
  | unexpectedStep
  /-- `sign_state.go:309, 342` -/
  | lastUndecodable
  /-- `sign_state.go:312, 345` -/
  | newUndecodable
  /-- `sign_state.go:324` -/
  | nilAfterNonNil
  /-- `sign_state.go:327` -/
  | nonNilAfterNil
  /-- `sign_state.go:330` -/
  | differingBlockIDs
  /-- `sign_state.go:81-92` `ConflictingDataError` -/
  | conflictingData
  /-- `Serialization.go:43` -/
  | couldNotUnpack
  /-- `local_cosigner.go:191` -/
  | noMetadata
  /-- `local_cosigner.go:212, 218` -/
  | ephemeralOutOfBounds
  /-- `local_cosigner.go:357` -/
  | unknownPeerID
  /-- `local_cosigner.go:363-366` RSA encryption error -/
  | encryptFailed
  /-- `local_cosigner.go:382-385` RSA signing error -/
  | rsaSignFailed
  /-- `local_cosigner.go:401` -/
  | sourceSigRequired
  /-- `local_cosigner.go:418` -/
  | unknownCosigner
  /-- `local_cosigner.go:422-425` -/
  | badSourceSig
  /-- `local_cosigner.go:457-460` -/
  | decryptFailed
  /-- `threshold_validator.go:145-157` `BeyondBlockError` -/
  | beyondBlock
  /-- `threshold_validator.go:159-170` `StillWaitingForBlockError` -/
  | stillWaiting
  /-- `threshold_validator.go:348` -/
  | timedOutWaitingForBlock
  /-- `threshold_validator.go:390` -/
  | timedOutEphemeral
  /-- `threshold_validator.go:421` -/
  | timedOutSign
  /-- `threshold_validator.go:441` -/
  | notEnoughCosigners
  /-- `threshold_validator.go:452` -/
  | combinedInvalid
  /-- `threshold_validator.go:296` -/
  | raftNotInitialized
  /-- any error obtained from a remote call or the operating system -/
  | external
  deriving DecidableEq, Repr

/-- Outcome of a Go call returning `(α, error)`: a value, an error, or a panic (which terminates
the process: nothing in the repository recovers from panics). -/
inductive Out (α : Type) where
  | ok (a : α)
  | err (e : Err)
  | panic
  deriving DecidableEq, Repr

end Horcrux
