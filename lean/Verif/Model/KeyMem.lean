import Verif.Model.Json
/-
The memory of the ephemeral public keys and signatures of one process. The leader makes a signature by appending to the
slice that its own cosigner has returned (`signer/threshold_validator.go:447-448`), and this is the slice in the
cosigner's record (`signer/local_cosigner.go:179, 225, 248`). `append` writes into the array of a slice if there is room.

Simplified: all slices here begin where their arrays begin. Only these slices are modelled; what is computed of them is
in `Cosigner` and `Round`, where slices are values.
-/
namespace Horcrux

/-- A slice of an array, from its beginning. -/
structure GoSlice where
  arr : Nat
  len : Nat
  deriving DecidableEq, Repr

/-- All arrays made so far, with all their bytes; the length is the capacity. -/
abbrev Arrays := List Bytes

/-- The bytes of a slice. -/
def Arrays.read (m : Arrays) (s : GoSlice) : Bytes := ((m[s.arr]?).getD []).take s.len

/-- A new slice with room for `spare` more bytes. -/
def Arrays.alloc (m : Arrays) (bs spare : Bytes) : GoSlice × Arrays := (⟨m.length, bs.length⟩, m ++ [bs ++ spare])

/-- Go's `append(s, bs...)`: in place if the array has room, otherwise into a new array, with some room (`spare`). A nil
slice has no array. -/
def Arrays.append (m : Arrays) (s : Option GoSlice) (bs spare : Bytes) : GoSlice × Arrays :=
  match s with
  | none => m.alloc bs spare
  | some s =>
    let a := (m[s.arr]?).getD []
    if s.len + bs.length ≤ a.length then
      (⟨s.arr, s.len + bs.length⟩, m.set s.arr (a.take s.len ++ bs ++ a.drop (s.len + bs.length)))
    else m.alloc (m.read s ++ bs) spare

/-- The memory, `lastSignState.EphemeralPublic` of the cosigner, the variables `ephemeralPublic` of the rounds
(`threshold_validator.go:410`) and the signatures made. -/
structure KeyMem where
  mem : Arrays
  record : Option GoSlice
  held : List (Option GoSlice)
  sigs : List GoSlice
  deriving DecidableEq

/-- What can happen. -/
inductive KeyEv where
  /-- `local_cosigner.go:207, 225, 248`: `AddElements` makes a key; it is recorded, and returned to a round -/
  | fresh (key spare : Bytes)
  /-- `local_cosigner.go:179`: the recorded key is returned to a round -/
  | again
  /-- a round whose own cosigner returned nothing -/
  | nothing
  /-- `threshold_validator.go:447-448` in the `i`-th round -/
  | assemble (i : Nat) (combined spare : Bytes)
  deriving DecidableEq

/-- `encoding/json` (`decode.go`, `literalStore`) makes an array of `base64.StdEncoding.DecodedLen` bytes for a string that
is read into a `[]byte`, and cuts the slice to what was decoded. From knowledge of the library. -/
def decodedLen (text : Bytes) : Nat := text.length / 4 * 3

/-- `sign_state.go:246-265`: a process that has just loaded its state; `text` is what the file has for `ephemeral_public`. -/
def KeyMem.load (text : Option Bytes) : KeyMem :=
  match text with
  | none => ⟨[], none, [], []⟩
  | some text =>
    match b64Dec text with
    | none => ⟨[], none, [], []⟩
    | some key =>
      let r := Arrays.alloc [] key (List.replicate (decodedLen text - key.length) 0)
      ⟨r.2, some r.1, [], []⟩

/-- One step; `none` if there is no such round. -/
def KeyMem.step (s : KeyMem) : KeyEv → Option KeyMem
  | .fresh key spare =>
    let r := s.mem.alloc key spare
    some { s with mem := r.2, record := some r.1, held := s.held ++ [some r.1] }
  | .again => some { s with held := s.held ++ [s.record] }
  | .nothing => some { s with held := s.held ++ [none] }
  | .assemble i combined spare =>
    match s.held[i]? with
    | none => none
    | some key =>
      let r := s.mem.append key combined spare
      some { s with mem := r.2, sigs := s.sigs ++ [r.1] }

/-- A run. -/
def KeyMem.run : KeyMem → List KeyEv → Option KeyMem
  | s, [] => some s
  | s, e :: es => (s.step e).bind fun s' => KeyMem.run s' es

end Horcrux
