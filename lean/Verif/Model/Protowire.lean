import Verif.Model.Wire
import Verif.Model.Json
/-
The decoder of google.golang.org/protobuf v1.27.1, which gRPC uses for the messages between cosigners
(`signer/proto/cosigner_grpc_server.pb.go`, generated from `cosigner_grpc_server.proto`; `signer/grpc_server.go`,
`signer/remote_cosigner.go`, `signer/raft_events.go`). It is third-party code and modelled from knowledge of it:
`encoding/protowire/wire.go` and `internal/impl/decode.go`. Unlike the generated code of gogo/protobuf (`Wire.lean`) it
steps over a known field with another wire type, takes no field numbers above 2^29-1 (2^31-1 within a group), demands that
the end of a group has the number of its start, and refuses varints that do not fit into 64 bits. `protowire.ConsumeVarint`
is `readUvarint`. That a group may be nested so deep that the stack overflows is left out.
-/
namespace Horcrux

mutual
/-- `protowire.ConsumeFieldValue`: what is left after the value of a field with this number and wire type. The fuel bounds
the calls of both functions; `gSkip` has enough. -/
def gSkipAux : (fuel num wt : Nat) → Bytes → Option Bytes
  | 0, _, _, _ => none
  | f + 1, num, wt, bs =>
    if wt = 0 then (readUvarint bs).map (·.2)
    else if wt = 1 then if bs.length < 8 then none else some (bs.drop 8)
    else if wt = 2 then
      match readUvarint bs with
      | none => none
      | some (n, rest) => if rest.length < n then none else some (rest.drop n)
    else if wt = 3 then gGroupAux f num bs
    else if wt = 5 then if bs.length < 4 then none else some (bs.drop 4)
    else none
/-- The loop of `ConsumeFieldValue` for a group: `ConsumeTag`, then the end of the group or a field of it. -/
def gGroupAux : (fuel num : Nat) → Bytes → Option Bytes
  | 0, _, _ => none
  | f + 1, num, bs =>
    match readUvarint bs with
    | none => none
    | some (tag, rest) =>
      if tag / 8 < 1 ∨ 2 ^ 31 - 1 < tag / 8 then none
      else if tag % 8 = 4 then if tag / 8 = num then some rest else none
      else
        match gSkipAux f (tag / 8) (tag % 8) rest with
        | none => none
        | some rest' => gGroupAux f num rest'
end

/-- See `gSkipAux`. -/
def gSkip (num wt : Nat) (bs : Bytes) : Option Bytes := gSkipAux (2 * bs.length + 2) num wt bs

/-- The value of a known field (`consumeInt64`, `consumeInt32`, `consumeBytes`, … in `internal/impl/codec_gen.go`). -/
def gVal (wt : Nat) (bs : Bytes) : Option (WireVal × Bytes) :=
  if wt = 0 then
    match readUvarint bs with
    | none => none
    | some (n, rest) => some (.varint n, rest)
  else if wt = 2 then
    match readUvarint bs with
    | none => none
    | some (n, rest) => if rest.length < n then none else some (.len (rest.take n), rest.drop n)
  else none

/-- `internal/impl/decode.go` `unmarshalPointer`. The fuel is the number of bytes; every field has at least one. -/
def gLoop {α : Type} (h : Handler α) : (fuel : Nat) → α → Bytes → Option α
  | _, m, [] => some m
  | 0, _, _ :: _ => none
  | f + 1, m, b :: bs =>
    match readUvarint (b :: bs) with
    | none => none
    | some (tag, rest) =>
      if tag / 8 < 1 ∨ 2 ^ 29 - 1 < tag / 8 then none
      else if tag % 8 = 4 then none
      else if h.wireType (tag / 8) = some (tag % 8) then
        match gVal (tag % 8) rest with
        | none => none
        | some (v, rest') =>
          match h.set m (tag / 8) v with
          | none => none
          | some m' => gLoop h f m' rest'
      else
        match gSkip (tag / 8) (tag % 8) rest with
        | none => none
        | some rest' => gLoop h f m rest'

/-- Read a message into `m` (merging). -/
def gDecode {α : Type} (h : Handler α) (m : α) (bs : Bytes) : Option α := gLoop h bs.length m bs

/-- `utf8.Valid`, the check of strings. -/
def utf8ValidAux : (fuel : Nat) → Bytes → Bool
  | _, [] => true
  | 0, _ :: _ => false
  | f + 1, c :: s =>
    if c < 0x80 then utf8ValidAux f s
    else
      match runeLen (c :: s) with
      | 0 => false
      | n + 1 => utf8ValidAux f (s.drop n)

def utf8Valid (s : Bytes) : Bool := utf8ValidAux s.length s

end Horcrux
