import Verif.Lemmas.Grpc
import Verif.Props.Validator
/-
C35: what one end of a gRPC call sends, the other end gets.
-/
namespace Horcrux
open Spec

/-- A block with Go's field types and a time `UnixNano` represents. -/
structure Block.Sendable (b : Block) : Prop where
  height : IsI64 b.height
  round : IsI64 b.round
  step : IsI8 b.step
  time : b.timestamp.Nano
  size : b.signBytes.length < 2 ^ 63

/-- C35: the leader signs exactly the block (and chain ID) the follower was asked to sign. -/
theorem C35_block (chainID : Bytes) (b : Block) (h : b.Sendable) (hc : Sent chainID) :
    recvSignBlock (sendSignBlock chainID b) = some (chainID, b) := by
  unfold recvSignBlock sendSignBlock
  have h32 : IsI32 b.step := by have := h.step; unfold IsI8 at this; unfold IsI32; omega
  rw [decode_signBlockReq chainID b.toProto ⟨h.height, h.round, h32, unixNano_is _, h.size⟩ hc]
  simp only [Option.map_some, Option.getD_some, Block.toProto, blockFromProto, unixNano_roundTrip h.time,
    i8_of_is h.step]

/-- C35: the follower gets the bytes of the leader's signature; an empty one arrives as nil. -/
theorem C35_signature (sig : Slice) (h : sig.bytes.length < 2 ^ 63) :
    ∃ sig', recvSignBlockRes (sendSignBlockRes sig) = some sig' ∧ sig'.bytes = sig.bytes := by
  refine ⟨Slice.ofWire sig.bytes, ?_, ofWire_bytes sig⟩
  unfold recvSignBlockRes sendSignBlockRes
  rw [gdec_bytes signBlockResHandler _ sig.bytes 0x0a _ _ 1 rfl (by decide) (by decide) rfl rfl (by omega)
    (by intro h0; rw [h0]) (by simp only [signBlockResHandler])]
  rfl

/-- An HRST key with Go's field types. -/
def HRST.Sendable (k : HRST) : Prop := IsI64 k.height ∧ IsI64 k.round ∧ IsI8 k.step ∧ IsI64 k.timestamp

theorem hrst_wf {k : HRST} (h : k.Sendable) : k.toProto.WF := by
  obtain ⟨h1, h2, h3, h4⟩ := h
  refine ⟨h1, h2, ?_, h4⟩
  unfold IsI8 at h3; unfold IsI32 HRST.toProto; simp only; omega

theorem hrst_back {k : HRST} (h : k.Sendable) : hrstFromProto k.toProto = k := by
  obtain ⟨_, _, h3, _⟩ := h
  simp [hrstFromProto, HRST.toProto, i8_of_is h3]

/-- C35: a request for secret parts arrives with the HRST it was made for. -/
theorem C35_hrst (k : HRST) (h : k.Sendable) : recvGet (sendGet k) = some k := by
  unfold recvGet sendGet
  rw [decode_getReq _ (hrst_wf h)]
  simp [hrst_back h]

/-- A secret part with IDs within int32 whose fields are not empty-but-present (nil is fine). -/
structure SecretPart.Sendable (p : SecretPart) : Prop where
  sourceID : IsI32 p.sourceID
  destinationID : IsI32 p.destinationID
  ne : p.ephemeralPublic ≠ some [] ∧ p.encrypted ≠ some [] ∧ p.sourceSig ≠ some []
  size : p.ephemeralPublic.bytes.length + p.encrypted.bytes.length + p.sourceSig.bytes.length < 2 ^ 63

theorem part_wf {p : SecretPart} (h : p.Sendable) : p.toProto.WF := by
  refine ⟨?_, ?_, h.size⟩
  · simp only [SecretPart.toProto, i32_of_is h.sourceID]; exact h.sourceID
  · simp only [SecretPart.toProto, i32_of_is h.destinationID]; exact h.destinationID

theorem part_back {p : SecretPart} (h : p.Sendable) : partFromProto p.toProto = p := by
  simp only [partFromProto, SecretPart.toProto, i32_of_is h.sourceID, i32_of_is h.destinationID,
    ofWire_eq h.ne.1, ofWire_eq h.ne.2.1, ofWire_eq h.ne.2.2]

theorem parts_back {ps : List SecretPart} (h : ∀ p ∈ ps, p.Sendable) :
    (ps.map SecretPart.toProto).map partFromProto = ps := by
  induction ps with
  | nil => rfl
  | cons p ps ih =>
    simp only [List.map_cons]
    rw [part_back (h p (List.mem_cons_self ..)), ih (fun q hq => h q (List.mem_cons_of_mem _ hq))]

theorem parts_wf {ps : List SecretPart} (h : ∀ p ∈ ps, p.Sendable) : ∀ p ∈ ps.map SecretPart.toProto, p.WF := by
  intro q hq
  obtain ⟨p, hp, rfl⟩ := List.mem_map.1 hq
  exact part_wf (h p hp)

/-- C35: the secret parts a cosigner answers with arrive unchanged, in the same order. -/
theorem C35_parts (ps : List SecretPart) (h : ∀ p ∈ ps, p.Sendable) : recvGetRes (sendGetRes ps) = some ps := by
  unfold recvGetRes sendGetRes
  rw [decode_getRes _ (parts_wf h)]
  simp only [Option.map_some, parts_back h]

/-- C35: a set-and-sign request arrives with the same parts, HRST and sign bytes. -/
theorem C35_setAndSign (ps : List SecretPart) (k : HRST) (signBytes : Bytes) (h : ∀ p ∈ ps, p.Sendable)
    (hk : k.Sendable) (hs : signBytes.length < 2 ^ 63) :
    recvSetSign (sendSetSign ps k signBytes) = some (ps, k, signBytes) := by
  unfold recvSetSign sendSetSign
  rw [decode_setSignReq _ _ _ (parts_wf h) (hrst_wf hk) hs]
  simp only [Option.map_some, Option.getD_some, parts_back h, hrst_back hk]

/-- C35: and so does its answer. -/
theorem C35_setAndSign_answer (eph sig : Slice) (t : GoTime) (he : eph.bytes.length < 2 ^ 63)
    (hs : sig.bytes.length < 2 ^ 63) (hne : eph ≠ some [] ∧ sig ≠ some []) (ht : t.Nano) :
    recvSetSignRes (sendSetSignRes eph t sig) = some (eph, t, sig) := by
  unfold recvSetSignRes sendSetSignRes
  rw [decode_setSignRes _ he (unixNano_is t) hs]
  simp only [Option.map_some, ofWire_eq hne.1, ofWire_eq hne.2, unixNano_roundTrip ht]

/-- A precommit sent to the leader: sendable, and what is on the wire. -/
example : blk1.Sendable ∧ sendSignBlock [97] { blk1 with signBytes := [1, 2] }
    = [10, 1, 97, 18, 20, 8, 7, 16, 1, 24, 3, 34, 2, 1, 2, 40, 133, 128, 128, 197, 221, 240, 149, 154, 22] := by
  refine ⟨⟨by decide, by decide, by decide, ?_, by decide +kernel⟩, by decide +kernel⟩
  exact ⟨by decide, by decide, by decide⟩

example : (HRST.mk 7 1 3 1600000000000000005).Sendable ∧ (SecretPart.mk 1 2 (some [1]) (some [2]) (some [3])).Sendable :=
  ⟨⟨by decide, by decide, by decide, by decide⟩, ⟨by decide, by decide, by decide, by decide⟩⟩

/-- The hypotheses matter: IDs are cut to 32 bits, and a time outside the range of `UnixNano` (the zero time) does not
arrive. -/
example : recvGetRes (sendGetRes [⟨2 ^ 32 + 1, 2, some [1], some [2], some [3]⟩]) = some [⟨1, 2, some [1], some [2], some [3]⟩] ∧
    recvSignBlock (sendSignBlock [97] { blk1 with signBytes := [], timestamp := GoTime.zero }) ≠
      some ([97], { blk1 with signBytes := [], timestamp := GoTime.zero }) := by decide +kernel

end Horcrux
