import Verif.Lemmas.GrpcText
import Verif.Props.Grpc
/-
Property C104: what the gRPC messages between cosigners say.
-/
namespace Horcrux
open Spec

/-! ### Requests -/

/-- **C104**, `SignBlock` (`grpc_server.go:18-27`): the chain ID and the block that the leader is called with are those that the
bytes say, and it is not called exactly if they say none. -/
theorem C104_signBlock (bs chainID : Bytes) (b : Block) : recvSignBlock bs = some (chainID, b) ↔ SignBlockText chainID b bs := by
  unfold recvSignBlock SignBlockText
  constructor
  · intro h
    obtain ⟨r, hr, he⟩ := Option.map_eq_some_iff.1 h
    obtain ⟨fs, hf, hm⟩ := (gDecode_iff _ signBlockReq_has).1 hr
    have := signBlockReq_fold fs (taken_typed hf) ⟨[], none⟩
    rw [hm] at this
    simp only [Option.map_some] at this
    split at this
    · rename_i hu
      obtain ⟨p, hp, hq⟩ := Option.map_eq_some_iff.1 this.symm
      simp only [Prod.mk.injEq] at hq he
      refine ⟨fs, hf, ⟨(all_text _).1 hu, hq.1.trans he.1⟩, says_block.1 ?_⟩
      change ((lens 2 fs).foldlM (gDecode pblockHandler) .zero) = _ at hp
      rw [hp, ← he.2, ← hq.2]; rfl
    · simp at this
  · rintro ⟨fs, hf, ⟨hu, hc⟩, hb⟩
    obtain ⟨p, hp, rfl⟩ := Option.map_eq_some_iff.1 (says_block.2 hb)
    have := signBlockReq_fold fs (taken_typed hf) ⟨[], none⟩
    rw [if_pos ((all_text _).2 hu)] at this
    change _ = ((lens 2 fs).foldlM (gDecode pblockHandler) .zero).map _ at this
    rw [hp] at this
    obtain ⟨r, hr, he⟩ := Option.map_eq_some_iff.1 this
    simp only [Prod.mk.injEq] at he
    rw [(gDecode_iff _ signBlockReq_has).2 ⟨fs, hf, hr⟩, Option.map_some, he.1, he.2]
    unfold SaysBytes at hc
    rw [hc]

/-- C104, `GetEphemeralSecretParts` (`grpc_server.go:58-62`). -/
theorem C104_get (bs : Bytes) (k : HRST) : recvGet bs = some k ↔ GetText k bs := by
  unfold recvGet GetText
  constructor
  · intro h
    obtain ⟨r, hr, rfl⟩ := Option.map_eq_some_iff.1 h
    obtain ⟨fs, hf, hm⟩ := (gDecode_iff _ getReq_has).1 hr
    have := getReq_fold fs (taken_typed hf) none
    rw [hm] at this
    refine ⟨fs, hf, says_hrst.1 ?_⟩
    change _ = (lens 1 fs).foldlM (gDecode phrstHandler) .zero at this
    rw [← this]; rfl
  · rintro ⟨fs, hf, hk⟩
    obtain ⟨p, hp, rfl⟩ := Option.map_eq_some_iff.1 (says_hrst.2 hk)
    have := getReq_fold fs (taken_typed hf) none
    change _ = (lens 1 fs).foldlM (gDecode phrstHandler) .zero at this
    rw [hp] at this
    obtain ⟨r, hr, he⟩ := Option.map_eq_some_iff.1 this
    rw [(gDecode_iff _ getReq_has).2 ⟨fs, hf, hr⟩, Option.map_some, he]

/-- C104, `SetEphemeralSecretPartsAndSign` (`grpc_server.go:36-44`). -/
theorem C104_setSign (bs : Bytes) (ps : List SecretPart) (k : HRST) (signBytes : Bytes) :
    recvSetSign bs = some (ps, k, signBytes) ↔ SetSignText ps k signBytes bs := by
  unfold recvSetSign SetSignText
  constructor
  · intro h
    obtain ⟨r, hr, he⟩ := Option.map_eq_some_iff.1 h
    obtain ⟨fs, hf, hm⟩ := (gDecode_iff _ setSignReq_has).1 hr
    have := setSignReq_fold fs (taken_typed hf) ⟨[], none, []⟩
    rw [hm] at this
    obtain ⟨qs, hq, hr⟩ := Option.bind_eq_some_iff.1 this.symm
    obtain ⟨p, hp, hr⟩ := Option.map_eq_some_iff.1 hr
    simp only [Prod.mk.injEq, List.nil_append] at hr he
    refine ⟨fs, hf, (says_parts _ _).1 ?_, says_hrst.1 ?_, hr.2.2.trans he.2.2⟩
    · rw [hq, ← he.1, ← hr.1]; rfl
    · change (lens 2 fs).foldlM (gDecode phrstHandler) .zero = _ at hp
      rw [hp, ← he.2.1, ← hr.2.1]; rfl
  · rintro ⟨fs, hf, hps, hk, hb⟩
    obtain ⟨p, hp, rfl⟩ := Option.map_eq_some_iff.1 (says_hrst.2 hk)
    obtain ⟨qs, hq, rfl⟩ := Option.map_eq_some_iff.1 ((says_parts _ _).2 hps)
    have := setSignReq_fold fs (taken_typed hf) ⟨[], none, []⟩
    change _ = Option.bind _ fun _ => ((lens 2 fs).foldlM (gDecode phrstHandler) .zero).map _ at this
    rw [hq, hp] at this
    obtain ⟨r, hr, he⟩ := Option.map_eq_some_iff.1 this
    simp only [Prod.mk.injEq, List.nil_append] at he
    rw [(gDecode_iff _ setSignReq_has).2 ⟨fs, hf, hr⟩, Option.map_some, he.1, he.2.1, he.2.2]
    unfold SaysBytes at hb
    rw [hb]

/-- C104, `TransferLeadership` (`grpc_server.go:71-74`). -/
theorem C104_transfer (bs leaderID : Bytes) : gDecode transferReqHandler [] bs = some leaderID ↔ TransferText leaderID bs := by
  unfold TransferText
  rw [gDecode_iff _ transferReq_has]
  refine exists_congr fun fs => and_congr_right fun hf => ?_
  rw [transferReq_fold fs (taken_typed hf)]
  unfold SaysString SaysBytes
  rw [← all_text]
  split
  · rename_i hu; simp [hu]
  · rename_i hu; simp [hu]

/-! ### Answers -/

/-- C104, the answer to `SignBlock` (`raft_events.go:72-74`). -/
theorem C104_signBlockRes (bs : Bytes) (sig : Slice) : recvSignBlockRes bs = some sig ↔ SignBlockResText sig bs := by
  unfold recvSignBlockRes SignBlockResText
  constructor
  · intro h
    obtain ⟨r, hr, rfl⟩ := Option.map_eq_some_iff.1 h
    obtain ⟨fs, hf, hm⟩ := (gDecode_iff _ signBlockRes_has).1 hr
    rw [signBlockRes_fold fs (taken_typed hf)] at hm
    obtain rfl := Option.some.inj hm
    exact ⟨fs, hf, slice_self _ fs⟩
  · rintro ⟨fs, hf, hs⟩
    rw [(gDecode_iff _ signBlockRes_has).2 ⟨fs, hf, signBlockRes_fold fs (taken_typed hf)⟩, Option.map_some, slice_says.2 hs]

/-- C104, the answer to `GetEphemeralSecretParts` (`remote_cosigner.go:79-81`). -/
theorem C104_getRes (bs : Bytes) (ps : List SecretPart) : recvGetRes bs = some ps ↔ GetResText ps bs := by
  unfold recvGetRes GetResText
  constructor
  · intro h
    obtain ⟨r, hr, rfl⟩ := Option.map_eq_some_iff.1 h
    obtain ⟨fs, hf, hm⟩ := (gDecode_iff _ getRes_has).1 hr
    rw [getRes_fold fs (taken_typed hf)] at hm
    obtain ⟨qs, hq, rfl⟩ := Option.map_eq_some_iff.1 hm
    exact ⟨fs, hf, (says_parts _ _).1 (by rw [hq]; rfl)⟩
  · rintro ⟨fs, hf, hs⟩
    obtain ⟨qs, hq, rfl⟩ := Option.map_eq_some_iff.1 ((says_parts _ _).2 hs)
    have := getRes_fold fs (taken_typed hf) []
    rw [hq] at this
    rw [(gDecode_iff _ getRes_has).2 ⟨fs, hf, this⟩]
    rfl

/-- C104, the answer to `SetEphemeralSecretPartsAndSign` (`remote_cosigner.go:102-106`). -/
theorem C104_setSignRes (bs : Bytes) (eph : Slice) (t : GoTime) (sig : Slice) :
    recvSetSignRes bs = some (eph, t, sig) ↔ SetSignResText eph t sig bs := by
  unfold recvSetSignRes SetSignResText
  constructor
  · intro h
    obtain ⟨r, hr, he⟩ := Option.map_eq_some_iff.1 h
    obtain ⟨fs, hf, hm⟩ := (gDecode_iff _ setSignRes_has).1 hr
    rw [setSignRes_fold fs (taken_typed hf)] at hm
    obtain rfl := Option.some.inj hm
    simp only [Prod.mk.injEq] at he
    exact ⟨fs, hf, slice_says.1 he.1, moment_bits.1 he.2.1, slice_says.1 he.2.2⟩
  · rintro ⟨fs, hf, h1, h2, h3⟩
    rw [(gDecode_iff _ setSignRes_has).2 ⟨fs, hf, setSignRes_fold fs (taken_typed hf)⟩, Option.map_some, slice_says.2 h1,
      moment_bits.2 h2, slice_says.2 h3]

/-! ### Calls -/

/-- C104: a call to a cosigner has the effect of what its bytes say. -/
theorem C104_served (C : Crypto) (cfg : CosignerCfg) (e : ServeEnv) (bs : Bytes) (s : CState) :
    (∀ ps k sb, SetSignText ps k sb bs → (serve C cfg e .setSign bs s).2 = (setPartsAndSign C cfg k sb ps e.rnd s).2) ∧
    (∀ k, GetText k bs → (serve C cfg e .get bs s).2 = (getParts C cfg k e.order e.rnd s).2) ∧
    ((∀ ps k sb, ¬ SetSignText ps k sb bs) → serve C cfg e .setSign bs s = (.err .external, s)) ∧
    ((∀ k, ¬ GetText k bs) → serve C cfg e .get bs s = (.err .external, s)) ∧
    ((∀ l, ¬ TransferText l bs) → serve C cfg e .transfer bs s = (.err .external, s)) := by
  refine ⟨fun ps k sb h => ?_, fun k h => ?_, fun h => ?_, fun h => ?_, fun h => ?_⟩
  · simp only [serve, (C104_setSign _ _ _ _).2 h]
  · simp only [serve, (C104_get _ _).2 h]
  · cases hr : recvSetSign bs with
    | none => simp only [serve, hr]
    | some x => exact absurd ((C104_setSign _ _ _ _).1 hr) (h _ _ _)
  · cases hr : recvGet bs with
    | none => simp only [serve, hr]
    | some x => exact absurd ((C104_get _ _).1 hr) (h _)
  · cases hr : gDecode transferReqHandler [] bs with
    | none => simp only [serve, hr]
    | some x => exact absurd ((C104_transfer _ _).1 hr) (h _)

theorem taken_encBytes {ns ls fs : _} {rest : Bytes} (tag : UInt8) (n : Nat) (x : Bytes) (hn : tag.toNat / 8 = n) (h0 : 0 < n)
    (htag : tag.toNat < 128) (hwt : tag.toNat % 8 = 2) (hm : n ∈ ls) (hl : x.length < 2 ^ 63) (h : TakenFor ns ls fs rest) :
    TakenFor ns ls (if x = [] then fs else .bytes n x :: fs) (encBytesField tag x ++ rest) := by
  by_cases hx : x = []
  · rw [hx, encBytesField_nil, if_pos rfl]; exact h
  · rw [encBytesField_ne hx, if_neg hx]
    have := TakenFor.bytes hm (tag_of_byte hn h0 htag hwt) (varint64_encode (v := x.length) (by omega)) h
    simpa [encLen] using this

/-- C104: the answer of a cosigner says what the method returns, of sizes that fit in memory; if the method fails, so does the
call. The answer of `TransferLeadership` says what it names. -/
theorem C104_answers (C : Crypto) (cfg : CosignerCfg) (e : ServeEnv) (bs : Bytes) (s : CState) :
    (∀ ps k sb, SetSignText ps k sb bs →
      match (setPartsAndSign C cfg k sb ps e.rnd s).1, (serve C cfg e .setSign bs s).1 with
      | .ok a, .ok r => a.ephemeralPublic.bytes.length < 2 ^ 63 → a.signature.bytes.length < 2 ^ 63 →
          ∃ eph t sig, SetSignResText eph t sig r ∧ eph.bytes = a.ephemeralPublic.bytes ∧ sig.bytes = a.signature.bytes
      | .err x, .err y => x = y
      | .panic, .panic => True
      | _, _ => False) ∧
    (∀ k, GetText k bs →
      match (getParts C cfg k e.order e.rnd s).1, (serve C cfg e .get bs s).1 with
      | .ok ps, .ok r => (∀ p ∈ ps, p.Sendable) → GetResText ps r
      | .err x, .err y => x = y
      | .panic, .panic => True
      | _, _ => False) ∧
    (∀ l, TransferText l bs →
      ∃ r, serve C cfg e .transfer bs s = (.ok r, s) ∧ ∀ i a, (transferLeadership e.urlHost e.peers l).2 = (i, a) →
        i.length < 2 ^ 63 → a.length < 2 ^ 63 → TransferResText i a r) := by
  refine ⟨fun ps k sb h => ?_, fun k h => ?_, fun l h => ?_⟩
  · simp only [serve, (C104_setSign _ _ _ _).2 h]
    cases hx : (setPartsAndSign C cfg k sb ps e.rnd s).1 with
    | err x => simp [Out.map]
    | panic => simp [Out.map]
    | ok a =>
      simp only [Out.map]
      intro h1 h2
      refine ⟨_, GoTime.ofUnixNano (GoTime.unixNano .zero), _, (C104_setSignRes _ _ _ _).1 ?_, ofWire_bytes _, ofWire_bytes _⟩
      · unfold recvSetSignRes sendSetSignRes
        rw [decode_setSignRes _ h1 (unixNano_is .zero) h2]
        rfl
  · simp only [serve, (C104_get _ _).2 h]
    cases hx : (getParts C cfg k e.order e.rnd s).1 with
    | err x => simp [Out.map]
    | panic => simp [Out.map]
    | ok ps =>
      simp only [Out.map]
      exact fun hs => (C104_getRes _ _).1 (C35_parts ps hs)
  · simp only [serve, (C104_transfer _ _).2 h]
    refine ⟨_, rfl, fun i a ha h1 h2 => ?_⟩
    rw [ha]
    refine ⟨_, taken_encBytes 0x0a 1 i rfl (by decide) (by decide) rfl (by simp) h1
      (taken_encBytes 0x12 2 a rfl (by decide) (by decide) rfl (by simp) h2 .nil), ?_, ?_⟩ <;>
    · unfold SaysBytes
      by_cases hi : i = [] <;> by_cases haa : a = [] <;> simp [hi, haa, lens]

/-- A call whose answer is one part, with the numbers of the sender and the receiver. -/
example : GetResText [⟨1, 2, some [3], some [4], some [5]⟩] (sendGetRes [⟨1, 2, some [3], some [4], some [5]⟩]) :=
  (C104_getRes _ _).1 (by decide +kernel)

/-! ### The specification -/

/-- C104: the bytes are taken for one list of fields, and whatever encoding of fields protobuf allows is taken for them. -/
theorem C104_fields {ns ls : List Nat} (hd : ∀ n ∈ ns, n ∉ ls) (fs : List FVal) (bs : Bytes) :
    (∀ gs, TakenFor ns ls fs bs → TakenFor ns ls gs bs → fs = gs) ∧ (Encodes ns ls fs bs → TakenFor ns ls fs bs) :=
  ⟨fun _ => taken_unique hd, encodes_taken⟩

/-- A height in two pieces, in a message with an unknown group: the second piece counts. -/
example : recvGet [0x0a, 2, 8, 7, 0x13, 0x14, 0x0a, 2, 8, 9] = some ⟨9, 0, 0, 0⟩ := by decide +kernel
example : GetText ⟨9, 0, 0, 0⟩ [0x0a, 2, 8, 7, 0x13, 0x14, 0x0a, 2, 8, 9] := (C104_get _ _).1 (by decide +kernel)
example : SignBlockText [97] ⟨5, 0, 1, [1, 2], ⟨0, 3⟩⟩ [0x0a, 1, 97, 0x12, 10, 8, 5, 0x18, 1, 0x22, 2, 1, 2, 0x28, 3] :=
  (C104_signBlock _ _ _).1 (by decide +kernel)
/-- The step is taken modulo 256. -/
example : GetText ⟨0, 0, 1, 0⟩ [0x0a, 3, 0x18, 0x81, 2] := (C104_get _ _).1 (by decide +kernel)
/-- Two parts, the second one empty. -/
example : SetSignText [⟨1, 2, some [3], some [4], some [5]⟩, ⟨0, 0, none, none, none⟩] ⟨0, 0, 0, 0⟩ []
    [0x0a, 13, 8, 1, 0x10, 2, 0x1a, 1, 3, 0x22, 1, 4, 0x2a, 1, 5, 0x0a, 0] :=
  (C104_setSign _ _ _ _).1 (by decide +kernel)
/-- A string that is no text. -/
example : ∀ l, ¬ TransferText l [0x0a, 1, 255] := by
  intro l h
  have := (C104_transfer _ _).2 h
  have e : gDecode transferReqHandler [] [0x0a, 1, 255] = none := by decide +kernel
  rw [e] at this
  cases this

end Horcrux
