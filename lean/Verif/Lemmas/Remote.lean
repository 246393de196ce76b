import Verif.Model.Remote
import Verif.Lemmas.Grpc
/-
Lemmas on the remote signer's messages: encoding and decoding, and what a decoded message satisfies.
-/
namespace Horcrux

variable {α : Type}

/-! ### Invariants of decoding -/

theorem decodeLoop_inv (h : Handler α) (P : α → Prop) (hs : ∀ m n v m', P m → h.set m n v = some m' → P m')
    (f : Nat) (m m' : α) (bs : Bytes) (h0 : P m) (hd : decodeLoop h f m bs = some m') : P m' := by
  induction f generalizing m bs with
  | zero =>
    cases bs with
    | nil => simp [decodeLoop] at hd; rw [← hd]; exact h0
    | cons b bs => simp [decodeLoop] at hd
  | succ f ih =>
    cases bs with
    | nil => simp [decodeLoop] at hd; rw [← hd]; exact h0
    | cons b bs =>
      rw [decodeLoop] at hd
      split at hd
      · cases hd
      · dsimp only at hd
        split at hd
        · cases hd
        · split at hd
          · cases hd
          · split at hd
            · split at hd
              · cases hd
              · split at hd
                · cases hd
                · split at hd
                  · cases hd
                  · next hset => exact ih _ _ (hs _ _ _ _ h0 hset) hd
            · split at hd
              · cases hd
              · exact ih _ _ h0 hd

theorem decodeMsg_inv (h : Handler α) (P : α → Prop) (hs : ∀ m n v m', P m → h.set m n v = some m' → P m')
    (m m' : α) (bs : Bytes) (h0 : P m) (hd : decodeMsg h m bs = some m') : P m' :=
  decodeLoop_inv h P hs _ m m' bs h0 hd

theorem decodeTime_valid {bs : Bytes} {t : GoTime} (h : decodeTime bs = some t) : t.valid = true := by
  unfold decodeTime at h
  split at h
  · cases h
  · split at h
    · next hv => cases h; exact hv
    · cases h

theorem pvote_time_valid {m v : Vote} {bs : Bytes} (h0 : m.timestamp.valid = true)
    (h : decodeMsg pvoteHandler m bs = some v) : v.timestamp.valid = true := by
  refine decodeMsg_inv pvoteHandler (fun v => v.timestamp.valid = true) ?_ m v bs h0 h
  intro m n w m' hm hs
  simp only [pvoteHandler] at hs
  split at hs
  · simp only [Option.some.injEq] at hs; subst hs; exact hm
  · simp only [Option.some.injEq] at hs; subst hs; exact hm
  · simp only [Option.some.injEq] at hs; subst hs; exact hm
  · simp only [Option.map_eq_some_iff] at hs; obtain ⟨b, _, rfl⟩ := hs; exact hm
  · simp only [Option.map_eq_some_iff] at hs; obtain ⟨t, ht, rfl⟩ := hs; exact decodeTime_valid ht
  · simp only [Option.some.injEq] at hs; subst hs; exact hm
  · simp only [Option.some.injEq] at hs; subst hs; exact hm
  · simp only [Option.some.injEq] at hs; subst hs; exact hm
  · cases hs

theorem pproposal_time_valid {m v : Proposal} {bs : Bytes} (h0 : m.timestamp.valid = true)
    (h : decodeMsg pproposalHandler m bs = some v) : v.timestamp.valid = true := by
  refine decodeMsg_inv pproposalHandler (fun v => v.timestamp.valid = true) ?_ m v bs h0 h
  intro m n w m' hm hs
  simp only [pproposalHandler] at hs
  split at hs
  · simp only [Option.some.injEq] at hs; subst hs; exact hm
  · simp only [Option.some.injEq] at hs; subst hs; exact hm
  · simp only [Option.some.injEq] at hs; subst hs; exact hm
  · simp only [Option.some.injEq] at hs; subst hs; exact hm
  · simp only [Option.map_eq_some_iff] at hs; obtain ⟨b, _, rfl⟩ := hs; exact hm
  · simp only [Option.map_eq_some_iff] at hs; obtain ⟨t, ht, rfl⟩ := hs; exact decodeTime_valid ht
  · simp only [Option.some.injEq] at hs; subst hs; exact hm
  · cases hs

/-- The timestamps of the requests in a message are encodable. -/
def PMsg.TimesValid : PMsg → Prop
  | .signVoteRequest (some v) _ => v.timestamp.valid = true
  | .signProposalRequest (some p) _ => p.timestamp.valid = true
  | _ => True

theorem signReq_inv (h : Handler α) (zero : α) (P : α → Prop) (h0 : P zero)
    (hd : ∀ m m' bs, P m → decodeMsg h m bs = some m' → P m') (m m' : Option α × Bytes) (bs : Bytes)
    (hm : ∀ x, m.1 = some x → P x) (he : decodeMsg (signReqHandler h zero) m bs = some m') :
    ∀ x, m'.1 = some x → P x := by
  refine decodeMsg_inv (signReqHandler h zero) (fun m => ∀ x, m.1 = some x → P x) ?_ m m' bs hm he
  intro m n w m' hm hs
  simp only [signReqHandler] at hs
  split at hs
  · simp only [Option.map_eq_some_iff] at hs
    obtain ⟨y, hy, rfl⟩ := hs
    intro x hx
    cases hx
    refine hd _ _ _ ?_ hy
    cases hc : m.1 with
    | none => exact h0
    | some z => exact hm z hc
  · cases hs; exact hm
  · cases hs

theorem pmsg_timesValid {m : PMsg} {bs : Bytes} (h : decodeMsg pmsgHandler .empty bs = some m) : m.TimesValid := by
  refine decodeMsg_inv pmsgHandler PMsg.TimesValid ?_ .empty m bs trivial h
  intro m n w m' _ hs
  simp only [pmsgHandler] at hs
  split at hs
  · simp only [Option.map_eq_some_iff] at hs; obtain ⟨b, _, rfl⟩ := hs; trivial
  · simp only [Option.map_eq_some_iff] at hs; obtain ⟨b, _, rfl⟩ := hs; trivial
  · simp only [Option.map_eq_some_iff] at hs
    obtain ⟨b, hb, rfl⟩ := hs
    have := signReq_inv pvoteHandler .zero (fun v => v.timestamp.valid = true) (by decide)
      (fun m m' bs h0 hd => pvote_time_valid h0 hd) (none, []) b _ (by intro x hx; cases hx) hb
    unfold PMsg.TimesValid
    split
    · next heq => injection heq with h1 _; exact this _ h1
    · next heq => cases heq
    · trivial
  · simp only [Option.map_eq_some_iff] at hs; obtain ⟨b, _, rfl⟩ := hs; trivial
  · simp only [Option.map_eq_some_iff] at hs
    obtain ⟨b, hb, rfl⟩ := hs
    have := signReq_inv pproposalHandler .zero (fun v => v.timestamp.valid = true) (by decide)
      (fun m m' bs h0 hd => pproposal_time_valid h0 hd) (none, []) b _ (by intro x hx; cases hx) hb
    unfold PMsg.TimesValid
    split
    · next heq => cases heq
    · next heq => injection heq with h1 _; exact this _ h1
    · trivial
  · simp only [Option.map_eq_some_iff] at hs; obtain ⟨b, _, rfl⟩ := hs; trivial
  · simp only [Option.map_eq_some_iff] at hs; obtain ⟨b, _, rfl⟩ := hs; trivial
  · simp only [Option.map_eq_some_iff] at hs; obtain ⟨b, _, rfl⟩ := hs; trivial
  · cases hs

theorem readMsg_timesValid {stream rest : Bytes} {m : PMsg} (h : readMsg stream = some (m, rest)) : m.TimesValid := by
  unfold readMsg at h
  split at h
  · cases h
  · split at h
    · cases h
    · split at h
      · cases h
      · simp only [Option.map_eq_some_iff] at h
        obtain ⟨x, hx, hh⟩ := h
        cases hh
        exact pmsg_timesValid hx

/-! ### Round trips -/

/-- Field values of the Go types with sizes that fit in memory; a signature is absent or not empty. -/
structure Vote.PWF (v : Vote) : Prop where
  type : IsI32 v.type
  height : IsI64 v.height
  round : IsI32 v.round
  block : v.blockID.pshTotal < 2 ^ 32
  time : v.timestamp.valid = true
  index : IsI32 v.validatorIndex
  sig : v.signature ≠ some []
  size : v.blockID.hash.length + v.blockID.pshHash.length + v.validatorAddress.length + v.signature.bytes.length < 2 ^ 62

structure Proposal.PWF (p : Proposal) : Prop where
  type : IsI32 p.type
  height : IsI64 p.height
  round : IsI32 p.round
  polRound : IsI32 p.polRound
  block : p.blockID.pshTotal < 2 ^ 32
  time : p.timestamp.valid = true
  sig : p.signature ≠ some []
  size : p.blockID.hash.length + p.blockID.pshHash.length + p.signature.bytes.length < 2 ^ 62

structure RSErr.WF (e : RSErr) : Prop where
  code : IsI32 e.code
  size : e.description.length < 2 ^ 62

def PPubKey.WF : PPubKey → Prop
  | .unset => True
  | .ed25519 k => k.length < 2 ^ 62
  | .secp256k1 k => k.length < 2 ^ 62

def PMsg.WF : PMsg → Prop
  | .empty => True
  | .pubKeyRequest c => c.length < 2 ^ 62
  | .pubKeyResponse k e => k.WF ∧ ∀ x, e = some x → x.WF
  | .signVoteRequest v c => (∀ x, v = some x → x.PWF) ∧ c.length < 2 ^ 62
  | .signedVoteResponse v e => v.PWF ∧ ∀ x, e = some x → x.WF
  | .signProposalRequest p c => (∀ x, p = some x → x.PWF) ∧ c.length < 2 ^ 62
  | .signedProposalResponse p e => p.PWF ∧ ∀ x, e = some x → x.WF
  | .pingRequest => True
  | .pingResponse => True

theorem BlockID.ofC_toC (b : BlockID) : BlockID.ofC b.toC = b := rfl

theorem sig_empty {s : Slice} (h : s ≠ some []) (h0 : s.bytes = []) : s = none := by
  cases s with
  | none => rfl
  | some x => simp [Slice.bytes] at h0; rw [h0] at h; exact absurd rfl h

theorem sig_some {s : Slice} (h0 : s.bytes ≠ []) : some s.bytes = s := by
  cases s with
  | none => exact absurd rfl h0
  | some x => rfl

theorem encPBlockID_le (b : BlockID) : (encBlockID b.toC).length ≤ 44 + b.hash.length + b.pshHash.length :=
  encBlockID_le b.toC

/-- Decoding past a signature. -/
theorem dec_sig (h : Handler α) (m m' : α) (tag : UInt8) (s : Slice) (rest : Bytes) (n : Nat)
    (hn : tag.toNat / 8 = n) (h0 : 0 < n) (htag : tag.toNat < 128) (hwt : tag.toNat % 8 = 2)
    (hk : h.wireType n = some 2) (hl : s.bytes.length < 2 ^ 64) (hne : s ≠ some []) (hz : s = none → m' = m)
    (hs : ∀ x, s = some x → h.set m n (.len x) = some m') :
    decodeMsg h m (encBytesField tag s.bytes ++ rest) = decodeMsg h m' rest := by
  cases s with
  | none => rw [hz rfl]; rfl
  | some x =>
    have hx : x ≠ [] := by intro hx; exact hne (by rw [hx])
    show decodeMsg h m (encBytesField tag x ++ rest) = _
    rw [encBytesField_ne hx]
    exact dec_len h m m' tag x rest n hn h0 htag hwt hk hl (hs x rfl)

theorem decode_pvote (v : Vote) (h : v.PWF) : decodeMsg pvoteHandler .zero (encPVote v) = some v := by
  have hsz := h.size
  have h1 := encPBlockID_le v.blockID
  have h2 := encTime_le v.timestamp
  have hb := decodeBlockID_enc v.blockID.toC h.block (by omega)
  unfold encPVote
  rw [dec_varint pvoteHandler .zero { Vote.zero with type := v.type } 0x08 v.type _ 1 rfl (by decide) (by decide) rfl rfl
    (by intro h0; rw [h0]; rfl) (by simp only [pvoteHandler, i32_toU64 h.type])]
  rw [dec_varint pvoteHandler _ { Vote.zero with type := v.type, height := v.height } 0x10 v.height _ 2 rfl (by decide)
    (by decide) rfl rfl (by intro h0; rw [h0]; rfl) (by simp only [pvoteHandler, i64_toU64 h.height])]
  rw [dec_varint pvoteHandler _ { Vote.zero with type := v.type, height := v.height, round := v.round } 0x18 v.round _ 3
    rfl (by decide) (by decide) rfl rfl (by intro h0; rw [h0]; rfl) (by simp only [pvoteHandler, i32_toU64 h.round])]
  rw [dec_len pvoteHandler _ { Vote.zero with
      type := v.type, height := v.height, round := v.round, blockID := v.blockID } 0x22 _ _ 4
    rfl (by decide) (by decide) rfl rfl (by omega)
    (by simp only [pvoteHandler, setPBlockID, Vote.zero]
        rw [show BlockID.toC ⟨[], 0, []⟩ = ⟨[], ⟨0, []⟩⟩ from rfl, hb]; rfl)]
  rw [dec_len pvoteHandler _ { Vote.zero with
      type := v.type, height := v.height, round := v.round, blockID := v.blockID, timestamp := v.timestamp } 0x2a _ _ 5
    rfl (by decide) (by decide) rfl rfl (by omega)
    (by simp only [pvoteHandler, decodeTime_encTime _ h.time, Option.map_some])]
  rw [dec_bytes pvoteHandler _ { Vote.zero with
      type := v.type, height := v.height, round := v.round, blockID := v.blockID, timestamp := v.timestamp,
      validatorAddress := v.validatorAddress } 0x32 _ _ 6
    rfl (by decide) (by decide) rfl rfl (by omega) (by intro h0; rw [h0]; rfl)
    (by simp only [pvoteHandler])]
  rw [dec_varint pvoteHandler _ { v with signature := none } 0x38 v.validatorIndex _ 7
    rfl (by decide) (by decide) rfl rfl (by intro h0; rw [h0]; rfl)
    (by simp only [pvoteHandler, i32_toU64 h.index]; rfl)]
  rw [dec_sig pvoteHandler _ v 0x42 v.signature _ 8 rfl (by decide) (by decide) rfl rfl (by omega) h.sig
    (by intro h0; cases v; simp at h0; rw [h0]) (by intro x hx; simp only [pvoteHandler]; rw [← hx])]
  rfl

theorem decode_pproposal (p : Proposal) (h : p.PWF) :
    decodeMsg pproposalHandler .zero (encPProposal p) = some p := by
  have hsz := h.size
  have h1 := encPBlockID_le p.blockID
  have h2 := encTime_le p.timestamp
  have hb := decodeBlockID_enc p.blockID.toC h.block (by omega)
  unfold encPProposal
  rw [dec_varint pproposalHandler .zero { Proposal.zero with type := p.type } 0x08 p.type _ 1 rfl (by decide) (by decide)
    rfl rfl (by intro h0; rw [h0]; rfl) (by simp only [pproposalHandler, i32_toU64 h.type])]
  rw [dec_varint pproposalHandler _ { Proposal.zero with type := p.type, height := p.height } 0x10 p.height _ 2 rfl
    (by decide) (by decide) rfl rfl (by intro h0; rw [h0]; rfl) (by simp only [pproposalHandler, i64_toU64 h.height])]
  rw [dec_varint pproposalHandler _ { Proposal.zero with type := p.type, height := p.height, round := p.round } 0x18
    p.round _ 3 rfl (by decide) (by decide) rfl rfl (by intro h0; rw [h0]; rfl)
    (by simp only [pproposalHandler, i32_toU64 h.round])]
  rw [dec_varint pproposalHandler _ { Proposal.zero with
      type := p.type, height := p.height, round := p.round, polRound := p.polRound } 0x20 p.polRound _ 4 rfl (by decide)
    (by decide) rfl rfl (by intro h0; rw [h0]; rfl) (by simp only [pproposalHandler, i32_toU64 h.polRound])]
  rw [dec_len pproposalHandler _ { Proposal.zero with
      type := p.type, height := p.height, round := p.round, polRound := p.polRound, blockID := p.blockID } 0x2a _ _ 5
    rfl (by decide) (by decide) rfl rfl (by omega)
    (by simp only [pproposalHandler, setPBlockID, Proposal.zero]
        rw [show BlockID.toC ⟨[], 0, []⟩ = ⟨[], ⟨0, []⟩⟩ from rfl, hb]; rfl)]
  rw [dec_len pproposalHandler _ { p with signature := none } 0x32 _ _ 6
    rfl (by decide) (by decide) rfl rfl (by omega)
    (by simp only [pproposalHandler, decodeTime_encTime _ h.time, Option.map_some]; rfl)]
  rw [dec_sig pproposalHandler _ p 0x3a p.signature _ 7 rfl (by decide) (by decide) rfl rfl (by omega) h.sig
    (by intro h0; cases p; simp at h0; rw [h0]) (by intro x hx; simp only [pproposalHandler]; rw [← hx])]
  rfl

theorem encPVote_le (v : Vote) : (encPVote v).length ≤
    170 + (v.blockID.hash.length + v.blockID.pshHash.length + v.validatorAddress.length + v.signature.bytes.length) := by
  have h1 := encVarintField_le 0x08 v.type
  have h2 := encVarintField_le 0x10 v.height
  have h3 := encVarintField_le 0x18 v.round
  have h4 := encLen_le 0x22 (encBlockID v.blockID.toC)
  have h5 := encLen_le 0x2a (encTime v.timestamp)
  have h6 := encBytesField_le 0x32 v.validatorAddress
  have h7 := encVarintField_le 0x38 v.validatorIndex
  have h8 := encBytesField_le 0x42 v.signature.bytes
  have h9 := encPBlockID_le v.blockID
  have h10 := encTime_le v.timestamp
  simp only [encPVote, List.length_append, List.length_nil]
  omega

theorem encPProposal_le (v : Proposal) : (encPProposal v).length ≤
    170 + (v.blockID.hash.length + v.blockID.pshHash.length + v.signature.bytes.length) := by
  have h1 := encVarintField_le 0x08 v.type
  have h2 := encVarintField_le 0x10 v.height
  have h3 := encVarintField_le 0x18 v.round
  have h4 := encVarintField_le 0x20 v.polRound
  have h5 := encLen_le 0x2a (encBlockID v.blockID.toC)
  have h6 := encLen_le 0x32 (encTime v.timestamp)
  have h8 := encBytesField_le 0x3a v.signature.bytes
  have h9 := encPBlockID_le v.blockID
  have h10 := encTime_le v.timestamp
  simp only [encPProposal, List.length_append, List.length_nil]
  omega

theorem encRSErr_le (e : RSErr) : (encRSErr e).length ≤ 22 + e.description.length := by
  have h1 := encVarintField_le 0x08 e.code
  have h2 := encBytesField_le 0x12 e.description
  simp only [encRSErr, List.length_append, List.length_nil]
  omega

theorem encPPubKey_le (k : PPubKey) (h : k.WF) : (encPPubKey k).length < 2 ^ 63 := by
  cases k with
  | unset => simp [encPPubKey]
  | ed25519 k =>
    have := encLen_le 0x0a k
    simp only [PPubKey.WF] at h
    simp only [encPPubKey]; omega
  | secp256k1 k =>
    have := encLen_le 0x12 k
    simp only [PPubKey.WF] at h
    simp only [encPPubKey]; omega

theorem decode_rsErr (e : RSErr) (h : e.WF) : decodeMsg rsErrHandler ⟨0, []⟩ (encRSErr e) = some e := by
  have hsz := h.size
  unfold encRSErr
  rw [dec_varint rsErrHandler _ ⟨e.code, []⟩ 0x08 e.code _ 1 rfl (by decide) (by decide) rfl rfl
    (by intro h0; rw [h0]) (by simp only [rsErrHandler, i32_toU64 h.code])]
  rw [dec_bytes rsErrHandler _ e 0x12 e.description _ 2 rfl (by decide) (by decide) rfl rfl (by omega)
    (by intro h0; cases e; simp at h0; rw [h0]) (by simp only [rsErrHandler])]
  rfl

theorem decode_ppubKey (k : PPubKey) (h : k.WF) : decodeMsg ppubKeyHandler .unset (encPPubKey k) = some k := by
  cases k with
  | unset => rfl
  | ed25519 k =>
    simp only [PPubKey.WF] at h
    simp only [encPPubKey]
    rw [← List.append_nil (encLen _ _), dec_len ppubKeyHandler _ (.ed25519 k) 0x0a k _ 1 rfl (by decide) (by decide) rfl
      rfl (by omega) (by simp only [ppubKeyHandler])]
    rfl
  | secp256k1 k =>
    simp only [PPubKey.WF] at h
    simp only [encPPubKey]
    rw [← List.append_nil (encLen _ _), dec_len ppubKeyHandler _ (.secp256k1 k) 0x12 k _ 2 rfl (by decide) (by decide)
      rfl rfl (by omega) (by simp only [ppubKeyHandler])]
    rfl

theorem decode_signReq (h : Handler α) (zero : α) (enc : α → Bytes) (x : Option α) (c : Bytes)
    (hx : ∀ y, x = some y → decodeMsg h zero (enc y) = some y ∧ (enc y).length < 2 ^ 63) (hc : c.length < 2 ^ 62) :
    decodeMsg (signReqHandler h zero) (none, []) (encMsgField 0x0a (x.map enc) ++ (encBytesField 0x12 c ++ [])) =
      some (x, c) := by
  have h2 : ∀ x : Option α, decodeMsg (signReqHandler h zero) (x, []) (encBytesField 0x12 c ++ []) = some (x, c) := by
    intro x
    rw [dec_bytes (signReqHandler h zero) _ (x, c) 0x12 c _ 2 rfl (by decide) (by decide) rfl rfl (by omega)
      (by intro h0; rw [h0]) (by simp only [signReqHandler])]
    rfl
  cases x with
  | none => exact h2 none
  | some y =>
    obtain ⟨h3, h4⟩ := hx y rfl
    simp only [Option.map_some, encMsgField]
    rw [dec_len (signReqHandler h zero) _ (some y, []) 0x0a _ _ 1 rfl (by decide) (by decide) rfl rfl (by omega)
      (by simp only [signReqHandler, Option.getD_none, h3, Option.map_some])]
    exact h2 _

theorem decode_resp (h : Handler α) (zero : α) (enc : α → Bytes) (x : α) (e : Option RSErr)
    (hx : decodeMsg h zero (enc x) = some x ∧ (enc x).length < 2 ^ 63) (he : ∀ y, e = some y → y.WF) :
    decodeMsg (respHandler h) (zero, none) (encLen 0x0a (enc x) ++ (encMsgField 0x12 (e.map encRSErr) ++ [])) =
      some (x, e) := by
  rw [dec_len (respHandler h) _ (x, none) 0x0a _ _ 1 rfl (by decide) (by decide) rfl rfl (by omega)
    (by simp only [respHandler, hx.1, Option.map_some])]
  cases e with
  | none => rfl
  | some y =>
    have h1 := encRSErr_le y
    have h2 := (he y rfl).size
    simp only [Option.map_some, encMsgField]
    rw [dec_len (respHandler h) _ (x, some y) 0x12 _ _ 2 rfl (by decide) (by decide) rfl rfl (by omega)
      (by simp only [respHandler, Option.getD_none, decode_rsErr y (he y rfl), Option.map_some])]
    rfl

theorem decode_pmsg (m : PMsg) (h : m.WF) (hl : (encPMsg m).length < 2 ^ 63) :
    decodeMsg pmsgHandler .empty (encPMsg m) = some m := by
  cases m with
  | empty => rfl
  | pubKeyRequest c =>
    simp only [encPMsg, PMsg.WF] at *
    have := encLen_length 0x0a (encBytesField 0x0a c)
    have h1 : decodeMsg pubKeyReqHandler [] (encBytesField 0x0a c) = some c := by
      rw [← List.append_nil (encBytesField _ _), dec_bytes pubKeyReqHandler _ c 0x0a c _ 1 rfl (by decide) (by decide) rfl
        rfl (by omega) (by intro h0; exact h0) (by simp only [pubKeyReqHandler])]
      rfl
    rw [← List.append_nil (encLen _ _), dec_len pmsgHandler _ (.pubKeyRequest c) 0x0a _ _ 1 rfl (by decide) (by decide)
      rfl rfl (by omega) (by simp only [pmsgHandler, h1, Option.map_some])]
    rfl
  | pubKeyResponse k e =>
    simp only [encPMsg] at *
    have := encLen_length 0x12 (encLen 0x0a (encPPubKey k) ++ (encMsgField 0x12 (e.map encRSErr) ++ []))
    have h1 := decode_resp ppubKeyHandler .unset encPPubKey k e ⟨decode_ppubKey k h.1, encPPubKey_le k h.1⟩ h.2
    rw [← List.append_nil (encLen 0x12 _), dec_len pmsgHandler _ (.pubKeyResponse k e) 0x12 _ _ 2 rfl (by decide)
      (by decide) rfl rfl (by omega) (by simp only [pmsgHandler, h1, Option.map_some])]
    rfl
  | signVoteRequest v c =>
    simp only [encPMsg] at *
    have := encLen_length 0x1a (encMsgField 0x0a (v.map encPVote) ++ (encBytesField 0x12 c ++ []))
    have h1 := decode_signReq pvoteHandler .zero encPVote v c
      (fun y hy => ⟨decode_pvote y (h.1 y hy), by have := encPVote_le y; have := (h.1 y hy).size; omega⟩) h.2
    rw [← List.append_nil (encLen 0x1a _), dec_len pmsgHandler _ (.signVoteRequest v c) 0x1a _ _ 3 rfl (by decide)
      (by decide) rfl rfl (by omega) (by simp only [pmsgHandler, h1, Option.map_some])]
    rfl
  | signedVoteResponse v e =>
    simp only [encPMsg] at *
    have := encLen_length 0x22 (encLen 0x0a (encPVote v) ++ (encMsgField 0x12 (e.map encRSErr) ++ []))
    have h1 := decode_resp pvoteHandler .zero encPVote v e
      ⟨decode_pvote v h.1, by have := encPVote_le v; have := h.1.size; omega⟩ h.2
    rw [← List.append_nil (encLen 0x22 _), dec_len pmsgHandler _ (.signedVoteResponse v e) 0x22 _ _ 4 rfl (by decide)
      (by decide) rfl rfl (by omega) (by simp only [pmsgHandler, h1, Option.map_some])]
    rfl
  | signProposalRequest v c =>
    simp only [encPMsg] at *
    have := encLen_length 0x2a (encMsgField 0x0a (v.map encPProposal) ++ (encBytesField 0x12 c ++ []))
    have h1 := decode_signReq pproposalHandler .zero encPProposal v c
      (fun y hy => ⟨decode_pproposal y (h.1 y hy), by have := encPProposal_le y; have := (h.1 y hy).size; omega⟩) h.2
    rw [← List.append_nil (encLen 0x2a _), dec_len pmsgHandler _ (.signProposalRequest v c) 0x2a _ _ 5 rfl (by decide)
      (by decide) rfl rfl (by omega) (by simp only [pmsgHandler, h1, Option.map_some])]
    rfl
  | signedProposalResponse v e =>
    simp only [encPMsg] at *
    have := encLen_length 0x32 (encLen 0x0a (encPProposal v) ++ (encMsgField 0x12 (e.map encRSErr) ++ []))
    have h1 := decode_resp pproposalHandler .zero encPProposal v e
      ⟨decode_pproposal v h.1, by have := encPProposal_le v; have := h.1.size; omega⟩ h.2
    rw [← List.append_nil (encLen 0x32 _), dec_len pmsgHandler _ (.signedProposalResponse v e) 0x32 _ _ 6 rfl (by decide)
      (by decide) rfl rfl (by omega) (by simp only [pmsgHandler, h1, Option.map_some])]
    rfl
  | pingRequest =>
    simp only [encPMsg] at *
    rw [← List.append_nil (encLen 0x3a _), dec_len pmsgHandler _ .pingRequest 0x3a _ _ 7 rfl (by decide)
      (by decide) rfl rfl (by simp) (by simp only [pmsgHandler]; rfl)]
    rfl
  | pingResponse =>
    simp only [encPMsg] at *
    rw [← List.append_nil (encLen 0x42 _), dec_len pmsgHandler _ .pingResponse 0x42 _ _ 8 rfl (by decide)
      (by decide) rfl rfl (by simp) (by simp only [pmsgHandler]; rfl)]
    rfl

/-- A message of at most 10240 bytes is read back, and exactly its bytes are consumed. -/
theorem readMsg_writeMsg (m : PMsg) (rest : Bytes) (h : m.WF) (hl : (encPMsg m).length ≤ maxRemoteSignerMsgSize) :
    readMsg (writeMsg m ++ rest) = some (m, rest) := by
  have hm : maxRemoteSignerMsgSize = 10240 := rfl
  unfold readMsg writeMsg delimit
  rw [List.append_assoc, readUvarint_encode _ _ (by omega)]
  simp only
  rw [if_neg (by omega), if_neg (by simp)]
  simp [decode_pmsg m h (by omega)]

end Horcrux
