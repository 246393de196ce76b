import Verif.Lemmas.WireRoundTrip
import Verif.Spec.Message
namespace Horcrux
open Spec

theorem onlyDiffer_iff (step : Int) (a b : Bytes) :
    onlyDifferByTimestamp step a b = none ↔ DifferOnlyByTime step a b := by
  unfold onlyDifferByTimestamp DifferOnlyByTime stepPropose stepPrevote stepPrecommit
  by_cases h1 : step = 1
  · subst h1
    simp only [if_true, true_and]
    unfold checkProposalOnlyDifferByTimestamp SameProposalExceptTime
    cases ha : decodeProposal a with
    | none => simp
    | some p =>
      cases hb : decodeProposal b with
      | none => simp
      | some q => cases p; cases q; simp; grind
  · simp only [h1, if_false, false_and, false_or]
    by_cases h2 : step = 2 ∨ step = 3
    · simp only [h2, if_true, true_and]
      unfold checkVoteOnlyDifferByTimestamp SameVoteExceptTime
      cases ha : decodeVote a with
      | none => simp
      | some p =>
        cases hb : decodeVote b with
        | none => simp
        | some q =>
          cases p; cases q
          simp only [CVote.mk.injEq]
          constructor
          · intro h
            split at h
            · simp; grind
            · (repeat' split at h) <;> simp at h
          · rintro ⟨p, q, h1, h2, h3⟩
            simp at h1 h2
            subst h1 h2
            simp at h3
            simp [h3]
    · simp [h2]

/-! ### What the proposal decoder makes of a vote -/

theorem decodeProposal_prefix (t h r : Int) (R : Bytes) (ht : IsI32 t) (hh : IsI64 h) (hr : IsI64 r) :
    decodeMsg proposalHandler CProposal.zero
      (encVarintField 0x08 t ++ (encFixedField 0x11 h ++ (encFixedField 0x19 r ++ R)))
    = decodeMsg proposalHandler ⟨t, h, r, 0, none, GoTime.zero, []⟩ R := by
  have s3 : ∀ m : CProposal, m.round = 0 → decodeMsg proposalHandler m (encFixedField 0x19 r ++ R)
      = decodeMsg proposalHandler { m with round := r } R := by
    intro m hm
    by_cases h0 : r = 0
    · rw [h0, encFixedField_zero, List.nil_append]; cases m; simp_all
    · rw [decodeMsg_fixedField _ _ _ _ _ (by decide) (by decide) rfl (by decide) h0]
      rw [show proposalHandler.set m ((0x19 : UInt8).toNat / 8) (.fixed64 (toU64 r))
        = some { m with round := i64 (toU64 r : Nat) } from rfl, i64_toU64 hr]
      rfl
  have s2 : ∀ m : CProposal, m.round = 0 → m.height = 0 →
      decodeMsg proposalHandler m (encFixedField 0x11 h ++ (encFixedField 0x19 r ++ R))
      = decodeMsg proposalHandler { m with round := r, height := h } R := by
    intro m hm hm'
    by_cases h0 : h = 0
    · rw [h0, encFixedField_zero, List.nil_append, s3 m hm]; cases m; simp_all
    · rw [decodeMsg_fixedField _ _ _ _ _ (by decide) (by decide) rfl (by decide) h0]
      rw [show proposalHandler.set m ((0x11 : UInt8).toNat / 8) (.fixed64 (toU64 h))
        = some { m with height := i64 (toU64 h : Nat) } from rfl, i64_toU64 hh, Option.bind_some]
      exact s3 { m with height := h } hm
  by_cases h0 : t = 0
  · rw [h0, encVarintField_zero, List.nil_append, s2 _ rfl rfl]; rfl
  · rw [decodeMsg_varintField _ _ _ _ _ (by decide) (by decide) rfl (by decide) h0]
    rw [show proposalHandler.set CProposal.zero ((0x08 : UInt8).toNat / 8) (.varint (toU64 t))
        = some { CProposal.zero with type := i32 (toU64 t : Nat) } from rfl, i32_toU64 ht, Option.bind_some,
        s2 _ rfl rfl]
    rfl

theorem setBlockID_encTime (t : GoTime) :
    setBlockID none (encTime t) = if t = ⟨0, 0⟩ then some (some ⟨[], ⟨0, []⟩⟩) else none := by
  unfold setBlockID encTime
  by_cases hs : t.sec = 0
  · by_cases hn : t.nsec = 0
    · have : t = ⟨0, 0⟩ := by cases t; simp_all
      subst this
      simp [encVarintField_zero, decodeMsg_nil]
    · have : t ≠ ⟨0, 0⟩ := by rintro rfl; simp at hn
      rw [hs, encVarintField_zero, List.nil_append]
      simp only [encVarintField, hn, if_false]
      rw [decodeMsg_wrongType _ _ _ _ 2 (by decide) (by decide) rfl (by decide)]
      simp [this]
  · have : t ≠ ⟨0, 0⟩ := by rintro rfl; simp at hs
    simp only [encVarintField, hs, if_false, List.cons_append]
    rw [decodeMsg_wrongType _ _ _ _ 2 (by decide) (by decide) rfl (by decide)]
    simp [this]

/-- What decoding a vote's sign bytes as a proposal gives. -/
theorem decodeProposal_encVote (v : CVote) (hw : v.WF) (hl : (encVote v).length < 2 ^ 63 - 1) :
    decodeProposal (delimit (encVote v)) =
      if v.blockID = none ∧ v.timestamp = ⟨0, 0⟩ then
        (if v.chainID = [] then some GoTime.zero else decodeTime v.chainID).map fun t =>
          ⟨v.type, v.height, v.round, 0, some ⟨[], ⟨0, []⟩⟩, t, []⟩
      else none := by
  have hu := undelimit_delimit (encVote v) [] hl
  rw [List.append_nil] at hu
  unfold decodeProposal
  rw [hu, Option.bind_some]
  unfold encVote at hl ⊢
  simp only [List.append_assoc] at hl ⊢
  simp only [List.length_append] at hl
  have l1 := encBytesField_length 0x32 v.chainID
  have l2 := encLen_length 0x2a (encTime v.timestamp)
  rw [decodeProposal_prefix _ _ _ _ hw.type hw.height hw.round]
  cases hb : v.blockID with
  | some b =>
    simp only [encBlockIDField, encLen, List.cons_append]
    rw [decodeMsg_wrongType _ _ _ _ 0 (by decide) (by decide) rfl (by decide)]
    simp
  | none =>
    simp only [encBlockIDField, List.nil_append, true_and]
    rw [decodeMsg_lenField _ _ _ _ _ (by decide) (by decide) rfl (by decide) (by omega)]
    rw [show ∀ m : CProposal, proposalHandler.set m ((0x2a : UInt8).toNat / 8) (.len (encTime v.timestamp))
      = (setBlockID m.blockID (encTime v.timestamp)).map fun b => { m with blockID := b } from fun _ => rfl]
    simp only [setBlockID_encTime]
    by_cases ht : v.timestamp = ⟨0, 0⟩
    · simp only [ht, if_true, Option.map_some, Option.bind_some]
      by_cases hc : v.chainID = []
      · simp only [hc, encBytesField_nil, decodeMsg_nil, if_true]; rfl
      · simp only [hc, if_false]
        rw [encBytesField_ne hc, ← List.append_nil (encLen _ _),
          decodeMsg_lenField _ _ _ _ _ (by decide) (by decide) rfl (by decide) (by omega)]
        rw [show ∀ m : CProposal, proposalHandler.set m ((0x32 : UInt8).toNat / 8) (.len v.chainID)
          = (decodeTime v.chainID).map fun t => { m with timestamp := t } from fun _ => rfl]
        cases decodeTime v.chainID <;> simp [decodeMsg_nil]
    · simp [ht]

/-! ### From votes to canonical votes -/

theorem canonicalizeBlockID_ok {b : BlockID} {c : Option CBlockID} (h : canonicalizeBlockID b = .ok c) :
    (c = none ↔ b = ⟨[], 0, []⟩) ∧
    (∀ d, c = some d → d = ⟨b.hash, ⟨b.pshTotal, b.pshHash⟩⟩) ∧ b.valid = true := by
  obtain ⟨bh, bt, bp⟩ := b
  unfold canonicalizeBlockID at h
  simp only at h
  split at h
  · simp at h
  · next hv =>
    simp only [Decidable.not_not] at hv
    refine ⟨?_, ?_, hv⟩
    · split at h
      · simp at h; simp_all
      · simp at h; simp [← h]; simp_all
    · intro d hd
      subst hd
      split at h
      · simp at h
      · simpa using h.symm

theorem canonicalizeBlockID_inj {a b : BlockID} {c : Option CBlockID} (ha : canonicalizeBlockID a = .ok c)
    (hb : canonicalizeBlockID b = .ok c) : a = b := by
  have h1 := canonicalizeBlockID_ok ha
  have h2 := canonicalizeBlockID_ok hb
  cases c with
  | none => rw [h1.1.1 rfl, h2.1.1 rfl]
  | some d =>
    have e1 := h1.2.1 d rfl
    have e2 := h2.2.1 d rfl
    rw [e1] at e2
    cases a; cases b; simp at e2; simp [e2]

theorem BlockID.valid_len {b : BlockID} (h : b.valid = true) : b.hash.length + b.pshHash.length ≤ 64 := by
  simp [BlockID.valid] at h; rcases h with ⟨h1 | h1, h2 | h2⟩ <;> simp [h1, h2]

/-- A vote whose fields have Go's types (`int32` type and round, `int64` height, `uint32` part total), signed for
a chain ID of sane length. -/
structure Vote.WF (chainID : Bytes) (v : Vote) : Prop where
  type : IsI32 v.type
  height : IsI64 v.height
  round : IsI32 v.round
  total : v.blockID.pshTotal < 2 ^ 32
  chain : chainID.length < 2 ^ 62

/-- A proposal whose fields have Go's types, signed for a chain ID of sane length. -/
structure Proposal.WF (chainID : Bytes) (v : Proposal) : Prop where
  height : IsI64 v.height
  round : IsI32 v.round
  polRound : IsI32 v.polRound
  total : v.blockID.pshTotal < 2 ^ 32
  chain : chainID.length < 2 ^ 62

theorem isI64_of_isI32 {x : Int} (h : IsI32 x) : IsI64 x := by unfold IsI32 IsI64 at *; omega

theorem voteSignBytes_ok {chainID : Bytes} {v : Vote} {bs : Bytes} (hw : v.WF chainID)
    (h : voteSignBytes chainID v = .ok bs) :
    ∃ b, canonicalizeBlockID v.blockID = .ok b ∧
      bs = delimit (encVote ⟨v.type, v.height, v.round, b, v.timestamp, chainID⟩) ∧
      CVote.WF ⟨v.type, v.height, v.round, b, v.timestamp, chainID⟩ ∧
      (encVote ⟨v.type, v.height, v.round, b, v.timestamp, chainID⟩).length < 2 ^ 63 - 1 := by
  unfold voteSignBytes at h
  cases hc : canonicalizeBlockID v.blockID with
  | panic => rw [hc] at h; simp at h
  | err e => rw [hc] at h; simp at h
  | ok b =>
    rw [hc] at h
    simp only at h
    split at h
    · next ht =>
      have hk := canonicalizeBlockID_ok hc
      refine ⟨b, rfl, by simpa using h.symm, ⟨hw.type, hw.height, isI64_of_isI32 hw.round, ?_, ht⟩, ?_⟩
      · intro c hc'
        have := hk.2.1 c hc'
        subst this; exact hw.total
      · have := encVote_le ⟨v.type, v.height, v.round, b, v.timestamp, chainID⟩ 64 (by
          intro c hc'
          have := hk.2.1 c hc'
          subst this; exact BlockID.valid_len hk.2.2)
        have hch := hw.chain
        simp only at this
        omega
    · simp at h

theorem proposalSignBytes_ok {chainID : Bytes} {v : Proposal} {bs : Bytes} (hw : v.WF chainID)
    (h : proposalSignBytes chainID v = .ok bs) :
    ∃ b, canonicalizeBlockID v.blockID = .ok b ∧
      bs = delimit (encProposal ⟨32, v.height, v.round, v.polRound, b, v.timestamp, chainID⟩) ∧
      CProposal.WF ⟨32, v.height, v.round, v.polRound, b, v.timestamp, chainID⟩ ∧
      (encProposal ⟨32, v.height, v.round, v.polRound, b, v.timestamp, chainID⟩).length < 2 ^ 63 - 1 := by
  unfold proposalSignBytes at h
  cases hc : canonicalizeBlockID v.blockID with
  | panic => rw [hc] at h; simp at h
  | err e => rw [hc] at h; simp at h
  | ok b =>
    rw [hc] at h
    simp only at h
    split at h
    · next ht =>
      have hk := canonicalizeBlockID_ok hc
      refine ⟨b, rfl, by simpa using h.symm, ⟨show IsI32 32 by decide, hw.height, isI64_of_isI32 hw.round,
        isI64_of_isI32 hw.polRound, ?_, ht⟩, ?_⟩
      · intro c hc'
        have := hk.2.1 c hc'
        subst this; exact hw.total
      · have := encProposal_le ⟨32, v.height, v.round, v.polRound, b, v.timestamp, chainID⟩ 64 (by
          intro c hc'
          have := hk.2.1 c hc'
          subst this; exact BlockID.valid_len hk.2.2)
        have hch := hw.chain
        simp only at this
        omega
    · simp at h

theorem decodeVote_signBytes {chainID : Bytes} {v : Vote} {bs : Bytes} (hw : v.WF chainID)
    (h : voteSignBytes chainID v = .ok bs) :
    ∃ b, canonicalizeBlockID v.blockID = .ok b ∧
      decodeVote bs = some ⟨v.type, v.height, v.round, b, v.timestamp, chainID⟩ := by
  obtain ⟨b, hb, rfl, hwf, hl⟩ := voteSignBytes_ok hw h
  refine ⟨b, hb, ?_⟩
  have := decodeVote_encode _ [] hwf hl
  rwa [List.append_nil] at this

theorem decodeProposal_signBytes {chainID : Bytes} {v : Proposal} {bs : Bytes} (hw : v.WF chainID)
    (h : proposalSignBytes chainID v = .ok bs) :
    ∃ b, canonicalizeBlockID v.blockID = .ok b ∧
      decodeProposal bs = some ⟨32, v.height, v.round, v.polRound, b, v.timestamp, chainID⟩ := by
  obtain ⟨b, hb, rfl, hwf, hl⟩ := proposalSignBytes_ok hw h
  refine ⟨b, hb, ?_⟩
  have := decodeProposal_encode _ [] hwf hl
  rwa [List.append_nil] at this

/-- The one way a vote can be mistaken for a proposal: no block, the Unix epoch as time, and a chain ID that is
empty or happens to parse as a protobuf timestamp. -/
def Vote.MistakenForProposal (chainID : Bytes) (v : Vote) : Prop :=
  v.blockID = ⟨[], 0, []⟩ ∧ v.timestamp = ⟨0, 0⟩ ∧ (chainID = [] ∨ decodeTime chainID ≠ none)

theorem decodeProposal_voteSignBytes {chainID : Bytes} {v : Vote} {bs : Bytes} (hw : v.WF chainID)
    (h : voteSignBytes chainID v = .ok bs) :
    decodeProposal bs ≠ none ↔ v.MistakenForProposal chainID := by
  obtain ⟨b, hb, rfl, hwf, hl⟩ := voteSignBytes_ok hw h
  rw [decodeProposal_encVote _ hwf hl]
  have hk := (canonicalizeBlockID_ok hb).1
  unfold Vote.MistakenForProposal
  simp only [hk]
  by_cases h1 : v.blockID = ⟨[], 0, []⟩
  · by_cases h2 : v.timestamp = ⟨0, 0⟩
    · by_cases h3 : chainID = []
      · simp [h1, h2, h3]
      · simp [h1, h2, h3]
    · simp [h1, h2]
  · simp [h1]

end Horcrux
