import Verif.Lemmas.Fields
import Verif.Props.Cosigner
import Verif.Props.Remote
import Verif.Props.SignState
/-
Property C78: what a cosigner signs besides the sign bytes of messages of its chain.
-/
namespace Horcrux
open Spec

variable (C : Crypto) (cfg : CosignerCfg)

/-! ### Canonical messages are made of fields -/

theorem tag_byte (b : UInt8) (num wt : Nat) (h1 : 1 ≤ num) (h : b.toNat = 8 * num + wt) (hb : b.toNat < 128) : Tag num wt [b] := by
  refine ⟨h1, by omega, ?_⟩
  have := Varint.last b hb
  rw [h] at this
  exact ⟨this, by omega, by simp⟩

theorem fields_one {num : Nat} {f : Bytes} (h : Spec.Field num f) : Fields f := by
  have := Fields.cons h .nil
  rwa [List.append_nil] at this

theorem fields_append {a b : Bytes} (ha : Fields a) (hb : Fields b) : Fields (a ++ b) := by
  induction a using (measure List.length).wf.induction with
  | _ a ih =>
    cases ha with
    | nil => exact hb
    | @cons num f fs hf hfs =>
      rw [List.append_assoc]
      exact .cons hf (ih fs (by
        have := field_pos hf
        show fs.length < (f ++ fs).length
        simp only [List.length_append]; omega) hfs)

theorem fields_varint (b : UInt8) (num : Nat) (h1 : 1 ≤ num) (h : b.toNat = 8 * num) (hb : b.toNat < 128) (x : Int) :
    Fields (encVarintField b x) := by
  unfold encVarintField
  split
  · exact .nil
  · exact fields_one (.varint (t := [b]) (tag_byte b num 0 h1 h hb) (varint64_encode (toU64_lt x)))

theorem fields_fixed (b : UInt8) (num : Nat) (h1 : 1 ≤ num) (h : b.toNat = 8 * num + 1) (hb : b.toNat < 128) (x : Int) :
    Fields (encFixedField b x) := by
  unfold encFixedField
  split
  · exact .nil
  · exact fields_one (.fixed64 (t := [b]) (tag_byte b num 1 h1 h hb) (leBytes_length 8 _))

theorem fields_len (b : UInt8) (num : Nat) (h1 : 1 ≤ num) (h : b.toNat = 8 * num + 2) (hb : b.toNat < 128) (x : Bytes)
    (hx : (encLen b x).length < 2 ^ 64) : Fields (encLen b x) := by
  unfold encLen at hx ⊢
  simp only [List.length_cons, List.length_append] at hx
  exact fields_one (.bytes (t := [b]) (tag_byte b num 2 h1 h hb) (varint64_encode (by omega)))

theorem fields_bytes (b : UInt8) (num : Nat) (h1 : 1 ≤ num) (h : b.toNat = 8 * num + 2) (hb : b.toNat < 128) (x : Bytes)
    (hx : (encBytesField b x).length < 2 ^ 64) : Fields (encBytesField b x) := by
  unfold encBytesField at hx ⊢
  split at hx
  · next e => rw [if_pos e]; exact .nil
  · next e => rw [if_neg e]; exact fields_len b num h1 h hb x hx

theorem fields_blockID (b : UInt8) (num : Nat) (h1 : 1 ≤ num) (h : b.toNat = 8 * num + 2) (hb : b.toNat < 128)
    (x : Option CBlockID) (hx : (encBlockIDField b x).length < 2 ^ 64) : Fields (encBlockIDField b x) := by
  cases x with
  | none => exact .nil
  | some x => exact fields_len b num h1 h hb _ hx

theorem fields_vote (v : CVote) (h : (encVote v).length < 2 ^ 64) : Fields (encVote v) := by
  unfold encVote at h ⊢
  simp only [List.length_append] at h
  refine fields_append (fields_append (fields_append (fields_append (fields_append ?_ ?_) ?_) ?_) ?_) ?_
  · exact fields_varint _ 1 (by decide) (by decide) (by decide) _
  · exact fields_fixed _ 2 (by decide) (by decide) (by decide) _
  · exact fields_fixed _ 3 (by decide) (by decide) (by decide) _
  · exact fields_blockID _ 4 (by decide) (by decide) (by decide) _ (by omega)
  · exact fields_len _ 5 (by decide) (by decide) (by decide) _ (by omega)
  · exact fields_bytes _ 6 (by decide) (by decide) (by decide) _ (by omega)

theorem fields_proposal (p : CProposal) (h : (encProposal p).length < 2 ^ 64) : Fields (encProposal p) := by
  unfold encProposal at h ⊢
  simp only [List.length_append] at h
  refine fields_append (fields_append (fields_append (fields_append (fields_append (fields_append ?_ ?_) ?_) ?_) ?_) ?_) ?_
  · exact fields_varint _ 1 (by decide) (by decide) (by decide) _
  · exact fields_fixed _ 2 (by decide) (by decide) (by decide) _
  · exact fields_fixed _ 3 (by decide) (by decide) (by decide) _
  · exact fields_varint _ 4 (by decide) (by decide) (by decide) _
  · exact fields_blockID _ 5 (by decide) (by decide) (by decide) _ (by omega)
  · exact fields_len _ 6 (by decide) (by decide) (by decide) _ (by omega)
  · exact fields_bytes _ 7 (by decide) (by decide) (by decide) _ (by omega)

/-- Sign bytes are a length and the message. -/
theorem voteSignBytes_delimit {c : Bytes} {v : Vote} {bs : Bytes} (h : voteSignBytes c v = .ok bs) :
    ∃ cv, bs = delimit (encVote cv) := by
  unfold voteSignBytes at h
  split at h
  · cases h
  · cases h
  · split at h
    · exact ⟨_, (Out.ok.inj h).symm⟩
    · cases h

theorem proposalSignBytes_delimit {c : Bytes} {p : Proposal} {bs : Bytes} (h : proposalSignBytes c p = .ok bs) :
    ∃ cp, bs = delimit (encProposal cp) := by
  unfold proposalSignBytes at h
  split at h
  · cases h
  · cases h
  · split at h
    · exact ⟨_, (Out.ok.inj h).symm⟩
    · cases h

/-- C78: to the sign bytes of every vote and every proposal any fields of other numbers, and any bytes after the end, can be
added. -/
theorem C78_extensible (c bs u trail : Bytes)
    (h : (∃ v, voteSignBytes c v = .ok bs) ∨ (∃ p, proposalSignBytes c p = .ok bs)) (hu : NewFields u)
    (hl : bs.length + u.length < 2 ^ 63 - 1) :
    ∃ m, bs = delimit m ∧ Extended bs (delimit (m ++ u) ++ trail) := by
  have key : ∀ m, Fields m → m.length + u.length < 2 ^ 63 - 1 → Extended (delimit m) (delimit (m ++ u) ++ trail) := by
    intro m hm hlm
    exact ⟨m, u, [], trail, hm, hu, by simp only [List.append_nil, List.length_append]; omega, by rw [List.append_nil],
      by rw [List.append_nil]⟩
  have len : ∀ m, bs = delimit m → m.length ≤ bs.length := by
    rintro m rfl
    simp only [delimit, List.length_append]; omega
  rcases h with ⟨v, h⟩ | ⟨p, h⟩
  · obtain ⟨cv, e⟩ := voteSignBytes_delimit h
    have := len _ e
    exact ⟨_, e, by rw [e]; exact key _ (fields_vote cv (by omega)) (by omega)⟩
  · obtain ⟨cp, e⟩ := proposalSignBytes_delimit h
    have := len _ e
    exact ⟨_, e, by rw [e]; exact key _ (fields_proposal cp (by omega)) (by omega)⟩

/-! ### What is read -/

/-- C78: bytes with further fields between the fields of the message, or bytes after its end, are read as the message without
them: the same height, round, step and time, and the same outcome of every comparison. -/
theorem C78_unseen (bs bs' : Bytes) (h : Extended bs bs') :
    unpackHRST bs' = unpackHRST bs ∧ ∀ step other, onlyDifferByTimestamp step bs' other = onlyDifferByTimestamp step bs other ∧
      onlyDifferByTimestamp step other bs' = onlyDifferByTimestamp step other bs := by
  obtain ⟨h1, h2⟩ := extended_decode h
  refine ⟨by unfold unpackHRST; rw [h1, h2], fun step other => ⟨?_, ?_⟩⟩
  · simp only [onlyDifferByTimestamp, checkProposalOnlyDifferByTimestamp, checkVoteOnlyDifferByTimestamp, h1, h2]
  · simp only [onlyDifferByTimestamp, checkProposalOnlyDifferByTimestamp, checkVoteOnlyDifferByTimestamp, h1, h2]

/-- C78 is false: whenever a cosigner has made a share signature for a message, it makes another one, with the same nonce, for
the message with anything added to it; dropping the bytes after the end would not change that. -/
theorem C78_extended_fails (s s' : CState) (bs bs' : Bytes) (r : SignRes) (k : HRST) (hu : unpackHRST bs = .ok k)
    (h : sign C cfg s bs = (.ok r, s')) (hnew : s.lss.hrs ≺ k.hrs) (hne : bs' ≠ bs) (hx : Extended bs bs') :
    ∃ r' s'', sign C cfg s' bs' = (.ok r', s'') ∧ r.nonce ≠ none ∧ r'.nonce = r.nonce ∧
      r'.ephemeralPublic = r.ephemeralPublic := by
  obtain ⟨h1, h2⟩ := extended_decode hx
  have hd : DifferOnlyByTime k.step bs bs' := by
    have := Spec.DifferOnlyByTime.refl_of_unpack hu
    unfold DifferOnlyByTime at *
    rw [h1, h2]; exact this
  obtain ⟨r', s'', a1, _, a2, a3, a4⟩ := resign_same_nonce C cfg s s' bs bs' r k hu h hnew hne
    (by rw [(C78_unseen bs bs' hx).1, hu]) hd
  exact ⟨r', s'', a1, a2, a3, a4⟩

/-- A field with number 100: the two bytes `ff ff`. -/
def field100 : Bytes := [0xa2, 0x06, 0x02, 0xff, 0xff]

theorem field100_new : NewFields field100 := by
  have e1 : encodeVarint 802 = [0xa2, 0x06] := by decide +kernel
  have e2 : encodeVarint 2 = [0x02] := by decide +kernel
  have t : Tag 100 2 (encodeVarint 802) := ⟨by decide, by decide, varint64_encode (by decide)⟩
  have f := Spec.Field.bytes (x := [0xff, 0xff]) t (varint64_encode (v := 2) (by decide))
  rw [e1, e2] at f
  exact NewFields.cons (by decide) f .nil

/-- A run: the vote and the vote with the field 100 are signed with the same nonce share. -/
example : ∃ bs' tr s, Extended b1 bs' ∧ bs' ≠ b1 ∧ Run toy toyCfg toyStart tr s ∧ (relAt tr 1).map (·.1) = some b1 ∧
    (relAt tr 2).map (·.1) = some bs' ∧ (relAt tr 1).map (·.2.nonce) = some (some (0, List.replicate 32 1)) ∧
    (relAt tr 2).map (·.2.nonce) = some (some (0, List.replicate 32 1)) := by
  refine ⟨bytesOf (.ok (delimit ((undelimit b1).getD [] ++ field100))), _, _, ?_, by decide +kernel,
    exec_run toy toyCfg toyStart [.getPart get1 (toyRnd 1), .sign b1,
      .sign (bytesOf (.ok (delimit ((undelimit b1).getD [] ++ field100))))] (by decide +kernel), by decide +kernel⟩
  obtain ⟨m, e, hx⟩ := C78_extensible [97] b1 field100 [] (.inl ⟨vote1, rfl⟩) field100_new (by decide +kernel)
  have : undelimit b1 = some m := by
    rw [e]
    have hl : m.length ≤ b1.length := by rw [e]; simp only [delimit, List.length_append]; omega
    have h1 : b1.length < 2 ^ 63 - 1 := by decide +kernel
    have := undelimit_delimit_short (p := m) (by omega) []
    simpa using this
  rw [List.append_nil] at hx
  rw [this]; exact hx

/-! ### The chain -/

/-- C78 is false: at a block that is new to it, a cosigner that would sign some bytes signs any other bytes for the same
height, round, step and time instead, for whatever chain and with whatever content. -/
theorem C78_chain_fails (s s' : CState) (bs bs' : Bytes) (r : SignRes) (k : HRST) (hu : unpackHRST bs = .ok k)
    (h : sign C cfg s bs = (.ok r, s')) (hnew : s.lss.hrs ≺ k.hrs) (hu' : unpackHRST bs' = .ok k) :
    ∃ r' s'' e, sign C cfg s bs' = (.ok r', s'') ∧ r'.signature = some (C.signWithShare bs' cfg.shareKey e cfg.pubKeyBytes
      r'.ephemeralPublic.bytes) := by
  have hc : s.lss.checkHRS k = .ok false := (C03_check s.lss k).2.1 hnew
  have e1 : sign C cfg s bs = signFresh C cfg s bs k := by unfold sign; rw [hu]; simp only; rw [hc]
  have e2 : sign C cfg s bs' = signFresh C cfg s bs' k := by unfold sign; rw [hu']; simp only; rw [hc]
  rw [e1] at h
  have hok : ∃ r2 s2, signFresh C cfg s bs' k = (.ok r2, s2) := by
    unfold signFresh at h ⊢
    cases hm : s.hrsMeta k with
    | none => rw [hm] at h; simp at h
    | some ref =>
      rw [hm] at h
      simp only at h ⊢
      cases hr : s.heap[ref]? with
      | none => rw [hr] at h; simp at h
      | some m =>
        rw [hr] at h
        simp only at h ⊢
        split at h
        · simp at h
        next h1 =>
        split at h
        · simp at h
        next h2 =>
        rw [if_neg h1, if_neg h2]
        generalize C.addElements (m.used.map (·.ephemeralSecretPublicKey)) = EP at *
        unfold SignState.save at h ⊢
        simp only at h ⊢
        cases hg : SignState.getErrorIfLessOrEqual { s.lss with ephemeralPublic := some EP } k.height k.round k.step with
        | none => exact ⟨_, _, rfl⟩
        | some e =>
          rw [hg] at h
          simp only at h
          cases e <;> first | exact ⟨_, _, rfl⟩ | simp at h
  obtain ⟨r2, s2, h2⟩ := hok
  obtain ⟨ref, m, _, _, _, a4, a5, _⟩ := signFresh_ok C cfg (.inr hnew) h2
  exact ⟨r2, s2, C.addScalars (m.used.map (·.share)), e2.trans h2, by rw [a5, a4]; rfl⟩

/-- The precommit `b1`, for another chain. -/
def b1other : Bytes := bytesOf (voteSignBytes [98] vote1)

/-- Concretely: a cosigner signs the precommit for chain `b` after all was prepared for the one for chain `a`. -/
example : unpackHRST b1other = unpackHRST b1 ∧ b1other ≠ b1 ∧
    ∃ tr s, Run toy toyCfg toyStart tr s ∧ (relAt tr 1).map (·.1) = some b1other :=
  ⟨by decide +kernel, by decide +kernel, _, _,
    exec_run toy toyCfg toyStart [.getPart get1 (toyRnd 1), .sign b1other] (by decide +kernel), by decide +kernel⟩

/-- C78, for the requests of chain nodes (partial): what the validator is asked to sign is the sign bytes of the request's
message for the configured chain, and nothing else. Missing: requests that name another chain are not refused
(`C78_request_chain_fails`), and cosigners do not depend on the validator (`C78_chain_fails`). -/
theorem C78_node_partial (text : Err → Bytes) (chainID key : Bytes) (sb : Block → Slice × GoTime × Option Err) (c : Bytes) :
    (∀ v v', handleRequest text (.threshold chainID key sb) (.signVoteRequest (some v) c) = some (.signedVoteResponse v' none) →
      ∃ b, voteSignBytes chainID v = .ok b.signBytes ∧ sb b = (v'.signature, v'.timestamp, none)) ∧
    (∀ p p', handleRequest text (.threshold chainID key sb) (.signProposalRequest (some p) c) =
        some (.signedProposalResponse p' none) →
      ∃ b, proposalSignBytes chainID p = .ok b.signBytes ∧ sb b = (p'.signature, p'.timestamp, none)) := by
  constructor
  · intro v v' h
    have := handle_replies h
    cases hb : voteBlock chainID v with
    | ok b =>
      obtain ⟨h1, h2⟩ := C47_threshold text chainID key sb v c v' b hb h
      refine ⟨b, ?_, by rw [h2]; exact Prod.ext rfl (Prod.ext rfl h1)⟩
      unfold voteBlock at hb
      split at hb
      · cases hb
      · cases hb
      · split at hb
        · cases hb
        · cases hb
        · next e => rw [e, ← Out.ok.inj hb]
    | err e => cases this with | vote h => simp [PV.threshold, hb] at h
    | panic => cases this with | vote h => simp [PV.threshold, hb] at h
  · intro p p' h
    have := handle_replies h
    cases hb : proposalBlock chainID p with
    | ok b =>
      obtain ⟨h1, h2⟩ := C47_threshold_proposal text chainID key sb p c p' b hb h
      refine ⟨b, ?_, by rw [h2]; exact Prod.ext rfl (Prod.ext rfl h1)⟩
      unfold proposalBlock at hb
      split at hb
      · cases hb
      · cases hb
      · next e => rw [e, ← Out.ok.inj hb]
    | err e => cases this with | proposal h => simp [PV.threshold, hb] at h
    | panic => cases this with | proposal h => simp [PV.threshold, hb] at h

/-- C78 is false: a request for another chain is answered like one for the configured chain. -/
theorem C78_request_chain_fails (text : Err → Bytes) (pv : PV) (c c' : Bytes) :
    (∀ v, handleRequest text pv (.signVoteRequest v c) = handleRequest text pv (.signVoteRequest v c')) ∧
    (∀ p, handleRequest text pv (.signProposalRequest p c) = handleRequest text pv (.signProposalRequest p c')) :=
  ⟨fun _ => rfl, fun _ => rfl⟩

/-- Concretely: the precommit, asked for chain `b` of a signer for chain `a`, is signed (for chain `a`). -/
example : handleRequest (fun _ => []) (.threshold [97] [8] fun b => (some b.signBytes, b.timestamp, none))
    (.signVoteRequest (some vote1) [98]) =
      some (.signedVoteResponse { vote1 with signature := some b1 } none) := by decide +kernel

end Horcrux
