import Verif.Lemmas.GogoMsg
import Verif.Props.Encodings
import Verif.Props.KeyText
import Verif.Props.Wire
/-
Property C120: exactly what the generated protobuf code takes for sign bytes, requests and keys. Further theorems for C05 and C80.
-/
namespace Horcrux
open Spec

theorem undelimit_iff {bs body : Bytes} : undelimit bs = some body ↔
    ∃ l rest : Bytes, bs = l ++ body ++ rest ∧ Varint64 body.length l ∧ body.length < 2 ^ 63 - 1 := by
  unfold undelimit
  constructor
  · intro h
    cases hr : readUvarint bs with
    | none => rw [hr] at h; cases h
    | some p =>
      obtain ⟨n, rest⟩ := p
      rw [hr] at h
      simp only at h
      split at h
      · cases h
      split at h
      · cases h
      split at h
      · cases h
      cases h
      obtain ⟨l, e, hl⟩ := readUvarint_iff.1 hr
      have hn : (rest.take n).length = n := by rw [List.length_take]; omega
      exact ⟨l, rest.drop n, by rw [List.append_assoc, List.take_append_drop, e], by rw [hn]; exact hl, by rw [hn]; omega⟩
  · rintro ⟨l, rest, rfl, h1, h2⟩
    rw [List.append_assoc, readUvarint_varint h1]
    have e1 : ¬ (body.length ≥ 2 ^ 63 - 1) := by omega
    have e2 : ¬ (body.length > (l ++ (body ++ rest)).length) := by simp only [List.length_append]; omega
    have e3 : ¬ ((body ++ rest).length < body.length) := by simp only [List.length_append]; omega
    simp only [e1, e2, e3, if_false, List.take_left]

theorem decodeProposal_iff {p : CProposal} {bs : Bytes} : decodeProposal bs = some p ↔ Delimited (CProposalRead p) bs := by
  unfold decodeProposal Delimited
  rw [Option.bind_eq_some_iff]
  constructor
  · rintro ⟨body, h1, h2⟩
    obtain ⟨l, rest, e1, e2, e3⟩ := undelimit_iff.1 h1
    exact ⟨l, body, rest, e1, e2, e3, cproposalRead_iff.1 h2⟩
  · rintro ⟨l, body, rest, e1, e2, e3, h2⟩
    exact ⟨body, undelimit_iff.2 ⟨l, rest, e1, e2, e3⟩, cproposalRead_iff.2 h2⟩

theorem decodeVote_iff {v : CVote} {bs : Bytes} : decodeVote bs = some v ↔ Delimited (CVoteRead v) bs := by
  unfold decodeVote Delimited
  rw [Option.bind_eq_some_iff]
  constructor
  · rintro ⟨body, h1, h2⟩
    obtain ⟨l, rest, e1, e2, e3⟩ := undelimit_iff.1 h1
    exact ⟨l, body, rest, e1, e2, e3, cvoteRead_iff.1 h2⟩
  · rintro ⟨l, body, rest, e1, e2, e3, h2⟩
    exact ⟨body, undelimit_iff.2 ⟨l, rest, e1, e2, e3⟩, cvoteRead_iff.2 h2⟩

theorem nanosOf_iff {t : GoTime} {x : Int} : NanosOf t x ↔ t.unixNano = x := isI64_i64_eq

theorem noProposal_iff {bs : Bytes} : decodeProposal bs = none ↔ ¬ ∃ p, Delimited (CProposalRead p) bs := by
  cases h : decodeProposal bs with
  | none =>
    simp only [true_iff]
    rintro ⟨p, hp⟩
    rw [decodeProposal_iff.2 hp] at h
    cases h
  | some p =>
    simp only [reduceCtorEq, false_iff, Classical.not_not]
    exact ⟨p, decodeProposal_iff.1 h⟩

theorem noVote_iff {bs : Bytes} : decodeVote bs = none ↔ ¬ ∃ v, Delimited (CVoteRead v) bs := by
  cases h : decodeVote bs with
  | none =>
    simp only [true_iff]
    rintro ⟨p, hp⟩
    rw [decodeVote_iff.2 hp] at h
    cases h
  | some p =>
    simp only [reduceCtorEq, false_iff, Classical.not_not]
    exact ⟨p, decodeVote_iff.1 h⟩

/-- **C120** (`Serialization.go:28-44`). Sign bytes are taken to be for a height, round, step and time iff they are read so. -/
theorem C120_signBytes (k : HRST) (bs : Bytes) : unpackHRST bs = .ok k ↔ SignBytesRead k bs := by
  unfold unpackHRST SignBytesRead
  constructor
  · intro h
    cases hp : decodeProposal bs with
    | some p =>
      rw [hp] at h
      cases h
      exact .inl ⟨rfl, p, decodeProposal_iff.1 hp, rfl, rfl, nanosOf_iff.2 rfl⟩
    | none =>
      rw [hp] at h
      simp only at h
      cases hv : decodeVote bs with
      | none => rw [hv] at h; cases h
      | some v =>
        rw [hv] at h
        simp only [voteTypeToStep] at h
        refine .inr ⟨noProposal_iff.1 hp, v, decodeVote_iff.1 hv, ?_⟩
        by_cases h1 : v.type = 1
        · rw [if_pos h1] at h
          cases h
          exact ⟨.inl ⟨h1, rfl⟩, rfl, rfl, nanosOf_iff.2 rfl⟩
        · rw [if_neg h1] at h
          by_cases h2 : v.type = 2
          · rw [if_pos h2] at h
            cases h
            exact ⟨.inr ⟨h2, rfl⟩, rfl, rfl, nanosOf_iff.2 rfl⟩
          · rw [if_neg h2] at h
            cases h
  · rintro (⟨h0, p, hp, h1, h2, h3⟩ | ⟨hn, v, hv, h0, h1, h2, h3⟩)
    · rw [decodeProposal_iff.2 hp]
      obtain ⟨h, r, s, t⟩ := k
      simp only at h0 h1 h2 h3
      rw [h0, h1, h2, ← nanosOf_iff.1 h3]
      rfl
    · rw [noProposal_iff.2 hn, decodeVote_iff.2 hv]
      obtain ⟨h, r, s, t⟩ := k
      simp only at h0 h1 h2 h3
      rw [h1, h2, ← nanosOf_iff.1 h3]
      rcases h0 with ⟨e, rfl⟩ | ⟨e, rfl⟩ <;> simp only [voteTypeToStep, e] <;> rfl

/-- **C120** (`Serialization.go:28-44`, `sign_state.go:26-35`). They crash the process iff they are read as a vote, not as a
proposal, and the vote is neither a prevote nor a precommit. -/
theorem C120_crash (bs : Bytes) : unpackHRST bs = .panic ↔
    (¬ ∃ p, Delimited (CProposalRead p) bs) ∧ ∃ v, Delimited (CVoteRead v) bs ∧ v.type ≠ 1 ∧ v.type ≠ 2 := by
  unfold unpackHRST
  constructor
  · intro h
    cases hp : decodeProposal bs with
    | some p => rw [hp] at h; cases h
    | none =>
      rw [hp] at h
      simp only at h
      cases hv : decodeVote bs with
      | none => rw [hv] at h; cases h
      | some v =>
        rw [hv] at h
        simp only [voteTypeToStep] at h
        refine ⟨noProposal_iff.1 hp, v, decodeVote_iff.1 hv, ?_⟩
        by_cases h1 : v.type = 1
        · rw [if_pos h1] at h; cases h
        · rw [if_neg h1] at h
          by_cases h2 : v.type = 2
          · rw [if_pos h2] at h; cases h
          · exact ⟨h1, h2⟩
  · rintro ⟨hn, v, hv, h1, h2⟩
    rw [noProposal_iff.2 hn, decodeVote_iff.2 hv]
    simp only [voteTypeToStep, h1, h2, if_false]

/-- **C120** (`Serialization.go:28-44`). They are refused with an error iff they are read neither as a proposal nor as a vote. -/
theorem C120_refused (bs : Bytes) : (∃ e, unpackHRST bs = .err e) ↔
    (¬ ∃ p, Delimited (CProposalRead p) bs) ∧ ¬ ∃ v, Delimited (CVoteRead v) bs := by
  unfold unpackHRST
  constructor
  · rintro ⟨e, h⟩
    cases hp : decodeProposal bs with
    | some p => rw [hp] at h; cases h
    | none =>
      rw [hp] at h
      simp only at h
      cases hv : decodeVote bs with
      | none => exact ⟨noProposal_iff.1 hp, noVote_iff.1 hv⟩
      | some v =>
        rw [hv] at h
        simp only [voteTypeToStep] at h
        by_cases h1 : v.type = 1
        · rw [if_pos h1] at h; cases h
        · rw [if_neg h1] at h
          by_cases h2 : v.type = 2
          · rw [if_pos h2] at h; cases h
          · rw [if_neg h2] at h; cases h
  · rintro ⟨h1, h2⟩
    rw [noProposal_iff.2 h1, noVote_iff.2 h2]
    exact ⟨_, rfl⟩

/-- **C120** (`local_cosigner.go:118-187`). A cosigner gives a signature only for bytes that are read as a proposal, a prevote or
a precommit. -/
theorem C120_signed (C : Crypto) (cfg : CosignerCfg) (s : CState) (bs : Bytes) (r : SignRes)
    (h : (sign C cfg s bs).1 = .ok r) : ∃ k, SignBytesRead k bs := by
  unfold sign at h
  cases hu : unpackHRST bs with
  | panic => rw [hu] at h; cases h
  | err e => rw [hu] at h; cases h
  | ok k => exact ⟨k, (C120_signBytes k bs).1 hu⟩

/-- **C120** (`Serialization.go:12-18`). A message is read from a stream iff the stream begins with the length of a message of at
most 10240 bytes, followed by it; what is left is what comes after it. -/
theorem C120_request (m : PMsg) (stream rest : Bytes) : readMsg stream = some (m, rest) ↔
    ∃ l body : Bytes, stream = l ++ body ++ rest ∧ Varint64 body.length l ∧ body.length ≤ 10240 ∧ MessageRead m body := by
  unfold readMsg
  constructor
  · intro h
    cases hr : readUvarint stream with
    | none => rw [hr] at h; cases h
    | some p =>
      obtain ⟨n, r⟩ := p
      rw [hr] at h
      simp only at h
      split at h
      · cases h
      split at h
      · cases h
      next hmax _ =>
      have hmax : ¬ (n > 10240) := hmax
      obtain ⟨m', h1, h2⟩ := Option.map_eq_some_iff.1 h
      cases h2
      obtain ⟨l, e, hl⟩ := readUvarint_iff.1 hr
      have hn : (r.take n).length = n := by rw [List.length_take]; omega
      exact ⟨l, r.take n, by rw [List.append_assoc, List.take_append_drop, e], by rw [hn]; exact hl, by rw [hn]; omega,
        messageRead_iff.1 h1⟩
  · rintro ⟨l, body, rfl, h1, h2, h3⟩
    rw [List.append_assoc, readUvarint_varint h1]
    have e1 : ¬ (body.length > maxRemoteSignerMsgSize) := by unfold maxRemoteSignerMsgSize; omega
    have e3 : ¬ ((body ++ rest).length < body.length) := by simp only [List.length_append]; omega
    simp only [e1, e3, if_false, List.take_left, List.drop_left, messageRead_iff.2 h3, Option.map_some]

/-- **C120**. A message is read in one way only. -/
theorem C120_one {m m' : PMsg} {bs : Bytes} (h : MessageRead m bs) (h' : MessageRead m' bs) : m = m' :=
  Option.some.inj ((messageRead_iff.2 h).symm.trans (messageRead_iff.2 h'))

/-- **C120**. Sign bytes are read in one way only. -/
theorem C120_oneUse {k k' : HRST} {bs : Bytes} (h : SignBytesRead k bs) (h' : SignBytesRead k' bs) : k = k' := by
  have := ((C120_signBytes k bs).2 h).symm.trans ((C120_signBytes k' bs).2 h')
  cases this
  rfl

mutual
theorem field_skipped {num : Nat} {f : Bytes} (h : Field num f) : ∃ wt t v, f = t ++ v ∧ LooseTag num wt t ∧ Skipped wt v := by
  match h with
  | .varint (t := t) (x := x) ht hx => exact ⟨0, t, x, rfl, looseTag_of ht (by omega), .varint (loose_of hx)⟩
  | .fixed64 (t := t) (x := x) ht hx => exact ⟨1, t, x, rfl, looseTag_of ht (by omega), .fixed64 hx⟩
  | .bytes (t := t) (l := l) (x := x) ht hl =>
    exact ⟨2, t, l ++ x, by rw [List.append_assoc], looseTag_of ht (by omega), .bytes (loose_of hl)⟩
  | .group (t := t) (x := x) (t' := t') ht hx ht' =>
    exact ⟨3, t, x ++ t', by rw [List.append_assoc], looseTag_of ht (by omega), .group (fields_skipped hx) (looseTag_some (looseTag_of ht' (by omega)))⟩
  | .fixed32 (t := t) (x := x) ht hx => exact ⟨5, t, x, rfl, looseTag_of ht (by omega), .fixed32 hx⟩
theorem fields_skipped {x : Bytes} (h : Fields x) : SkippedFields x := by
  match h with
  | .nil => exact .nil
  | .cons hf hfs =>
    obtain ⟨wt, t, v, rfl, ht, hv⟩ := field_skipped hf
    exact .cons (looseTag_some ht) hv (fields_skipped hfs)
end

/-- The same field. -/
def Spec.FVal.toG : FVal → GVal
  | .num n v => .num n v
  | .bytes n x => .bytes n x

/-- **C120**. Every encoding that protobuf allows is read as what it says. -/
theorem C120_allowed {ns ls : List Nat} {fs : List FVal} {bs : Bytes} (h : Encodes ns ls fs bs) :
    FieldsRead ⟨ns, [], ls⟩ (fs.map (·.toG)) bs := by
  induction h with
  | nil => exact .nil
  | num hn ht hx _ ih => exact .num hn (looseTag_of ht (by omega)) (loose_of hx) ih
  | bytes hn ht hl _ ih =>
    have := FieldsRead.bytes (k := ⟨ns, [], ls⟩) hn (looseTag_of ht (by omega)) (loose_of hl) ih
    rw [← List.append_assoc] at this
    exact this
  | other hn hf _ ih =>
    obtain ⟨wt, t, v, rfl, ht, hv⟩ := field_skipped hf
    exact .other ⟨hn.1, by simp, hn.2⟩ ht hv ih

/-- A prevote at height 5 and round 2. The number of its first field is given as 2^32+1, the height twice, in the second field,
and an unknown group holds a field with the number 0 and ends with the number of another group. -/
def looseVote : Bytes :=
  let body : Bytes := [0x88, 0x80, 0x80, 0x80, 0x80, 0x01, 1] ++ [0x11, 9, 0, 0, 0, 0, 0, 0, 0] ++ [0x11, 5, 0, 0, 0, 0, 0, 0, 0] ++
    [0x19, 2, 0, 0, 0, 0, 0, 0, 0] ++ [0x7b, 0x00, 7, 0x44] ++ [0x2a, 3, 0x08, 0x81, 0x00]
  [UInt8.ofNat body.length] ++ body ++ [1, 2, 3]

example : unpackHRST looseVote = .ok ⟨5, 2, 2, 1000000000⟩ := by decide +kernel
example : SignBytesRead ⟨5, 2, 2, 1000000000⟩ looseVote := (C120_signBytes _ _).1 (by decide +kernel)

/-- Bytes in the field that is a number in a proposal and the block ID in a vote: a vote of type 0. -/
example : (¬ ∃ p, Delimited (CProposalRead p) [2, 0x22, 0]) ∧ ∃ v, Delimited (CVoteRead v) [2, 0x22, 0] ∧ v.type ≠ 1 ∧ v.type ≠ 2 :=
  (C120_crash _).1 (by decide +kernel)

/-- A length without the bytes. -/
example : (¬ ∃ p, Delimited (CProposalRead p) [2, 0x22]) ∧ ¬ ∃ v, Delimited (CVoteRead v) [2, 0x22] :=
  (C120_refused _).1 ⟨.couldNotUnpack, by decide +kernel⟩

/-- A request for the key and a ping in one message: a ping. -/
example : ∃ l body : Bytes, ([5, 0x0a, 0x00, 0xba, 0x00, 0x00, 9] : Bytes) = l ++ body ++ [9] ∧ Varint64 body.length l ∧
    body.length ≤ 10240 ∧ MessageRead .pingRequest body :=
  (C120_request _ _ _).1 (by decide +kernel)

/-- **C120**. Other byte strings are read as well: they need not even be fields of protobuf. -/
theorem C120_loose : ∃ bs k, unpackHRST bs = .ok k ∧ ¬ Delimited Fields bs := by
  refine ⟨looseVote, ⟨5, 2, 2, 1000000000⟩, by decide +kernel, ?_⟩
  rintro ⟨l, body, rest, e1, e2, e3, hf⟩
  have hu := undelimit_iff.2 ⟨l, rest, e1, e2, e3⟩
  cases hf with
  | nil =>
    have : (undelimit looseVote).map List.length = some 43 := by decide +kernel
    rw [hu] at this
    simp at this
  | @cons num f fs hf _ =>
    have key : ((undelimit looseVote).bind fun b => (readVarint b).map Prod.fst) = some (2 ^ 35 + 8) := by decide +kernel
    rw [hu] at key
    obtain ⟨wt, t, v, rfl, hw, ht⟩ : ∃ wt t v, f = t ++ v ∧ wt < 8 ∧ Tag num wt t := by
      match hf with
      | .varint ht _ => exact ⟨0, _, _, rfl, by omega, ht⟩
      | .fixed64 ht _ => exact ⟨1, _, _, rfl, by omega, ht⟩
      | .bytes ht _ => exact ⟨2, _, _, List.append_assoc _ _ _, by omega, ht⟩
      | .group ht _ _ => exact ⟨3, _, _, List.append_assoc _ _ _, by omega, ht⟩
      | .fixed32 ht _ => exact ⟨5, _, _, rfl, by omega, ht⟩
    rw [Option.bind_some, List.append_assoc, tag_read ht] at key
    simp only [Option.map_some, Option.some.injEq] at key
    have := ht.2.1
    omega

/-- **C05** (`sign_state.go:296-358`). The check on byte strings: both are read as the kind of message of the step, and they agree
but for the time. -/
theorem C05_bytes (step : Int) (last new : Bytes) : onlyDifferByTimestamp step last new = none ↔
    (step = 1 ∧ ∃ p q : CProposal, Delimited (CProposalRead p) last ∧ Delimited (CProposalRead q) new ∧
      p.type = q.type ∧ p.height = q.height ∧ p.round = q.round ∧ p.polRound = q.polRound ∧
      p.blockID = q.blockID ∧ p.chainID = q.chainID) ∨
    ((step = 2 ∨ step = 3) ∧ ∃ p q : CVote, Delimited (CVoteRead p) last ∧ Delimited (CVoteRead q) new ∧
      p.type = q.type ∧ p.height = q.height ∧ p.round = q.round ∧ p.blockID = q.blockID ∧ p.chainID = q.chainID) := by
  simp only [← decodeProposal_iff, ← decodeVote_iff]
  exact C05_only_differ step last new

/-! ### Keys -/

theorem pubKeyRead_iff {p : PPubKey} {bs : Bytes} : decodePubKey bs = some p ↔ PubKeyRead p bs := by
  unfold decodePubKey PubKeyRead
  have amino : ∀ k, aminoPubKey bs = some k ↔ ∃ l, bs = [0x16, 0x24, 0xDE, 0x64] ++ l ++ k ∧ LooseVarint k.length l := by
    intro k
    constructor
    · intro h
      unfold aminoPubKey at h
      split at h
      · next rest =>
        split at h
        · next n rest' hr =>
          split at h
          · next hn =>
            cases h
            obtain ⟨l, rfl, hl⟩ := readVarint_iff.1 hr
            exact ⟨l, rfl, by rw [hn]; exact hl⟩
          · cases h
        · cases h
      · cases h
    · rintro ⟨l, rfl, hl⟩
      simp only [aminoPubKey, List.cons_append, List.nil_append, readVarint_loose hl, if_true]
  have noAmino : ∀ k l : Bytes, decodeMsg ppubKeyHandler .unset ([0x16, 0x24, 0xDE, 0x64] ++ l ++ k) = none := by
    intro k l
    have hv : ∀ l, readVarint (0x16 :: l) = some (0x16, l) := fun _ => rfl
    rw [decodeMsg, show ([0x16, 0x24, 0xDE, 0x64] ++ l ++ k : Bytes).length = ((l ++ k).length + 3) + 1 from by simp]
    simp only [List.cons_append, decodeLoop, hv, show i32 ((0x16 / 8 : Nat) : Int) = 2 from by decide,
      show (2 : Int).toNat = 2 from rfl, show ppubKeyHandler.wireType 2 = some 2 from rfl]
    rfl
  have said : ∀ q, decodeMsg ppubKeyHandler .unset bs = some q ↔ ∃ fs, FieldsRead pubKeyKinds fs bs ∧ SaysPubKey fs q := by
    intro q
    rw [decode_iff _ ppubKey_kind]
    constructor
    · rintro ⟨fs, h1, h2⟩; exact ⟨fs, h1, (saysPubKey_iff (reads_in h1)).1 h2⟩
    · rintro ⟨fs, h1, h2⟩; exact ⟨fs, h1, (saysPubKey_iff (reads_in h1)).2 h2⟩
  have sized : ∀ q, pubKeyFromProto q = some p ↔
      q = p ∧ ((∃ k, p = .ed25519 k ∧ k.length = 32) ∨ ∃ k, p = .secp256k1 k ∧ k.length = 33) := by
    intro q
    cases q with
    | unset =>
      simp only [pubKeyFromProto, reduceCtorEq, false_iff]
      rintro ⟨rfl, ⟨k, h, _⟩ | ⟨k, h, _⟩⟩ <;> cases h
    | ed25519 k =>
      simp only [pubKeyFromProto]
      constructor
      · intro h
        split at h
        · next hk => cases h; exact ⟨rfl, .inl ⟨k, rfl, hk⟩⟩
        · cases h
      · rintro ⟨rfl, ⟨k', h, hk⟩ | ⟨k', h, _⟩⟩ <;> cases h
        rw [if_pos hk]
    | secp256k1 k =>
      simp only [pubKeyFromProto]
      constructor
      · intro h
        split at h
        · next hk => cases h; exact ⟨rfl, .inr ⟨k, rfl, hk⟩⟩
        · cases h
      · rintro ⟨rfl, ⟨k', h, _⟩ | ⟨k', h, hk⟩⟩ <;> cases h
        rw [if_pos hk]
  constructor
  · intro h
    cases hd : decodeMsg ppubKeyHandler .unset bs with
    | none =>
      rw [hd] at h
      obtain ⟨k, h1, rfl⟩ := Option.map_eq_some_iff.1 h
      obtain ⟨l, h2, h3⟩ := (amino k).1 h1
      exact .inr ⟨l, k, rfl, h2, h3⟩
    | some q =>
      rw [hd] at h
      obtain ⟨rfl, h2⟩ := (sized q).1 h
      obtain ⟨fs, h3, h4⟩ := (said q).1 hd
      exact .inl ⟨fs, h3, h4, h2⟩
  · rintro (⟨fs, h1, h2, h3⟩ | ⟨l, k, rfl, h2, h3⟩)
    · rw [(said p).2 ⟨fs, h1, h2⟩]
      exact (sized p).2 ⟨rfl, h3⟩
    · have e := noAmino k l
      rw [← h2] at e
      rw [e]
      exact Option.map_eq_some_iff.2 ⟨k, (amino k).2 ⟨l, h2, h3⟩, rfl⟩

/-- **C80** (`cosigner_key.go:59-134`). Of the files in which no name is twice, exactly the texts of a key share are loaded whose
public key and RSA keys are read so. -/
theorem C80_exact (R : RSACodec) (bs : Bytes) (k : KeyFile) (h2 : NoneTwice bs) : loadKey R bs = .ok k ↔
    ∃ r, KeyText r bs ∧ Decoded R r k ∧ PubKeyRead k.pubKey r.pubKey.bytes := by
  constructor
  · intro h
    obtain ⟨r, h3, h4⟩ := C80_accepted_partial R bs k h h2
    rw [loadKey_text h3] at h
    exact ⟨r, h3, h4, pubKeyRead_iff.1 (finishKey_iff.1 h).2⟩
  · rintro ⟨r, h3, h4, h5⟩
    rw [loadKey_text h3]
    exact finishKey_iff.2 ⟨h4, pubKeyRead_iff.2 h5⟩

/-- A text of a key share has no name twice. -/
theorem keyText_noneTwice {r : RawKey} {bs : Bytes} (h : KeyText r bs) : NoneTwice bs := by
  obtain ⟨hj, n1, _, n2, _, n3, _, n4, _, n5, _⟩ := h
  intro l' hj' name hn vs hv
  have e := parseJson_iff.2 hj
  rw [parseJson_iff.2 hj'] at e
  cases e
  have key : ∀ l nm m, OneMember l nm m → (∀ c ∈ text nm, NameChar c) → Named nm l vs → vs.length ≤ 1 := fun _ nm m h1 ha h2 => by
    rw [← (named_iff ha).1 h2, (named_iff ha).1 h1]
    cases m <;> simp
  simp only [List.mem_cons, List.not_mem_nil, or_false] at hn
  rcases hn with rfl | rfl | rfl | rfl | rfl
  · exact key _ _ _ n1 (by decide +kernel) hv
  · exact key _ _ _ n2 (by decide +kernel) hv
  · exact key _ _ _ n3 (by decide +kernel) hv
  · exact key _ _ _ n4 (by decide +kernel) hv
  · exact key _ _ _ n5 (by decide +kernel) hv

example : ∃ r, KeyText r editedKey ∧ Decoded toyCodec r toyKeyFile ∧ PubKeyRead toyKeyFile.pubKey r.pubKey.bytes :=
  (C80_exact _ _ _ (keyText_noneTwice editedKey_text)).1 (C80_readable toyCodec editedKey editedRaw toyKeyFile editedKey_text
    ⟨by decide +kernel, by decide +kernel, rfl, rfl⟩ (.ed25519 (by decide)))

/-- Two keys in one message, the last counts; its length in two bytes. -/
example : PubKeyRead (.ed25519 (List.replicate 32 7)) ([0x12, 0x01, 0x05] ++ [0x0a, 0xa0, 0x00] ++ List.replicate 32 7) :=
  pubKeyRead_iff.1 (by decide +kernel)

/-- The amino encoding of a key of one byte. -/
example : PubKeyRead (.ed25519 [1]) [0x16, 0x24, 0xDE, 0x64, 1, 1] := pubKeyRead_iff.1 (by decide +kernel)

end Horcrux
