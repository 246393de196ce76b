import Verif.Lemmas.Unpack
/-
Properties C05–C09: sign bytes.
-/
namespace Horcrux
open Spec

/-! ### C05 -/

/-- C05: the re-sign check passes iff both byte strings decode as the message kind of the recorded step and the
decoded messages agree on every field except the timestamp. -/
theorem C05_only_differ (step : Int) (last new : Bytes) :
    onlyDifferByTimestamp step last new = none ↔
      (step = 1 ∧ ∃ p q, decodeProposal last = some p ∧ decodeProposal new = some q ∧
        p.type = q.type ∧ p.height = q.height ∧ p.round = q.round ∧ p.polRound = q.polRound ∧
        p.blockID = q.blockID ∧ p.chainID = q.chainID) ∨
      ((step = 2 ∨ step = 3) ∧ ∃ p q, decodeVote last = some p ∧ decodeVote new = some q ∧
        p.type = q.type ∧ p.height = q.height ∧ p.round = q.round ∧
        p.blockID = q.blockID ∧ p.chainID = q.chainID) :=
  onlyDiffer_iff step last new

/-- C05: steps other than propose, prevote and precommit are refused. -/
theorem C05_other_steps (step : Int) (h : step ≠ 1 ∧ step ≠ 2 ∧ step ≠ 3) (last new : Bytes) :
    onlyDifferByTimestamp step last new ≠ none := by
  rw [ne_eq, onlyDiffer_iff]
  rintro (⟨h1, _⟩ | ⟨h1 | h1, _⟩) <;> omega

/-- C05 on real sign bytes: for two votes of one kind the check passes iff the votes agree on everything that is
signed except the time. -/
theorem C05_votes (c c' : Bytes) (v v' : Vote) (bs bs' : Bytes) (hw : v.WF c) (hw' : v'.WF c')
    (h : voteSignBytes c v = .ok bs) (h' : voteSignBytes c' v' = .ok bs') (step : Int)
    (hs : step = 2 ∨ step = 3) :
    onlyDifferByTimestamp step bs bs' = none ↔
      v.type = v'.type ∧ v.height = v'.height ∧ v.round = v'.round ∧ v.blockID = v'.blockID ∧ c = c' := by
  rw [onlyDiffer_iff]
  obtain ⟨b, hb, hd⟩ := decodeVote_signBytes hw h
  obtain ⟨b', hb', hd'⟩ := decodeVote_signBytes hw' h'
  have hs1 : step ≠ 1 := by omega
  unfold DifferOnlyByTime
  simp only [hs1, hs, false_and, false_or, true_and, hd, hd', Option.some.injEq]
  constructor
  · rintro ⟨p, q, rfl, rfl, hh⟩
    unfold SameVoteExceptTime at hh
    simp only at hh
    obtain ⟨h1, h2, h3, h4, h5⟩ := hh
    subst h4
    exact ⟨h1, h2, h3, canonicalizeBlockID_inj hb hb', h5⟩
  · rintro ⟨h1, h2, h3, h4, h5⟩
    refine ⟨_, _, rfl, rfl, ?_⟩
    rw [h4, hb'] at hb
    simp only [Out.ok.injEq] at hb
    exact ⟨h1, h2, h3, hb.symm, h5⟩

/-- A sample vote used to show that hypotheses are satisfiable: a precommit for a block. -/
def sampleVote : Vote :=
  { type := 2, height := 7, round := 1, blockID := ⟨List.replicate 32 5, 1, List.replicate 32 6⟩,
    timestamp := ⟨1600000000, 5⟩, validatorAddress := [], validatorIndex := 0, signature := none }

/-- A sample proposal. -/
def sampleProposal : Proposal :=
  { type := 32, height := 7, round := 1, polRound := -1,
    blockID := ⟨List.replicate 32 5, 1, List.replicate 32 6⟩, timestamp := ⟨1600000000, 5⟩, signature := none }

theorem sampleVote_wf : sampleVote.WF [97] :=
  ⟨by decide, by decide, by decide, by decide, by decide⟩
theorem sampleProposal_wf : sampleProposal.WF [97] :=
  ⟨by decide, by decide, by decide, by decide, by decide⟩

/-- Two sample votes differing only in time pass; a different block does not. -/
example : ∃ b b', voteSignBytes [97] sampleVote = .ok b ∧
    voteSignBytes [97] { sampleVote with timestamp := ⟨1700000000, 0⟩ } = .ok b' ∧
    b ≠ b' ∧ onlyDifferByTimestamp 3 b b' = none := ⟨_, _, rfl, rfl, by decide +kernel, by decide +kernel⟩

/-- C05: which error a vote that conflicts with the recorded one is refused with: the nil vote after one for a block, the
vote for a block after a nil vote, another block hash, or anything else (part set header, height, round, type, chain). -/
theorem C05_vote_error (c c' : Bytes) (v v' : Vote) (bs bs' : Bytes) (hw : v.WF c) (hw' : v'.WF c')
    (h : voteSignBytes c v = .ok bs) (h' : voteSignBytes c' v' = .ok bs') (step : Int) (hs : step = 2 ∨ step = 3)
    (hne : ¬ (v.type = v'.type ∧ v.height = v'.height ∧ v.round = v'.round ∧ v.blockID = v'.blockID ∧ c = c')) :
    onlyDifferByTimestamp step bs bs' = some (
      if v'.blockID = ⟨[], 0, []⟩ ∧ v.blockID ≠ ⟨[], 0, []⟩ then .nilAfterNonNil
      else if v'.blockID ≠ ⟨[], 0, []⟩ ∧ v.blockID = ⟨[], 0, []⟩ then .nonNilAfterNil
      else if v.blockID.hash ≠ v'.blockID.hash then .differingBlockIDs
      else .conflictingData) := by
  have hn : onlyDifferByTimestamp step bs bs' ≠ none := fun e => hne ((C05_votes c c' v v' bs bs' hw hw' h h' step hs).1 e)
  obtain ⟨b, hb, hd⟩ := decodeVote_signBytes hw h
  obtain ⟨b', hb', hd'⟩ := decodeVote_signBytes hw' h'
  have hs1 : step ≠ 1 := by omega
  have nil_iff : ∀ {x : BlockID} {y : Option CBlockID}, canonicalizeBlockID x = .ok y →
      ((y = none ↔ x = ⟨[], 0, []⟩) ∧ (y.map (·.hash)).getD [] = x.hash) := by
    intro x y hx
    unfold canonicalizeBlockID at hx
    obtain ⟨xh, xt, xp⟩ := x
    split at hx
    · cases hx
    · split at hx
      · next hz =>
        cases hx
        obtain ⟨rfl, rfl, rfl⟩ := hz
        exact ⟨by simp, rfl⟩
      · next hz =>
        cases hx
        simp only at hz
        exact ⟨by simp; exact fun a b c => hz ⟨a, b, c⟩, rfl⟩
  obtain ⟨n1, e1⟩ := nil_iff hb
  obtain ⟨n2, e2⟩ := nil_iff hb'
  simp only [onlyDifferByTimestamp, stepPropose, stepPrevote, stepPrecommit, hs1, hs, if_true, if_false,
    checkVoteOnlyDifferByTimestamp, hd, hd'] at hn ⊢
  split at hn
  · exact absurd rfl hn
  · next hx =>
    rw [if_neg hx]
    simp only [ne_eq, n1, n2, e1, e2]
    split
    · rfl
    · split
      · rfl
      · split <;> rfl

/-- C05: a proposal that conflicts with the recorded one is refused as conflicting data. -/
theorem C05_proposal_error (c c' : Bytes) (p p' : Proposal) (bs bs' : Bytes) (hw : p.WF c) (hw' : p'.WF c')
    (h : proposalSignBytes c p = .ok bs) (h' : proposalSignBytes c' p' = .ok bs') :
    onlyDifferByTimestamp 1 bs bs' = none ∨ onlyDifferByTimestamp 1 bs bs' = some .conflictingData := by
  obtain ⟨b, hb, hd⟩ := decodeProposal_signBytes hw h
  obtain ⟨b', hb', hd'⟩ := decodeProposal_signBytes hw' h'
  simp only [onlyDifferByTimestamp, stepPropose, if_true, checkProposalOnlyDifferByTimestamp, hd, hd']
  split
  · exact .inl rfl
  · exact .inr rfl

/-- All four errors occur. -/
example : ∃ b n o p, voteSignBytes [97] sampleVote = .ok b ∧
    voteSignBytes [97] { sampleVote with blockID := ⟨[], 0, []⟩ } = .ok n ∧
    voteSignBytes [97] { sampleVote with blockID := ⟨List.replicate 32 8, 1, List.replicate 32 6⟩ } = .ok o ∧
    voteSignBytes [97] { sampleVote with blockID := ⟨List.replicate 32 5, 2, List.replicate 32 6⟩ } = .ok p ∧
    onlyDifferByTimestamp 3 b n = some .nilAfterNonNil ∧ onlyDifferByTimestamp 3 n b = some .nonNilAfterNil ∧
    onlyDifferByTimestamp 3 b o = some .differingBlockIDs ∧ onlyDifferByTimestamp 3 b p = some .conflictingData :=
  ⟨_, _, _, _, rfl, rfl, rfl, rfl, by decide +kernel, by decide +kernel, by decide +kernel, by decide +kernel⟩

/-! ### C06 -/

/-- C06 for proposals: the sign bytes of any proposal unpack to its own height, round, the propose step and its
time in Unix nanoseconds. -/
theorem C06_proposal (chainID : Bytes) (p : Proposal) (bs : Bytes) (hw : p.WF chainID)
    (h : proposalSignBytes chainID p = .ok bs) :
    unpackHRST bs = .ok ⟨p.height, p.round, 1, p.timestamp.unixNano⟩ := by
  obtain ⟨b, _, hd⟩ := decodeProposal_signBytes hw h
  unfold unpackHRST
  rw [hd]; rfl

/-- C06 for votes, partial: prevotes and precommits unpack to their own height, round, step and time, except the
votes of `Vote.MistakenForProposal` (nil vote, time exactly the Unix epoch, chain ID empty or itself a
protobuf timestamp). Missing: those votes, for which the claim is false (`C06_vote_fails`). -/
theorem C06_vote_partial (chainID : Bytes) (v : Vote) (bs : Bytes) (hw : v.WF chainID)
    (ht : v.type = 1 ∨ v.type = 2) (h : voteSignBytes chainID v = .ok bs)
    (hm : ¬ v.MistakenForProposal chainID) :
    unpackHRST bs = .ok ⟨v.height, v.round, if v.type = 1 then 2 else 3, v.timestamp.unixNano⟩ := by
  obtain ⟨b, _, hd⟩ := decodeVote_signBytes hw h
  have hn : decodeProposal bs = none := by
    by_cases hn : decodeProposal bs = none
    · exact hn
    · exact absurd ((decodeProposal_voteSignBytes hw h).1 hn) hm
  unfold unpackHRST
  rw [hn, hd]
  rcases ht with ht | ht <;> simp [ht, voteTypeToStep, stepPrevote, stepPrecommit]

/-- C06: the Unix-nanosecond value is the exact time for times representable in an `int64`
(the years 1678–2261). -/
theorem C06_unixNano (t : GoTime) (h : IsI64 (t.sec * 1000000000 + t.nsec)) :
    t.unixNano = t.sec * 1000000000 + t.nsec := i64_of_is h

/-- A nil precommit at the Unix epoch. -/
def epochNilVote : Vote :=
  { type := 2, height := 7, round := 1, blockID := ⟨[], 0, []⟩, timestamp := ⟨0, 0⟩,
    validatorAddress := [], validatorIndex := 0, signature := none }

/-- C06 (full statement for votes) is false: a nil precommit at the Unix epoch with an empty chain ID unpacks as a
proposal at Go's zero time. -/
theorem C06_vote_fails : ∃ (chainID : Bytes) (v : Vote) (bs : Bytes), v.WF chainID ∧
    (v.type = 1 ∨ v.type = 2) ∧ voteSignBytes chainID v = .ok bs ∧
    unpackHRST bs = .ok ⟨v.height, v.round, 1, -6795364578871345152⟩ :=
  ⟨[], epochNilVote, _, ⟨by decide, by decide, by decide, by decide, by decide⟩, .inr rfl, rfl,
    by decide +kernel⟩

example : ∃ bs, voteSignBytes [97] sampleVote = .ok bs ∧ ¬ sampleVote.MistakenForProposal [97] ∧
    unpackHRST bs = .ok ⟨7, 1, 3, 1600000000000000005⟩ :=
  ⟨_, rfl, by simp [Vote.MistakenForProposal, sampleVote], by decide +kernel⟩

/-! ### C07 -/

/-- C07: two votes with the same sign bytes agree on chain ID, type, height, round, block ID and timestamp. -/
theorem C07_vote (c c' : Bytes) (v v' : Vote) (bs : Bytes) (hw : v.WF c) (hw' : v'.WF c')
    (h : voteSignBytes c v = .ok bs) (h' : voteSignBytes c' v' = .ok bs) :
    c = c' ∧ v.type = v'.type ∧ v.height = v'.height ∧ v.round = v'.round ∧ v.blockID = v'.blockID ∧
    v.timestamp = v'.timestamp := by
  obtain ⟨b, hb, hd⟩ := decodeVote_signBytes hw h
  obtain ⟨b', hb', hd'⟩ := decodeVote_signBytes hw' h'
  rw [hd] at hd'
  simp only [Option.some.injEq, CVote.mk.injEq] at hd'
  obtain ⟨h1, h2, h3, h4, h5, h6⟩ := hd'
  subst h4
  exact ⟨h6, h1, h2, h3, canonicalizeBlockID_inj hb hb', h5⟩

/-- C07: two proposals with the same sign bytes agree on chain ID, height, round, POL round, block ID and time. -/
theorem C07_proposal (c c' : Bytes) (p p' : Proposal) (bs : Bytes) (hw : p.WF c) (hw' : p'.WF c')
    (h : proposalSignBytes c p = .ok bs) (h' : proposalSignBytes c' p' = .ok bs) :
    c = c' ∧ p.height = p'.height ∧ p.round = p'.round ∧ p.polRound = p'.polRound ∧ p.blockID = p'.blockID ∧
    p.timestamp = p'.timestamp := by
  obtain ⟨b, hb, hd⟩ := decodeProposal_signBytes hw h
  obtain ⟨b', hb', hd'⟩ := decodeProposal_signBytes hw' h'
  rw [hd] at hd'
  simp only [Option.some.injEq, CProposal.mk.injEq] at hd'
  obtain ⟨_, h1, h2, h3, h4, h5, h6⟩ := hd'
  subst h4
  exact ⟨h6, h1, h2, h3, canonicalizeBlockID_inj hb hb', h5⟩

/-- C07: a vote, of whatever type, never has the sign bytes of a proposal. -/
theorem C07_vote_ne_proposal (c c' : Bytes) (v : Vote) (p : Proposal) (bs bs' : Bytes) (hw : v.WF c)
    (hw' : p.WF c') (h : voteSignBytes c v = .ok bs) (h' : proposalSignBytes c' p = .ok bs') : bs ≠ bs' := by
  rintro rfl
  obtain ⟨b, hb, rfl, hwf, hl⟩ := voteSignBytes_ok hw h
  obtain ⟨b', hb', hd'⟩ := decodeProposal_signBytes hw' h'
  rw [decodeProposal_encVote _ hwf hl] at hd'
  split at hd'
  · simp only [Option.map_eq_some_iff, CProposal.mk.injEq] at hd'
    obtain ⟨_, _, _, _, _, _, h1, _⟩ := hd'
    rw [← h1] at hb'
    unfold canonicalizeBlockID at hb'
    split at hb'
    · cases hb'
    · split at hb'
      · cases hb'
      · next hne =>
        simp only [Out.ok.injEq, Option.some.injEq, CBlockID.mk.injEq, CPSH.mk.injEq] at hb'
        exact hne ⟨hb'.1, by omega, hb'.2.2⟩
  · simp at hd'

example : voteSignBytes [97] sampleVote ≠ voteSignBytes [97] { sampleVote with round := 2 } := by
  decide +kernel

/-- A vote with the type of a proposal. -/
example : ∃ bs, voteSignBytes [97] { sampleVote with type := 32 } = .ok bs := ⟨_, rfl⟩

/-! ### C08 -/

/-- C08, partial: exactly which votes are taken for proposals. Missing from the full claim "never": the votes of
`Vote.MistakenForProposal`, for which it is false (`C08_fails`). -/
theorem C08_partial (chainID : Bytes) (v : Vote) (bs : Bytes) (hw : v.WF chainID)
    (ht : v.type = 1 ∨ v.type = 2) (h : voteSignBytes chainID v = .ok bs) :
    (∃ k, unpackHRST bs = .ok k ∧ k.step = 1) ↔ v.MistakenForProposal chainID := by
  constructor
  · rintro ⟨k, hk, hs⟩
    by_cases hm : v.MistakenForProposal chainID
    · exact hm
    · rw [C06_vote_partial chainID v bs hw ht h hm] at hk
      simp only [Out.ok.injEq] at hk
      subst hk
      rcases ht with ht | ht <;> simp [ht] at hs
  · intro hm
    have := (decodeProposal_voteSignBytes hw h).2 hm
    unfold unpackHRST
    cases hd : decodeProposal bs with
    | none => exact absurd hd this
    | some p => exact ⟨_, rfl, rfl⟩

/-- C06 for votes, exactly: a prevote or precommit unpacks to its own height, round, step and time just if it is not one of
the votes of `Vote.MistakenForProposal`. -/
theorem C06_vote_exact (chainID : Bytes) (v : Vote) (bs : Bytes) (hw : v.WF chainID)
    (ht : v.type = 1 ∨ v.type = 2) (h : voteSignBytes chainID v = .ok bs) :
    unpackHRST bs = .ok ⟨v.height, v.round, if v.type = 1 then 2 else 3, v.timestamp.unixNano⟩ ↔
      ¬ v.MistakenForProposal chainID := by
  refine ⟨fun hk hm => ?_, C06_vote_partial chainID v bs hw ht h⟩
  obtain ⟨k, h1, h2⟩ := (C08_partial chainID v bs hw ht h).2 hm
  rw [hk] at h1
  simp only [Out.ok.injEq] at h1
  subst h1
  rcases ht with ht | ht <;> simp [ht] at h2

example : epochNilVote.MistakenForProposal [] ∧ ∃ bs, voteSignBytes [] epochNilVote = .ok bs :=
  ⟨⟨rfl, rfl, by decide +kernel⟩, _, rfl⟩

/-- C08, the safe side: no vote for a block, no vote at a time other than the Unix epoch, is taken for a proposal. -/
theorem C08_block_vote_partial (chainID : Bytes) (v : Vote) (bs : Bytes) (hw : v.WF chainID)
    (ht : v.type = 1 ∨ v.type = 2) (h : voteSignBytes chainID v = .ok bs)
    (hb : v.blockID ≠ ⟨[], 0, []⟩ ∨ v.timestamp ≠ ⟨0, 0⟩) :
    ∃ k, unpackHRST bs = .ok k ∧ k.step ≠ 1 := by
  have hm : ¬ v.MistakenForProposal chainID := by
    rintro ⟨h1, h2, _⟩; rcases hb with hb | hb <;> contradiction
  refine ⟨_, C06_vote_partial chainID v bs hw ht h hm, ?_⟩
  rcases ht with ht | ht <;> simp [ht]

/-- C08 (vice versa): no proposal is taken for a vote. -/
theorem C08_proposal (chainID : Bytes) (p : Proposal) (bs : Bytes) (hw : p.WF chainID)
    (h : proposalSignBytes chainID p = .ok bs) : ∀ k, unpackHRST bs = .ok k → k.step = 1 := by
  intro k hk
  rw [C06_proposal chainID p bs hw h] at hk
  simp only [Out.ok.injEq] at hk
  rw [← hk]

/-- C08 (full statement) is false, also for a non-empty chain ID: the chain ID "a12345678" is also a protobuf
timestamp (an unknown fixed64 field). -/
theorem C08_fails : ∃ (chainID : Bytes) (v : Vote) (bs : Bytes), chainID = "a12345678".toUTF8.toList ∧
    v.WF chainID ∧ (v.type = 1 ∨ v.type = 2) ∧ voteSignBytes chainID v = .ok bs ∧
    ∃ k, unpackHRST bs = .ok k ∧ k.step = 1 :=
  ⟨[97, 49, 50, 51, 52, 53, 54, 55, 56], epochNilVote, _, by decide +kernel,
    ⟨by decide, by decide, by decide, by decide, by decide⟩, .inr rfl, rfl,
    ⟨7, 1, 1, 0⟩, by decide +kernel, rfl⟩

/-! ### C09, decoding part (the cosigner part is in `Verif.Props.Cosigner`) -/

/-- C09, partial: unpacking arbitrary bytes aborts the process exactly when they are no proposal but a vote whose
type is neither prevote nor precommit. Missing from the full claim: that case, for which it is
false (`C09_unpack_fails`). -/
theorem C09_unpack_partial (bs : Bytes) :
    unpackHRST bs = .panic ↔
      decodeProposal bs = none ∧ ∃ v, decodeVote bs = some v ∧ v.type ≠ 1 ∧ v.type ≠ 2 := by
  unfold unpackHRST
  cases hp : decodeProposal bs with
  | some p => simp
  | none =>
    cases hv : decodeVote bs with
    | none => simp
    | some v =>
      simp only [voteTypeToStep, Option.some.injEq, true_and]
      by_cases h1 : v.type = 1
      · simp [h1]
      · by_cases h2 : v.type = 2
        · simp [h2]
        · simp [h1, h2]

/-- C09 (full statement) is false: these three bytes (a vote of type 0 with an empty block ID) abort the process. -/
theorem C09_unpack_fails : unpackHRST [2, 34, 0] = .panic := by
  decide +kernel

end Horcrux
