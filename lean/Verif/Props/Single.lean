import Verif.Spec.Single
import Verif.Props.FilePV
import Verif.Props.NoConflict
/-
Property C113: what chain nodes get from a single signer.
-/
namespace Horcrux
open Spec

/-! ### One iteration -/

theorem readIn_replicate (n : Nat) (as : List Act) : readIn (List.replicate n .dialFailed ++ as) = readIn as := by
  induction n with
  | zero => rfl
  | succ n ih => rw [List.replicate_succ]; exact ih

/-- An iteration that writes has read a message, and writes the reply to it. -/
theorem iter_write {text : Err → Bytes} {i : Iter} {l : Loop} {out : Bytes} (hw : Act.write out ∈ (loopIter text i l).1) :
    ∃ stream rest m r, readMsg stream = some (m, rest) ∧ readIn (loopIter text i l).1 = some m ∧
      handleRequest text i.pv m = some r ∧ out = writeMsg r := by
  cases l with
  | stopped => simp [loopIter] at hw
  | crashed => simp [loopIter] at hw
  | live conn =>
    have main : ∀ stream, Act.write out ∈ (servePhase text i stream).1 → ∃ rest m r, readMsg stream = some (m, rest) ∧
        readIn (servePhase text i stream).1 = some m ∧ handleRequest text i.pv m = some r ∧ out = writeMsg r := by
      intro stream hw
      unfold servePhase at hw ⊢
      cases hm : readMsg stream with
      | none => rw [hm] at hw; simp at hw
      | some mr =>
        obtain ⟨m, rest⟩ := mr
        rw [hm] at hw
        simp only at hw ⊢
        cases hh : handleRequest text i.pv m with
        | none => rw [hh] at hw; simp at hw
        | some r =>
          rw [hh] at hw
          simp only at hw ⊢
          refine ⟨rest, m, r, rfl, ?_, hh, ?_⟩
          · split <;> rfl
          · split at hw <;> simpa using hw
    unfold loopIter at hw ⊢
    simp only at hw ⊢
    by_cases h1 : i.running = true
    · simp only [h1, if_true] at hw ⊢
      by_cases h2 : i.stillRunning = true
      · simp only [h2, if_true] at hw ⊢
        cases conn with
        | some s =>
          simp only [dialPhase, List.nil_append] at hw ⊢
          obtain ⟨rest, m, r, h⟩ := main _ hw
          exact ⟨_, rest, m, r, h⟩
        | none =>
          simp only [dialPhase] at hw ⊢
          have hw' : Act.write out ∈ (servePhase text i i.stream).1 := by
            simpa using hw
          obtain ⟨rest, m, r, g1, g2, g3⟩ := main _ hw'
          refine ⟨_, rest, m, r, g1, ?_, g3⟩
          rw [List.append_assoc, readIn_replicate]
          exact g2
      · simp only [h2] at hw
        cases conn <;> simp [dialPhase] at hw
    · simp only [h1] at hw
      cases conn <;> simp [closeConn] at hw

/-- What an iteration has read came from a stream. -/
theorem iter_read {text : Err → Bytes} {i : Iter} {l : Loop} {m : PMsg} (h : readIn (loopIter text i l).1 = some m) :
    ∃ stream rest, readMsg stream = some (m, rest) := by
  have main : ∀ stream, readIn (servePhase text i stream).1 = some m → ∃ rest, readMsg stream = some (m, rest) := by
    intro stream h
    unfold servePhase at h
    cases hm : readMsg stream with
    | none => rw [hm] at h; simp [readIn] at h
    | some mr =>
      obtain ⟨m', rest⟩ := mr
      rw [hm] at h
      simp only at h
      cases hh : handleRequest text i.pv m' with
      | none =>
        rw [hh] at h
        simp only [readIn, Option.some.injEq] at h
        exact ⟨rest, by rw [h]⟩
      | some r =>
        rw [hh] at h
        simp only at h
        refine ⟨rest, ?_⟩
        split at h <;> (simp only [readIn, Option.some.injEq] at h; rw [h])
  cases l with
  | stopped => simp [loopIter, readIn] at h
  | crashed => simp [loopIter, readIn] at h
  | live conn =>
    unfold loopIter at h
    simp only at h
    by_cases h1 : i.running = true
    · simp only [h1, if_true] at h
      by_cases h2 : i.stillRunning = true
      · simp only [h2, if_true] at h
        cases conn with
        | some s => exact ⟨_, main _ h⟩
        | none =>
          simp only [dialPhase, List.append_assoc, readIn_replicate] at h
          exact ⟨_, main _ h⟩
      · simp only [h2] at h
        cases conn with
        | some s => simp [dialPhase, readIn] at h
        | none => simp [dialPhase, readIn_replicate, readIn] at h
    · simp only [h1] at h
      cases conn <;> simp [closeConn, readIn] at h

/-! ### The validator -/

/-- The validator holds the bytes and signature of a message. -/
def Holds (chainID : Bytes) (sigOf : Bytes → Bytes) (s : FilePV) : Prop :=
  ∀ bs, s.lss.signBytes = some bs → ∃ m, SignedMsg chainID m s.lss.hrs bs (sigOf bs) ∧ s.lss.signature = some (sigOf bs)

theorem voteStep {t st : Int} (h : voteTypeToStep t = .ok st) : (t = 1 ∨ t = 2) ∧ st = if t = 1 then 2 else 3 := by
  unfold voteTypeToStep at h
  split at h
  · next h1 => simp only [Out.ok.injEq] at h; subst h; exact ⟨.inl h1, by rw [if_pos h1]; rfl⟩
  · next h1 =>
    split at h
    · next h2 => simp only [Out.ok.injEq] at h; subst h; exact ⟨.inr h2, by rw [if_neg h1]; rfl⟩
    · cases h

theorem singleBlock_ok {s : FilePV} {h r : Int} {step : Out Int} {sb : Out Bytes} {t : GoTime} {b : Block}
    (hb : singleBlock s h r step sb t = .ok b) :
    ∃ st, step = .ok st ∧ sb = .ok b.signBytes ∧ b.hrs = ⟨h, r, st⟩ := by
  unfold singleBlock at hb
  cases step with
  | err e => cases hb
  | panic => cases hb
  | ok st =>
    simp only at hb
    generalize s.lss.checkHRS ⟨h, r, st, 0⟩ = c at hb
    cases c with
    | err e => cases hb
    | panic => cases hb
    | ok x =>
      cases sb with
      | err e => cases hb
      | panic => cases hb
      | ok bs => simp only [Out.ok.injEq] at hb; subst hb; exact ⟨st, rfl, rfl, rfl⟩

/-- The cases of an answer, with the reason why an old answer is given. -/
theorem filePV_sign_why {sigOf : Bytes → Bytes} {s : FilePV} {b : Block} {bs : Bytes} {sig : Slice}
    (h : (s.sign sigOf b).1 = .ok (bs, sig)) :
    (b.hrs = s.lss.hrs ∧ s.lss.signBytes = some bs ∧ s.lss.signature = sig ∧
      (bs = b.signBytes ∨ DifferOnlyByTime s.lss.step bs b.signBytes)) ∨
    (s.lss.hrs ≺ b.hrs ∧ bs = b.signBytes ∧ sig = some (sigOf b.signBytes)) := by
  rcases filePV_sign_ok h with ⟨h1, h2, h3, _⟩ | ⟨h1, h2, h3, _⟩
  · refine .inl ⟨h1, h2, h3, ?_⟩
    have e : s.lss.signBytes.bytes = bs := by rw [h2]; rfl
    unfold FilePV.sign at h
    generalize hck : s.lss.checkHRS ⟨b.height, b.round, b.step, 0⟩ = c at h
    cases c with
    | panic => cases h
    | err e => cases h
    | ok t =>
      cases t with
      | false => simp only [Out.ok.injEq, Prod.mk.injEq] at h; exact .inl h.1.symm
      | true =>
        simp only at h
        split at h
        · simp only [Out.ok.injEq, Prod.mk.injEq] at h; exact .inl h.1.symm
        · generalize ho : onlyDifferByTimestamp s.lss.step s.lss.signBytes.bytes b.signBytes = o at h
          cases o with
          | none => rw [e] at ho; exact .inr ((onlyDiffer_iff _ _ _).1 ho)
          | some e => cases h
  · exact .inr ⟨h1, h2, h3⟩

/-- A vote with the time of bytes that differ from its own only by time has these bytes. -/
theorem vote_retimed {chainID : Bytes} {v w : Vote} {bs bs' : Bytes} {st : Int} (hw : v.WF chainID) (hw' : w.WF chainID)
    (hb : voteSignBytes chainID v = .ok bs) (hb' : voteSignBytes chainID w = .ok bs') (hst : st ≠ 1)
    (hd : DifferOnlyByTime st bs' bs) :
    voteSignBytes chainID { v with timestamp := w.timestamp } = .ok bs' ∧
      ((decodeVote bs').map (·.timestamp)).getD v.timestamp = w.timestamp := by
  obtain ⟨cb, hcb, hdv⟩ := decodeVote_signBytes hw hb
  obtain ⟨cb', hcb', hdw⟩ := decodeVote_signBytes hw' hb'
  rcases hd with ⟨h1, _⟩ | ⟨_, p, q, h1, h2, h3⟩
  · exact absurd h1 hst
  rw [hdw] at h1; rw [hdv] at h2
  simp only [Option.some.injEq] at h1 h2
  subst h1; subst h2
  refine ⟨?_, by rw [hdw]; rfl⟩
  obtain ⟨e1, e2, e3, e4, e5⟩ := h3
  simp only at e1 e2 e3 e4 e5
  have hval : w.timestamp.valid = true := by
    unfold voteSignBytes at hb'
    rw [hcb'] at hb'
    simp only at hb'
    split at hb'
    · assumption
    · cases hb'
  unfold voteSignBytes at hb' ⊢
  rw [hcb'] at hb'
  simp only [hval, if_true] at hb'
  rw [hcb]
  simp only [hval, if_true]
  rw [← hb', e1, e2, e3, e4]

theorem proposal_retimed {chainID : Bytes} {v w : Proposal} {bs bs' : Bytes} (hw : v.WF chainID) (hw' : w.WF chainID)
    (hb : proposalSignBytes chainID v = .ok bs) (hb' : proposalSignBytes chainID w = .ok bs')
    (hd : DifferOnlyByTime 1 bs' bs) :
    proposalSignBytes chainID { v with timestamp := w.timestamp } = .ok bs' ∧
      ((decodeProposal bs').map (·.timestamp)).getD v.timestamp = w.timestamp := by
  obtain ⟨cb, hcb, hdv⟩ := decodeProposal_signBytes hw hb
  obtain ⟨cb', hcb', hdw⟩ := decodeProposal_signBytes hw' hb'
  rcases hd with ⟨_, p, q, h1, h2, h3⟩ | ⟨h1, _⟩
  case inr => omega
  rw [hdw] at h1; rw [hdv] at h2
  simp only [Option.some.injEq] at h1 h2
  subst h1; subst h2
  refine ⟨?_, by rw [hdw]; rfl⟩
  obtain ⟨e0, e1, e2, e3, e4, e5⟩ := h3
  simp only at e1 e2 e3 e4 e5
  have hval : w.timestamp.valid = true := by
    unfold proposalSignBytes at hb'
    rw [hcb'] at hb'
    simp only at hb'
    split at hb'
    · assumption
    · cases hb'
  unfold proposalSignBytes at hb' ⊢
  rw [hcb'] at hb'
  simp only [hval, if_true] at hb'
  rw [hcb]
  simp only [hval, if_true]
  rw [← hb', e1, e2, e3, e4]

/-- A signed vote. -/
theorem single_vote {chainID key : Bytes} {sigOf : Bytes → Bytes} {s : FilePV} {L : Nat} {v v' : Vote} (c : Bytes)
    (hH : Holds chainID sigOf s) (hc : chainID.length < 2 ^ 62) (hv : v.Read L)
    (h : (PV.single chainID key sigOf s).signVote (some v) = .ret v' none) :
    ∃ k bs t, SignedMsg chainID (.signedVoteResponse v' none) k bs (sigOf bs) ∧ GoTime.valid t = true ∧
      v' = { v with timestamp := t, signature := some (sigOf bs) } ∧ s.lss.hrs ≼ k ∧
      (s.lss.hrs = k → s.lss.signBytes = some bs) ∧ (s.after chainID sigOf (.signVoteRequest (some v) c)).lss.hrs = k ∧
      (s.after chainID sigOf (.signVoteRequest (some v) c)).lss.signBytes = some bs := by
  have hwf := hv.wf hc
  simp only [PV.single] at h
  simp only [FilePV.after]
  cases hsb : singleBlock s v.height v.round (voteTypeToStep v.type) (voteSignBytes chainID v) v.timestamp with
  | err e => rw [hsb] at h; cases h
  | panic => rw [hsb] at h; cases h
  | ok b =>
    rw [hsb] at h
    simp only at h ⊢
    obtain ⟨st, g1, g2, g3⟩ := singleBlock_ok hsb
    obtain ⟨g4, rfl⟩ := voteStep g1
    cases hs : (s.sign sigOf b).1 with
    | err e => rw [hs] at h; cases h
    | panic => rw [hs] at h; cases h
    | ok x =>
      obtain ⟨bs, sig⟩ := x
      rw [hs] at h
      simp only [Ret.ret.injEq, and_true] at h
      have hafter : (s.sign sigOf b).2.lss.hrs = b.hrs ∧ (s.sign sigOf b).2.lss.signBytes = some bs := by
        rcases filePV_sign_ok hs with ⟨e1, e2, _, e4⟩ | ⟨_, _, _, e4, e5, _⟩
        · rw [e4]; exact ⟨e1.symm, e2⟩
        · exact ⟨e4, e5⟩
      have hne : (if v.type = 1 then (2 : Int) else 3) ≠ 1 := by split <;> decide
      -- the reply has the bytes `bs`
      have fin : ∀ t, GoTime.valid t = true → ((decodeVote bs).map (·.timestamp)).getD v.timestamp = t →
          voteSignBytes chainID { v with timestamp := t } = .ok bs → sig = some (sigOf bs) →
          s.lss.hrs ≼ b.hrs → (s.lss.hrs = b.hrs → s.lss.signBytes = some bs) →
          ∃ k bs t, SignedMsg chainID (.signedVoteResponse v' none) k bs (sigOf bs) ∧ GoTime.valid t = true ∧
            v' = { v with timestamp := t, signature := some (sigOf bs) } ∧ s.lss.hrs ≼ k ∧
            (s.lss.hrs = k → s.lss.signBytes = some bs) ∧ (s.sign sigOf b).2.lss.hrs = k ∧
            (s.sign sigOf b).2.lss.signBytes = some bs := by
        intro t ht hd hb hsig hle heq
        rw [hd, hsig] at h
        subst h
        refine ⟨b.hrs, bs, t, ?_, ht, rfl, hle, heq, hafter.1, hafter.2⟩
        have := SignedMsg.vote (chainID := chainID) (finishVote v (some (sigOf bs)) t) bs (sigOf bs)
          ⟨hwf.type, hwf.height, hwf.round, hwf.total, hwf.chain⟩ g4 hb rfl
        rw [g3]
        exact this
      have same : bs = b.signBytes → ((decodeVote bs).map (·.timestamp)).getD v.timestamp = v.timestamp ∧
          voteSignBytes chainID { v with timestamp := v.timestamp } = .ok bs := by
        intro e
        rw [e]
        obtain ⟨cb, _, hd⟩ := decodeVote_signBytes hwf g2
        exact ⟨by rw [hd]; rfl, g2⟩
      rcases filePV_sign_why hs with ⟨e1, e2, e3, e4⟩ | ⟨e1, e2, e3⟩
      · obtain ⟨m0, hm0, hs0⟩ := hH bs e2
        have hsig : sig = some (sigOf bs) := e3.symm.trans hs0
        rcases e4 with e4 | e4
        · exact fin _ hv.time (same e4).1 (same e4).2 hsig (.inl e1.symm) (fun _ => e2)
        · rw [← e1] at hm0
          have hst : s.lss.step = if v.type = 1 then 2 else 3 := by
            have := congrArg HRS.step (e1.symm.trans g3)
            exact this
          rw [hst] at e4
          generalize b.hrs = k0 at hm0 g3
          cases hm0 with
          | proposal p _ _ hw hb' hs' => exact absurd (congrArg HRS.step g3).symm hne
          | vote w _ _ hw ht hb' hs' =>
            obtain ⟨r1, r2⟩ := vote_retimed hwf hw g2 hb' hne e4
            refine fin w.timestamp ?_ r2 r1 hsig (.inl e1.symm) (fun _ => e2)
            unfold voteSignBytes at hb'
            split at hb'
            · cases hb'
            · cases hb'
            · split at hb'
              · assumption
              · cases hb'
      · exact fin _ hv.time (same e2).1 (same e2).2 (by rw [e3, e2]) (.inr e1)
          (fun he => absurd (he ▸ e1) (HRS.lt_irrefl _))

/-- A signed proposal. -/
theorem single_proposal {chainID key : Bytes} {sigOf : Bytes → Bytes} {s : FilePV} {v v' : Proposal} (c : Bytes)
    (hH : Holds chainID sigOf s) (hc : chainID.length < 2 ^ 62) (hv : v.Read)
    (h : (PV.single chainID key sigOf s).signProposal (some v) = .ret v' none) :
    ∃ k bs t, SignedMsg chainID (.signedProposalResponse v' none) k bs (sigOf bs) ∧ GoTime.valid t = true ∧
      v' = { v with timestamp := t, signature := some (sigOf bs) } ∧ s.lss.hrs ≼ k ∧
      (s.lss.hrs = k → s.lss.signBytes = some bs) ∧ (s.after chainID sigOf (.signProposalRequest (some v) c)).lss.hrs = k ∧
      (s.after chainID sigOf (.signProposalRequest (some v) c)).lss.signBytes = some bs := by
  have hwf := hv.wf hc
  simp only [PV.single] at h
  simp only [FilePV.after]
  cases hsb : singleBlock s v.height v.round (.ok stepPropose) (proposalSignBytes chainID v) v.timestamp with
  | err e => rw [hsb] at h; cases h
  | panic => rw [hsb] at h; cases h
  | ok b =>
    rw [hsb] at h
    simp only at h ⊢
    obtain ⟨st, g1, g2, g3⟩ := singleBlock_ok hsb
    simp only [Out.ok.injEq] at g1
    subst g1
    cases hs : (s.sign sigOf b).1 with
    | err e => rw [hs] at h; cases h
    | panic => rw [hs] at h; cases h
    | ok x =>
      obtain ⟨bs, sig⟩ := x
      rw [hs] at h
      simp only [Ret.ret.injEq, and_true] at h
      have hafter : (s.sign sigOf b).2.lss.hrs = b.hrs ∧ (s.sign sigOf b).2.lss.signBytes = some bs := by
        rcases filePV_sign_ok hs with ⟨e1, e2, _, e4⟩ | ⟨_, _, _, e4, e5, _⟩
        · rw [e4]; exact ⟨e1.symm, e2⟩
        · exact ⟨e4, e5⟩
      have fin : ∀ t, GoTime.valid t = true → ((decodeProposal bs).map (·.timestamp)).getD v.timestamp = t →
          proposalSignBytes chainID { v with timestamp := t } = .ok bs → sig = some (sigOf bs) →
          s.lss.hrs ≼ b.hrs → (s.lss.hrs = b.hrs → s.lss.signBytes = some bs) →
          ∃ k bs t, SignedMsg chainID (.signedProposalResponse v' none) k bs (sigOf bs) ∧ GoTime.valid t = true ∧
            v' = { v with timestamp := t, signature := some (sigOf bs) } ∧ s.lss.hrs ≼ k ∧
            (s.lss.hrs = k → s.lss.signBytes = some bs) ∧ (s.sign sigOf b).2.lss.hrs = k ∧
            (s.sign sigOf b).2.lss.signBytes = some bs := by
        intro t ht hd hb hsig hle heq
        rw [hd, hsig] at h
        subst h
        refine ⟨b.hrs, bs, t, ?_, ht, rfl, hle, heq, hafter.1, hafter.2⟩
        have := SignedMsg.proposal (chainID := chainID) (finishProposal v (some (sigOf bs)) t) bs (sigOf bs)
          ⟨hwf.height, hwf.round, hwf.polRound, hwf.total, hwf.chain⟩ hb rfl
        rw [g3]
        exact this
      have same : bs = b.signBytes → ((decodeProposal bs).map (·.timestamp)).getD v.timestamp = v.timestamp ∧
          proposalSignBytes chainID { v with timestamp := v.timestamp } = .ok bs := by
        intro e
        rw [e]
        obtain ⟨cb, _, hd⟩ := decodeProposal_signBytes hwf g2
        exact ⟨by rw [hd]; rfl, g2⟩
      rcases filePV_sign_why hs with ⟨e1, e2, e3, e4⟩ | ⟨e1, e2, e3⟩
      · obtain ⟨m0, hm0, hs0⟩ := hH bs e2
        have hsig : sig = some (sigOf bs) := e3.symm.trans hs0
        rcases e4 with e4 | e4
        · exact fin _ hv.time (same e4).1 (same e4).2 hsig (.inl e1.symm) (fun _ => e2)
        · rw [← e1] at hm0
          have hst : s.lss.step = 1 := congrArg HRS.step (e1.symm.trans g3)
          rw [hst] at e4
          generalize b.hrs = k0 at hm0 g3
          cases hm0 with
          | vote w _ _ hw ht hb' hs' =>
            have := congrArg HRS.step g3
            simp only [stepPropose] at this
            split at this <;> omega
          | proposal w _ _ hw hb' hs' =>
            obtain ⟨r1, r2⟩ := proposal_retimed hwf hw g2 hb' e4
            refine fin w.timestamp ?_ r2 r1 hsig (.inl e1.symm) (fun _ => e2)
            unfold proposalSignBytes at hb'
            split at hb'
            · cases hb'
            · cases hb'
            · split at hb'
              · assumption
              · cases hb'
      · exact fin _ hv.time (same e2).1 (same e2).2 (by rw [e3, e2]) (.inr e1)
          (fun he => absurd (he ▸ e1) (HRS.lt_irrefl _))

/-- What handling a message does to the validator. -/
theorem single_after {chainID : Bytes} {sigOf : Bytes → Bytes} {s : FilePV} {L : Nat} {m : PMsg}
    (hH : Holds chainID sigOf s) (hc : chainID.length < 2 ^ 62) (hm : m.ReadOk L) :
    Holds chainID sigOf (s.after chainID sigOf m) ∧
      (s.after chainID sigOf m = s ∨ s.lss.hrs ≺ (s.after chainID sigOf m).lss.hrs) := by
  have key : ∀ b : Block, (∀ sig, ∃ m, SignedMsg chainID m b.hrs b.signBytes sig) →
      Holds chainID sigOf (s.sign sigOf b).2 ∧ ((s.sign sigOf b).2 = s ∨ s.lss.hrs ≺ (s.sign sigOf b).2.lss.hrs) := by
    intro b hb
    cases hs : (s.sign sigOf b).1 with
    | err e => rw [filePV_sign_other (by intro x hx; rw [hs] at hx; cases hx)]; exact ⟨hH, .inl rfl⟩
    | panic => rw [filePV_sign_other (by intro x hx; rw [hs] at hx; cases hx)]; exact ⟨hH, .inl rfl⟩
    | ok x =>
      obtain ⟨bs, sig⟩ := x
      rcases filePV_sign_ok hs with ⟨_, _, _, e4⟩ | ⟨e1, e2, e3, e4, e5, e6, _⟩
      · rw [e4]; exact ⟨hH, .inl rfl⟩
      · refine ⟨fun bs' hbs => ?_, .inr (by rw [e4]; exact e1)⟩
        rw [e5] at hbs
        simp only [Option.some.injEq] at hbs
        subst hbs
        subst e2
        obtain ⟨m0, hm0⟩ := hb (sigOf b.signBytes)
        exact ⟨m0, by rw [e4]; exact hm0, by rw [e6, e3]⟩
  unfold FilePV.after
  split
  · next v c =>
    have hv : v.Read L := hm
    split
    · next b hsb =>
      obtain ⟨st, g1, g2, g3⟩ := singleBlock_ok hsb
      obtain ⟨g4, rfl⟩ := voteStep g1
      have hw := hv.wf hc
      refine key b fun sig => ⟨.signedVoteResponse { v with signature := some sig } none, ?_⟩
      rw [g3]
      exact SignedMsg.vote { v with signature := some sig } b.signBytes sig ⟨hw.type, hw.height, hw.round, hw.total, hw.chain⟩
        g4 g2 rfl
    · exact ⟨hH, .inl rfl⟩
  · next p c =>
    have hv : p.Read := hm
    split
    · next b hsb =>
      obtain ⟨st, g1, g2, g3⟩ := singleBlock_ok hsb
      simp only [Out.ok.injEq] at g1
      subst g1
      have hw := hv.wf hc
      refine key b fun sig => ⟨.signedProposalResponse { p with signature := some sig } none, ?_⟩
      rw [g3]
      exact SignedMsg.proposal { p with signature := some sig } b.signBytes sig
        ⟨hw.height, hw.round, hw.polRound, hw.total, hw.chain⟩ g2 rfl
    · exact ⟨hH, .inl rfl⟩
  · exact ⟨hH, .inl rfl⟩

/-! ### Histories -/

section
variable {text : Err → Bytes} {chainID key : Bytes} {sigOf : Bytes → Bytes}

theorem reads_cons {o : Option (List Act × Loop)} {outs : List (Option (List Act × Loop))} {m : PMsg} :
    Reads (o :: outs) m ↔ Reads [o] m ∨ Reads outs m := by
  constructor
  · rintro ⟨acts, l, out, h, h'⟩
    rcases List.mem_cons.1 h with h | h
    · exact .inl ⟨acts, l, out, by rw [h]; exact List.mem_singleton.2 rfl, h'⟩
    · exact .inr ⟨acts, l, out, h, h'⟩
  · rintro (⟨acts, l, out, h, h'⟩ | ⟨acts, l, out, h, h'⟩)
    · exact ⟨acts, l, out, List.mem_cons.2 (.inl (List.mem_singleton.1 h)), h'⟩
    · exact ⟨acts, l, out, List.mem_cons_of_mem _ h, h'⟩

/-- An answer that is not an error, to a request to sign. -/
def GivenMsg (m : PMsg) : Prop := (∃ v, m = .signedVoteResponse v none) ∨ ∃ p, m = .signedProposalResponse p none

/-- One event. -/
theorem single_step (hc : chainID.length < 2 ^ 62) (hkey : key.length < 2 ^ 62) (htext : ∀ e, (text e).length < 2 ^ 62)
    (h64 : ∀ bs, (sigOf bs).length = 64) {s : Single} (hH : Holds chainID sigOf s.pv) (e : SingleEv) :
    Holds chainID sigOf (s.step text chainID key sigOf e).2.pv ∧
    (e ≠ .restart → (s.step text chainID key sigOf e).2.pv = s.pv ∨
      s.pv.lss.hrs ≺ (s.step text chainID key sigOf e).2.pv.lss.hrs) ∧
    ∀ m, Reads [(s.step text chainID key sigOf e).1] m → GivenMsg m → ∃ k bs, SignedMsg chainID m k bs (sigOf bs) ∧
      s.pv.lss.hrs ≼ k ∧ (s.pv.lss.hrs = k → s.pv.lss.signBytes = some bs) ∧
      (s.step text chainID key sigOf e).2.pv.lss.hrs = k ∧
      (s.step text chainID key sigOf e).2.pv.lss.signBytes = some bs := by
  cases e with
  | restart =>
    refine ⟨?_, fun h => absurd rfl h, ?_⟩
    · intro bs hb; cases hb
    · rintro m ⟨acts, l, out, h, _⟩
      simp [Single.step] at h
  | iter j i =>
    simp only [Single.step]
    generalize hI : (⟨i.running, i.dialFailures, i.stream, i.stillRunning, .single chainID key sigOf s.pv, i.writeOk⟩ : Iter) = it
    have hpv : it.pv = .single chainID key sigOf s.pv := by rw [← hI]
    have hstep : ∀ o : Option PMsg, readIn (loopIter text it (s.loops j)).1 = o →
        Holds chainID sigOf (match o with | none => s.pv | some m => s.pv.after chainID sigOf m) ∧
        ((match o with | none => s.pv | some m => s.pv.after chainID sigOf m) = s.pv ∨
          s.pv.lss.hrs ≺ (match o with | none => s.pv | some m => s.pv.after chainID sigOf m).lss.hrs) := by
      intro o ho
      cases o with
      | none => exact ⟨hH, .inl rfl⟩
      | some m =>
        obtain ⟨stream, rest, hm⟩ := iter_read ho
        exact single_after hH hc (readMsg_readOk hm)
    obtain ⟨a1, a2⟩ := hstep _ rfl
    refine ⟨a1, fun _ => a2, ?_⟩
    rintro m' ⟨acts, l, out, h, hw, hr⟩ hg
    simp only [List.mem_singleton, Option.some.injEq] at h
    have hw' : Act.write out ∈ (loopIter text it (s.loops j)).1 := by rw [← h]; exact hw
    obtain ⟨stream, rest, m, r, hm, hri, hh, rfl⟩ := iter_write hw'
    rw [hri]
    simp only
    rw [hpv] at hh
    have hro := readMsg_readOk hm
    have notGiven : ∀ r : PMsg, r.WF → readMsg (writeMsg r) = some (m', []) → ¬ GivenMsg r → False := by
      intro r hwf hr hn
      exact hn (read_written hwf hr ▸ hg)
    have herr : ∀ e : Err, RSErr.WF ⟨0, text e⟩ := fun e => ⟨by show IsI32 0; decide, htext e⟩
    cases handle_replies hh with
    | @vote v c v' h' =>
      cases v with
      | none => simp [PV.single] at h'
      | some v =>
        have hv : v.Read maxRemoteSignerMsgSize := hro
        obtain ⟨k, bs, t, b1, b2, b3, b4⟩ := single_vote c hH hc hv h'
        have hlen := h64 bs
        have hval : v.blockID.hash.length + v.blockID.pshHash.length ≤ 64 := by
          cases b1 with
          | vote _ _ _ hw' ht hb hs =>
            obtain ⟨cb, hcb, _⟩ := voteSignBytes_ok hw' hb
            have := BlockID.valid_len (canonicalizeBlockID_ok hcb).2.2
            rw [b3] at this
            exact this
        have haddr := hv.addr
        have := read_written (r := .signedVoteResponse v' none) ⟨by
          subst b3
          refine ⟨hv.type, hv.height, hv.round, hv.total, b2, hv.index, ?_, ?_⟩
          · simp only [ne_eq, Option.some.injEq]; intro he; rw [he] at hlen; cases hlen
          · show _ + _ + (sigOf bs).length < 2 ^ 62
            rw [hlen]
            have : maxRemoteSignerMsgSize = 10240 := rfl
            simp only
            omega, by simp⟩ hr
        subst this
        exact ⟨k, bs, b1, b4⟩
    | @proposal v c v' h' =>
      cases v with
      | none => simp [PV.single] at h'
      | some v =>
        have hv : v.Read := hro
        obtain ⟨k, bs, t, b1, b2, b3, b4⟩ := single_proposal c hH hc hv h'
        have hlen := h64 bs
        have hval : v.blockID.hash.length + v.blockID.pshHash.length ≤ 64 := by
          cases b1 with
          | proposal _ _ _ hw' hb hs =>
            obtain ⟨cb, hcb, _⟩ := proposalSignBytes_ok hw' hb
            have := BlockID.valid_len (canonicalizeBlockID_ok hcb).2.2
            rw [b3] at this
            exact this
        have := read_written (r := .signedProposalResponse v' none) ⟨by
          subst b3
          refine ⟨hv.type, hv.height, hv.round, hv.polRound, hv.total, b2, ?_, ?_⟩
          · simp only [ne_eq, Option.some.injEq]; intro he; rw [he] at hlen; cases hlen
          · show _ + (sigOf bs).length < 2 ^ 62
            rw [hlen]
            simp only
            omega, by simp⟩ hr
        subst this
        exact ⟨k, bs, b1, b4⟩
    | @voteFailed v c v' e h' =>
      exact (notGiven (.signedVoteResponse .zero (some ⟨0, text e⟩))
        ⟨⟨by decide, by decide, by decide, by decide, by decide, by decide, by decide, by decide⟩,
          by rintro x hx'; rw [← Option.some.inj hx']; exact herr e⟩ hr (by simp [GivenMsg])).elim
    | @proposalFailed v c v' e h' =>
      exact (notGiven (.signedProposalResponse .zero (some ⟨0, text e⟩))
        ⟨⟨by decide, by decide, by decide, by decide, by decide, by decide, by decide, by decide⟩,
          by rintro x hx'; rw [← Option.some.inj hx']; exact herr e⟩ hr (by simp [GivenMsg])).elim
    | @pubKey c k' h' =>
      simp only [PV.single, Except.ok.injEq] at h'
      subst h'
      exact (notGiven (.pubKeyResponse (.ed25519 key) none) ⟨hkey, by simp⟩ hr (by simp [GivenMsg])).elim
    | pubKeyFailed h' => simp [PV.single] at h'
    | ping => exact (notGiven .pingResponse trivial hr (by simp [GivenMsg])).elim
    | other _ _ _ _ => exact (notGiven .empty trivial hr (by simp [GivenMsg])).elim

theorem holds_run (hc : chainID.length < 2 ^ 62) (hkey : key.length < 2 ^ 62) (htext : ∀ e, (text e).length < 2 ^ 62)
    (h64 : ∀ bs, (sigOf bs).length = 64) (es : List SingleEv) : ∀ s : Single, Holds chainID sigOf s.pv →
    Holds chainID sigOf (s.run text chainID key sigOf es).2.pv ∧
    ∀ m, Reads (s.run text chainID key sigOf es).1 m → GivenMsg m → ∃ k bs, SignedMsg chainID m k bs (sigOf bs) := by
  induction es with
  | nil => exact fun s h => ⟨h, by rintro m ⟨_, _, _, h, _⟩; cases h⟩
  | cons e es ih =>
    intro s h
    obtain ⟨h1, _, h3⟩ := single_step hc hkey htext h64 h e
    obtain ⟨h4, h5⟩ := ih _ h1
    refine ⟨h4, fun m hm hg => ?_⟩
    rcases reads_cons.1 hm with hm | hm
    · obtain ⟨k, bs, g, _⟩ := h3 m hm hg
      exact ⟨k, bs, g⟩
    · exact h5 m hm hg

/-- Without a restart: nothing below the last block is given, and for it nothing but the bytes held. -/
theorem single_above (hc : chainID.length < 2 ^ 62) (hkey : key.length < 2 ^ 62) (htext : ∀ e, (text e).length < 2 ^ 62)
    (h64 : ∀ bs, (sigOf bs).length = 64) (es : List SingleEv) (hno : .restart ∉ es) : ∀ s : Single,
    Holds chainID sigOf s.pv → ∀ m, Reads (s.run text chainID key sigOf es).1 m → GivenMsg m →
    ∃ k bs, SignedMsg chainID m k bs (sigOf bs) ∧ s.pv.lss.hrs ≼ k ∧ (s.pv.lss.hrs = k → s.pv.lss.signBytes = some bs) := by
  induction es with
  | nil => rintro s h m ⟨_, _, _, h, _⟩; cases h
  | cons e es ih =>
    intro s h m hm hg
    obtain ⟨h1, h2, h3⟩ := single_step hc hkey htext h64 h e
    rcases reads_cons.1 hm with hm | hm
    · obtain ⟨k, bs, g1, g2, g3, _⟩ := h3 m hm hg
      exact ⟨k, bs, g1, g2, g3⟩
    · obtain ⟨k, bs, g1, g2, g3⟩ := ih (fun h => hno (List.mem_cons_of_mem _ h)) _ h1 m hm hg
      refine ⟨k, bs, g1, ?_⟩
      rcases h2 (fun he => hno (he ▸ List.mem_cons_self ..)) with h2 | h2
      · rw [h2] at g2 g3; exact ⟨g2, g3⟩
      · have := HRS.lt_of_lt_of_le h2 g2
        exact ⟨.inr this, fun he => absurd (he ▸ this) (HRS.lt_irrefl _)⟩

theorem signedMsg_unique {m : PMsg} {k k' : HRS} {bs bs' sig sig' : Bytes} (h : SignedMsg chainID m k bs sig)
    (h' : SignedMsg chainID m k' bs' sig') : k = k' ∧ bs = bs' ∧ sig = sig' := by
  cases h with
  | vote v _ _ _ _ hb hs =>
    cases h' with
    | vote _ _ _ _ _ hb' hs' =>
      rw [hb] at hb'; rw [hs] at hs'
      simp only [Out.ok.injEq, Option.some.injEq] at hb' hs'
      exact ⟨rfl, hb', hs'⟩
  | proposal v _ _ _ hb hs =>
    cases h' with
    | proposal _ _ _ _ hb' hs' =>
      rw [hb] at hb'; rw [hs] at hs'
      simp only [Out.ok.injEq, Option.some.injEq] at hb' hs'
      exact ⟨rfl, hb', hs'⟩

/-- Without a restart: one block, one message. -/
theorem single_agree (hc : chainID.length < 2 ^ 62) (hkey : key.length < 2 ^ 62) (htext : ∀ e, (text e).length < 2 ^ 62)
    (h64 : ∀ bs, (sigOf bs).length = 64) (es : List SingleEv) (hno : .restart ∉ es) : ∀ s : Single,
    Holds chainID sigOf s.pv → ∀ m m', Reads (s.run text chainID key sigOf es).1 m → GivenMsg m →
    Reads (s.run text chainID key sigOf es).1 m' → GivenMsg m' → ∀ k bs bs' sig sig', SignedMsg chainID m k bs sig →
    SignedMsg chainID m' k bs' sig' → bs = bs' := by
  induction es with
  | nil => rintro s h m m' ⟨_, _, _, h, _⟩; cases h
  | cons e es ih =>
    intro s h m m' hm hg hm' hg' k bs bs' sig sig' hs hs'
    obtain ⟨h1, h2, h3⟩ := single_step hc hkey htext h64 h e
    have hno' : .restart ∉ es := fun h => hno (List.mem_cons_of_mem _ h)
    have cross : ∀ m m' bs bs' sig sig', Reads [(s.step text chainID key sigOf e).1] m → GivenMsg m →
        Reads ((s.step text chainID key sigOf e).2.run text chainID key sigOf es).1 m' → GivenMsg m' →
        SignedMsg chainID m k bs sig → SignedMsg chainID m' k bs' sig' → bs = bs' := by
      intro m m' bs bs' sig sig' hm hg hm' hg' hs hs'
      obtain ⟨k1, b1, g1, _, _, g4, g5⟩ := h3 m hm hg
      obtain ⟨k2, b2, f1, f2, f3⟩ := single_above hc hkey htext h64 es hno' _ h1 m' hm' hg'
      obtain ⟨rfl, rfl, _⟩ := signedMsg_unique g1 hs
      obtain ⟨rfl, rfl, _⟩ := signedMsg_unique f1 hs'
      have := f3 g4
      rw [g5] at this
      exact Option.some.inj this
    rcases reads_cons.1 hm with hm | hm <;> rcases reads_cons.1 hm' with hm' | hm'
    · obtain ⟨k1, b1, g1, _, _, _, g5⟩ := h3 m hm hg
      obtain ⟨k2, b2, f1, _, _, _, f5⟩ := h3 m' hm' hg'
      obtain ⟨rfl, rfl, _⟩ := signedMsg_unique g1 hs
      obtain ⟨_, rfl, _⟩ := signedMsg_unique f1 hs'
      rw [g5] at f5
      exact Option.some.inj f5
    · exact cross _ _ _ _ _ _ hm hg hm' hg' hs hs'
    · exact (cross _ _ _ _ _ _ hm' hg' hm hg hs' hs).symm
    · exact ih hno' _ h1 m m' hm hg hm' hg' k bs bs' sig sig' hs hs'

theorem holds_boot (file : PFile) : Holds chainID sigOf (Single.boot file).pv := by
  intro bs h; cases h

end

/-! ### C113 -/

/-- C113, signatures: over any history of a single signer, with restarts, and whatever bytes its chain nodes send on however
many connections: every vote and every proposal that a chain node is given carries the signature of the key over the sign
bytes of just this message. -/
theorem C113_verify (text : Err → Bytes) (chainID key : Bytes) (sigOf : Bytes → Bytes) (hc : chainID.length < 2 ^ 62)
    (hkey : key.length < 2 ^ 62) (htext : ∀ e, (text e).length < 2 ^ 62) (h64 : ∀ bs, (sigOf bs).length = 64)
    (file : PFile) (es : List SingleEv) :
    (∀ v, Reads ((Single.boot file).run text chainID key sigOf es).1 (.signedVoteResponse v none) →
      (v.type = 1 ∨ v.type = 2) ∧ ∃ bs, voteSignBytes chainID v = .ok bs ∧ v.signature = some (sigOf bs)) ∧
    (∀ p, Reads ((Single.boot file).run text chainID key sigOf es).1 (.signedProposalResponse p none) →
      ∃ bs, proposalSignBytes chainID p = .ok bs ∧ p.signature = some (sigOf bs)) := by
  obtain ⟨_, h⟩ := holds_run hc hkey htext h64 es _ (holds_boot file)
  refine ⟨fun v hv => ?_, fun p hp => ?_⟩
  · obtain ⟨k, bs, hs⟩ := h _ hv (.inl ⟨v, rfl⟩)
    generalize hsig : sigOf bs = sig at hs
    cases hs with
    | vote _ _ _ _ ht hb hs => exact ⟨ht, bs, hb, by rw [hs, hsig]⟩
  · obtain ⟨k, bs, hs⟩ := h _ hp (.inr ⟨p, rfl⟩)
    generalize hsig : sigOf bs = sig at hs
    cases hs with
    | proposal _ _ _ _ hb hs => exact ⟨bs, hb, by rw [hs, hsig]⟩

/-- C113, partial: as long as the process is not started again, two votes of the same type for the same height and round that
chain nodes are given name the same block, at the same time, with the same signature; two proposals for the same height and
round are the same in everything that is signed. Missing: restarts (`C113_fails`). -/
theorem C113_partial (text : Err → Bytes) (chainID key : Bytes) (sigOf : Bytes → Bytes) (hc : chainID.length < 2 ^ 62)
    (hkey : key.length < 2 ^ 62) (htext : ∀ e, (text e).length < 2 ^ 62) (h64 : ∀ bs, (sigOf bs).length = 64)
    (file : PFile) (es : List SingleEv) (hno : .restart ∉ es) :
    (∀ v v', Reads ((Single.boot file).run text chainID key sigOf es).1 (.signedVoteResponse v none) →
      Reads ((Single.boot file).run text chainID key sigOf es).1 (.signedVoteResponse v' none) →
      v.type = v'.type → v.height = v'.height → v.round = v'.round →
      v.blockID = v'.blockID ∧ v.timestamp = v'.timestamp ∧ v.signature = v'.signature) ∧
    (∀ p p', Reads ((Single.boot file).run text chainID key sigOf es).1 (.signedProposalResponse p none) →
      Reads ((Single.boot file).run text chainID key sigOf es).1 (.signedProposalResponse p' none) →
      p.height = p'.height → p.round = p'.round →
      p.blockID = p'.blockID ∧ p.polRound = p'.polRound ∧ p.timestamp = p'.timestamp ∧ p.signature = p'.signature) := by
  obtain ⟨_, h⟩ := holds_run hc hkey htext h64 es _ (holds_boot file)
  have hag := single_agree hc hkey htext h64 es hno _ (holds_boot file)
  refine ⟨fun v v' hv hv' h1 h2 h3 => ?_, fun v v' hv hv' h2 h3 => ?_⟩
  · obtain ⟨k, bs, hs⟩ := h _ hv (.inl ⟨v, rfl⟩)
    obtain ⟨k', bs', hs'⟩ := h _ hv' (.inl ⟨v', rfl⟩)
    generalize hsig : sigOf bs = sig at hs
    generalize hsig' : sigOf bs' = sig' at hs'
    have e := fun x => hag _ _ hv (.inl ⟨v, rfl⟩) hv' (.inl ⟨v', rfl⟩) k bs bs' sig sig' hs x
    cases hs with
    | vote _ _ _ hw _ hb hg =>
      cases hs' with
      | vote _ _ _ hw' ht' hb' hg' =>
        have := e (by rw [h1, h2, h3]; exact .vote v' bs' sig' hw' ht' hb' hg')
        subst this
        obtain ⟨_, _, _, _, e1, e2⟩ := C07_vote _ _ _ _ _ hw hw' hb hb'
        exact ⟨e1, e2, by rw [hg, hg', ← hsig, ← hsig']⟩
  · obtain ⟨k, bs, hs⟩ := h _ hv (.inr ⟨v, rfl⟩)
    obtain ⟨k', bs', hs'⟩ := h _ hv' (.inr ⟨v', rfl⟩)
    generalize hsig : sigOf bs = sig at hs
    generalize hsig' : sigOf bs' = sig' at hs'
    have e := fun x => hag _ _ hv (.inr ⟨v, rfl⟩) hv' (.inr ⟨v', rfl⟩) k bs bs' sig sig' hs x
    cases hs with
    | proposal _ _ _ hw hb hg =>
      cases hs' with
      | proposal _ _ _ hw' hb' hg' =>
        have := e (by rw [h2, h3]; exact .proposal v' bs' sig' hw' hb' hg')
        subst this
        obtain ⟨_, _, _, e0, e1, e2⟩ := C07_proposal _ _ _ _ _ hw hw' hb hb'
        exact ⟨e1, e0, e2, by rw [hg, hg', ← hsig, ← hsig']⟩

/-- An iteration in which a message is read and handled. -/
theorem single_serves {text : Err → Bytes} {chainID key : Bytes} {sigOf : Bytes → Bytes} {s : Single} {j : Nat} {i : Meets}
    {stream rest : Bytes} {pre : List Act} (hn : NextFor s j i stream pre)
    (hi : i.running = true ∧ i.stillRunning = true ∧ i.writeOk = true) {m r : PMsg}
    (hm : readMsg stream = some (m, rest)) (hr : handleRequest text (.single chainID key sigOf s.pv) m = some r) :
    s.step text chainID key sigOf (.iter j i) = (some (pre ++ [.read m, .write (writeMsg r)], .live (some rest)),
      ⟨s.pv.after chainID sigOf m, fun q => if q = j then .live (some rest) else s.loops q⟩) := by
  have e : loopIter text ⟨i.running, i.dialFailures, i.stream, i.stillRunning, .single chainID key sigOf s.pv, i.writeOk⟩
      (s.loops j) = (pre ++ [.read m, .write (writeMsg r)], .live (some rest)) := by
    cases hn with
    | connected h => simp [loopIter, h, hi, dialPhase, servePhase, hm, hr]
    | dials h hs => simp [loopIter, h, hi, dialPhase, servePhase, hs, hm, hr]
  have e' : readIn (pre ++ [.read m, .write (writeMsg r)]) = some m := by
    cases hn with
    | connected h => rfl
    | dials h hs => rw [List.append_assoc, readIn_replicate]; rfl
  simp only [Single.step, e, e']
  simp

/-- C113, answers: a request for a later block than the last one signed, from any of the nodes, is answered with the message
it asked to sign, with nothing changed but the signature. The loop goes on, and the block is then the last one signed. -/
theorem C113_answers (text : Err → Bytes) (chainID key : Bytes) (sigOf : Bytes → Bytes) (h64 : ∀ bs, (sigOf bs).length = 64)
    (s : Single) (j : Nat) (i : Meets) (m : PMsg) (k : HRS) (bs rest : Bytes) (reply : Bytes → PMsg) (pre : List Act)
    (ha : Asks chainID m k bs reply) (hl : (encPMsg m).length ≤ maxRemoteSignerMsgSize)
    (hn : NextFor s j i (writeMsg m ++ rest) pre) (hi : i.running = true ∧ i.stillRunning = true ∧ i.writeOk = true)
    (hk : s.pv.lss.hrs ≺ k) :
    ∃ s', s.step text chainID key sigOf (.iter j i) =
        (some (pre ++ [.read m, .write (writeMsg (reply (sigOf bs)))], .live (some rest)), s') ∧
      s'.pv.lss.hrs = k ∧ s'.loops j = .live (some rest) ∧ (∀ q, q ≠ j → s'.loops q = s.loops q) ∧
      ((encPMsg (reply (sigOf bs))).length ≤ maxRemoteSignerMsgSize →
        ∀ more, readMsg (writeMsg (reply (sigOf bs)) ++ more) = some (reply (sigOf bs), more)) := by
  obtain ⟨hwf, b0, _, _, _, _, _, _, h7⟩ := asks_block ha
  have key : ∀ r, handleRequest text (.single chainID key sigOf s.pv) m = some r → r = reply (sigOf bs) →
      (s.pv.after chainID sigOf m).lss.hrs = k →
    ∃ s', s.step text chainID key sigOf (.iter j i) =
        (some (pre ++ [.read m, .write (writeMsg (reply (sigOf bs)))], .live (some rest)), s') ∧
      s'.pv.lss.hrs = k ∧ s'.loops j = .live (some rest) ∧ (∀ q, q ≠ j → s'.loops q = s.loops q) ∧
      ((encPMsg (reply (sigOf bs))).length ≤ maxRemoteSignerMsgSize →
        ∀ more, readMsg (writeMsg (reply (sigOf bs)) ++ more) = some (reply (sigOf bs), more)) := by
    rintro r hr rfl hks
    refine ⟨_, single_serves hn hi (readMsg_writeMsg m rest hwf hl) hr, hks, by simp, fun q hq => by simp [hq], ?_⟩
    exact fun hle more => readMsg_writeMsg _ _ (h7 _ (h64 _)) hle
  cases ha with
  | vote v c bs hw hp hc ht hm hbs _ _ =>
    obtain ⟨st, h1, h2⟩ : ∃ st, voteTypeToStep v.type = .ok st ∧ st = (if v.type = 1 then 2 else 3) := by
      rcases ht with h | h <;> rw [h]
      · exact ⟨2, by decide, by decide⟩
      · exact ⟨3, by decide, by decide⟩
    have hck : s.pv.lss.checkHRS ⟨v.height, v.round, st, 0⟩ = .ok false := checkHRS_above (by rw [h2]; exact hk)
    have hsb : singleBlock s.pv v.height v.round (voteTypeToStep v.type) (voteSignBytes chainID v) v.timestamp =
        .ok ⟨v.height, v.round, st, bs, v.timestamp⟩ := by
      simp only [singleBlock, h1, hck, hbs]
    have hd : ((decodeVote bs).map (·.timestamp)).getD v.timestamp = v.timestamp := by
      obtain ⟨cb, _, hd⟩ := decodeVote_signBytes hw hbs
      rw [hd]; rfl
    refine key (.signedVoteResponse { v with signature := some (sigOf bs) } none) ?_ rfl ?_
    · simp only [handleRequest, handleSignVote, PV.single, hsb, FilePV.sign, hck, hd, finishVote]
    · simp only [FilePV.after, hsb, FilePV.sign, hck]
      show (⟨v.height, v.round, st⟩ : HRS) = _
      rw [h2]
  | proposal p c bs hw hp hc hbs _ _ =>
    have hck : s.pv.lss.checkHRS ⟨p.height, p.round, stepPropose, 0⟩ = .ok false := checkHRS_above hk
    have hsb : singleBlock s.pv p.height p.round (.ok stepPropose) (proposalSignBytes chainID p) p.timestamp =
        .ok ⟨p.height, p.round, stepPropose, bs, p.timestamp⟩ := by
      simp only [singleBlock, hck, hbs]
    have hd : ((decodeProposal bs).map (·.timestamp)).getD p.timestamp = p.timestamp := by
      obtain ⟨cb, _, hd⟩ := decodeProposal_signBytes hw hbs
      rw [hd]; rfl
    refine key (.signedProposalResponse { p with signature := some (sigOf bs) } none) ?_ rfl ?_
    · simp only [handleRequest, handleSignProposal, PV.single, hsb, FilePV.sign, hck, hd, finishProposal]
    · simp only [FilePV.after, hsb, FilePV.sign, hck]
      rfl

/-- A request for the last block signed, which differs from what was signed at most by its time. -/
theorem single_again {text : Err → Bytes} {chainID key : Bytes} {sigOf : Bytes → Bytes} {s : FilePV}
    (hc : chainID.length < 2 ^ 62) (hH : Holds chainID sigOf s) {m : PMsg} {k : HRS} {bs bs0 : Bytes} {reply : Bytes → PMsg}
    (ha : Asks chainID m k bs reply) (hk : s.lss.hrs = k) (hb : s.lss.signBytes = some bs0)
    (hd : bs = bs0 ∨ DifferOnlyByTime k.step bs0 bs) :
    ∃ r, handleRequest text (.single chainID key sigOf s) m = some r ∧ SignedMsg chainID r k bs0 (sigOf bs0) ∧
      s.after chainID sigOf m = s := by
  obtain ⟨m0, hm0, hs0⟩ := hH bs0 hb
  rw [hk] at hm0
  have hsign : ∀ b : Block, b.hrs = k → b.signBytes = bs → s.lss.checkHRS ⟨b.height, b.round, b.step, 0⟩ = .ok true ∧
      s.sign sigOf b = (.ok (bs0, some (sigOf bs0)), s) := by
    intro b hbk hbb
    have hck : s.lss.checkHRS ⟨b.height, b.round, b.step, 0⟩ = .ok true := by
      have e : s.lss.hrs = b.hrs := hk.trans hbk.symm
      simp only [SignState.hrs, Block.hrs, HRS.mk.injEq] at e
      unfold SignState.checkHRS
      simp [e, hb, hs0]
    refine ⟨hck, ?_⟩
    have e : s.lss.signBytes.bytes = bs0 := by rw [hb]; rfl
    unfold FilePV.sign
    rw [hck]
    simp only [e, hbb, hs0]
    have hstep : s.lss.step = k.step := by rw [← hk]; rfl
    by_cases he : bs = bs0
    · simp [he]
    · rw [if_neg he, hstep, (onlyDiffer_iff _ _ _).2 (hd.resolve_left he)]
  cases ha with
  | vote v c _ hw hp hc' ht hm hbs _ _ =>
    obtain ⟨st, h1, h2⟩ : ∃ st, voteTypeToStep v.type = .ok st ∧ st = (if v.type = 1 then 2 else 3) := by
      rcases ht with h | h <;> rw [h]
      · exact ⟨2, by decide, by decide⟩
      · exact ⟨3, by decide, by decide⟩
    obtain ⟨hck, hsg⟩ := hsign ⟨v.height, v.round, st, bs, v.timestamp⟩ (by simp only [Block.hrs, h2]) rfl
    have hsb : singleBlock s v.height v.round (voteTypeToStep v.type) (voteSignBytes chainID v) v.timestamp =
        .ok ⟨v.height, v.round, st, bs, v.timestamp⟩ := by
      simp only at hck
      simp only [singleBlock, h1, hck, hbs]
    have hret : (PV.single chainID key sigOf s).signVote (some v) =
        .ret (finishVote v (some (sigOf bs0)) (((decodeVote bs0).map (·.timestamp)).getD v.timestamp)) none := by
      simp only [PV.single, hsb, hsg]
    have hv : v.Read v.validatorAddress.length := ⟨hp.type, hp.height, hp.round, hp.block, hp.time, hp.index, Nat.le_refl _⟩
    refine ⟨.signedVoteResponse
      (finishVote v (some (sigOf bs0)) (((decodeVote bs0).map (·.timestamp)).getD v.timestamp)) none, by simp only [handleRequest, handleSignVote, hret], ?_, ?_⟩
    · obtain ⟨k', bs', t, g1, _, g3, g4, g5, g6, g7⟩ := single_vote c hH hc hv hret
      have e2 : s.after chainID sigOf (.signVoteRequest (some v) c) = s := by
        simp only [FilePV.after, hsb, hsg]
      rw [e2] at g6 g7
      rw [hb] at g7
      rw [← hk]
      simp only [Option.some.injEq] at g7
      subst g7
      rw [g6]
      exact g1
    · simp only [FilePV.after, hsb, hsg]
  | proposal p c _ hw hp hc' hbs _ _ =>
    obtain ⟨hck, hsg⟩ := hsign ⟨p.height, p.round, stepPropose, bs, p.timestamp⟩ rfl rfl
    have hsb : singleBlock s p.height p.round (.ok stepPropose) (proposalSignBytes chainID p) p.timestamp =
        .ok ⟨p.height, p.round, stepPropose, bs, p.timestamp⟩ := by
      simp only at hck
      simp only [singleBlock, hck, hbs]
    have hret : (PV.single chainID key sigOf s).signProposal (some p) =
        .ret (finishProposal p (some (sigOf bs0)) (((decodeProposal bs0).map (·.timestamp)).getD p.timestamp)) none := by
      simp only [PV.single, hsb, hsg]
    have hv : p.Read := ⟨hp.type, hp.height, hp.round, hp.polRound, hp.block, hp.time⟩
    refine ⟨.signedProposalResponse
      (finishProposal p (some (sigOf bs0)) (((decodeProposal bs0).map (·.timestamp)).getD p.timestamp)) none, by simp only [handleRequest, handleSignProposal, hret], ?_, ?_⟩
    · obtain ⟨k', bs', t, g1, _, g3, g4, g5, g6, g7⟩ := single_proposal c hH hc hv hret
      have e2 : s.after chainID sigOf (.signProposalRequest (some p) c) = s := by
        simp only [FilePV.after, hsb, hsg]
      rw [e2] at g6 g7
      rw [hb] at g7
      rw [← hk]
      simp only [Option.some.injEq] at g7
      subst g7
      rw [g6]
      exact g1
    · simp only [FilePV.after, hsb, hsg]

/-- C113, asked again: after any history of the signer, a request for the last block signed that differs from what was
signed at most by its time (a chain node that lost its connection asks again) is answered with a message that has the bytes
and the signature of before; nothing is signed anew. -/
theorem C113_again (text : Err → Bytes) (chainID key : Bytes) (sigOf : Bytes → Bytes) (hc : chainID.length < 2 ^ 62)
    (hkey : key.length < 2 ^ 62) (htext : ∀ e, (text e).length < 2 ^ 62) (h64 : ∀ bs, (sigOf bs).length = 64)
    (file : PFile) (es : List SingleEv) (s : Single) (hs : ((Single.boot file).run text chainID key sigOf es).2 = s)
    (j : Nat) (i : Meets) (m : PMsg) (k : HRS) (bs bs0 rest : Bytes) (reply : Bytes → PMsg) (pre : List Act)
    (ha : Asks chainID m k bs reply) (hl : (encPMsg m).length ≤ maxRemoteSignerMsgSize)
    (hn : NextFor s j i (writeMsg m ++ rest) pre) (hi : i.running = true ∧ i.stillRunning = true ∧ i.writeOk = true)
    (hk : s.pv.lss.hrs = k) (hb : s.pv.lss.signBytes = some bs0) (hd : bs = bs0 ∨ DifferOnlyByTime k.step bs0 bs) :
    ∃ r, SignedMsg chainID r k bs0 (sigOf bs0) ∧ s.step text chainID key sigOf (.iter j i) =
        (some (pre ++ [.read m, .write (writeMsg r)], .live (some rest)),
          ⟨s.pv, fun q => if q = j then .live (some rest) else s.loops q⟩) := by
  have hH := (holds_run hc hkey htext h64 es _ (holds_boot file)).1
  rw [hs] at hH
  obtain ⟨hwf, _⟩ := asks_block ha
  obtain ⟨r, h1, h2, h3⟩ := single_again (text := text) (key := key) hc hH ha hk hb hd
  refine ⟨r, h2, ?_⟩
  rw [single_serves hn hi (readMsg_writeMsg m rest hwf hl) h1, h3]

/-- A request for a block not above the last one signed, which is not that block again up to its time. -/
theorem single_refuses {text : Err → Bytes} {chainID key : Bytes} {sigOf : Bytes → Bytes} {s : FilePV}
    (hH : Holds chainID sigOf s) {m : PMsg} {k : HRS} {bs : Bytes} {reply : Bytes → PMsg}
    (ha : Asks chainID m k bs reply) (hk : ¬ s.lss.hrs ≺ k)
    (hd : s.lss.hrs = k → ∀ bs0, s.lss.signBytes = some bs0 → bs ≠ bs0 ∧ ¬ DifferOnlyByTime k.step bs0 bs) :
    ∃ r, handleRequest text (.single chainID key sigOf s) m = some r ∧ Refuses text m r ∧
      s.after chainID sigOf m = s := by
  have hck : ∀ t, (∃ e, s.lss.checkHRS ⟨k.height, k.round, k.step, t⟩ = .err e) ∨
      (s.lss.checkHRS ⟨k.height, k.round, k.step, t⟩ = .ok true ∧ s.lss.hrs = k) := by
    intro t
    rcases hx : s.lss.checkHRS ⟨k.height, k.round, k.step, t⟩ with (_ | _) | e | _
    · exact absurd (checkHRS_false hx) hk
    · exact .inr ⟨rfl, (checkHRS_true hx).1⟩
    · exact .inl ⟨e, rfl⟩
    · exfalso
      rcases hb : s.lss.signBytes with _ | bs0
      · revert hx; unfold SignState.checkHRS; rw [hb]; (repeat' split) <;> simp_all
      · obtain ⟨_, _, hs0⟩ := hH bs0 hb
        revert hx; unfold SignState.checkHRS; rw [hb, hs0]; (repeat' split) <;> simp_all
  have hsign : ∀ b : Block, b.hrs = k → b.signBytes = bs →
      (s.lss.checkHRS ⟨b.height, b.round, b.step, 0⟩ = .ok true) → ∃ e, s.sign sigOf b = (.err e, s) := by
    rintro ⟨h, r, st, sb, tm⟩ rfl rfl ht
    have e0 := (checkHRS_true ht).1
    rcases hb : s.lss.signBytes with _ | bs0
    · exact absurd hb (checkHRS_true ht).2.1
    obtain ⟨h1, h2⟩ := hd e0 bs0 hb
    have e : s.lss.signBytes.bytes = bs0 := by rw [hb]; rfl
    have hstep : s.lss.step = st := congrArg HRS.step e0
    unfold FilePV.sign
    rw [ht]
    simp only [e] at h1 ⊢
    rw [if_neg h1, hstep]
    rcases hx : onlyDifferByTimestamp st bs0 sb with _ | e
    · exact absurd ((onlyDiffer_iff _ _ _).1 hx) h2
    · exact ⟨e, rfl⟩
  cases ha with
  | vote v c _ hw hp hc' ht hm hbs _ _ =>
    obtain ⟨st, h1, h2⟩ : ∃ st, voteTypeToStep v.type = .ok st ∧ st = (if v.type = 1 then 2 else 3) := by
      rcases ht with h | h <;> rw [h]
      · exact ⟨2, by decide, by decide⟩
      · exact ⟨3, by decide, by decide⟩
    rw [← h2] at hck hsign
    rcases hck 0 with ⟨e, he⟩ | ⟨he, hk0⟩
    · have hsb : singleBlock s v.height v.round (voteTypeToStep v.type) (voteSignBytes chainID v) v.timestamp = .err e := by
        simp only [singleBlock, h1, he]
      refine ⟨.signedVoteResponse .zero (some (remoteSignerError text e)), ?_, .vote _ _ _, ?_⟩
      · simp only [handleRequest, handleSignVote, PV.single, hsb]
      · simp only [FilePV.after, hsb]
    · obtain ⟨e, hsg⟩ := hsign ⟨v.height, v.round, st, bs, v.timestamp⟩ rfl rfl he
      have hsb : singleBlock s v.height v.round (voteTypeToStep v.type) (voteSignBytes chainID v) v.timestamp =
          .ok ⟨v.height, v.round, st, bs, v.timestamp⟩ := by
        simp only [singleBlock, h1, he, hbs]
      refine ⟨.signedVoteResponse .zero (some (remoteSignerError text e)), ?_, .vote _ _ _, ?_⟩
      · simp only [handleRequest, handleSignVote, PV.single, hsb, hsg]
      · simp only [FilePV.after, hsb, hsg]
  | proposal p c _ hw hp hc' hbs _ _ =>
    rcases hck 0 with ⟨e, he⟩ | ⟨he, hk0⟩
    · have hsb : singleBlock s p.height p.round (.ok stepPropose) (proposalSignBytes chainID p) p.timestamp = .err e := by
        simp only at he
        simp only [singleBlock, stepPropose, he]
      refine ⟨.signedProposalResponse .zero (some (remoteSignerError text e)), ?_, .proposal _ _ _, ?_⟩
      · simp only [handleRequest, handleSignProposal, PV.single, hsb]
      · simp only [FilePV.after, hsb]
    · obtain ⟨e, hsg⟩ := hsign ⟨p.height, p.round, stepPropose, bs, p.timestamp⟩ rfl rfl he
      have hsb : singleBlock s p.height p.round (.ok stepPropose) (proposalSignBytes chainID p) p.timestamp =
          .ok ⟨p.height, p.round, stepPropose, bs, p.timestamp⟩ := by
        simp only at he
        simp only [singleBlock, stepPropose, he, hbs]
      refine ⟨.signedProposalResponse .zero (some (remoteSignerError text e)), ?_, .proposal _ _ _, ?_⟩
      · simp only [handleRequest, handleSignProposal, PV.single, hsb, hsg]
      · simp only [FilePV.after, hsb, hsg]

/-- C113, refused: with `C113_answers` and `C113_again` this covers every request. After any history of the signer, a request
for a block that is not above the last one signed, and is not the last one again with at most another time, is answered with
an error; nothing is signed and the validator stays as it is. -/
theorem C113_refused (text : Err → Bytes) (chainID key : Bytes) (sigOf : Bytes → Bytes) (hc : chainID.length < 2 ^ 62)
    (hkey : key.length < 2 ^ 62) (htext : ∀ e, (text e).length < 2 ^ 62) (h64 : ∀ bs, (sigOf bs).length = 64)
    (file : PFile) (es : List SingleEv) (s : Single) (hs : ((Single.boot file).run text chainID key sigOf es).2 = s)
    (j : Nat) (i : Meets) (m : PMsg) (k : HRS) (bs rest : Bytes) (reply : Bytes → PMsg) (pre : List Act)
    (ha : Asks chainID m k bs reply) (hl : (encPMsg m).length ≤ maxRemoteSignerMsgSize)
    (hn : NextFor s j i (writeMsg m ++ rest) pre) (hi : i.running = true ∧ i.stillRunning = true ∧ i.writeOk = true)
    (hk : ¬ s.pv.lss.hrs ≺ k)
    (hd : s.pv.lss.hrs = k → ∀ bs0, s.pv.lss.signBytes = some bs0 → bs ≠ bs0 ∧ ¬ DifferOnlyByTime k.step bs0 bs) :
    ∃ r, Refuses text m r ∧ s.step text chainID key sigOf (.iter j i) =
        (some (pre ++ [.read m, .write (writeMsg r)], .live (some rest)),
          ⟨s.pv, fun q => if q = j then .live (some rest) else s.loops q⟩) := by
  have hH := (holds_run hc hkey htext h64 es _ (holds_boot file)).1
  rw [hs] at hH
  obtain ⟨hwf, _⟩ := asks_block ha
  obtain ⟨r, h1, h2, h3⟩ := single_refuses (text := text) (key := key) hH ha hk hd
  refine ⟨r, h2, ?_⟩
  rw [single_serves hn hi (readMsg_writeMsg m rest hwf hl) h1, h3]

/-- Two conflicting precommits of a chain node. -/
def voteA : Vote := ⟨2, 7, 1, ⟨[], 0, []⟩, ⟨1000, 5⟩, [1, 2], 3, none⟩
def voteB : Vote := { voteA with blockID := ⟨List.replicate 32 1, 1, List.replicate 32 2⟩ }

theorem asks_AB (v : Vote) (h : v = voteA ∨ v = voteB) : ∃ bs, Asks [97] (.signVoteRequest (some v) []) ⟨7, 1, 3⟩ bs
    (fun sig => .signedVoteResponse { v with signature := some sig } none) := by
  rcases h with rfl | rfl
  · exact ⟨_, .vote voteA [] _ ⟨by decide, by decide, by decide, by decide, by decide⟩
      ⟨by decide, by decide, by decide, by decide, by decide, by decide, by decide, by decide⟩ (by decide) (by decide)
      (by simp [Vote.MistakenForProposal, voteA]) rfl (by decide +kernel) (by decide)⟩
  · exact ⟨_, .vote voteB [] _ ⟨by decide, by decide, by decide, by decide, by decide⟩
      ⟨by decide, by decide, by decide, by decide, by decide, by decide, by decide, by decide⟩ (by decide) (by decide)
      (by simp [Vote.MistakenForProposal, voteA, voteB]) rfl (by decide +kernel) (by decide)⟩

theorem reply_small (v : Vote) (h : v = voteA ∨ v = voteB) (sig : Bytes) (hs : sig.length = 64) :
    (encPMsg (.signedVoteResponse { v with signature := some sig } none)).length ≤ maxRemoteSignerMsgSize := by
  have h1 := encPVote_le { v with signature := some sig }
  have h2 := encLen_le 0x0a (encPVote { v with signature := some sig })
  have h3 := encLen_le 0x22 (encLen 0x0a (encPVote { v with signature := some sig }) ++ (encMsgField 0x12 (none : Option Bytes) ++ []))
  have h4 : maxRemoteSignerMsgSize = 10240 := rfl
  have h5 : v.blockID.hash.length + v.blockID.pshHash.length + v.validatorAddress.length ≤ 66 := by
    rcases h with rfl | rfl <;> decide
  simp only [Slice.bytes, Option.getD_some, hs] at h1
  simp only [List.length_append, List.length_nil] at h3
  have h6 : (encMsgField 0x12 (none : Option Bytes)).length = 0 := rfl
  simp only [encPMsg, Option.map_none]
  omega

/-- What chain node 1 does: it sends a precommit and a message that makes the process abort (C48); the process is started
again; and it sends another precommit. -/
def forgets : List SingleEv :=
  [.iter 1 ⟨true, 0, writeMsg (.signVoteRequest (some voteA) []) ++ [2, 0x1a, 0], true, true⟩,
   .iter 1 ⟨true, 0, [], true, true⟩, .restart,
   .iter 1 ⟨true, 0, writeMsg (.signVoteRequest (some voteB) []), true, true⟩]

/-- C113 (full statement) is false: whatever the key and the state file, one chain node gets two signed precommits for
different blocks at the same height and round, if the process is started again after it has aborted, which the chain node can
bring about. -/
theorem C113_fails (text : Err → Bytes) (key : Bytes) (sigOf : Bytes → Bytes) (h64 : ∀ bs, (sigOf bs).length = 64)
    (file : PFile) : ∃ v v',
    Reads ((Single.boot file).run text [97] key sigOf forgets).1 (.signedVoteResponse v none) ∧
    Reads ((Single.boot file).run text [97] key sigOf forgets).1 (.signedVoteResponse v' none) ∧
    v.type = v'.type ∧ v.height = v'.height ∧ v.round = v'.round ∧ v.blockID ≠ v'.blockID ∧
    ((Single.boot file).run text [97] key sigOf (forgets.take 2)).2.loops 1 = .crashed := by
  obtain ⟨bs, hA⟩ := asks_AB voteA (.inl rfl)
  obtain ⟨bs', hB⟩ := asks_AB voteB (.inr rfl)
  have above : ∀ file, (Single.boot file).pv.lss.hrs ≺ (⟨7, 1, 3⟩ : HRS) := fun _ => by
    show (⟨0, 0, 0⟩ : HRS) ≺ _; decide
  obtain ⟨s1, e1, _, e3, _, e5⟩ := C113_answers text [97] key sigOf h64 (.boot file) 1
    ⟨true, 0, writeMsg (.signVoteRequest (some voteA) []) ++ [2, 0x1a, 0], true, true⟩ _ _ _ [2, 0x1a, 0] _ _ hA
    (by decide +kernel) (.dials rfl rfl) ⟨rfl, rfl, rfl⟩ (above file)
  have hcr : s1.step text [97] key sigOf (.iter 1 ⟨true, 0, [], true, true⟩) =
      (some ([.read (.signVoteRequest none []), .crash], .crashed), ⟨s1.pv, fun _ => .crashed⟩) := by
    have hr : readMsg [2, 0x1a, 0] = some (.signVoteRequest none [], []) := by decide +kernel
    simp only [Single.step, e3, loopIter, if_true, dialPhase, servePhase, hr, handleRequest, handleSignVote, PV.single,
      List.nil_append, readIn, FilePV.after]
  obtain ⟨s2, f1, _, _, _, f5⟩ := C113_answers text [97] key sigOf h64 (.boot s1.pv.file) 1
    ⟨true, 0, writeMsg (.signVoteRequest (some voteB) []), true, true⟩ _ _ _ [] _ _ hB
    (by decide +kernel) (.dials rfl (by simp)) ⟨rfl, rfl, rfl⟩ (above _)
  have e6 := e5 (reply_small voteA (.inl rfl) _ (h64 _)) []
  have f6 := f5 (reply_small voteB (.inr rfl) _ (h64 _)) []
  rw [List.append_nil] at e6 f6
  have hrun : ((Single.boot file).run text [97] key sigOf forgets).1 =
      [((Single.boot file).step text [97] key sigOf
          (.iter 1 ⟨true, 0, writeMsg (.signVoteRequest (some voteA) []) ++ [2, 0x1a, 0], true, true⟩)).1,
        some ([.read (.signVoteRequest none []), .crash], .crashed), none,
        ((Single.boot s1.pv.file).step text [97] key sigOf
          (.iter 1 ⟨true, 0, writeMsg (.signVoteRequest (some voteB) []), true, true⟩)).1] := by
    simp only [forgets, Single.run, e1, hcr]
    rfl
  rw [hrun]
  refine ⟨_, _, ⟨_, _, _, List.mem_cons.2 (.inl (by rw [e1])), List.mem_append_right _ (by simp), e6⟩,
    ⟨_, _, _, List.mem_cons_of_mem _ (List.mem_cons_of_mem _ (List.mem_cons_of_mem _ (List.mem_singleton.2 (by rw [f1])))),
      List.mem_append_right _ (by simp), f6⟩, rfl, rfl, rfl, show voteA.blockID ≠ voteB.blockID by decide, ?_⟩
  · simp only [forgets, List.take, Single.run, e1, hcr]

/-- A history as in `C113_partial` in which chain nodes are given votes: node 1 asks for a precommit, node 2 for the same one
with another time and for a conflicting one (which it is refused). -/
def sig64 (bs : Bytes) : Bytes := (bs ++ List.replicate 64 0).take 64
def twoNodes : List SingleEv :=
  [.iter 1 ⟨true, 0, writeMsg (.signVoteRequest (some voteA) []), true, true⟩,
   .iter 2 ⟨true, 3, writeMsg (.signVoteRequest (some { voteA with timestamp := ⟨2000, 6⟩ }) []) ++
     writeMsg (.signVoteRequest (some voteB) []), true, true⟩,
   .iter 2 ⟨true, 0, [], true, true⟩]

theorem sig64_length (bs : Bytes) : (sig64 bs).length = 64 := by
  simp [sig64]

/-- The messages that can be read in what was done. -/
def readBack (outs : List (Option (List Act × Loop))) : List PMsg :=
  outs.flatMap fun o => (o.map (·.1)).getD [] |>.filterMap fun a => match a with
    | .write out => (readMsg out).map (·.1)
    | _ => none

example : SingleEv.restart ∉ twoNodes ∧
    (readBack ((Single.boot emptyFile).run (fun _ => [101]) [97] [9] sig64 twoNodes).1).map (fun m => match m with
      | .signedVoteResponse v e => some (v.timestamp, v.signature.isSome, e)
      | _ => none) =
      [some (⟨1000, 5⟩, true, none), some (⟨1000, 5⟩, true, none), some (Vote.zero.timestamp, false, some ⟨0, [101]⟩)] := by
  refine ⟨by simp [twoNodes], by decide +kernel⟩

/-- A request as in `C113_answers`. -/
example : ∃ m k bs reply, Asks [97] m k bs reply ∧ (encPMsg m).length ≤ maxRemoteSignerMsgSize ∧
    NextFor (.boot emptyFile) 1 ⟨true, 2, writeMsg m ++ [], true, true⟩ (writeMsg m ++ [])
      [.dialFailed, .dialFailed, .connect] ∧ (Single.boot emptyFile).pv.lss.hrs ≺ k := by
  obtain ⟨bs, h⟩ := asks_AB voteA (.inl rfl)
  exact ⟨_, _, _, _, h, by decide +kernel, .dials rfl rfl, by show (⟨0, 0, 0⟩ : HRS) ≺ _; decide⟩

/-- A request as in `C113_again`: the second of `twoNodes`. -/
example : ∃ bs bs0, voteSignBytes [97] { voteA with timestamp := ⟨2000, 6⟩ } = .ok bs ∧
    voteSignBytes [97] voteA = .ok bs0 ∧
    ((Single.boot emptyFile).run (fun _ => [101]) [97] [9] sig64 (twoNodes.take 1)).2.pv.lss.hrs = ⟨7, 1, 3⟩ ∧
    ((Single.boot emptyFile).run (fun _ => [101]) [97] [9] sig64 (twoNodes.take 1)).2.pv.lss.signBytes = some bs0 ∧
    bs ≠ bs0 ∧ DifferOnlyByTime 3 bs0 bs := by
  refine ⟨_, _, rfl, rfl, by decide +kernel, by decide +kernel, by decide +kernel, ?_⟩
  rw [← onlyDiffer_iff]
  decide +kernel

/-- A request as in `C113_refused`: the third of `twoNodes`. -/
example : ∃ bs bs0, voteSignBytes [97] voteB = .ok bs ∧ voteSignBytes [97] voteA = .ok bs0 ∧
    ((Single.boot emptyFile).run (fun _ => [101]) [97] [9] sig64 (twoNodes.take 2)).2.pv.lss.hrs = ⟨7, 1, 3⟩ ∧
    ((Single.boot emptyFile).run (fun _ => [101]) [97] [9] sig64 (twoNodes.take 2)).2.pv.lss.signBytes = some bs0 ∧
    bs ≠ bs0 ∧ ¬ DifferOnlyByTime 3 bs0 bs := by
  refine ⟨_, _, rfl, rfl, by decide +kernel, by decide +kernel, by decide +kernel, ?_⟩
  rw [← onlyDiffer_iff]
  decide +kernel

end Horcrux
