import Verif.Spec.Remote
import Verif.Lemmas.Remote
import Verif.Props.FilePV
/-
Properties C47, C48: the connections to the chain nodes.
-/
namespace Horcrux
open Spec

/-! ### One reply per request -/

theorem handle_replies {text : Err → Bytes} {pv : PV} {m r : PMsg} (h : handleRequest text pv m = some r) :
    Replies text pv m r := by
  cases m with
  | signVoteRequest v c =>
    simp only [handleRequest, handleSignVote] at h
    split at h
    · cases h
    · next h1 => cases h; exact .voteFailed h1
    · next h1 => cases h; exact .vote h1
  | signProposalRequest v c =>
    simp only [handleRequest, handleSignProposal] at h
    split at h
    · cases h
    · next h1 => cases h; exact .proposalFailed h1
    · next h1 => cases h; exact .proposal h1
  | pubKeyRequest c =>
    simp only [handleRequest, handlePubKey, Option.some.injEq] at h
    split at h
    · next h1 => subst h; exact .pubKeyFailed h1
    · next h1 => subst h; exact .pubKey h1
  | pingRequest => simp only [handleRequest, Option.some.injEq] at h; subst h; exact .ping
  | empty => simp only [handleRequest, Option.some.injEq] at h; subst h; exact .other (by simp) (by simp) (by simp) (by simp)
  | pubKeyResponse k e =>
    simp only [handleRequest, Option.some.injEq] at h; subst h; exact .other (by simp) (by simp) (by simp) (by simp)
  | signedVoteResponse k e =>
    simp only [handleRequest, Option.some.injEq] at h; subst h; exact .other (by simp) (by simp) (by simp) (by simp)
  | signedProposalResponse k e =>
    simp only [handleRequest, Option.some.injEq] at h; subst h; exact .other (by simp) (by simp) (by simp) (by simp)
  | pingResponse =>
    simp only [handleRequest, Option.some.injEq] at h; subst h; exact .other (by simp) (by simp) (by simp) (by simp)

theorem replies_handle {text : Err → Bytes} {pv : PV} {m r : PMsg} (h : Replies text pv m r) :
    handleRequest text pv m = some r := by
  cases h with
  | vote h => simp [handleRequest, handleSignVote, h]
  | voteFailed h => simp [handleRequest, handleSignVote, h, remoteSignerError]
  | proposal h => simp [handleRequest, handleSignProposal, h]
  | proposalFailed h => simp [handleRequest, handleSignProposal, h, remoteSignerError]
  | pubKey h => simp [handleRequest, handlePubKey, h]
  | pubKeyFailed h => simp [handleRequest, handlePubKey, h, remoteSignerError]
  | ping => rfl
  | other h1 h2 h3 h4 =>
    cases m with
    | signVoteRequest v c => exact absurd rfl (h1 v c)
    | signProposalRequest v c => exact absurd rfl (h2 v c)
    | pubKeyRequest c => exact absurd rfl (h3 c)
    | pingRequest => exact absurd rfl h4
    | _ => rfl

/-- The validator panics on the request. -/
theorem handle_none {text : Err → Bytes} {pv : PV} {m : PMsg} (h : handleRequest text pv m = none) :
    (∃ v c, m = .signVoteRequest v c ∧ pv.signVote v = .panic) ∨
      (∃ p c, m = .signProposalRequest p c ∧ pv.signProposal p = .panic) := by
  cases m with
  | signVoteRequest v c =>
    simp only [handleRequest, handleSignVote] at h
    split at h
    · next h1 => exact .inl ⟨v, c, rfl, h1⟩
    · cases h
    · cases h
  | signProposalRequest v c =>
    simp only [handleRequest, handleSignProposal] at h
    split at h
    · next h1 => exact .inr ⟨v, c, rfl, h1⟩
    · cases h
    · cases h
  | _ => simp [handleRequest] at h

theorem dialPhase_silent (i : Iter) (conn : Option Bytes) : Silent (dialPhase i conn).1 := by
  intro a ha
  cases conn with
  | some s => simp [dialPhase] at ha
  | none =>
    simp only [dialPhase, List.mem_append, List.mem_replicate, List.mem_singleton] at ha
    rcases ha with ⟨_, h⟩ | h
    · exact .inl h
    · exact .inr (.inl h)

/-- The stream an iteration reads from. -/
def Iter.source (i : Iter) : Option Bytes → Bytes
  | some s => s
  | none => i.stream

/-- What one iteration does. -/
theorem loopIter_cases (text : Err → Bytes) (i : Iter) (conn : Option Bytes) :
    (Silent (loopIter text i (.live conn)).1 ∧
      (i.running = true → .close ∈ (loopIter text i (.live conn)).1) ∧
      ((loopIter text i (.live conn)).2 = .stopped ∨
        (readMsg (i.source conn) = none ∧ (loopIter text i (.live conn)).2 = .live none))) ∨
    (∃ pre post m r rest, (loopIter text i (.live conn)).1 = pre ++ [.read m, .write (writeMsg r)] ++ post ∧ Silent pre ∧
      Silent post ∧ readMsg (i.source conn) = some (m, rest) ∧ handleRequest text i.pv m = some r ∧
      (loopIter text i (.live conn)).2 = (if i.writeOk then .live (some rest) else .live none)) ∨
    (∃ pre m rest, (loopIter text i (.live conn)).1 = pre ++ [.read m, .crash] ∧ Silent pre ∧
      readMsg (i.source conn) = some (m, rest) ∧ handleRequest text i.pv m = none ∧
      (loopIter text i (.live conn)).2 = .crashed) := by
  have hd := dialPhase_silent i conn
  have hsrc : (dialPhase i conn).2 = i.source conn := by cases conn <;> rfl
  cases hr : i.running with
  | false =>
    left
    simp only [loopIter, hr]
    refine ⟨?_, by simp, .inl rfl⟩
    cases conn with
    | none => intro a ha; simp [closeConn] at ha
    | some s => intro a ha; simp [closeConn] at ha; exact .inr (.inr ha)
  | true =>
    cases hs : i.stillRunning with
    | false =>
      left
      simp only [loopIter, hr, hs, if_true]
      refine ⟨?_, by simp, .inl rfl⟩
      intro a ha
      simp only [Bool.false_eq_true, if_false, List.mem_append, List.mem_singleton] at ha
      rcases ha with ha | ha
      · exact hd a ha
      · exact .inr (.inr ha)
    | true =>
      simp only [loopIter, hr, hs, if_true, servePhase, hsrc]
      cases hm : readMsg (i.source conn) with
      | none =>
        left
        refine ⟨?_, by simp, .inr ⟨rfl, rfl⟩⟩
        intro a ha
        simp only [List.mem_append, List.mem_singleton] at ha
        rcases ha with ha | ha
        · exact hd a ha
        · exact .inr (.inr ha)
      | some mr =>
        obtain ⟨m, rest⟩ := mr
        right
        cases hh : handleRequest text i.pv m with
        | none =>
          right
          exact ⟨_, m, rest, by simp [hh], hd, rfl, hh, by simp [hh]⟩
        | some r =>
          left
          cases hw : i.writeOk with
          | true => exact ⟨_, [], m, r, rest, by simp [hh], hd, (by intro a ha; cases ha), rfl, hh, by simp [hh]⟩
          | false =>
            refine ⟨(dialPhase i conn).1, [.close], m, r, rest, by simp [hh], hd, ?_, rfl, hh, by simp [hh]⟩
            intro a ha
            simp only [List.mem_singleton] at ha
            exact .inr (.inr ha)

/-- Every iteration of a run is one from a live state, or nothing happens in it. -/
theorem loopRun_mem {text : Err → Bytes} {l l' : Loop} {is : List Iter} {tr : List (Iter × List Act)}
    (h : loopRun text l is = (tr, l')) {i : Iter} {acts : List Act} (hm : (i, acts) ∈ tr) :
    acts = [] ∨ ∃ conn, acts = (loopIter text i (.live conn)).1 := by
  induction is generalizing l tr with
  | nil => simp [loopRun] at h; rw [h.1] at hm; cases hm
  | cons j is ih =>
    simp only [loopRun, Prod.mk.injEq] at h
    rw [← h.1] at hm
    rcases List.mem_cons.1 hm with hm | hm
    · simp only [Prod.mk.injEq] at hm
      obtain ⟨rfl, rfl⟩ := hm
      cases l with
      | live conn => exact .inr ⟨conn, rfl⟩
      | stopped => exact .inl rfl
      | crashed => exact .inl rfl
    · exact ih (Prod.ext rfl h.2) hm

/-- C47: whatever the nodes send, whatever the validator does, however connections and writes fail: each iteration of a
connection's loop either reads nothing and writes nothing, or reads one message and writes exactly one message, the
reply to it, or the validator panics on the message. -/
theorem C47_iteration (text : Err → Bytes) (is : List Iter) (tr : List (Iter × List Act)) (l : Loop)
    (h : loopRun text (.live none) is = (tr, l)) :
    ∀ x ∈ tr, Silent x.2 ∨
      (∃ pre post m r, x.2 = pre ++ [.read m, .write (writeMsg r)] ++ post ∧ Silent pre ∧ Silent post ∧
        Replies text x.1.pv m r) ∨
      (∃ pre m, x.2 = pre ++ [.read m, .crash] ∧ Silent pre ∧
        ((∃ v c, m = .signVoteRequest v c ∧ x.1.pv.signVote v = .panic) ∨
          (∃ p c, m = .signProposalRequest p c ∧ x.1.pv.signProposal p = .panic))) := by
  rintro ⟨i, acts⟩ hx
  rcases loopRun_mem h hx with h1 | ⟨conn, h1⟩
  · left; intro a ha; simp only at ha; rw [h1] at ha; cases ha
  · simp only
    rcases loopIter_cases text i conn with hc | ⟨pre, post, m, r, rest, h2, h3, h4, _, h5, _⟩ |
      ⟨pre, m, rest, h2, h3, _, h5, _⟩
    · left; rw [h1]; exact hc.1
    · right; left; exact ⟨pre, post, m, r, by rw [h1, h2], h3, h4, handle_replies h5⟩
    · right; right; exact ⟨pre, m, by rw [h1, h2], h3, handle_none h5⟩

/-- C47 for a whole connection: a node that sends any number of requests gets the replies to them, one each and in
order, as long as the connection lasts; then the loop waits for more (`tail`). An exchange is an iteration, the request
and the reply. -/
theorem C47_stream (text : Err → Bytes) (tail : Bytes) (xs : List (Iter × PMsg × PMsg))
    (hwf : ∀ x ∈ xs, x.2.1.WF ∧ (encPMsg x.2.1).length ≤ maxRemoteSignerMsgSize)
    (hr : ∀ x ∈ xs, Replies text x.1.pv x.2.1 x.2.2)
    (hi : ∀ x ∈ xs, x.1.running = true ∧ x.1.stillRunning = true ∧ x.1.writeOk = true) :
    loopRun text (.live (some (xs.flatMap (fun x => writeMsg x.2.1) ++ tail))) (xs.map (·.1)) =
      (xs.map fun x => (x.1, [.read x.2.1, .write (writeMsg x.2.2)]), .live (some tail)) := by
  induction xs with
  | nil => rfl
  | cons x xs ih =>
    obtain ⟨i, m, r⟩ := x
    obtain ⟨h1, h2, h3⟩ := hi _ (List.mem_cons_self ..)
    obtain ⟨hw, hl⟩ := hwf _ (List.mem_cons_self ..)
    have hr1 := replies_handle (hr _ (List.mem_cons_self ..))
    simp only at h1 h2 h3 hw hl hr1
    have hread : readMsg (List.flatMap (fun x : Iter × PMsg × PMsg => writeMsg x.2.1) ((i, m, r) :: xs) ++ tail) =
        some (m, xs.flatMap (fun x => writeMsg x.2.1) ++ tail) := by
      rw [List.flatMap_cons, List.append_assoc]
      exact readMsg_writeMsg m _ hw hl
    have hstep : loopIter text i (.live (some (List.flatMap (fun x : Iter × PMsg × PMsg => writeMsg x.2.1)
        ((i, m, r) :: xs) ++ tail))) =
        ([.read m, .write (writeMsg r)], .live (some (xs.flatMap (fun x => writeMsg x.2.1) ++ tail))) := by
      simp only [loopIter, h1, h2, if_true, dialPhase, servePhase, hread, hr1, h3]
      simp
    have ih' := ih (fun x hx => hwf x (List.mem_cons_of_mem _ hx)) (fun x hx => hr x (List.mem_cons_of_mem _ hx))
      (fun x hx => hi x (List.mem_cons_of_mem _ hx))
    simp only [loopRun, hstep, List.map_cons, ih']

/-- A connection is opened for the first request, and kept. -/
theorem C47_connect (text : Err → Bytes) (i : Iter) (m r : PMsg) (rest : Bytes)
    (hwf : m.WF ∧ (encPMsg m).length ≤ maxRemoteSignerMsgSize) (hr : Replies text i.pv m r)
    (hi : i.running = true ∧ i.stillRunning = true ∧ i.writeOk = true) (hs : i.stream = writeMsg m ++ rest) :
    loopIter text i (.live none) =
      (List.replicate i.dialFailures .dialFailed ++ [.connect, .read m, .write (writeMsg r)], .live (some rest)) := by
  simp only [loopIter, hi, if_true, dialPhase, servePhase, hs, readMsg_writeMsg m rest hwf.1 hwf.2, replies_handle hr]
  simp

/-- C47: the reply is for the kind of the request, and carries an error if and only if the validator's call failed. -/
theorem C47_kind (text : Err → Bytes) (pv : PV) (m r : PMsg) (h : handleRequest text pv m = some r) :
    (∀ v c, m = .signVoteRequest v c → ∃ v' e, r = .signedVoteResponse v' e ∧
        (e = none ↔ ∃ w, pv.signVote v = .ret w none ∧ v' = w) ∧ (e ≠ none → v' = .zero)) ∧
    (∀ p c, m = .signProposalRequest p c → ∃ p' e, r = .signedProposalResponse p' e ∧
        (e = none ↔ ∃ w, pv.signProposal p = .ret w none ∧ p' = w) ∧ (e ≠ none → p' = .zero)) ∧
    (∀ c, m = .pubKeyRequest c → ∃ k e, r = .pubKeyResponse k e ∧ (e = none ↔ pv.pubKey = .ok k) ∧
        (e ≠ none → k = .unset)) ∧
    (m = .pingRequest → r = .pingResponse) := by
  have hr := handle_replies h
  refine ⟨?_, ?_, ?_, ?_⟩
  · rintro v c rfl
    cases hr with
    | vote h1 => exact ⟨_, none, rfl, by simp [h1], by simp⟩
    | voteFailed h1 => exact ⟨_, some _, rfl, by simp [h1], by simp⟩
    | other h1 _ _ _ => exact absurd rfl (h1 v c)
  · rintro v c rfl
    cases hr with
    | proposal h1 => exact ⟨_, none, rfl, by simp [h1], by simp⟩
    | proposalFailed h1 => exact ⟨_, some _, rfl, by simp [h1], by simp⟩
    | other _ h1 _ _ => exact absurd rfl (h1 v c)
  · rintro c rfl
    cases hr with
    | pubKey h1 => exact ⟨_, none, rfl, by simp [h1], by simp⟩
    | pubKeyFailed h1 => exact ⟨_, some _, rfl, by simp [h1], by simp⟩
    | other _ _ h1 _ => exact absurd rfl (h1 c)
  · rintro rfl
    cases hr with
    | ping => rfl
    | other _ _ _ h1 => exact absurd rfl h1

/-- C47 with the threshold validator: a signed vote is the requested vote with the signature and the time that
`SignBlock` returned for it; the chain ID is the signer's own, whatever the request says. -/
theorem C47_threshold (text : Err → Bytes) (chainID key : Bytes) (sb : Block → Slice × GoTime × Option Err) (v : Vote)
    (c : Bytes) (v' : Vote) (b : Block) (hb : voteBlock chainID v = .ok b)
    (h : handleRequest text (.threshold chainID key sb) (.signVoteRequest (some v) c) =
      some (.signedVoteResponse v' none)) :
    (sb b).2.2 = none ∧ v' = { v with signature := (sb b).1, timestamp := (sb b).2.1 } := by
  have := handle_replies h
  cases this with
  | vote h =>
    simp only [PV.threshold, hb, Ret.ret.injEq] at h
    exact ⟨h.2, h.1.symm⟩

theorem C47_threshold_proposal (text : Err → Bytes) (chainID key : Bytes) (sb : Block → Slice × GoTime × Option Err)
    (p : Proposal) (c : Bytes) (p' : Proposal) (b : Block) (hb : proposalBlock chainID p = .ok b)
    (h : handleRequest text (.threshold chainID key sb) (.signProposalRequest (some p) c) =
      some (.signedProposalResponse p' none)) :
    (sb b).2.2 = none ∧ p' = { p with signature := (sb b).1, timestamp := (sb b).2.1 } := by
  have := handle_replies h
  cases this with
  | proposal h =>
    simp only [PV.threshold, hb, Ret.ret.injEq] at h
    exact ⟨h.2, h.1.symm⟩

/-- A prevote for no block at height 7. -/
def exVote : Vote := ⟨1, 7, 0, ⟨[], 0, []⟩, ⟨1000, 5⟩, [1, 2], 3, none⟩

/-- The exchanges of a connection: a vote, which is signed, and a ping. -/
example :
    let pv : PV := .threshold [0x63] [9, 9] (fun b => (some [1, 2, 3], b.timestamp, none))
    let i : Iter := ⟨true, 2, [], true, pv, true⟩
    let xs : List (Iter × PMsg × PMsg) :=
      [(i, .signVoteRequest (some exVote) [0x78], .signedVoteResponse { exVote with signature := some [1, 2, 3] } none),
        (i, .pingRequest, .pingResponse)]
    (∀ x ∈ xs, x.2.1.WF ∧ (encPMsg x.2.1).length ≤ maxRemoteSignerMsgSize) ∧
    (∀ x ∈ xs, Replies (fun _ => []) x.1.pv x.2.1 x.2.2) ∧
    (∀ x ∈ xs, x.1.running = true ∧ x.1.stillRunning = true ∧ x.1.writeOk = true) := by
  refine ⟨?_, ?_, ?_⟩
  · intro x hx
    simp only [List.mem_cons, List.not_mem_nil, or_false] at hx
    rcases hx with rfl | rfl
    · refine ⟨⟨?_, by decide⟩, by decide +kernel⟩
      intro x hx
      cases hx
      exact ⟨by decide, by decide, by decide, by decide, by decide, by decide, by decide, by decide⟩
    · exact ⟨trivial, by decide +kernel⟩
  · intro x hx
    simp only [List.mem_cons, List.not_mem_nil, or_false] at hx
    rcases hx with rfl | rfl
    · exact .vote (by decide +kernel)
    · exact .ping
  · intro x hx
    simp only [List.mem_cons, List.not_mem_nil, or_false] at hx
    rcases hx with rfl | rfl <;> exact ⟨rfl, rfl, rfl⟩

/-! ### A node cannot crash the signer -/

theorem valid_iff_hashesOk (b : BlockID) : b.valid = true ↔ HashesOk b := by
  simp [BlockID.valid, HashesOk]

theorem canonicalizeBlockID_cases (b : BlockID) :
    (HashesOk b ∧ ∃ c, canonicalizeBlockID b = .ok c) ∨ (¬ HashesOk b ∧ canonicalizeBlockID b = .panic) := by
  unfold canonicalizeBlockID
  by_cases h : b.valid = true
  · left
    refine ⟨(valid_iff_hashesOk b).1 h, ?_⟩
    rw [if_neg (by simp [h])]
    split
    · exact ⟨_, rfl⟩
    · exact ⟨_, rfl⟩
  · right
    exact ⟨fun h' => h ((valid_iff_hashesOk b).2 h'), by rw [if_pos (by simp [h])]⟩

theorem voteSignBytes_cases (chainID : Bytes) (v : Vote) (ht : v.timestamp.valid = true) :
    (HashesOk v.blockID ∧ ∃ bs, voteSignBytes chainID v = .ok bs) ∨
      (¬ HashesOk v.blockID ∧ voteSignBytes chainID v = .panic) := by
  unfold voteSignBytes
  rcases canonicalizeBlockID_cases v.blockID with ⟨h, c, hc⟩ | ⟨h, hc⟩
  · left; rw [hc]; simp [ht, h]
  · right; rw [hc]; simp [h]

theorem proposalSignBytes_cases (chainID : Bytes) (p : Proposal) (ht : p.timestamp.valid = true) :
    (HashesOk p.blockID ∧ ∃ bs, proposalSignBytes chainID p = .ok bs) ∨
      (¬ HashesOk p.blockID ∧ proposalSignBytes chainID p = .panic) := by
  unfold proposalSignBytes
  rcases canonicalizeBlockID_cases p.blockID with ⟨h, c, hc⟩ | ⟨h, hc⟩
  · left; rw [hc]; simp [ht, h]
  · right; rw [hc]; simp [h]

theorem voteTypeToStep_cases (t : Int) :
    ((t = 1 ∨ t = 2) ∧ ∃ s, voteTypeToStep t = .ok s) ∨ (¬ (t = 1 ∨ t = 2) ∧ voteTypeToStep t = .panic) := by
  unfold voteTypeToStep
  by_cases h1 : t = 1
  · left; exact ⟨.inl h1, _, by rw [if_pos h1]⟩
  · by_cases h2 : t = 2
    · left; exact ⟨.inr h2, _, by rw [if_neg h1, if_pos h2]⟩
    · right; exact ⟨by omega, by rw [if_neg h1, if_neg h2]⟩

/-- With the threshold validator, exactly the malformed requests make the process panic. -/
theorem threshold_panic_iff (text : Err → Bytes) (chainID key : Bytes) (sb : Block → Slice × GoTime × Option Err)
    (m : PMsg) (ht : m.TimesValid) :
    handleRequest text (.threshold chainID key sb) m = none ↔ Malformed m := by
  cases m with
  | signVoteRequest v c =>
    cases v with
    | none => simp [handleRequest, handleSignVote, PV.threshold, Malformed]
    | some v =>
      simp only [handleRequest, handleSignVote, PV.threshold, Malformed, voteBlock]
      rcases voteTypeToStep_cases v.type with ⟨h1, s, h2⟩ | ⟨h1, h2⟩
      · rcases voteSignBytes_cases chainID v ht with ⟨h3, bs, h4⟩ | ⟨h3, h4⟩
        · rw [h2, h4]
          simp only [h1, h3, not_true, or_self, iff_false]
          split
          · next h => cases h
          · simp
          · simp
        · rw [h2, h4]; simp [h3]
      · rw [h2]; simp [h1]
  | signProposalRequest p c =>
    cases p with
    | none => simp [handleRequest, handleSignProposal, PV.threshold, Malformed]
    | some p =>
      simp only [handleRequest, handleSignProposal, PV.threshold, Malformed, proposalBlock]
      rcases proposalSignBytes_cases chainID p ht with ⟨h3, bs, h4⟩ | ⟨h3, h4⟩
      · rw [h4]
        simp only [h3, not_true, iff_false]
        split
        · next h => cases h
        · simp
        · simp
      · rw [h4]; simp [h3]
  | _ => simp [handleRequest, Malformed]

/-- C48 does not hold: any of these short byte strings, sent by a chain node, makes the process of the threshold
validator abort, in whatever state it is: a vote request without vote, a vote of type 0, a vote of type 3, a prevote
with a block hash of one byte, a proposal request without proposal, a proposal with a block hash of one byte. -/
theorem C48_fails (text : Err → Bytes) (chainID key : Bytes) (sb : Block → Slice × GoTime × Option Err)
    (stream : Bytes)
    (h : stream ∈ [[2, 0x1a, 0], [4, 0x1a, 2, 0x0a, 0], [6, 0x1a, 4, 0x0a, 2, 8, 3],
      [0x0b, 0x1a, 9, 0x0a, 7, 8, 1, 0x22, 3, 0x0a, 1, 0xff], [2, 0x2a, 0],
      [9, 0x2a, 7, 0x0a, 5, 0x2a, 3, 0x0a, 1, 0xff]]) :
    (loopRun text (.live none) [⟨true, 0, stream, true, .threshold chainID key sb, true⟩]).2 = .crashed := by
  have key' : ∀ stream m rest, readMsg stream = some (m, rest) → Malformed m →
      (loopRun text (.live none) [⟨true, 0, stream, true, .threshold chainID key sb, true⟩]).2 = .crashed := by
    intro stream m rest hr hm
    have := (threshold_panic_iff text chainID key sb m (readMsg_timesValid hr)).2 hm
    simp only [loopRun, loopIter, dialPhase, servePhase, if_true, hr, this]
  simp only [List.mem_cons, List.not_mem_nil, or_false] at h
  rcases h with rfl | rfl | rfl | rfl | rfl | rfl
  · exact key' _ (.signVoteRequest none []) [] (by decide +kernel) trivial
  · exact key' _ (.signVoteRequest (some .zero) []) [] (by decide +kernel) (by simp [Malformed, Vote.zero])
  · exact key' _ (.signVoteRequest (some { Vote.zero with type := 3 }) []) [] (by decide +kernel)
      (by simp [Malformed])
  · exact key' _ (.signVoteRequest (some { Vote.zero with type := 1, blockID := ⟨[0xff], 0, []⟩ }) []) []
      (by decide +kernel) (by simp [Malformed, HashesOk])
  · exact key' _ (.signProposalRequest none []) [] (by decide +kernel) trivial
  · exact key' _ (.signProposalRequest (some { Proposal.zero with blockID := ⟨[0xff], 0, []⟩ }) []) []
      (by decide +kernel) (by simp [Malformed, HashesOk])

/-- What does hold of C48: whatever bytes the nodes send, each iteration of the loop with the threshold validator (in any
state, as long as its `SignBlock` returns) writes a reply or drops the connection, or the process aborts; and it aborts
only on a malformed request: one without vote or proposal, a vote that is neither prevote nor precommit, or a hash that
has neither 0 nor 32 bytes. Missing: those requests. -/
theorem C48_partial (text : Err → Bytes) (chainID : Bytes) (is : List Iter) (tr : List (Iter × List Act)) (l : Loop)
    (hpv : ∀ i ∈ is, ∃ key sb, i.pv = .threshold chainID key sb) (h : loopRun text (.live none) is = (tr, l)) :
    (∀ x ∈ tr, .crash ∈ x.2 → ∃ m, .read m ∈ x.2 ∧ Malformed m) ∧
    (∀ x ∈ tr, ∀ m, .read m ∈ x.2 → ¬ Malformed m → ∃ r, .write (writeMsg r) ∈ x.2 ∧ Replies text x.1.pv m r) ∧
    ((∀ x ∈ tr, ∀ m, .read m ∈ x.2 → ¬ Malformed m) → l ≠ .crashed) := by
  have hmem : ∀ x ∈ tr, x.1 ∈ is := by
    clear hpv
    intro x hx
    have : ∀ (is : List Iter) (l0 : Loop) , x ∈ (loopRun text l0 is).1 → x.1 ∈ is := by
      intro is
      induction is with
      | nil => intro l0 hx; simp [loopRun] at hx
      | cons i is ih =>
        intro l0 hx
        simp only [loopRun, List.mem_cons] at hx ⊢
        rcases hx with rfl | hx
        · exact .inl rfl
        · exact .inr (ih _ hx)
    exact this is _ (by rw [h]; exact hx)
  have nosilent : ∀ {acts : List Act} {a : Act}, Silent acts → a ∈ acts → a ≠ .crash ∧ (∀ m, a ≠ .read m) := by
    intro acts a hs ha
    rcases hs a ha with rfl | rfl | rfl <;> simp
  refine ⟨?_, ?_, ?_⟩
  · rintro ⟨i, acts⟩ hx hcr
    obtain ⟨key, sb, hp⟩ := hpv i (hmem _ hx)
    simp only at hcr ⊢
    rcases loopRun_mem h hx with h1 | ⟨conn, h1⟩
    · rw [h1] at hcr; cases hcr
    · rcases loopIter_cases text i conn with hc | ⟨pre, post, m, r, rest, h2, h3, h4, h6, h5, _⟩ |
        ⟨pre, m, rest, h2, h3, h6, h5, _⟩
      · rw [h1] at hcr; exact absurd rfl (nosilent hc.1 hcr).1
      · rw [h1, h2] at hcr
        simp only [List.mem_append, List.mem_cons, List.not_mem_nil, or_false] at hcr
        rcases hcr with (hcr | hcr | hcr) | hcr
        · exact absurd rfl (nosilent h3 hcr).1
        · cases hcr
        · cases hcr
        · exact absurd rfl (nosilent h4 hcr).1
      · refine ⟨m, by rw [h1, h2]; simp, ?_⟩
        rw [hp] at h5
        exact (threshold_panic_iff text chainID key sb m (readMsg_timesValid h6)).1 h5
  · rintro ⟨i, acts⟩ hx m hrd hnm
    obtain ⟨key, sb, hp⟩ := hpv i (hmem _ hx)
    simp only at hrd ⊢
    rcases loopRun_mem h hx with h1 | ⟨conn, h1⟩
    · rw [h1] at hrd; cases hrd
    · rcases loopIter_cases text i conn with hc | ⟨pre, post, m', r, rest, h2, h3, h4, h6, h5, _⟩ |
        ⟨pre, m', rest, h2, h3, h6, h5, _⟩
      · rw [h1] at hrd; exact absurd rfl ((nosilent hc.1 hrd).2 m)
      · rw [h1, h2] at hrd
        simp only [List.mem_append, List.mem_cons, List.not_mem_nil, or_false] at hrd
        have hmm : m = m' := by
          rcases hrd with (hrd | hrd | hrd) | hrd
          · exact absurd rfl ((nosilent h3 hrd).2 m)
          · injection hrd
          · cases hrd
          · exact absurd rfl ((nosilent h4 hrd).2 m)
        subst hmm
        exact ⟨r, by rw [h1, h2]; simp, handle_replies h5⟩
      · rw [h1, h2] at hrd
        simp only [List.mem_append, List.mem_cons, List.not_mem_nil, or_false] at hrd
        have hmm : m = m' := by
          rcases hrd with hrd | hrd | hrd
          · exact absurd rfl ((nosilent h3 hrd).2 m)
          · injection hrd
          · cases hrd
        subst hmm
        rw [hp] at h5
        exact absurd ((threshold_panic_iff text chainID key sb m (readMsg_timesValid h6)).1 h5) hnm
  · intro hall hcr
    have gen : ∀ (is : List Iter) (l0 : Loop), (∀ i ∈ is, ∃ key sb, i.pv = .threshold chainID key sb) →
        l0 ≠ .crashed → (∀ x ∈ (loopRun text l0 is).1, ∀ m, .read m ∈ x.2 → ¬ Malformed m) →
        (loopRun text l0 is).2 ≠ .crashed := by
      intro is
      induction is with
      | nil => intro l0 _ h0 _; exact h0
      | cons i is ih =>
        intro l0 hpv h0 hall
        obtain ⟨key, sb, hp⟩ := hpv i (List.mem_cons_self ..)
        simp only [loopRun] at hall ⊢
        refine ih _ (fun j hj => hpv j (List.mem_cons_of_mem _ hj)) ?_
          (fun x hx => hall x (List.mem_cons_of_mem _ hx))
        have h1 := hall _ (List.mem_cons_self ..)
        cases l0 with
        | stopped => simp [loopIter]
        | crashed => exact absurd rfl h0
        | live conn =>
          rcases loopIter_cases text i conn with ⟨_, _, hc | hc⟩ | ⟨pre, post, m', r, rest, h2, h3, h4, h6, h5, h7⟩ |
            ⟨pre, m', rest, h2, h3, h6, h5, _⟩
          · rw [hc]; simp
          · rw [hc.2]; simp
          · rw [h7]; split <;> simp
          · exfalso
            refine h1 m' (by simp only [h2]; simp) ?_
            rw [hp] at h5
            exact (threshold_panic_iff text chainID key sb m' (readMsg_timesValid h6)).1 h5
    exact gen is (.live none) hpv (by simp) (by rw [h]; exact hall) (by rw [h]; exact hcr)

/-- An iteration in which the service runs and nothing can be read drops the connection. -/
theorem C48_unreadable (text : Err → Bytes) (i : Iter) (conn : Option Bytes)
    (hr : i.running = true ∧ i.stillRunning = true) (h : readMsg (i.source conn) = none) :
    (loopIter text i (.live conn)).2 = .live none ∧ .close ∈ (loopIter text i (.live conn)).1 := by
  have hsrc : (dialPhase i conn).2 = i.source conn := by cases conn <;> rfl
  simp [loopIter, hr, servePhase, hsrc, h]

/-- A garbled length, a too long message and a truncated one. -/
example : readMsg [0xff, 0xff, 0xff, 0xff, 0xff, 0xff, 0xff, 0xff, 0xff, 0x7f] = none ∧
    readMsg [0x81, 0x50, 1] = none ∧ readMsg [3, 0x1a, 1] = none := by decide +kernel

/-- The hypotheses of `C48_partial` on a run with a signed vote. -/
example :
    let pv : PV := .threshold [0x63] [9, 9] (fun b => (some [1, 2, 3], b.timestamp, none))
    let i : Iter := ⟨true, 0, writeMsg (.signVoteRequest (some exVote) []), true, pv, true⟩
    (∃ key sb, i.pv = .threshold [0x63] key sb) ∧ (loopRun (fun _ => []) (.live none) [i]).2 = .live (some []) :=
  ⟨⟨_, _, rfl⟩, by decide +kernel⟩

/-! ### Single-signer mode -/

/-- A sign state with sign bytes has a signature. -/
theorem filePV_sig {sigOf : Bytes → Bytes} {file : PFile} {tr : List (FEv × Option (Out (Bytes × Slice)))} {s : FilePV}
    (h : FRun sigOf (.boot file) tr s) : s.lss.signature = none → s.lss.signBytes = none := by
  induction h with
  | nil => intro _; rfl
  | snoc h e ih =>
    cases e with
    | restart => intro _; rfl
    | sign b =>
      simp only [FilePV.step, FilePV.sign]
      split
      · exact ih
      · exact ih
      · split
        · exact ih
        · split
          · exact ih
          · exact ih
      · intro h; cases h

theorem filePV_check {s : FilePV} (h : s.lss.signature = none → s.lss.signBytes = none) (k : HRST) :
    s.lss.checkHRS k ≠ .panic := by
  unfold SignState.checkHRS
  split
  · simp
  split
  · split
    · simp
    split
    · split
      · simp
      split
      · cases hb : s.lss.signBytes with
        | none => simp
        | some b =>
          cases hg : s.lss.signature with
          | none => rw [h hg] at hb; cases hb
          | some g => simp
      · simp
    · simp
  · simp

theorem filePV_sign_no_panic {sigOf : Bytes → Bytes} {s : FilePV}
    (h : s.lss.signature = none → s.lss.signBytes = none) (b : Block) : (s.sign sigOf b).1 ≠ .panic := by
  unfold FilePV.sign
  split
  · next h1 => exact absurd h1 (filePV_check h _)
  · simp
  · split
    · simp
    · split <;> simp
  · simp

/-- C48 in single-signer mode: after any history since the start, the process aborts only on a malformed request. (That it
then may abort: `C48_single_fails`.) -/
theorem C48_single_partial (text : Err → Bytes) (chainID key : Bytes) (sigOf : Bytes → Bytes) (file : PFile)
    (tr : List (FEv × Option (Out (Bytes × Slice)))) (s : FilePV) (hs : FRun sigOf (.boot file) tr s)
    (stream rest : Bytes) (m : PMsg) (hm : readMsg stream = some (m, rest)) (hn : ¬ Malformed m) :
    ∃ r, handleRequest text (.single chainID key sigOf s) m = some r ∧ Replies text (.single chainID key sigOf s) m r := by
  have hi := filePV_sig hs
  have ht := readMsg_timesValid hm
  cases hh : handleRequest text (.single chainID key sigOf s) m with
  | some r => exact ⟨r, rfl, handle_replies hh⟩
  | none =>
    exfalso
    apply hn
    rcases handle_none hh with ⟨v, c, rfl, hp⟩ | ⟨p, c, rfl, hp⟩
    · cases v with
      | none => trivial
      | some v =>
        simp only [PV.single] at hp
        simp only [Malformed]
        rcases voteTypeToStep_cases v.type with ⟨h1, st, h2⟩ | ⟨h1, h2⟩
        · rcases voteSignBytes_cases chainID v ht with ⟨h3, bs, h4⟩ | ⟨h3, h4⟩
          · exfalso
            rw [h2, h4] at hp
            simp only [singleBlock] at hp
            have hc := filePV_check hi ⟨v.height, v.round, st, 0⟩
            generalize hcc : s.lss.checkHRS ⟨v.height, v.round, st, 0⟩ = ck at hp hc
            cases ck with
            | panic => exact hc rfl
            | err e => cases hp
            | ok t =>
              simp only at hp
              have hsg := filePV_sign_no_panic (sigOf := sigOf) hi ⟨v.height, v.round, st, bs, v.timestamp⟩
              generalize (s.sign sigOf ⟨v.height, v.round, st, bs, v.timestamp⟩).1 = o at hp hsg
              cases o with
              | panic => exact hsg rfl
              | err e => cases hp
              | ok x => cases hp
          · exact .inr h3
        · exact .inl h1
    · cases p with
      | none => trivial
      | some p =>
        simp only [PV.single] at hp
        simp only [Malformed]
        rcases proposalSignBytes_cases chainID p ht with ⟨h3, bs, h4⟩ | ⟨h3, h4⟩
        · exfalso
          rw [h4] at hp
          simp only [singleBlock] at hp
          have hc := filePV_check hi ⟨p.height, p.round, stepPropose, 0⟩
          generalize hcc : s.lss.checkHRS ⟨p.height, p.round, stepPropose, 0⟩ = ck at hp hc
          cases ck with
          | panic => exact hc rfl
          | err e => cases hp
          | ok t =>
            simp only at hp
            have hsg := filePV_sign_no_panic (sigOf := sigOf) hi ⟨p.height, p.round, stepPropose, bs, p.timestamp⟩
            generalize (s.sign sigOf ⟨p.height, p.round, stepPropose, bs, p.timestamp⟩).1 = o at hp hsg
            cases o with
            | panic => exact hsg rfl
            | err e => cases hp
            | ok x => cases hp
        · exact h3

/-- C48 does not hold in single-signer mode either: a request without vote or proposal, or a vote of an unknown type. -/
theorem C48_single_fails (text : Err → Bytes) (chainID key : Bytes) (sigOf : Bytes → Bytes) (s : FilePV)
    (stream : Bytes) (h : stream ∈ [[2, 0x1a, 0], [4, 0x1a, 2, 0x0a, 0], [2, 0x2a, 0]]) :
    (loopRun text (.live none) [⟨true, 0, stream, true, .single chainID key sigOf s, true⟩]).2 = .crashed := by
  have key' : ∀ stream m rest, readMsg stream = some (m, rest) →
      handleRequest text (.single chainID key sigOf s) m = none →
      (loopRun text (.live none) [⟨true, 0, stream, true, .single chainID key sigOf s, true⟩]).2 = .crashed := by
    intro stream m rest hr hm
    simp only [loopRun, loopIter, dialPhase, servePhase, if_true, hr, hm]
  simp only [List.mem_cons, List.not_mem_nil, or_false] at h
  rcases h with rfl | rfl | rfl
  · exact key' _ (.signVoteRequest none []) [] (by decide +kernel) (by simp [handleRequest, handleSignVote, PV.single])
  · exact key' _ (.signVoteRequest (some .zero) []) [] (by decide +kernel)
      (by simp [handleRequest, handleSignVote, PV.single, singleBlock, voteTypeToStep, Vote.zero])
  · exact key' _ (.signProposalRequest none []) [] (by decide +kernel)
      (by simp [handleRequest, handleSignProposal, PV.single])

/-- A first vote in single-signer mode. -/
example : ∃ rest, readMsg (writeMsg (.signVoteRequest (some exVote) [])) = some (.signVoteRequest (some exVote) [], rest) ∧
    ¬ Malformed (.signVoteRequest (some exVote) []) ∧ FRun (fun b => b) (.boot ⟨0, 0, 0, none, none, none⟩) []
      (.boot ⟨0, 0, 0, none, none, none⟩) :=
  ⟨[], by decide +kernel, by simp [Malformed, exVote, HashesOk], .nil⟩

end Horcrux
