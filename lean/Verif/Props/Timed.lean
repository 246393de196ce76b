import Mathlib.Algebra.BigOperators.Group.Finset.Basic
import Mathlib.Algebra.Order.BigOperators.Group.Finset
import Verif.Lemmas.Timed
import Verif.Props.Grpc
/-
Properties C98–C100: how long sign requests take.
-/
namespace Horcrux
open Spec

section
variable {T : Tempo} {C : Crypto} {cfg : ValidatorCfg}

/-! ### C98 -/

/-- The calls of a run that have not ended have not been running longer than their limit. -/
theorem within {l : Nat → SignState} {es : List TEv} {s : Timed} (h : (Timed.start l).run T C cfg es = some s) {i : Nat}
    {c : TCall} (hc : s.calls[i]? = some c) (hr : c.running = true) :
    (c.role = .leader ∧ s.now ≤ c.since + 8990 + 104 * T.own + T.raft) ∨
    (c.role = .follower ∧ s.now ≤ c.since + 6900 + 31 * T.own) := by
  have hd := ((run_inv (Timed.Inv.start T l) h).ok i c hc)
  have hn : c.role ≠ .notInitialized := by
    intro hn
    unfold TCallOk at hd
    obtain ⟨_, _, _, _, hd⟩ := hd
    cases hs : c.stage <;> simp [hs, hn, TCall.running] at hd hr
  have := hd.done hr none none
  unfold TCallOk TCall.wait at this
  obtain ⟨_, _, _, _, _, h1, h2, _⟩ := this
  simp only at h1 h2
  cases hr : c.role with
  | leader => exact .inl ⟨rfl, h1 hr⟩
  | follower => exact .inr ⟨rfl, h2 hr⟩
  | notInitialized => exact absurd hr hn

/-- C98: whatever else happens, a call of the leader is over when 8.99 seconds, 104 times the time for a local step and the
time raft takes for an emission have passed since it was made. -/
theorem C98_leader (l : Nat → SignState) (es es' : List TEv) (e : TEv) (s0 s1 s : Timed) (c : TCall)
    (h0 : (Timed.start l).run T C cfg es = some s0) (h1 : s0.step T C cfg e = some s1)
    (hnew : s1.calls[s0.calls.length]? = some c) (hrole : c.role = .leader)
    (h : s1.run T C cfg es' = some s) (hlate : s0.now + 8990 + 104 * T.own + T.raft < s.now) :
    ∃ c' sig err, s.calls[s0.calls.length]? = some c' ∧ c'.stage = .ended sig err := by
  obtain ⟨c', k1, k2, _⟩ := run_keeps h hnew
  cases hs : c'.stage with
  | ended sig err => exact ⟨c', sig, err, k1, hs⟩
  | _ =>
    have hrun : (Timed.start l).run T C cfg (es ++ e :: es') = some s :=
      run_append.2 ⟨s0, h0, by simp only [Timed.run, h1, Option.bind_some]; exact h⟩
    have := within hrun k1 (by simp [TCall.running, hs])
    rw [k2.2.2.2.1, k2.2.2.2.2, hrole, new_since h1 hnew] at this
    rcases this with ⟨_, h⟩ | ⟨h, _⟩
    · omega
    · cases h

/-- C98: a call of another node is over after 6.9 seconds and 31 times the time for a local step. -/
theorem C98_follower (l : Nat → SignState) (es es' : List TEv) (e : TEv) (s0 s1 s : Timed) (c : TCall)
    (h0 : (Timed.start l).run T C cfg es = some s0) (h1 : s0.step T C cfg e = some s1)
    (hnew : s1.calls[s0.calls.length]? = some c) (hrole : c.role = .follower)
    (h : s1.run T C cfg es' = some s) (hlate : s0.now + 6900 + 31 * T.own < s.now) :
    ∃ c' sig err, s.calls[s0.calls.length]? = some c' ∧ c'.stage = .ended sig err := by
  obtain ⟨c', k1, k2, _⟩ := run_keeps h hnew
  cases hs : c'.stage with
  | ended sig err => exact ⟨c', sig, err, k1, hs⟩
  | _ =>
    have hrun : (Timed.start l).run T C cfg (es ++ e :: es') = some s :=
      run_append.2 ⟨s0, h0, by simp only [Timed.run, h1, Option.bind_some]; exact h⟩
    have := within hrun k1 (by simp [TCall.running, hs])
    rw [k2.2.2.2.1, k2.2.2.2.2, hrole, new_since h1 hnew] at this
    rcases this with ⟨h, _⟩ | ⟨_, h⟩
    · cases h
    · omega

/-- C98: the limits are not met by time standing still: from every state that can be reached, time can go on as far as one
likes, without any further request. -/
theorem C98_time (l : Nat → SignState) (es : List TEv) (s : Timed) (h : (Timed.start l).run T C cfg es = some s) (t : Nat) :
    ∃ es' s', s.run T C cfg es' = some s' ∧ t ≤ s'.now ∧ s'.calls.length = s.calls.length := by
  have key : ∀ n m (s : Timed), s.Inv T → t - s.now ≤ n → (∑ i ∈ Finset.range s.calls.length, s.rank i) < m →
      ∃ es' s', s.run T C cfg es' = some s' ∧ t ≤ s'.now ∧ s'.calls.length = s.calls.length := by
    intro n
    induction n with
    | zero => intro m s _ h1 _; exact ⟨[], s, rfl, by omega, rfl⟩
    | succ n ihn =>
      intro m
      induction m with
      | zero => intro s _ _ h2; omega
      | succ m ihm =>
        intro s hI h1 h2
        by_cases hall : s.calls.all (fun c => !c.running || decide (s.now + 1 ≤ c.due)) = true
        · have hst : s.step T C cfg (.tick 1) = some { s with now := s.now + 1 } := by
            simp only [Timed.step, hall, if_true]
          obtain ⟨es', s', k1, k2, k3⟩ := ihn _ { s with now := s.now + 1 } (step_inv hI hst)
            (by show t - (s.now + 1) ≤ n; omega) (Nat.lt_succ_self _)
          exact ⟨.tick 1 :: es', s', by simp only [Timed.run, hst, Option.bind_some]; exact k1, k2, k3⟩
        · simp only [List.all_eq_true, not_forall] at hall
          obtain ⟨c, hc, hn⟩ := hall
          obtain ⟨i, hi⟩ := List.getElem?_of_mem hc
          simp only [Bool.or_eq_true, Bool.not_eq_true', decide_eq_true_eq, not_or, Bool.not_eq_false] at hn
          obtain ⟨e, s1, hf⟩ := forced (C := C) (cfg := cfg) hI hi hn.1 (by omega)
          have hlt : (∑ j ∈ Finset.range s1.calls.length, s1.rank j) < ∑ j ∈ Finset.range s.calls.length, s.rank j := by
            rw [hf.calls]
            refine Finset.sum_lt_sum (fun j _ => ?_) ⟨i, Finset.mem_range.2 (getElem?_lt hi), hf.less⟩
            by_cases hj : j = i
            · subst hj; exact Nat.le_of_lt hf.less
            · exact Nat.le_of_eq (hf.same j hj)
          obtain ⟨es', s', k1, k2, k3⟩ := ihm s1 (step_inv hI hf.step) (by rw [hf.now]; exact h1) (by omega)
          exact ⟨e :: es', s', by simp only [Timed.run, hf.step, Option.bind_some]; exact k1, k2, by rw [k3, hf.calls]⟩
  exact key _ _ s (run_inv (Timed.Inv.start T l) h) (Nat.le_refl _) (Nat.lt_succ_self _)

/-- What can be seen of a run: the time at its end, and the calls. -/
def seen (T : Tempo) (es : List TEv) : Option (Nat × List (Nat × TStage × Nat)) :=
  ((Timed.start fun _ => .empty).run T vtoy vcfg es).map fun s => (s.now, s.calls.map fun c => (c.node, c.stage, c.at'))

/-- A round of a leader, in which the two halves take `a` and `b` milliseconds. -/
def roundIn (i a b : Nat) (blk : Block) : List TEv :=
  [.ownParts i none, .tick a, .gathered i, .tick b, .signed i [blk.signBytes, blk.signBytes] [42], .save i, .emit i]

/-- Nobody knows a leader for the first 2.9 seconds, then node 2 is asked and does not answer: the call of node 1 is still
running after 6.9 seconds and 31 local steps; then it has to end. -/
example : seen ⟨5, 50⟩ ([.request 1 blk1 .follower, .tick 5] ++ (List.replicate 29 [.noLeader 0, .tick 105]).flatten ++
      [.leader 0 2, .tick 4005]) = some (7055, [(1, .ask, 3050)]) ∧
    seen ⟨5, 50⟩ ([.request 1 blk1 .follower, .tick 5] ++ (List.replicate 29 [.noLeader 0, .tick 105]).flatten ++
      [.leader 0 2, .tick 4005, .tick 1]) = none ∧
    seen ⟨5, 50⟩ ([.request 1 blk1 .follower, .tick 5] ++ (List.replicate 29 [.noLeader 0, .tick 105]).flatten ++
      [.leader 0 2, .tick 4005, .expire 0, .tick 1]) = some (7056, [(1, .ended none (some .external), 7055)]) ∧
    6900 + 31 * 5 = 7055 := by decide +kernel

/-- A call of the leader that takes as long as it may: it waits for another request for the same vote until the hundredth
look, finds that the time has changed, and signs again as slowly as possible. -/
def slowest : List TEv :=
  [.request 0 blk1 .leader, .ownParts 0 none, .gathered 0, .request 0 blk2 .leader, .tick 5] ++
  (List.replicate 99 [.poll 1, .tick 15]).flatten ++
  [.signed 0 [blk1.signBytes, blk1.signBytes] [42], .save 0, .emit 0, .poll 1, .tick 5, .ownParts 1 none, .tick 4005,
    .gathered 1, .tick 4005, .signed 1 [blk2.signBytes, blk2.signBytes] [42], .tick 5, .save 1, .tick 50]

/-- It is still running after 8.99 seconds, 104 local steps and one emission; then it has to end. -/
example : seen ⟨5, 50⟩ slowest = some (9560, [(0, .ended (some (42 :: b1)) none, 1490), (0, .here, 9510)]) ∧
    seen ⟨5, 50⟩ (slowest ++ [.tick 1]) = none ∧
    seen ⟨5, 50⟩ (slowest ++ [.emit 1, .tick 1]) =
      some (9561, [(0, .ended (some (42 :: b1)) none, 1490), (0, .ended (some (42 :: b2)) none, 9560)]) ∧
    8990 + 104 * 5 + 50 = 9560 := by decide +kernel

/-! ### C99 -/

/-- C99, as far as it holds: a node that is not the leader has sent a request to another node at the time `t`, the connection
did not fail, and the call has ended. Then either the node that was asked has ended a call for the same block, and the
answer is its answer (an error, if it is one); or it is an error that came four seconds after the request was sent.
Missing: then the other node may have a signature. -/
theorem C99_partial (l : Nat → SignState) (es : List TEv) (s : Timed) (h : (Timed.start l).run T C cfg es = some s)
    (i : Nat) (c : TCall) (sig : Slice) (err : Option Err) (n t : Nat) (hc : s.calls[i]? = some c)
    (hrole : c.role = .follower) (hend : c.stage = .ended sig err) (hask : c.asked = some (n, t))
    (hb : c.block.Sendable) (hlost : .lost i ∉ es) (hsize : ∀ (j : Nat) (d : TCall) (g : Slice) (e : Option Err), s.calls[j]? = some d → d.stage = .ended g e →
      g.bytes.length < 2 ^ 63) :
    (∃ (j : Nat) (d : TCall) (sig' : Slice) (err' : Option Err), s.calls[j]? = some d ∧ d.node = n ∧ d.block = c.block ∧ d.stage = .ended sig' err' ∧
      ((err' = none ∧ err = none ∧ sig.bytes = sig'.bytes) ∨ (err' ≠ none ∧ err = some .external ∧ sig = none))) ∨
    (err = some .external ∧ sig = none ∧ t + 4000 ≤ c.at') := by
  have hP := run_passed (P := fun _ => False) (Timed.Inv.start T l)
    ⟨fun j d i hd => by simp [Timed.start] at hd, fun i c _ _ _ _ hc => by simp [Timed.start] at hc⟩ h
  rcases hP.ended i c sig err n t hc hrole hend hask with h1 | ⟨j, d, sig', err', h1, h2, h3, h4, h5⟩ | ⟨h1, h2, h3⟩
  · rcases h1 with h1 | h1
    · exact h1.elim
    · exact absurd h1 hlost
  · left
    obtain ⟨c0, t0, k1, k2, k3⟩ := hP.origin j d i h1 h2
    rw [hc] at k1
    cases k1
    rw [hask] at k2
    cases k2
    have hblock : d.block = c.block := by
      rw [k3]
      simp only [Block.toProto, blockFromProto, unixNano_roundTrip hb.time, i8_of_is hb.step]
    refine ⟨j, d, sig', err', h1, rfl, hblock, h3, ?_⟩
    cases err' with
    | none =>
      obtain ⟨g, g1, g2⟩ := C35_signature sig' (hsize j d sig' none h1 h3)
      simp only [remoteAnswer, g1] at h4
      unfold passed at h4
      split at h4
      · cases h4
      · cases h4; exact .inl ⟨rfl, rfl, g2⟩
    | some e =>
      simp only [remoteAnswer] at h4
      unfold passed at h4
      split at h4
      · cases h4; exact .inr ⟨nofun, rfl, h5 nofun⟩
      · cases h4
  · exact .inr ⟨h2, h1, h3⟩

/-- Node 1 passes a request on to node 2 after 105 ms, and its answer on after 5 ms more. -/
example : seen ⟨5, 50⟩ ([.request 1 blk1 .follower, .noLeader 0, .tick 105, .leader 0 2, .tick 3, .arrive 0 .leader] ++
      roundIn 1 40 30 blk1 ++ [.tick 5, .reply 0 1]) =
    some (183, [(1, .ended (some (42 :: b1)) none, 183), (2, .ended (some (42 :: b1)) none, 178)]) := by decide +kernel

example : blk1.Sendable := by
  refine ⟨by decide, by decide, by decide, ?_, by decide +kernel⟩
  exact ⟨by decide, by decide, by decide⟩

/-- C99 (full statement) is false: the two halves of the leader's round take 2.5 seconds each, within their limits of four
seconds, and it gets a signature. The node that passed the request on to it has returned an error a second before. -/
theorem C99_fails :
    seen ⟨5, 50⟩ ([.request 1 blk1 .follower, .leader 0 2, .arrive 0 .leader, .ownParts 1 none, .tick 2500, .gathered 1,
      .tick 1500, .expire 0, .tick 1000, .signed 1 [blk1.signBytes, blk1.signBytes] [42], .save 1, .emit 1]) =
    some (5000, [(1, .ended none (some .external), 4000), (2, .ended (some (42 :: b1)) none, 5000)]) := by decide +kernel

/-- C99 fails whenever the leader is slow: a node that is not the leader has sent a request to another node at the time `t`,
the connection did not fail, and four seconds and the time for a local step later the other node has not ended a call for the
block. Then the call has ended with an error, and that is what it has returned however the run goes on, also if the other node
gets a signature. -/
theorem C99_late_fails (l : Nat → SignState) (es es' : List TEv) (s s' : Timed)
    (h : (Timed.start l).run T C cfg es = some s) (i : Nat) (c : TCall) (n t : Nat) (hc : s.calls[i]? = some c)
    (hrole : c.role = .follower) (hask : c.asked = some (n, t)) (hb : c.block.Sendable) (hlost : .lost i ∉ es)
    (hlate : t + 4000 + T.own < s.now)
    (hslow : ∀ (j : Nat) (d : TCall), s.calls[j]? = some d → d.node = n → d.block = c.block → d.running = true)
    (h' : s.run T C cfg es' = some s') :
    ∃ c', s'.calls[i]? = some c' ∧ c'.stage = .ended none (some .external) := by
  have hok := (run_inv (Timed.Inv.start T l) h).ok i c hc
  have hend : ∃ sig err, c.stage = .ended sig err := by
    unfold TCallOk at hok
    obtain ⟨_, _, _, _, hok⟩ := hok
    cases hs : c.stage with
    | ended sig err => exact ⟨sig, err, rfl⟩
    | ask =>
      simp only [hs] at hok
      obtain ⟨a1, _, _, _, ⟨m, a2⟩, _, a3⟩ := hok
      rw [hask] at a2
      cases a2
      omega
    | seek k =>
      simp only [hs] at hok
      rw [hok.2.2.2.1] at hask
      cases hask
    | _ =>
      simp only [hs, hrole] at hok
      simp at hok
  obtain ⟨sig, err, hend⟩ := hend
  obtain ⟨c', k1, _, k3⟩ := run_keeps h' hc
  have := k3 (by simp [TCall.running, hend])
  subst this
  refine ⟨c', k1, ?_⟩
  have hP := run_passed (P := fun _ => False) (Timed.Inv.start T l)
    ⟨fun j d i hd => by simp [Timed.start] at hd, fun i c _ _ _ _ hc => by simp [Timed.start] at hc⟩ h
  rcases hP.ended i c' sig err n t hc hrole hend hask with h1 | ⟨j, d, sig', err', h1, h2, h3, _⟩ | ⟨h1, h2, _⟩
  · rcases h1 with h1 | h1
    · exact h1.elim
    · exact absurd h1 hlost
  · obtain ⟨c0, t0, q1, q2, q3⟩ := hP.origin j d i h1 h2
    rw [hc] at q1
    cases q1
    rw [hask] at q2
    cases q2
    have hblock : d.block = c'.block := by
      rw [q3]
      simp only [Block.toProto, blockFromProto, unixNano_roundTrip hb.time, i8_of_is hb.step]
    have := hslow j d h1 rfl hblock
    simp [TCall.running, h3] at this
  · rw [hend, h1, h2]

/-- In the run of `C99_fails`, 4.006 seconds after the request was sent: the leader has not ended its call, and it ends it
with a signature later. -/
example :
    let early : List TEv := [.request 1 blk1 .follower, .leader 0 2, .arrive 0 .leader, .ownParts 1 none, .tick 2500,
      .gathered 1, .tick 1500, .expire 0, .tick 6]
    seen ⟨5, 50⟩ early = some (4006, [(1, .ended none (some .external), 4000), (2, .sign, 2500)]) ∧
    seen ⟨5, 50⟩ (early ++ [.tick 994, .signed 1 [blk1.signBytes, blk1.signBytes] [42], .save 1, .emit 1]) =
      some (5000, [(1, .ended none (some .external), 4000), (2, .ended (some (42 :: b1)) none, 5000)]) := by decide +kernel

/-! ### C100 -/

/-- A call that waits for another one to sign its block does nothing but look. -/
theorem waiting_step {s s' : Timed} (hI : s.Inv T) {e : TEv} (hs : s.step T C cfg e = some s') {i : Nat} {c : TCall}
    (hc : s.calls[i]? = some c) {k : Nat} (hw : (s.nodes c.node).calls i = some (c.block, .poll k)) (ha : e.acts = some i) :
    c.wake ≤ s.now ∧ c.since + 10 * k ≤ c.wake ∧ k < 100 ∧ s' = s.act T C cfg i c (.poll i) := by
  have hok := hI.ok i c hc
  rw [hw] at hok
  obtain ⟨_, _, _, _, hok⟩ := hok
  have hstage : c.stage = .here ∧ k < 100 ∧ c.since + 10 * k ≤ c.wake := by
    cases hst : c.stage <;> simp [hst] at hok
    exact ⟨rfl, hok.2.2.1, hok.2.2.2.1⟩
  cases e <;> simp only [TEv.acts, Option.some.injEq, reduceCtorEq] at ha <;> subst ha <;>
    simp [Timed.step, hc, hstage.1, hw] at hs
  exact ⟨hs.1, hstage.2.2, hstage.2.1, hs.2.symm⟩

theorem ended_acts {s s' : Timed} {e : TEv} (hs : s.step T C cfg e = some s') {i : Nat} {c c' : TCall}
    (hc : s.calls[i]? = some c) (hr : c.running = true) (hc' : s'.calls[i]? = some c') (hr' : c'.running = false) :
    e.acts = some i := by
  apply Classical.byContradiction
  intro hn
  have := (step_other hs (getElem?_lt hc) hn).1
  rw [hc', hc] at this
  cases this
  rw [hr] at hr'
  cases hr'

theorem differ_err {st : Int} {a b : Bytes} {e : Err} (h : onlyDifferByTimestamp st a b = some e) :
    e ≠ .stillWaiting ∧ e ≠ .timedOutWaitingForBlock := by
  unfold onlyDifferByTimestamp checkProposalOnlyDifferByTimestamp checkVoteOnlyDifferByTimestamp at h
  simp only at h
  repeat' split at h
  all_goals (cases h <;> exact ⟨nofun, nofun⟩)

/-- C100: what a call that waits for another one to sign its block ends with. If the node has a record of the block: the
recorded signature if the sign bytes are the same or it is a proposal, and an error otherwise. If it has none: that the
block is too old, if it is, and otherwise that it timed out, but not before 0.99 seconds have passed since it was made. -/
theorem C100_waits (l : Nat → SignState) (es : List TEv) (s s' : Timed) (h : (Timed.start l).run T C cfg es = some s)
    (e : TEv) (hs : s.step T C cfg e = some s') (i : Nat) (c c' : TCall) (k : Nat) (sig : Slice) (err : Option Err)
    (hc : s.calls[i]? = some c) (hrun : c.running = true) (hw : (s.nodes c.node).calls i = some (c.block, .poll k))
    (hc' : s'.calls[i]? = some c') (hend : c'.stage = .ended sig err) :
    match (s.nodes c.node).lss.cache c.block.hrs with
    | some r =>
      if c.block.step = 1 ∨ c.block.signBytes = r.signBytes.bytes then sig ≠ none ∧ sig = r.signature ∧ err = none
      else sig = none ∧ err ≠ none ∧ err ≠ some .timedOutWaitingForBlock
    | none =>
      sig = none ∧
      if c.block.hrs ≺ (s.nodes c.node).lss.hrs then err = some .beyondBlock
      else err = some .timedOutWaitingForBlock ∧ c.since + 990 ≤ s.now := by
  have hI := run_inv (Timed.Inv.start T l) h
  have ha := ended_acts hs hc hrun hc' (by simp [TCall.running, hend])
  obtain ⟨h1, h2, h3, rfl⟩ := waiting_step hI hs hc hw ha
  obtain rfl : c.after T s.now i ((s.nodes c.node).step C cfg (.poll i)).1 ((s.nodes c.node).step C cfg (.poll i)).2 = c' := by
    simpa only [Timed.act, List.getElem?_set_self (getElem?_lt hc), Option.some.injEq] using hc'
  clear hc' hs ha
  simp only [VState.step, hw] at hend
  cases hk : (s.nodes c.node).lss.cache c.block.hrs with
  | some r =>
    have hex : existingSignature (s.nodes c.node).lss c.block =
        if c.block.step = 1 ∨ c.block.signBytes = r.signBytes.bytes then .ok r.signature
        else match onlyDifferByTimestamp r.step r.signBytes.bytes c.block.signBytes with
          | some e => .error e
          | none => .ok none := by
      unfold existingSignature SignState.getFromCache
      rw [hk]
      rfl
    simp only
    split
    · next hb =>
      rw [if_pos hb] at hex
      rw [hex] at hend
      cases hr : r.signature with
      | none => simp [hr, TCall.after, TCall.wait, VState.setPhase] at hend
      | some g => simp [hr, TCall.after, TCall.wait] at hend; simp [← hend.1, ← hend.2]
    · next hb =>
      rw [if_neg hb] at hex
      cases ho : onlyDifferByTimestamp r.step r.signBytes.bytes c.block.signBytes with
      | none => rw [hex, ho] at hend; simp [TCall.after, TCall.wait, VState.setPhase] at hend
      | some e =>
        obtain ⟨n1, n2⟩ := differ_err ho
        rw [hex, ho] at hend
        have he : sig = none ∧ err = some e := by
          cases e <;> simp_all [TCall.after, TCall.wait]
        exact ⟨he.1, by simp [he.2], by simp [he.2, n2]⟩
  | none =>
    simp only
    have h30 := C30_waiting C cfg (s.nodes c.node) i c.block k hw hk
    simp only [VState.step, hw] at h30
    by_cases hp : c.block.hrs ≺ (s.nodes c.node).lss.hrs
    · rw [h30.1 hp] at hend
      simp only [TCall.after, TCall.wait, TStage.ended.injEq] at hend
      rw [if_pos hp]
      exact ⟨hend.1.symm, hend.2.symm⟩
    · rw [if_neg hp]
      by_cases hkk : k < 99
      · rw [h30.2.1 hp hkk] at hend
        simp [TCall.after, TCall.wait, VState.setPhase] at hend
      · rw [h30.2.2 hp (by omega)] at hend
        simp only [TCall.after, TCall.wait, TStage.ended.injEq] at hend
        exact ⟨hend.1.symm, hend.2.symm, by omega⟩

/-- C100, as far as it holds: a call waits for another one to sign its block, and there is a record of the block. However
the run goes on, if the call has ended while the watermark is at most three heights above, it has the recorded signature. -/
theorem C100_partial (l : Nat → SignState) (es es' : List TEv) (s s' : Timed) (hl : ∀ n, (l n).CacheLe)
    (h : (Timed.start l).run T C cfg es = some s)
    (i : Nat) (c : TCall) (k : Nat) (hc : s.calls[i]? = some c)
    (hw : (s.nodes c.node).calls i = some (c.block, .poll k)) (r : SSC) (sig : Bytes)
    (hr : (s.nodes c.node).lss.cache c.block.hrs = some r) (hsig : r.signature = some sig)
    (hbytes : c.block.signBytes = r.signBytes.bytes)
    (h' : s.run T C cfg es' = some s') (h0 : -(2 ^ 63) + 3 ≤ c.block.height) (h64 : IsI64 c.block.height)
    (hh : (s'.nodes c.node).lss.height ≤ c.block.height + 3) :
    ∃ c', s'.calls[i]? = some c' ∧ (c'.running = true ∨ c'.stage = .ended (some sig) none) := by
  have hI := run_inv (Timed.Inv.start T l) h
  have hrc : ∀ {s : Timed} {c : TCall}, s.Inv T → s.calls[i]? = some c →
      (s.nodes c.node).calls i = some (c.block, .poll k) → c.running = true := by
    intro s c hI hc hw
    have hok := hI.ok i c hc
    rw [hw] at hok
    obtain ⟨_, _, _, _, hok⟩ := hok
    cases hst : c.stage <;> simp_all [TCall.running]
  have hcl : (s.nodes c.node).lss.CacheLe := by
    obtain ⟨tr, hv⟩ := run_node h c.node
    exact cacheLe_run C cfg hv (hl c.node)
  clear h
  induction es' generalizing s with
  | nil => cases h'; exact ⟨c, hc, .inl (hrc hI hc hw)⟩
  | cons e es' ih =>
    have hall := h'
    simp only [Timed.run, Option.bind_eq_some_iff] at h'
    obtain ⟨s1, h1, h2⟩ := h'
    obtain ⟨tr, hv⟩ := step_node h1 c.node
    obtain ⟨tr', hv'⟩ := run_node h2 c.node
    by_cases ha : e.acts = some i
    · obtain ⟨_, _, _, rfl⟩ := waiting_step hI h1 hc hw ha
      have hex : existingSignature (s.nodes c.node).lss c.block = .ok (some sig) := by
        unfold existingSignature SignState.getFromCache
        rw [hr]
        simp only
        rw [if_pos (.inr hbytes), hsig]
      have hcall : (s.act T C cfg i c (.poll i)).calls[i]? = some (c.wait s.now (.ended (some sig) none) 0 0) := by
        simp only [Timed.act, List.getElem?_set_self (getElem?_lt hc), VState.step, hw, hex, TCall.after]
      obtain ⟨c', k1, k2, k3⟩ := run_keeps h2 hcall
      have := k3 rfl
      subst this
      exact ⟨_, k1, .inr rfl⟩
    · obtain ⟨k1, k2⟩ := step_other h1 (getElem?_lt hc) ha
      have hm : (s1.nodes c.node).lss.height ≤ (s'.nodes c.node).lss.height := by
        rcases (C34_watermarks C cfg _ _ _ hv').1 with h | h
        · exact Int.le_of_eq (congrArg HRS.height h)
        · rcases h with h | ⟨h, _⟩
          · exact Int.le_of_lt h
          · exact Int.le_of_eq h
      exact ih (s := s1) (by rw [k1]; exact hc) (by rw [k2]; exact hw)
        (record_stays C cfg hv hcl hr h0 h64 (by show _ ≤ c.block.height + 3; omega)) h2 (step_inv hI h1) (cacheLe_run C cfg hv hcl)

/-- A second request for a vote that is being signed has its signature, up to 10 ms and a local step later. -/
example : seen ⟨5, 50⟩ ([.request 0 blk1 .leader, .ownParts 0 none, .tick 1, .request 0 blk1 .leader] ++
      (List.replicate 98 [.poll 1, .tick 10]).flatten ++ [.gathered 0, .poll 1,
        .signed 0 [blk1.signBytes, blk1.signBytes] [42], .save 0, .tick 10, .poll 1, .emit 0]) =
    some (991, [(0, .ended (some (42 :: b1)) none, 991), (0, .ended (some (42 :: b1)) none, 991)]) := by decide +kernel

/-- C100 (full statement) is false: a request is signed within 1.2 seconds. The same request, made one millisecond later,
gives up after 0.99 seconds. -/
theorem C100_fails :
    seen ⟨5, 50⟩ ([.request 0 blk1 .leader, .ownParts 0 none, .tick 1, .request 0 blk1 .leader] ++
      (List.replicate 99 [.poll 1, .tick 10]).flatten ++ [.poll 1, .gathered 0, .tick 200,
        .signed 0 [blk1.signBytes, blk1.signBytes] [42], .save 0, .emit 0]) =
    some (1191, [(0, .ended (some (42 :: b1)) none, 1191), (0, .ended none (some .timedOutWaitingForBlock), 991)]) := by
  decide +kernel

/-- C100 fails whenever the first call is slow: a call waits for another one to sign its block, and 0.99 seconds and a hundred
local steps after it was made the node has not signed the block. Then the call has ended with an error, and that is what it
has returned however the run goes on, also if the block is signed. -/
theorem C100_late_fails (l : Nat → SignState) (es es1 es2 : List TEv) (s s1 s2 : Timed) (hl : ∀ n, (l n).CacheLe)
    (h : (Timed.start l).run T C cfg es = some s) (i : Nat) (c : TCall) (k : Nat) (hc : s.calls[i]? = some c)
    (hw : (s.nodes c.node).calls i = some (c.block, .poll k))
    (h1 : s.run T C cfg es1 = some s1) (hlate : c.since + 990 + 100 * T.own < s1.now)
    (hun : (s1.nodes c.node).lss.hrs ≺ c.block.hrs) (h2 : s1.run T C cfg es2 = some s2) :
    ∃ c', s2.calls[i]? = some c' ∧ c'.stage = .ended none (some .timedOutWaitingForBlock) := by
  suffices H : ∃ c', s1.calls[i]? = some c' ∧ c'.stage = .ended none (some .timedOutWaitingForBlock) by
    obtain ⟨c', g1, g2⟩ := H
    obtain ⟨c2, k1, _, k3⟩ := run_keeps h2 g1
    have := k3 (by simp [TCall.running, g2])
    subst this
    exact ⟨_, k1, g2⟩
  clear h2
  have hI := run_inv (Timed.Inv.start T l) h
  have hcl : (s.nodes c.node).lss.CacheLe := by
    obtain ⟨tr, hv⟩ := run_node h c.node
    exact cacheLe_run C cfg hv (hl c.node)
  clear h
  induction es1 generalizing s c k with
  | nil =>
    cases h1
    have hok := hI.ok i c hc
    rw [hw] at hok
    obtain ⟨_, _, _, _, hok⟩ := hok
    cases hst : c.stage <;> simp [hst] at hok
    obtain ⟨a1, _, a2, _, a3⟩ := hok
    have : k * (10 + T.own) ≤ 99 * (10 + T.own) := Nat.mul_le_mul_right _ (by omega)
    omega
  | cons e es1 ih =>
    obtain ⟨_, hv0⟩ := run_node h1 c.node
    have hlow : (s.nodes c.node).lss.hrs ≺ c.block.hrs := HRS.lt_of_le_of_lt (C34_watermarks C cfg _ _ _ hv0).1 hun
    simp only [Timed.run, Option.bind_eq_some_iff] at h1
    obtain ⟨s', h1, h2⟩ := h1
    obtain ⟨tr, hv⟩ := step_node h1 c.node
    have hcl' := cacheLe_run C cfg hv hcl
    have hI' := step_inv hI h1
    by_cases ha : e.acts = some i
    · obtain ⟨_, _, _, rfl⟩ := waiting_step hI h1 hc hw ha
      have hnone : (s.nodes c.node).lss.cache c.block.hrs = none := by
        cases hk : (s.nodes c.node).lss.cache c.block.hrs with
        | none => rfl
        | some r => exact absurd (HRS.lt_of_le_of_lt (hcl _ r hk).2 hlow) (HRS.lt_irrefl _)
      have hnp : ¬ c.block.hrs ≺ (s.nodes c.node).lss.hrs := fun hp => HRS.lt_irrefl _ (HRS.lt_of_le_of_lt (.inr hp) hlow)
      have h30 := C30_waiting C cfg (s.nodes c.node) i c.block k hw hnone
      by_cases hk : k < 99
      · have hst := h30.2.1 hnp hk
        have hcall : (s.act T C cfg i c (.poll i)).calls[i]? = some (c.wait s.now .here pollPause T.own) := by
          simp only [Timed.act, List.getElem?_set_self (getElem?_lt hc), hst, TCall.after, VState.setPhase, if_true]
        refine ih (s.act T C cfg i c (.poll i)) (c.wait s.now .here pollPause T.own) (k + 1) hcall ?_ h2 hlate hun
          hI' hcl'
        simp only [TCall.wait, Timed.act, Timed.setNode, if_true, hst, VState.setPhase]
      · have hst := h30.2.2 hnp (by omega)
        have hcall : (s.act T C cfg i c (.poll i)).calls[i]? =
            some (c.wait s.now (.ended none (some .timedOutWaitingForBlock)) 0 0) := by
          simp only [Timed.act, List.getElem?_set_self (getElem?_lt hc), hst, TCall.after]
        obtain ⟨c', k1, _, k3⟩ := run_keeps h2 hcall
        have := k3 rfl
        subst this
        exact ⟨_, k1, rfl⟩
    · obtain ⟨k1, k2⟩ := step_other h1 (getElem?_lt hc) ha
      exact ih s' c k (by rw [k1]; exact hc) (by rw [k2]; exact hw) h2 hlate hun hI' hcl'

/-- In such a run, 1.491 seconds after the second request: nothing is signed yet, but is later. -/
example :
    let early : List TEv := [.request 0 blk1 .leader, .ownParts 0 none, .tick 1, .request 0 blk1 .leader] ++
      (List.replicate 99 [.poll 1, .tick 10]).flatten ++ [.poll 1, .gathered 0, .tick 501]
    seen ⟨5, 50⟩ early = some (1492, [(0, .sign, 991), (0, .ended none (some .timedOutWaitingForBlock), 991)]) ∧
    seen ⟨5, 50⟩ (early ++ [.signed 0 [blk1.signBytes, blk1.signBytes] [42], .save 0, .emit 0]) =
      some (1492, [(0, .ended (some (42 :: b1)) none, 1492), (0, .ended none (some .timedOutWaitingForBlock), 991)]) := by
  decide +kernel

end

end Horcrux
