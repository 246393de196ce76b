import Verif.Model.Timed
import Verif.Props.Validator
/-
Lemmas about the clocks of calls.
-/
namespace Horcrux
open Spec

variable {T : Tempo} {C : Crypto} {cfg : ValidatorCfg}

/-- What is so of a call at the time `now`, if `p` is what its node says about it. -/
def TCallOk (T : Tempo) (now : Nat) (p : Option (Block × Phase)) (c : TCall) : Prop :=
  c.since ≤ c.at' ∧ c.at' ≤ now ∧ c.at' ≤ c.wake ∧ c.wake ≤ c.due ∧
  match c.stage with
  | .seek k => now ≤ c.due ∧ p = some (c.block, .proxy) ∧ c.role = .follower ∧ c.asked = none ∧ k ≤ 30 ∧
      c.since + 100 * k ≤ c.wake ∧ c.due ≤ c.since + T.own + k * (100 + T.own)
  | .ask => now ≤ c.due ∧ p = some (c.block, .proxy) ∧ c.role = .follower ∧ c.wake = c.at' + 4000 ∧
      (∃ l, c.asked = some (l, c.at')) ∧ c.due ≤ c.since + 6900 + 31 * T.own ∧ c.due = c.at' + 4000 + T.own
  | .own => now ≤ c.due ∧ p = some (c.block, .round) ∧ c.role = .leader ∧ c.due ≤ c.since + 990 + 101 * T.own
  | .parts => now ≤ c.due ∧ p = some (c.block, .round) ∧ c.role = .leader ∧ c.wake = c.at' + 4000 ∧
      c.due ≤ c.since + 4990 + 102 * T.own
  | .sign => now ≤ c.due ∧ p = some (c.block, .round) ∧ c.role = .leader ∧ c.wake = c.at' + 4000 ∧
      c.due ≤ c.since + 8990 + 103 * T.own
  | .here => now ≤ c.due ∧ c.role = .leader ∧
      ((∃ k, p = some (c.block, .poll k) ∧ k < 100 ∧ c.since + 10 * k ≤ c.wake ∧
          c.due ≤ c.since + T.own + k * (10 + T.own)) ∨
        (p = some (c.block, .lookup) ∧ c.due ≤ c.since + T.own) ∨
        (∃ sig, p = some (c.block, .save sig) ∧ c.due ≤ c.since + 8990 + 104 * T.own) ∨
        (∃ sig, p = some (c.block, .emit sig) ∧ c.due ≤ c.since + 8990 + 104 * T.own + T.raft))
  | .ended _ _ => p = none ∧
      (c.role = .leader → c.at' ≤ c.since + 8990 + 104 * T.own + T.raft) ∧
      (c.role = .follower → c.at' ≤ c.since + 6900 + 31 * T.own) ∧
      (c.role = .notInitialized → c.at' = c.since)

/-- Every call is as `TCallOk` says, and nodes know no other calls. -/
structure Timed.Inv (T : Tempo) (s : Timed) : Prop where
  ok : ∀ i c, s.calls[i]? = some c → TCallOk T s.now ((s.nodes c.node).calls i) c
  none : ∀ n i, (∀ c, s.calls[i]? = some c → c.node ≠ n) → (s.nodes n).calls i = none

theorem Timed.Inv.start (T : Tempo) (l : Nat → SignState) : (Timed.start l).Inv T :=
  ⟨fun i c h => by simp [Timed.start] at h, fun n i _ => rfl⟩

theorem TCallOk.done {now : Nat} {p : Option (Block × Phase)} {c : TCall} (h : TCallOk T now p c) (hr : c.running = true)
    (sig : Slice) (err : Option Err) : TCallOk T now none (c.wait now (.ended sig err) 0 0) := by
  obtain ⟨h1, h2, h3, h4, h5⟩ := h
  have hl0 : c.since ≤ now := by omega
  unfold TCallOk TCall.wait
  refine ⟨hl0, by simp, by simp, by simp, rfl, ?_⟩
  simp only
  split at h5
  · next k _ =>
    obtain ⟨a, b, d, e, f, g, i⟩ := h5
    have : k * (100 + T.own) ≤ 30 * (100 + T.own) := Nat.mul_le_mul_right _ f
    rw [d]
    refine ⟨nofun, fun _ => ?_, nofun⟩
    omega
  · obtain ⟨a, b, d, e, _, f, _⟩ := h5
    rw [d]
    exact ⟨nofun, fun _ => by omega, nofun⟩
  · obtain ⟨a, b, d, e⟩ := h5
    rw [d]
    exact ⟨fun _ => by omega, nofun, nofun⟩
  · obtain ⟨a, b, d, e, f⟩ := h5
    rw [d]
    exact ⟨fun _ => by omega, nofun, nofun⟩
  · obtain ⟨a, b, d, e, f⟩ := h5
    rw [d]
    exact ⟨fun _ => by omega, nofun, nofun⟩
  · obtain ⟨a, d, ⟨k, _, e, f, g⟩ | ⟨_, e⟩ | ⟨_, _, e⟩ | ⟨_, _, e⟩⟩ := h5
    · have : k * (10 + T.own) ≤ 99 * (10 + T.own) := Nat.mul_le_mul_right _ (by omega)
      rw [d]
      exact ⟨fun _ => by omega, nofun, nofun⟩
    all_goals
      rw [d]
      exact ⟨fun _ => by omega, nofun, nofun⟩
  · next h => simp [TCall.running, h] at hr

theorem after_node (now i : Nat) (c : TCall) (out : VOut) (v : VState) : (c.after T now i out v).node = c.node := by
  unfold TCall.after
  split
  · rfl
  · split <;> rfl

theorem set_inv {s : Timed} (hI : s.Inv T) {i : Nat} {c c' : TCall} (hc : s.calls[i]? = some c) (hn : c'.node = c.node)
    (hok : TCallOk T s.now ((s.nodes c.node).calls i) c') : Timed.Inv T { s with calls := s.calls.set i c' } := by
  have hlt : i < s.calls.length := by
    rcases Nat.lt_or_ge i s.calls.length with h | h
    · exact h
    · rw [List.getElem?_eq_none h] at hc; cases hc
  constructor
  · intro j d hd
    simp only [List.getElem?_set] at hd
    split at hd
    · next h =>
      subst h
      simp only [Option.some.injEq] at hd
      subst hd
      rw [hn]
      exact hok
    · exact hI.ok j d hd
  · intro n j h
    refine hI.none n j fun d hd => ?_
    by_cases hj : i = j
    · subst hj
      rw [hc] at hd
      cases hd
      rw [← hn]
      exact h c' (by simp [hlt])
    · exact h d (by simp [hj, hd])

theorem act_inv {s : Timed} (hI : s.Inv T) {i : Nat} {c : TCall} (hc : s.calls[i]? = some c) {ev : VEv}
    (ha : ev.actor = some i)
    (hok : TCallOk T s.now (((s.nodes c.node).step C cfg ev).2.calls i)
      (c.after T s.now i ((s.nodes c.node).step C cfg ev).1 ((s.nodes c.node).step C cfg ev).2)) :
    (s.act T C cfg i c ev).Inv T := by
  have hlt : i < s.calls.length := by
    rcases Nat.lt_or_ge i s.calls.length with h | h
    · exact h
    · rw [List.getElem?_eq_none h] at hc; cases hc
  have hother : ∀ j, j ≠ i → ((s.nodes c.node).step C cfg ev).2.calls j = (s.nodes c.node).calls j := fun j hj =>
    calls_other C cfg (out := ((s.nodes c.node).step C cfg ev).1) rfl j (by rw [ha]; intro h; exact hj (Option.some.inj h).symm)
  constructor
  · intro j d hd
    simp only [Timed.act, List.getElem?_set] at hd
    split at hd
    · next h =>
      subst h
      simp only [Option.some.injEq] at hd
      subst hd
      rw [after_node]
      simp only [Timed.act, Timed.setNode, if_true]
      exact hok
    · next h =>
      have := hI.ok j d hd
      simp only [Timed.act, Timed.setNode]
      split
      · next hn => rw [hother j (fun x => h x.symm), ← hn]; exact this
      · exact this
  · intro n j h
    have h0 : ∀ d, s.calls[j]? = some d → d.node ≠ n := by
      intro d hd
      by_cases hj : i = j
      · subst hj
        rw [hc] at hd
        cases hd
        have := h (c.after T s.now i ((s.nodes c.node).step C cfg ev).1 ((s.nodes c.node).step C cfg ev).2)
          (by simp [Timed.act, hlt])
        rwa [after_node] at this
      · exact h d (by simp [Timed.act, hj, hd])
    have h1 := hI.none n j h0
    simp only [Timed.act, Timed.setNode]
    split
    · next hn =>
      by_cases hj : j = i
      · subst hj; exact absurd hn.symm (h0 c hc)
      · rw [hother j hj, ← hn]; exact h1
    · exact h1

/-- A call returns. -/
theorem ret_inv {s : Timed} (hI : s.Inv T) {i : Nat} {c : TCall} (hc : s.calls[i]? = some c) (hr : c.running = true) {ev : VEv}
    (ha : ev.actor = some i) {sig : Slice} {stamp : GoTime} {err : Option Err} {b : Block} {v : VState}
    (hst : (s.nodes c.node).step C cfg ev = (.ret i b sig stamp err, v)) (hv : v.calls i = none) :
    (s.act T C cfg i c ev).Inv T := by
  apply act_inv hI hc ha
  rw [hst]
  simp only [hv]
  exact (hI.ok i c hc).done hr sig err

theorem calls_setPhase (v : VState) (i : Nat) (b : Block) (p : Phase) : (v.setPhase i b p).calls i = some (b, p) := by
  simp [VState.setPhase]

theorem calls_finish (v : VState) (i : Nat) : (v.finish i).calls i = none := by simp [VState.finish]

/-- The end of a call that was passed on. -/
theorem proxy_inv {s : Timed} (hI : s.Inv T) {i : Nat} {c : TCall} (hc : s.calls[i]? = some c) (hr : c.running = true)
    (hp : (s.nodes c.node).calls i = some (c.block, .proxy)) (r : Except Err Slice) :
    (s.act T C cfg i c (.proxyDone i r)).Inv T := by
  cases r with
  | error e => exact ret_inv hI hc hr rfl (by simp only [VState.step, hp]; rfl) (calls_finish _ _)
  | ok sig => exact ret_inv hI hc hr rfl (by simp only [VState.step, hp]; rfl) (calls_finish _ _)

theorem fail_inv {s : Timed} (hI : s.Inv T) {i : Nat} {c : TCall} (hc : s.calls[i]? = some c) (hr : c.running = true)
    (hp : (s.nodes c.node).calls i = some (c.block, .round)) (e : Err) :
    (s.act T C cfg i c (.roundDone i (.failed e))).Inv T :=
  ret_inv hI hc hr rfl (by simp only [VState.step, hp]; rfl) (calls_finish _ _)

theorem ask_ok {now : Nat} {p : Option (Block × Phase)} {c : TCall} (h : TCallOk T now p c) (hs : c.stage = .ask) :
    c.running = true ∧ p = some (c.block, .proxy) := by
  unfold TCallOk at h
  simp only [hs] at h
  exact ⟨by simp [TCall.running, hs], h.2.2.2.2.2.1⟩

/-- A new call. -/
theorem enter_inv {s : Timed} (hI : s.Inv T) (n : Nat) (b : Block) (o : Option Nat) (role : Role) :
    (s.enter T C cfg n b o role).Inv T := by
  have hfree : ∀ m, (s.nodes m).calls s.calls.length = none := fun m =>
    hI.none m _ fun c hc => by simp at hc
  have hother : ∀ j, j ≠ s.calls.length →
      ((s.nodes n).step C cfg (.call s.calls.length b role)).2.calls j = (s.nodes n).calls j := fun j hj =>
    calls_other C cfg (ev := .call s.calls.length b role)
      (out := ((s.nodes n).step C cfg (.call s.calls.length b role)).1) rfl j
      (by simp only [VEv.actor]; intro h; exact hj (Option.some.inj h).symm)
  have hnew : TCallOk T s.now (((s.nodes n).step C cfg (.call s.calls.length b role)).2.calls s.calls.length)
      (TCall.after T s.now s.calls.length ⟨n, b, o, role, s.now, none, .here, s.now, s.now, s.now⟩
        ((s.nodes n).step C cfg (.call s.calls.length b role)).1
        ((s.nodes n).step C cfg (.call s.calls.length b role)).2) := by
    cases role with
    | notInitialized =>
      simp only [VState.step, hfree, TCall.after, TCallOk, TCall.wait]
      simp
    | follower =>
      simp only [VState.step, hfree, TCall.after, TCallOk, TCall.wait, calls_setPhase]
      simp
    | leader =>
      rcases save_cases (s.nodes n).init (SSC.new b.height b.round b.step) with ⟨_, l, h1⟩ | ⟨_, k, h1⟩ | ⟨_, e, h2, h1⟩
      · simp only [VState.step, hfree, h1, TCall.after, TCallOk, TCall.wait, calls_setPhase]
        simp; omega
      · simp only [VState.step, hfree, h1, TCall.after, TCallOk, TCall.wait, calls_setPhase]
        simp
      · have hst : (s.nodes n).step C cfg (.call s.calls.length b .leader) =
            (.tau, ({ s.nodes n with init := (s.nodes n).init } : VState).setPhase s.calls.length b .lookup) := by
          simp only [VState.step, hfree, h1]
        rw [hst]
        simp only [TCall.after, TCallOk, TCall.wait, calls_setPhase]
        simp
  constructor
  · intro j d hd
    simp only [Timed.enter, List.getElem?_append] at hd
    split at hd
    · next hj =>
      have := hI.ok j d hd
      simp only [Timed.enter, Timed.setNode]
      split
      · next hn => rw [hother j (Nat.ne_of_lt hj), ← hn]; exact this
      · exact this
    · next hj =>
      have hj' : j = s.calls.length := by
        rcases Nat.lt_or_ge s.calls.length j with h | h
        · have : j - s.calls.length ≠ 0 := by omega
          rw [List.getElem?_eq_none (by simp; omega)] at hd
          cases hd
        · omega
      subst hj'
      simp only [Nat.sub_self, List.getElem?_cons_zero, Option.some.injEq] at hd
      subst hd
      rw [after_node]
      simp only [Timed.enter, Timed.setNode, if_true]
      exact hnew
  · intro m j h
    simp only [Timed.enter, Timed.setNode]
    by_cases hj : j = s.calls.length
    · subst hj
      have := h _ (by simp only [Timed.enter, List.getElem?_append_right (Nat.le_refl _), Nat.sub_self,
        List.getElem?_cons_zero]; rfl)
      rw [after_node] at this
      split
      · next hn => exact absurd hn.symm this
      · exact hfree m
    · have h0 : (s.nodes m).calls j = none := hI.none m j fun d hd => h d (by
        have : j < s.calls.length := by
          rcases Nat.lt_or_ge j s.calls.length with h | h
          · exact h
          · rw [List.getElem?_eq_none h] at hd; cases hd
        simp only [Timed.enter, List.getElem?_append_left this]; exact hd)
      split
      · next hn => rw [hother j hj, ← hn]; exact h0
      · exact h0

theorem step_inv {s s' : Timed} {e : TEv} (hI : s.Inv T) (h : s.step T C cfg e = some s') : s'.Inv T := by
  cases e with
  | tick d =>
    simp only [Timed.step] at h
    split at h
    · next ht =>
      cases h
      rw [List.all_eq_true] at ht
      refine ⟨fun i c hc => ?_, hI.none⟩
      have h1 := hI.ok i c hc
      have h2 := ht c (List.mem_of_getElem? hc)
      simp only [Bool.or_eq_true, Bool.not_eq_true', decide_eq_true_eq] at h2
      unfold TCallOk at h1 ⊢
      obtain ⟨a1, a2, a3, a4, a5⟩ := h1
      refine ⟨a1, by simp only; omega, a3, a4, ?_⟩
      have h3 : (∀ sig err, c.stage ≠ .ended sig err) → s.now + d ≤ c.due := by
        intro hne
        rcases h2 with h2 | h2
        · unfold TCall.running at h2
          split at h2
          · next x => exact absurd x (hne _ _)
          · cases h2
        · exact h2
      cases hs : c.stage <;> simp only [hs] at a5 h3 ⊢ <;> first
        | exact a5
        | exact ⟨h3 (by nofun), a5.2⟩
    · cases h
  | lss n ssc =>
    simp only [Timed.step, Option.some.injEq] at h
    subst h
    have hcalls : ∀ m j, (s.setNode n ((s.nodes n).step C cfg (.lss ssc)).2 m).calls j = (s.nodes m).calls j := by
      intro m j
      simp only [Timed.setNode]
      split
      · next hn => rw [hn]; rfl
      · rfl
    refine ⟨fun i c hc => ?_, fun m j hj => ?_⟩
    · simp only [hcalls]; exact hI.ok i c hc
    · simp only [hcalls]; exact hI.none m j hj
  | request n b role => cases h; exact enter_inv hI n b _ role
  | noLeader i =>
    simp only [Timed.step, Option.bind_eq_bind, Option.bind_eq_some_iff] at h
    obtain ⟨c, hc, h⟩ := h
    have hok := hI.ok i c hc
    split at h
    · next k hs =>
      have h0 := hok
      unfold TCallOk at h0
      simp only [hs] at h0
      obtain ⟨a1, a2, a3, a4, b1, b2, b3, b4, b5, b6, b7⟩ := h0
      split at h
      · cases h
      · next hw =>
        split at h
        · next hk =>
          cases h
          refine set_inv hI hc (by rfl) ?_
          unfold TCallOk TCall.wait
          simp only [leaderTries] at hk
          simp only [leaderPause, b2, b3, b4]
          have e : (k + 1) * (100 + T.own) = k * (100 + T.own) + (100 + T.own) := Nat.succ_mul _ _
          refine ⟨by omega, by omega, by omega, by omega, by omega, trivial, trivial, trivial, by omega, by omega, by omega⟩
        · cases h
          exact proxy_inv hI hc (by simp [TCall.running, hs]) b2 _
    · cases h
  | leader i l =>
    simp only [Timed.step, Option.bind_eq_bind, Option.bind_eq_some_iff] at h
    obtain ⟨c, hc, h⟩ := h
    have hok := hI.ok i c hc
    split at h
    · next k hs =>
      unfold TCallOk at hok
      simp only [hs] at hok
      obtain ⟨a1, a2, a3, a4, b1, b2, b3, b4, b5, b6, b7⟩ := hok
      split at h
      · cases h
      · next hk =>
        cases h
        refine set_inv hI hc (by rfl) ?_
        unfold TCallOk TCall.wait
        simp only [leaderTries] at hk
        simp only [rpcTimeout, b2, b3]
        have e : k * (100 + T.own) ≤ 29 * (100 + T.own) := Nat.mul_le_mul_right _ (by omega)
        refine ⟨by omega, by omega, by omega, by omega, by omega, trivial, trivial, trivial, ⟨l, rfl⟩, by omega, by trivial⟩
    · cases h
  | arrive i role =>
    simp only [Timed.step, Option.bind_eq_bind, Option.bind_eq_some_iff] at h
    obtain ⟨c, hc, l, hl, h⟩ := h
    split at h
    · cases h
    · cases h; exact enter_inv hI l.1 _ _ role
  | reply i j =>
    simp only [Timed.step, Option.bind_eq_bind, Option.bind_eq_some_iff] at h
    obtain ⟨c, hc, c', hc', h⟩ := h
    split at h
    · next hs =>
      split at h
      · cases h; exact proxy_inv hI hc (ask_ok (hI.ok i c hc) hs.1).1 (ask_ok (hI.ok i c hc) hs.1).2 _
      · cases h
    · cases h
  | lost i =>
    simp only [Timed.step, Option.bind_eq_bind, Option.bind_eq_some_iff] at h
    obtain ⟨c, hc, h⟩ := h
    split at h
    · next hs => cases h; exact proxy_inv hI hc (ask_ok (hI.ok i c hc) hs).1 (ask_ok (hI.ok i c hc) hs).2 _
    · cases h
  | expire i =>
    simp only [Timed.step, Option.bind_eq_bind, Option.bind_eq_some_iff] at h
    obtain ⟨c, hc, h⟩ := h
    split at h
    · next hs => cases h; exact proxy_inv hI hc (ask_ok (hI.ok i c hc) hs.1).1 (ask_ok (hI.ok i c hc) hs.1).2 _
    · cases h
  | ownParts i err =>
    simp only [Timed.step, Option.bind_eq_bind, Option.bind_eq_some_iff] at h
    obtain ⟨c, hc, h⟩ := h
    have hok := hI.ok i c hc
    split at h
    · next hs =>
      unfold TCallOk at hok
      simp only [hs] at hok
      obtain ⟨a1, a2, a3, a4, b1, b2, b3, b4⟩ := hok
      split at h
      · cases h
        refine set_inv hI hc (by rfl) ?_
        unfold TCallOk TCall.wait
        simp only [roundTimeout, b2, b3]
        refine ⟨by omega, by omega, by omega, by omega, by omega, trivial, trivial, trivial, by omega⟩
      · cases h
        exact fail_inv hI hc (by simp [TCall.running, hs]) b2 _
    · cases h
  | gathered i =>
    simp only [Timed.step, Option.bind_eq_bind, Option.bind_eq_some_iff] at h
    obtain ⟨c, hc, h⟩ := h
    have hok := hI.ok i c hc
    split at h
    · next hs =>
      unfold TCallOk at hok
      simp only [hs] at hok
      obtain ⟨a1, a2, a3, a4, b1, b2, b3, b4, b5⟩ := hok
      cases h
      refine set_inv hI hc (by rfl) ?_
      unfold TCallOk TCall.wait
      simp only [roundTimeout, b2, b3]
      refine ⟨by omega, by omega, by omega, by omega, by omega, trivial, trivial, trivial, by omega⟩
    · cases h
  | partsTimeout i =>
    simp only [Timed.step, Option.bind_eq_bind, Option.bind_eq_some_iff] at h
    obtain ⟨c, hc, h⟩ := h
    have hok := hI.ok i c hc
    split at h
    · next hs =>
      unfold TCallOk at hok
      simp only [hs.1] at hok
      cases h
      exact fail_inv hI hc (by simp [TCall.running, hs.1]) hok.2.2.2.2.2.1 _
    · cases h
  | signed i shares eph =>
    simp only [Timed.step, Option.bind_eq_bind, Option.bind_eq_some_iff] at h
    obtain ⟨c, hc, h⟩ := h
    have hok := hI.ok i c hc
    split at h
    · next hs =>
      unfold TCallOk at hok
      simp only [hs] at hok
      obtain ⟨a1, a2, a3, a4, b1, b2, b3, b4, b5⟩ := hok
      cases h
      cases ha : assemble C cfg.threshold cfg.pubKey c.block.signBytes shares eph with
      | err e =>
        exact ret_inv hI hc (by simp [TCall.running, hs]) rfl (by simp only [VState.step, b2, ha]; rfl) (calls_finish _ _)
      | panic => exact absurd ha (assemble_no_panic _ _ _ _ _ _)
      | ok sig =>
        apply act_inv hI hc rfl
        simp only [VState.step, b2, ha, TCall.after, calls_setPhase]
        unfold TCallOk TCall.wait
        simp only [b3]
        refine ⟨by omega, by omega, by omega, by omega, by omega, trivial, .inr (.inr (.inl ⟨sig, rfl, by omega⟩))⟩
    · cases h
  | signTimeout i =>
    simp only [Timed.step, Option.bind_eq_bind, Option.bind_eq_some_iff] at h
    obtain ⟨c, hc, h⟩ := h
    have hok := hI.ok i c hc
    split at h
    · next hs =>
      unfold TCallOk at hok
      simp only [hs.1] at hok
      cases h
      exact fail_inv hI hc (by simp [TCall.running, hs.1]) hok.2.2.2.2.2.1 _
    · cases h
  | poll i =>
    simp only [Timed.step, Option.bind_eq_bind, Option.bind_eq_some_iff] at h
    obtain ⟨c, hc, h⟩ := h
    have hok := hI.ok i c hc
    split at h
    · next hs =>
      obtain ⟨hs, hw, hp⟩ := hs
      unfold TCallOk at hok
      simp only [hs] at hok
      have hrun : c.running = true := by simp [TCall.running, hs]
      obtain ⟨a1, a2, a3, a4, b1, b3, ⟨k, b2, b4, b5, b6⟩ | ⟨b2, _⟩ | ⟨sig, b2, _⟩ | ⟨sig, b2, _⟩⟩ := hok
      · cases h
        cases he : existingSignature (s.nodes c.node).lss c.block with
        | ok sg =>
          cases sg with
          | some sg =>
            exact ret_inv hI hc hrun rfl (by simp only [VState.step, b2, he]; rfl) (calls_finish _ _)
          | none =>
            apply act_inv hI hc rfl
            simp only [VState.step, b2, he, TCall.after, calls_setPhase]
            unfold TCallOk TCall.wait
            simp only [b3]
            have e : k * (10 + T.own) ≤ 99 * (10 + T.own) := Nat.mul_le_mul_right _ (by omega)
            refine ⟨by omega, by omega, by omega, by omega, by omega, trivial, trivial, by omega⟩
        | error e =>
          by_cases h1 : e = .stillWaiting
          · subst h1
            by_cases h2 : k + 1 < 100
            · apply act_inv hI hc rfl
              simp only [VState.step, b2, he, h2, if_true, TCall.after, calls_setPhase]
              unfold TCallOk TCall.wait
              simp only [b3, pollPause]
              have e : (k + 1) * (10 + T.own) = k * (10 + T.own) + (10 + T.own) := Nat.succ_mul _ _
              refine ⟨by omega, by omega, by omega, by omega, by omega, trivial, .inl ⟨k + 1, rfl, h2, by omega, by omega⟩⟩
            · exact ret_inv hI hc hrun rfl (by simp only [VState.step, b2, he, h2, if_false]; rfl) (calls_finish _ _)
          · have hst : (s.nodes c.node).step C cfg (.poll i) =
                (.ret i c.block none c.block.timestamp (some e), (s.nodes c.node).finish i) := by
              simp only [VState.step, b2, he]
            exact ret_inv hI hc hrun rfl hst (calls_finish _ _)
      all_goals simp [b2] at hp
    · cases h
  | lookup i =>
    simp only [Timed.step, Option.bind_eq_bind, Option.bind_eq_some_iff] at h
    obtain ⟨c, hc, h⟩ := h
    have hok := hI.ok i c hc
    split at h
    · next hs =>
      obtain ⟨hs, hp⟩ := hs
      unfold TCallOk at hok
      simp only [hs] at hok
      have hrun : c.running = true := by simp [TCall.running, hs]
      obtain ⟨a1, a2, a3, a4, b1, b3, ⟨k, b2, b4, b5, b6⟩ | ⟨b2, _⟩ | ⟨sig, b2, _⟩ | ⟨sig, b2, _⟩⟩ := hok
      case inr.inl =>
        cases h
        cases he : existingSignature (s.nodes c.node).lss c.block with
        | ok sg => exact ret_inv hI hc hrun rfl (by simp only [VState.step, b2, he]; rfl) (calls_finish _ _)
        | error e => exact ret_inv hI hc hrun rfl (by simp only [VState.step, b2, he]; rfl) (calls_finish _ _)
      all_goals simp [b2] at hp
    · cases h
  | save i =>
    simp only [Timed.step, Option.bind_eq_bind, Option.bind_eq_some_iff] at h
    obtain ⟨c, hc, h⟩ := h
    have hok := hI.ok i c hc
    split at h
    · next hs =>
      obtain ⟨hs, hp⟩ := hs
      unfold TCallOk at hok
      simp only [hs] at hok
      have hrun : c.running = true := by simp [TCall.running, hs]
      obtain ⟨a1, a2, a3, a4, b1, b3, ⟨k, b2, b4, b5, b6⟩ | ⟨b2, _⟩ | ⟨sig, b2, b4⟩ | ⟨sig, b2, _⟩⟩ := hok
      case inr.inr.inl =>
        cases h
        have emit : ∀ l : SignState, TCallOk T s.now (({ s.nodes c.node with lss := l }.setPhase i c.block (.emit sig)).calls i)
            (c.after T s.now i .tau ({ s.nodes c.node with lss := l }.setPhase i c.block (.emit sig))) := by
          intro l
          simp only [TCall.after, calls_setPhase]
          unfold TCallOk TCall.wait
          simp only [b3]
          refine ⟨by omega, by omega, by omega, by omega, by omega, trivial, .inr (.inr (.inr ⟨sig, rfl, by omega⟩))⟩
        rcases save_cases (s.nodes c.node).lss (c.block.record sig) with ⟨_, l, h1⟩ | ⟨_, k, h1⟩ | ⟨_, e, h2, h1⟩
        · apply act_inv hI hc rfl
          simp only [VState.step, b2, h1]
          exact emit _
        · apply act_inv hI hc rfl
          simp only [VState.step, b2, h1]
          exact emit _
        · have hst : (s.nodes c.node).step C cfg (.save i) =
              (.ret i c.block none c.block.timestamp (some e), (s.nodes c.node).finish i) := by
            simp only [VState.step, b2, h1]
          exact ret_inv hI hc hrun rfl hst (calls_finish _ _)
      all_goals simp [b2] at hp
    · cases h
  | emit i =>
    simp only [Timed.step, Option.bind_eq_bind, Option.bind_eq_some_iff] at h
    obtain ⟨c, hc, h⟩ := h
    have hok := hI.ok i c hc
    split at h
    · next hs =>
      obtain ⟨hs, hp⟩ := hs
      unfold TCallOk at hok
      simp only [hs] at hok
      have hrun : c.running = true := by simp [TCall.running, hs]
      obtain ⟨a1, a2, a3, a4, b1, b3, ⟨k, b2, b4, b5, b6⟩ | ⟨b2, _⟩ | ⟨sig, b2, b4⟩ | ⟨sig, b2, _⟩⟩ := hok
      case inr.inr.inr =>
        cases h
        exact ret_inv hI hc hrun rfl (by simp only [VState.step, b2]; rfl) (calls_finish _ _)
      all_goals simp [b2] at hp
    · cases h

theorem run_inv {s s' : Timed} {es : List TEv} (hI : s.Inv T) (h : s.run T C cfg es = some s') : s'.Inv T := by
  induction es generalizing s with
  | nil => cases h; exact hI
  | cons e es ih =>
    simp only [Timed.run, Option.bind_eq_some_iff] at h
    obtain ⟨s1, h1, h2⟩ := h
    exact ih (step_inv hI h1) h2

/-- Still the same call. -/
def TCall.Same (c c' : TCall) : Prop :=
  c'.node = c.node ∧ c'.block = c.block ∧ c'.origin = c.origin ∧ c'.role = c.role ∧ c'.since = c.since

theorem wait_same (c : TCall) (now : Nat) (st : TStage) (w d : Nat) : c.Same (c.wait now st w d) := ⟨rfl, rfl, rfl, rfl, rfl⟩

theorem after_same (now i : Nat) (c : TCall) (out : VOut) (v : VState) : c.Same (c.after T now i out v) := by
  unfold TCall.after
  split
  · exact wait_same ..
  · split <;> first | exact wait_same .. | exact ⟨rfl, rfl, rfl, rfl, rfl⟩

theorem enter_call (s : Timed) (n : Nat) (b : Block) (o : Option Nat) (role : Role) :
    ∃ c, (s.enter T C cfg n b o role).calls = s.calls ++ [c] ∧ c.since = s.now ∧ c.role = role ∧ c.node = n ∧ c.block = b ∧
      c.origin = o := by
  refine ⟨_, rfl, ?_⟩
  have := after_same (T := T) s.now s.calls.length
    ⟨n, b, o, role, s.now, none, .here, s.now, s.now, s.now⟩
    ((s.nodes n).step C cfg (.call s.calls.length b role)).1 ((s.nodes n).step C cfg (.call s.calls.length b role)).2
  exact ⟨this.2.2.2.2, this.2.2.2.1, this.1, this.2.1, this.2.2.1⟩

/-- A step changes nothing about the calls, adds one, or changes one that is running. -/
theorem step_calls {s s' : Timed} {e : TEv} (h : s.step T C cfg e = some s') :
    s'.calls = s.calls ∨ (∃ c, s'.calls = s.calls ++ [c] ∧ c.since = s.now) ∨
    ∃ j c c', s.calls[j]? = some c ∧ c.running = true ∧ c.Same c' ∧ s'.calls = s.calls.set j c' := by
  cases e with
  | tick d =>
    simp only [Timed.step] at h
    split at h
    · cases h; exact .inl rfl
    · cases h
  | lss n ssc => cases h; exact .inl rfl
  | request n b role =>
    cases h
    obtain ⟨c, h1, h2, _⟩ := enter_call (T := T) (C := C) (cfg := cfg) s n b none role
    exact .inr (.inl ⟨c, h1, h2⟩)
  | arrive i role =>
    simp only [Timed.step, Option.bind_eq_bind, Option.bind_eq_some_iff] at h
    obtain ⟨c, hc, l, hl, h⟩ := h
    split at h
    · cases h
    · cases h
      obtain ⟨d, h1, h2, _⟩ := enter_call (T := T) (C := C) (cfg := cfg) s l.1 (blockFromProto c.block.toProto) (some i) role
      exact .inr (.inl ⟨d, h1, h2⟩)
  | noLeader i =>
    simp only [Timed.step, Option.bind_eq_bind, Option.bind_eq_some_iff] at h
    obtain ⟨c, hc, h⟩ := h
    refine .inr (.inr ⟨i, c, ?_⟩)
    split at h
    · next hs =>
      split at h
      · cases h
      · split at h <;> cases h
        · exact ⟨_, hc, by simp [TCall.running, hs], wait_same .., rfl⟩
        · exact ⟨_, hc, by simp [TCall.running, hs], after_same .., rfl⟩
    · cases h
  | leader i l =>
    simp only [Timed.step, Option.bind_eq_bind, Option.bind_eq_some_iff] at h
    obtain ⟨c, hc, h⟩ := h
    refine .inr (.inr ⟨i, c, ?_⟩)
    split at h
    · next hs =>
      split at h <;> cases h
      refine ⟨_, hc, by simp [TCall.running, hs], ?_, rfl⟩
      exact ⟨rfl, rfl, rfl, rfl, rfl⟩
    · cases h
  | reply i j =>
    simp only [Timed.step, Option.bind_eq_bind, Option.bind_eq_some_iff] at h
    obtain ⟨c, hc, c', hc', h⟩ := h
    refine .inr (.inr ⟨i, c, ?_⟩)
    split at h
    · next hs =>
      split at h <;> cases h
      exact ⟨_, hc, by simp [TCall.running, hs.1], after_same .., rfl⟩
    · cases h
  | ownParts i err =>
    simp only [Timed.step, Option.bind_eq_bind, Option.bind_eq_some_iff] at h
    obtain ⟨c, hc, h⟩ := h
    refine .inr (.inr ⟨i, c, ?_⟩)
    split at h
    · next hs =>
      split at h <;> cases h
      · exact ⟨_, hc, by simp [TCall.running, hs], wait_same .., rfl⟩
      · exact ⟨_, hc, by simp [TCall.running, hs], after_same .., rfl⟩
    · cases h
  | gathered i =>
    simp only [Timed.step, Option.bind_eq_bind, Option.bind_eq_some_iff] at h
    obtain ⟨c, hc, h⟩ := h
    refine .inr (.inr ⟨i, c, ?_⟩)
    split at h
    · next hs => cases h; exact ⟨_, hc, by simp [TCall.running, hs], wait_same .., rfl⟩
    · cases h
  | lost i =>
    simp only [Timed.step, Option.bind_eq_bind, Option.bind_eq_some_iff] at h
    obtain ⟨c, hc, h⟩ := h
    refine .inr (.inr ⟨i, c, ?_⟩)
    split at h
    · next hs =>
      cases h
      exact ⟨_, hc, by simp [TCall.running, hs], after_same .., rfl⟩
    · cases h
  | signed i sh eph =>
    simp only [Timed.step, Option.bind_eq_bind, Option.bind_eq_some_iff] at h
    obtain ⟨c, hc, h⟩ := h
    refine .inr (.inr ⟨i, c, ?_⟩)
    split at h
    · next hs =>
      cases h
      exact ⟨_, hc, by simp [TCall.running, hs], after_same .., rfl⟩
    · cases h
  | expire i | partsTimeout i | signTimeout i | poll i | lookup i | save i | emit i =>
    simp only [Timed.step, Option.bind_eq_bind, Option.bind_eq_some_iff] at h
    obtain ⟨c, hc, h⟩ := h
    refine .inr (.inr ⟨i, c, ?_⟩)
    split at h
    · next hs =>
      cases h
      exact ⟨_, hc, by simp [TCall.running, hs.1], after_same .., rfl⟩
    · cases h

theorem getElem?_lt {α : Type} {l : List α} {i : Nat} {a : α} (h : l[i]? = some a) : i < l.length := by
  rcases Nat.lt_or_ge i l.length with h' | h'
  · exact h'
  · rw [List.getElem?_eq_none h'] at h; cases h

/-- A call stays the same call, and an ended call stays as it is. -/
theorem tstep_keeps {s s' : Timed} {e : TEv} (h : s.step T C cfg e = some s') {i : Nat} {c : TCall}
    (hc : s.calls[i]? = some c) : ∃ c', s'.calls[i]? = some c' ∧ c.Same c' ∧ (c.running = false → c' = c) := by
  rcases step_calls h with h | ⟨d, h, _⟩ | ⟨j, d, d', h1, h2, h3, h⟩
  · exact ⟨c, by rw [h]; exact hc, ⟨rfl, rfl, rfl, rfl, rfl⟩, fun _ => rfl⟩
  · exact ⟨c, by rw [h, List.getElem?_append_left (getElem?_lt hc)]; exact hc, ⟨rfl, rfl, rfl, rfl, rfl⟩, fun _ => rfl⟩
  · by_cases hj : j = i
    · subst hj
      rw [hc] at h1
      cases h1
      exact ⟨d', by rw [h]; simp [getElem?_lt hc], h3, fun x => by rw [x] at h2; cases h2⟩
    · exact ⟨c, by rw [h]; simp [hj, hc], ⟨rfl, rfl, rfl, rfl, rfl⟩, fun _ => rfl⟩

theorem run_keeps {s s' : Timed} {es : List TEv} (h : s.run T C cfg es = some s') {i : Nat} {c : TCall}
    (hc : s.calls[i]? = some c) : ∃ c', s'.calls[i]? = some c' ∧ c.Same c' ∧ (c.running = false → c' = c) := by
  induction es generalizing s c with
  | nil => cases h; exact ⟨c, hc, ⟨rfl, rfl, rfl, rfl, rfl⟩, fun _ => rfl⟩
  | cons e es ih =>
    simp only [Timed.run, Option.bind_eq_some_iff] at h
    obtain ⟨s1, h1, h2⟩ := h
    obtain ⟨c1, k1, k2, k3⟩ := tstep_keeps h1 hc
    obtain ⟨c2, m1, m2, m3⟩ := ih h2 k1
    obtain ⟨x1, x2, x3, x4, x5⟩ := k2
    obtain ⟨y1, y2, y3, y4, y5⟩ := m2
    refine ⟨c2, m1, ⟨y1.trans x1, y2.trans x2, y3.trans x3, y4.trans x4, y5.trans x5⟩, fun hr => ?_⟩
    have := k3 hr
    subst this
    exact m3 hr

theorem run_append {s s' : Timed} {es es' : List TEv} :
    s.run T C cfg (es ++ es') = some s' ↔ ∃ s1, s.run T C cfg es = some s1 ∧ s1.run T C cfg es' = some s' := by
  induction es generalizing s with
  | nil => simp [Timed.run]
  | cons e es ih =>
    simp only [List.cons_append, Timed.run, Option.bind_eq_some_iff, ih]
    constructor
    · rintro ⟨s1, h1, s2, h2, h3⟩; exact ⟨s2, ⟨s1, h1, h2⟩, h3⟩
    · rintro ⟨s2, ⟨s1, h1, h2⟩, h3⟩; exact ⟨s1, h1, s2, h2, h3⟩

/-- What the caller makes of the answer of a call. -/
def passed (sig : Slice) (err : Option Err) : Except Err Slice :=
  match err with
  | some e => .error e
  | none => .ok sig

/-- Why a call that was passed on at the time `t` has ended. -/
def EndedBy (s : Timed) (lost : Prop) (i t : Nat) (at' : Nat) (sig : Slice) (err : Option Err) : Prop :=
  lost ∨
  (∃ j d sig' err', s.calls[j]? = some d ∧ d.origin = some i ∧ d.stage = .ended sig' err' ∧
    remoteAnswer (.ret j d.block sig' d.block.timestamp err') = passed sig err ∧ (err ≠ none → sig = none)) ∨
  (sig = none ∧ err = some .external ∧ t + 4000 ≤ at')

theorem EndedBy.keep {s s' : Timed} {e : TEv} (h : s.step T C cfg e = some s') {P Q : Prop} (hPQ : P → Q) {i t at' : Nat}
    {sig : Slice} {err : Option Err} (hE : EndedBy s P i t at' sig err) : EndedBy s' Q i t at' sig err := by
  rcases hE with h1 | ⟨j, d, sig', err', h1, h2, h3, h4, h5⟩ | h1
  · exact .inl (hPQ h1)
  · obtain ⟨d', k1, _, k3⟩ := tstep_keeps h h1
    have := k3 (by simp [TCall.running, h3])
    subst this
    exact .inr (.inl ⟨j, d', sig', err', k1, h2, h3, h4, h5⟩)
  · exact .inr (.inr h1)

theorem proxy_after {s : Timed} {i : Nat} {c : TCall} (hp : (s.nodes c.node).calls i = some (c.block, .proxy))
    (r : Except Err Slice) :
    ∃ sig err, passed sig err = r ∧ ((∃ e, r = .error e) → sig = none) ∧
      c.after T s.now i ((s.nodes c.node).step C cfg (.proxyDone i r)).1 ((s.nodes c.node).step C cfg (.proxyDone i r)).2 =
        c.wait s.now (.ended sig err) 0 0 := by
  cases r with
  | error e =>
    refine ⟨none, some e, rfl, fun _ => rfl, ?_⟩
    simp only [VState.step, hp, TCall.after]
  | ok sig =>
    refine ⟨sig, none, rfl, nofun, ?_⟩
    simp only [VState.step, hp, TCall.after]

theorem after_asked (now i : Nat) (c : TCall) (out : VOut) (v : VState) : (c.after T now i out v).asked = c.asked := by
  unfold TCall.after
  split
  · rfl
  · split <;> rfl

theorem proxied {s : Timed} {P : Prop} (hI : s.Inv T) {i : Nat} {c : TCall} {r : Except Err Slice} (hc : s.calls[i]? = some c)
    (hs : c.stage = .ask)
    (h : ∀ sig err l t, passed sig err = r → ((∃ e, r = .error e) → sig = none) → c.asked = some (l, t) →
      EndedBy s P i t s.now sig err) :
    ∃ d', (s.act T C cfg i c (.proxyDone i r)).calls = s.calls.set i d' ∧ (∀ x, c.asked = some x → d'.asked = some x) ∧
      ∀ sig err l t, d'.stage = .ended sig err → d'.asked = some (l, t) →
        c.role = .leader ∨ EndedBy s P i t d'.at' sig err := by
  obtain ⟨sig, err, h1, h2, h3⟩ := proxy_after (T := T) (C := C) (cfg := cfg) (ask_ok (hI.ok i c hc) hs).2 r
  refine ⟨_, rfl, fun _ h => (after_asked ..).trans h, ?_⟩
  rw [h3]
  intro sig' err' l t h4 h5
  cases h4
  exact .inr (h _ _ l t h1 h2 h5)

/-- The calls change as in `step_calls`; and if a call that was passed on ends, there is a reason. -/
theorem step_ended {s s' : Timed} {e : TEv} (hI : s.Inv T) (h : s.step T C cfg e = some s') :
    s'.calls = s.calls ∨ (∃ c, s'.calls = s.calls ++ [c] ∧ c.asked = none ∧ ∀ i, c.origin = some i →
      ∃ d t, s.calls[i]? = some d ∧ d.asked = some (c.node, t) ∧ c.block = blockFromProto d.block.toProto) ∨
    ∃ j c c', s.calls[j]? = some c ∧ s'.calls = s.calls.set j c' ∧ (∀ x, c.asked = some x → c'.asked = some x) ∧
      ∀ sig err l t, c'.stage = .ended sig err → c'.asked = some (l, t) →
        c.role = .leader ∨ EndedBy s (e = .lost j) j t c'.at' sig err := by
  have enter : ∀ (n : Nat) (b : Block) (o : Option Nat) (role : Role), ∃ c, (s.enter T C cfg n b o role).calls = s.calls ++ [c] ∧
      c.asked = none ∧ c.origin = o ∧ c.node = n ∧ c.block = b := by
    intro n b o role
    have := after_same (T := T) s.now s.calls.length ⟨n, b, o, role, s.now, none, .here, s.now, s.now, s.now⟩
      ((s.nodes n).step C cfg (.call s.calls.length b role)).1 ((s.nodes n).step C cfg (.call s.calls.length b role)).2
    exact ⟨_, rfl, after_asked .., this.2.2.1, this.1, this.2.1⟩
  cases e with
  | tick d =>
    simp only [Timed.step] at h
    split at h
    · cases h; exact .inl rfl
    · cases h
  | lss n ssc => cases h; exact .inl rfl
  | request n b role =>
    cases h
    obtain ⟨c, h1, h2, h3, h4, h5⟩ := enter n b none role
    exact .inr (.inl ⟨c, h1, h2, fun i hi => by rw [h3] at hi; cases hi⟩)
  | arrive i role =>
    simp only [Timed.step, Option.bind_eq_bind, Option.bind_eq_some_iff] at h
    obtain ⟨c, hc, l, hl, h⟩ := h
    split at h
    · cases h
    · cases h
      obtain ⟨d, h1, h2, h3, h4, h5⟩ := enter l.1 (blockFromProto c.block.toProto) (some i) role
      refine .inr (.inl ⟨d, h1, h2, fun i' hi => ?_⟩)
      rw [h3] at hi
      cases hi
      exact ⟨c, l.2, hc, by rw [hl, h4], h5⟩
  | noLeader i =>
    simp only [Timed.step, Option.bind_eq_bind, Option.bind_eq_some_iff] at h
    obtain ⟨c, hc, h⟩ := h
    refine .inr (.inr ⟨i, c, ?_⟩)
    have hok := hI.ok i c hc
    split at h
    · next hs =>
      unfold TCallOk at hok
      simp only [hs] at hok
      split at h
      · cases h
      · split at h <;> cases h
        · exact ⟨_, hc, rfl, fun _ h => h, nofun⟩
        · refine ⟨_, hc, rfl, fun _ h => (after_asked ..).trans h, fun sig err l t h1 h2 => ?_⟩
          rw [show (c.after T s.now i _ _).asked = c.asked from after_asked ..] at h2
          rw [hok.2.2.2.2.2.2.2.1] at h2
          cases h2
    · cases h
  | leader i l =>
    simp only [Timed.step, Option.bind_eq_bind, Option.bind_eq_some_iff] at h
    obtain ⟨c, hc, h⟩ := h
    refine .inr (.inr ⟨i, c, ?_⟩)
    have hok := hI.ok i c hc
    split at h
    · next hs =>
      unfold TCallOk at hok
      simp only [hs] at hok
      split at h <;> cases h
      exact ⟨_, hc, rfl, fun x hx => (by rw [hok.2.2.2.2.2.2.2.1] at hx; cases hx), nofun⟩
    · cases h
  | reply i j =>
    simp only [Timed.step, Option.bind_eq_bind, Option.bind_eq_some_iff] at h
    obtain ⟨c, hc, c', hc', h⟩ := h
    split at h
    · next hs =>
      split at h <;> cases h
      next sg er hst =>
      obtain ⟨d', k1, k3, k2⟩ := proxied (C := C) (cfg := cfg) (P := TEv.reply i j = .lost i) hI hc hs.1
        (r := remoteAnswer (.ret j c'.block sg c'.block.timestamp er))
        fun sig err l t h1 h2 h3 => .inr (.inl ⟨j, c', sg, er, hc', hs.2, hst, h1.symm, fun hne => h2 (by
          unfold passed at h1
          cases err with
          | none => exact absurd rfl hne
          | some e => exact ⟨e, h1.symm⟩)⟩)
      exact .inr (.inr ⟨i, c, d', hc, k1, k3, k2⟩)
    · cases h
  | lost i =>
    simp only [Timed.step, Option.bind_eq_bind, Option.bind_eq_some_iff] at h
    obtain ⟨c, hc, h⟩ := h
    split at h
    · next hs =>
      cases h
      obtain ⟨d', k1, k3, k2⟩ := proxied (C := C) (cfg := cfg) (P := TEv.lost i = .lost i) hI hc hs
        (r := .error .external) fun sig err l t h1 h2 h3 => .inl rfl
      exact .inr (.inr ⟨i, c, d', hc, k1, k3, k2⟩)
    · cases h
  | expire i =>
    simp only [Timed.step, Option.bind_eq_bind, Option.bind_eq_some_iff] at h
    obtain ⟨c, hc, h⟩ := h
    split at h
    · next hs =>
      cases h
      have hok := hI.ok i c hc
      unfold TCallOk at hok
      simp only [hs.1] at hok
      obtain ⟨_, _, _, _, _, _, _, hw, ⟨l', ha⟩, _⟩ := hok
      obtain ⟨d', k1, k3, k2⟩ := proxied (C := C) (cfg := cfg) (P := TEv.expire i = .lost i) hI hc hs.1
        (r := .error .external) (by
          intro sig err l t h1 h2 h3
          rw [ha] at h3
          cases h3
          refine .inr (.inr ⟨h2 ⟨_, rfl⟩, ?_, by omega⟩)
          unfold passed at h1
          split at h1 <;> cases h1
          rfl)
      exact .inr (.inr ⟨i, c, d', hc, k1, k3, k2⟩)
    · cases h
  | ownParts i err =>
    simp only [Timed.step, Option.bind_eq_bind, Option.bind_eq_some_iff] at h
    obtain ⟨c, hc, h⟩ := h
    refine .inr (.inr ⟨i, c, ?_⟩)
    have hok := hI.ok i c hc
    split at h
    · next hs =>
      unfold TCallOk at hok
      simp only [hs] at hok
      split at h <;> cases h
      · exact ⟨_, hc, rfl, fun _ h => h, nofun⟩
      · exact ⟨_, hc, rfl, fun _ h => (after_asked ..).trans h, fun _ _ _ _ _ _ => .inl hok.2.2.2.2.2.2.1⟩
    · cases h
  | gathered i =>
    simp only [Timed.step, Option.bind_eq_bind, Option.bind_eq_some_iff] at h
    obtain ⟨c, hc, h⟩ := h
    refine .inr (.inr ⟨i, c, ?_⟩)
    split at h
    · next hs => cases h; exact ⟨_, hc, rfl, fun _ h => h, nofun⟩
    · cases h
  | partsTimeout i | signTimeout i =>
    simp only [Timed.step, Option.bind_eq_bind, Option.bind_eq_some_iff] at h
    obtain ⟨c, hc, h⟩ := h
    refine .inr (.inr ⟨i, c, ?_⟩)
    have hok := hI.ok _ c hc
    split at h
    · next hs =>
      unfold TCallOk at hok
      simp only [hs.1] at hok
      cases h
      exact ⟨_, hc, rfl, fun _ h => (after_asked ..).trans h, fun _ _ _ _ _ _ => .inl hok.2.2.2.2.2.2.1⟩
    · cases h
  | signed i sh eph =>
    simp only [Timed.step, Option.bind_eq_bind, Option.bind_eq_some_iff] at h
    obtain ⟨c, hc, h⟩ := h
    refine .inr (.inr ⟨i, c, ?_⟩)
    have hok := hI.ok _ c hc
    split at h
    · next hs =>
      unfold TCallOk at hok
      simp only [hs] at hok
      cases h
      exact ⟨_, hc, rfl, fun _ h => (after_asked ..).trans h, fun _ _ _ _ _ _ => .inl hok.2.2.2.2.2.2.1⟩
    · cases h
  | poll i | lookup i | save i | emit i =>
    simp only [Timed.step, Option.bind_eq_bind, Option.bind_eq_some_iff] at h
    obtain ⟨c, hc, h⟩ := h
    refine .inr (.inr ⟨i, c, ?_⟩)
    have hok := hI.ok _ c hc
    split at h
    · next hs =>
      unfold TCallOk at hok
      simp only [hs.1] at hok
      cases h
      exact ⟨_, hc, rfl, fun _ h => (after_asked ..).trans h, fun _ _ _ _ _ _ => .inl hok.2.2.2.2.2.1⟩
    · cases h

/-- A call that is new after a step began then. -/
theorem new_since {s s' : Timed} {e : TEv} (h : s.step T C cfg e = some s') {c : TCall}
    (hc : s'.calls[s.calls.length]? = some c) : c.since = s.now := by
  rcases step_calls h with h1 | ⟨d, h1, h2⟩ | ⟨j, d, d', _, _, _, h1⟩
  · rw [h1] at hc; simp at hc
  · rw [h1, List.getElem?_append_right (Nat.le_refl _)] at hc
    simp only [Nat.sub_self, List.getElem?_cons_zero, Option.some.injEq] at hc
    rw [← hc]; exact h2
  · rw [h1] at hc; simp at hc

/-- What is known about a call that was passed on: who asked for it, and why the call that passed it on has ended. -/
structure Timed.Passed (lost : Nat → Prop) (s : Timed) : Prop where
  origin : ∀ (j : Nat) (d : TCall) (i : Nat), s.calls[j]? = some d → d.origin = some i →
    ∃ (c : TCall) (t : Nat), s.calls[i]? = some c ∧ c.asked = some (d.node, t) ∧ d.block = blockFromProto c.block.toProto
  ended : ∀ (i : Nat) (c : TCall) (sig : Slice) (err : Option Err) (l t : Nat), s.calls[i]? = some c → c.role = .follower → c.stage = .ended sig err → c.asked = some (l, t) →
    EndedBy s (lost i) i t c.at' sig err

theorem step_passed {s s' : Timed} {e : TEv} (hI : s.Inv T) {P Q : Nat → Prop} (hP : s.Passed P)
    (h : s.step T C cfg e = some s') (hPQ : ∀ i, P i → Q i) (he : ∀ i, e = .lost i → Q i) : s'.Passed Q := by
  have hkeep := fun (i : Nat) (c : TCall) (hc : s.calls[i]? = some c) => tstep_keeps h hc
  have hasked : ∀ (i : Nat) (c : TCall) (x : Nat × Nat), s.calls[i]? = some c → c.asked = some x → ∃ c' : TCall, s'.calls[i]? = some c' ∧ c'.block = c.block ∧
      c'.asked = some x := by
    intro i c x hc hx
    obtain ⟨c', k1, k2, _⟩ := hkeep i c hc
    refine ⟨c', k1, k2.2.1, ?_⟩
    rcases step_ended hI h with h1 | ⟨d, h1, _⟩ | ⟨j, d, d', h2, h1, h3, _⟩
    · rw [h1, hc] at k1; cases k1; exact hx
    · rw [h1, List.getElem?_append_left (getElem?_lt hc), hc] at k1; cases k1; exact hx
    · by_cases hj : j = i
      · subst hj
        rw [hc] at h2
        cases h2
        rw [h1, List.getElem?_set_self (getElem?_lt hc)] at k1
        cases k1
        exact h3 x hx
      · rw [h1, List.getElem?_set_ne hj, hc] at k1; cases k1; exact hx
  have hold : ∀ (j : Nat) (d : TCall), s.calls[j]? = some d → ∀ d', s'.calls[j]? = some d' → d.Same d' := by
    intro j d hd d' hd'
    obtain ⟨c', k1, k2, _⟩ := hkeep j d hd
    rw [hd'] at k1
    cases k1
    exact k2
  constructor
  · intro j d i hd ho
    have trans : ∀ (n : Nat) (b : Block), (∃ (c : TCall) (t : Nat), s.calls[i]? = some c ∧ c.asked = some (n, t) ∧ b = blockFromProto c.block.toProto) →
        ∃ (c : TCall) (t : Nat), s'.calls[i]? = some c ∧ c.asked = some (n, t) ∧ b = blockFromProto c.block.toProto := by
      rintro n b ⟨c, t, h1, h2, h3⟩
      obtain ⟨c', k1, k2, k3⟩ := hasked i c _ h1 h2
      exact ⟨c', t, k1, k3, by rw [k2]; exact h3⟩
    cases hj : s.calls[j]? with
    | some d0 =>
      obtain ⟨x1, x2, x3, _, _⟩ := hold j d0 hj d hd
      rw [x1, x2]
      rw [x3] at ho
      exact trans _ _ (hP.origin j d0 i hj ho)
    | none =>
      rcases step_ended hI h with h1 | ⟨d0, h1, _, h2⟩ | ⟨j', d0, d0', h2, h1, _⟩
      · rw [h1, hj] at hd; cases hd
      · rw [h1] at hd
        rcases Nat.lt_or_ge j s.calls.length with hl | hl
        · rw [List.getElem?_append_left hl, hj] at hd; cases hd
        · rw [List.getElem?_append_right hl] at hd
          have hz : j - s.calls.length = 0 := by
            rcases Nat.eq_zero_or_pos (j - s.calls.length) with hz | hz
            · exact hz
            · rw [List.getElem?_eq_none (by simp; omega)] at hd; cases hd
          rw [hz] at hd
          simp only [List.getElem?_cons_zero, Option.some.injEq] at hd
          subst hd
          exact trans _ _ (h2 i ho)
      · rw [h1, List.getElem?_set] at hd
        split at hd
        · next hx => subst hx; rw [hj] at h2; cases h2
        · rw [hj] at hd; cases hd
  · intro i c sig err l t hc hr hs ha
    rcases step_ended hI h with h1 | ⟨d0, h1, h2, _⟩ | ⟨j, d, d', h2, h1, h3, h4⟩
    · rw [h1] at hc
      exact (hP.ended i c sig err l t hc hr hs ha).keep h (hPQ i)
    · rw [h1] at hc
      rcases Nat.lt_or_ge i s.calls.length with hl | hl
      · rw [List.getElem?_append_left hl] at hc
        exact (hP.ended i c sig err l t hc hr hs ha).keep h (hPQ i)
      · rw [List.getElem?_append_right hl] at hc
        have hz : i - s.calls.length = 0 := by
          rcases Nat.eq_zero_or_pos (i - s.calls.length) with hz | hz
          · exact hz
          · rw [List.getElem?_eq_none (by simp; omega)] at hc; cases hc
        rw [hz] at hc
        simp only [List.getElem?_cons_zero, Option.some.injEq] at hc
        subst hc
        rw [h2] at ha
        cases ha
    · by_cases hj : j = i
      · subst hj
        have hsame := hold j d h2 c hc
        rw [h1, List.getElem?_set_self (getElem?_lt h2)] at hc
        cases hc
        rcases h4 sig err l t hs ha with h5 | h5
        · rw [hsame.2.2.2.1, h5] at hr; cases hr
        · exact h5.keep h (he j)
      · rw [h1, List.getElem?_set_ne hj] at hc
        exact (hP.ended i c sig err l t hc hr hs ha).keep h (hPQ i)

theorem run_passed {s s' : Timed} {es : List TEv} (hI : s.Inv T) {P : Nat → Prop} (hP : s.Passed P)
    (h : s.run T C cfg es = some s') : s'.Passed (fun i => P i ∨ .lost i ∈ es) := by
  induction es generalizing s P with
  | nil =>
    cases h
    have e : (fun i => P i ∨ TEv.lost i ∈ ([] : List TEv)) = P := by funext i; simp
    rw [e]; exact hP
  | cons e es ih =>
    simp only [Timed.run, Option.bind_eq_some_iff] at h
    obtain ⟨s1, h1, h2⟩ := h
    have := ih (step_inv hI h1) (step_passed (Q := fun i => P i ∨ .lost i = e) hI hP h1 (fun _ => .inl) (fun i hi => .inr hi.symm)) h2
    have e : (fun i => P i ∨ TEv.lost i ∈ e :: es) = fun i => (P i ∨ TEv.lost i = e) ∨ TEv.lost i ∈ es := by
      funext i; simp only [List.mem_cons, or_assoc]
    rw [e]; exact this

/-- How far a call is from its end, in steps. -/
def Timed.rank (s : Timed) (i : Nat) : Nat :=
  match s.calls[i]? with
  | none => 0
  | some c =>
    match c.stage with
    | .seek k => 40 - k
    | .ask => 1
    | .own => 5
    | .parts => 4
    | .sign => 3
    | .ended .. => 0
    | .here =>
      match (s.nodes c.node).calls i with
      | some (_, .poll k) => 110 - k
      | some (_, .save _) => 2
      | _ => 1

theorem set_rank {s : Timed} (i : Nat) (c' : TCall) (j : Nat) (hj : j ≠ i) :
    Timed.rank { s with calls := s.calls.set i c' } j = s.rank j := by
  unfold Timed.rank
  simp only [List.getElem?_set_ne (fun h => hj h.symm)]

theorem act_rank {s : Timed} {i : Nat} {c : TCall} {ev : VEv} (ha : ev.actor = some i) (j : Nat) (hj : j ≠ i) :
    (s.act T C cfg i c ev).rank j = s.rank j := by
  have hother : ((s.nodes c.node).step C cfg ev).2.calls j = (s.nodes c.node).calls j :=
    calls_other C cfg (out := ((s.nodes c.node).step C cfg ev).1) rfl j (by rw [ha]; intro h; exact hj (Option.some.inj h).symm)
  have hn : ∀ n, (s.setNode c.node ((s.nodes c.node).step C cfg ev).2 n).calls j = (s.nodes n).calls j := by
    intro n
    unfold Timed.setNode
    split
    · next h => rw [h]; exact hother
    · rfl
  unfold Timed.rank Timed.act
  simp only [List.getElem?_set_ne (fun h => hj h.symm), hn]

/-- A step that only call `i` makes. -/
structure Forced (T : Tempo) (C : Crypto) (cfg : ValidatorCfg) (s : Timed) (i : Nat) (e : TEv) (s' : Timed) : Prop where
  step : s.step T C cfg e = some s'
  now : s'.now = s.now
  calls : s'.calls.length = s.calls.length
  less : s'.rank i < s.rank i
  same : ∀ j, j ≠ i → s'.rank j = s.rank j

theorem forced_ret {s : Timed} {i : Nat} {c : TCall} (hc : s.calls[i]? = some c) {ev : VEv} {e : TEv} (ha : ev.actor = some i)
    (hstep : s.step T C cfg e = some (s.act T C cfg i c ev)) {b : Block} {sig : Slice} {t : GoTime} {err : Option Err}
    {v : VState} (hst : (s.nodes c.node).step C cfg ev = (.ret i b sig t err, v)) (hr : 0 < s.rank i) :
    Forced T C cfg s i e (s.act T C cfg i c ev) := by
  refine ⟨hstep, rfl, by simp [Timed.act], ?_, fun j hj => act_rank ha j hj⟩
  have : (s.act T C cfg i c ev).rank i = 0 := by
    unfold Timed.rank Timed.act
    simp only [List.getElem?_set_self (getElem?_lt hc), hst, TCall.after, TCall.wait]
  omega

theorem forced_set {s : Timed} {i : Nat} {c c' : TCall} {e : TEv} (hc : s.calls[i]? = some c)
    (hstep : s.step T C cfg e = some { s with calls := s.calls.set i c' })
    (hr : ∀ x : Timed, x.calls[i]? = some c' → x.rank i < s.rank i) :
    Forced T C cfg s i e { s with calls := s.calls.set i c' } :=
  ⟨hstep, rfl, by simp, hr _ (by simp [getElem?_lt hc]), fun j hj => set_rank i c' j hj⟩

/-- A call that has waited as long as it may can go on. -/
theorem forced {s : Timed} (hI : s.Inv T) {i : Nat} {c : TCall} (hc : s.calls[i]? = some c) (hr : c.running = true)
    (hdue : c.due ≤ s.now) : ∃ e s', Forced T C cfg s i e s' := by
  have hok := hI.ok i c hc
  have hrank : s.rank i = match c.stage with
    | .seek k => 40 - k
    | .ask => 1
    | .own => 5
    | .parts => 4
    | .sign => 3
    | .ended .. => 0
    | .here =>
      match (s.nodes c.node).calls i with
      | some (_, .poll k) => 110 - k
      | some (_, .save _) => 2
      | _ => 1 := by unfold Timed.rank; simp only [hc]
  unfold TCallOk at hok
  obtain ⟨a1, a2, a3, a4, hok⟩ := hok
  cases hs : c.stage with
  | ended sig err => simp [TCall.running, hs] at hr
  | seek k =>
    simp only [hs] at hok hrank
    obtain ⟨b1, b2, b3, b4, b5, b6, b7⟩ := hok
    by_cases hk : k < 30
    · refine ⟨.noLeader i, _, forced_set hc (c' := c.wait s.now (.seek (k + 1)) leaderPause T.own) ?_ ?_⟩
      · simp [Timed.step, hc, hs, leaderTries, hk, show c.wake ≤ s.now by omega]
      · intro x hx
        have : x.rank i = 40 - (k + 1) := by unfold Timed.rank; simp [hx, TCall.wait]
        omega
    · refine ⟨.noLeader i, _, forced_ret hc (ev := .proxyDone i (.error .external)) rfl ?_
        (by simp only [VState.step, b2]; rfl) (by omega)⟩
      simp [Timed.step, hc, hs, leaderTries, hk, show c.wake ≤ s.now by omega]
  | ask =>
    simp only [hs] at hok hrank
    obtain ⟨b1, b2, b3, b4, b5, b6⟩ := hok
    refine ⟨.expire i, _, forced_ret hc (ev := .proxyDone i (.error .external)) rfl ?_
        (by simp only [VState.step, b2]; rfl) (by omega)⟩
    simp [Timed.step, hc, hs, show c.wake ≤ s.now by omega]
  | own =>
    simp only [hs] at hok hrank
    refine ⟨.ownParts i none, _, forced_set hc (c' := c.wait s.now .parts roundTimeout T.own) ?_ ?_⟩
    · simp [Timed.step, hc, hs]
    · intro x hx
      have : x.rank i = 4 := by unfold Timed.rank; simp [hx, TCall.wait]
      omega
  | parts =>
    simp only [hs] at hok hrank
    obtain ⟨b1, b2, b3, b4, b5⟩ := hok
    refine ⟨.partsTimeout i, _, forced_ret hc (ev := .roundDone i (.failed .external)) rfl ?_
        (by simp only [VState.step, b2]; rfl) (by omega)⟩
    simp [Timed.step, hc, hs, show c.wake ≤ s.now by omega]
  | sign =>
    simp only [hs] at hok hrank
    obtain ⟨b1, b2, b3, b4, b5⟩ := hok
    refine ⟨.signTimeout i, _, forced_ret hc (ev := .roundDone i (.failed .external)) rfl ?_
        (by simp only [VState.step, b2]; rfl) (by omega)⟩
    simp [Timed.step, hc, hs, show c.wake ≤ s.now by omega]
  | here =>
    simp only [hs] at hok hrank
    obtain ⟨b1, b3, ⟨k, b2, b4, b5, b6⟩ | ⟨b2, _⟩ | ⟨sig, b2, b4⟩ | ⟨sig, b2, _⟩⟩ := hok
    · simp only [b2] at hrank
      have hstep : s.step T C cfg (.poll i) = some (s.act T C cfg i c (.poll i)) := by
        simp [Timed.step, hc, hs, b2, show c.wake ≤ s.now by omega]
      have hact : ∀ (b : Block) (p : Phase) (out : VOut) (v : VState), out = .tau ∨ (∃ a b c, out = .startRound a b c) →
          (s.nodes c.node).step C cfg (.poll i) = (out, v) → v.calls i = some (b, p) →
          (p = .round ∨ p = .poll (k + 1)) → (s.act T C cfg i c (.poll i)).rank i < s.rank i := by
        intro b p out v ho hst hv hp
        unfold Timed.rank Timed.act Timed.setNode
        simp only [List.getElem?_set_self (getElem?_lt hc), hst]
        rcases ho with rfl | ⟨_, _, _, rfl⟩ <;> rcases hp with rfl | rfl <;>
          simp [TCall.after, hv, TCall.wait, hc, hs, b2] <;> omega
      cases he : existingSignature (s.nodes c.node).lss c.block with
      | ok sg =>
        cases sg with
        | some sg =>
          exact ⟨.poll i, _, forced_ret hc (ev := .poll i) rfl hstep (by simp only [VState.step, b2, he]; rfl) (by omega)⟩
        | none =>
          refine ⟨.poll i, _, hstep, rfl, by simp [Timed.act], ?_, fun j hj => act_rank rfl j hj⟩
          exact hact c.block .round (.startRound i c.block true) ((s.nodes c.node).setPhase i c.block .round) (.inr ⟨_, _, _, rfl⟩)
            (by simp only [VState.step, b2, he]) (calls_setPhase ..) (.inl rfl)
      | error e =>
        by_cases h1 : e = .stillWaiting
        · subst h1
          by_cases h2 : k + 1 < 100
          · refine ⟨.poll i, _, hstep, rfl, by simp [Timed.act], ?_, fun j hj => act_rank rfl j hj⟩
            exact hact c.block (.poll (k + 1)) .tau ((s.nodes c.node).setPhase i c.block (.poll (k + 1))) (.inl rfl)
              (by simp only [VState.step, b2, he, h2, if_true]) (calls_setPhase ..) (.inr rfl)
          · exact ⟨.poll i, _, forced_ret hc (ev := .poll i) rfl hstep
              (by simp only [VState.step, b2, he, h2, if_false]; rfl) (by omega)⟩
        · exact ⟨.poll i, _, forced_ret hc (ev := .poll i) rfl hstep (sig := none) (err := some e)
            (t := c.block.timestamp) (b := c.block) (v := (s.nodes c.node).finish i)
            (by simp only [VState.step, b2, he]) (by omega)⟩
    · simp only [b2] at hrank
      have hstep : s.step T C cfg (.lookup i) = some (s.act T C cfg i c (.lookup i)) := by
        simp [Timed.step, hc, hs, b2]
      cases he : existingSignature (s.nodes c.node).lss c.block with
      | ok sg =>
        exact ⟨.lookup i, _, forced_ret hc (ev := .lookup i) rfl hstep (by simp only [VState.step, b2, he]; rfl) (by omega)⟩
      | error e =>
        exact ⟨.lookup i, _, forced_ret hc (ev := .lookup i) rfl hstep (by simp only [VState.step, b2, he]; rfl) (by omega)⟩
    · simp only [b2] at hrank
      have hstep : s.step T C cfg (.save i) = some (s.act T C cfg i c (.save i)) := by
        simp [Timed.step, hc, hs, b2]
      have hact : ∀ (l : SignState), (s.nodes c.node).step C cfg (.save i) =
          (.tau, { s.nodes c.node with lss := l }.setPhase i c.block (.emit sig)) →
          (s.act T C cfg i c (.save i)).rank i < s.rank i := by
        intro l hst
        have hv : ({ s.nodes c.node with lss := l }.setPhase i c.block (.emit sig)).calls i = some (c.block, .emit sig) :=
          calls_setPhase ..
        rw [hrank]
        unfold Timed.rank Timed.act Timed.setNode
        simp only [List.getElem?_set_self (getElem?_lt hc), hst]
        simp [TCall.after, hv, TCall.wait]
      rcases save_cases (s.nodes c.node).lss (c.block.record sig) with ⟨_, l, h1⟩ | ⟨_, k, h1⟩ | ⟨_, e, h2, h1⟩
      · exact ⟨.save i, _, hstep, rfl, by simp [Timed.act],
          hact l (by simp only [VState.step, b2, h1]), fun j hj => act_rank rfl j hj⟩
      · exact ⟨.save i, _, hstep, rfl, by simp [Timed.act],
          hact (s.nodes c.node).lss (by simp only [VState.step, b2, h1]), fun j hj => act_rank rfl j hj⟩
      · exact ⟨.save i, _, forced_ret hc (ev := .save i) rfl hstep (sig := none) (err := some e)
            (t := c.block.timestamp) (b := c.block) (v := (s.nodes c.node).finish i)
            (by simp only [VState.step, b2, h1]) (by omega)⟩
    · simp only [b2] at hrank
      refine ⟨.emit i, _, forced_ret hc (ev := .emit i) rfl ?_ (by simp only [VState.step, b2]; rfl) (by omega)⟩
      simp [Timed.step, hc, hs, b2]

/-- The call an event is a step of. -/
def TEv.acts : TEv → Option Nat
  | .tick _ | .request .. | .arrive .. | .lss .. => none
  | .noLeader i | .leader i _ | .reply i _ | .lost i | .expire i | .ownParts i _ | .gathered i | .partsTimeout i
  | .signed i _ _ | .signTimeout i | .poll i | .lookup i | .save i | .emit i => some i

theorem act_other {s : Timed} {j : Nat} {c : TCall} {ev : VEv} (ha : ev.actor = some j) (i : Nat) (hi : i ≠ j) :
    (s.act T C cfg j c ev).calls[i]? = s.calls[i]? ∧ ∀ n, ((s.act T C cfg j c ev).nodes n).calls i = (s.nodes n).calls i := by
  refine ⟨by simp only [Timed.act, List.getElem?_set_ne (fun h => hi h.symm)], fun n => ?_⟩
  simp only [Timed.act, Timed.setNode]
  split
  · next h =>
    rw [h]
    exact calls_other C cfg (ev := ev) (out := ((s.nodes c.node).step C cfg ev).1) rfl i
      (by rw [ha]; intro h; exact hi (Option.some.inj h).symm)
  · rfl

theorem enter_other {s : Timed} {n : Nat} {b : Block} {o : Option Nat} {role : Role} (i : Nat) (hi : i < s.calls.length) :
    (s.enter T C cfg n b o role).calls[i]? = s.calls[i]? ∧
    ∀ m, ((s.enter T C cfg n b o role).nodes m).calls i = (s.nodes m).calls i := by
  refine ⟨by simp only [Timed.enter, List.getElem?_append_left hi], fun m => ?_⟩
  simp only [Timed.enter, Timed.setNode]
  split
  · next h =>
    rw [h]
    exact calls_other C cfg (ev := .call s.calls.length b role)
      (out := ((s.nodes n).step C cfg (.call s.calls.length b role)).1) rfl i
      (by simp only [VEv.actor]; intro h; have := Option.some.inj h; omega)
  · rfl

/-- Steps of others leave a call alone. -/
theorem step_other {s s' : Timed} {e : TEv} (h : s.step T C cfg e = some s') {i : Nat} (hi : i < s.calls.length)
    (he : e.acts ≠ some i) : s'.calls[i]? = s.calls[i]? ∧ ∀ n, (s'.nodes n).calls i = (s.nodes n).calls i := by
  cases e with
  | tick d =>
    simp only [Timed.step] at h
    split at h
    · cases h; exact ⟨rfl, fun _ => rfl⟩
    · cases h
  | lss n ssc =>
    cases h
    refine ⟨rfl, fun m => ?_⟩
    simp only [Timed.setNode]
    split
    · next hn => rw [hn]; rfl
    · rfl
  | request n b role => cases h; exact enter_other i hi
  | arrive k role =>
    simp only [Timed.step, Option.bind_eq_bind, Option.bind_eq_some_iff] at h
    obtain ⟨c, hc, l, hl, h⟩ := h
    split at h
    · cases h
    · cases h; exact enter_other i hi
  | noLeader k =>
    have hk : i ≠ k := fun x => he (by rw [x]; rfl)
    simp only [Timed.step, Option.bind_eq_bind, Option.bind_eq_some_iff] at h
    obtain ⟨c, hc, h⟩ := h
    split at h
    · split at h
      · cases h
      · split at h <;> cases h
        · exact ⟨by simp only [List.getElem?_set_ne (fun h => hk h.symm)], fun _ => rfl⟩
        · exact act_other rfl i hk
    · cases h
  | leader k l =>
    have hk : i ≠ k := fun x => he (by rw [x]; rfl)
    simp only [Timed.step, Option.bind_eq_bind, Option.bind_eq_some_iff] at h
    obtain ⟨c, hc, h⟩ := h
    split at h
    · split at h <;> cases h
      exact ⟨by simp only [List.getElem?_set_ne (fun h => hk h.symm)], fun _ => rfl⟩
    · cases h
  | reply k j =>
    have hk : i ≠ k := fun x => he (by rw [x]; rfl)
    simp only [Timed.step, Option.bind_eq_bind, Option.bind_eq_some_iff] at h
    obtain ⟨c, hc, c', hc', h⟩ := h
    split at h
    · split at h <;> cases h
      exact act_other rfl i hk
    · cases h
  | ownParts k err =>
    have hk : i ≠ k := fun x => he (by rw [x]; rfl)
    simp only [Timed.step, Option.bind_eq_bind, Option.bind_eq_some_iff] at h
    obtain ⟨c, hc, h⟩ := h
    split at h
    · split at h <;> cases h
      · exact ⟨by simp only [List.getElem?_set_ne (fun h => hk h.symm)], fun _ => rfl⟩
      · exact act_other rfl i hk
    · cases h
  | gathered k =>
    have hk : i ≠ k := fun x => he (by rw [x]; rfl)
    simp only [Timed.step, Option.bind_eq_bind, Option.bind_eq_some_iff] at h
    obtain ⟨c, hc, h⟩ := h
    split at h <;> cases h
    exact ⟨by simp only [List.getElem?_set_ne (fun h => hk h.symm)], fun _ => rfl⟩
  | lost k | expire k | partsTimeout k | signed k _ _ | signTimeout k | poll k | lookup k | save k | emit k =>
    have hk : i ≠ k := fun x => he (by rw [x]; rfl)
    simp only [Timed.step, Option.bind_eq_bind, Option.bind_eq_some_iff] at h
    obtain ⟨c, hc, h⟩ := h
    split at h <;> cases h
    exact act_other rfl i hk

theorem act_node (s : Timed) (i : Nat) (c : TCall) (ev : VEv) (n : Nat) :
    ∃ tr, VRun C cfg (s.nodes n) tr ((s.act T C cfg i c ev).nodes n) := by
  simp only [Timed.act, Timed.setNode]
  split
  · next h =>
    subst h
    exact ⟨_, .snoc (.nil _) (ev := ev) (out := ((s.nodes c.node).step C cfg ev).1) rfl⟩
  · exact ⟨_, .nil _⟩

theorem enter_node (s : Timed) (m : Nat) (b : Block) (o : Option Nat) (role : Role) (n : Nat) :
    ∃ tr, VRun C cfg (s.nodes n) tr ((s.enter T C cfg m b o role).nodes n) := by
  simp only [Timed.enter, Timed.setNode]
  split
  · next h =>
    subst h
    exact ⟨_, .snoc (.nil _) (ev := .call s.calls.length b role)
      (out := ((s.nodes n).step C cfg (.call s.calls.length b role)).1) rfl⟩
  · exact ⟨_, .nil _⟩

/-- Every node makes steps of its own. -/
theorem step_node {s s' : Timed} {e : TEv} (h : s.step T C cfg e = some s') (n : Nat) :
    ∃ tr, VRun C cfg (s.nodes n) tr (s'.nodes n) := by
  cases e with
  | tick d =>
    simp only [Timed.step] at h
    split at h
    · cases h; exact ⟨_, .nil _⟩
    · cases h
  | lss m ssc =>
    cases h
    simp only [Timed.setNode]
    split
    · next hn =>
      subst hn
      exact ⟨_, .snoc (.nil _) (ev := .lss ssc) (out := ((s.nodes n).step C cfg (.lss ssc)).1) rfl⟩
    · exact ⟨_, .nil _⟩
  | request m b role => cases h; exact enter_node s m b _ role n
  | arrive k role =>
    simp only [Timed.step, Option.bind_eq_bind, Option.bind_eq_some_iff] at h
    obtain ⟨c, hc, l, hl, h⟩ := h
    split at h
    · cases h
    · cases h; exact enter_node s l.1 _ _ role n
  | noLeader k =>
    simp only [Timed.step, Option.bind_eq_bind, Option.bind_eq_some_iff] at h
    obtain ⟨c, hc, h⟩ := h
    split at h
    · split at h
      · cases h
      · split at h <;> cases h
        · exact ⟨_, .nil _⟩
        · exact act_node ..
    · cases h
  | leader k l =>
    simp only [Timed.step, Option.bind_eq_bind, Option.bind_eq_some_iff] at h
    obtain ⟨c, hc, h⟩ := h
    split at h
    · split at h <;> cases h
      exact ⟨_, .nil _⟩
    · cases h
  | reply k j =>
    simp only [Timed.step, Option.bind_eq_bind, Option.bind_eq_some_iff] at h
    obtain ⟨c, hc, c', hc', h⟩ := h
    split at h
    · split at h <;> cases h
      exact act_node ..
    · cases h
  | ownParts k err =>
    simp only [Timed.step, Option.bind_eq_bind, Option.bind_eq_some_iff] at h
    obtain ⟨c, hc, h⟩ := h
    split at h
    · split at h <;> cases h
      · exact ⟨_, .nil _⟩
      · exact act_node ..
    · cases h
  | gathered k =>
    simp only [Timed.step, Option.bind_eq_bind, Option.bind_eq_some_iff] at h
    obtain ⟨c, hc, h⟩ := h
    split at h <;> cases h
    exact ⟨_, .nil _⟩
  | lost k | expire k | partsTimeout k | signed k _ _ | signTimeout k | poll k | lookup k | save k | emit k =>
    simp only [Timed.step, Option.bind_eq_bind, Option.bind_eq_some_iff] at h
    obtain ⟨c, hc, h⟩ := h
    split at h <;> cases h
    exact act_node ..

theorem run_node {s s' : Timed} {es : List TEv} (h : s.run T C cfg es = some s') (n : Nat) :
    ∃ tr, VRun C cfg (s.nodes n) tr (s'.nodes n) := by
  induction es generalizing s with
  | nil => cases h; exact ⟨_, .nil _⟩
  | cons e es ih =>
    simp only [Timed.run, Option.bind_eq_some_iff] at h
    obtain ⟨s1, h1, h2⟩ := h
    obtain ⟨tr, k⟩ := step_node h1 n
    obtain ⟨tr', k'⟩ := ih h2
    exact ⟨_, VRun.append k k'⟩

end Horcrux
