import Verif.Spec.Services
import Verif.Props.Disk
/-
Property C74: a cosigner process that is asked to end.
-/
namespace Horcrux
open Spec

variable (C : Crypto) (cfg : CosignerCfg) (text : Err → Bytes)

/-- Every event allowed. -/
def panything (_ : Proc) (_ : PEv) : Prop := True

/-! ### `Stop` on every service -/

/-- The services of a process of which the first `n` have been stopped. -/
def stoppedTo (m n : Nat) : List Svc := List.replicate n ⟨true, true⟩ ++ List.replicate (m - n) .fresh

/-- What holds at every time: the services are those that the trap goroutine has stopped, and no others. -/
structure ProcInv (p : Proc) : Prop where
  noFail : p.ended ≠ some .stopFailed
  exited : p.ended = some .exited → p.trap = .done
  services : match p.trap with
    | .waiting => p.services = stoppedTo p.services.length 0
    | .stopping n => n ≤ p.services.length ∧ p.services = stoppedTo p.services.length n
    | .done => p.services = stoppedTo p.services.length p.services.length

/-- Run a list of events. -/
def pexec (C : Crypto) (cfg : CosignerCfg) (text : Err → Bytes) (p : Proc) (acc : List (PEv × PObs)) :
    List PEv → List (PEv × PObs) × Proc
  | [] => (acc, p)
  | e :: es => pexec C cfg text (p.step C cfg text e).2 (acc ++ [(e, (p.step C cfg text e).1)]) es

/-- A condition on events that can be evaluated along the way. -/
def pcheck (C : Crypto) (cfg : CosignerCfg) (text : Err → Bytes) (q : Proc → PEv → Bool) (p : Proc) : List PEv → Bool
  | [] => true
  | e :: es => q p e && pcheck C cfg text q (p.step C cfg text e).2 es

theorem pexec_run {C : Crypto} {cfg : CosignerCfg} {text : Err → Bytes} {ok : Proc → PEv → Prop}
    {q : Proc → PEv → Bool} (hq : ∀ s e, q s e = true → ok s e) {p0 p : Proc} {acc : List (PEv × PObs)}
    (h0 : PRun C cfg text ok p0 acc p) (es : List PEv) (hc : pcheck C cfg text q p es = true) :
    PRun C cfg text ok p0 (pexec C cfg text p acc es).1 (pexec C cfg text p acc es).2 := by
  induction es generalizing acc p with
  | nil => exact h0
  | cons e es ih =>
    simp only [pcheck, Bool.and_eq_true] at hc
    exact ih (h0.snoc e (hq _ _ hc.1)) hc.2

theorem pexec_any {C : Crypto} {cfg : CosignerCfg} {text : Err → Bytes} (p : Proc) (es : List PEv) :
    PRun C cfg text panything p (pexec C cfg text p [] es).1 (pexec C cfg text p [] es).2 := by
  refine pexec_run (q := fun _ _ => true) (fun _ _ _ => trivial) PRun.nil es ?_
  generalize p = p'
  induction es generalizing p' with
  | nil => rfl
  | cons e es ih => exact ih _

theorem services_setService (p : Proc) (n : Nat) (v : Svc) : (p.setService n v).services = p.services.set n v := by
  cases n with
  | zero => simp [Proc.setService, Proc.services]
  | succ n =>
    simp only [Proc.setService, Proc.services, List.set_cons_succ, List.cons.injEq, true_and]
    apply List.ext_getElem? 
    intro i
    simp only [List.getElem?_map, List.getElem?_modify, List.getElem?_set, List.length_map]
    by_cases h : n = i
    · subst h
      cases h' : p.signers[n]? with
      | none => 
        have : ¬ n < p.signers.length := by simpa using h'
        simp [this]
      | some x => 
        obtain ⟨hl, -⟩ := List.getElem?_eq_some_iff.1 h'
        simp [hl]
    · cases h' : p.signers[i]? <;> simp [h]

theorem stoppedTo_get (m n : Nat) (h : n < m) : (stoppedTo m n)[n]? = some .fresh := by
  unfold stoppedTo
  rw [List.getElem?_append_right (by simp), List.length_replicate, Nat.sub_self]
  obtain ⟨k, hk⟩ : ∃ k, m - n = k + 1 := ⟨m - n - 1, by omega⟩
  rw [hk]; rfl

theorem stoppedTo_set (m n : Nat) (h : n < m) : (stoppedTo m n).set n ⟨true, true⟩ = stoppedTo m (n + 1) := by
  unfold stoppedTo
  rw [List.set_append_right _ _ (by simp)]
  obtain ⟨k, rfl⟩ : ∃ k, m = n + k + 1 := ⟨m - n - 1, by omega⟩
  have h1 : n + k + 1 - n = k + 1 := by omega
  have h2 : n + k + 1 - (n + 1) = k := by omega
  rw [h1, h2, List.length_replicate, Nat.sub_self, List.replicate_succ' (n := n), List.append_assoc]
  rfl

theorem stoppedTo_length (m n : Nat) (h : n ≤ m) : (stoppedTo m n).length = m := by
  unfold stoppedTo; simp; omega

theorem ProcInv.stopNext {p : Proc} (h : ProcInv p) : ProcInv p.stopNext := by
  obtain ⟨h1, h2, h3⟩ := h
  unfold Proc.stopNext
  split
  · next n htr =>
    rw [htr] at h3
    obtain ⟨hn, hs⟩ := h3
    split
    · next hg =>
      have : p.services.length ≤ n := by simpa using hg
      have hn' : n = p.services.length := by omega
      refine ⟨h1, fun _ => rfl, ?_⟩
      show p.services = _
      rw [hn'] at hs; exact hs
    · next v hg =>
      obtain ⟨hl, -⟩ := List.getElem?_eq_some_iff.1 hg
      have hv : v = .fresh := by
        rw [hs, stoppedTo_get _ _ hl] at hg
        exact (Option.some.inj hg).symm
      subst hv
      rw [if_pos (by decide)]
      have hset := services_setService p n (Svc.stop .fresh).2
      have hset' : (p.setService n (Svc.stop .fresh).2).services = stoppedTo p.services.length (n + 1) := by
        rw [hset, ← stoppedTo_set _ _ hl, ← hs]; rfl
      have hend : (p.setService n (Svc.stop .fresh).2).ended = p.ended := by cases n <;> rfl
      refine ⟨?_, ?_, ?_⟩
      · show (p.setService n _).ended ≠ _
        rw [hend]; exact h1
      · intro he
        have : p.ended = some .exited := by rw [← hend]; exact he
        rw [htr] at h2
        cases h2 this
      · show n + 1 ≤ (p.setService n _).services.length ∧ (p.setService n _).services = stoppedTo (p.setService n _).services.length (n + 1)
        rw [hset', stoppedTo_length _ _ hl]
        exact ⟨hl, rfl⟩
  · exact ⟨h1, h2, h3⟩

theorem services_signers (p : Proc) (i : Nat) (v : Svc) (pc pc' : LPc) (h : p.signers[i]? = some (v, pc)) (en : Option End) :
    ({ p with signers := p.signers.set i (v, pc'), ended := en } : Proc).services = p.services := by
  simp only [Proc.services, List.cons.injEq, true_and]
  apply List.ext_getElem?
  intro j
  simp only [List.getElem?_map, List.getElem?_set]
  by_cases hj : i = j
  · subst hj
    obtain ⟨hl, hx⟩ := List.getElem?_eq_some_iff.1 h
    simp [hl, hx]
  · simp [hj]

theorem ProcInv.boot (nodes : Nat) (d : DState) : ProcInv (Proc.boot nodes d) := by
  refine ⟨by simp [Proc.boot], by simp [Proc.boot], ?_⟩
  show (Proc.boot nodes d).services = stoppedTo (Proc.boot nodes d).services.length 0
  simp [Proc.boot, Proc.services, stoppedTo, List.replicate_succ]

theorem step_live {p : Proc} (h : p.ended = none) (e : PEv) : p.step C cfg text e = p.live C cfg text e := if_pos h

theorem step_dead {p : Proc} {x : End} (h : p.ended = some x) (e : PEv) : p.step C cfg text e = p.dead e :=
  if_neg (by rw [h]; simp)

theorem ProcInv.step {p : Proc} (h : ProcInv p) (e : PEv) : ProcInv (p.step C cfg text e).2 := by
  cases hend : p.ended with
  | some x =>
    rw [step_dead C cfg text hend]
    cases e <;> first | exact ProcInv.boot _ _ | exact h
  | none =>
    rw [step_live C cfg text hend]
    cases e with
    | signal =>
      simp only [Proc.live]
      split
      · next hw =>
        obtain ⟨h1, h2, h3⟩ := h
        rw [hw] at h3
        refine ⟨h1, fun he => ?_, ⟨Nat.zero_le _, h3⟩⟩
        rw [hw] at h2; cases h2 he
      · exact h
    | stop => exact h.stopNext
    | exit =>
      simp only [Proc.live]
      split
      · next hd => exact ⟨by simp, fun _ => hd, h.services⟩
      · exact h
    | loop i e =>
      simp only [Proc.live]
      split
      · exact h
      · next v pc hg =>
        obtain ⟨h1, h2, h3⟩ := h
        have hs := services_signers p i v pc (lstep text v.running e pc).2 hg
          (if (lstep text v.running e pc).2 = .crashed then some .crashed else none)
        refine ⟨?_, ?_, ?_⟩
        · simp only; split <;> simp
        · simp only; split <;> simp
        · simp only [hs]; exact h3
    | disk e =>
      simp only [Proc.live]
      split
      · exact h
      · obtain ⟨h1, h2, h3⟩ := h
        refine ⟨?_, ?_, ?_⟩
        · simp only; split <;> simp
        · simp only; split <;> simp
        · exact h3
    | restart => exact h

theorem ProcInv.run {ok : Proc → PEv → Prop} {p0 p : Proc} {tr : List (PEv × PObs)}
    (hrun : PRun C cfg text ok p0 tr p) (h0 : ProcInv p0) : ProcInv p := by
  induction hrun with
  | nil => exact h0
  | snoc _ e _ ih => exact ih.step C cfg text e

/-- C74: in every history, whatever the chain nodes, the peers, the disk and the scheduler do, the callback never finds a
service that it cannot stop; no service is stopped before a signal has come; and when the process exits in an orderly
way, every service has been stopped. -/
theorem C74_stops (nodes : Nat) (d : DState) (p : Proc) (tr : List (PEv × PObs))
    (hrun : PRun C cfg text panything (Proc.boot nodes d) tr p) :
    p.ended ≠ some .stopFailed ∧
    (p.trap = .waiting → ∀ v ∈ p.services, v.started = true ∧ v.stopped = false) ∧
    (p.ended = some .exited → ∀ v ∈ p.services, v.stopped = true) := by
  obtain ⟨h1, h2, h3⟩ := ProcInv.run C cfg text hrun (ProcInv.boot nodes d)
  refine ⟨h1, fun hw v hv => ?_, fun he v hv => ?_⟩
  · rw [hw] at h3
    simp only at h3
    rw [h3] at hv
    have : v = .fresh := by
      simp only [stoppedTo, List.replicate_zero, List.nil_append] at hv
      exact List.eq_of_mem_replicate hv
    subst this; exact ⟨rfl, rfl⟩
  · rw [h2 he] at h3
    simp only at h3
    rw [h3] at hv
    have : v = ⟨true, true⟩ := by
      simp only [stoppedTo, Nat.sub_self, List.replicate_zero, List.append_nil] at hv
      exact List.eq_of_mem_replicate hv
    subst this; rfl

/-- A validator with key `[5]` that refuses to sign. -/
def noPV : PV := ⟨.ok (.ed25519 [5]), fun _ => .panic, fun _ => .panic⟩

/-- A chain node that can be reached and sends two pings. -/
def pings : LEnv := ⟨some (writeMsg .pingRequest ++ writeMsg .pingRequest), noPV, true⟩

def noText (_ : Err) : Bytes := []

/-- A process with two chain nodes. The loop of the first is about to read when the signal comes. It reads and answers
one ping after that; the second has not connected when the process exits. -/
def lastWords : List PEv :=
  [.loop 0 pings, .loop 0 pings, .loop 0 pings, .signal, .stop, .stop, .loop 0 pings, .loop 0 pings, .loop 0 pings,
    .loop 0 pings, .loop 1 pings, .stop, .stop, .exit]

example : ∃ tr p, PRun toy toyCfg noText panything (Proc.boot 2 (DState.boot emptyFile)) tr p ∧
    p.ended = some .exited ∧ p.services = [⟨true, true⟩, ⟨true, true⟩, ⟨true, true⟩] :=
  ⟨_, _, pexec_any _ lastWords, by decide +kernel, by decide +kernel⟩

/-- The state after some events. -/
def Proc.after (p : Proc) (es : List PEv) : Proc := es.foldl (fun p e => (p.step C cfg text e).2) p

theorem stop_steps (k n : Nat) {p : Proc} (h : ProcInv p) (ht : p.trap = .stopping n) (he : p.ended = none)
    (hk : n + k = p.services.length) :
    (p.after C cfg text (List.replicate (k + 1) .stop)).trap = .done ∧
    (p.after C cfg text (List.replicate (k + 1) .stop)).ended = none := by
  induction k generalizing n p with
  | zero =>
    have hg : p.services[n]? = none := by simp; omega
    simp [Proc.after, step_live C cfg text he, Proc.live, Proc.stopNext, ht, hg, he]
  | succ k ih =>
    have hl : n < p.services.length := by omega
    have h3 := h.services
    rw [ht] at h3
    have hg : p.services[n]? = some .fresh := by rw [h3.2, stoppedTo_get _ _ hl]
    have hstep : (p.step C cfg text .stop).2 = { p.setService n (Svc.stop .fresh).2 with trap := .stopping (n + 1) } := by
      have h' : (Svc.stop .fresh).1 = true := by decide
      simp only [step_live C cfg text he, Proc.live, Proc.stopNext, ht, hg, h', if_true]
    have hlen : ((p.step C cfg text .stop).2).services.length = p.services.length := by
      rw [hstep]
      show (p.setService n _).services.length = _
      rw [services_setService, List.length_set]
    have hend : ((p.step C cfg text .stop).2).ended = none := by
      rw [hstep]
      show (p.setService n _).ended = _
      cases n <;> exact he
    have := ih (n + 1) (p := (p.step C cfg text .stop).2) (h.step C cfg text .stop) (by rw [hstep]) hend
      (by rw [hlen]; omega)
    rw [List.replicate_succ]
    exact this

/-- C74: once a signal has come, the trap goroutine ends the process in one step for each service and two more, whatever
the loops are doing (here: if it alone is scheduled). -/
theorem C74_exits (nodes : Nat) (d : DState) (p : Proc) (tr : List (PEv × PObs))
    (hrun : PRun C cfg text panything (Proc.boot nodes d) tr p) (hup : p.ended = none) :
    ∃ k ≤ p.services.length + 1,
      (p.after C cfg text (PEv.signal :: List.replicate k .stop ++ [.exit])).ended = some .exited := by
  have hinv := ProcInv.run C cfg text hrun (ProcInv.boot nodes d)
  have hfin : ∀ q : Proc, q.trap = .done → q.ended = none → (q.after C cfg text [.exit]).ended = some .exited := by
    intro q hd he
    simp [Proc.after, step_live C cfg text he, Proc.live, hd]
  have hcut : ∀ k, (p.after C cfg text (PEv.signal :: List.replicate k .stop ++ [.exit])) =
      (((p.step C cfg text .signal).2).after C cfg text (List.replicate k .stop)).after C cfg text [.exit] := by
    intro k
    simp [Proc.after, List.foldl_append]
  have hinv' := hinv.step C cfg text .signal
  cases ht : p.trap with
  | waiting =>
    have hs : (p.step C cfg text .signal).2 = { p with trap := .stopping 0 } := by simp [step_live C cfg text hup, Proc.live, ht]
    refine ⟨p.services.length + 1, Nat.le_refl _, ?_⟩
    rw [hcut]
    have := stop_steps C cfg text p.services.length 0 (p := (p.step C cfg text .signal).2) hinv' (by rw [hs])
      (by rw [hs]; exact hup) (by rw [hs, Nat.zero_add]; rfl)
    exact hfin _ this.1 this.2
  | stopping n =>
    have hs : (p.step C cfg text .signal).2 = p := by simp [step_live C cfg text hup, Proc.live, ht]
    have hn : n ≤ p.services.length := by
      have := hinv.services; rw [ht] at this; exact this.1
    refine ⟨p.services.length - n + 1, by omega, ?_⟩
    rw [hcut, hs]
    have := stop_steps C cfg text (p.services.length - n) n hinv ht hup (by omega)
    exact hfin _ this.1 this.2
  | done =>
    have hs : (p.step C cfg text .signal).2 = p := by simp [step_live C cfg text hup, Proc.live, ht]
    refine ⟨0, Nat.zero_le _, ?_⟩
    rw [hcut, hs]
    exact hfin _ ht hup

example : (pexec toy toyCfg noText (Proc.boot 2 (DState.boot emptyFile)) [] (lastWords.take 3)).2.ended = none :=
  by decide +kernel

/-! ### The loops after `Stop` -/

/-- The requests that a stopped loop can still read. -/
def LPc.readsLeft : LPc → Nat
  | .read _ => 1
  | _ => 0

/-- The replies that a stopped loop can still write. -/
def LPc.writesLeft : LPc → Nat
  | .read _ => 1
  | .handle _ _ => 1
  | .write _ _ => 1
  | _ => 0

theorem closeConn_reads (c : Option Bytes) : readsIn (closeConn c) = [] ∧ repliesIn (closeConn c) = [] := by
  cases c <;> exact ⟨rfl, rfl⟩

theorem lstep_left (e : LEnv) (pc : LPc) :
    (readsIn (lstep text false e pc).1).length + (lstep text false e pc).2.readsLeft ≤ pc.readsLeft ∧
    (repliesIn (lstep text false e pc).1).length + (lstep text false e pc).2.writesLeft ≤ pc.writesLeft := by
  cases pc with
  | top conn =>
    simp [lstep, closeConn_reads, LPc.readsLeft, LPc.writesLeft]
  | dial => simp only [lstep]; split <;> simp [readsIn, repliesIn, LPc.readsLeft, LPc.writesLeft]
  | check s => simp [lstep, readsIn, repliesIn, LPc.readsLeft, LPc.writesLeft]
  | read s => simp only [lstep]; split <;> simp [readsIn, repliesIn, LPc.readsLeft, LPc.writesLeft]
  | handle m rest => simp only [lstep]; split <;> simp [readsIn, repliesIn, LPc.readsLeft, LPc.writesLeft]
  | write r rest => simp only [lstep]; split <;> simp [readsIn, repliesIn, LPc.readsLeft, LPc.writesLeft]
  | returned => simp [lstep, readsIn, repliesIn]
  | crashed => simp [lstep, readsIn, repliesIn]

theorem readsIn_append (a b : List Act) : readsIn (a ++ b) = readsIn a ++ readsIn b := List.filterMap_append

theorem replies_append (a b : List Act) : repliesIn (a ++ b) = repliesIn a ++ repliesIn b := List.filterMap_append

theorem actsOf_append (i : Nat) (a b : List (PEv × PObs)) : actsOf i (a ++ b) = actsOf i a ++ actsOf i b :=
  List.flatMap_append

/-- A stopped service stays stopped, for one life, and its loop moves only by `lstep`. -/
theorem stopped_step {p : Proc} {i : Nat} {v : Svc} {pc : LPc} (hi : p.signers[i]? = some (v, pc))
    (hv : v.running = false) (e : PEv) (he : e ≠ .restart) :
    ∃ v' pc', (p.step C cfg text e).2.signers[i]? = some (v', pc') ∧ v'.running = false ∧
      ((actsOf i [(e, (p.step C cfg text e).1)] = [] ∧ pc' = pc) ∨
        ∃ le, actsOf i [(e, (p.step C cfg text e).1)] = (lstep text false le pc).1 ∧ pc' = (lstep text false le pc).2) := by
  cases hend : p.ended with
  | some x =>
    refine ⟨v, pc, ?_, hv, Or.inl ⟨?_, rfl⟩⟩
    · rw [step_dead C cfg text hend]; cases e <;> simp [Proc.dead, hi] at he ⊢
    · rw [step_dead C cfg text hend]; cases e <;> simp [Proc.dead, actsOf, PObs.nothing] at he ⊢
  | none =>
    cases e with
    | signal =>
      refine ⟨v, pc, ?_, hv, Or.inl ⟨rfl, rfl⟩⟩
      simp only [step_live C cfg text hend, Proc.live]; split <;> exact hi
    | exit =>
      refine ⟨v, pc, ?_, hv, Or.inl ⟨rfl, rfl⟩⟩
      simp only [step_live C cfg text hend, Proc.live]; split <;> exact hi
    | restart => exact absurd rfl he
    | disk d =>
      refine ⟨v, pc, ?_, hv, Or.inl ⟨rfl, rfl⟩⟩
      simp only [step_live C cfg text hend, Proc.live]; split <;> exact hi
    | stop =>
      have hst : (p.step C cfg text .stop).2 = p.stopNext := by simp [step_live C cfg text hend, Proc.live]
      rw [hst]
      have : ∃ v', p.stopNext.signers[i]? = some (v', pc) ∧ v'.running = false := by
        unfold Proc.stopNext
        split
        · next n _ =>
          split
          · exact ⟨v, hi, hv⟩
          · next w hw =>
            split
            · next hok =>
              cases n with
              | zero => exact ⟨v, hi, hv⟩
              | succ n =>
                by_cases hn : n = i
                · subst hn
                  refine ⟨w.stop.2, ?_, ?_⟩
                  · simp [Proc.setService, hi]
                  · have hwv : w = v := by
                      simpa [Proc.services, hi] using hw.symm
                    subst hwv
                    unfold Svc.stop at hok ⊢
                    split at hok
                    · cases hok
                    · next h1 =>
                      split at hok
                      · next h2 => simp [Svc.running] at hv h1 h2; simp [h1, h2] at hv
                      · cases hok
                · refine ⟨v, ?_, hv⟩
                  simp [Proc.setService, hi, hn]
            · exact ⟨v, hi, hv⟩
        · exact ⟨v, hi, hv⟩
      obtain ⟨v', h1, h2⟩ := this
      exact ⟨v', pc, h1, h2, Or.inl ⟨rfl, rfl⟩⟩
    | loop j le =>
      by_cases hj : j = i
      · subst hj
        refine ⟨v, (lstep text false le pc).2, ?_, hv, Or.inr ⟨le, ?_, rfl⟩⟩
        · obtain ⟨hl, -⟩ := List.getElem?_eq_some_iff.1 hi
          simp only [step_live C cfg text hend, Proc.live, hi, hv]
          rw [List.getElem?_set_self hl]
        · simp [step_live C cfg text hend, Proc.live, hi, hv, actsOf]
      · refine ⟨v, pc, ?_, hv, Or.inl ⟨by simp [actsOf, hj], rfl⟩⟩
        simp only [step_live C cfg text hend, Proc.live]
        split
        · exact hi
        · simp [hj, hi]

/-- C74: once `Stop` has been called on the remote signer of a chain node, its loop reads at most one further request and
writes at most one further reply, in whatever state it was, however long the process lives on. -/
theorem C74_last (p p' : Proc) (i : Nat) (v : Svc) (pc : LPc) (tr : List (PEv × PObs))
    (hi : p.signers[i]? = some (v, pc)) (hv : v.stopped = true)
    (hrun : PRun C cfg text panything p tr p') (hlife : OneLife tr) :
    (readsIn (actsOf i tr)).length ≤ 1 ∧ (repliesIn (actsOf i tr)).length ≤ 1 := by
  have key : ∃ v' pc', p'.signers[i]? = some (v', pc') ∧ v'.running = false ∧
      (readsIn (actsOf i tr)).length + pc'.readsLeft ≤ pc.readsLeft ∧
      (repliesIn (actsOf i tr)).length + pc'.writesLeft ≤ pc.writesLeft := by
    induction hrun with
    | nil => exact ⟨v, pc, hi, by simp [Svc.running, hv], by simp [actsOf, readsIn], by simp [actsOf, repliesIn]⟩
    | @snoc tr q hq e _ ih =>
      obtain ⟨v1, pc1, h1, h2, h3, h4⟩ := ih (fun x hx => hlife x (List.mem_append_left _ hx))
      obtain ⟨v2, pc2, g1, g2, g3⟩ := stopped_step C cfg text h1 h2 e
        (hlife (e, (q.step C cfg text e).1) (by simp))
      refine ⟨v2, pc2, g1, g2, ?_⟩
      rw [actsOf_append, readsIn_append, replies_append, List.length_append, List.length_append]
      rcases g3 with ⟨ga, rfl⟩ | ⟨le, ga, rfl⟩
      · rw [ga]; exact ⟨by simpa [readsIn] using h3, by simpa [repliesIn] using h4⟩
      · rw [ga]
        have := lstep_left text le pc1
        omega
  obtain ⟨v', pc', -, -, h1, h2⟩ := key
  have h3 : pc.readsLeft ≤ 1 := by cases pc <;> simp [LPc.readsLeft]
  have h4 : pc.writesLeft ≤ 1 := by cases pc <;> simp [LPc.writesLeft]
  omega

/-- The one request and the one reply: `lastWords` from the `Stop` of the first remote signer on. -/
example : ∃ p p' tr v pc, PRun toy toyCfg noText panything p tr p' ∧ p.signers[0]? = some (v, pc) ∧ v.stopped = true ∧
    OneLife tr ∧ readsIn (actsOf 0 tr) = [.pingRequest] ∧ repliesIn (actsOf 0 tr) = [writeMsg .pingResponse] := by
  refine ⟨_, _, _, ⟨true, true⟩, .read (writeMsg .pingRequest ++ writeMsg .pingRequest),
    pexec_any (pexec toy toyCfg noText (Proc.boot 2 (DState.boot emptyFile)) [] (lastWords.take 6)).2 (lastWords.drop 6),
    by decide +kernel, rfl, ?_, by decide +kernel, by decide +kernel⟩
  intro x hx
  have hn : ∀ (es : List PEv) (p : Proc) (acc : List (PEv × PObs)), (∀ x ∈ acc, x.1 ≠ .restart) →
      (∀ e ∈ es, e ≠ .restart) → ∀ x ∈ (pexec toy toyCfg noText p acc es).1, x.1 ≠ .restart := by
    intro es
    induction es with
    | nil => intro p acc ha _; exact ha
    | cons e es ih =>
      intro p acc ha he
      refine ih _ _ (fun y hy => ?_) (fun y hy => he y (by simp [hy]))
      rcases List.mem_append.1 hy with hy | hy
      · exact ha y hy
      · rw [List.mem_singleton] at hy
        subst hy
        exact he e (by simp)
  exact hn _ _ _ (by simp) (by simp [lastWords]) x hx

/-- How many steps a stopped loop that gets a connection takes to return. -/
def LPc.toGo : LPc → Nat
  | .read _ => 4
  | .handle _ _ => 3
  | .write _ _ => 2
  | .dial => 2
  | .top _ => 1
  | .check _ => 1
  | .returned => 0
  | .crashed => 0

theorem lstep_toGo (e : LEnv) (hd : e.dial.isSome) (pc : LPc) (h : pc.toGo ≠ 0) :
    (lstep text false e pc).2.toGo + 1 ≤ pc.toGo := by
  cases pc with
  | dial =>
    obtain ⟨s, hs⟩ := Option.isSome_iff_exists.1 hd
    simp [lstep, hs, LPc.toGo]
  | read s => simp only [lstep]; split <;> simp [LPc.toGo]
  | handle m rest => simp only [lstep]; split <;> simp [LPc.toGo]
  | write r rest => simp only [lstep]; split <;> simp [LPc.toGo]
  | _ => simp_all [lstep, LPc.toGo]

theorem lstep_done (b : Bool) (e : LEnv) (pc : LPc) (h : pc.toGo = 0) : (lstep text b e pc).2 = pc := by
  cases pc <;> simp_all [lstep, LPc.toGo]

/-- C74, partial: a loop whose service has been stopped returns within four steps (or the process crashes in it), if
dialling succeeds when it comes to that. Missing: it does not return while the chain node cannot be reached
(`C74_dial_fails`). -/
theorem C74_returns_partial (pc : LPc) (es : List (Bool × LEnv)) (hlen : 4 ≤ es.length)
    (hstop : ∀ x ∈ es, x.1 = false) (hdial : ∀ x ∈ es, x.2.dial.isSome) :
    (lrun text pc es).2 = .returned ∨ (lrun text pc es).2 = .crashed := by
  have key : ∀ (es : List (Bool × LEnv)) (pc : LPc), (∀ x ∈ es, x.1 = false) → (∀ x ∈ es, x.2.dial.isSome) →
      pc.toGo ≤ es.length → (lrun text pc es).2.toGo = 0 := by
    intro es
    induction es with
    | nil => intro pc _ _ h; simpa [lrun] using h
    | cons x es ih =>
      intro pc hb hd h
      obtain ⟨b, e⟩ := x
      have hb0 : b = false := hb (b, e) (by simp)
      subst hb0
      show (lrun text (lstep text false e pc).2 es).2.toGo = 0
      apply ih _ (fun y hy => hb y (by simp [hy])) (fun y hy => hd y (by simp [hy]))
      by_cases h0 : pc.toGo = 0
      · rw [lstep_done text false e pc h0, h0]; exact Nat.zero_le _
      · have := lstep_toGo text e (hd (false, e) (by simp)) pc h0
        simp only [List.length_cons] at h
        omega
  have h4 : pc.toGo ≤ 4 := by cases pc <;> simp [LPc.toGo]
  have := key es pc hstop hdial (by omega)
  cases hq : (lrun text pc es).2 <;> rw [hq] at this <;> simp [LPc.toGo] at this ⊢

/-- Four steps are needed: a loop that is about to read answers one ping first. -/
example : (lrun noText (.read (writeMsg .pingRequest)) (List.replicate 4 (false, pings))).2 = .returned ∧
    (lrun noText (.read (writeMsg .pingRequest)) (List.replicate 3 (false, pings))).2 ≠ .returned := by decide +kernel

/-- C74 is false of a loop that is dialling: it does not look at the flag, so while the chain node cannot be reached it
never returns, however long ago its service was stopped. -/
theorem C74_dial_fails (pv : PV) (n : Nat) :
    (lrun text .dial (List.replicate n (false, ⟨none, pv, true⟩))).2 = .dial := by
  induction n with
  | zero => rfl
  | succ n ih => rw [List.replicate_succ]; exact ih

/-! ### The small steps against whole iterations -/

/-- Where the loop is between two iterations. -/
def LPc.loop? : LPc → Option Loop
  | .top conn => some (.live conn)
  | .returned => some .stopped
  | .crashed => some .crashed
  | _ => none

/-- The actions of a number of iterations. -/
def loopActs (text : Err → Bytes) (l : Loop) (is : List Iter) : List Act := (loopRun text l is).1.flatMap Prod.snd

theorem loopRun_snoc (l : Loop) (is : List Iter) (i : Iter) :
    loopActs text l (is ++ [i]) = loopActs text l is ++ (loopIter text i (loopRun text l is).2).1 ∧
    (loopRun text l (is ++ [i])).2 = (loopIter text i (loopRun text l is).2).2 := by
  induction is generalizing l with
  | nil => simp [loopActs, loopRun]
  | cons j is ih =>
    have := ih (loopIter text j l).2
    simp only [loopActs] at this ⊢
    simp only [List.cons_append, loopRun, List.flatMap_cons, List.append_assoc]
    exact ⟨by rw [this.1], this.2⟩

/-- What the loop has done since the last whole iteration, which left `l`. -/
def Mid (text : Err → Bytes) (l : Loop) (a : List Act) : LPc → Prop
  | .top conn => l = .live conn ∧ a = []
  | .dial => l = .live none ∧ ∃ n, a = List.replicate n .dialFailed
  | .check s => ∃ conn i, l = .live conn ∧ dialPhase i conn = (a, s)
  | .read s => ∃ conn i, l = .live conn ∧ dialPhase i conn = (a, s)
  | .handle m rest => ∃ conn i s a', l = .live conn ∧ dialPhase i conn = (a', s) ∧ readMsg s = some (m, rest) ∧
      a = a' ++ [.read m]
  | .write r rest => ∃ conn i s a' m pv, l = .live conn ∧ dialPhase i conn = (a', s) ∧ readMsg s = some (m, rest) ∧
      handleRequest text pv m = some r ∧ a = a' ++ [.read m]
  | .returned => l = .stopped ∧ a = []
  | .crashed => l = .crashed ∧ a = []

theorem dialPhase_congr {i j : Iter} (h1 : i.dialFailures = j.dialFailures) (h2 : i.stream = j.stream)
    (c : Option Bytes) : dialPhase i c = dialPhase j c := by
  cases c <;> simp [dialPhase, h1, h2]

theorem loopIter_serve {i : Iter} {conn : Option Bytes} {a : List Act} {s : Bytes} (h1 : i.running = true)
    (h2 : i.stillRunning = true) (h : dialPhase i conn = (a, s)) :
    loopIter text i (.live conn) = (a ++ (servePhase text i s).1, (servePhase text i s).2) := by
  simp [loopIter, h, h1, h2]

/-- A step either stays inside the iteration or ends it. -/
theorem mid_step (b : Bool) (e : LEnv) {l : Loop} {a : List Act} {pc : LPc} (h : Mid text l a pc) :
    Mid text l (a ++ (lstep text b e pc).1) (lstep text b e pc).2 ∨
    ∃ i, (loopIter text i l).1 = a ++ (lstep text b e pc).1 ∧ Mid text (loopIter text i l).2 [] (lstep text b e pc).2 := by
  cases pc with
  | top conn =>
    obtain ⟨rfl, rfl⟩ := h
    cases b with
    | true =>
      left
      cases conn with
      | none => exact ⟨rfl, 0, rfl⟩
      | some s => exact ⟨some s, ⟨true, 0, [], true, e.pv, true⟩, rfl, rfl⟩
    | false =>
      right
      refine ⟨⟨false, 0, [], true, e.pv, true⟩, ?_, ?_⟩
      · simp [loopIter, lstep]
      · exact ⟨rfl, rfl⟩
  | dial =>
    obtain ⟨rfl, n, rfl⟩ := h
    left
    simp only [lstep]
    split
    · exact ⟨rfl, n + 1, by rw [List.replicate_succ']⟩
    · next s _ => exact ⟨none, ⟨true, n, s, true, e.pv, true⟩, rfl, rfl⟩
  | check s =>
    obtain ⟨conn, i, rfl, hd⟩ := h
    cases b with
    | true => left; exact ⟨conn, i, rfl, by simpa [lstep] using hd⟩
    | false =>
      right
      have hd' : dialPhase { i with running := true, stillRunning := false } conn = (a, s) := by
        rw [← hd]; exact dialPhase_congr rfl rfl conn
      refine ⟨{ i with running := true, stillRunning := false }, ?_, ?_⟩
      · simp [loopIter, hd', lstep]
      · simp only [loopIter, lstep, hd']; exact ⟨rfl, rfl⟩
  | read s =>
    obtain ⟨conn, i, rfl, hd⟩ := h
    cases hr : readMsg s with
    | none =>
      right
      have hd' : dialPhase { i with running := true, stillRunning := true } conn = (a, s) := by
        rw [← hd]; exact dialPhase_congr rfl rfl conn
      refine ⟨{ i with running := true, stillRunning := true }, ?_, ?_⟩
      · simp [loopIter, hd', lstep, servePhase, hr]
      · simp only [loopIter, lstep, hd', servePhase, hr]; exact ⟨rfl, rfl⟩
    | some x =>
      obtain ⟨m, rest⟩ := x
      left
      simp only [lstep, hr]
      exact ⟨conn, i, s, a, rfl, hd, hr, rfl⟩
  | handle m rest =>
    obtain ⟨conn, i, s, a', rfl, hd, hr, rfl⟩ := h
    cases hh : handleRequest text e.pv m with
    | none =>
      right
      have hd' : dialPhase { i with running := true, stillRunning := true, pv := e.pv } conn = (a', s) := by
        rw [← hd]; exact dialPhase_congr rfl rfl conn
      refine ⟨{ i with running := true, stillRunning := true, pv := e.pv }, ?_, ?_⟩
      · simp [loopIter, hd', lstep, servePhase, hr, hh]
      · simp only [loopIter, lstep, hd', servePhase, hr, hh]; exact ⟨rfl, rfl⟩
    | some r =>
      left
      simp only [lstep, hh, List.append_nil]
      exact ⟨conn, i, s, a', m, e.pv, rfl, hd, hr, hh, rfl⟩
  | write r rest =>
    obtain ⟨conn, i, s, a', m, pv, rfl, hd, hr, hh, rfl⟩ := h
    right
    have hd' : dialPhase { i with running := true, stillRunning := true, pv := pv, writeOk := e.writeOk } conn = (a', s) := by
      rw [← hd]; exact dialPhase_congr rfl rfl conn
    refine ⟨{ i with running := true, stillRunning := true, pv := pv, writeOk := e.writeOk }, ?_, ?_⟩
    · rw [loopIter_serve text rfl rfl hd']
      cases hw : e.writeOk <;> simp [lstep, servePhase, hr, hh, hw]
    · rw [loopIter_serve text rfl rfl hd']
      cases hw : e.writeOk <;> simp [lstep, servePhase, hr, hh, hw, Mid]
  | returned => obtain ⟨rfl, rfl⟩ := h; left; exact ⟨rfl, rfl⟩
  | crashed => obtain ⟨rfl, rfl⟩ := h; left; exact ⟨rfl, rfl⟩

theorem mid_run (l0 : Loop) (es : List (Bool × LEnv)) {is : List Iter} {a : List Act} {pc : LPc}
    (h : Mid text (loopRun text l0 is).2 a pc) :
    ∃ is' a', Mid text (loopRun text l0 is').2 a' (lrun text pc es).2 ∧
      loopActs text l0 is' ++ a' = loopActs text l0 is ++ a ++ (lrun text pc es).1 := by
  induction es generalizing is a pc with
  | nil => exact ⟨is, a, h, by simp [lrun]⟩
  | cons x es ih =>
    obtain ⟨b, e⟩ := x
    rcases mid_step text b e h with hm | ⟨i, hi, hm⟩
    · obtain ⟨is', a', h1, h2⟩ := ih hm
      exact ⟨is', a', h1, by rw [h2]; simp [lrun]⟩
    · have hs := loopRun_snoc text l0 is i
      rw [← hs.2] at hm
      obtain ⟨is', a', h1, h2⟩ := ih hm
      exact ⟨is', a', h1, by rw [h2, hs.1, hi]; simp [lrun]⟩

/-- C74: taking the loop apart changes nothing: whatever it does in small steps, with the flag changing between any two,
up to a point between two iterations (or its end), it does as a number of whole iterations of `Verif.Model.Remote`. So
what is proved of those (C47, C48) holds of it. -/
theorem C74_refines (conn : Option Bytes) (es : List (Bool × LEnv)) (l : Loop)
    (hl : (lrun text (.top conn) es).2.loop? = some l) :
    ∃ is, (loopRun text (.live conn) is).1.flatMap Prod.snd = (lrun text (.top conn) es).1 ∧
      (loopRun text (.live conn) is).2 = l := by
  have h0 : Mid text (loopRun text (.live conn) []).2 [] (.top conn) := ⟨rfl, rfl⟩
  obtain ⟨is, a, h1, h2⟩ := mid_run text (.live conn) es h0
  refine ⟨is, ?_⟩
  have h3 : loopActs text (.live conn) [] = [] := rfl
  rw [h3, List.nil_append, List.nil_append] at h2
  cases hq : (lrun text (.top conn) es).2 <;> rw [hq] at hl h1 <;> simp only [LPc.loop?, Option.some.injEq] at hl
  all_goals first
    | cases hl; done
    | (obtain ⟨g1, rfl⟩ := h1
       rw [List.append_nil] at h2
       exact ⟨h2, by rw [g1]; exact hl⟩)

/-- Two pings answered, and the end. -/
example : (lrun noText (.top none) (List.replicate 11 (true, pings) ++ [(false, pings)])).2.loop? = some .stopped ∧
    repliesIn (lrun noText (.top none) (List.replicate 11 (true, pings) ++ [(false, pings)])).1 =
      [writeMsg .pingResponse, writeMsg .pingResponse] := by decide +kernel

/-! ### The watermark -/

/-- The history of the cosigner alone. -/
theorem disk_run {ok : Proc → PEv → Prop}
    (hok : ∀ p e, ok p e → EndsOrderly p e ∧ EndsIdle p e ∧ ProcWritesInOrder p e)
    {nodes : Nat} {f : PFile} {p : Proc} {tr : List (PEv × PObs)}
    (hrun : PRun C cfg text ok (Proc.boot nodes (DState.boot f)) tr p) :
    (p.ended ≠ some .crashed → p.disk.alive = true) ∧
    ∃ dtr, DRun C cfg (fun s e => CrashesWhenIdle s e ∧ WritesInOrder s e) (DState.boot f) dtr p.disk ∧
      ∀ o a, (PEv.disk (.op o), PObs.mk [] (some a)) ∈ tr → (DEv.op o, some a) ∈ dtr := by
  induction hrun with
  | nil => exact ⟨fun _ => rfl, [], DRun.nil, fun _ _ h => by cases h⟩
  | @snoc tr q hq e he ih =>
    obtain ⟨ha, dtr, hd, hm⟩ := ih
    obtain ⟨ok1, ok2, ok3⟩ := hok _ _ he
    -- an event that leaves the disk alone and answers nothing
    have same : ∀ o' : PObs, o'.answer = none → ((q.step C cfg text e).1 = o') →
        (q.step C cfg text e).2.disk = q.disk →
        ((q.step C cfg text e).2.ended ≠ some .crashed → q.ended ≠ some .crashed) →
        ((q.step C cfg text e).2.ended ≠ some .crashed → (q.step C cfg text e).2.disk.alive = true) ∧
        ∃ dtr, DRun C cfg (fun s e => CrashesWhenIdle s e ∧ WritesInOrder s e) (DState.boot f) dtr
          (q.step C cfg text e).2.disk ∧
          ∀ o a, (PEv.disk (.op o), PObs.mk [] (some a)) ∈ tr ++ [(e, (q.step C cfg text e).1)] →
            (DEv.op o, some a) ∈ dtr := by
      intro o' hn ho hdk hne
      rw [hdk]
      refine ⟨fun h => ha (hne h), dtr, hd, fun o a h => ?_⟩
      rcases List.mem_append.1 h with h | h
      · exact hm o a h
      · rw [List.mem_singleton] at h
        have := congrArg (fun x => x.2.answer) h
        simp only [ho, hn] at this
        cases this
    cases hend : q.ended with
    | some x =>
      by_cases hre : e = .restart
      · subst hre
        have hst : q.step C cfg text .restart = (.nothing, Proc.boot q.signers.length (DState.boot q.disk.file)) := by
          simp [step_dead C cfg text hend, Proc.dead]
        rw [hst]
        refine ⟨fun _ => rfl, dtr ++ [(.restart, none)], ?_, fun o a h => ?_⟩
        · have hx : x = .exited := by
            have := ok1 rfl; rw [hend] at this; exact Option.some.inj this
          have := hd.snoc .restart ⟨fun _ => ⟨ha (by rw [hend, hx]; simp), ok2 rfl⟩, fun i f h => by cases h⟩
          exact this
        · rcases List.mem_append.1 h with h | h
          · exact List.mem_append_left _ (hm o a h)
          · simp at h
      · have hst : q.step C cfg text e = (.nothing, q) := by
          rw [step_dead C cfg text hend]; cases e <;> simp_all [Proc.dead]
        exact same .nothing rfl (by rw [hst]) (by rw [hst]) (by rw [hst]; exact fun h => h)
    | none =>
      have hnc : q.ended ≠ some .crashed := by rw [hend]; simp
      cases e with
      | signal => 
        refine same .nothing rfl (by simp [step_live C cfg text hend, Proc.live]) ?_ (fun _ => hnc)
        simp only [step_live C cfg text hend, Proc.live]; split <;> rfl
      | exit =>
        refine same .nothing rfl (by simp [step_live C cfg text hend, Proc.live]) ?_ (fun _ => hnc)
        simp only [step_live C cfg text hend, Proc.live]; split <;> rfl
      | restart => exact same .nothing rfl (by simp [step_live C cfg text hend, Proc.live]) (by simp [step_live C cfg text hend, Proc.live]) (fun _ => hnc)
      | stop =>
        refine same .nothing rfl (by simp [step_live C cfg text hend, Proc.live]) ?_ (fun _ => hnc)
        have hst : (q.step C cfg text .stop).2 = q.stopNext := by simp [step_live C cfg text hend, Proc.live]
        rw [hst]; unfold Proc.stopNext
        split
        · next n _ => split
                      · rfl
                      · split
                        · cases n <;> rfl
                        · rfl
        · rfl
      | loop i le =>
        cases hg : q.signers[i]? with
        | none => exact same .nothing rfl (by simp [step_live C cfg text hend, Proc.live, hg]) (by simp [step_live C cfg text hend, Proc.live, hg]) (fun _ => hnc)
        | some x =>
          obtain ⟨v, pc⟩ := x
          exact same ⟨_, none⟩ rfl (by simp [step_live C cfg text hend, Proc.live, hg]; rfl) (by simp [step_live C cfg text hend, Proc.live, hg]) (fun _ => hnc)
      | disk d =>
        by_cases hre : d = .restart
        · subst hre
          exact same .nothing rfl (by simp [step_live C cfg text hend, Proc.live]) (by simp [step_live C cfg text hend, Proc.live]) (fun _ => hnc)
        · have hst : q.step C cfg text (.disk d) = (⟨[], (q.disk.step C cfg d).1⟩,
              { q with disk := (q.disk.step C cfg d).2,
                       ended := if (q.disk.step C cfg d).2.alive then none else some .crashed }) := by
            simp [step_live C cfg text hend, Proc.live, hre]
          rw [hst]
          refine ⟨fun h => ?_, dtr ++ [(d, (q.disk.step C cfg d).1)], hd.snoc d ⟨fun h => absurd h hre, ok3 d rfl⟩,
            fun o a h => ?_⟩
          · simp only at h ⊢
            by_contra hc
            rw [if_neg hc] at h
            exact h rfl
          · rcases List.mem_append.1 h with h | h
            · exact List.mem_append_left _ (hm o a h)
            · rw [List.mem_singleton] at h
              simp only [Prod.mk.injEq, PEv.disk.injEq, PObs.mk.injEq, true_and] at h
              obtain ⟨h1, h2⟩ := h
              subst h1
              rw [h2]; simp

/-- C74, partial: over any number of lives, each ended by a signal at a time when no background write is outstanding,
with writes that do not overwrite a newer file, two share signatures ever released for one height, round and step are
over sign bytes that differ in nothing but the time. Missing: nothing in the code waits for the writes; without the
condition it is false (`C74_fails`). -/
theorem C74_idle_partial (nodes : Nat) (f : PFile) (p : Proc) (tr : List (PEv × PObs))
    (hrun : PRun C cfg text (fun p e => EndsOrderly p e ∧ EndsIdle p e ∧ ProcWritesInOrder p e)
      (Proc.boot nodes (DState.boot f)) tr p)
    (bs bs' : Bytes) (r r' : SignRes) (k k' : HRST)
    (h : (PEv.disk (.op (.sign bs)), PObs.mk [] (some (Out.ok (CosResp.signed r)))) ∈ tr)
    (h' : (PEv.disk (.op (.sign bs')), PObs.mk [] (some (Out.ok (CosResp.signed r')))) ∈ tr)
    (hu : unpackHRST bs = .ok k) (hu' : unpackHRST bs' = .ok k')
    (hsame : k.height = k'.height ∧ k.round = k'.round ∧ k.step = k'.step) :
    DifferOnlyByTime k.step bs bs' := by
  obtain ⟨-, dtr, hd, hm⟩ := disk_run C cfg text (fun _ _ h => h) hrun
  exact C36_idle_partial C cfg f _ dtr hd bs bs' r r' k k' (hm _ _ h) (hm _ _ h') hu hu' hsame

def pevs (es : List DEv) : List PEv := es.map .disk

/-- Two lives, each ended by a signal; at the end of the first the write of the file is done. -/
def goodEnd : List PEv :=
  pevs (ready1 ++ [.op (.sign b1), .marshal 0, .write 0]) ++ [.signal, .stop, .stop, .stop, .stop, .exit, .restart] ++
    pevs [.op (.getPart get2 (toyRnd 3)), .op (.setPart { part2 5 with timestamp := ⟨1600000001, 0⟩ } (toyRnd 7)),
      .op (.sign b2), .op (.sign b1x)]

/-- The same without the write; moreover the signature is released after `Stop` was called on every service. -/
def badEnd : List PEv :=
  pevs ready1 ++ [.signal, .stop, .stop, .stop, .stop] ++ pevs [.op (.sign b1), .marshal 0] ++ [.exit, .restart] ++ pevs ready1 ++
    pevs [.op (.sign b1x)]

def psignedB (tr : List (PEv × PObs)) (bs : Bytes) : Bool :=
  tr.any fun x => match x with
    | (.disk (.op (.sign b)), ⟨[], some (.ok (.signed _))⟩) => decide (b = bs)
    | _ => false

theorem psignedB_spec {tr : List (PEv × PObs)} {bs : Bytes} (h : psignedB tr bs = true) :
    ∃ r, (PEv.disk (.op (.sign bs)), PObs.mk [] (some (Out.ok (CosResp.signed r)))) ∈ tr := by
  unfold psignedB at h
  obtain ⟨x, hx, hq⟩ := List.any_eq_true.1 h
  split at hq
  · next b r =>
    have : b = bs := by simpa using hq
    subst this
    exact ⟨r, hx⟩
  · cases hq

def PEv.isRestart : PEv → Bool
  | .restart => true
  | _ => false

def orderlyB (p : Proc) (e : PEv) : Bool := !e.isRestart || decide (p.ended = some .exited)

theorem orderlyB_spec (p : Proc) (e : PEv) (h : orderlyB p e = true) : EndsOrderly p e := by
  rintro rfl
  simpa [orderlyB, PEv.isRestart] using h

def endIdleB (p : Proc) (e : PEv) : Bool :=
  orderlyB p e && (!e.isRestart || p.disk.jobs.isEmpty) &&
  match e with
  | .disk d => idleB p.disk d || d == .restart
  | _ => true

theorem endIdleB_spec (p : Proc) (e : PEv) (h : endIdleB p e = true) :
    EndsOrderly p e ∧ EndsIdle p e ∧ ProcWritesInOrder p e := by
  simp only [endIdleB, Bool.and_eq_true] at h
  refine ⟨orderlyB_spec p e h.1.1, ?_, ?_⟩
  · rintro rfl
    simpa [PEv.isRestart] using h.1.2
  · rintro d rfl
    have h' := h.2
    simp only [Bool.or_eq_true] at h'
    rcases h' with h' | h'
    · exact (idleB_spec _ _ h').2
    · have : d = .restart := by simpa using h'
      subst this
      intro i f hi
      cases hi

example : (∃ tr p r r', PRun toy toyCfg noText (fun p e => EndsOrderly p e ∧ EndsIdle p e ∧ ProcWritesInOrder p e)
      (Proc.boot 2 (DState.boot emptyFile)) tr p ∧
    (PEv.disk (.op (.sign b1)), PObs.mk [] (some (Out.ok (CosResp.signed r)))) ∈ tr ∧
    (PEv.disk (.op (.sign b2)), PObs.mk [] (some (Out.ok (CosResp.signed r')))) ∈ tr) ∧ DifferOnlyByTime 3 b1 b2 := by
  have hr := pexec_run endIdleB_spec (PRun.nil (C := toy) (cfg := toyCfg) (text := noText)
    (p0 := Proc.boot 2 (DState.boot emptyFile))) goodEnd (by decide +kernel)
  obtain ⟨r, h1⟩ := psignedB_spec (tr := (pexec toy toyCfg noText (Proc.boot 2 (DState.boot emptyFile)) [] goodEnd).1)
    (bs := b1) (by decide +kernel)
  obtain ⟨r', h2⟩ := psignedB_spec (tr := (pexec toy toyCfg noText (Proc.boot 2 (DState.boot emptyFile)) [] goodEnd).1)
    (bs := b2) (by decide +kernel)
  exact ⟨⟨_, _, r, r', hr, h1, h2⟩,
    C74_idle_partial toy toyCfg noText 2 _ _ _ hr _ _ _ _ _ _ h1 h2 unpack_b1 unpack_b2 ⟨rfl, rfl, rfl⟩⟩

/-- C74 (full statement) is false: the process goes on signing for its peers after `Stop` was called on every service,
and exits without waiting for the write of its state file, so after an orderly end and a new start it signs another
block at the same height, round and step. -/
theorem C74_fails : ∃ (C : Crypto) (cfg : CosignerCfg) (text : Err → Bytes) (f : PFile) (p : Proc)
    (tr : List (PEv × PObs)) (bs bs' : Bytes) (r r' : SignRes) (k : HRST),
    PRun C cfg text EndsOrderly (Proc.boot 2 (DState.boot f)) tr p ∧
    (PEv.disk (.op (.sign bs)), PObs.mk [] (some (Out.ok (CosResp.signed r)))) ∈ tr ∧
    (PEv.disk (.op (.sign bs')), PObs.mk [] (some (Out.ok (CosResp.signed r')))) ∈ tr ∧
    unpackHRST bs = .ok k ∧ unpackHRST bs' = .ok k ∧ ¬ DifferOnlyByTime k.step bs bs' := by
  have hr := pexec_run orderlyB_spec (PRun.nil (C := toy) (cfg := toyCfg) (text := noText)
    (p0 := Proc.boot 2 (DState.boot emptyFile))) badEnd (by decide +kernel)
  obtain ⟨r, h1⟩ := psignedB_spec (tr := (pexec toy toyCfg noText (Proc.boot 2 (DState.boot emptyFile)) [] badEnd).1)
    (bs := b1) (by decide +kernel)
  obtain ⟨r', h2⟩ := psignedB_spec (tr := (pexec toy toyCfg noText (Proc.boot 2 (DState.boot emptyFile)) [] badEnd).1)
    (bs := b1x) (by decide +kernel)
  refine ⟨_, _, _, _, _, _, b1, b1x, r, r', _, hr, h1, h2, unpack_b1, unpack_b1x, fun hd => ?_⟩
  have hn : onlyDifferByTimestamp 3 b1 b1x ≠ none := by decide +kernel
  exact hn ((onlyDiffer_iff 3 b1 b1x).2 hd)

end Horcrux
