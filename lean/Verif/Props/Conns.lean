import Verif.Spec.Conns
import Verif.Props.Services
import Verif.Props.Remote
/-
Property C114: the connections of a remote signer.
-/
namespace Horcrux
open Spec

/-- One step. -/
theorem conns_step (text : Err → Bytes) (s : Conns) (e : CEnv) :
    (s.step text e).2.opened + held s.pc = s.opened + held (s.step text e).2.pc + handshakeFails s.pc e := by
  obtain ⟨pc, o⟩ := s
  obtain ⟨running, ⟨dial, pv, writeOk⟩, accepted⟩ := e
  simp only [Conns.step]
  cases pc with
  | top conn => cases conn <;> cases running <;> simp [lstep, held, handshakeFails, closeConn, Act.conns, Int.neg_add_cancel_right]
  | dial => cases dial <;> cases accepted <;> simp [lstep, held, handshakeFails, Act.conns]
  | check st => cases running <;> simp [lstep, held, handshakeFails, Act.conns, Int.neg_add_cancel_right]
  | read st => rcases hx : readMsg st with _ | ⟨m, rest⟩ <;> simp [lstep, hx, held, handshakeFails, Act.conns, Int.neg_add_cancel_right]
  | handle m rest =>
    rcases hx : handleRequest text pv m with _ | r <;> simp [lstep, hx, held, handshakeFails, Act.conns]
  | write r rest => cases writeOk <;> simp [lstep, held, handshakeFails, Act.conns, Int.neg_add_cancel_right]
  | returned => simp [lstep, held, handshakeFails]
  | crashed => simp [lstep, held, handshakeFails]

theorem conns_run (text : Err → Bytes) (es : List CEnv) : ∀ s : Conns,
    (s.run text es).2.opened + held s.pc =
      s.opened + held (s.run text es).2.pc + failedHandshakes text s es := by
  induction es with
  | nil => intro s; simp [Conns.run, failedHandshakes]
  | cons e es ih =>
    intro s
    have h1 := conns_step text s e
    have h2 := ih (s.step text e).2
    simp only [Conns.run, failedHandshakes]
    push_cast
    omega

/-- C114, exact: at any time a loop has open the connection it works with, if it has one, and every connection over which no
secret connection could be made. -/
theorem C114_exact (text : Err → Bytes) (es : List CEnv) :
    (Conns.start.run text es).2.opened =
      held (Conns.start.run text es).2.pc + failedHandshakes text Conns.start es := by
  have := conns_run text es Conns.start
  have h0 : held Conns.start.pc = 0 := rfl
  have h1 : Conns.start.opened = 0 := rfl
  omega

theorem held_le (pc : LPc) : held pc ≤ 1 := by
  cases pc with
  | top c => cases c <;> simp [held]
  | _ => simp [held]

/-- C114, partial: if no handshake fails, a loop has at most one connection open, and none when it has returned. Missing:
failed handshakes (`C114_fails`). -/
theorem C114_partial (text : Err → Bytes) (es : List CEnv) (hno : ∀ e ∈ es, e.accepted = false) :
    0 ≤ (Conns.start.run text es).2.opened ∧ (Conns.start.run text es).2.opened ≤ 1 ∧
    ((Conns.start.run text es).2.pc = .returned → (Conns.start.run text es).2.opened = 0) := by
  have h0 : ∀ (es : List CEnv) (s : Conns), (∀ e ∈ es, e.accepted = false) → failedHandshakes text s es = 0 := by
    intro es
    induction es with
    | nil => intro s _; rfl
    | cons e es ih =>
      intro s h
      have : handshakeFails s.pc e = 0 := by
        simp only [handshakeFails, h e (List.mem_cons_self ..)]
        split <;> simp_all
      simp [failedHandshakes, this, ih _ (fun x hx => h x (List.mem_cons_of_mem _ hx))]
  have h := C114_exact text es
  rw [h0 es _ hno] at h
  have := held_le (Conns.start.run text es).2.pc
  refine ⟨by omega, by omega, fun hr => ?_⟩
  rw [h, hr]; simp [held]

/-- A run without failed handshakes that opens and closes several connections, and returns with none open. -/
example : (Conns.start.run noText (List.replicate 11 ⟨true, pings, false⟩ ++ [⟨false, pings, false⟩])).2.opened = 0 ∧
    (Conns.start.run noText (List.replicate 11 ⟨true, pings, false⟩ ++ [⟨false, pings, false⟩])).2.pc = .returned ∧
    (Conns.start.run noText (List.replicate 11 ⟨true, pings, false⟩)).2.opened = 1 ∧
    ((Conns.start.run noText (List.replicate 18 ⟨true, pings, false⟩)).1.countP fun | .connect => true | _ => false) = 2 := by
  decide +kernel

/-- C114 (full statement) is false: a chain node (or whoever answers at its address) that accepts connections and closes them
again makes the signer open one after the other, without any limit; none is closed. -/
theorem C114_fails (text : Err → Bytes) (pv : PV) (n : Nat) : ∃ es : List CEnv,
    (∀ e ∈ es, e.running = true) ∧ es.length = n + 1 ∧ (Conns.start.run text es).2.opened = n ∧
    Act.close ∉ (Conns.start.run text es).1 := by
  have key : ∀ (n : Nat) (o : Int), (Conns.run text ⟨.dial, o⟩ (List.replicate n ⟨true, ⟨none, pv, true⟩, true⟩)).2.opened
        = o + n ∧
      Act.close ∉ (Conns.run text ⟨.dial, o⟩ (List.replicate n ⟨true, ⟨none, pv, true⟩, true⟩)).1 := by
    intro n
    induction n with
    | zero => intro o; simp [Conns.run]
    | succ n ih =>
      intro o
      obtain ⟨h1, h2⟩ := ih (o + 1)
      have e : Conns.step text ⟨.dial, o⟩ ⟨true, ⟨none, pv, true⟩, true⟩ = ([.dialFailed], ⟨.dial, o + 1⟩) := by
        simp [Conns.step, lstep, Act.conns]
      simp only [List.replicate_succ, Conns.run, e]
      exact ⟨by rw [h1]; push_cast; omega, by simpa using h2⟩
  have e0 : Conns.step text Conns.start ⟨true, ⟨none, pv, true⟩, true⟩ = ([], ⟨.dial, 0⟩) := by
    simp [Conns.step, Conns.start, lstep]
  refine ⟨List.replicate (n + 1) ⟨true, ⟨none, pv, true⟩, true⟩, ?_, by simp, ?_, ?_⟩
  · intro e he; rw [(List.mem_replicate.1 he).2]
  · simp only [List.replicate_succ, Conns.run, e0, (key n 0).1]; simp
  · simp only [List.replicate_succ, Conns.run, e0]; simpa using (key n 0).2

/-- C114, reconnection: a running loop whose connection has ended (nothing more can be read from it) closes it, dials however
often it takes, and serves the next request on the new connection; then it has just this one open, and those of failed
handshakes. -/
theorem C114_reconnects (text : Err → Bytes) (pv : PV) (old : Bytes) (hold : readMsg old = none) (fails : List Bool)
    (m r : PMsg) (rest : Bytes) (hwf : m.WF) (hl : (encPMsg m).length ≤ maxRemoteSignerMsgSize) (hr : Replies text pv m r)
    (o : Int) :
    Conns.run text ⟨.read old, o⟩ (⟨true, ⟨none, pv, true⟩, false⟩ :: ⟨true, ⟨none, pv, true⟩, false⟩ ::
        (fails.map fun a => ⟨true, ⟨none, pv, true⟩, a⟩) ++
        List.replicate 5 ⟨true, ⟨some (writeMsg m ++ rest), pv, true⟩, false⟩) =
      ([.close] ++ List.replicate fails.length .dialFailed ++ [.connect, .read m, .write (writeMsg r)],
        ⟨.top (some rest), o + fails.count true⟩) := by
  have key : ∀ (fails : List Bool) (o : Int), Conns.run text ⟨.dial, o⟩ ((fails.map fun a => ⟨true, ⟨none, pv, true⟩, a⟩) ++
        List.replicate 5 ⟨true, ⟨some (writeMsg m ++ rest), pv, true⟩, false⟩) =
      (List.replicate fails.length .dialFailed ++ [.connect, .read m, .write (writeMsg r)],
        ⟨.top (some rest), o + 1 + fails.count true⟩) := by
    intro fails
    induction fails with
    | nil =>
      intro o
      have hm := readMsg_writeMsg m rest hwf hl
      have hh := replies_handle hr
      simp [List.replicate, Conns.run, Conns.step, lstep, Act.conns, hm, hh]
    | cons a fails ih =>
      intro o
      have e : Conns.step text ⟨.dial, o⟩ ⟨true, ⟨none, pv, true⟩, a⟩ =
          ([.dialFailed], ⟨.dial, o + if a = true then 1 else 0⟩) := by
        simp [Conns.step, lstep, Act.conns]
      simp only [List.map_cons, List.cons_append, Conns.run, e, ih]
      cases a <;> simp [List.replicate_succ, Int.add_comm, Int.add_left_comm]
  have e1 : Conns.step text ⟨.read old, o⟩ ⟨true, ⟨none, pv, true⟩, false⟩ = ([.close], ⟨.top none, o - 1⟩) := by
    simp [Conns.step, lstep, hold, Act.conns]; omega
  have e2 : Conns.step text ⟨.top none, o - 1⟩ ⟨true, ⟨none, pv, true⟩, false⟩ = ([], ⟨.dial, o - 1⟩) := by
    simp [Conns.step, lstep]
  simp only [List.cons_append, Conns.run, e1, e2, key]
  simp

/-- The hypotheses hold of a ping on the new connection; the old one ended in the middle of a message. -/
example (text : Err → Bytes) (pv : PV) : readMsg [5] = none ∧ PMsg.WF .pingRequest ∧
    (encPMsg .pingRequest).length ≤ maxRemoteSignerMsgSize ∧ Replies text pv .pingRequest .pingResponse :=
  ⟨by decide +kernel, trivial, by decide +kernel, .ping⟩

end Horcrux
