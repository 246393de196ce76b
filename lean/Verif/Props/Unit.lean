import Verif.Model.Unit
import Verif.Props.Ends
import Verif.Props.Remote
/-
Property C126: a cosigner that runs as the service of the documentation.
-/
namespace Horcrux
open Spec

/-- Somebody has asked the process to end since it was last started. -/
def Spec.AskedSinceStart (tr : List (PEv × PObs)) : Prop :=
  ∃ tr1 o tr2, tr = tr1 ++ (.signal, o) :: tr2 ∧ OneLife tr2

/-- The `i`-th chain node, whenever it is reached, sends the given bytes first. -/
def Spec.AlwaysSends (i : Nat) (stream : Bytes) (e : PEv) : Prop :=
  ∀ env, e = .loop i env → (env.dial = none ∨ env.dial = some stream) ∧
    ∃ chainID key sb, env.pv = .threshold chainID key sb

variable (C : Crypto) (cfg : CosignerCfg) (text : Err → Bytes)

theorem asked_snoc {tr : List (PEv × PObs)} {x : PEv × PObs} (h : AskedSinceStart tr) (hx : x.1 ≠ .restart) :
    AskedSinceStart (tr ++ [x]) := by
  obtain ⟨a, o, b, rfl, hb⟩ := h
  refine ⟨a, o, b ++ [x], by simp, fun y hy => ?_⟩
  rcases List.mem_append.1 hy with hy | hy
  · exact hb y hy
  · rw [List.mem_singleton.1 hy]; exact hx

theorem stopNext_trap (p : Proc) : p.trap = .waiting → p.stopNext = p := by
  intro h; unfold Proc.stopNext; rw [h]

/-- Without a signal since the start the trap goroutine waits. -/
theorem unasked_waiting {nodes : Nat} {d : DState} {p : Proc} {tr : List (PEv × PObs)}
    (hrun : PRun C cfg text Supervised (Proc.boot nodes d) tr p) : p.trap = .waiting ∨ AskedSinceStart tr := by
  induction hrun with
  | nil => exact .inl rfl
  | @snoc tr p h e he ih =>
    cases hend : p.ended with
    | some x =>
      rw [step_dead C cfg text hend]
      by_cases hr : e = .restart
      · subst hr; exact .inl rfl
      · rcases ih with ih | ih
        · left; cases e <;> first | exact absurd rfl hr | exact ih
        · exact .inr (asked_snoc ih hr)
    | none =>
      have hr : e ≠ .restart := by
        intro h; obtain ⟨x, hx, _⟩ := he h; rw [hend] at hx; cases hx
      rcases ih with ih | ih
      · by_cases hs : e = .signal
        · subst hs; exact .inr ⟨tr, _, [], rfl, fun y hy => by cases hy⟩
        · left
          rw [step_live C cfg text hend]
          cases e with
          | signal => exact absurd rfl hs
          | restart => exact absurd rfl hr
          | stop => simp only [Proc.live]; rw [stopNext_trap p ih]; exact ih
          | exit => simp only [Proc.live, ih]; rw [if_neg (by simp)]; exact ih
          | loop i env =>
            simp only [Proc.live]
            cases p.signers[i]? with
            | none => exact ih
            | some y => exact ih
          | disk e =>
            simp only [Proc.live]
            split <;> exact ih
      · exact .inr (asked_snoc ih hr)

/-- C126: in every history under systemd, whatever the chain nodes, the peers, the disk and the scheduler do: as long as
nobody has asked the process to end since it was last started, it is up, or systemd starts it again, and then it is up
with everything started and with the sign state of its file. -/
theorem C126_back (nodes : Nat) (d : DState) (p : Proc) (tr : List (PEv × PObs))
    (hrun : PRun C cfg text Supervised (Proc.boot nodes d) tr p) (hask : ¬ AskedSinceStart tr) :
    p.ended = none ∨ (Supervised p .restart ∧
      (p.step C cfg text .restart).2 = Proc.boot p.signers.length (DState.boot p.disk.file)) := by
  have hw := (unasked_waiting C cfg text hrun).resolve_right hask
  have hinv := ProcInv.run C cfg text hrun (ProcInv.boot nodes d)
  cases hend : p.ended with
  | none => exact .inl rfl
  | some x =>
    refine .inr ⟨fun _ => ⟨x, hend, ?_⟩, by rw [step_dead C cfg text hend]; rfl⟩
    cases x with
    | exited => rw [hinv.exited hend] at hw; cases hw
    | stopFailed => rfl
    | crashed => rfl

/-- C126: a process is down for good under systemd exactly if it has ended in the orderly way, and this is only possible
after somebody has asked for it since the last start. -/
theorem C126_exact (nodes : Nat) (d : DState) (p : Proc) (tr : List (PEv × PObs))
    (hrun : PRun C cfg text Supervised (Proc.boot nodes d) tr p) :
    ((∀ tr' p', PRun C cfg text Supervised p tr' p' → p'.ended ≠ none) ↔ p.ended = some .exited) ∧
    (p.ended = some .exited → AskedSinceStart tr ∧ ∀ tr' p', PRun C cfg text Supervised p tr' p' → p' = p) := by
  have hstay : p.ended = some .exited → ∀ tr' p', PRun C cfg text Supervised p tr' p' → p' = p := by
    intro he tr' p' h
    induction h with
    | nil => rfl
    | @snoc tr' p' h e hok ih =>
      subst ih
      rw [step_dead C cfg text he]
      cases e with
      | restart =>
        obtain ⟨x, hx, hr⟩ := hok rfl
        rw [he] at hx; cases hx; cases hr
      | _ => rfl
  refine ⟨⟨fun h => ?_, fun he tr' p' h => by rw [hstay he tr' p' h, he]; simp⟩, fun he => ⟨?_, hstay he⟩⟩
  · cases hend : p.ended with
    | none => exact absurd hend (h [] p .nil)
    | some x =>
      by_cases hx : x = .exited
      · rw [hx]
      · have hok : Supervised p .restart := fun _ => ⟨x, hend, by cases x <;> first | exact absurd rfl hx | rfl⟩
        have := h _ _ (PRun.nil.snoc .restart hok)
        rw [step_dead C cfg text hend] at this
        exact absurd rfl this
  · rcases unasked_waiting C cfg text hrun with h | h
    · have := (ProcInv.run C cfg text hrun (ProcInv.boot nodes d)).exited he
      rw [h] at this; cases this
    · exact h

/-- The loop of a chain node that always sends the same malformed request first. -/
def Lured (stream : Bytes) (m : PMsg) (rest : Bytes) (p : Proc) (v : Svc) (pc : LPc) : Prop :=
  pc = .top none ∨ pc = .dial ∨ pc = .check stream ∨ pc = .read stream ∨ pc = .handle m rest ∨
  (pc = .returned ∧ v.stopped = true) ∨ (pc = .crashed ∧ p.ended ≠ none)

/-- What holds of the process at every time. -/
def LuredInv (nodes i : Nat) (stream : Bytes) (m : PMsg) (rest : Bytes) (p : Proc) : Prop :=
  p.signers.length = nodes ∧ ∀ v pc, p.signers[i]? = some (v, pc) → Lured stream m rest p v pc

theorem luredInv_boot (nodes i : Nat) (stream : Bytes) (m : PMsg) (rest : Bytes) (d : DState) :
    LuredInv nodes i stream m rest (Proc.boot nodes d) := by
  refine ⟨by simp [Proc.boot], fun v pc h => ?_⟩
  have := List.mem_of_getElem? h
  simp only [Proc.boot, List.mem_replicate, Prod.mk.injEq] at this
  exact .inl this.2.2

theorem svc_stop_stopped {v : Svc} (h : v.stop.1 = true) : v.stop.2.stopped = true := by
  unfold Svc.stop at h ⊢
  split at h
  · cases h
  · split at h
    · next h1 h2 => rw [if_neg h1, if_pos h2]
    · cases h

theorem luredInv_stop {nodes i : Nat} {stream : Bytes} {m : PMsg} {rest : Bytes} {p : Proc}
    (h : LuredInv nodes i stream m rest p) : LuredInv nodes i stream m rest p.stopNext := by
  unfold Proc.stopNext
  split
  · next n _ =>
    split
    · exact h
    · next w hw =>
      split
      · next hst =>
        cases n with
        | zero => exact h
        | succ n =>
          refine ⟨by simpa [Proc.setService] using h.1, fun v pc hv => ?_⟩
          simp only [Proc.setService, List.getElem?_modify] at hv
          by_cases hni : n = i
          · subst hni
            cases hx : p.signers[n]? with
            | none => rw [hx] at hv; simp at hv
            | some y =>
              obtain ⟨yv, ypc⟩ := y
              rw [hx] at hv
              simp only [if_true, Option.map_eq_map, Option.map_some, Option.some.injEq, Prod.mk.injEq] at hv
              obtain ⟨rfl, rfl⟩ := hv
              rcases h.2 _ _ hx with h | h | h | h | h | h | h
              · exact .inl h
              · exact .inr (.inl h)
              · exact .inr (.inr (.inl h))
              · exact .inr (.inr (.inr (.inl h)))
              · exact .inr (.inr (.inr (.inr (.inl h))))
              · exact .inr (.inr (.inr (.inr (.inr (.inl ⟨h.1, svc_stop_stopped hst⟩)))))
              · exact .inr (.inr (.inr (.inr (.inr (.inr h)))))
          · have : p.signers[i]? = some (v, pc) := by simpa [hni] using hv
            exact h.2 _ _ this
      · refine ⟨h.1, fun v pc hv => ?_⟩
        rcases h.2 v pc hv with h | h | h | h | h | h | h
        · exact .inl h
        · exact .inr (.inl h)
        · exact .inr (.inr (.inl h))
        · exact .inr (.inr (.inr (.inl h)))
        · exact .inr (.inr (.inr (.inr (.inl h))))
        · exact .inr (.inr (.inr (.inr (.inr (.inl h)))))
        · exact .inr (.inr (.inr (.inr (.inr (.inr ⟨h.1, by simp⟩)))))
  · exact h

/-- One step of a loop that has been lured, and what it does. -/
theorem lured_lstep {stream : Bytes} {m : PMsg} {rest : Bytes} (hm : readMsg stream = some (m, rest)) (hbad : Malformed m)
    {env : LEnv} (hd : env.dial = none ∨ env.dial = some stream)
    (hpv : ∃ chainID key sb, env.pv = .threshold chainID key sb) {v : Svc} {pc : LPc}
    (h : pc = .top none ∨ pc = .dial ∨ pc = .check stream ∨ pc = .read stream ∨ pc = .handle m rest ∨
      (pc = .returned ∧ v.stopped = true)) (hv : v.started = true) :
    (∀ bs, Act.write bs ∉ (lstep text v.running env pc).1) ∧
    ((lstep text v.running env pc).2 = .crashed ∨ ∀ p, Lured stream m rest p v (lstep text v.running env pc).2) := by
  obtain ⟨chainID, key, sb, hpv⟩ := hpv
  have hstop : v.running = false → v.stopped = true := by
    unfold Svc.running; rw [hv]; simp
  rcases h with rfl | rfl | rfl | rfl | rfl | ⟨rfl, hs⟩
  · cases hr : v.running with
    | true => exact ⟨by simp [lstep], .inr fun p => by simp [lstep, Lured]⟩
    | false => exact ⟨by simp [lstep, closeConn], .inr fun p => by simp [lstep, Lured, hstop hr]⟩
  · rcases hd with hd | hd
    · exact ⟨by simp [lstep, hd], .inr fun p => by simp [lstep, Lured, hd]⟩
    · exact ⟨by simp [lstep, hd], .inr fun p => by simp [lstep, Lured, hd]⟩
  · cases hr : v.running with
    | true => exact ⟨by simp [lstep], .inr fun p => by simp [lstep, Lured]⟩
    | false => exact ⟨by simp [lstep], .inr fun p => by simp [lstep, Lured, hstop hr]⟩
  · exact ⟨by simp [lstep, hm], .inr fun p => by simp [lstep, Lured, hm]⟩
  · have hh : handleRequest text env.pv m = none := by
      rw [hpv]; exact (threshold_panic_iff text chainID key sb m (readMsg_timesValid hm)).2 hbad
    exact ⟨by simp [lstep, hh], .inl (by simp [lstep, hh])⟩
  · exact ⟨by simp [lstep], .inr fun p => by simp [lstep, Lured, hs]⟩

/-- Every service of a process has been started. -/
theorem services_started {p : Proc} (h : ProcInv p) : ∀ v ∈ p.services, v.started = true := by
  intro v hv
  have h3 := h.services
  have key : ∀ m n, v ∈ stoppedTo m n → v.started = true := by
    intro m n hx
    simp only [stoppedTo, List.mem_append, List.mem_replicate] at hx
    rcases hx with hx | hx
    · rw [hx.2]
    · rw [hx.2]; rfl
  revert h3
  cases p.trap with
  | waiting => intro h3; rw [h3] at hv; exact key _ _ hv
  | stopping n => intro h3; rw [h3.2] at hv; exact key _ _ hv
  | done => intro h3; rw [h3] at hv; exact key _ _ hv

theorem signer_started {p : Proc} (h : ProcInv p) {i : Nat} {v : Svc} {pc : LPc} (hi : p.signers[i]? = some (v, pc)) :
    v.started = true :=
  services_started h v (by
    simp only [Proc.services, List.mem_cons, List.mem_map]
    exact .inr ⟨_, List.mem_of_getElem? hi, rfl⟩)

theorem luredInv_step {nodes i : Nat} {stream : Bytes} {m : PMsg} {rest : Bytes} {p : Proc}
    (hm : readMsg stream = some (m, rest)) (hbad : Malformed m) (hp : ProcInv p) (h : LuredInv nodes i stream m rest p)
    {e : PEv} (he : AlwaysSends i stream e) :
    LuredInv nodes i stream m rest (p.step C cfg text e).2 ∧
    ∀ env, e = .loop i env → ∀ bs, Act.write bs ∉ (p.step C cfg text e).1.acts := by
  cases hend : p.ended with
  | some x =>
    rw [step_dead C cfg text hend]
    refine ⟨?_, fun env hx bs => by subst hx; simp [Proc.dead, PObs.nothing]⟩
    cases e with
    | restart => simp only [Proc.dead]; rw [h.1]; exact luredInv_boot _ _ _ _ _ _
    | _ => exact h
  | none =>
    rw [step_live C cfg text hend]
    have hlive : ∀ v pc, p.signers[i]? = some (v, pc) → pc = .top none ∨ pc = .dial ∨ pc = .check stream ∨
        pc = .read stream ∨ pc = .handle m rest ∨ (pc = .returned ∧ v.stopped = true) := by
      intro v pc hv
      rcases h.2 v pc hv with h | h | h | h | h | h | h
      · exact .inl h
      · exact .inr (.inl h)
      · exact .inr (.inr (.inl h))
      · exact .inr (.inr (.inr (.inl h)))
      · exact .inr (.inr (.inr (.inr (.inl h))))
      · exact .inr (.inr (.inr (.inr (.inr h))))
      · exact absurd hend h.2
    have hany : ∀ q : Proc, q.signers = p.signers → LuredInv nodes i stream m rest q := by
      intro q hq
      refine ⟨by rw [hq]; exact h.1, fun v pc hv => ?_⟩
      rw [hq] at hv
      rcases hlive v pc hv with h | h | h | h | h | h
      · exact .inl h
      · exact .inr (.inl h)
      · exact .inr (.inr (.inl h))
      · exact .inr (.inr (.inr (.inl h)))
      · exact .inr (.inr (.inr (.inr (.inl h))))
      · exact .inr (.inr (.inr (.inr (.inr (.inl h)))))
    cases e with
    | signal =>
      refine ⟨hany _ ?_, fun env hx => by cases hx⟩
      simp only [Proc.live]; split <;> rfl
    | stop => exact ⟨luredInv_stop h, fun env hx => by cases hx⟩
    | exit =>
      refine ⟨hany _ ?_, fun env hx => by cases hx⟩
      simp only [Proc.live]; split <;> rfl
    | restart => exact ⟨h, fun env hx => by cases hx⟩
    | disk e =>
      refine ⟨hany _ ?_, fun env hx => by cases hx⟩
      simp only [Proc.live]; split <;> rfl
    | loop j env =>
      simp only [Proc.live]
      cases hj : p.signers[j]? with
      | none => exact ⟨h, fun env hx bs => by simp [PObs.nothing]⟩
      | some y =>
        obtain ⟨v, pc⟩ := y
        by_cases hji : j = i
        · subst hji
          obtain ⟨hd, hpv⟩ := he env rfl
          obtain ⟨hw, hn⟩ := lured_lstep text hm hbad hd hpv (hlive v pc hj) (signer_started hp hj)
          refine ⟨⟨by simpa using h.1, fun v' pc' hv' => ?_⟩, fun env' _ => hw⟩
          obtain ⟨hlt, _⟩ := List.getElem?_eq_some_iff.1 hj
          have : v = v' ∧ (lstep text v.running env pc).2 = pc' := by simpa [List.getElem?_set, hlt] using hv'
          obtain ⟨rfl, rfl⟩ := this
          rcases hn with hn | hn
          · exact .inr (.inr (.inr (.inr (.inr (.inr ⟨hn, by simp [hn]⟩)))))
          · exact hn _
        · refine ⟨⟨by simpa using h.1, fun v' pc' hv' => ?_⟩, fun env' hx => ?_⟩
          · have : p.signers[i]? = some (v', pc') := by simpa [List.getElem?_set, hji] using hv'
            rcases hlive v' pc' this with h | h | h | h | h | h
            · exact .inl h
            · exact .inr (.inl h)
            · exact .inr (.inr (.inl h))
            · exact .inr (.inr (.inr (.inl h)))
            · exact .inr (.inr (.inr (.inr (.inl h))))
            · exact .inr (.inr (.inr (.inr (.inr (.inl h)))))
          · cases hx; exact absurd rfl hji

/-- One step of the loop of a process that is up. -/
theorem loop_step_live {p : Proc} {i : Nat} {v : Svc} {pc : LPc} (env : LEnv) (hup : p.ended = none)
    (hi : p.signers[i]? = some (v, pc)) (hv : v.running = true) :
    (p.step C cfg text (.loop i env)).2 =
      { p with
        signers := p.signers.set i (v, (lstep text true env pc).2)
        ended := if (lstep text true env pc).2 = .crashed then some .crashed else none } := by
  rw [step_live C cfg text hup]
  simp only [Proc.live, hi, hv]

/-- The step before. -/
theorem lured_chain {i : Nat} {env : LEnv} {pc pc' : LPc} {k : Nat} (hstep : (lstep text true env pc).2 = pc')
    (hne : pc' ≠ .crashed)
    (ih : ∀ (p : Proc) (v : Svc), p.ended = none → p.signers[i]? = some (v, pc') → v.running = true →
      (p.after C cfg text (List.replicate k (.loop i env))).ended = some .crashed) :
    ∀ (p : Proc) (v : Svc), p.ended = none → p.signers[i]? = some (v, pc) → v.running = true →
      (p.after C cfg text (List.replicate (k + 1) (.loop i env))).ended = some .crashed := by
  intro p v hup hi hv
  obtain ⟨hlt, _⟩ := List.getElem?_eq_some_iff.1 hi
  rw [List.replicate_succ]
  show (Proc.after C cfg text (p.step C cfg text (.loop i env)).2 _).ended = _
  rw [loop_step_live C cfg text env hup hi hv, hstep, if_neg hne]
  exact ih _ v rfl (by simp [hlt]) hv

/-- A process that is up and was not asked to end is ended by a lured loop within five steps. -/
theorem lured_ends {nodes i : Nat} {stream : Bytes} {m : PMsg} {rest : Bytes} {p : Proc} (hi : i < nodes)
    (hm : readMsg stream = some (m, rest)) (hbad : Malformed m) (hp : ProcInv p) (h : LuredInv nodes i stream m rest p)
    (hup : p.ended = none) (hw : p.trap = .waiting) {env : LEnv} (hd : env.dial = some stream)
    (hpv : ∃ chainID key sb, env.pv = .threshold chainID key sb) :
    ∃ k, k < 5 ∧ (p.after C cfg text (List.replicate (k + 1) (.loop i env))).ended = some .crashed := by
  obtain ⟨chainID, key, sb, hpv⟩ := hpv
  have hh : handleRequest text env.pv m = none := by
    rw [hpv]; exact (threshold_panic_iff text chainID key sb m (readMsg_timesValid hm)).2 hbad
  have s0 : ∀ (p : Proc) (v : Svc), p.ended = none → p.signers[i]? = some (v, .handle m rest) → v.running = true →
      (p.after C cfg text (List.replicate 1 (.loop i env))).ended = some .crashed := by
    intro p v hup hi hv
    show (p.step C cfg text (.loop i env)).2.ended = _
    rw [loop_step_live C cfg text env hup hi hv]
    simp [lstep, hh]
  have s1 := lured_chain C cfg text (pc := .read stream) (by simp [lstep, hm]) (by simp) s0
  have s2 := lured_chain C cfg text (pc := .check stream) (by simp [lstep]) (by simp) s1
  have s3 := lured_chain C cfg text (pc := .dial) (by simp [lstep, hd]) (by simp) s2
  have s4 := lured_chain C cfg text (pc := .top none) (by simp [lstep]) (by simp) s3
  obtain ⟨⟨v, pc⟩, hv⟩ : ∃ y, p.signers[i]? = some y := ⟨_, List.getElem?_eq_getElem (by rw [h.1]; exact hi)⟩
  have hmem : v ∈ p.services := by
    simp only [Proc.services, List.mem_cons, List.mem_map]
    exact .inr ⟨_, List.mem_of_getElem? hv, rfl⟩
  have hst : v.stopped = false := by
    have h3 := hp.services
    rw [hw] at h3
    have h3 : p.services = stoppedTo p.services.length 0 := h3
    rw [h3] at hmem
    simp only [stoppedTo, List.mem_append, List.mem_replicate] at hmem
    rcases hmem with hx | hx
    · exact absurd rfl hx.1
    · rw [hx.2]; rfl
  have hr : v.running = true := by
    unfold Svc.running; rw [signer_started hp hv, hst]; rfl
  rcases h.2 v pc hv with rfl | rfl | rfl | rfl | rfl | ⟨_, hs⟩ | ⟨_, hs⟩
  · exact ⟨4, by omega, s4 p v hup hv hr⟩
  · exact ⟨3, by omega, s3 p v hup hv hr⟩
  · exact ⟨2, by omega, s2 p v hup hv hr⟩
  · exact ⟨1, by omega, s1 p v hup hv hr⟩
  · exact ⟨0, by omega, s0 p v hup hv hr⟩
  · rw [hst] at hs; cases hs
  · exact absurd hup hs

theorem luredInv_run {nodes i : Nat} {stream : Bytes} {m : PMsg} {rest : Bytes} {d : DState} {p : Proc}
    {tr : List (PEv × PObs)} (hm : readMsg stream = some (m, rest)) (hbad : Malformed m)
    (hrun : PRun C cfg text (fun q e => Supervised q e ∧ AlwaysSends i stream e) (Proc.boot nodes d) tr p) :
    ProcInv p ∧ LuredInv nodes i stream m rest p ∧ repliesIn (actsOf i tr) = [] := by
  induction hrun with
  | nil => exact ⟨ProcInv.boot _ _, luredInv_boot _ _ _ _ _ _, rfl⟩
  | @snoc tr p h e he ih =>
    obtain ⟨h1, h2, h3⟩ := ih
    obtain ⟨h4, h5⟩ := luredInv_step C cfg text hm hbad h1 h2 he.2
    refine ⟨h1.step C cfg text e, h4, ?_⟩
    have hw : repliesIn (actsOf i [(e, (p.step C cfg text e).1)]) = [] := by
      simp only [repliesIn, List.filterMap_eq_nil_iff]
      intro a ha
      simp only [actsOf, List.flatMap_cons, List.flatMap_nil, List.append_nil] at ha
      cases e with
      | loop j env =>
        simp only at ha
        split at ha
        · next hj =>
          subst hj
          cases a with
          | write bs => exact absurd ha (h5 env rfl bs)
          | _ => rfl
        · cases ha
      | _ => cases ha
    have hsplit : repliesIn (actsOf i (tr ++ [(e, (p.step C cfg text e).1)])) =
        repliesIn (actsOf i tr) ++ repliesIn (actsOf i [(e, (p.step C cfg text e).1)]) := by
      simp [repliesIn, actsOf, List.flatMap_append, List.filterMap_append]
    rw [hsplit, h3, hw]; rfl

/-- C126 fails: a chain node that sends one malformed request whenever it is reached. In every history under systemd it
never gets a reply, and whenever the process is up, whatever has happened and however often it was started, at most five
steps of the loop of that node end it, unless somebody has asked it to end; then systemd starts it again and the same
holds. So it is never up for more than four steps of that loop. -/
theorem C126_fails (nodes i : Nat) (hi : i < nodes) (d : DState) (stream rest : Bytes) (m : PMsg)
    (hm : readMsg stream = some (m, rest)) (hbad : Malformed m) (p : Proc) (tr : List (PEv × PObs))
    (hrun : PRun C cfg text (fun q e => Supervised q e ∧ AlwaysSends i stream e) (Proc.boot nodes d) tr p) :
    repliesIn (actsOf i tr) = [] ∧
    ∀ env : LEnv, env.dial = some stream → (∃ chainID key sb, env.pv = .threshold chainID key sb) →
      p.ended = none → ¬ AskedSinceStart tr →
      ∃ k, k < 5 ∧ (p.after C cfg text (List.replicate (k + 1) (.loop i env))).ended = some .crashed := by
  obtain ⟨h1, h2, h3⟩ := luredInv_run C cfg text hm hbad hrun
  refine ⟨h3, fun env hd hpv hup hask => ?_⟩
  have hrun' : PRun C cfg text Supervised (Proc.boot nodes d) tr p := by
    clear h1 h2 h3 hup hask
    induction hrun with
    | nil => exact .nil
    | snoc _ e he ih => exact ih.snoc e he.1
  exact lured_ends C cfg text hi hm hbad h1 h2 hup ((unasked_waiting C cfg text hrun').resolve_right hask) hd hpv

/-- What holds as long as nothing malformed was read and no request aborted the cosigner. -/
def CalmInv (p : Proc) : Prop :=
  p.disk.alive = true ∧ p.ended ≠ some .crashed ∧
  ∀ y ∈ p.signers, y.2 ≠ .crashed ∧ ∀ m rest, y.2 = .handle m rest → ¬ Malformed m ∧ m.TimesValid

theorem calm_lstep {v : Bool} {env : LEnv} {pc : LPc} (hpv : ∃ chainID key sb, env.pv = .threshold chainID key sb)
    (hpc : pc ≠ .crashed ∧ ∀ m rest, pc = .handle m rest → ¬ Malformed m ∧ m.TimesValid)
    (hread : ∀ m, .read m ∈ (lstep text v env pc).1 → ¬ Malformed m) :
    (lstep text v env pc).2 ≠ .crashed ∧
      ∀ m rest, (lstep text v env pc).2 = .handle m rest → ¬ Malformed m ∧ m.TimesValid := by
  obtain ⟨chainID, key, sb, hpv⟩ := hpv
  cases pc with
  | top conn => simp only [lstep]; split <;> try split
                all_goals simp
  | dial => simp only [lstep]; split <;> simp
  | check s => simp only [lstep]; split <;> simp
  | read s =>
    simp only [lstep] at hread ⊢
    cases hs : readMsg s with
    | none => simp
    | some y =>
      obtain ⟨m, rest⟩ := y
      rw [hs] at hread
      refine ⟨by simp, fun m' rest' hx => ?_⟩
      simp only [LPc.handle.injEq] at hx
      obtain ⟨rfl, rfl⟩ := hx
      exact ⟨hread m (by simp), readMsg_timesValid hs⟩
  | handle m rest =>
    obtain ⟨h1, h2⟩ := hpc.2 m rest rfl
    have hh : handleRequest text env.pv m ≠ none := by
      rw [hpv]; intro h; exact h1 ((threshold_panic_iff text chainID key sb m h2).1 h)
    simp only [lstep]
    cases hs : handleRequest text env.pv m with
    | none => exact absurd hs hh
    | some r => simp
  | write r rest => simp only [lstep]; split <;> simp
  | returned => simp [lstep]
  | crashed => exact absurd rfl hpc.1

theorem calm_boot (nodes : Nat) (f : PFile) : CalmInv (Proc.boot nodes (DState.boot f)) := by
  refine ⟨rfl, by simp [Proc.boot], fun y hy => ?_⟩
  simp only [Proc.boot, List.mem_replicate] at hy
  rw [hy.2]; simp

theorem calm_stop {p : Proc} (h : CalmInv p) : CalmInv p.stopNext := by
  obtain ⟨h1, h2, h3⟩ := h
  unfold Proc.stopNext
  split
  · split
    · exact ⟨h1, h2, h3⟩
    · split
      · next n _ _ _ _ _ =>
        cases n with
        | zero => exact ⟨h1, h2, h3⟩
        | succ n =>
          refine ⟨h1, h2, fun y hy => ?_⟩
          obtain ⟨j, hj⟩ := List.mem_iff_getElem?.1 hy
          simp only [Proc.setService, List.getElem?_modify] at hj
          cases hx : p.signers[j]? with
          | none => rw [hx] at hj; simp at hj
          | some z =>
            have hz := h3 z (List.mem_of_getElem? hx)
            rw [hx] at hj
            have : y.2 = z.2 := by
              simp only [Option.map_eq_map, Option.map_some, Option.some.injEq] at hj
              rw [← hj]; split <;> rfl
            rw [this]; exact hz
      · exact ⟨h1, by simp, h3⟩
  · exact ⟨h1, h2, h3⟩

/-- What does hold of C126: if no chain node sends a malformed request and no request aborts the cosigner, then in no
history of any length does the process end unless somebody asks for it: it is up all the time. -/
theorem C126_partial (nodes : Nat) (f : PFile) (p : Proc) (tr : List (PEv × PObs))
    (hrun : PRun C cfg text Supervised (Proc.boot nodes (DState.boot f)) tr p)
    (hpv : ∀ x ∈ tr, ∀ i env, x.1 = .loop i env → ∃ chainID key sb, env.pv = .threshold chainID key sb)
    (hread : ∀ x ∈ tr, ∀ m, .read m ∈ x.2.acts → ¬ Malformed m) (hans : ∀ x ∈ tr, x.2.answer ≠ some .panic) :
    p.ended ≠ some .crashed ∧ (¬ AskedSinceStart tr → p.ended = none) := by
  have hcalm : CalmInv p := by
    induction hrun with
    | nil => exact calm_boot nodes f
    | @snoc tr p h e he ih =>
      have ih := ih (fun x hx => hpv x (by simp [hx])) (fun x hx => hread x (by simp [hx])) (fun x hx => hans x (by simp [hx]))
      have hpv := hpv (e, (p.step C cfg text e).1) (by simp)
      have hread := hread (e, (p.step C cfg text e).1) (by simp)
      have hans := hans (e, (p.step C cfg text e).1) (by simp)
      have ih' := ih
      obtain ⟨h1, h2, h3⟩ := ih'
      cases hend : p.ended with
      | some x =>
        rw [step_dead C cfg text hend]
        cases e with
        | restart => exact calm_boot _ _
        | _ => exact ih
      | none =>
        rw [step_live C cfg text hend] at hread hans ⊢
        cases e with
        | signal =>
          simp only [Proc.live]
          split
          · exact ⟨h1, h2, h3⟩
          · exact ih
        | stop => exact calm_stop ih
        | exit =>
          simp only [Proc.live]
          split
          · exact ⟨h1, by simp, h3⟩
          · exact ih
        | restart => exact ih
        | disk e =>
          simp only [Proc.live] at hans ⊢
          split
          · exact ih
          · next hne =>
            rw [if_neg hne] at hans
            have halive : (p.disk.step C cfg e).2.alive = true := by
              cases e with
              | restart => exact absurd rfl hne
              | marshal i => simp only [DState.step]; split <;> exact h1
              | write i => simp only [DState.step]; split <;> exact h1
              | op o =>
                have hno : ¬ p.disk.alive = false := by simp [h1]
                simp only [DState.step, if_neg hno] at hans ⊢
                split
                · next hp => rw [hp] at hans; exact absurd rfl hans
                · exact h1
                · exact h1
            exact ⟨halive, by simp [halive], h3⟩
        | loop i env =>
          simp only [Proc.live] at hread ⊢
          cases hi : p.signers[i]? with
          | none => exact ih
          | some y =>
            obtain ⟨v, pc⟩ := y
            rw [hi] at hread
            have hc := calm_lstep text (hpv i env rfl) (h3 _ (List.mem_of_getElem? hi)) hread
            refine ⟨h1, by simp [hc.1], fun y hy => ?_⟩
            rcases List.mem_or_eq_of_mem_set hy with hy | rfl
            · exact h3 y hy
            · exact hc
  refine ⟨hcalm.2.1, fun hask => ?_⟩
  have hw := (unasked_waiting C cfg text hrun).resolve_right hask
  have hinv := ProcInv.run C cfg text hrun (ProcInv.boot nodes _)
  cases hend : p.ended with
  | none => rfl
  | some x =>
    cases x with
    | exited => rw [hinv.exited hend] at hw; cases hw
    | stopFailed => exact absurd hend hinv.noFail
    | crashed => exact absurd hend hcalm.2.1

/-- A chain node that sends a vote request without a vote. -/
def noVote : LEnv := ⟨some [2, 0x1a, 0], .threshold [1] [2] (fun _ => (none, ⟨0, 0⟩, none)), true⟩

/-- Two chain nodes: the second one is served for a while; the first ends the process twice, and systemd starts it twice.
Then it is asked to end, and stays down. -/
def downAndUp : List PEv :=
  [.loop 1 pings, .loop 1 pings, .loop 0 noVote, .loop 0 noVote, .loop 1 pings, .loop 0 noVote, .loop 1 pings, .loop 1 pings,
    .loop 1 pings, .loop 0 noVote, .loop 0 noVote, .restart, .loop 0 noVote, .loop 0 noVote, .loop 0 noVote, .loop 0 noVote,
    .loop 0 noVote, .restart, .loop 1 pings]

/-- `Supervised`, evaluated. -/
def supervisedB (p : Proc) : PEv → Bool
  | .restart => match p.ended with
    | some x => restartOnFailure x.status
    | none => false
  | _ => true

theorem supervisedB_ok (p : Proc) (e : PEv) (h : supervisedB p e = true) : Supervised p e := by
  intro he; subst he
  cases hx : p.ended with
  | none => simp [supervisedB, hx] at h
  | some x => exact ⟨x, rfl, by simpa [supervisedB, hx] using h⟩

theorem downAndUp_sends : ∀ e ∈ downAndUp, AlwaysSends 0 [2, 0x1a, 0] e := by
  intro e he env hx
  subst hx
  simp only [downAndUp, List.mem_cons, List.not_mem_nil, or_false, PEv.loop.injEq, reduceCtorEq, false_or,
    true_and, false_and, or_self, zero_ne_one] at he
  subst he
  exact ⟨.inr rfl, _, _, _, rfl⟩

theorem prun_and {Q : PEv → Prop} {p0 p : Proc} (es : List PEv) (tr0 : List (PEv × PObs))
    (h0 : PRun C cfg text (fun q e => Supervised q e ∧ Q e) p0 tr0 p)
    (hs : pcheck C cfg text supervisedB p es = true) (hQ : ∀ e ∈ es, Q e) :
    PRun C cfg text (fun q e => Supervised q e ∧ Q e) p0 (pexec C cfg text p tr0 es).1 (pexec C cfg text p tr0 es).2 := by
  induction es generalizing p tr0 with
  | nil => exact h0
  | cons e es ih =>
    simp only [pcheck, Bool.and_eq_true] at hs
    exact ih _ (h0.snoc e ⟨supervisedB_ok _ _ hs.1, hQ e (by simp)⟩) hs.2 (fun e he => hQ e (by simp [he]))

/-- The malformed request is read as one without its vote; under it the process was started twice, the second chain node
has got one reply, the first none; and nobody has asked the process to end. -/
example : ∃ m rest tr p, readMsg [2, 0x1a, 0] = some (m, rest) ∧ Malformed m ∧
    PRun toy toyCfg noText (fun q e => Supervised q e ∧ AlwaysSends 0 [2, 0x1a, 0] e)
      (Proc.boot 2 (DState.boot emptyFile)) tr p ∧ tr.map (·.1) = downAndUp ∧ p.ended = none ∧
    repliesIn (actsOf 1 tr) = [writeMsg .pingResponse] ∧ ¬ AskedSinceStart tr := by
  have hm : (pexec toy toyCfg noText (Proc.boot 2 (DState.boot emptyFile)) [] downAndUp).1.map (·.1) = downAndUp := rfl
  refine ⟨.signVoteRequest none [], [], _, _, by decide +kernel, by simp [Malformed],
    prun_and toy toyCfg noText downAndUp [] .nil (by decide +kernel) downAndUp_sends, hm, by decide +kernel,
    by decide +kernel, ?_⟩
  rintro ⟨a, o, b, h, _⟩
  rw [h] at hm
  have hx : PEv.signal ∈ downAndUp := by rw [← hm]; simp
  simp [downAndUp] at hx

/-- And a process that was asked to end, and did. -/
example : ∃ tr p, PRun toy toyCfg noText Supervised (Proc.boot 2 (DState.boot emptyFile)) tr p ∧
    p.ended = some .exited :=
  ⟨_, _, pexec_run supervisedB_ok .nil lastWords (by decide +kernel), by decide +kernel⟩

/-- A chain node that sends a ping, with the threshold validator. -/
def goodPings : LEnv := ⟨some (writeMsg .pingRequest), .threshold [1] [2] (fun _ => (none, ⟨0, 0⟩, none)), true⟩

/-- The conditions of `C126_partial` with a ping that is answered. -/
example : ∃ tr p, PRun toy toyCfg noText Supervised (Proc.boot 1 (DState.boot emptyFile)) tr p ∧ p.ended = none ∧
    (∀ x ∈ tr, ∀ i env, x.1 = .loop i env → ∃ chainID key sb, env.pv = .threshold chainID key sb) ∧
    (∀ x ∈ tr, ∀ m, .read m ∈ x.2.acts → ¬ Malformed m) ∧ (∀ x ∈ tr, x.2.answer ≠ some .panic) ∧
    repliesIn (actsOf 0 tr) = [writeMsg .pingResponse] := by
  have hm : (pexec toy toyCfg noText (Proc.boot 1 (DState.boot emptyFile)) [] (List.replicate 6 (.loop 0 goodPings))).1.map
      (·.1) = List.replicate 6 (.loop 0 goodPings) := rfl
  have hr : (pexec toy toyCfg noText (Proc.boot 1 (DState.boot emptyFile)) [] (List.replicate 6 (.loop 0 goodPings))).1.all
      (fun x => (readsIn x.2.acts).all (· = .pingRequest)) = true := by decide +kernel
  refine ⟨_, _, pexec_run supervisedB_ok .nil (List.replicate 6 (.loop 0 goodPings)) rfl, by decide +kernel, ?_, ?_,
    by decide +kernel, by decide +kernel⟩
  · intro x hx i env he
    have : x.1 ∈ List.replicate 6 (PEv.loop 0 goodPings) := by rw [← hm]; exact List.mem_map_of_mem hx
    rw [he, List.mem_replicate] at this
    obtain ⟨_, h⟩ := this
    cases h
    exact ⟨_, _, _, rfl⟩
  · intro x hx m hin
    have := List.all_eq_true.1 (List.all_eq_true.1 hr x hx) m (by
      simp only [readsIn, List.mem_filterMap]; exact ⟨_, hin, rfl⟩)
    have : m = .pingRequest := by simpa using this
    rw [this]; simp [Malformed]

end Horcrux
