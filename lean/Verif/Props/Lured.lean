import Verif.Props.Unit
import Verif.Props.CrashNeeded
/-
Properties C36 and C66: a chain node can bring about the crashes after which a cosigner, and then the cluster, signs again.
-/
namespace Horcrux
open Spec

/-- What a history of a process says of the cosigner with its file: its events, the answers, and the new starts. -/
def Spec.diskPart (tr : List (PEv × PObs)) : List (DEv × Option (Out CosResp)) :=
  tr.filterMap fun x =>
    match x.1 with
    | .disk e => some (e, x.2.answer)
    | .restart => some (.restart, none)
    | _ => none

section
variable (C : Crypto) (cfg : CosignerCfg) (text : Err → Bytes)

theorem diskPart_append (a b : List (PEv × PObs)) : diskPart (a ++ b) = diskPart a ++ diskPart b := by
  simp [diskPart, List.filterMap_append]

theorem after_loop_length (i k : Nat) (env : LEnv) (p : Proc) :
    (p.after C cfg text (List.replicate k (.loop i env))).signers.length = p.signers.length := by
  induction k generalizing p with
  | zero => rfl
  | succ k ih =>
    have h1 : (p.step C cfg text (.loop i env)).2.signers.length = p.signers.length := by
      cases hend : p.ended with
      | some x => rw [step_dead C cfg text hend]; rfl
      | none =>
        rw [step_live C cfg text hend]
        simp only [Proc.live]
        split
        · rfl
        · simp
    have := ih (p.step C cfg text (.loop i env)).2
    simp only [Proc.after, List.replicate_succ, List.foldl_cons] at this ⊢
    rw [this, h1]

/-- Five steps of a lured loop from its beginning. -/
theorem lured_five {i : Nat} {stream : Bytes} {m : PMsg} {rest : Bytes} {p : Proc} {v : Svc}
    (hm : readMsg stream = some (m, rest)) (hbad : Malformed m) {env : LEnv} (hd : env.dial = some stream)
    (hpv : ∃ chainID key sb, env.pv = .threshold chainID key sb) (hup : p.ended = none)
    (hi : p.signers[i]? = some (v, .top none)) (hv : v.running = true) :
    (p.after C cfg text (List.replicate 5 (.loop i env))).ended = some .crashed := by
  obtain ⟨chainID, key, sb, hpv⟩ := hpv
  have hh : handleRequest text env.pv m = none := by
    rw [hpv]; exact (threshold_panic_iff text chainID key sb m (readMsg_timesValid hm)).2 hbad
  have s0 : ∀ (p : Proc) (v : Svc), p.ended = none → p.signers[i]? = some (v, .handle m rest) → v.running = true →
      (p.after C cfg text (List.replicate 1 (.loop i env))).ended = some .crashed := by
    intro p v hup hi hv
    show (p.step C cfg text (.loop i env)).2.ended = _
    rw [loop_step_live C cfg text env hup hi hv]
    simp [lstep, hh]
  have s1 := lured_chain C cfg text (pc := .read stream) (by simp [lstep, hm]) (by simp) s0
  have s2 := lured_chain C cfg text (pc := .check stream) (by simp [lstep]) (by simp) s1
  have s3 := lured_chain C cfg text (pc := .dial) (by simp [lstep, hd]) (by simp) s2
  have s4 := lured_chain C cfg text (pc := .top none) (by simp [lstep]) (by simp) s3
  exact s4 p v hup hi hv

/-- The loops do not touch the file. -/
theorem after_loop_file (i k : Nat) (env : LEnv) (p : Proc) :
    (p.after C cfg text (List.replicate k (.loop i env))).disk = p.disk := by
  induction k generalizing p with
  | zero => rfl
  | succ k ih =>
    have h1 : (p.step C cfg text (.loop i env)).2.disk = p.disk := by
      cases hend : p.ended with
      | some x => rw [step_dead C cfg text hend]; rfl
      | none =>
        rw [step_live C cfg text hend]
        simp only [Proc.live]
        split <;> rfl
    have := ih (p.step C cfg text (.loop i env)).2
    simp only [Proc.after, List.replicate_succ, List.foldl_cons] at this ⊢
    rw [this, h1]

/-- A process with a fresh loop for the node `i`, up and not asked to end, or ended by a panic. -/
def Simulates (nodes i : Nat) (p : Proc) (s : DState) : Prop :=
  p.disk = s ∧ p.signers.length = nodes ∧ p.signers[i]? = some (Svc.fresh, LPc.top none) ∧
  ((s.alive = true ∧ p.ended = none) ∨ (s.alive = false ∧ s.jobs = [] ∧ p.ended = some .crashed))

/-- C36: a chain node can bring about every crash. Whatever history of a cosigner with its state file one takes, with any
crashes at any moments, there is a history of a process that runs as the documented service, that nobody asks to end and
one of whose chain nodes always sends the same malformed request first, in which the cosigner and its file do the same. -/
theorem C36_node_any (nodes i : Nat) (hi : i < nodes) (stream rest : Bytes) (m : PMsg)
    (hm : readMsg stream = some (m, rest)) (hbad : Malformed m) (f : PFile) (s : DState)
    (tr : List (DEv × Option (Out CosResp))) (hrun : DRun C cfg (fun _ _ => True) (DState.boot f) tr s) :
    ∃ tr' P, PRun C cfg text (fun q e => Supervised q e ∧ AlwaysSends i stream e) (Proc.boot nodes (DState.boot f)) tr' P ∧
      P.disk = s ∧ diskPart tr' = tr ∧ (∀ x ∈ tr', x.1 ≠ .signal) ∧
      ((∀ x ∈ tr, x.1 ≠ .restart) → ∀ x ∈ tr', ∀ j env, x.1 ≠ .loop j env) := by
  suffices h : ∃ tr' P, PRun C cfg text (fun q e => Supervised q e ∧ AlwaysSends i stream e)
      (Proc.boot nodes (DState.boot f)) tr' P ∧ Simulates nodes i P s ∧ diskPart tr' = tr ∧ (∀ x ∈ tr', x.1 ≠ .signal) ∧
      ((∀ x ∈ tr, x.1 ≠ .restart) → ∀ x ∈ tr', ∀ j env, x.1 ≠ .loop j env) by
    obtain ⟨tr', P, h1, h2, h3, h4⟩ := h
    exact ⟨tr', P, h1, h2.1, h3, h4⟩
  have hboot : ∀ g, Simulates nodes i (Proc.boot nodes (DState.boot g)) (DState.boot g) := fun g =>
    ⟨rfl, by simp [Proc.boot], by simp [Proc.boot, hi], .inl ⟨rfl, rfl⟩⟩
  induction hrun with
  | nil => exact ⟨[], _, .nil, hboot f, rfl, (fun x hx => by cases hx), fun _ x hx => by cases hx⟩
  | @snoc tr s _ e _ ih =>
    obtain ⟨tr', P, h1, ⟨hd, hl, hs, hst⟩, h3, h4, h5⟩ := ih
    have hext : ∀ (y : PEv × PObs) (z : DEv × Option (Out CosResp)), diskPart [y] = [z] → diskPart (tr' ++ [y]) = tr ++ [z] := by
      intro y z hy
      rw [diskPart_append, h3, hy]
    have hns : ∀ y : PEv × PObs, y.1 ≠ .signal → ∀ x ∈ tr' ++ [y], x.1 ≠ .signal := by
      intro y hy x hx
      rcases List.mem_append.1 hx with hx | hx
      · exact h4 x hx
      · rw [List.mem_singleton.1 hx]; exact hy
    have hnl : ∀ y : PEv × PObs, (∀ j env, y.1 ≠ .loop j env) → ∀ z : DEv × Option (Out CosResp),
        (∀ x ∈ tr ++ [z], x.1 ≠ .restart) → ∀ x ∈ tr' ++ [y], ∀ j env, x.1 ≠ .loop j env := by
      intro y hy z hz x hx
      rcases List.mem_append.1 hx with hx | hx
      · exact h5 (fun w hw => hz w (List.mem_append_left _ hw)) x hx
      · rw [List.mem_singleton.1 hx]; exact hy
    by_cases hre : e = .restart
    · subst hre
      rcases hst with ⟨_, hup⟩ | ⟨_, _, hdown⟩
      · -- ended by the chain node
        have hsend : ∀ q, ∀ e ∈ List.replicate 5 (PEv.loop i ⟨some stream, .threshold [] [] (fun _ => (none, ⟨0, 0⟩, none)), true⟩),
            Supervised q e ∧ AlwaysSends i stream e := by
          intro q e he
          rw [List.mem_replicate] at he
          rw [he.2]
          refine ⟨(fun h => by cases h), fun env' h => ?_⟩
          cases h
          exact ⟨.inr rfl, _, _, _, rfl⟩
        have hdead := lured_five C cfg text (p := P) (v := Svc.fresh) hm hbad
          (env := ⟨some stream, .threshold [] [] (fun _ => (none, ⟨0, 0⟩, none)), true⟩) rfl ⟨_, _, _, rfl⟩ hup hs rfl
        have hfile := after_loop_file C cfg text i 5 ⟨some stream, .threshold [] [] (fun _ => (none, ⟨0, 0⟩, none)), true⟩ P
        have hlen := after_loop_length C cfg text i 5 ⟨some stream, .threshold [] [] (fun _ => (none, ⟨0, 0⟩, none)), true⟩ P
        obtain ⟨tr1, m1, r1⟩ := prun_after C cfg text h1 _ hsend
        have r2 := r1.snoc .restart ⟨fun _ => ⟨_, hdead, rfl⟩, fun _ h => by cases h⟩
        refine ⟨_, _, r2, ?_, ?_, ?_, fun h => absurd rfl (h (.restart, none) (by simp [DState.step]))⟩
        · rw [step_dead C cfg text hdead]
          simp only [Proc.dead, hfile, hlen, hl, hd]
          exact hboot _
        · have : diskPart tr1 = [] := by
            have hall : ∀ x ∈ tr1, ∃ env, x.1 = .loop i env := by
              intro x hx
              have := List.mem_map_of_mem (f := (·.1)) hx
              rw [m1, List.mem_replicate] at this
              exact ⟨_, this.2⟩
            unfold diskPart
            rw [List.filterMap_eq_nil_iff]
            intro x hx
            obtain ⟨env, he⟩ := hall x hx
            rw [he]
          rw [diskPart_append, diskPart_append, h3, this, List.append_nil]
          rfl
        · intro x hx
          rcases List.mem_append.1 hx with hx | hx
          · rcases List.mem_append.1 hx with hx | hx
            · exact h4 x hx
            · have := List.mem_map_of_mem (f := (·.1)) hx
              rw [m1, List.mem_replicate] at this
              rw [this.2]; simp
          · rw [List.mem_singleton.1 hx]; simp
      · have r2 := h1.snoc .restart ⟨fun _ => ⟨_, hdown, rfl⟩, fun _ h => by cases h⟩
        refine ⟨_, _, r2, ?_, hext _ _ rfl, hns _ (by simp), hnl _ (by simp) _⟩
        rw [step_dead C cfg text hdown]
        simp only [Proc.dead, hl, hd]
        exact hboot _
    · have r2 := h1.snoc (.disk e) ⟨(fun h => by cases h), fun _ h => by cases h⟩
      rcases hst with ⟨hal, hup⟩ | ⟨hal, hj, hdown⟩
      · have hstep : P.step C cfg text (.disk e) = (⟨[], (s.step C cfg e).1⟩,
            { P with
              disk := (s.step C cfg e).2
              ended := if (s.step C cfg e).2.alive then none else some .crashed }) := by
          rw [step_live C cfg text hup]
          simp only [Proc.live, if_neg hre, hd]
        rw [hstep] at r2
        refine ⟨_, _, r2, ⟨rfl, hl, hs, ?_⟩, hext _ _ rfl, hns _ (by simp), hnl _ (by simp) _⟩
        cases hal' : (s.step C cfg e).2.alive with
        | true => exact .inl ⟨rfl, by simp⟩
        | false =>
          refine .inr ⟨rfl, ?_, by simp⟩
          cases e with
          | restart => exact absurd rfl hre
          | marshal j => simp only [DState.step] at hal'; split at hal' <;> simp [hal] at hal'
          | write j => simp only [DState.step] at hal'; split at hal' <;> simp [hal] at hal'
          | op o =>
            have hno : ¬ s.alive = false := by simp [hal]
            simp only [DState.step, if_neg hno] at hal' ⊢
            split at hal'
            · rfl
            · simp [hal] at hal'
            · simp [hal] at hal'
      · have hsame : s.step C cfg e = (none, s) := by
          cases e with
          | restart => exact absurd rfl hre
          | marshal j => simp [DState.step, hj]
          | write j => simp [DState.step, hj]
          | op o => simp [DState.step, hal]
        rw [step_dead C cfg text hdown] at r2
        rw [hsame]
        exact ⟨_, _, r2, ⟨hd, hl, hs, .inr ⟨hal, hj, hdown⟩⟩, hext _ _ rfl, hns _ (by simp), hnl _ (by simp) _⟩

end

section
variable {C : Crypto} {F G : Type} [Field F] [AddCommGroup G] [Module F G] {L : Lawful C F G}
  {pair : Bytes → Bytes → Prop} {n t : Nat} {cfg : Nat → CosignerCfg} {x : F} {kc : List F} {rsaPub : Nat → Bytes}

/-- C36 (full statement) is false, and it takes no more than a chain node: let a cosigner process run as the documented
service, in any history. Whenever its file is below a block (one that was signed, say, a moment ago), a chain node that
answers the next connection with a malformed request ends the process within five steps of its loop, systemd starts it
again, and the cosigner signs whatever it is given for that block. -/
theorem C36_node_fails (hS : Setup C L pair n t cfg x kc rsaPub) (text : Err → Bytes) (p q : Nat) (hp1 : 1 ≤ p) (hp2 : p ≤ n)
    (hq1 : 1 ≤ q) (hq2 : q ≤ n) (hpq : q ≠ p) (nodes i : Nat) (hi : i < nodes) (stream rest : Bytes) (m : PMsg)
    (hm : readMsg stream = some (m, rest)) (hbad : Malformed m) (env : LEnv) (hd : env.dial = some stream)
    (hpv : ∃ chainID key sb, env.pv = .threshold chainID key sb) (f : PFile) (P : Proc) (tr : List (PEv × PObs))
    (hrun : PRun C (cfg p) text (fun q e => Supervised q e ∧ AlwaysSends i stream e) (Proc.boot nodes (DState.boot f)) tr P)
    (hup : P.ended = none) (hask : ¬ AskedSinceStart tr) (k : HRST)
    (bs sec : Bytes) (rnd : Rand) (hu : unpackHRST bs = .ok k) (hf : P.disk.file.hrs ≺ k.hrs)
    (hsec : rnd.secret = some sec) (hlen : sec.length = 32) :
    ∃ j tr' r P', j < 5 ∧
      PRun C (cfg p) text (fun q e => Supervised q e ∧ AlwaysSends i stream e) (Proc.boot nodes (DState.boot f))
        (tr ++ tr') P' ∧
      tr'.map (·.1) = List.replicate (j + 1) (.loop i env) ++ [.restart,
        .disk (.op (.getPart ⟨q, k.height, k.round, k.step, GoTime.ofUnixNano k.timestamp⟩ rnd)), .disk (.op (.sign bs))] ∧
      (PEv.disk (.op (.sign bs)), PObs.mk [] (some (Out.ok (CosResp.signed r)))) ∈ tr' := by
  obtain ⟨part, s1, r, s2, h1, h2, _⟩ := boot_signs hS hp1 hp2 hq1 hq2 hpq (unpack_time_i64 hu) hu hf hsec hlen
  obtain ⟨j, hj5, hj⟩ := (C126_fails C (cfg p) text nodes i hi _ stream rest m hm hbad P tr hrun).2 env hd hpv hup hask
  have hfile : (P.after C (cfg p) text (List.replicate (j + 1) (.loop i env))).disk.file = P.disk.file := by
    rw [after_loop_file]
  obtain ⟨tr1, m1, r1⟩ := prun_after C (cfg p) text hrun (List.replicate (j + 1) (.loop i env)) (fun p e he => by
    rw [List.mem_replicate] at he
    rw [he.2]
    refine ⟨(fun h => by cases h), fun env' h => ?_⟩
    cases h
    exact ⟨.inr hd, hpv⟩)
  revert r1 hj hfile
  generalize P.after C (cfg p) text (List.replicate (j + 1) (.loop i env)) = P1
  intro hj hfile r1
  have r2 := r1.snoc .restart ⟨fun _ => ⟨_, hj, rfl⟩, fun _ h => by cases h⟩
  have r3 := r2.snoc (.disk (.op (.getPart ⟨q, k.height, k.round, k.step, GoTime.ofUnixNano k.timestamp⟩ rnd)))
    ⟨(fun h => by cases h), fun _ h => by cases h⟩
  have r4 := r3.snoc (.disk (.op (.sign bs))) ⟨(fun h => by cases h), fun _ h => by cases h⟩
  have d1 : P1.step C (cfg p) text .restart = (.nothing, Proc.boot P1.signers.length (DState.boot P.disk.file)) := by
    rw [step_dead C (cfg p) text hj, ← hfile]
    rfl
  simp only [d1] at r4
  have d2 : (Proc.boot P1.signers.length (DState.boot P.disk.file)).step C (cfg p) text
      (.disk (.op (.getPart ⟨q, k.height, k.round, k.step, GoTime.ofUnixNano k.timestamp⟩ rnd))) =
      (⟨[], some (.ok (.part part))⟩,
        { Proc.boot P1.signers.length (DState.boot P.disk.file) with
          disk := ⟨s1, true, P.disk.file, spawn (CState.start P.disk.file.load) s1 []⟩ }) := by
    rw [step_live C (cfg p) text rfl]
    simp [Proc.live, Proc.boot, DState.step, DState.boot, h1]
  simp only [d2] at r4
  rw [step_live C (cfg p) text rfl] at r4
  simp only [Proc.live, reduceCtorEq, if_false, DState.step, Bool.true_eq_false, h2] at r4
  refine ⟨j, tr1 ++ [(.restart, .nothing), (.disk (.op (.getPart ⟨q, k.height, k.round, k.step,
    GoTime.ofUnixNano k.timestamp⟩ rnd)), ⟨[], some (.ok (.part part))⟩), (.disk (.op (.sign bs)), ⟨[], some (.ok (.signed r))⟩)],
    r, _, hj5, by simpa only [List.append_assoc, List.cons_append, List.nil_append] using r4, ?_, by simp⟩
  rw [List.map_append, m1]
  simp

/-- C66 (full statement) is false, and it takes no more than malformed requests: in every correctly dealt cluster with
`2t ≤ n + f` whose cosigners run as the documented service, `f` chain nodes, one of each of `f` cosigners, are enough to bring
about full signatures, which verify, over any two sign bytes for the same height, round and step above the state files. In
that history nobody is asked to end, nothing else ends, and all that these chain nodes send is one malformed request. -/
theorem C66_node_fails (hS : Setup C L pair n t cfg x kc rsaPub) (hn : 2 ≤ n) (text : Err → Bytes) (f : Nat)
    (hf : 2 * t ≤ n + f) (file : Nat → PFile) (bs bs' : Bytes) (k k' : HRST) (hu : unpackHRST bs = .ok k)
    (hu' : unpackHRST bs' = .ok k') (hsame : k.height = k'.height ∧ k.round = k'.round ∧ k.step = k'.step)
    (hlow : ∀ p, 1 ≤ p → p ≤ n → (file p).hrs ≺ k.hrs) (nodes i : Nat) (hi : i < nodes) (stream rest : Bytes) (m : PMsg)
    (hm : readMsg stream = some (m, rest)) (hbad : Malformed m) :
    ∃ (faulty : Finset Nat) (tr : List LivesEv) (c : Nat → DState) (sig sig' : Bytes), faulty.card ≤ f ∧
      Lives C cfg (fun _ _ _ => True) (fun i => DState.boot (file i)) tr c ∧
      FullSignatureEver C n t ∅ tr (L.pt (x • L.B)) bs sig ∧ FullSignatureEver C n t ∅ tr (L.pt (x • L.B)) bs' sig' ∧
      C.verify (L.pt (x • L.B)) bs sig = true ∧ C.verify (L.pt (x • L.B)) bs' sig' = true ∧
      ∀ p, ∃ trP P, PRun C (cfg p) text (fun q e => Supervised q e ∧ AlwaysSends i stream e)
          (Proc.boot nodes (DState.boot (file p))) trP P ∧ P.disk = c p ∧ diskPart trP = ofNode p tr ∧
        (∀ x ∈ trP, x.1 ≠ .signal) ∧ (p ∉ faulty → ∀ x ∈ trP, x.1 ≠ .restart ∧ ∀ j env, x.1 ≠ .loop j env) := by
  obtain ⟨faulty, tr, c, sig, sig', h1, h2, h3, _, h5, h6, h7, h8⟩ :=
    C66_needed hS hn f hf file bs bs' k k' hu hu' hsame hlow
  refine ⟨faulty, tr, c, sig, sig', h1, h2, h5, h6, h7, h8, fun p => ?_⟩
  obtain ⟨trP, P, g1, g2, g3, g4, g5⟩ := C36_node_any C (cfg p) text nodes i hi stream rest m hm hbad (file p) (c p)
    (ofNode p tr) (lives_proj h2 p)
  refine ⟨trP, P, g1, g2, g3, g4, fun hp => ?_⟩
  have hno : ∀ x ∈ ofNode p tr, x.1 ≠ .restart := by
    intro x hx hr
    simp only [ofNode, List.mem_map, List.mem_filter, decide_eq_true_eq] at hx
    obtain ⟨e, ⟨he, hep⟩, rfl⟩ := hx
    exact hp (hep ▸ h3 e he hr)
  intro y hy
  refine ⟨fun hr => ?_, g5 hno y hy⟩
  have : (DEv.restart, none) ∈ diskPart trP := by
    unfold diskPart
    exact List.mem_filterMap.2 ⟨y, hy, by rw [hr]⟩
  rw [g3] at this
  exact hno _ this rfl

end

/-- The third cosigner of a real cluster, with two chain nodes, signs; the first chain node ends it with a vote request
without a vote; systemd starts it again; and it signs something else for the same height, round and step. -/
example : ∃ tr P r r', PRun ftoy (fcfg 3) noText (fun q e => Supervised q e ∧ AlwaysSends 0 [2, 0x1a, 0] e)
      (Proc.boot 2 (DState.boot emptyFile)) tr P ∧
    (PEv.disk (.op (.sign b1)), PObs.mk [] (some (Out.ok (CosResp.signed r)))) ∈ tr ∧
    (PEv.disk (.op (.sign b1x)), PObs.mk [] (some (Out.ok (CosResp.signed r')))) ∈ tr ∧ ¬ AskedSinceStart tr := by
  obtain ⟨part, s1, r, s2, h1, h2, _⟩ := boot_signs fsetup (p := 3) (q := 1) (by omega) (by omega) (by omega) (by omega)
    (by omega) (f := emptyFile) (bs := b1) (sec := List.replicate 32 5) (rnd := ⟨some (List.replicate 32 5), [], [], []⟩)
    (by decide) unpack_b1 (by decide) rfl (by simp)
  generalize hreq : (GetPartReq.mk _ _ _ _ _) = req at h1
  generalize hrnd : (Rand.mk _ _ _ _) = rnd at h1
  have r1 := (PRun.nil (C := ftoy) (cfg := fcfg 3) (text := noText)
    (ok := fun q e => Supervised q e ∧ AlwaysSends 0 [2, 0x1a, 0] e) (p0 := Proc.boot 2 (DState.boot emptyFile))).snoc
    (.disk (.op (.getPart req rnd))) ⟨(fun h => by cases h), fun _ h => by cases h⟩
  have r2 := r1.snoc (.disk (.op (.sign b1))) ⟨(fun h => by cases h), fun _ h => by cases h⟩
  have d2 : (Proc.boot 2 (DState.boot emptyFile)).step ftoy (fcfg 3) noText
      (.disk (.op (.getPart req rnd))) =
      (⟨[], some (.ok (.part part))⟩,
        { Proc.boot 2 (DState.boot emptyFile) with
          disk := ⟨s1, true, emptyFile, spawn (CState.start emptyFile.load) s1 []⟩ }) := by
    rw [step_live ftoy (fcfg 3) noText rfl]
    simp [Proc.live, Proc.boot, DState.step, DState.boot, h1]
  simp only [d2] at r2
  rw [step_live ftoy (fcfg 3) noText rfl] at r2
  simp only [Proc.live, reduceCtorEq, if_false, DState.step, Bool.true_eq_false, h2] at r2
  obtain ⟨j, tr', r', P', _, h3, hmap, h4⟩ := C36_node_fails fsetup noText 3 1 (by omega) (by omega) (by omega) (by omega)
    (by omega) 2 0 (by omega) [2, 0x1a, 0] [] (.signVoteRequest none []) (by decide +kernel) (by simp [Malformed]) noVote rfl
    ⟨_, _, _, rfl⟩ emptyFile _ _ r2 rfl (by
      rintro ⟨a, o, b, h, _⟩
      have : (PEv.signal, o) ∈ a ++ (PEv.signal, o) :: b := by simp
      rw [← h] at this
      simp at this) _ b1x (List.replicate 32 5) ⟨some (List.replicate 32 5), [], [], []⟩
    unpack_b1x (show emptyFile.hrs ≺ _ by decide) rfl (by simp)
  refine ⟨_, P', r, r', h3, by simp, List.mem_append_right _ h4, ?_⟩
  rintro ⟨a, o, b, h, _⟩
  have : (PEv.signal, o) ∈ a ++ (PEv.signal, o) :: b := by simp
  rw [← h, List.mem_append] at this
  rcases this with hx | hx
  · simp at hx
  · have := List.mem_map_of_mem (f := (·.1)) hx
    rw [hmap] at this
    simp [List.mem_replicate] at this

/-- The 2-of-3 cluster with new state files: one chain node of one cosigner brings both about. -/
example : ∃ (faulty : Finset Nat) (tr : List LivesEv) (c : Nat → DState) (sig sig' : Bytes), faulty.card ≤ 1 ∧
    FullSignatureEver ftoy 3 2 ∅ tr (ftoyLawful.pt ((42 : ZMod 257) • ftoyLawful.B)) b1 sig ∧
    FullSignatureEver ftoy 3 2 ∅ tr (ftoyLawful.pt ((42 : ZMod 257) • ftoyLawful.B)) b1x sig' ∧ ¬ DifferOnlyByTime 3 b1 b1x ∧
    ∀ p, ∃ trP P, PRun ftoy (fcfg p) noText (fun q e => Supervised q e ∧ AlwaysSends 0 [2, 0x1a, 0] e)
      (Proc.boot 1 (DState.boot emptyFile)) trP P ∧ P.disk = c p ∧ diskPart trP = ofNode p tr := by
  obtain ⟨fa, tr, c, sig, sig', h1, _, h3, h4, _, _, h7⟩ := C66_node_fails fsetup (by decide) noText 1 (by decide)
    (fun _ => emptyFile) b1 b1x _ _ unpack_b1 unpack_b1x ⟨rfl, rfl, rfl⟩ (fun _ _ _ => by decide) 1 0 (by decide)
    [2, 0x1a, 0] [] (.signVoteRequest none []) (by decide +kernel) (by simp [Malformed])
  refine ⟨fa, tr, c, sig, sig', h1, h3, h4, fun hd => ?_, fun p => ?_⟩
  · have hn : onlyDifferByTimestamp 3 b1 b1x ≠ none := by decide +kernel
    exact hn ((onlyDiffer_iff 3 b1 b1x).2 hd)
  · obtain ⟨trP, P, g1, g2, g3, _⟩ := h7 p
    exact ⟨trP, P, g1, g2, g3⟩

end Horcrux
