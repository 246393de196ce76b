import Verif.Props.Forgets
import Verif.Props.Services
/-
Property C74: what every orderly end leads to whose state file is behind.
-/
namespace Horcrux
open Spec

section
variable (C : Crypto) (cfg : CosignerCfg) (text : Err → Bytes)

theorem prun_after {ok : Proc → PEv → Prop} {p0 p : Proc} {tr : List (PEv × PObs)} (h : PRun C cfg text ok p0 tr p)
    (es : List PEv) (hok : ∀ p, ∀ e ∈ es, ok p e) :
    ∃ tr', tr'.map (·.1) = es ∧ PRun C cfg text ok p0 (tr ++ tr') (p.after C cfg text es) := by
  induction es generalizing p tr with
  | nil => exact ⟨[], rfl, by simpa [Proc.after] using h⟩
  | cons e es ih =>
    obtain ⟨tr', h1, h2⟩ := ih (h.snoc e (hok _ e (by simp))) (fun p e he => hok p e (by simp [he]))
    refine ⟨(e, (p.step C cfg text e).1) :: tr', by simp [h1], ?_⟩
    simpa [Proc.after, List.append_assoc] using h2

/-- The trap goroutine does not touch the file. -/
theorem after_trap_file (es : List PEv) (p : Proc) (h : ∀ e ∈ es, e = .signal ∨ e = .stop ∨ e = .exit) :
    (p.after C cfg text es).disk.file = p.disk.file := by
  induction es generalizing p with
  | nil => rfl
  | cons e es ih =>
    have h1 : (p.step C cfg text e).2.disk.file = p.disk.file := by
      cases hend : p.ended with
      | some x =>
        rw [step_dead C cfg text hend]
        rcases h e (by simp) with rfl | rfl | rfl <;> rfl
      | none =>
        rw [step_live C cfg text hend]
        rcases h e (by simp) with rfl | rfl | rfl
        · simp only [Proc.live]; split <;> rfl
        · simp only [Proc.live, Proc.stopNext]
          split
          · split
            · rfl
            · split
              · unfold Proc.setService
                split <;> rfl
              · rfl
          · rfl
        · simp only [Proc.live]; split <;> rfl
    have := ih (p.step C cfg text e).2 (fun e he => h e (by simp [he]))
    simp only [Proc.after, List.foldl_cons] at this ⊢
    rw [this, h1]

end

/-- Whenever the process was started again, the file it was started from had come up to every block of which a share
signature had been released. -/
def Spec.StartsCovered (C : Crypto) (cfg : CosignerCfg) (text : Err → Bytes) (p0 : Proc) (tr : List (PEv × PObs)) : Prop :=
  ∀ tr1 o tr2 p1, tr = tr1 ++ (.restart, o) :: tr2 → PRun C cfg text panything p0 tr1 p1 → p1.ended ≠ none →
    ∀ bs r k, (PEv.disk (.op (.sign bs)), PObs.mk [] (some (Out.ok (CosResp.signed r)))) ∈ tr1 → unpackHRST bs = .ok k →
      ¬ p1.disk.file.hrs ≺ k.hrs

/-- No two share signatures for one height, round and step were released over sign bytes that differ in more than the time. -/
def Spec.ProcNoConflicts (tr : List (PEv × PObs)) : Prop :=
  ∀ bs bs' r r' k k', (PEv.disk (.op (.sign bs)), PObs.mk [] (some (Out.ok (CosResp.signed r)))) ∈ tr →
    (PEv.disk (.op (.sign bs')), PObs.mk [] (some (Out.ok (CosResp.signed r')))) ∈ tr →
    unpackHRST bs = .ok k → unpackHRST bs' = .ok k' → k.hrs = k'.hrs → DifferOnlyByTime k.step bs bs'

section
variable (C : Crypto) (cfg : CosignerCfg) (text : Err → Bytes)

theorem prun_any {ok : Proc → PEv → Prop} {p0 p : Proc} {tr : List (PEv × PObs)} (h : PRun C cfg text ok p0 tr p) :
    PRun C cfg text panything p0 tr p := by
  induction h with
  | nil => exact .nil
  | snoc _ e _ ih => exact ih.snoc e trivial

/-- The events determine the state. -/
theorem prun_state {ok : Proc → PEv → Prop} {p0 p : Proc} {tr : List (PEv × PObs)} (h : PRun C cfg text ok p0 tr p) :
    p = p0.after C cfg text (tr.map (·.1)) := by
  induction h with
  | nil => rfl
  | snoc _ e _ ih => simp [Proc.after, List.foldl_append] at ih ⊢; rw [← ih]

/-- What an event does to the cosigner and its file. -/
theorem pstep_disk (p : Proc) (e : PEv) :
    ((p.step C cfg text e).2.disk = p.disk ∧ (p.step C cfg text e).1.answer = none) ∨
    (∃ d, e = .disk d ∧ d ≠ .restart ∧ (p.step C cfg text e).2.disk = (p.disk.step C cfg d).2 ∧
      (p.step C cfg text e).1 = ⟨[], (p.disk.step C cfg d).1⟩) ∨
    (e = .restart ∧ p.ended ≠ none ∧ (p.step C cfg text e).2.disk = DState.boot p.disk.file ∧
      (p.step C cfg text e).1 = .nothing) := by
  cases hend : p.ended with
  | some x =>
    rw [step_dead C cfg text hend]
    cases e with
    | restart => exact .inr (.inr ⟨rfl, by simp, rfl, rfl⟩)
    | _ => exact .inl ⟨rfl, rfl⟩
  | none =>
    rw [step_live C cfg text hend]
    cases e with
    | signal => refine .inl ⟨?_, rfl⟩; simp only [Proc.live]; split <;> rfl
    | stop =>
      refine .inl ⟨?_, rfl⟩
      simp only [Proc.live, Proc.stopNext]
      split
      · split
        · rfl
        · split
          · unfold Proc.setService
            split <;> rfl
          · rfl
      · rfl
    | exit => refine .inl ⟨?_, rfl⟩; simp only [Proc.live]; split <;> rfl
    | loop i le =>
      refine .inl ?_
      simp only [Proc.live]
      split <;> exact ⟨rfl, rfl⟩
    | disk d =>
      by_cases hre : d = .restart
      · exact .inl (by simp [Proc.live, hre, PObs.nothing])
      · exact .inr (.inl ⟨d, rfl, hre, by simp [Proc.live, hre], by simp [Proc.live, hre]⟩)
    | restart => exact .inl ⟨rfl, rfl⟩

/-- A history of the process as one of its cosigner. -/
theorem proc_disk {nodes : Nat} {f : PFile} {p : Proc} {tr : List (PEv × PObs)}
    (hrun : PRun C cfg text panything (Proc.boot nodes (DState.boot f)) tr p)
    (hc : StartsCovered C cfg text (Proc.boot nodes (DState.boot f)) tr) :
    ∃ dtr, DRun C cfg (fun _ _ => True) (DState.boot f) dtr p.disk ∧ CrashesCovered C cfg (DState.boot f) dtr ∧
      ∀ o a, (PEv.disk (.op o), PObs.mk [] (some a)) ∈ tr ↔ (DEv.op o, some a) ∈ dtr := by
  induction hrun with
  | nil => exact ⟨[], .nil, (by intro tr1 a tr2 s1 h; simp at h), fun o a => by simp⟩
  | @snoc tr q hq e he ih =>
    obtain ⟨dtr, hd, hcov, hm⟩ := ih (fun tr1 o tr2 p1 heq => hc tr1 o (tr2 ++ [(e, (q.step C cfg text e).1)]) p1
      (by rw [heq]; simp))
    rcases pstep_disk C cfg text q e with ⟨h1, h2⟩ | ⟨d, rfl, hre, h1, h2⟩ | ⟨rfl, hend, h1, h2⟩
    · refine ⟨dtr, by rw [h1]; exact hd, hcov, fun o a => ?_⟩
      rw [← hm o a]
      simp only [List.mem_append, List.mem_singleton, or_iff_left_iff_imp]
      intro h
      rw [Prod.mk.injEq] at h
      rw [← h.2] at h2
      cases h2
    · refine ⟨dtr ++ [(d, (q.disk.step C cfg d).1)], by rw [h1]; exact hd.snoc d trivial,
        covered_snoc hd hcov (fun h => absurd h hre), fun o a => ?_⟩
      rw [List.mem_append, List.mem_append, hm o a, h2]
      simp
    · refine ⟨dtr ++ [(.restart, none)], by rw [h1]; exact hd.snoc .restart trivial, ?_, fun o a => ?_⟩
      · exact covered_snoc hd hcov (fun _ bs r k hr hu => hc tr _ [] q rfl hq hend bs r k ((hm _ _).2 hr) hu)
      · rw [List.mem_append, List.mem_append, hm o a, h2]
        simp [PObs.nothing]

/-- C74, partial, with the least that is needed: over any number of lives, however they ended, with any scheduling of the
background writes, if the file had come up to everything released whenever the process was started again, then there are no
conflicting share signatures. Missing: starts from a file that is behind, where it is false (`C74_behind_fails`). -/
theorem C74_covered_partial (nodes : Nat) (f : PFile) (p : Proc) (tr : List (PEv × PObs)) (ok : Proc → PEv → Prop)
    (hrun : PRun C cfg text ok (Proc.boot nodes (DState.boot f)) tr p)
    (hc : StartsCovered C cfg text (Proc.boot nodes (DState.boot f)) tr) : ProcNoConflicts tr := by
  obtain ⟨dtr, hd, hcov, hm⟩ := proc_disk C cfg text (prun_any C cfg text hrun) hc
  intro bs bs' r r' k k' h h' hu hu' hk
  simp only [HRST.hrs, HRS.mk.injEq] at hk
  exact C36_covered_partial C cfg f _ dtr hd hcov bs bs' r r' k k' ((hm _ _).1 h) ((hm _ _).1 h') hu hu' hk

/-- A part of a history. -/
theorem prun_before {ok : Proc → PEv → Prop} {p0 p : Proc} {tr : List (PEv × PObs)} (h : PRun C cfg text ok p0 tr p)
    (tr1 tr2 : List (PEv × PObs)) (e : PEv) (o : PObs) (heq : tr = tr1 ++ (e, o) :: tr2) :
    ∃ p1, PRun C cfg text ok p0 tr1 p1 ∧ ok p1 e := by
  induction h generalizing tr2 with
  | nil => simp at heq
  | @snoc tr s h e' he ih =>
    rcases List.eq_nil_or_concat tr2 with rfl | ⟨l, y, rfl⟩
    · obtain ⟨h1, h2⟩ := List.append_inj' heq rfl
      simp only [List.cons.injEq, Prod.mk.injEq, and_true] at h2
      rw [← h1, ← h2.1]
      exact ⟨s, h, he⟩
    · have : tr ++ [(e', (s.step C cfg text e').1)] = (tr1 ++ (e, o) :: l) ++ [y] := by rw [heq]; simp
      exact ih l (List.append_inj' this rfl).1

/-- C74: the condition of `C74_idle_partial` implies that of `C74_covered_partial`. -/
theorem C74_idle_covered (nodes : Nat) (f : PFile) (p : Proc) (tr : List (PEv × PObs))
    (hrun : PRun C cfg text (fun p e => EndsOrderly p e ∧ EndsIdle p e ∧ ProcWritesInOrder p e)
      (Proc.boot nodes (DState.boot f)) tr p) : StartsCovered C cfg text (Proc.boot nodes (DState.boot f)) tr := by
  intro tr1 o tr2 p1 heq hr1 hend bs r k hm hu
  obtain ⟨p2, h2, hok⟩ := prun_before C cfg text hrun tr1 tr2 .restart o heq
  have : p1 = p2 := (prun_state C cfg text hr1).trans (prun_state C cfg text h2).symm
  subst this
  obtain ⟨ha, dtr, hd, hmem⟩ := disk_run C cfg text (fun _ _ h => h) h2
  have hal := ha (by rw [hok.1 rfl]; simp)
  have hd' : DRun C cfg (fun s e => CrashesWhenRecorded s e ∧ WritesInOrder s e) (DState.boot f) dtr p1.disk := by
    refine hd.strengthen (fun tr s e hr he => ⟨?_, he.2⟩)
    intro hre
    obtain ⟨ha, hj⟩ := he.1 hre
    exact idle_related kept_record (fun _ _ h => h.2) hr ha hj
  have hf := idle_related kept_record (fun _ _ h => h.2) hd hal (hok.2.1 rfl)
  have := (dreleased_inv (fun _ _ h => h.1) hd' bs r k (hmem _ _ hm) hu).1
  rw [hf.hrs]
  exact HRS.not_lt.2 this

end

section
variable {C : Crypto} {F G : Type} [Field F] [AddCommGroup G] [Module F G] {L : Lawful C F G}
  {pair : Bytes → Bytes → Prop} {n t : Nat} {cfg : Nat → CosignerCfg} {x : F} {kc : List F} {rsaPub : Nat → Bytes}

/-- C74 (full statement) is false of every cosigner process and every history: whenever the file is below a block (one that
was signed, say, a moment ago), a signal ends the process in an orderly way without waiting for the file, and after a new
start the cosigner signs whatever it is given for that block. -/
theorem C74_behind_fails (hS : Setup C L pair n t cfg x kc rsaPub) (text : Err → Bytes) (p q : Nat) (hp1 : 1 ≤ p) (hp2 : p ≤ n)
    (hq1 : 1 ≤ q) (hq2 : q ≤ n) (hpq : q ≠ p) (nodes : Nat) (f : PFile) (P : Proc) (tr : List (PEv × PObs))
    (hrun : PRun C (cfg p) text EndsOrderly (Proc.boot nodes (DState.boot f)) tr P) (hup : P.ended = none) (k : HRST)
    (bs sec : Bytes) (rnd : Rand) (hu : unpackHRST bs = .ok k) (hf : P.disk.file.hrs ≺ k.hrs)
    (hsec : rnd.secret = some sec) (hlen : sec.length = 32) :
    ∃ j tr' r P', PRun C (cfg p) text EndsOrderly (Proc.boot nodes (DState.boot f)) (tr ++ tr') P' ∧
      tr'.map (·.1) = PEv.signal :: List.replicate j .stop ++ [.exit, .restart,
        .disk (.op (.getPart ⟨q, k.height, k.round, k.step, GoTime.ofUnixNano k.timestamp⟩ rnd)), .disk (.op (.sign bs))] ∧
      (PEv.disk (.op (.sign bs)), PObs.mk [] (some (Out.ok (CosResp.signed r)))) ∈ tr' := by
  obtain ⟨part, s1, r, s2, h1, h2, _⟩ := boot_signs hS hp1 hp2 hq1 hq2 hpq (unpack_time_i64 hu) hu hf hsec hlen
  have hrun0 := prun_any C (cfg p) text hrun
  obtain ⟨j, _, hj⟩ := C74_exits C (cfg p) text nodes _ P tr hrun0 hup
  have hes : ∀ e ∈ PEv.signal :: List.replicate j .stop ++ [.exit], e = .signal ∨ e = .stop ∨ e = .exit := by
    intro e he
    simp only [List.cons_append, List.mem_cons, List.mem_append, List.mem_replicate, List.not_mem_nil, or_false] at he
    rcases he with h | h | h
    · exact .inl h
    · exact .inr (.inl h.2)
    · exact .inr (.inr h)
  have hfile := after_trap_file C (cfg p) text _ P hes
  obtain ⟨tr1, m1, r1⟩ := prun_after C (cfg p) text hrun _ (fun p e he => by
    intro hr
    rcases hes e he with h | h | h <;> rw [h] at hr <;> cases hr)
  revert r1 hj hfile
  generalize P.after C (cfg p) text (PEv.signal :: List.replicate j .stop ++ [.exit]) = P1
  intro hj hfile r1
  have r2 := r1.snoc .restart (fun _ => hj)
  have r3 := r2.snoc (.disk (.op (.getPart ⟨q, k.height, k.round, k.step, GoTime.ofUnixNano k.timestamp⟩ rnd)))
    (fun h => by cases h)
  have r4 := r3.snoc (.disk (.op (.sign bs))) (fun h => by cases h)
  have d1 : P1.step C (cfg p) text .restart = (.nothing, Proc.boot P1.signers.length (DState.boot P.disk.file)) := by
    rw [step_dead C (cfg p) text hj, ← hfile]
    rfl
  simp only [d1] at r4
  have d2 : (Proc.boot P1.signers.length (DState.boot P.disk.file)).step C (cfg p) text
      (.disk (.op (.getPart ⟨q, k.height, k.round, k.step, GoTime.ofUnixNano k.timestamp⟩ rnd))) =
      (⟨[], some (.ok (.part part))⟩,
        { Proc.boot P1.signers.length (DState.boot P.disk.file) with
          disk := ⟨s1, true, P.disk.file, spawn (CState.start P.disk.file.load) s1 []⟩ }) := by
    rw [step_live C (cfg p) text rfl]
    simp [Proc.live, Proc.boot, DState.step, DState.boot, h1]
  simp only [d2] at r4
  rw [step_live C (cfg p) text rfl] at r4
  simp only [Proc.live, reduceCtorEq, if_false, DState.step, Bool.true_eq_false, h2] at r4
  refine ⟨j, tr1 ++ [(.restart, .nothing), (.disk (.op (.getPart ⟨q, k.height, k.round, k.step,
    GoTime.ofUnixNano k.timestamp⟩ rnd)), ⟨[], some (.ok (.part part))⟩), (.disk (.op (.sign bs)), ⟨[], some (.ok (.signed r))⟩)],
    r, _, by simpa only [List.append_assoc, List.cons_append, List.nil_append] using r4, ?_, by simp⟩
  rw [List.map_append, m1]
  simp

/-- C74, exactly: let the process be up, and let every start so far have been from a file that had come up. Then an orderly
end now, with nothing but the trap goroutine scheduled, and a new start lead to no conflicting share signatures, whatever is
asked of the process afterwards, exactly if the file has come up to every block of which a share signature was released. (For
each such block there must be something else to sign.) -/
theorem C74_exact (hS : Setup C L pair n t cfg x kc rsaPub) (hn : 2 ≤ n) (text : Err → Bytes) (p : Nat) (hp1 : 1 ≤ p)
    (hp2 : p ≤ n) (nodes : Nat) (f : PFile) (P : Proc) (tr : List (PEv × PObs))
    (hrun : PRun C (cfg p) text EndsOrderly (Proc.boot nodes (DState.boot f)) tr P) (hup : P.ended = none)
    (hc : StartsCovered C (cfg p) text (Proc.boot nodes (DState.boot f)) tr)
    (hother : ∀ bs r k, (PEv.disk (.op (.sign bs)), PObs.mk [] (some (Out.ok (CosResp.signed r)))) ∈ tr →
      unpackHRST bs = .ok k → ∃ bs' k', unpackHRST bs' = .ok k' ∧ k'.hrs = k.hrs ∧ ¬ DifferOnlyByTime k.step bs bs') :
    (∀ j es tr' P', PRun C (cfg p) text EndsOrderly (Proc.boot nodes (DState.boot f)) (tr ++ tr') P' →
      tr'.map (·.1) = PEv.signal :: List.replicate j .stop ++ .exit :: .restart :: es → PEv.restart ∉ es →
      ProcNoConflicts (tr ++ tr')) ↔
    ∀ bs r k, (PEv.disk (.op (.sign bs)), PObs.mk [] (some (Out.ok (CosResp.signed r)))) ∈ tr → unpackHRST bs = .ok k →
      k.hrs ≼ P.disk.file.hrs := by
  constructor
  · intro h bs r k hm hu
    by_contra hle
    have hf : P.disk.file.hrs ≺ k.hrs := by_contra fun h => hle (HRS.not_lt.1 h)
    obtain ⟨bs', k', hu', hk', hd⟩ := hother bs r k hm hu
    obtain ⟨q, hq1, hq2, hpq⟩ : ∃ q, 1 ≤ q ∧ q ≤ n ∧ q ≠ p := by
      by_cases h : p = 1
      · exact ⟨2, by omega, by omega, by omega⟩
      · exact ⟨1, by omega, by omega, by omega⟩
    obtain ⟨j, tr', r', P', h1, h2, h3⟩ := C74_behind_fails hS text p q hp1 hp2 hq1 hq2 hpq nodes f P tr hrun hup k' bs'
      (List.replicate 32 0) ⟨some (List.replicate 32 0), [], [], []⟩ hu' (by rw [hk']; exact hf) rfl (by simp)
    exact hd (h j _ tr' P' h1 (by simpa using h2) (by simp) bs bs' r r' k k' (List.mem_append_left _ hm)
      (List.mem_append_right _ h3) hu hu' hk'.symm)
  · intro h j es tr' P' hrun' htr' hes
    refine C74_covered_partial C (cfg p) text nodes f P' _ EndsOrderly hrun' ?_
    intro tr1 o tr2 p1 heq hr1 hend bs r k hm hu
    rcases List.append_eq_append_iff.1 heq with ⟨l, h1, h2⟩ | ⟨l, h1, h2⟩
    · -- the new start
      subst h1
      rw [h2] at htr'
      simp only [List.map_append, List.map_cons] at htr'
      have hsplit : l.map (·.1) = PEv.signal :: List.replicate j .stop ++ [.exit] := by
        have e1 : l.map (·.1) ++ PEv.restart :: tr2.map (·.1) =
            (PEv.signal :: List.replicate j .stop ++ [.exit]) ++ PEv.restart :: es := by rw [htr']; simp
        rcases List.append_eq_append_iff.1 e1 with ⟨u, g1, g2⟩ | ⟨u, g1, g2⟩
        · cases u with
          | nil => rw [g1, List.append_nil]
          | cons y u =>
            simp only [List.cons_append, List.cons.injEq] at g2
            have : PEv.restart ∈ PEv.signal :: List.replicate j .stop ++ [.exit] := by rw [g1, ← g2.1]; simp
            simp [List.mem_replicate] at this
        · cases u with
          | nil => rw [g1, List.append_nil]
          | cons y u =>
            simp only [List.cons_append, List.cons.injEq] at g2
            exact absurd (by rw [g2.2]; simp) hes
      have hp : p1 = P.after C (cfg p) text (PEv.signal :: List.replicate j .stop ++ [.exit]) := by
        rw [prun_state C (cfg p) text hr1, List.map_append, hsplit, prun_state C (cfg p) text hrun]
        simp [Proc.after, List.foldl_append]
      have hfile : p1.disk.file = P.disk.file := by
        rw [hp]
        refine after_trap_file C (cfg p) text _ P ?_
        intro e he
        simp only [List.cons_append, List.mem_cons, List.mem_append, List.mem_replicate, List.not_mem_nil, or_false] at he
        rcases he with h | h | h
        · exact .inl h
        · exact .inr (.inl h.2)
        · exact .inr (.inr h)
      rw [hfile]
      rcases List.mem_append.1 hm with hm | hm
      · exact HRS.not_lt.2 (h bs r k hm hu)
      · have := List.mem_map_of_mem (f := (·.1)) hm
        rw [hsplit] at this
        simp [List.mem_replicate] at this
    · cases l with
      | nil =>
        have : tr' = (PEv.restart, o) :: tr2 := by simpa using h2.symm
        rw [this] at htr'
        simp at htr'
      | cons y l =>
        simp only [List.cons_append, List.cons.injEq] at h2
        exact hc tr1 o l p1 (by rw [h1, h2.1]) hr1 hend bs r k hm hu

end

/-- The third cosigner of a real cluster, with two chain nodes, signs, is ended by a signal, and signs something else. -/
example : ∃ tr P r r', PRun ftoy (fcfg 3) noText EndsOrderly (Proc.boot 2 (DState.boot emptyFile)) tr P ∧
    (PEv.disk (.op (.sign b1)), PObs.mk [] (some (Out.ok (CosResp.signed r)))) ∈ tr ∧
    (PEv.disk (.op (.sign b1x)), PObs.mk [] (some (Out.ok (CosResp.signed r')))) ∈ tr := by
  obtain ⟨part, s1, r, s2, h1, h2, _⟩ := boot_signs fsetup (p := 3) (q := 1) (by omega) (by omega) (by omega) (by omega)
    (by omega) (f := emptyFile) (bs := b1) (sec := List.replicate 32 5) (rnd := ⟨some (List.replicate 32 5), [], [], []⟩)
    (by decide) unpack_b1 (by decide) rfl (by simp)
  generalize hreq : (GetPartReq.mk _ _ _ _ _) = req at h1
  generalize hrnd : (Rand.mk _ _ _ _) = rnd at h1
  have r1 := (PRun.nil (C := ftoy) (cfg := fcfg 3) (text := noText) (ok := EndsOrderly)
    (p0 := Proc.boot 2 (DState.boot emptyFile))).snoc
    (.disk (.op (.getPart req rnd))) (fun h => by cases h)
  have r2 := r1.snoc (.disk (.op (.sign b1))) (fun h => by cases h)
  have d2 : (Proc.boot 2 (DState.boot emptyFile)).step ftoy (fcfg 3) noText
      (.disk (.op (.getPart req rnd))) =
      (⟨[], some (.ok (.part part))⟩,
        { Proc.boot 2 (DState.boot emptyFile) with
          disk := ⟨s1, true, emptyFile, spawn (CState.start emptyFile.load) s1 []⟩ }) := by
    rw [step_live ftoy (fcfg 3) noText rfl]
    simp [Proc.live, Proc.boot, DState.step, DState.boot, h1]
  simp only [d2] at r2
  rw [step_live ftoy (fcfg 3) noText rfl] at r2
  simp only [Proc.live, reduceCtorEq, if_false, DState.step, Bool.true_eq_false, h2] at r2
  obtain ⟨j, tr', r', P', h3, _, h4⟩ := C74_behind_fails fsetup noText 3 1 (by omega) (by omega) (by omega) (by omega)
    (by omega) 2 emptyFile _ _ r2 rfl _ b1x (List.replicate 32 5) ⟨some (List.replicate 32 5), [], [], []⟩
    unpack_b1x (show emptyFile.hrs ≺ _ by decide) rfl (by simp)
  exact ⟨_, P', r, r', h3, by simp, List.mem_append_right _ h4⟩

/-- The two lives of `goodEnd` meet the condition. -/
example : ∃ tr p r r', PRun toy toyCfg noText EndsOrderly (Proc.boot 2 (DState.boot emptyFile)) tr p ∧
    StartsCovered toy toyCfg noText (Proc.boot 2 (DState.boot emptyFile)) tr ∧ PEv.restart ∈ tr.map (·.1) ∧
    (PEv.disk (.op (.sign b1)), PObs.mk [] (some (Out.ok (CosResp.signed r)))) ∈ tr ∧
    (PEv.disk (.op (.sign b2)), PObs.mk [] (some (Out.ok (CosResp.signed r')))) ∈ tr := by
  have hr := pexec_run endIdleB_spec (PRun.nil (C := toy) (cfg := toyCfg) (text := noText)
    (p0 := Proc.boot 2 (DState.boot emptyFile))) goodEnd (by decide +kernel)
  have hr' := pexec_run orderlyB_spec (PRun.nil (C := toy) (cfg := toyCfg) (text := noText)
    (p0 := Proc.boot 2 (DState.boot emptyFile))) goodEnd (by decide +kernel)
  obtain ⟨r, h1⟩ := psignedB_spec (tr := (pexec toy toyCfg noText (Proc.boot 2 (DState.boot emptyFile)) [] goodEnd).1)
    (bs := b1) (by decide +kernel)
  obtain ⟨r', h2⟩ := psignedB_spec (tr := (pexec toy toyCfg noText (Proc.boot 2 (DState.boot emptyFile)) [] goodEnd).1)
    (bs := b2) (by decide +kernel)
  have hre : ((pexec toy toyCfg noText (Proc.boot 2 (DState.boot emptyFile)) [] goodEnd).1.map (·.1)).any PEv.isRestart = true := by
    decide +kernel
  obtain ⟨e, he, h3⟩ := List.any_eq_true.1 hre
  have : e = .restart := by cases e <;> simp_all [PEv.isRestart]
  subst this
  exact ⟨_, _, r, r', hr', C74_idle_covered toy toyCfg noText 2 _ _ _ hr, he, h1, h2⟩

/-- The conditions of `C74_exact`, with a file that is behind. -/
example : ∃ tr P, PRun ftoy (fcfg 3) noText EndsOrderly (Proc.boot 2 (DState.boot emptyFile)) tr P ∧ P.ended = none ∧
    StartsCovered ftoy (fcfg 3) noText (Proc.boot 2 (DState.boot emptyFile)) tr ∧
    (∀ bs r k, (PEv.disk (.op (.sign bs)), PObs.mk [] (some (Out.ok (CosResp.signed r)))) ∈ tr →
      unpackHRST bs = .ok k → ∃ bs' k', unpackHRST bs' = .ok k' ∧ k'.hrs = k.hrs ∧ ¬ DifferOnlyByTime k.step bs bs') ∧
    ∃ bs r k, (PEv.disk (.op (.sign bs)), PObs.mk [] (some (Out.ok (CosResp.signed r)))) ∈ tr ∧ unpackHRST bs = .ok k ∧
      ¬ k.hrs ≼ P.disk.file.hrs := by
  obtain ⟨part, s1, r, s2, h1, h2, _⟩ := boot_signs fsetup (p := 3) (q := 1) (by omega) (by omega) (by omega) (by omega)
    (by omega) (f := emptyFile) (bs := b1) (sec := List.replicate 32 5) (rnd := ⟨some (List.replicate 32 5), [], [], []⟩)
    (by decide) unpack_b1 (by decide) rfl (by simp)
  generalize hreq : (GetPartReq.mk _ _ _ _ _) = req at h1
  generalize hrnd : (Rand.mk _ _ _ _) = rnd at h1
  have r1 := (PRun.nil (C := ftoy) (cfg := fcfg 3) (text := noText) (ok := EndsOrderly)
    (p0 := Proc.boot 2 (DState.boot emptyFile))).snoc
    (.disk (.op (.getPart req rnd))) (fun h => by cases h)
  have r2 := r1.snoc (.disk (.op (.sign b1))) (fun h => by cases h)
  have d2 : (Proc.boot 2 (DState.boot emptyFile)).step ftoy (fcfg 3) noText
      (.disk (.op (.getPart req rnd))) =
      (⟨[], some (.ok (.part part))⟩,
        { Proc.boot 2 (DState.boot emptyFile) with
          disk := ⟨s1, true, emptyFile, spawn (CState.start emptyFile.load) s1 []⟩ }) := by
    rw [step_live ftoy (fcfg 3) noText rfl]
    simp [Proc.live, Proc.boot, DState.step, DState.boot, h1]
  simp only [d2] at r2
  rw [step_live ftoy (fcfg 3) noText rfl] at r2
  simp only [Proc.live, reduceCtorEq, if_false, DState.step, Bool.true_eq_false, h2, List.nil_append, List.cons_append] at r2
  refine ⟨_, _, r2, rfl, ?_, fun bs r k hm hu => ?_, b1, r, _, by simp, unpack_b1, ?_⟩
  · intro tr1 o tr2 p1 heq
    have : (PEv.restart, o) ∈ tr1 ++ (PEv.restart, o) :: tr2 := by simp
    rw [← heq] at this
    simp at this
  · have hb : bs = b1 := by
      simp only [List.mem_cons, Prod.mk.injEq, PEv.disk.injEq, DEv.op.injEq, reduceCtorEq, CosOp.sign.injEq,
        List.not_mem_nil, or_false, false_and, false_or] at hm
      exact hm.1
    subst hb
    rw [unpack_b1] at hu
    simp only [Out.ok.injEq] at hu
    subst hu
    refine ⟨b1x, _, unpack_b1x, rfl, fun h => ?_⟩
    have hn : onlyDifferByTimestamp 3 b1 b1x ≠ none := by decide +kernel
    exact hn ((onlyDiffer_iff 3 b1 b1x).2 h)
  · show ¬ _ ≼ emptyFile.hrs
    simp only [emptyFile, PFile.hrs, HRST.hrs]
    decide

end Horcrux
