import Verif.Spec.Program
import Verif.Props.FS
import Verif.Props.Init
/-
Properties C107, C108: commands without a usable configuration, and the file the configuration is in.
-/
namespace Horcrux
open Spec

/-! ### Arguments -/

theorem nodesArg_iff (lib : Lib) (arg : Str) : (∃ ns, chainNodesFromArg lib arg = .ok ns) ↔ NodesArg lib.urlOk arg := by
  have h1 : (∃ ns, chainNodesFromArg lib arg = .ok ns) ↔ validateChainNodes lib (splitOn comma arg) = .ok () := by
    unfold chainNodesFromArg parseChainNodes
    cases validateChainNodes lib (splitOn comma arg) with
    | ok u => cases u; simp
    | error e => simp
  rw [h1, validateChainNodes_iff]
  constructor
  · intro h
    have hne := splitOn_ne_nil comma arg
    refine ⟨(splitOn comma arg).dropLast, (splitOn comma arg).getLast hne, ?_, ?_, ?_⟩
    · rw [List.dropLast_append_getLast hne]; exact (join_splitOn comma arg).symm
    · rw [List.dropLast_append_getLast hne]; exact splitOn_pieces comma arg
    · exact h _ (by rw [List.getLast?_eq_getLast_of_ne_nil hne]; rfl)
  · rintro ⟨nodes, last, rfl, hp, hu⟩
    rw [show comma = 44 from rfl, splitOn_join 44 _ (by simp) hp]
    simpa using hu

theorem peersArg_iff (arg : Str) : (∃ ps, peersFromFlag arg = .ok ps) ↔ PeersArg arg := by
  simp only [C53_accepted_iff]
  unfold pieces
  constructor
  · rintro ⟨ps, h⟩
    have key : ∀ (l : List Str) (ps : List CosignerPeer), (∀ p ∈ l, (44 : UInt8) ∉ p) →
        List.Forall₂ (fun t p => ∃ num, t = p.p2pAddr ++ 124 :: num ∧ (124 : UInt8) ∉ p.p2pAddr ∧ (124 : UInt8) ∉ num ∧
          Numeral num p.shareID) l ps →
        ∃ es : List (Bytes × Bytes), l = es.map (fun e => e.1 ++ 124 :: e.2) ∧
          ∀ e ∈ es, (44 : UInt8) ∉ e.1 ∧ (44 : UInt8) ∉ e.2 ∧ (124 : UInt8) ∉ e.1 ∧ (124 : UInt8) ∉ e.2 ∧
            ∃ n, Numeral e.2 n := by
      intro l ps hl hf
      induction hf with
      | nil => exact ⟨[], rfl, by simp⟩
      | @cons a b l ps h _ ih =>
        obtain ⟨num, rfl, h2, h3, h4⟩ := h
        obtain ⟨es, he, hes⟩ := ih fun p hp => hl p (by simp [hp])
        have ha := hl _ (List.mem_cons_self ..)
        simp only [List.mem_append, List.mem_cons, not_or] at ha
        refine ⟨(b.p2pAddr, num) :: es, by rw [List.map_cons, ← he], ?_⟩
        intro e hm
        rcases List.mem_cons.1 hm with rfl | hm
        · exact ⟨ha.1, ha.2.2, h2, h3, _, h4⟩
        · exact hes e hm
    obtain ⟨es, he, hes⟩ := key _ _ (splitOn_pieces 44 arg) h
    refine ⟨es, ?_, ?_, hes⟩
    · rintro rfl
      exact splitOn_ne_nil 44 arg he
    · rw [← he, join_splitOn]
  · rintro ⟨es, hne, rfl, hes⟩
    rw [show comma = 44 from rfl, splitOn_join 44 _ (by simpa using hne)]
    · clear hne
      induction es with
      | nil => exact ⟨[], .nil⟩
      | cons e es ih =>
        obtain ⟨ps, hps⟩ := ih fun e he => hes e (by simp [he])
        obtain ⟨_, _, h3, h4, n, hn⟩ := hes e (by simp)
        exact ⟨⟨n, e.1⟩ :: ps, .cons ⟨e.2, rfl, h3, h4, hn⟩ hps⟩
    · intro p hp
      obtain ⟨e, he, rfl⟩ := List.mem_map.1 hp
      obtain ⟨h1, h2, _⟩ := hes e he
      simp only [List.mem_append, List.mem_cons, not_or]
      exact ⟨h1, by decide, h2⟩

/-! ### C107 -/

section
variable {P : Type} [DecidableEq P] (L : Layout P) (lib : Lib) (e : Around)

theorem homeFound_false (c : Caller) : c.homeFound = false ↔ ∀ d, c.flag = some d → c.dirs d = false := by
  unfold Caller.homeFound
  cases c.flag with
  | none => simp
  | some d => simp

theorem isRunning_false (c : Caller) :
    c.isRunning = false ↔ ∀ p ∈ c.self :: c.others, ¬ [104, 111, 114, 99, 114, 117, 120] <:+: p := by
  unfold Caller.isRunning horcruxName
  rw [List.any_eq_false]
  simp only [decide_eq_true_eq]

/-- An editing command on nothing. -/
theorem runEdit_none (fs : FS P) (home : Str) (c : CfgCmd) :
    (ArgRead lib c → runEdit L lib fs home none c = (.crash, fs)) ∧
    (¬ ArgRead lib c → runEdit L lib fs home none c = (.error, fs)) := by
  cases c with
  | nodesAdd arg =>
    simp only [ArgRead, ← nodesArg_iff, runEdit]
    cases chainNodesFromArg lib arg <;> simp
  | nodesRemove arg =>
    simp only [ArgRead, ← nodesArg_iff, runEdit]
    cases chainNodesFromArg lib arg <;> simp
  | peersAdd arg =>
    simp only [ArgRead, ← peersArg_iff, runEdit]
    cases peersFromFlag arg <;> simp
  | peersRemove arg => simp [ArgRead, runEdit]
  | setShares arg =>
    simp only [ArgRead, ← parseInt_iff, runEdit]
    cases parseInt arg <;> simp

/-- An editing command on a configuration crashes exactly if it is about a section that is not there. -/
theorem run_crash_iff (cfg : Config) (c : CfgCmd) :
    (c.run lib cfg).1 = .crash ↔ cfg.cosigner = none ∧ OnCosigner c ∧ ArgRead lib c := by
  have hfin : ∀ (x : Except CfgErr Config), (CfgCmd.run.finish cfg x).1 ≠ .crash := by
    intro x; cases x <;> simp [CfgCmd.run.finish]
  have hon : ∀ f, (CfgCmd.run.onCosigner cfg f).1 = .crash ↔ cfg.cosigner = none := by
    intro f
    unfold CfgCmd.run.onCosigner
    cases cfg.cosigner with
    | none => simp
    | some c =>
      simp only [reduceCtorEq, iff_false]
      cases f c <;> simp
  cases c with
  | nodesAdd arg => simp [CfgCmd.run, hfin, OnCosigner]
  | nodesRemove arg => simp [CfgCmd.run, hfin, OnCosigner]
  | peersAdd arg =>
    simp only [CfgCmd.run, ArgRead, OnCosigner, ← peersArg_iff, true_and]
    cases peersFromFlag arg with
    | error er => simp
    | ok ps => simp [hon]
  | peersRemove arg => simp [CfgCmd.run, hon, OnCosigner, ArgRead]
  | setShares arg =>
    simp only [CfgCmd.run, ArgRead, OnCosigner, ← parseInt_iff, true_and]
    cases parseInt arg with
    | none => simp
    | some n => simp [hon]

theorem exec_none (fs : FS P) (cmd : ProgCmd) (hn : NeedsConfig cmd) :
    (LooksUp lib e.caller cmd ∧ (∀ args, cmd ≠ .elect args) → cmd.exec L lib e none fs = (.crash, fs)) ∧
    (¬ (LooksUp lib e.caller cmd ∧ (∀ args, cmd ≠ .elect args)) → cmd.exec L lib e none fs = (.error, fs)) := by
  cases cmd with
  | init a d => exact absurd hn id
  | edit c =>
    have := runEdit_none L lib fs e.caller.home c
    simpa [LooksUp, ProgCmd.exec] using this
  | chainIDSet new => simp [LooksUp, ProgCmd.exec]
  | stateShow =>
    simp only [LooksUp, ← homeFound_false, ProgCmd.exec]
    cases e.caller.homeFound <;> simp
  | stateSet arg a b =>
    simp only [LooksUp, ← homeFound_false, ← isRunning_false, ProgCmd.exec]
    cases e.caller.homeFound <;> cases e.caller.isRunning <;> simp
  | address args =>
    simp only [LooksUp, ProgCmd.exec]
    by_cases h : 1 < args.length
    · simp [h, Nat.not_le.2 h]
    · simp [h, Nat.not_lt.1 h]
  | start => simp [LooksUp, ProgCmd.exec]
  | signerStart => simp [LooksUp, ProgCmd.exec]
  | elect args => simp [LooksUp, ProgCmd.exec]

theorem writeConfig_ne_crash (fs : FS P) (home : Str) (cfg : Config) : (writeConfig L fs home cfg).1 ≠ .crash := by
  unfold writeConfig; split <;> simp

theorem exec_some (fs : FS P) (cfg : Config) (cmd : ProgCmd) :
    (cmd.exec L lib e (some cfg) fs).1 = .crash ↔
      cfg.cosigner = none ∧ ∃ c, cmd = .edit c ∧ OnCosigner c ∧ ArgRead lib c := by
  cases cmd with
  | edit c =>
    have h := run_crash_iff lib cfg c
    simp only [ProgCmd.exec, runEdit, ProgCmd.edit.injEq]
    rw [show (cfg.cosigner = none ∧ ∃ c', c = c' ∧ OnCosigner c' ∧ ArgRead lib c') ↔
      (cfg.cosigner = none ∧ OnCosigner c ∧ ArgRead lib c) by simp, ← h]
    generalize hx : c.run lib cfg = x
    obtain ⟨r, cfg'⟩ := x
    cases r with
    | done => simp [writeConfig_ne_crash]
    | failed er => simp
    | crash => simp
  | init a d =>
    simp only [ProgCmd.exec, reduceCtorEq, false_and, exists_false, and_false, iff_false]
    generalize configInit L lib fs e.caller.home a d = x
    obtain ⟨b, fs'⟩ := x
    cases b <;> simp
  | chainIDSet new =>
    simp only [ProgCmd.exec, reduceCtorEq, false_and, exists_false, and_false, iff_false]
    unfold runChainIDSet
    split
    · simp
    · split
      · simp
      · exact writeConfig_ne_crash L _ _ _
  | stateShow =>
    simp only [ProgCmd.exec, reduceCtorEq, false_and, exists_false, and_false, iff_false]
    split
    · simp
    · split <;> simp
  | stateSet arg a b =>
    simp only [ProgCmd.exec, reduceCtorEq, false_and, exists_false, and_false, iff_false]
    generalize stateSetWith L fs e.caller.home cfg arg a b = x
    obtain ⟨b, fs'⟩ := x
    split
    · simp
    · split
      · simp
      · cases b <;> simp
  | address args =>
    simp only [ProgCmd.exec, reduceCtorEq, false_and, exists_false, and_false, iff_false]
    split
    · simp
    · split <;> simp
  | start =>
    simp only [ProgCmd.exec, reduceCtorEq, false_and, exists_false, and_false, iff_false]
    split
    · simp
    · split <;> simp
  | signerStart =>
    simp only [ProgCmd.exec, reduceCtorEq, false_and, exists_false, and_false, iff_false]
    split
    · simp
    · split <;> simp
  | elect args =>
    simp only [ProgCmd.exec, reduceCtorEq, false_and, exists_false, and_false, iff_false]
    split
    · simp
    · split
      · simp
      · split <;> simp

/-- C107, partial: a command that finds no configuration changes nothing; it ends with an error if it does not get to
look into the configuration, and `elect` always does. Missing: every other command crashes (`C107_fails`). -/
theorem C107_partial (m : Host P) (cmd : ProgCmd) (hl : m.load L e.caller = some none) (hn : NeedsConfig cmd) :
    (cmd.run L lib e m).2 = m ∧ ((cmd.run L lib e m).1 = .crash ∨ (cmd.run L lib e m).1 = .error) ∧
    ((cmd.run L lib e m).1 = .error ↔ ¬ LooksUp lib e.caller cmd ∨ ∃ args, cmd = .elect args) := by
  have h := exec_none L lib e m.fs cmd hn
  simp only [ProgCmd.run, hl]
  by_cases hc : LooksUp lib e.caller cmd ∧ (∀ args, cmd ≠ .elect args)
  · rw [h.1 hc]
    refine ⟨rfl, .inl rfl, ?_⟩
    simp only [reduceCtorEq, false_iff, not_or, not_not, not_exists]
    exact hc
  · rw [h.2 hc]
    refine ⟨rfl, .inr rfl, ?_⟩
    simp only [true_iff]
    by_cases hk : LooksUp lib e.caller cmd
    · right
      by_contra hx
      exact hc ⟨hk, fun args ha => hx ⟨args, ha⟩⟩
    · exact .inl hk

/-- C107 is false: without a configuration (no file, or one that cannot be read) every command that gets to look into it
crashes, except `elect`. -/
theorem C107_fails (m : Host P) (cmd : ProgCmd) (hl : m.load L e.caller = some none)
    (hn : NeedsConfig cmd) (hk : LooksUp lib e.caller cmd) (he : ∀ args, cmd ≠ .elect args) :
    (cmd.run L lib e m).1 = .crash := by
  simp only [ProgCmd.run, hl, (exec_none L lib e m.fs cmd hn).1 ⟨hk, he⟩]

/-- C107 is false: on every configuration that `config init` makes without `--cosigner`, the commands for peers and shares
crash. -/
theorem C107_single_fails (m : Host P) (home : Str) (a : InitArgs) (cfg : Config) (ha : a.cosigner = false)
    (hi : initConfig lib home a = .ok cfg) (hl : m.load L e.caller = some (some cfg)) (c : CfgCmd) (hc : OnCosigner c)
    (hr : ArgRead lib c) : (ProgCmd.run L lib e m (.edit c)).1 = .crash := by
  have hcs : cfg.cosigner = none := by rw [((C62_single lib home a ha cfg).1 hi).2]; rfl
  have := (exec_some L lib e m.fs cfg (.edit c)).2 ⟨hcs, c, rfl, hc, hr⟩
  simp only [ProgCmd.run, hl, this]

/-- C107: these are the only crashes for want of configuration, and a crash changes nothing. -/
theorem C107_exact (m : Host P) (cmd : ProgCmd) :
    ((cmd.run L lib e m).1 = .crash ↔
      (m.load L e.caller = some none ∧ NeedsConfig cmd ∧ LooksUp lib e.caller cmd ∧ ∀ args, cmd ≠ .elect args) ∨
      (∃ cfg, m.load L e.caller = some (some cfg) ∧ cfg.cosigner = none ∧
        ∃ c, cmd = .edit c ∧ OnCosigner c ∧ ArgRead lib c)) ∧
    ((cmd.run L lib e m).1 = .crash → (cmd.run L lib e m).2 = m) := by
  unfold ProgCmd.run
  cases hl : m.load L e.caller with
  | none => simp
  | some o =>
    cases o with
    | none =>
      dsimp only
      by_cases hn : NeedsConfig cmd
      · have h := exec_none L lib e m.fs cmd hn
        by_cases hc : LooksUp lib e.caller cmd ∧ (∀ args, cmd ≠ .elect args)
        · rw [h.1 hc]; simp [hn, hc]
        · rw [h.2 hc]; simpa [hn] using hc
      · cases cmd with
        | init a d =>
          simp only [ProgCmd.exec]
          generalize configInit L lib m.fs e.caller.home a d = x
          obtain ⟨b, fs'⟩ := x
          cases b <;> simp [NeedsConfig]
        | _ => exact absurd trivial hn
    | some cfg =>
      have h := exec_some L lib e m.fs cfg cmd
      dsimp only
      constructor
      · simp only [h, reduceCtorEq, false_and, Option.some.injEq, exists_eq_left', false_or]
      · intro hx
        obtain ⟨hcs, c, rfl, hoc, har⟩ := h.1 hx
        have hr := (run_crash_iff lib cfg c).2 ⟨hcs, hoc, har⟩
        simp only [ProgCmd.exec, runEdit]
        generalize hy : c.run lib cfg = y at hr ⊢
        obtain ⟨r, cfg'⟩ := y
        simp only at hr
        subst hr
        rfl

/-- C107 is false in another way: a configuration file with a value of the wrong type makes every command fail, even
`config init` with `--overwrite`. -/
theorem C107_repair_fails (m : Host P) (cmd : ProgCmd) (h : m.used L e.caller = some .mistyped) :
    cmd.run L lib e m = (.error, m) := by
  simp [ProgCmd.run, Host.load, h]

/-! ### C108 -/

omit [DecidableEq P] in
/-- What the caller finds when nothing shadows `config.yaml`. -/
theorem used_unshadowed (m : Host P) (c : Caller) (h : Unshadowed m c) (x : CfgText)
    (hx : m.yaml L c.home = some x) : m.used L c = some x := by
  unfold Host.used
  unfold Caller.home at hx
  cases hf : c.flag with
  | some d => rw [hf] at hx; exact hx
  | none =>
    rw [hf] at hx
    rcases h with h | ⟨h1, h2⟩
    · exact absurd hf h
    · have : supportedExts.find? (fun e => (m.text L c.defaultHome e).isSome) = some .yaml := by
        simp only [supportedExts, List.find?]
        simp [Host.text, h1, h2, show m.yaml L c.defaultHome = some x from hx]
      simp only [this]
      exact (if_pos rfl).trans hx

omit [DecidableEq P] in
theorem load_unshadowed (m : Host P) (c : Caller) (h : Unshadowed m c) (cfg : Config)
    (hx : Holding L m c.home cfg) : m.load L c = some (some cfg) := by
  have : m.yaml L c.home = some (.config cfg) := by simp [Host.yaml, show _ = _ from hx]
  simp [Host.load, used_unshadowed L m c h _ this]

omit [DecidableEq P] in
/-- What the caller finds when a `config.json` is there. -/
theorem used_json (m : Host P) (c : Caller) (hf : c.flag = none) (x : CfgText) (hx : m.alt .json = some x) :
    m.used L c = some x := by
  unfold Host.used
  rw [hf]
  have : supportedExts.find? (fun e => (m.text L c.defaultHome e).isSome) = some .json := by
    simp [supportedExts, Host.text, hx]
  simp only [this]
  exact (if_neg (by decide)).trans hx

theorem run_alt (m : Host P) (cmd : ProgCmd) :
    (cmd.run L lib e m).2.alt = m.alt ∧ (cmd.run L lib e m).2.mistyped = m.mistyped := by
  unfold ProgCmd.run
  split <;> exact ⟨rfl, rfl⟩

theorem runProg_alt (cmds : List ProgCmd) : ∀ m : Host P, (runProg L lib e m cmds).alt = m.alt := by
  induction cmds with
  | nil => intro m; rfl
  | cons c cs ih => intro m; exact (ih _).trans (run_alt L lib e m c).1

theorem writeConfig_holds (fs : FS P) (home : Str) (cfg : Config) (h : (writeConfig L fs home cfg).1 = .ok) :
    (writeConfig L fs home cfg).2.files (L.config home) = some (.config cfg) := by
  unfold writeConfig at h ⊢
  split at h
  · simp [*, FS.set]
  · cases h

/-- C108, partial: if nothing shadows `config.yaml`, the next command reads what a successful command wrote: the edited
configuration, that with the new chain ID, or that `config init` was asked for. Missing: `config.json` and `config.toml`
in `$HOME/.horcrux` (`C108_fails`). -/
theorem C108_partial (m : Host P) (hu : Unshadowed m e.caller) :
    (∀ c cfg, m.load L e.caller = some (some cfg) → (ProgCmd.run L lib e m (.edit c)).1 = .ok →
      (c.run lib cfg).1 = .done ∧
      (ProgCmd.run L lib e m (.edit c)).2.load L e.caller = some (some (c.run lib cfg).2)) ∧
    (∀ new cfg, m.load L e.caller = some (some cfg) → (ProgCmd.run L lib e m (.chainIDSet new)).1 = .ok →
      (ProgCmd.run L lib e m (.chainIDSet new)).2.load L e.caller = some (some { cfg with chainID := new })) ∧
    (∀ a d, (ProgCmd.run L lib e m (.init a d)).1 = .ok → ∃ cfg, initConfig lib e.caller.home a = .ok cfg ∧
      (ProgCmd.run L lib e m (.init a d)).2.load L e.caller = some (some cfg)) := by
  have hu' : ∀ cmd, Unshadowed (ProgCmd.run L lib e m cmd).2 e.caller := by
    intro cmd
    unfold Unshadowed
    rw [(run_alt L lib e m cmd).1]
    exact hu
  refine ⟨?_, ?_, ?_⟩
  · intro c cfg hl ho
    have hw : (c.run lib cfg).1 = .done ∧
        Holding L (ProgCmd.run L lib e m (.edit c)).2 e.caller.home (c.run lib cfg).2 := by
      unfold Holding
      simp only [ProgCmd.run, hl, ProgCmd.exec, runEdit] at ho ⊢
      generalize c.run lib cfg = x at ho ⊢
      obtain ⟨r, cfg'⟩ := x
      cases r with
      | done => exact ⟨rfl, writeConfig_holds L _ _ _ ho⟩
      | failed er => cases ho
      | crash => cases ho
    exact ⟨hw.1, load_unshadowed L _ _ (hu' _) _ hw.2⟩
  · intro new cfg hl ho
    apply load_unshadowed L _ _ (hu' _)
    unfold Holding
    simp only [ProgCmd.run, hl, ProgCmd.exec, runChainIDSet] at ho ⊢
    split at ho
    · cases ho
    · split at ho
      · cases ho
      · exact writeConfig_holds L _ _ _ ho
  · intro a d ho
    have hx : (configInit L lib m.fs e.caller.home a d).1 = true ∧
        (ProgCmd.run L lib e m (.init a d)).2.fs = (configInit L lib m.fs e.caller.home a d).2 := by
      unfold ProgCmd.run at ho ⊢
      cases hl : m.load L e.caller with
      | none => rw [hl] at ho; cases ho
      | some o =>
        rw [hl] at ho
        simp only [ProgCmd.exec] at ho ⊢
        generalize configInit L lib m.fs e.caller.home a d = x at ho ⊢
        obtain ⟨b, fs'⟩ := x
        cases b with
        | true => exact ⟨rfl, rfl⟩
        | false => cases ho
    obtain ⟨cfg, h1, h2, _⟩ := C56_success L lib m.fs e.caller.home a d hx.1
    refine ⟨cfg, h1, load_unshadowed L _ _ (hu' _) _ ?_⟩
    unfold Holding
    rw [hx.2]
    exact h2

/-- C108, partial: if nothing shadows `config.yaml`, and it can be written, a sequence of editing commands, each a run of
the program of its own, leaves the configuration that the edits make one after the other. -/
theorem C108_sequence_partial (cmds : List CfgCmd) : ∀ (m : Host P) (cfg : Config), Unshadowed m e.caller →
    m.fs.writable (L.config e.caller.home) = true → Holding L m e.caller.home cfg →
    (runProg L lib e m (cmds.map .edit)).load L e.caller = some (some (runCmds lib cfg cmds)) ∧
    Holding L (runProg L lib e m (cmds.map .edit)) e.caller.home (runCmds lib cfg cmds) := by
  induction cmds with
  | nil => intro m cfg hu _ hh; exact ⟨load_unshadowed L m _ hu cfg hh, hh⟩
  | cons c cs ih =>
    intro m cfg hu hw hh
    have hl := load_unshadowed L m _ hu cfg hh
    have h : Holding L (ProgCmd.run L lib e m (.edit c)).2 e.caller.home (c.run lib cfg).2 ∧
        (ProgCmd.run L lib e m (.edit c)).2.fs.writable (L.config e.caller.home) = true := by
      unfold Holding at hh ⊢
      simp only [ProgCmd.run, hl, ProgCmd.exec, runEdit]
      have hf := fun r (hx : (c.run lib cfg) = r) (hne : r.1 ≠ .done) =>
        C51_failure lib cfg r.2 c r.1 (by rw [hx]) hne
      generalize hx : c.run lib cfg = x at hf ⊢
      obtain ⟨r, cfg'⟩ := x
      cases r with
      | done =>
        simp only [writeConfig, hw, if_true]
        exact ⟨by simp [FS.set], hw⟩
      | failed er =>
        have := hf _ rfl (by simp)
        simp only at this ⊢
        exact ⟨by rw [this]; exact hh, hw⟩
      | crash =>
        have := hf _ rfl (by simp)
        simp only at this ⊢
        exact ⟨by rw [this]; exact hh, hw⟩
    have hu' : Unshadowed (ProgCmd.run L lib e m (.edit c)).2 e.caller := by
      unfold Unshadowed
      rw [(run_alt L lib e m _).1]
      exact hu
    exact ih _ _ hu' h.2 h.1

/-- C108 is false: with a `config.json` in `$HOME/.horcrux`, and no `--home`, no sequence of commands changes the
configuration that is read. -/
theorem C108_fails (m : Host P) (hf : e.caller.flag = none) (cfg : Config) (h : m.alt .json = some (.config cfg))
    (cmds : List ProgCmd) : (runProg L lib e m cmds).load L e.caller = some (some cfg) := by
  have : (runProg L lib e m cmds).used L e.caller = some (.config cfg) :=
    used_json L _ _ hf _ (by rw [runProg_alt]; exact h)
  simp [Host.load, this]

end

/-! ### Concrete cases -/

/-- A caller without `--home`, whose `$HOME/.horcrux` is `hm`. -/
def progAround : Around where
  caller := ⟨none, hm, fun _ => true, [97], []⟩
  loadKey := fun _ => none
  hash := id
  rsa := ⟨id, fun _ => none, id, fun _ => none⟩
  shareFile := id
  keyFiles := fun _ => none
  singleStarts := fun _ => true
  elected := fun _ _ => true

/-- No configuration at all. -/
def bareHost : Host DemoPath := ⟨demoFS.set (.config hm) none, fun _ => none, false⟩

/-- Without a configuration: `cosigner start`, `peers remove x`, `nodes add n` and `state show` crash, `nodes add !` and
`elect` end with an error. -/
example : bareHost.load demoLayout progAround.caller = some none ∧
    (ProgCmd.run demoLayout demoLib progAround bareHost .start).1 = .crash ∧
    (ProgCmd.run demoLayout demoLib progAround bareHost (.edit (.peersRemove [120]))).1 = .crash ∧
    (ProgCmd.run demoLayout demoLib progAround bareHost (.edit (.nodesAdd [110]))).1 = .crash ∧
    (ProgCmd.run demoLayout demoLib progAround bareHost .stateShow).1 = .crash ∧
    (ProgCmd.run demoLayout demoLib progAround bareHost (.edit (.nodesAdd [33]))).1 = .error ∧
    (ProgCmd.run demoLayout demoLib progAround bareHost (.elect [])).1 = .error := by decide +kernel

/-- A configuration file that is not YAML counts as none; `config init` then asks for `--overwrite`, which replaces it.
One with a wrong type is never replaced. -/
example :
    let bad : Host DemoPath := ⟨demoFS.set (.config hm) (some .garbage), fun _ => none, false⟩
    bad.load demoLayout progAround.caller = some none ∧
    (ProgCmd.run demoLayout demoLib progAround bad (.init (demoInit true) true)).1 = .ok ∧
    { bad with mistyped := true }.used demoLayout progAround.caller = some .mistyped ∧
    (ProgCmd.run demoLayout demoLib progAround { bad with mistyped := true } (.init (demoInit true) true)).1 = .error := by
  decide +kernel

/-- A single signer: `config init c n` succeeds, and then `set-shares 3` crashes. -/
example :
    let m := (ProgCmd.run demoLayout demoLib progAround bareHost
      (.init { demoInit false with cosigner := false, chainNodes := some [110] } true)).2
    (m.load demoLayout progAround.caller).map (·.map (·.cosigner)) = some (some none) ∧
    (ProgCmd.run demoLayout demoLib progAround m (.edit (.setShares [51]))).1 = .crash ∧
    (ProgCmd.run demoLayout demoLib progAround m (.edit (.setShares [120]))).1 = .error := by decide +kernel

/-- A cluster node with only a `config.yaml`. -/
def yamlHost : Host DemoPath := ⟨demoFS, fun _ => none, false⟩

example : Unshadowed yamlHost progAround.caller ∧ Holding demoLayout yamlHost hm homeConfig ∧
    (ProgCmd.run demoLayout demoLib progAround yamlHost (.edit (.nodesAdd [112]))).1 = .ok ∧
    (runProg demoLayout demoLib progAround yamlHost [.edit (.nodesAdd [112]), .edit (.setShares [52])]).load
      demoLayout progAround.caller = some (some { homeConfig with
        chainNodes := homeConfig.chainNodes ++ [[112]],
        cosigner := homeConfig.cosigner.map ({ · with shares := 4 }) }) ∧
    (ProgCmd.run demoLayout demoLib progAround yamlHost (.chainIDSet [100])).1 = .ok ∧
    ((ProgCmd.run demoLayout demoLib progAround yamlHost (.chainIDSet [100])).2.load demoLayout
      progAround.caller).map (·.map (·.chainID)) = some (some [100]) :=
  ⟨.inr ⟨rfl, rfl⟩, rfl, by decide +kernel⟩

/-- The same node with a `config.json`: `nodes add p` succeeds, and the next command still reads the old nodes. -/
example :
    let m : Host DemoPath := ⟨demoFS, fun x => if x = .json then some (.config homeConfig) else none, false⟩
    (ProgCmd.run demoLayout demoLib progAround m (.edit (.nodesAdd [112]))).1 = .ok ∧
    (ProgCmd.run demoLayout demoLib progAround m (.edit (.nodesAdd [112]))).2.load demoLayout progAround.caller =
      some (some homeConfig) ∧
    (ProgCmd.run demoLayout demoLib progAround m (.init (demoInit true) true)).1 = .ok := by decide +kernel

end Horcrux
