import Verif.Props.FS
import Verif.Props.Cosigner
/-
Property C92: `state set`, then `cosigner start`, then signing.
-/
namespace Horcrux
open Spec

variable {P : Type} [DecidableEq P] (L : Layout P) (lib : Lib) (loadKey : Config → Option CosignerKey)

/-! ### C92 -/

/-- A file after one save of `state set` that got done is not below the requested height. -/
theorem setOne_reaches (fs : FS P) (p : P) (f : PFile) (height : Int) (hf : fs.files p = some (.state f)) :
    ∃ g, (setOne fs p f height true).files p = some (.state g) ∧ (⟨height, 0, 0⟩ : HRS) ≼ g.hrs := by
  by_cases hlt : f.hrs ≺ ⟨height, 0, 0⟩
  · refine ⟨⟨height, 0, 0, none, none, none⟩, ?_, HRS.le_refl _⟩
    unfold setOne
    have hlt' : ({ f.load with ephemeralPublic := none } : SignState).hrs ≺ (⟨height, 0, 0, none, none⟩ : SSC).hrs := hlt
    rw [SignState.save_ok _ _ hlt']
    simp [FS.set, SignState.persist, Slice.norm]
  · rcases setOne_self fs p f height true with e | ⟨_, h, _⟩
    · exact ⟨f, by rw [e, hf], HRS.not_lt.1 hlt⟩
    · exact absurd h hlt

omit [DecidableEq P] in
theorem readState_files {fs : FS P} {p : P} {f : PFile} (h : fs.readState p = some f) :
    fs.files p = some (.state f) := by
  unfold FS.readState at h
  split at h
  · next f' hf => cases h; exact hf
  · cases h

omit [DecidableEq P] in
theorem files_readState {fs : FS P} {p : P} {f : PFile} (h : fs.files p = some (.state f)) :
    fs.readState p = some f := by
  unfold FS.readState; rw [h]

/-- `state set` leaves the configuration as it is. -/
theorem stateSet_config (fs : FS P) (home home' : Str) (running homeFound : Bool) (arg : Str) (pvW shW : Bool) :
    (stateSet L fs home running homeFound arg pvW shW).2.readConfig L home' = fs.readConfig L home' := by
  rcases stateSet_cases L fs home running homeFound arg pvW shW with ⟨_, h⟩ | ⟨cfg, f, g, height, _, _, _, _, h⟩
  · rw [h]
  · rw [h]
    unfold FS.readConfig
    simp only
    rw [setOne_other _ _ _ _ _ _ (L.cfgState _ _ _ _), setOne_other _ _ _ _ _ _ (L.cfgState _ _ _ _)]

/-- C92, partial: if `state set` reports success for a height, both background writes got done before the process
exited, and the home directory in the configuration names the same state files as the home directory of the command,
then a cosigner started next has both watermarks at or above that height, and every share signature it releases in any
run is for that height or a later one. Missing: a configuration whose home directory is another one
(`C92_home_fails`) and an exit before the writes (`C92_exit_fails`). -/
theorem C92_partial (fs : FS P) (home : Str) (running homeFound : Bool) (arg : Str) (height : Int) (cfg : Config)
    (pv share : SignState) (cc : CosignerCfg)
    (hcfg : fs.readConfig L home = some cfg)
    (hhome : ∀ k, L.state cfg.homeDir cfg.chainID k = L.state home cfg.chainID k)
    (hp : parseInt arg = some height)
    (hok : (stateSet L fs home running homeFound arg true true).1 = true)
    (hst : (startCosigner L lib loadKey (stateSet L fs home running homeFound arg true true).2 home).1 =
      .running pv share cc) :
    (⟨height, 0, 0⟩ : HRS) ≼ share.hrs ∧ (⟨height, 0, 0⟩ : HRS) ≼ pv.hrs ∧
    ∀ (C : Crypto) (s : CState) (tr : List (CosOp × Out CosResp)) (bs : Bytes) (r : SignRes) (k : HRST),
      Run C cc (CState.start share) tr s → (CosOp.sign bs, Out.ok (CosResp.signed r)) ∈ tr →
      unpackHRST bs = .ok k → height ≤ k.height := by
  rcases stateSet_cases L fs home running homeFound arg true true with ⟨h, _⟩ | ⟨cfg', f, g, height', h1, h2, h3, h4, h5⟩
  · rw [hok] at h; cases h
  · rw [hp] at h4; cases h4
    rw [hcfg] at h1; cases h1
    have hne : L.state home cfg.chainID .pv ≠ L.state home cfg.chainID .share := L.kinds _ _ _ _
    obtain ⟨cfg', sf, c1, _, c3, c4, c5⟩ := start_running L lib loadKey hst
    rw [stateSet_config, hcfg] at c1; cases c1
    rw [hhome] at c3 c5
    rw [h5] at c3 c5
    simp only at c3 c5
    obtain ⟨g', e1, e2⟩ := setOne_reaches (setOne fs (L.state home cfg.chainID .pv) f height true)
      (L.state home cfg.chainID .share) g height
      (by rw [setOne_other _ _ _ _ _ _ (Ne.symm hne)]; exact readState_files h3)
    obtain ⟨f', d1, d2⟩ := setOne_reaches fs (L.state home cfg.chainID .pv) f height (readState_files h2)
    rw [files_readState e1] at c3; cases c3
    have d1' : (setOne (setOne fs (L.state home cfg.chainID .pv) f height true) (L.state home cfg.chainID .share) g height
        true).readState (L.state home cfg.chainID .pv) = some f' :=
      files_readState (by rw [setOne_other _ _ _ _ _ _ hne]; exact d1)
    have hpv : pv = f'.load := by
      unfold FS.loadOrCreate at c5
      rw [d1'] at c5
      cases c5; rfl
    have hsh : (⟨height, 0, 0⟩ : HRS) ≼ share.hrs := by rw [c4]; exact e2
    refine ⟨hsh, by rw [hpv]; exact d2, ?_⟩
    intro C s tr bs r k hrun hm hu
    obtain ⟨t1, t2, rfl⟩ := List.append_of_mem hm
    have hle : (⟨height, 0, 0⟩ : HRS) ≼ k.hrs :=
      HRS.le_trans hsh (C11_no_regress C cc _ _ _ _ _ _ _ hrun hu).1
    have := hle
    simp only [HRS.le, HRS.lt] at this
    rcases this with h | h | h
    · exact Int.le_of_eq (congrArg HRS.height h)
    · exact Int.le_of_lt h
    · exact Int.le_of_eq h.1

/-- C92: whatever `state set` reports, whichever of its writes get done and whatever home directory the configuration
names, the cosigner started after it has its watermarks at or above those it would have started with before. -/
theorem C92_never_lowers (fs : FS P) (home home' : Str) (running homeFound : Bool) (arg : Str) (pvW shW : Bool)
    (pv share pv' share' : SignState) (cc cc' : CosignerCfg)
    (h0 : (startCosigner L lib loadKey fs home').1 = .running pv share cc)
    (h1 : (startCosigner L lib loadKey (stateSet L fs home running homeFound arg pvW shW).2 home').1 =
      .running pv' share' cc') :
    share.hrs ≼ share'.hrs ∧ pv.hrs ≼ pv'.hrs := by
  obtain ⟨cfg, f, a1, _, a3, a4, a5⟩ := start_running L lib loadKey h0
  obtain ⟨cfg', f', b1, _, b3, b4, b5⟩ := start_running L lib loadKey h1
  rw [stateSet_config, a1] at b1; cases b1
  constructor
  · rw [a4, b4]
    rcases C41_never_lowers L fs home running homeFound arg pvW shW (L.state cfg.homeDir cfg.chainID .share) with
      e | ⟨g, height, e1, _, e3, e4⟩
    · rw [files_readState (e.trans (readState_files a3))] at b3
      cases b3; exact HRS.le_refl _
    · rw [readState_files a3] at e1; cases e1
      rw [files_readState e4] at b3; cases b3
      exact HRS.le_of_lt e3
  · unfold FS.loadOrCreate at a5 b5
    rcases C41_never_lowers L fs home running homeFound arg pvW shW (L.state cfg.homeDir cfg.chainID .pv) with
      e | ⟨g, height, e1, _, e3, e4⟩
    · have er : (stateSet L fs home running homeFound arg pvW shW).2.readState (L.state cfg.homeDir cfg.chainID .pv) =
          fs.readState (L.state cfg.homeDir cfg.chainID .pv) := by
        unfold FS.readState; rw [e]
      rw [er] at b5
      cases hr : fs.readState (L.state cfg.homeDir cfg.chainID .pv) with
      | some g =>
        rw [hr] at a5 b5
        cases a5; cases b5; exact HRS.le_refl _
      | none =>
        rw [hr] at a5 b5
        simp only at a5 b5
        split at a5
        · cases a5
          split at b5
          · cases b5; exact HRS.le_refl _
          · cases b5
        · cases a5
    · rw [files_readState e1] at a5
      rw [files_readState e4] at b5
      cases a5; cases b5
      exact HRS.le_of_lt e3

/-- C92, exactly: let `state set` report success for a height, whichever of its writes get done, and let the cosigner start before
and after. Then a watermark is at or above that height just if it was before, or the write of its file got done and the home
directory in the configuration names that file. -/
theorem C92_exact (fs : FS P) (home : Str) (running homeFound : Bool) (arg : Str) (height : Int) (cfg : Config) (pvW shW : Bool)
    (pv share pv' share' : SignState) (cc cc' : CosignerCfg) (hcfg : fs.readConfig L home = some cfg)
    (hp : parseInt arg = some height) (hok : (stateSet L fs home running homeFound arg pvW shW).1 = true)
    (h0 : (startCosigner L lib loadKey fs home).1 = .running pv share cc)
    (h1 : (startCosigner L lib loadKey (stateSet L fs home running homeFound arg pvW shW).2 home).1 =
      .running pv' share' cc') :
    ((⟨height, 0, 0⟩ : HRS) ≼ share'.hrs ↔ (⟨height, 0, 0⟩ : HRS) ≼ share.hrs ∨
      shW = true ∧ L.state cfg.homeDir cfg.chainID .share = L.state home cfg.chainID .share) ∧
    ((⟨height, 0, 0⟩ : HRS) ≼ pv'.hrs ↔ (⟨height, 0, 0⟩ : HRS) ≼ pv.hrs ∨
      pvW = true ∧ L.state cfg.homeDir cfg.chainID .pv = L.state home cfg.chainID .pv) := by
  have hlow := C92_never_lowers L lib loadKey fs home home running homeFound arg pvW shW pv share pv' share' cc cc' h0 h1
  rcases stateSet_cases L fs home running homeFound arg pvW shW with ⟨h, _⟩ | ⟨cfg', f, g, height', e1, e2, e3, e4, e5⟩
  · rw [hok] at h; cases h
  rw [hp] at e4; cases e4
  rw [hcfg] at e1; cases e1
  obtain ⟨cfg', sf, a1, _, a3, a4, a5⟩ := start_running L lib loadKey h0
  obtain ⟨cfg'', sf', b1, _, b3, b4, b5⟩ := start_running L lib loadKey h1
  rw [hcfg] at a1; cases a1
  rw [stateSet_config, hcfg] at b1; cases b1
  rw [e5] at b3 b5
  simp only at b3 b5
  have hk : L.state home cfg.chainID .share ≠ L.state home cfg.chainID .pv := Ne.symm (L.kinds _ _ _ _)
  constructor
  · constructor
    · intro hle
      by_cases hT : L.state cfg.homeDir cfg.chainID .share = L.state home cfg.chainID .share
      · rw [hT] at a3 b3
        rw [e3] at a3; cases a3
        rcases setOne_self (setOne fs (L.state home cfg.chainID .pv) f height pvW) (L.state home cfg.chainID .share) g height
          shW with h | ⟨h, _⟩
        · rw [setOne_other _ _ _ _ _ _ hk] at h
          rw [files_readState (h.trans (readState_files e3))] at b3; cases b3
          rw [b4] at hle; rw [a4]
          exact .inl hle
        · exact .inr ⟨h, hT⟩
      · have : (setOne (setOne fs (L.state home cfg.chainID .pv) f height pvW) (L.state home cfg.chainID .share) g height
            shW).files (L.state cfg.homeDir cfg.chainID .share) = fs.files (L.state cfg.homeDir cfg.chainID .share) := by
          rw [setOne_other _ _ _ _ _ _ hT, setOne_other _ _ _ _ _ _ (Ne.symm (L.kinds _ _ _ _))]
        rw [files_readState (this.trans (readState_files a3))] at b3; cases b3
        rw [b4] at hle; rw [a4]
        exact .inl hle
    · rintro (h | ⟨rfl, hT⟩)
      · exact HRS.le_trans h hlow.1
      · rw [hT] at b3
        obtain ⟨g', d1, d2⟩ := setOne_reaches (setOne fs (L.state home cfg.chainID .pv) f height pvW)
          (L.state home cfg.chainID .share) g height (by rw [setOne_other _ _ _ _ _ _ hk]; exact readState_files e3)
        rw [files_readState d1] at b3; cases b3
        rw [b4]; exact d2
  · constructor
    · intro hle
      by_cases hT : L.state cfg.homeDir cfg.chainID .pv = L.state home cfg.chainID .pv
      · rw [hT] at a5 b5
        unfold FS.loadOrCreate at a5 b5
        rw [e2] at a5; cases a5
        rcases setOne_self fs (L.state home cfg.chainID .pv) f height pvW with h | ⟨h, _⟩
        · have h' : (setOne (setOne fs (L.state home cfg.chainID .pv) f height pvW) (L.state home cfg.chainID .share) g height
              shW).readState (L.state home cfg.chainID .pv) = some f :=
            files_readState (by rw [setOne_other _ _ _ _ _ _ (Ne.symm hk), h]; exact readState_files e2)
          rw [h'] at b5; cases b5
          exact .inl hle
        · exact .inr ⟨h, hT⟩
      · have hf : (setOne (setOne fs (L.state home cfg.chainID .pv) f height pvW) (L.state home cfg.chainID .share) g height
            shW).files (L.state cfg.homeDir cfg.chainID .pv) = fs.files (L.state cfg.homeDir cfg.chainID .pv) := by
          rw [setOne_other _ _ _ _ _ _ (L.kinds _ _ _ _), setOne_other _ _ _ _ _ _ hT]
        have hr : (setOne (setOne fs (L.state home cfg.chainID .pv) f height pvW) (L.state home cfg.chainID .share) g height
            shW).readState (L.state cfg.homeDir cfg.chainID .pv) = fs.readState (L.state cfg.homeDir cfg.chainID .pv) := by
          unfold FS.readState; rw [hf]
        unfold FS.loadOrCreate at a5 b5
        rw [hr] at b5
        cases hq : fs.readState (L.state cfg.homeDir cfg.chainID .pv) with
        | some g' => rw [hq] at a5 b5; cases a5; cases b5; exact .inl hle
        | none =>
          rw [hq] at a5 b5
          simp only at a5 b5
          split at a5
          · cases a5
            split at b5
            · cases b5; exact .inl hle
            · cases b5
          · cases a5
    · rintro (h | ⟨rfl, hT⟩)
      · exact HRS.le_trans h hlow.2
      · rw [hT] at b5
        obtain ⟨f', d1, d2⟩ := setOne_reaches fs (L.state home cfg.chainID .pv) f height (readState_files e2)
        have d1' : (setOne (setOne fs (L.state home cfg.chainID .pv) f height true) (L.state home cfg.chainID .share) g height
            shW).readState (L.state home cfg.chainID .pv) = some f' :=
          files_readState (by rw [setOne_other _ _ _ _ _ _ (Ne.symm hk)]; exact d1)
        unfold FS.loadOrCreate at b5
        rw [d1'] at b5
        cases b5
        exact d2

/-- Before that, a start in the demo home has both watermarks at height 100. -/
example : ∃ pv share cc, demoFS.readConfig demoLayout hm ≠ none ∧
    (startCosigner demoLayout demoLib (fun _ => some demoKey) demoFS hm).1 = .running pv share cc ∧
    share.height = 100 ∧ pv.height = 100 :=
  ⟨_, _, _, by decide +kernel, rfl, by decide +kernel, by decide +kernel⟩

/-- `state set 101` in the demo home, then start: both watermarks are at height 101. -/
example : ∃ pv share cc, (stateSet demoLayout demoFS hm false false arg101 true true).1 = true ∧
    (startCosigner demoLayout demoLib (fun _ => some demoKey)
      (stateSet demoLayout demoFS hm false false arg101 true true).2 hm).1 = .running pv share cc ∧
    share.height = 101 ∧ pv.height = 101 :=
  ⟨_, _, _, by decide +kernel, rfl, by decide +kernel, by decide +kernel⟩

/-- C92 (full statement) is false: `state set` writes the files next to the configuration it read, `cosigner start`
reads them under the home directory written in the configuration. In a home directory that has been moved or copied,
`state set 101` reports success, does both its writes, and the cosigner starts at height 100. -/
theorem C92_home_fails : ∃ (fs : FS DemoPath) (pv share : SignState) (cc : CosignerCfg),
    parseInt arg101 = some 101 ∧
    (stateSet demoLayout fs hm false false arg101 true true).1 = true ∧
    (∀ k, (stateSet demoLayout fs hm false false arg101 true true).2.files (.state hm [99] k) =
      some (.state ⟨101, 0, 0, none, none, none⟩)) ∧
    (startCosigner demoLayout demoLib (fun _ => some demoKey)
      (stateSet demoLayout fs hm false false arg101 true true).2 hm).1 = .running pv share cc ∧
    share.height = 100 :=
  ⟨movedFS, _, _, _, by decide +kernel, by decide +kernel, by intro k; cases k <;> decide +kernel, rfl, by decide +kernel⟩

/-- C92 (full statement) is false: the writes are made by goroutines nobody waits for, so a process that reports
success and exits may not have made them, and the cosigner starts at the old height. -/
theorem C92_exit_fails : ∃ (fs : FS DemoPath) (pv share : SignState) (cc : CosignerCfg),
    parseInt arg101 = some 101 ∧
    (stateSet demoLayout fs hm false false arg101 true false).1 = true ∧
    (startCosigner demoLayout demoLib (fun _ => some demoKey)
      (stateSet demoLayout fs hm false false arg101 true false).2 hm).1 = .running pv share cc ∧
    share.height = 100 ∧ pv.height = 101 :=
  ⟨demoFS, _, _, _, by decide +kernel, by decide +kernel, rfl, by decide +kernel, by decide +kernel⟩

end Horcrux
