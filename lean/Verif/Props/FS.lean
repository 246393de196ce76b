import Verif.Model.FS
import Verif.Lemmas.SignState
import Verif.Props.Start
import Verif.Props.Disk
/-
Properties C39–C41, C56: starting a cosigner and the commands that touch the state files.
-/
namespace Horcrux
open Spec

variable {P : Type} [DecidableEq P] (L : Layout P) (lib : Lib) (loadKey : Config → Option CosignerKey)

/-! ### Concrete material -/

/-- Paths as data. -/
inductive DemoPath where
  | config (home : Str)
  | state (home chainID : Str) (k : Kind)
  deriving DecidableEq

def demoLayout : Layout DemoPath where
  state := .state
  config := .config
  kinds := by intro _ _ _ _ h; cases h
  cfgState := by intro _ _ _ _ h; cases h

/-- The home directory `h`. -/
def hm : Str := [104]

def homeConfig : Config := { demoConfig with homeDir := hm }

def shareFile : PFile := ⟨100, 2, 3, some [1], some [2], some [3]⟩
def pvFile : PFile := ⟨100, 2, 2, some [4], some [5], some [6]⟩

/-- A home directory with configuration and both state files of chain `c`. -/
def demoFS : FS DemoPath where
  files := fun p => if p = .config hm then some (.config homeConfig)
    else if p = .state hm [99] .pv then some (.state pvFile)
    else if p = .state hm [99] .share then some (.state shareFile)
    else none
  writable := fun _ => true

/-! ### C39 -/

/-- C39: load-or-create returns the stored state, and changes nothing, if the file is readable. -/
theorem C39_loadOrCreate_keeps (fs : FS P) (p : P) (f : PFile) (h : fs.readState p = some f) :
    (fs.loadOrCreate p).2 = fs ∧ ∃ l, (fs.loadOrCreate p).1 = .ok l ∧ Holds f l ∧
      l.signature = f.signature ∧ l.signBytes = f.signBytes := by
  unfold FS.loadOrCreate
  rw [h]
  exact ⟨rfl, _, rfl, holds_load f, rfl, rfl⟩

/-- C39: otherwise it returns an empty state, which is what the file then holds; no other file changes. If it cannot
write the file it panics. -/
theorem C39_loadOrCreate_creates (fs : FS P) (p : P) (h : fs.readState p = none) :
    (fs.writable p = true →
      (∃ l, (fs.loadOrCreate p).1 = .ok l ∧ Holds ⟨0, 0, 0, none, none, none⟩ l ∧ ∀ k, l.cache k = none) ∧
      (fs.loadOrCreate p).2.readState p = some ⟨0, 0, 0, none, none, none⟩ ∧
      ∀ q, q ≠ p → (fs.loadOrCreate p).2.files q = fs.files q) ∧
    (fs.writable p = false → fs.loadOrCreate p = (.panic, fs)) := by
  unfold FS.loadOrCreate
  rw [h]
  refine ⟨fun hw => ?_, fun hw => by simp [hw]⟩
  simp only [hw, if_true]
  refine ⟨⟨_, rfl, ⟨rfl, rfl, rfl, rfl, rfl, rfl⟩, fun _ => rfl⟩, ?_, ?_⟩
  · simp [FS.readState, FS.set, SignState.persist, SignState.empty, Slice.norm]
  · intro q hq
    simp [FS.set, hq]

theorem loadOrCreate_other (fs : FS P) (p q : P) (h : q ≠ p) : (fs.loadOrCreate p).2.files q = fs.files q := by
  unfold FS.loadOrCreate
  split
  · rfl
  · split
    · simp [FS.set, h]
    · rfl

theorem loadOrCreate_keep (fs : FS P) (p q : P) (f : PFile) (h : fs.readState q = some f) :
    (fs.loadOrCreate p).2.files q = fs.files q := by
  by_cases hq : q = p
  · subst hq
    rw [(C39_loadOrCreate_keeps fs q f h).1]
  · exact loadOrCreate_other fs p q hq

theorem start_files (fs : FS P) (home : Str) :
    (startCosigner L lib loadKey fs home).2 = fs ∨
    ∃ cfg, fs.readConfig L home = some cfg ∧
      (startCosigner L lib loadKey fs home).2 = (fs.loadOrCreate (L.state cfg.homeDir cfg.chainID .pv)).2 := by
  unfold startCosigner startCosignerWith
  cases hc : fs.readConfig L home with
  | none => exact .inl rfl
  | some cfg =>
    simp only
    cases validateCosignerConfig lib cfg with
    | error e => exact .inl rfl
    | ok u =>
      simp only
      cases loadKey cfg with
      | none => exact .inl rfl
      | some key =>
        right
        refine ⟨cfg, rfl, ?_⟩
        simp only
        generalize fs.loadOrCreate (L.state cfg.homeDir cfg.chainID .pv) = x
        obtain ⟨a, fs1⟩ := x
        cases a with
        | ok pv =>
          simp only
          cases fs1.readState (L.state cfg.homeDir cfg.chainID .share) with
          | none => rfl
          | some f =>
            simp only
            cases startCfg lib cfg key <;> rfl
        | err e => rfl
        | panic => rfl

theorem start_running {fs : FS P} {home : Str} {pv share : SignState} {cc : CosignerCfg}
    (h : (startCosigner L lib loadKey fs home).1 = .running pv share cc) :
    ∃ cfg f, fs.readConfig L home = some cfg ∧ validateCosignerConfig lib cfg = .ok () ∧
      fs.readState (L.state cfg.homeDir cfg.chainID .share) = some f ∧ share = f.load ∧
      (fs.loadOrCreate (L.state cfg.homeDir cfg.chainID .pv)).1 = .ok pv := by
  unfold startCosigner startCosignerWith at h
  cases hc : fs.readConfig L home with
  | none => rw [hc] at h; cases h
  | some cfg =>
    rw [hc] at h
    simp only at h
    cases hv : validateCosignerConfig lib cfg with
    | error e => rw [hv] at h; cases h
    | ok u =>
      rw [hv] at h
      simp only at h
      cases hk : loadKey cfg with
      | none => rw [hk] at h; cases h
      | some key =>
        rw [hk] at h
        simp only at h
        have hother := loadOrCreate_other fs (L.state cfg.homeDir cfg.chainID .pv)
          (L.state cfg.homeDir cfg.chainID .share) (fun e => L.kinds _ _ _ _ e.symm)
        generalize hgx : fs.loadOrCreate (L.state cfg.homeDir cfg.chainID .pv) = x at h hother
        obtain ⟨a, fs1⟩ := x
        cases a with
        | ok pv' =>
          simp only at h hother
          cases hr : fs1.readState (L.state cfg.homeDir cfg.chainID .share) with
          | none => rw [hr] at h; cases h
          | some f =>
            rw [hr] at h
            simp only at h
            cases hs : startCfg lib cfg key with
            | none => rw [hs] at h; cases h
            | some cc' =>
              rw [hs] at h
              simp only [StartRes.running.injEq] at h
              refine ⟨cfg, f, rfl, hv, ?_, h.2.1.symm, by rw [hgx, h.1]⟩
              unfold FS.readState at hr ⊢
              rw [← hother]; exact hr
        | err e => cases h
        | panic => cases h

/-- C39: a start never creates, changes or removes a share state file, and without a readable one for the configured
chain it does not come up. -/
theorem C39_start_refused (fs : FS P) (home : Str) :
    (∀ h c, (startCosigner L lib loadKey fs home).2.files (L.state h c .share) = fs.files (L.state h c .share)) ∧
    (∀ cfg, fs.readConfig L home = some cfg → fs.readState (L.state cfg.homeDir cfg.chainID .share) = none →
      (startCosigner L lib loadKey fs home).1 = .refused) := by
  constructor
  · intro h c
    rcases start_files L lib loadKey fs home with he | ⟨cfg, _, he⟩
    · rw [he]
    · rw [he]; exact loadOrCreate_other _ _ _ (fun e => L.kinds _ _ _ _ e.symm)
  · intro cfg hcfg hnone
    generalize hr : (startCosigner L lib loadKey fs home).1 = r
    cases r with
    | refused => rfl
    | running pv share cc =>
      obtain ⟨cfg', f, h1, _, h2, _⟩ := start_running L lib loadKey hr
      rw [hcfg] at h1; cases h1
      rw [hnone] at h2; cases h2

/-- C39: a cosigner that comes up has the share state of the file; its private validator state is the one of the file
if that is readable, and empty (and now in the file) otherwise. -/
theorem C39_start_running (fs : FS P) (home : Str) (pv share : SignState) (cc : CosignerCfg)
    (h : (startCosigner L lib loadKey fs home).1 = .running pv share cc) :
    ∃ cfg f, fs.readConfig L home = some cfg ∧
      fs.files (L.state cfg.homeDir cfg.chainID .share) = some (.state f) ∧ Holds f share ∧
      ((∃ g, fs.files (L.state cfg.homeDir cfg.chainID .pv) = some (.state g) ∧ Holds g pv) ∨
        (fs.readState (L.state cfg.homeDir cfg.chainID .pv) = none ∧ Holds ⟨0, 0, 0, none, none, none⟩ pv)) := by
  obtain ⟨cfg, f, h1, _, h2, h3, h4⟩ := start_running L lib loadKey h
  have read : ∀ {p : P} {g : PFile}, fs.readState p = some g → fs.files p = some (.state g) := by
    intro p g hg
    unfold FS.readState at hg
    split at hg
    · next f' hf => cases hg; exact hf
    · cases hg
  refine ⟨cfg, f, h1, read h2, h3 ▸ holds_load f, ?_⟩
  cases hp : fs.readState (L.state cfg.homeDir cfg.chainID .pv) with
  | some g =>
    obtain ⟨_, l, hl, hh, _⟩ := C39_loadOrCreate_keeps fs _ g hp
    rw [h4] at hl; cases hl
    exact .inl ⟨g, read hp, hh⟩
  | none =>
    right
    refine ⟨rfl, ?_⟩
    unfold FS.loadOrCreate at h4
    rw [hp] at h4
    simp only at h4
    split at h4
    · cases h4; exact ⟨rfl, rfl, rfl, rfl, rfl, rfl⟩
    · cases h4

/-- The demo home starts; without its share state file it does not, and the private validator state is created. -/
example : (∃ pv share cc, (startCosigner demoLayout demoLib (fun _ => some demoKey) demoFS hm).1 = .running pv share cc ∧
    share.height = 100) ∧
    (startCosigner demoLayout demoLib (fun _ => some demoKey) (demoFS.set (.state hm [99] .share) none) hm).1 = .refused ∧
    (startCosigner demoLayout demoLib (fun _ => some demoKey)
      ((demoFS.set (.state hm [99] .share) none).set (.state hm [99] .pv) (some .garbage)) hm).2.files (.state hm [99] .pv)
      = some (.state ⟨0, 0, 0, none, none, none⟩) :=
  ⟨⟨_, _, _, rfl, rfl⟩, rfl, by decide +kernel⟩

/-! ### C40 -/

theorem rename_other {fs fs1 : FS P} {src dst p : P} (h : fs.rename src dst = some fs1) (h1 : p ≠ src) (h2 : p ≠ dst) :
    fs1.files p = fs.files p := by
  unfold FS.rename at h
  cases hs : fs.files src with
  | none => rw [hs] at h; cases h
  | some x =>
    rw [hs] at h
    simp only at h
    split at h
    · cases h; rfl
    · cases h; simp [FS.set, h1, h2]

theorem rename_dst {fs fs1 : FS P} {src dst : P} (h : fs.rename src dst = some fs1) : fs1.files dst = fs.files src := by
  unfold FS.rename at h
  cases hs : fs.files src with
  | none => rw [hs] at h; cases h
  | some x =>
    rw [hs] at h
    simp only at h
    split at h
    · next e => cases h; rw [← e, hs]
    · next e => cases h; simp [FS.set, Ne.symm e]

theorem rename_src {fs fs1 : FS P} {src dst : P} (h : fs.rename src dst = some fs1) :
    fs1.files src = none ∨ fs1.files src = fs.files src := by
  unfold FS.rename at h
  cases hs : fs.files src with
  | none => rw [hs] at h; cases h
  | some x =>
    rw [hs] at h
    simp only at h
    split at h
    · cases h; exact .inr hs
    · cases h; exact .inl (by simp [FS.set])

/-- C40, partial: whatever was in the home directory, and whenever `chain-id set` was interrupted (also while writing
the configuration) or failed, if a cosigner then starts at all, it has the share state that was configured before the
command. Missing: a configuration whose `home-dir` is not the directory it is in (`C40_home_fails`). -/
theorem C40_partial (home : Str) (cfg : Config) (new : Str) (fs fs' : FS P)
    (hcfg : fs.readConfig L home = some cfg) (hhome : cfg.homeDir = home)
    (hset : ChainIDSet L home cfg new fs fs') (pv share : SignState) (cc : CosignerCfg)
    (hrun : (startCosigner L lib loadKey fs' home).1 = .running pv share cc) :
    ∃ f, fs.files (L.state home cfg.chainID .share) = some (.state f) ∧ Holds f share ∧
      share.signature = f.signature ∧ share.signBytes = f.signBytes := by
  obtain ⟨cfg', f, h1, hv, h2, h3, _⟩ := start_running L lib loadKey hrun
  have hco : cfg'.cosigner ≠ none := by
    intro hc
    unfold validateCosignerConfig at hv
    rw [hc] at hv
    split at hv <;> cases hv
  -- it is enough to find the file it read in the original file system
  suffices H : fs'.files (L.state cfg'.homeDir cfg'.chainID .share) ≠ none →
      fs'.files (L.state cfg'.homeDir cfg'.chainID .share) = fs.files (L.state home cfg.chainID .share) by
    unfold FS.readState at h2
    split at h2
    · next f' hf =>
      cases h2
      rw [hf] at H
      exact ⟨f, (H (by simp)).symm, h3 ▸ holds_load f, by rw [h3]; rfl, by rw [h3]; rfl⟩
    · cases h2
  have hne : ∀ c c', L.state home c .share ≠ L.state home c' .pv := fun _ _ e => L.kinds _ _ _ _ e.symm
  have pvShare : ∀ {fs1 : FS P}, fs.rename (L.state home cfg.chainID .pv) (L.state home new .pv) = some fs1 → ∀ c,
      fs1.files (L.state home c .share) = fs.files (L.state home c .share) :=
    fun h c => rename_other h (hne _ _) (hne _ _)
  have pvCfg : ∀ {fs1 : FS P}, fs.rename (L.state home cfg.chainID .pv) (L.state home new .pv) = some fs1 →
      fs1.files (L.config home) = fs.files (L.config home) :=
    fun h => rename_other h (L.cfgState _ _ _ _) (L.cfgState _ _ _ _)
  have shCfg : ∀ {fs1 fs2 : FS P}, fs1.rename (L.state home cfg.chainID .share) (L.state home new .share) = some fs2 →
      fs2.files (L.config home) = fs1.files (L.config home) :=
    fun h => rename_other h (L.cfgState _ _ _ _) (L.cfgState _ _ _ _)
  have same : ∀ {gs : FS P}, gs.files (L.config home) = fs.files (L.config home) → gs.readConfig L home = some cfg := by
    intro gs hg
    unfold FS.readConfig at hcfg ⊢
    rw [hg]; exact hcfg
  have atNew : ∀ (fs1 fs2 : FS P) (x : FileC),
      fs.rename (L.state home cfg.chainID .pv) (L.state home new .pv) = some fs1 →
      fs1.rename (L.state home cfg.chainID .share) (L.state home new .share) = some fs2 →
      (fs2.set (L.config home) (some x)).files (L.state home new .share) = fs.files (L.state home cfg.chainID .share) := by
    intro fs1 fs2 x h h'
    simp only [FS.set, (Ne.symm (L.cfgState home home new .share) : L.state home new .share ≠ L.config home), if_false]
    rw [rename_dst h', pvShare h]
  cases hset with
  | start =>
    rw [hcfg] at h1; cases h1
    intro _; rw [hhome]
  | renamedPv _ h =>
    rw [same (pvCfg h)] at h1; cases h1
    intro _; rw [hhome, pvShare h]
  | renamedShare fs1 _ h h' =>
    rw [same ((shCfg h').trans (pvCfg h))] at h1; cases h1
    rw [hhome]
    intro hn
    rcases rename_src h' with e | e
    · exact absurd e hn
    · rw [e, pvShare h]
  | writing fs1 fs2 h h' x hx =>
    unfold FS.readConfig at h1
    simp only [FS.set, if_true] at h1
    cases hx with
    | garbage => cases h1
    | noCosigner c' hc => cases h1; exact absurd hc hco
    | header c' e1 e2 =>
      cases h1
      have e1' : cfg'.homeDir = home := e1.trans hhome
      have e2' : cfg'.chainID = new := e2
      rw [e1', e2']
      intro _
      exact atNew fs1 fs2 _ h h'
  | done fs1 fs2 h h' =>
    unfold FS.readConfig at h1
    simp only [FS.set, if_true] at h1
    cases h1
    show (_ : FS P).files (L.state cfg.homeDir new .share) ≠ none → (_ : FS P).files (L.state cfg.homeDir new .share) = _
    rw [hhome]
    intro _
    exact atNew fs1 fs2 _ h h'

/-- In the demo home, `chain-id set d` goes through, and the cosigner then starts with the share state at height 100. -/
example : ∃ fs', ChainIDSet demoLayout hm homeConfig [100] demoFS fs' ∧
    fs'.files (.config hm) = some (.config { homeConfig with chainID := [100] }) ∧
    ∃ pv share cc, (startCosigner demoLayout demoLib (fun _ => some demoKey) fs' hm).1 = .running pv share cc ∧
      share.height = 100 :=
  ⟨_, .done _ _ rfl rfl, by decide +kernel, _, _, _, rfl, rfl⟩

/-- A configuration in `h` that says its home is `i`, where there are state files for `c` and, from earlier times, for
`d`; in `h` there are copies for `c`. -/
def movedFS : FS DemoPath where
  files := fun p => if p = .config hm then some (.config { homeConfig with homeDir := [105] })
    else if p = .state hm [99] .pv then some (.state pvFile)
    else if p = .state hm [99] .share then some (.state shareFile)
    else if p = .state [105] [99] .share then some (.state shareFile)
    else if p = .state [105] [100] .share then some (.state ⟨5, 0, 1, none, none, none⟩)
    else none
  writable := fun _ => true

/-- C40 (full statement) is false: `chain-id set` renames files next to the configuration, `cosigner start` reads them
under the configuration's `home-dir`. If these differ, the start after the command can find an old share state of the
new chain ID and lose the watermark (here from height 100 to 5). -/
theorem C40_home_fails : ∃ (fs fs' : FS DemoPath) (cfg : Config) (f : PFile) (pv share : SignState) (cc : CosignerCfg),
    fs.readConfig demoLayout hm = some cfg ∧ ChainIDSet demoLayout hm cfg [100] fs fs' ∧
    fs.files (.state cfg.homeDir cfg.chainID .share) = some (.state f) ∧
    (startCosigner demoLayout demoLib (fun _ => some demoKey) fs' hm).1 = .running pv share cc ∧
    share.height < f.height :=
  ⟨movedFS, _, { homeConfig with homeDir := [105] }, shareFile, _, _, _, rfl, .done _ _ rfl rfl, by decide +kernel, rfl,
    by decide +kernel⟩

/-- C40, exactly, if the configuration's `home-dir` is another directory than the one it is in: what `chain-id set`
renames is nothing to the start after it, which reads the file that `home-dir` had before the command for the chain ID
now configured. So the original watermark is used exactly if that file holds the same as the one of the old chain ID. -/
theorem C40_home_exact (home : Str) (cfg : Config) (new : Str) (fs fs' : FS P)
    (hcfg : fs.readConfig L home = some cfg) (hhome : ∀ c c', L.state cfg.homeDir c .share ≠ L.state home c' .share)
    (hset : ChainIDSet L home cfg new fs fs') (pv share : SignState) (cc : CosignerCfg)
    (hrun : (startCosigner L lib loadKey fs' home).1 = .running pv share cc) :
    ∃ cfg' g, fs'.readConfig L home = some cfg' ∧ cfg'.homeDir = cfg.homeDir ∧
      (cfg'.chainID = cfg.chainID ∨ cfg'.chainID = new) ∧
      fs.files (L.state cfg.homeDir cfg'.chainID .share) = some (.state g) ∧ Holds g share ∧
      ∀ f, fs.files (L.state cfg.homeDir cfg.chainID .share) = some (.state f) →
        (Holds f share ↔ f.height = g.height ∧ f.round = g.round ∧ f.step = g.step ∧
          f.ephemeralPublic.bytes = g.ephemeralPublic.bytes ∧ f.signature.bytes = g.signature.bytes ∧
          f.signBytes.bytes = g.signBytes.bytes) := by
  obtain ⟨cfg', g, h1, hv, h2, h3, _⟩ := start_running L lib loadKey hrun
  have hco : cfg'.cosigner ≠ none := by
    intro hc
    unfold validateCosignerConfig at hv
    rw [hc] at hv
    split at hv <;> cases hv
  -- the share states under `home-dir` are as they were
  have keep : ∀ {gs gs1 : FS P} {k : Kind} {a b : Str} (c : Str),
      gs.rename (L.state home a k) (L.state home b k) = some gs1 →
      gs1.files (L.state cfg.homeDir c .share) = gs.files (L.state cfg.homeDir c .share) := by
    intro gs gs1 k a b c h
    cases k with
    | pv => exact rename_other h (fun e => L.kinds _ _ _ _ e.symm) (fun e => L.kinds _ _ _ _ e.symm)
    | share => exact rename_other h (hhome _ _) (hhome _ _)
  have keepCfg : ∀ {gs gs1 : FS P} {k : Kind} {a b : Str},
      gs.rename (L.state home a k) (L.state home b k) = some gs1 → gs1.readConfig L home = gs.readConfig L home := by
    intro gs gs1 k a b h
    unfold FS.readConfig
    rw [rename_other h (L.cfgState _ _ _ _) (L.cfgState _ _ _ _)]
  have keepSet : ∀ (gs : FS P) (x : FileC) (c : Str), (gs.set (L.config home) (some x)).files (L.state cfg.homeDir c .share) =
      gs.files (L.state cfg.homeDir c .share) := by
    intro gs x c
    have := Ne.symm (L.cfgState home cfg.homeDir c .share)
    simp [FS.set, this]
  have H : cfg'.homeDir = cfg.homeDir ∧ (cfg'.chainID = cfg.chainID ∨ cfg'.chainID = new) ∧
      fs'.files (L.state cfg.homeDir cfg'.chainID .share) = fs.files (L.state cfg.homeDir cfg'.chainID .share) := by
    cases hset with
    | start => rw [hcfg] at h1; cases h1; exact ⟨rfl, .inl rfl, rfl⟩
    | renamedPv _ h =>
      rw [keepCfg h, hcfg] at h1; cases h1
      exact ⟨rfl, .inl rfl, keep _ h⟩
    | renamedShare fs1 _ h h' =>
      rw [keepCfg h', keepCfg h, hcfg] at h1; cases h1
      exact ⟨rfl, .inl rfl, (keep _ h').trans (keep _ h)⟩
    | writing fs1 fs2 h h' x hx =>
      unfold FS.readConfig at h1
      simp only [FS.set, if_true] at h1
      cases hx with
      | garbage => cases h1
      | noCosigner c' hc => cases h1; exact absurd hc hco
      | header c' e1 e2 =>
        cases h1
        exact ⟨e1, .inr e2, (keepSet _ _ _).trans ((keep _ h').trans (keep _ h))⟩
    | done fs1 fs2 h h' =>
      unfold FS.readConfig at h1
      simp only [FS.set, if_true] at h1
      cases h1
      exact ⟨rfl, .inr rfl, (keepSet _ _ _).trans ((keep _ h').trans (keep _ h))⟩
  obtain ⟨e1, e2, e3⟩ := H
  have hg : fs.files (L.state cfg.homeDir cfg'.chainID .share) = some (.state g) := by
    rw [← e3]
    rw [e1] at h2
    unfold FS.readState at h2
    split at h2
    · next f' hf => cases h2; exact hf
    · cases h2
  have hh : Holds g share := h3 ▸ holds_load g
  refine ⟨cfg', g, h1, e1, e2, hg, hh, fun f _ => ?_⟩
  obtain ⟨b1, b2, b3, b4, b5, b6⟩ := hh
  rw [b1, b2, b3, b4, b5, b6]
  exact ⟨fun ⟨a1, a2, a3, a4, a5, a6⟩ => ⟨a1, a2, a3, a4, a5, a6⟩, fun ⟨a1, a2, a3, a4, a5, a6⟩ => ⟨a1, a2, a3, a4, a5, a6⟩⟩

/-- `home-dir` `i` of the configuration in `h` is another directory, and a start after `chain-id set d` goes through. -/
example : (∀ c c', demoLayout.state [105] c .share ≠ demoLayout.state hm c' .share) ∧
    ∃ fs', ChainIDSet demoLayout hm { homeConfig with homeDir := [105] } [100] movedFS fs' ∧
      ∃ pv share cc, (startCosigner demoLayout demoLib (fun _ => some demoKey) fs' hm).1 = .running pv share cc :=
  ⟨(by intro c c' h; cases h), _, .done _ _ rfl rfl, _, _, _, rfl⟩

/-! ### C41 -/

/-- What a successful or failing run of `state set` does. -/
theorem stateSet_cases (fs : FS P) (home : Str) (running homeFound : Bool) (arg : Str) (pvW shW : Bool) :
    ((stateSet L fs home running homeFound arg pvW shW).1 = false ∧
      (stateSet L fs home running homeFound arg pvW shW).2 = fs) ∨
    ∃ cfg f g height, fs.readConfig L home = some cfg ∧
      fs.readState (L.state home cfg.chainID .pv) = some f ∧ fs.readState (L.state home cfg.chainID .share) = some g ∧
      parseInt arg = some height ∧
      stateSet L fs home running homeFound arg pvW shW =
        (true, setOne (setOne fs (L.state home cfg.chainID .pv) f height pvW) (L.state home cfg.chainID .share) g height shW) := by
  unfold stateSet stateSetWith
  by_cases hr : running = true
  · simp [hr]
  · by_cases hh : homeFound = true
    · simp [hr, hh]
    · simp only [hr, hh, Bool.false_eq_true, if_false]
      cases h1 : fs.readConfig L home with
      | none => exact .inl ⟨rfl, rfl⟩
      | some cfg =>
        simp only
        cases h2 : fs.readState (L.state home cfg.chainID .pv) with
        | none => exact .inl ⟨rfl, rfl⟩
        | some f =>
          simp only
          cases h3 : fs.readState (L.state home cfg.chainID .share) with
          | none => exact .inl ⟨rfl, rfl⟩
          | some g =>
            simp only
            cases h4 : parseInt arg with
            | none => exact .inl ⟨rfl, rfl⟩
            | some height => exact .inr ⟨cfg, f, g, height, rfl, h2, h3, rfl, rfl⟩

theorem setOne_other (fs : FS P) (p q : P) (f : PFile) (height : Int) (w : Bool) (h : q ≠ p) :
    (setOne fs p f height w).files q = fs.files q := by
  unfold setOne
  split
  · split
    · simp [FS.set, h]
    · rfl
  · rfl

theorem setOne_self (fs : FS P) (p : P) (f : PFile) (height : Int) (w : Bool) :
    (setOne fs p f height w).files p = fs.files p ∨
    (w = true ∧ f.hrs ≺ ⟨height, 0, 0⟩ ∧
      (setOne fs p f height w).files p = some (.state ⟨height, 0, 0, none, none, none⟩)) := by
  unfold setOne
  generalize hl : ({ f.load with ephemeralPublic := none } : SignState) = l
  have hl' : l.hrs = f.hrs := by rw [← hl]; rfl
  have he : l.ephemeralPublic = none := by rw [← hl]
  generalize hx : l.save ⟨height, 0, 0, none, none⟩ = x
  obtain ⟨e, l'⟩ := x
  cases e with
  | some e => exact .inl rfl
  | none =>
    cases w with
    | false => exact .inl rfl
    | true =>
      right
      refine ⟨rfl, ?_, ?_⟩
      · rw [← hl']
        exact (l.save_ok_iff _).1 (by rw [hx])
      · have hlt : l.hrs ≺ (⟨height, 0, 0, none, none⟩ : SSC).hrs := (l.save_ok_iff _).1 (by rw [hx])
        have := l.save_ok _ hlt
        rw [hx] at this
        cases this
        simp [FS.set, SignState.persist, he, Slice.norm]

/-- C41, partial: if `state set` reports success, the requested height was above both watermarks and both background
writes got done before the process exited, then both state files hold that height with round 0 and step 0 (and no
signature). Missing: heights that are not above (`C41_lower_fails`) and an exit before the writes
(`C41_exit_fails`). -/
theorem C41_partial (fs : FS P) (home : Str) (running homeFound : Bool) (arg : Str) (height : Int)
    (hp : parseInt arg = some height)
    (hok : (stateSet L fs home running homeFound arg true true).1 = true)
    (habove : ∀ cfg f k, fs.readConfig L home = some cfg → fs.files (L.state home cfg.chainID k) = some (.state f) →
      f.height < height ∨ f.height = height ∧ (f.round < 0 ∨ f.round = 0 ∧ f.step < 0)) :
    ∃ cfg, fs.readConfig L home = some cfg ∧ ∀ k,
      (stateSet L fs home running homeFound arg true true).2.files (L.state home cfg.chainID k) =
        some (.state ⟨height, 0, 0, none, none, none⟩) := by
  rcases stateSet_cases L fs home running homeFound arg true true with ⟨h, _⟩ | ⟨cfg, f, g, height', h1, h2, h3, h4, h5⟩
  · rw [hok] at h; cases h
  · rw [hp] at h4; cases h4
    have read : ∀ {p : P} {g : PFile}, fs.readState p = some g → fs.files p = some (.state g) := by
      intro p g hg
      unfold FS.readState at hg
      split at hg
      · next f' hf => cases hg; exact hf
      · cases hg
    have up : ∀ {fs1 : FS P} {p : P} {f : PFile}, f.hrs ≺ ⟨height, 0, 0⟩ →
        (setOne fs1 p f height true).files p = some (.state ⟨height, 0, 0, none, none, none⟩) := by
      intro fs1 p f hlt
      unfold setOne
      have hlt' : ({ f.load with ephemeralPublic := none } : SignState).hrs ≺ (⟨height, 0, 0, none, none⟩ : SSC).hrs := hlt
      rw [SignState.save_ok _ _ hlt']
      simp [FS.set, SignState.persist, Slice.norm]
    have hne : L.state home cfg.chainID .pv ≠ L.state home cfg.chainID .share := L.kinds _ _ _ _
    refine ⟨cfg, h1, fun k => ?_⟩
    rw [h5]
    cases k with
    | pv =>
      simp only
      rw [setOne_other _ _ _ _ _ _ hne]
      exact up (habove cfg f .pv h1 (read h2))
    | share => exact up (habove cfg g .share h1 (read h3))

/-- C41: when `state set` reports an error, no file has changed. -/
theorem C41_error_unchanged (fs : FS P) (home : Str) (running homeFound : Bool) (arg : Str) (pvW shW : Bool)
    (h : (stateSet L fs home running homeFound arg pvW shW).1 = false) :
    (stateSet L fs home running homeFound arg pvW shW).2 = fs := by
  rcases stateSet_cases L fs home running homeFound arg pvW shW with ⟨_, h'⟩ | ⟨_, _, _, _, _, _, _, _, h'⟩
  · exact h'
  · rw [h'] at h; cases h

/-- C41: whatever it reports, and whichever background writes get done, `state set` leaves every file as it was, or
moves a state file of the configured chain up to the requested height. -/
theorem C41_never_lowers (fs : FS P) (home : Str) (running homeFound : Bool) (arg : Str) (pvW shW : Bool) (p : P) :
    (stateSet L fs home running homeFound arg pvW shW).2.files p = fs.files p ∨
    ∃ f height, fs.files p = some (.state f) ∧ parseInt arg = some height ∧ f.hrs ≺ ⟨height, 0, 0⟩ ∧
      (stateSet L fs home running homeFound arg pvW shW).2.files p = some (.state ⟨height, 0, 0, none, none, none⟩) := by
  rcases stateSet_cases L fs home running homeFound arg pvW shW with ⟨_, h⟩ | ⟨cfg, f, g, height, h1, h2, h3, h4, h5⟩
  · rw [h]; exact .inl rfl
  · have read : ∀ {p : P} {g : PFile}, fs.readState p = some g → fs.files p = some (.state g) := by
      intro p g hg
      unfold FS.readState at hg
      split at hg
      · next f' hf => cases hg; exact hf
      · cases hg
    have hne : L.state home cfg.chainID .pv ≠ L.state home cfg.chainID .share := L.kinds _ _ _ _
    rw [h5]
    simp only
    by_cases hps : p = L.state home cfg.chainID .share
    · subst hps
      rcases setOne_self (setOne fs (L.state home cfg.chainID .pv) f height pvW) (L.state home cfg.chainID .share) g height
        shW with e | ⟨_, hlt, e⟩
      · left; rw [e]; exact setOne_other _ _ _ _ _ _ (Ne.symm hne)
      · exact .inr ⟨g, height, read h3, h4, hlt, e⟩
    · rw [setOne_other _ _ _ _ _ _ hps]
      by_cases hpv : p = L.state home cfg.chainID .pv
      · subst hpv
        rcases setOne_self fs (L.state home cfg.chainID .pv) f height pvW with e | ⟨_, hlt, e⟩
        · exact .inl e
        · exact .inr ⟨f, height, read h2, h4, hlt, e⟩
      · exact .inl (setOne_other _ _ _ _ _ _ hpv)

/-- `state set 101` and `state set 100` in the demo home. -/
def arg101 : Str := [49, 48, 49]
def arg100 : Str := [49, 48, 48]

example : (stateSet demoLayout demoFS hm false false arg101 true true).1 = true ∧
    (stateSet demoLayout demoFS hm false false arg101 true true).2.files (.state hm [99] .share) =
      some (.state ⟨101, 0, 0, none, none, none⟩) ∧
    (stateSet demoLayout demoFS hm true false arg101 true true).1 = false := by decide +kernel

/-- C41 (full statement) is false: for a height at or below the stored one (here the same height at round 2) the
command reports success and stores nothing. -/
theorem C41_lower_fails : ∃ (fs : FS DemoPath) (arg : Str) (height : Int), parseInt arg = some height ∧
    (stateSet demoLayout fs hm false false arg true true).1 = true ∧
    (stateSet demoLayout fs hm false false arg true true).2.files (.state hm [99] .share) = some (.state shareFile) ∧
    shareFile ≠ ⟨height, 0, 0, none, none, none⟩ :=
  ⟨demoFS, arg100, 100, by decide +kernel, by decide +kernel, by decide +kernel, by decide +kernel⟩

/-- C41 (full statement) is false: the command returns without waiting for the background writes; if the process
exits before them, it has reported success and stored nothing. -/
theorem C41_exit_fails : ∃ (fs : FS DemoPath) (arg : Str) (height : Int), parseInt arg = some height ∧
    (∀ k f, fs.files (.state hm [99] k) = some (.state f) → f.height < height) ∧
    (stateSet demoLayout fs hm false false arg false false).1 = true ∧
    (stateSet demoLayout fs hm false false arg false false).2 = fs := by
  refine ⟨demoFS, arg101, 101, by decide +kernel, ?_, by decide +kernel, rfl⟩
  intro k f hf
  cases k
  · have : demoFS.files (.state hm [99] .pv) = some (.state pvFile) := by decide +kernel
    rw [this] at hf; cases hf; decide
  · have : demoFS.files (.state hm [99] .share) = some (.state shareFile) := by decide +kernel
    rw [this] at hf; cases hf; decide

/-! ### C56 -/

theorem readState_set_other (fs : FS P) (p q : P) (x : Option FileC) (h : q ≠ p) :
    (fs.set p x).readState q = fs.readState q := by
  unfold FS.readState FS.set
  simp [h]

/-- C56: without the overwrite flag, an existing configuration file makes `config init` fail and change nothing. -/
theorem C56_no_overwrite (fs : FS P) (home : Str) (a : InitArgs) (dirsOk : Bool)
    (hex : fs.files (L.config home) ≠ none) (ho : a.overwrite = false) :
    configInit L lib fs home a dirsOk = (false, fs) := by
  unfold configInit
  split
  · rfl
  · rw [if_pos ⟨hex, ho⟩]

/-- C56: if the arguments do not pass validation, nothing is written. -/
theorem C56_invalid (fs : FS P) (home : Str) (a : InitArgs) (dirsOk : Bool) (e : CfgErr)
    (h : initConfig lib home a = .error e) : configInit L lib fs home a dirsOk = (false, fs) := by
  unfold configInit
  split
  · rfl
  · split
    · rfl
    · rw [h]

/-- C56: whatever the outcome and the flags, every readable state file is kept as it is. -/
theorem C56_keeps_state (fs : FS P) (home : Str) (a : InitArgs) (dirsOk : Bool) (h : Str) (c : Str) (k : Kind)
    (f : PFile) (hf : fs.readState (L.state h c k) = some f) :
    (configInit L lib fs home a dirsOk).2.files (L.state h c k) = fs.files (L.state h c k) := by
  have hne : L.state h c k ≠ L.config home := Ne.symm (L.cfgState _ _ _ _)
  have hk : ∀ (fs1 : FS P) (p : P), fs1.readState (L.state h c k) = some f → fs1.files (L.state h c k) = fs.files (L.state h c k) →
      (fs1.loadOrCreate p).2.readState (L.state h c k) = some f ∧
      (fs1.loadOrCreate p).2.files (L.state h c k) = fs.files (L.state h c k) := by
    intro fs1 p h1 h2
    have := loadOrCreate_keep fs1 p (L.state h c k) f h1
    refine ⟨?_, this.trans h2⟩
    unfold FS.readState at h1 ⊢
    rw [this]; exact h1
  unfold configInit
  split
  · rfl
  split
  · rfl
  split
  · rfl
  next cfg _ =>
  split
  · rfl
  split
  · rfl
  have s1 : (fs.set (L.config home) (some (.config cfg))).readState (L.state h c k) = some f := by
    rw [readState_set_other _ _ _ _ hne]; exact hf
  have s2 : (fs.set (L.config home) (some (.config cfg))).files (L.state h c k) = fs.files (L.state h c k) := by
    simp [FS.set, hne]
  obtain ⟨t1, t2⟩ := hk _ (L.state home a.chainID .pv) s1 s2
  simp only
  generalize (fs.set (L.config home) (some (.config cfg))).loadOrCreate (L.state home a.chainID .pv) = x at t1 t2 ⊢
  obtain ⟨o, fs2⟩ := x
  cases o with
  | ok l =>
    simp only
    split
    · obtain ⟨_, u2⟩ := hk fs2 (L.state home a.chainID .share) t1 t2
      generalize fs2.loadOrCreate (L.state home a.chainID .share) = y at u2 ⊢
      obtain ⟨o', fs3⟩ := y
      cases o' <;> exact u2
    · exact t2
  | err e => exact t2
  | panic => exact t2

/-- C56: on success the configuration file holds the configuration built from the flags, and the state files of the
chain (the share state only for a cosigner) are readable. -/
theorem C56_success (fs : FS P) (home : Str) (a : InitArgs) (dirsOk : Bool)
    (h : (configInit L lib fs home a dirsOk).1 = true) :
    ∃ cfg, initConfig lib home a = .ok cfg ∧
      (configInit L lib fs home a dirsOk).2.files (L.config home) = some (.config cfg) ∧
      (configInit L lib fs home a dirsOk).2.readState (L.state home a.chainID .pv) ≠ none ∧
      (a.cosigner = true → (configInit L lib fs home a dirsOk).2.readState (L.state home a.chainID .share) ≠ none) := by
  have hlc : ∀ (fs1 : FS P) (p : P) (l : SignState), (fs1.loadOrCreate p).1 = .ok l →
      (fs1.loadOrCreate p).2.readState p ≠ none := by
    intro fs1 p l hl
    cases hr : fs1.readState p with
    | some f => rw [(C39_loadOrCreate_keeps fs1 p f hr).1, hr]; simp
    | none =>
      cases hw : fs1.writable p with
      | true => rw [((C39_loadOrCreate_creates fs1 p hr).1 hw).2.1]; simp
      | false => rw [(C39_loadOrCreate_creates fs1 p hr).2 hw] at hl; cases hl
  unfold configInit at h ⊢
  split at h
  · cases h
  split at h
  · cases h
  next hno =>
  split at h
  · cases h
  next cfg hcfg =>
  split at h
  · cases h
  next hd =>
  split at h
  · cases h
  next hw =>
  simp only [hno, hcfg, hd, hw, if_false] at h ⊢
  refine ⟨cfg, rfl, ?_⟩
  generalize hfs1 : fs.set (L.config home) (some (.config cfg)) = fs1 at h ⊢
  have c1 : fs1.files (L.config home) = some (.config cfg) := by rw [← hfs1]; simp [FS.set]
  have r1 := hlc fs1 (L.state home a.chainID .pv)
  have c2 := loadOrCreate_other fs1 (L.state home a.chainID .pv) (L.config home) (L.cfgState _ _ _ _)
  generalize fs1.loadOrCreate (L.state home a.chainID .pv) = x at h r1 c2 ⊢
  obtain ⟨o, fs2⟩ := x
  cases o with
  | ok l =>
    simp only at h c2 ⊢
    have r1' := r1 l rfl
    by_cases hcs : a.cosigner = true
    · simp only [hcs, if_true] at h ⊢
      have r2 := hlc fs2 (L.state home a.chainID .share)
      have c3 := loadOrCreate_other fs2 (L.state home a.chainID .share) (L.config home) (L.cfgState _ _ _ _)
      have k3 := loadOrCreate_other fs2 (L.state home a.chainID .share) (L.state home a.chainID .pv) (L.kinds _ _ _ _)
      generalize fs2.loadOrCreate (L.state home a.chainID .share) = y at h r2 c3 k3 ⊢
      obtain ⟨o', fs3⟩ := y
      cases o' with
      | ok l' =>
        refine ⟨c3.trans (c2.trans c1), ?_, fun _ => r2 l' rfl⟩
        show fs3.readState (L.state home a.chainID .pv) ≠ none
        have k3' : fs3.files (L.state home a.chainID .pv) = fs2.files (L.state home a.chainID .pv) := k3
        unfold FS.readState at r1' ⊢
        rw [k3']; exact r1'
      | err e => cases h
      | panic => cases h
    · simp only [hcs] at h ⊢
      exact ⟨c2.trans c1, r1', fun h => absurd h (by simp)⟩
  | err e => cases h
  | panic => cases h

/-- C56: `config init` reports success whenever nothing is in its way: the flags make a configuration, none is there or it
may be overwritten, the directories could be made and the files can be written. -/
theorem C56_completes (fs : FS P) (home : Str) (a : InitArgs) (ns : List Str) (cfg : Config) (hns : initNodes lib a = .ok ns)
    (hcfg : initConfig lib home a = .ok cfg) (hnew : fs.files (L.config home) = none ∨ a.overwrite = true)
    (hw : ∀ p, fs.writable p = true) : (configInit L lib fs home a true).1 = true := by
  have hlc : ∀ (fs1 : FS P) (p : P), (∀ p, fs1.writable p = true) →
      (∃ l, (fs1.loadOrCreate p).1 = .ok l) ∧ ∀ q, (fs1.loadOrCreate p).2.writable q = true := by
    intro fs1 p hw
    unfold FS.loadOrCreate
    cases fs1.readState p with
    | some f => exact ⟨⟨_, rfl⟩, hw⟩
    | none => simp only [hw p, if_true]; exact ⟨⟨_, rfl⟩, hw⟩
  unfold configInit
  rw [hns]
  simp only
  rw [if_neg (by rcases hnew with h | h <;> simp [h]), hcfg]
  simp only [hw, Bool.true_eq_false, if_false]
  obtain ⟨⟨l, hl⟩, hw2⟩ := hlc (fs.set (L.config home) (some (.config cfg))) (L.state home a.chainID .pv) hw
  generalize (fs.set (L.config home) (some (.config cfg))).loadOrCreate (L.state home a.chainID .pv) = x at hl hw2 ⊢
  obtain ⟨o, fs2⟩ := x
  simp only at hl hw2
  subst hl
  simp only
  split
  · obtain ⟨⟨l', hl'⟩, _⟩ := hlc fs2 (L.state home a.chainID .share) hw2
    generalize fs2.loadOrCreate (L.state home a.chainID .share) = y at hl' ⊢
    obtain ⟨o', fs3⟩ := y
    simp only at hl'
    subst hl'
    rfl
  · rfl

/-- `config init c n -c -p a|2,b|3 -t 2 -l l` in the demo home, with and without the overwrite flag. -/
def demoInit (overwrite : Bool) : InitArgs :=
  { chainID := [99], chainNodes := some [110], cosigner := true, peers := [97, 124, 50, 44, 98, 124, 51], threshold := 2,
    listen := [108], keyFile := [], timeout := [49], overwrite := overwrite }

example : (configInit demoLayout demoLib demoFS hm (demoInit false) true).1 = false ∧
    (configInit demoLayout demoLib demoFS hm (demoInit true) true).1 = true ∧
    (configInit demoLayout demoLib demoFS hm (demoInit true) true).2.files (.state hm [99] .share) =
      some (.state shareFile) ∧
    (configInit demoLayout demoLib demoFS hm { demoInit true with timeout := [33] } true).1 = false ∧
    (configInit demoLayout demoLib (demoFS.set (.config hm) none) hm (demoInit false) true).1 = true ∧
    initConfig demoLib hm { demoInit true with timeout := [33] } = .error .badTimeout := by decide +kernel

/-- The same for a single signer in an empty home. -/
example : (configInit demoLayout demoLib (demoFS.set (.config hm) none) hm { demoInit false with cosigner := false } true).1 =
    true := by decide +kernel

end Horcrux
