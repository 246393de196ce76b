import Verif.Model.Disk
import Verif.Model.Start
/-
The commands that touch the state files, on a file system: `sign_state.go:246-284` (load, load-or-create),
`cmd/horcrux/cmd/cosigner.go:106-196` (`cosigner start` up to the local cosigner), `cmd/horcrux/cmd/config.go:43-178`
(`config init`), `config.go:480-518` (`chain-id set`), `cmd/horcrux/cmd/state.go:69-117` (`state set`).

Simplified: file contents are represented by what they decode to (`FileC`; anything that cannot be read or decoded is
`garbage`), the key file by a function, directories by nothing. Paths are abstract: `path.Join` may map different
chain IDs to the same file (`a/../b`), but never a private validator state file to a share state file or a
configuration file (their names end differently).
-/
namespace Horcrux

/-- The two state files of a chain. -/
inductive Kind where
  | pv     -- `<chain id>_priv_validator_state.json`
  | share  -- `<chain id>_share_sign_state.json`
  deriving DecidableEq, Repr

/-- Where the files are: `state home chainID kind` is `path.Join(home, "state", chainID + suffix)` and `config home`
is `path.Join(home, "config.yaml")`. -/
structure Layout (P : Type) where
  state : Str → Str → Kind → P
  config : Str → P
  kinds : ∀ h c h' c', state h c .pv ≠ state h' c' .share
  cfgState : ∀ h h' c k, config h ≠ state h' c k

/-- What a file holds. -/
inductive FileC where
  | garbage
  | state (f : PFile)
  | config (c : Config)
  deriving DecidableEq, Repr

/-- The files, and whether a file can be (over)written. -/
structure FS (P : Type) where
  files : P → Option FileC
  writable : P → Bool

variable {P : Type} [DecidableEq P]

def FS.set (fs : FS P) (p : P) (x : Option FileC) : FS P :=
  { fs with files := fun q => if q = p then x else fs.files q }

/-- `sign_state.go:246-265` `LoadSignState`: the decoded file, or `none` on an error. -/
def FS.readState (fs : FS P) (p : P) : Option PFile :=
  match fs.files p with
  | some (.state f) => some f
  | _ => none

/-- `root.go:38-60`: the configuration in use. `none`: the file is missing (`config` stays nil, and every command here
dereferences it) or cannot be read (the process exits). -/
def FS.readConfig (L : Layout P) (fs : FS P) (home : Str) : Option Config :=
  match fs.files (L.config home) with
  | some (.config c) => some c
  | _ => none

/-- `sign_state.go:267-284` `LoadOrCreateSignState`; a failing write panics (line 157). The empty state has an empty
cache. -/
def FS.loadOrCreate (fs : FS P) (p : P) : Out SignState × FS P :=
  match fs.readState p with
  | some f => (.ok f.load, fs)
  | none =>
    if fs.writable p then (.ok .empty, fs.set p (some (.state SignState.empty.persist)))
    else (.panic, fs)

/-- How `cosigner start` ends: it stops with an error, a panic or `log.Fatal`, or it has built the local cosigner
with the private validator state `pv` and the share state `share`. -/
inductive StartRes where
  | refused
  | running (pv share : SignState) (cfg : CosignerCfg)

/-- `cosigner.go:106-208`: `cosigner start` with the configuration that was read. `loadKey` stands for the key file named by the configuration
(`KeyFileExists` and `LoadCosignerKey`, 133-157). -/
def startCosignerWith (L : Layout P) (lib : Lib) (loadKey : Config → Option CosignerKey) (fs : FS P) (cfg : Config) :
    StartRes × FS P :=
  match validateCosignerConfig lib cfg with
  | .error _ => (.refused, fs)
  | .ok () =>
    match loadKey cfg with
    | none => (.refused, fs)
    | some key =>
      -- 160-164
      match fs.loadOrCreate (L.state cfg.homeDir cfg.chainID .pv) with
      | (.ok pv, fs1) =>
        -- 168-172
        match fs1.readState (L.state cfg.homeDir cfg.chainID .share) with
        | none => (.refused, fs1)
        | some f =>
          match startCfg lib cfg key with
          | none => (.refused, fs1)
          | some cc => (.running pv f.load cc, fs1)
      | (_, fs1) => (.refused, fs1)

/-- `cosigner start` with the configuration in the file. -/
def startCosigner (L : Layout P) (lib : Lib) (loadKey : Config → Option CosignerKey) (fs : FS P) (home : Str) :
    StartRes × FS P :=
  match fs.readConfig L home with
  | none => (.refused, fs)
  | some cfg => startCosignerWith L lib loadKey fs cfg

/-- What a `config.yaml` holds while `ioutil.WriteFile` (which truncates and then writes) is writing `c`: nothing
readable, or the configuration in a prefix of the text. The fields come in the order home-dir, key-file, chain-id,
cosigner, chain-nodes (`config.go:520-526`), so a prefix with a cosigner section has the whole home directory and
chain ID. -/
inductive Truncated (c : Config) : FileC → Prop where
  | garbage : Truncated c .garbage
  | noCosigner (c' : Config) (h : c'.cosigner = none) : Truncated c (.config c')
  | header (c' : Config) (h : c'.homeDir = c.homeDir) (h' : c'.chainID = c.chainID) : Truncated c (.config c')

/-- `os.Rename`: fails if there is no source. -/
def FS.rename (fs : FS P) (src dst : P) : Option (FS P) :=
  match fs.files src with
  | none => none
  | some x => if src = dst then some fs else some ((fs.set dst (some x)).set src none)

/-- `config.go:480-518` `chain-id set new`, with configuration `cfg`: the file systems it can leave behind, when it is
interrupted or fails at any point or finishes. -/
inductive ChainIDSet (L : Layout P) (home : Str) (cfg : Config) (new : Str) (fs : FS P) : FS P → Prop where
  | start : ChainIDSet L home cfg new fs fs
  | renamedPv (fs1 : FS P) (h : fs.rename (L.state home cfg.chainID .pv) (L.state home new .pv) = some fs1) :
      ChainIDSet L home cfg new fs fs1
  | renamedShare (fs1 fs2 : FS P)
      (h : fs.rename (L.state home cfg.chainID .pv) (L.state home new .pv) = some fs1)
      (h' : fs1.rename (L.state home cfg.chainID .share) (L.state home new .share) = some fs2) :
      ChainIDSet L home cfg new fs fs2
  | writing (fs1 fs2 : FS P)
      (h : fs.rename (L.state home cfg.chainID .pv) (L.state home new .pv) = some fs1)
      (h' : fs1.rename (L.state home cfg.chainID .share) (L.state home new .share) = some fs2)
      (x : FileC) (hx : Truncated { cfg with chainID := new } x) :
      ChainIDSet L home cfg new fs (fs2.set (L.config home) (some x))
  | done (fs1 fs2 : FS P)
      (h : fs.rename (L.state home cfg.chainID .pv) (L.state home new .pv) = some fs1)
      (h' : fs1.rename (L.state home cfg.chainID .share) (L.state home new .share) = some fs2) :
      ChainIDSet L home cfg new fs (fs2.set (L.config home) (some (.config { cfg with chainID := new })))

/-- One of the two saves of `state set` (`state.go:102-112`): the ephemeral key is cleared, `Save` is called and its
error ignored; if it succeeded its goroutine writes the file, provided it gets to (`written`) before the process
exits. -/
def setOne (fs : FS P) (p : P) (f : PFile) (height : Int) (written : Bool) : FS P :=
  match ({ f.load with ephemeralPublic := none } : SignState).save ⟨height, 0, 0, none, none⟩ with
  | (none, l) => if written then fs.set p (some (.state l.persist)) else fs
  | (some _, _) => fs

/-- `state.go:91-114` `state set arg` with the configuration that was read; `true` is success. -/
def stateSetWith (L : Layout P) (fs : FS P) (home : Str) (cfg : Config) (arg : Str) (pvWritten shareWritten : Bool) :
    Bool × FS P :=
  match fs.readState (L.state home cfg.chainID .pv) with
  | none => (false, fs)
  | some pv =>
    match fs.readState (L.state home cfg.chainID .share) with
    | none => (false, fs)
    | some share =>
      match parseInt arg with
      | none => (false, fs)
      | some height =>
        (true, setOne (setOne fs (L.state home cfg.chainID .pv) pv height pvWritten)
          (L.state home cfg.chainID .share) share height shareWritten)

/-- `state.go:69-117` `state set arg`; `true` is success. `running`: some process looks like horcrux; `homeFound`:
`os.Stat(homeDir)` does not say that the `--home` directory is missing (without the flag it does). -/
def stateSet (L : Layout P) (fs : FS P) (home : Str) (running homeFound : Bool) (arg : Str)
    (pvWritten shareWritten : Bool) : Bool × FS P :=
  if running then (false, fs)
  else if homeFound then (false, fs)
  else
    match fs.readConfig L home with
    | none => (false, fs)
    | some cfg => stateSetWith L fs home cfg arg pvWritten shareWritten

/-- `config.go:43-178` `config init`; the flags are checked by `initConfig` (`Verif.Model.Config`). `dirsOk`: the
directories could be made. A failing write of the configuration is an error, of a state file a panic; both are
`false`. -/
def configInit (L : Layout P) (lib : Lib) (fs : FS P) (home : Str) (a : InitArgs) (dirsOk : Bool) : Bool × FS P :=
  match initNodes lib a with
  | .error _ => (false, fs)
  | .ok _ =>
    -- line 76
    if fs.files (L.config home) ≠ none ∧ a.overwrite = false then (false, fs)
    else
      match initConfig lib home a with
      | .error _ => (false, fs)
      | .ok cfg =>
        if dirsOk = false then (false, fs)
        else if fs.writable (L.config home) = false then (false, fs)
        else
          let fs1 := fs.set (L.config home) (some (.config cfg))
          match fs1.loadOrCreate (L.state home a.chainID .pv) with
          | (.ok _, fs2) =>
            if a.cosigner then
              match fs2.loadOrCreate (L.state home a.chainID .share) with
              | (.ok _, fs3) => (true, fs3)
              | (_, fs3) => (false, fs3)
            else (true, fs2)
          | (_, fs2) => (false, fs2)

end Horcrux
