import Verif.Model.Address
import Verif.Model.StateCmd
/-
The program `horcrux` from the outside: `cmd/horcrux/cmd/root.go` reads the configuration into a global pointer, then
one command runs. The commands themselves are those of `Verif.Model.Config`, `FS`, `StateCmd` and `Address`; here they
get the pointer, which is nil if no configuration could be read.

Simplified: the arguments have the number and flags that cobra checks (except those of `address`); `signer start` after
its checks of the configuration and `elect` after its checks are given by what they end with; whether `config init` and
the two `start` commands end with an error or a panic after their checks is not told apart (`failed`).
-/
namespace Horcrux

/-- The extensions of configuration files that viper (1.8.1, `SupportedExts`) knows. -/
inductive Ext where
  | json | toml | yaml | yml | properties | props | prop | hcl | dotenv | env | ini
  deriving DecidableEq, Repr

/-- `SupportedExts`, in the order in which `searchInPath` of viper tries them. -/
def supportedExts : List Ext := [.json, .toml, .yaml, .yml, .properties, .props, .prop, .hcl, .dotenv, .env, .ini]

/-- What a configuration file is to `initConfig`. -/
inductive CfgText where
  | unreadable          -- `viper.ReadInConfig` (root.go:50) fails
  | mistyped            -- `viper.Unmarshal` or `yaml.Unmarshal` (55, 58) fails
  | config (c : Config)
  deriving DecidableEq, Repr

/-- The state of the machine: the files of `Verif.Model.FS`, and the files `config.<ext>` in `$HOME/.horcrux` other than
`config.yaml`. A `config.yaml` that holds no configuration cannot be read, or (`mistyped`) has values of the wrong type. -/
structure Host (P : Type) where
  fs : FS P
  alt : Ext → Option CfgText
  mistyped : Bool

/-- What goes on around the commands: the caller, the key files, and how the parts that are not modelled here end. -/
structure Around where
  caller : Caller
  loadKey : Config → Option CosignerKey
  hash : Bytes → Bytes
  rsa : RSACodec
  shareFile : Str → Str
  keyFiles : Str → Option Bytes
  singleStarts : Config → Bool
  elected : Config → List Str → Bool

/-- The commands that use the configuration or write it. -/
inductive ProgCmd where
  | init (a : InitArgs) (dirsOk : Bool)                        -- `config init`
  | edit (c : CfgCmd)                                          -- `config nodes add` ... `config set-shares`
  | chainIDSet (new : Str)                                     -- `config chain-id set`
  | stateShow                                                  -- `state show`
  | stateSet (arg : Str) (pvWritten shareWritten : Bool)       -- `state set`
  | address (args : List Str)                                  -- `cosigner address`
  | start                                                      -- `cosigner start`
  | signerStart                                                -- `signer start`
  | elect (args : List Str)                                    -- `elect`

/-- How the program ends (`ok` for the `start` commands: it serves). -/
inductive Outcome where
  | ok
  | error    -- a message and exit code 1
  | crash    -- a nil pointer is dereferenced
  | failed   -- a message or a panic
  deriving DecidableEq, Repr

variable {P : Type} [DecidableEq P]

/-- What `config.yaml` in directory `home` is to `initConfig`; `none`: there is no such file. -/
def Host.yaml (L : Layout P) (m : Host P) (home : Str) : Option CfgText :=
  match m.fs.files (L.config home) with
  | none => none
  | some (.config c) => some (.config c)
  | some _ => some (if m.mistyped then .mistyped else .unreadable)

/-- The file `config.<ext>` in the directory in use. -/
def Host.text (L : Layout P) (m : Host P) (home : Str) (e : Ext) : Option CfgText :=
  if e = .yaml then m.yaml L home else m.alt e

/-- `root.go:39-50`: with `--home` the file `config.yaml` of that directory; without, viper looks for `config` with any
extension it knows in `$HOME/.horcrux`. -/
def Host.used (L : Layout P) (m : Host P) (c : Caller) : Option CfgText :=
  match c.flag with
  | some d => m.yaml L d
  | none =>
    match supportedExts.find? (fun e => (m.text L c.defaultHome e).isSome) with
    | none => none
    | some e => m.text L c.defaultHome e

/-- `root.go:37-60` `initConfig`: the pointer `config`, or `none` if the process exits (61-67). -/
def Host.load (L : Layout P) (m : Host P) (c : Caller) : Option (Option Config) :=
  match m.used L c with
  | none => some none
  | some .unreadable => some none
  | some .mistyped => none
  | some (.config cfg) => some (some cfg)

/-- `config.go:180-182`. -/
def writeConfig (L : Layout P) (fs : FS P) (home : Str) (cfg : Config) : Outcome × FS P :=
  if fs.writable (L.config home) then (.ok, fs.set (L.config home) (some (.config cfg))) else (.error, fs)

/-- The editing commands with the pointer `config`: `nodes add` (`config.go:247-256`), `nodes remove` (288-292),
`peers add` (350-355) and `set-shares` (441-445) read their argument before they use it, `peers remove` (392) does not. -/
def runEdit (L : Layout P) (lib : Lib) (fs : FS P) (home : Str) (config : Option Config) (c : CfgCmd) : Outcome × FS P :=
  match config with
  | some cfg =>
    match c.run lib cfg with
    | (.done, cfg') => writeConfig L fs home cfg'
    | (.failed _, _) => (.error, fs)
    | (.crash, _) => (.crash, fs)
  | none =>
    match c with
    | .nodesAdd arg | .nodesRemove arg =>
      match chainNodesFromArg lib arg with
      | .error _ => (.error, fs)
      | .ok _ => (.crash, fs)
    | .peersAdd arg =>
      match peersFromFlag arg with
      | .error _ => (.error, fs)
      | .ok _ => (.crash, fs)
    | .peersRemove _ => (.crash, fs)
    | .setShares arg =>
      match parseInt arg with
      | none => (.error, fs)
      | some _ => (.crash, fs)

/-- `config.go:488-516` `chain-id set`, uninterrupted (`ChainIDSet` has every point of interruption). -/
def runChainIDSet (L : Layout P) (fs : FS P) (home : Str) (cfg : Config) (new : Str) : Outcome × FS P :=
  match fs.rename (L.state home cfg.chainID .pv) (L.state home new .pv) with
  | none => (.error, fs)
  | some fs1 =>
    match fs1.rename (L.state home cfg.chainID .share) (L.state home new .share) with
    | none => (.error, fs1)
    | some fs2 => writeConfig L fs2 home { cfg with chainID := new }

/-- A command with the pointer `config`. -/
def ProgCmd.exec (L : Layout P) (lib : Lib) (e : Around) (config : Option Config) (fs : FS P) : ProgCmd → Outcome × FS P
  | .init a dirsOk =>
    match configInit L lib fs e.caller.home a dirsOk with
    | (true, fs') => (.ok, fs')
    | (false, fs') => (.failed, fs')
  | .edit c => runEdit L lib fs e.caller.home config c
  | .chainIDSet new =>
    match config with
    | none => (.crash, fs)   -- config.go:499
    | some cfg => runChainIDSet L fs e.caller.home cfg new
  | .stateShow =>
    if e.caller.homeFound then (.error, fs)
    else
      match config with
      | none => (.crash, fs)   -- state.go:46
      | some cfg => if (stateShowWith L fs e.caller.home cfg).isSome then (.ok, fs) else (.error, fs)
  | .stateSet arg pvWritten shareWritten =>
    if e.caller.isRunning then (.error, fs)
    else if e.caller.homeFound then (.error, fs)
    else
      match config with
      | none => (.crash, fs)   -- state.go:92
      | some cfg =>
        match stateSetWith L fs e.caller.home cfg arg pvWritten shareWritten with
        | (true, fs') => (.ok, fs')
        | (false, fs') => (.error, fs')
  | .address args =>
    if 1 < args.length then (.error, fs)
    else
      match config with
      | none => (.crash, fs)   -- cosigner.go:45, config.go:198
      | some cfg =>
        match addressCmd e.hash e.rsa lib e.shareFile e.keyFiles cfg args with
        | .printed _ => (.ok, fs)
        | .failed => (.error, fs)
        | .panic => (.failed, fs)
  | .start =>
    match config with
    | none => (.crash, fs)   -- cosigner.go:112, config.go:198
    | some cfg =>
      match validateCosignerConfig lib cfg with
      | .error _ => (.error, fs)
      | .ok () =>
        match startCosignerWith L lib e.loadKey fs cfg with
        | (.running _ _ _, fs') => (.ok, fs')
        | (.refused, fs') => (.failed, fs')
  | .signerStart =>
    match config with
    | none => (.crash, fs)   -- signer.go:33, config.go:185
    | some cfg =>
      match validateSingleSignerConfig lib cfg with
      | .error _ => (.error, fs)
      | .ok () => if e.singleStarts cfg then (.ok, fs) else (.failed, fs)
  | .elect args =>
    -- leader_election.go:32-43
    match config with
    | none => (.error, fs)
    | some cfg =>
      match cfg.cosigner with
      | none => (.error, fs)
      | some c =>
        if c.peers.length = 0 then (.error, fs)
        else if e.elected cfg args then (.ok, fs) else (.error, fs)

/-- One run of the program: cobra runs `initConfig` before the command (`root.go:31-33`). -/
def ProgCmd.run (L : Layout P) (lib : Lib) (e : Around) (m : Host P) (cmd : ProgCmd) : Outcome × Host P :=
  match m.load L e.caller with
  | none => (.error, m)
  | some config =>
    match cmd.exec L lib e config m.fs with
    | (o, fs') => (o, { m with fs := fs' })

/-- The machine after one command after another, each run by the same caller. -/
def runProg (L : Layout P) (lib : Lib) (e : Around) (m : Host P) (cmds : List ProgCmd) : Host P :=
  cmds.foldl (fun m cmd => (cmd.run L lib e m).2) m

end Horcrux
