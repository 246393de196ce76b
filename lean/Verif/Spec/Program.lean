import Verif.Model.Program
import Verif.Spec.Config
/-
Specification vocabulary for C107 and C108: which arguments can be read, which commands look into the configuration,
and which file a caller means by the configuration.
-/
namespace Horcrux.Spec

/-- Addresses separated by commas; the last one is a URL (see C52 for why only that one counts). -/
def NodesArg (urlOk : Bytes → Bool) (arg : Bytes) : Prop :=
  ∃ nodes last, arg = joinWith 44 (nodes ++ [last]) ∧ (∀ n ∈ nodes ++ [last], (44 : UInt8) ∉ n) ∧ urlOk last = true

/-- Entries `address|number` separated by commas. -/
def PeersArg (arg : Bytes) : Prop :=
  ∃ ps : List (Bytes × Bytes), ps ≠ [] ∧ arg = joinWith 44 (ps.map fun e => e.1 ++ 124 :: e.2) ∧
    ∀ e ∈ ps, (44 : UInt8) ∉ e.1 ∧ (44 : UInt8) ∉ e.2 ∧ (124 : UInt8) ∉ e.1 ∧ (124 : UInt8) ∉ e.2 ∧ ∃ n, Numeral e.2 n

/-- The argument of an editing command can be read, as far as it is read before the configuration is looked at. -/
def ArgRead (lib : Lib) : CfgCmd → Prop
  | .nodesAdd arg => NodesArg lib.urlOk arg
  | .nodesRemove arg => NodesArg lib.urlOk arg
  | .peersAdd arg => PeersArg arg
  | .peersRemove _ => True
  | .setShares arg => ∃ n, Numeral arg n

/-- The command is about the section `cosigner` of the configuration. -/
def OnCosigner : CfgCmd → Prop
  | .nodesAdd _ => False
  | .nodesRemove _ => False
  | .peersAdd _ => True
  | .peersRemove _ => True
  | .setShares _ => True

/-- Nothing that a command checks first (its arguments, for `state` commands the `--home` directory, for `state set`
other processes) keeps it from looking into the configuration. -/
def LooksUp (lib : Lib) (c : Caller) : ProgCmd → Prop
  | .init _ _ => False
  | .edit e => ArgRead lib e
  | .chainIDSet _ => True
  | .stateShow => ∀ d, c.flag = some d → c.dirs d = false
  | .stateSet _ _ _ =>
    (∀ d, c.flag = some d → c.dirs d = false) ∧ ∀ p ∈ c.self :: c.others, ¬ [104, 111, 114, 99, 114, 117, 120] <:+: p
  | .address args => args.length ≤ 1
  | .start => True
  | .signerStart => True
  | .elect _ => True

/-- A command that needs the configuration: every one but `config init`. -/
def NeedsConfig : ProgCmd → Prop
  | .init _ _ => False
  | _ => True

/-- No file shadows `config.yaml`: the caller gives `--home`, or `$HOME/.horcrux` has no `config.json` and no
`config.toml`. -/
def Unshadowed {P : Type} (m : Host P) (c : Caller) : Prop :=
  c.flag ≠ none ∨ (m.alt .json = none ∧ m.alt .toml = none)

/-- The home directory has a `config.yaml` with this configuration. -/
def Holding {P : Type} (L : Layout P) (m : Host P) (home : Bytes) (cfg : Config) : Prop :=
  m.fs.files (L.config home) = some (.config cfg)

end Horcrux.Spec
