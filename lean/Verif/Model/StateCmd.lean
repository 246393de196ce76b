import Verif.Model.FS
import Verif.Model.Json
/-
The commands `horcrux state show` and `horcrux state set` as an operator calls them: `cmd/horcrux/cmd/state.go:29-146`,
with `root.go:37-60` for the configuration. What `state set` does to the files is in `Verif.Model.FS`; here are the home
directory, the check for running processes and what is printed.

`pgrep` (procps) is modelled from knowledge of the tool: it lists every process whose name matches, except itself; its
standard input is not read. Simplified: a process name is compared in full (the kernel keeps 15 bytes of it).
-/
namespace Horcrux

/-- `horcrux` -/
def horcruxName : Str := [104, 111, 114, 99, 114, 117, 120]

/-- Where a command runs: the `--home` flag (`none` if it is not given or empty), the directory `$HOME/.horcrux`, the
directories there are (`os.Stat` of anything else says that it does not exist), the name of the process itself and those
of the other processes. -/
structure Caller where
  flag : Option Str
  defaultHome : Str
  dirs : Str → Bool
  self : Str
  others : List Str

/-- `state.go:35-41`, `root.go:39-47` -/
def Caller.home (c : Caller) : Str := c.flag.getD c.defaultHome

/-- `state.go:42` and `:88`: `os.Stat(homeDir)` does not fail with "does not exist"; `os.Stat("")` always does. -/
def Caller.homeFound (c : Caller) : Bool :=
  match c.flag with
  | none => false
  | some d => c.dirs d

/-- `state.go:124-128` `isRunning`: `pgrep horcrux` prints something. The process itself is one of those it looks at. -/
def Caller.isRunning (c : Caller) : Bool := (c.self :: c.others).any fun n => decide (horcruxName <:+: n)

variable {P : Type} [DecidableEq P]

/-- `state.go:69-117` `state set arg`. -/
def stateSetCmd (L : Layout P) (fs : FS P) (c : Caller) (arg : Str) (pvWritten shareWritten : Bool) : Bool × FS P :=
  stateSet L fs c.home c.isRunning c.homeFound arg pvWritten shareWritten

/-! ### What `state show` prints -/

/-- `  Height:    ` -/
def lHeight : Bytes := [32, 32, 72, 101, 105, 103, 104, 116, 58, 32, 32, 32, 32]
/-- `  Round:     ` -/
def lRound : Bytes := [32, 32, 82, 111, 117, 110, 100, 58, 32, 32, 32, 32, 32]
/-- `  Step:      ` -/
def lStep : Bytes := [32, 32, 83, 116, 101, 112, 58, 32, 32, 32, 32, 32, 32]
/-- `  Ephemeral Public Key: ` -/
def lEphemeral : Bytes :=
  [32, 32, 69, 112, 104, 101, 109, 101, 114, 97, 108, 32, 80, 117, 98, 108, 105, 99, 32, 75, 101, 121, 58, 32]
/-- `  Signature: ` -/
def lSignature : Bytes := [32, 32, 83, 105, 103, 110, 97, 116, 117, 114, 101, 58, 32]
/-- `  SignBytes: ` -/
def lSignBytes : Bytes := [32, 32, 83, 105, 103, 110, 66, 121, 116, 101, 115, 58, 32]
/-- `Private Validator State:` -/
def lPrivate : Bytes :=
  [80, 114, 105, 118, 97, 116, 101, 32, 86, 97, 108, 105, 100, 97, 116, 111, 114, 32, 83, 116, 97, 116, 101, 58]
/-- `Share Sign State:` -/
def lShare : Bytes := [83, 104, 97, 114, 101, 32, 83, 105, 103, 110, 32, 83, 116, 97, 116, 101, 58]

/-- A line that is printed unless the slice is nil. -/
def optLine (label : Bytes) (enc : Bytes → Bytes) : Slice → List Bytes
  | none => []
  | some bs => [label ++ enc bs]

/-- `state.go:130-146` `printSignState`, line by line (`HexBytes` formats itself in upper-case hexadecimal). -/
def signStateLines (f : PFile) : List Bytes :=
  [lHeight ++ decInt f.height, lRound ++ decInt f.round, lStep ++ decInt f.step] ++
    (optLine lEphemeral b64Enc f.ephemeralPublic ++
      (optLine lSignature b64Enc f.signature ++ optLine lSignBytes hexEnc f.signBytes))

/-- Lines with their line ends. -/
def unlines (ls : List Bytes) : Bytes := ls.flatMap (· ++ [10])

/-- `state.go:58-62` -/
def showText (pv share : PFile) : Bytes :=
  unlines ([lPrivate] ++ signStateLines pv ++ ([lShare] ++ signStateLines share))

/-- `state.go:46-62` `state show` with the configuration that was read. -/
def stateShowWith (L : Layout P) (fs : FS P) (home : Str) (cfg : Config) : Option Bytes :=
  match fs.readState (L.state home cfg.chainID .pv) with
  | none => none
  | some pv =>
    match fs.readState (L.state home cfg.chainID .share) with
    | none => none
    | some share => some (showText pv share)

/-- `state.go:34-64` `state show`: what is printed, or `none` if it fails (with an error, or because there is no
configuration). -/
def stateShowCmd (L : Layout P) (fs : FS P) (c : Caller) : Option Bytes :=
  if c.homeFound then none
  else
    match fs.readConfig L c.home with
    | none => none
    | some cfg => stateShowWith L fs c.home cfg

end Horcrux
