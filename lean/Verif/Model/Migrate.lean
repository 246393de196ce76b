import Verif.Model.FS
import Verif.Model.StateFile
import Verif.Model.KeyFile
/-
The steps of `docs/migrating.md:73-176` on the signer nodes: `config init`, the share file, the two state files replaced by
hand, `cosigner start`. The commands are those of `Verif.Model.FS` and `Verif.Model.KeyFile`.
-/
namespace Horcrux

variable {P : Type} [DecidableEq P]

/-- What a state file with the given text holds (`sign_state.go:246-265`). -/
def FileC.ofText (bs : Bytes) : FileC :=
  match readState bs with
  | some f => .state f
  | none => .garbage

/-- `docs/migrating.md:153-161`: the contents of the two state files are replaced. -/
def FS.putStates (L : Layout P) (fs : FS P) (home chainID : Str) (pv share : Bytes) : FS P :=
  (fs.set (L.state home chainID .pv) (some (.ofText pv))).set (L.state home chainID .share) (some (.ofText share))

/-- `docs/migrating.md:117-134`, `cosigner.go:151-157`: the key in `private_share_<p>.json`, moved to where node `p` looks for
it. -/
def shareOn (R : RSACodec) (d : Dir) (p : Nat) : Option CosignerKey :=
  match d.files (keyFileName p) with
  | none => none
  | some bs =>
    match loadKey R bs with
    | .ok k => some k.toKey
    | _ => none

/-- `docs/migrating.md:73-176` on one node, whose file system is `fs`: `config init` with the flags `a`, the share `key`, the
state files, `cosigner start`. If `config init` fails nothing else is done. -/
def migrate (L : Layout P) (lib : Lib) (fs : FS P) (home : Str) (a : InitArgs) (key : Option CosignerKey)
    (pv share : Bytes) : StartRes × FS P :=
  match configInit L lib fs home a true with
  | (false, fs1) => (.refused, fs1)
  | (true, fs1) => startCosigner L lib (fun _ => key) (fs1.putStates L home a.chainID pv share) home

end Horcrux
