import Verif.Model.KeyFile
/-
The permission bits of the files that the commands write: `cosigner_key_shares.go:60` (key share files),
`sign_state.go:156` (state files).

The file system: a file that is created gets the requested bits without those of the process's umask; writing to a file
that exists leaves its bits alone; renaming a file brings its bits along. Owners and directories are left out.
-/
namespace Horcrux

/-- Permission bits: `rwx` for owner (bits 8-6), group (5-3) and others (2-0). -/
abbrev FileMode := BitVec 9

/-- The bits of a new file. -/
def newMode (umask perm : FileMode) : FileMode := perm &&& ~~~umask

/-- `ioutil.WriteFile(file, _, perm)` (create or truncate): the bits afterwards, given the bits before (`none`: no file). -/
def writeFileMode (umask perm : FileMode) : Option FileMode → FileMode
  | some m => m
  | none => newMode umask perm

/-- `tempfile.WriteFileAtomic(file, _, perm)`: a new file is written and renamed. -/
def writeAtomicMode (umask perm : FileMode) (_before : Option FileMode) : FileMode := newMode umask perm

/-- A directory with the permission bits of its files (those of missing files mean nothing). -/
structure MDir where
  dir : Dir
  mode : Str → FileMode

/-- The bits of a file, if it is there. -/
def MDir.modeOf (d : MDir) (f : Str) : Option FileMode := (d.dir.files f).map fun _ => d.mode f

/-- `key2shares.go:38-71` with the permission bits: the only files it writes are those of
`cosigner_key_shares.go:54-61`, with `0644`. A file that the command did not touch keeps its bits in this description as one
that it wrote over does. -/
def createSharesModes (R : RSACodec) (E : SplitEnv) (readPriv : Bytes → Option PrivFile) (umask : FileMode) (d : MDir)
    (args : List Str) : CreateRes × MDir :=
  let r := createSharesCmd R E readPriv d.dir args
  (r.1, ⟨r.2, fun f => writeFileMode umask 0o644#9 (d.modeOf f)⟩)

/-- `sign_state.go:144-160` `save`: the bits of the state file afterwards. -/
def stateFileMode (umask : FileMode) (before : Option FileMode) : FileMode := writeAtomicMode umask 0o600#9 before

end Horcrux
