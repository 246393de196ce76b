import Verif.Model.Modes
/-
Vocabulary for who can read a file.
-/
namespace Horcrux.Spec

/-- Members of the file's group can read it. -/
def GroupReads (m : FileMode) : Prop := m.getLsbD 5 = true

/-- Everybody can read it. -/
def OthersRead (m : FileMode) : Prop := m.getLsbD 2 = true

/-- Nobody but its owner has any access to it. -/
def OwnerOnly (m : FileMode) : Prop := ∀ i, i < 6 → m.getLsbD i = false

/-- The files that a user who is neither the owner nor in the group of any file can read. -/
def MDir.public (d : MDir) (f : Str) : Option Bytes := if d.mode f &&& 0o004#9 = 0 then none else d.dir.files f

end Horcrux.Spec
