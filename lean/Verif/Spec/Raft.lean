import Verif.Model.Raft
/-
What a log of commands means, independently of the state machine.
-/
namespace Horcrux.Spec

/-- The entry sets the key to the value. -/
def Sets (e k v : Bytes) : Prop := decodeCommand e = some ⟨opSet, k, v⟩

/-- The entry deletes the key. -/
def Deletes (e k : Bytes) : Prop := ∃ v, decodeCommand e = some ⟨opDelete, k, v⟩

/-- The entry writes the key. -/
def Touches (e k : Bytes) : Prop := (∃ v, Sets e k v) ∨ Deletes e k

/-- The log's last write of the key sets it to the value. -/
def LastSet (log : List Bytes) (k v : Bytes) : Prop :=
  ∃ pre e post, log = pre ++ e :: post ∧ Sets e k v ∧ ∀ e' ∈ post, ¬ Touches e' k

/-- The log's last write of the key deletes it. -/
def LastDelete (log : List Bytes) (k : Bytes) : Prop :=
  ∃ pre e post, log = pre ++ e :: post ∧ Deletes e k ∧ ∀ e' ∈ post, ¬ Touches e' k

/-- The entry is neither a set nor a delete. -/
def NoCommand (e : Bytes) : Prop := ∀ k, ¬ Touches e k

/-- The entry carries the sign state record. -/
def Event (e : Bytes) (r : SSC) : Prop := ∃ v, Sets e keyLSS v ∧ decodeSSC v = some r

/-- A write through the API: `Set(key, value)` or `Delete(key)`. -/
inductive Write where
  | set (k v : Bytes)
  | delete (k : Bytes)

def Write.key : Write → Bytes
  | .set k _ => k
  | .delete k => k

/-- The contents after a list of writes, as a function. -/
def contents (f : Bytes → Option Bytes) : List Write → Bytes → Option Bytes
  | [] => f
  | .set k v :: ws => contents (fun x => if x = k then some v else f x) ws
  | .delete k :: ws => contents (fun x => if x = k then none else f x) ws

/-- A membership entry that has nothing to do with the pair. -/
def Unrelated (id addr : Bytes) (s : Server) : Prop := s.id ≠ id ∧ s.addr ≠ addr

end Horcrux.Spec
