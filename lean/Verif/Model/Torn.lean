import Verif.Model.Disk
/-
The goroutines that write a state file, field by field, any number of them at the same time: `sign_state.go:131-161`. `MState`
of `Verif.Model.Disk` has the same with one goroutine after the other.

Simplified: a field is read and assigned in one step, although the three slices consist of three words each (C97 says that
these accesses race). The assignment of the ephemeral public key (`local_cosigner.go:225`, only in a cosigner, before `Save`) is
left out: that field stays as it is. The write is atomic (`tempfile.WriteFileAtomic`).
-/
namespace Horcrux

/-- A goroutine in `save` (`sign_state.go:144-161`): how many fields it has read, and what. -/
structure TJob where
  read : Nat
  buf : PFile
  deriving DecidableEq

/-- A goroutine that has just been started. -/
def TJob.new : TJob := ⟨0, ⟨0, 0, 0, none, none, none⟩⟩

/-- The exported fields in memory, the assignments that a running `Save` still has to make, the goroutines, the file. -/
structure TState where
  mem : PFile
  todo : List Assign
  jobs : List TJob
  file : PFile
  deriving DecidableEq

/-- A `Save` begins; it makes its next assignment; the `i`-th goroutine reads the next field, or writes the file. -/
inductive TMove where
  | save (r : SSC)
  | assign
  | read (i : Nat)
  | write (i : Nat)

/-- One step, if it is possible. A `Save` begins only while none is running (the lock, `sign_state.go:113-116`) and if its
record is above the watermark (lines 118-121); with its last assignment it starts its goroutine (lines 131-138). A goroutine
reads the fields in the order in which they are declared (line 152), and then writes (line 156). -/
def TState.step (s : TState) : TMove → Option TState
  | .save r =>
    if s.todo = [] ∧ (s.mem.height < r.height ∨ s.mem.height = r.height ∧ (s.mem.round < r.round ∨
        s.mem.round = r.round ∧ s.mem.step < r.step))
    then some { s with todo := saveAssigns r } else none
  | .assign =>
    match s.todo with
    | [] => none
    | [a] => some { s with mem := a.apply s.mem, todo := [], jobs := s.jobs ++ [.new] }
    | a :: rest => some { s with mem := a.apply s.mem, todo := rest }
  | .read i =>
    match s.jobs[i]? with
    | none => none
    | some j =>
      if j.read < 6 then some { s with jobs := s.jobs.set i ⟨j.read + 1, (readField s.mem j.read).apply j.buf⟩ } else none
  | .write i =>
    match s.jobs[i]? with
    | none => none
    | some j => if j.read = 6 then some { s with file := j.buf, jobs := s.jobs.eraseIdx i } else none

/-- A sequence of steps. `ok s m` says which the scheduler allows. -/
inductive TRun (ok : TState → TMove → Prop) (s0 : TState) : List TMove → TState → Prop where
  | nil : TRun ok s0 [] s0
  | snoc {ms : List TMove} {s t : TState} {m : TMove} (h : TRun ok s0 ms s) (hok : ok s m) (hs : s.step m = some t) :
      TRun ok s0 (ms ++ [m]) t

end Horcrux
