import Verif.Model.Cosigner
/-
The sign state file: `signer/sign_state.go:136-160` (`Save` starting a goroutine that runs `save`) and
`sign_state.go:246-265` (`LoadSignState`), around a running cosigner (`Verif.Model.Cosigner`), with crashes.

Simplified: the JSON text is represented by the decoded fields (that `tmJson.Unmarshal` inverts `tmJson.MarshalIndent`
on these fields is trusted), `tempfile.WriteFileAtomic` replaces the file in one step and succeeds (it panics
otherwise). `DState` takes `MarshalIndent` as one step; `MState` below reads the fields one at a time, as the code
does without holding the lock.
-/
namespace Horcrux

/-- What the file holds (`sign_state.go:53-60`, the exported fields). -/
structure PFile where
  height : Int
  round : Int
  step : Int
  ephemeralPublic : Slice
  signature : Slice
  signBytes : Slice
  deriving DecidableEq, Repr

def PFile.hrs (f : PFile) : HRS := ⟨f.height, f.round, f.step⟩

/-- An empty slice comes back as nil: `omitempty` (`sign_state.go:58-59`) leaves it out of the JSON, and the decoder of
`tendermint/libs/json` replaces empty slices by nil ones. -/
def Slice.norm : Slice → Slice
  | some [] => none
  | s => s

/-- `sign_state.go:152` `MarshalIndent`, on the fields. -/
def SignState.persist (s : SignState) : PFile :=
  ⟨s.height, s.round, s.step, s.ephemeralPublic.norm, s.signature.norm, s.signBytes.norm⟩

/-- `sign_state.go:246-265` `LoadSignState` of a readable file. -/
def PFile.load (f : PFile) : SignState :=
  SignState.ofLoaded f.height f.round f.step f.ephemeralPublic f.signature f.signBytes

/-- A goroutine started by `Save` (`sign_state.go:136-138`): not yet marshalled, or holding the JSON to write. -/
inductive Job where
  | started
  | marshalled (f : PFile)
  deriving DecidableEq

/-- A cosigner process with its state file. -/
structure DState where
  /-- the process' memory (the last one, if the process is dead) -/
  mem : CState
  alive : Bool
  file : PFile
  jobs : List Job

/-- What can happen: an operation of the cosigner, one of the outstanding goroutines marshals the state or writes the
file, or the process dies (at any time) and is started again. -/
inductive DEv where
  | op (o : CosOp)
  | marshal (i : Nat)
  | write (i : Nat)
  | restart
  deriving DecidableEq

/-- The goroutines after a step of the cosigner: `Save` starts one exactly if it succeeded (`sign_state.go:118-121`
returns before line 136 otherwise), which is the case exactly if the watermark moved. -/
def spawn (before after : CState) (jobs : List Job) : List Job :=
  if after.lss.hrs = before.lss.hrs then jobs else jobs ++ [.started]

/-- A state just after `cosigner.go:168-196` loaded the file `f`. -/
def DState.boot (f : PFile) : DState := ⟨CState.start f.load, true, f, []⟩

/-- One event, with the cosigner's answer if it is an operation. A panic kills the process and its goroutines. -/
def DState.step (C : Crypto) (cfg : CosignerCfg) (s : DState) : DEv → Option (Out CosResp) × DState
  | .op o =>
    if s.alive = false then (none, s)
    else match s.mem.step C cfg o with
      | (.panic, _) => (some .panic, { s with alive := false, jobs := [] })
      | (.ok a, m) => (some (.ok a), { s with mem := m, jobs := spawn s.mem m s.jobs })
      | (.err e, m) => (some (.err e), { s with mem := m, jobs := spawn s.mem m s.jobs })
  | .marshal i =>
    match s.jobs[i]? with
    | some .started => (none, { s with jobs := s.jobs.set i (.marshalled s.mem.lss.persist) })
    | _ => (none, s)
  | .write i =>
    match s.jobs[i]? with
    | some (.marshalled f) => (none, { s with file := f, jobs := s.jobs.eraseIdx i })
    | _ => (none, s)
  | .restart => (none, DState.boot s.file)

/-- A history: the events with their answers. `ok s e` says which events the scheduler (or fate) allows in which
states; `fun _ _ => True` allows everything. -/
inductive DRun (C : Crypto) (cfg : CosignerCfg) (ok : DState → DEv → Prop) (s0 : DState) :
    List (DEv × Option (Out CosResp)) → DState → Prop where
  | nil : DRun C cfg ok s0 [] s0
  | snoc {tr : List (DEv × Option (Out CosResp))} {s : DState} (h : DRun C cfg ok s0 tr s) (e : DEv) (he : ok s e) :
      DRun C cfg ok s0 (tr ++ [(e, (s.step C cfg e).1)]) (s.step C cfg e).2

/-! ### Field by field -/

/-- One field of the state, with a value. -/
inductive Assign where
  | height (v : Int)
  | round (v : Int)
  | step (v : Int)
  | ephemeralPublic (v : Slice)
  | signature (v : Slice)
  | signBytes (v : Slice)
  deriving DecidableEq

def Assign.apply (f : PFile) : Assign → PFile
  | .height v => { f with height := v }
  | .round v => { f with round := v }
  | .step v => { f with step := v }
  | .ephemeralPublic v => { f with ephemeralPublic := v }
  | .signature v => { f with signature := v }
  | .signBytes v => { f with signBytes := v }

/-- The assignments `Save` makes, in order (`sign_state.go:131-135`). -/
def saveAssigns (r : SSC) : List Assign :=
  [.height r.height, .round r.round, .step r.step, .signature r.signature, .signBytes r.signBytes]

/-- What the JSON encoder reads in its `n`-th step: the exported fields in declaration order (`sign_state.go:54-59`). -/
def readField (mem : PFile) : Nat → Assign
  | 0 => .height mem.height
  | 1 => .round mem.round
  | 2 => .step mem.step
  | 3 => .ephemeralPublic mem.ephemeralPublic
  | 4 => .signature mem.signature
  | _ => .signBytes mem.signBytes

/-- The exported fields in memory, the assignments a running `Save` still has to make, the number of goroutines
started and not finished, the fields the first of them has read and their values, and the file. -/
structure MState where
  mem : PFile
  todo : List Assign
  jobs : Nat
  read : Nat
  buf : PFile
  file : PFile
  deriving DecidableEq

/-- A `Save` begins; it makes its next assignment; a goroutine reads the next field; having read all, it writes the
file. Only one goroutine marshals at a time here: this already breaks the property. -/
inductive MMove where
  | save (r : SSC)
  | assign
  | read
  | write

/-- One such step, if it is possible. A `Save` begins only while none is running (the lock) and if its record is above
the watermark (`sign_state.go:118-121`); with its last assignment it starts its goroutine (line 136). -/
def MState.step (s : MState) : MMove → Option MState
  | .save r =>
    if s.todo = [] ∧ (s.mem.height < r.height ∨ s.mem.height = r.height ∧ (s.mem.round < r.round ∨
        s.mem.round = r.round ∧ s.mem.step < r.step))
    then some { s with todo := saveAssigns r } else none
  | .assign =>
    match s.todo with
    | [] => none
    | [a] => some { s with mem := a.apply s.mem, todo := [], jobs := s.jobs + 1 }
    | a :: rest => some { s with mem := a.apply s.mem, todo := rest }
  | .read =>
    if 0 < s.jobs ∧ s.read < 6
    then some { s with buf := (readField s.mem s.read).apply s.buf, read := s.read + 1 } else none
  | .write =>
    if 0 < s.jobs ∧ s.read = 6 then some { s with file := s.buf, read := 0, jobs := s.jobs - 1 } else none

/-- A sequence of such steps. -/
def MState.run (s : MState) : List MMove → Option MState
  | [] => some s
  | m :: ms => (s.step m).bind (·.run ms)

end Horcrux
