import Verif.Model.Remote
/-
The single signer from the bytes chain nodes send to the bytes they get back: one connection loop for each configured node
(`signer/remote_signer.go:64-123, 219-234`) on the one guarded `FilePV` (`cmd/horcrux/cmd/signer.go:80-92`,
`signer/pv_guard.go`). An iteration of a loop is one step: of the iteration only the call of the validator touches what the
loops share, and the guard lets the calls in one after the other (C49).
-/
namespace Horcrux

/-- The state of the validator after a message was handled (`remote_signer.go:125-182` with `FilePV.SignVote` and
`SignProposal`). -/
def FilePV.after (chainID : Bytes) (sigOf : Bytes → Bytes) (s : FilePV) : PMsg → FilePV
  | .signVoteRequest (some v) _ =>
    match singleBlock s v.height v.round (voteTypeToStep v.type) (voteSignBytes chainID v) v.timestamp with
    | .ok b => (s.sign sigOf b).2
    | _ => s
  | .signProposalRequest (some p) _ =>
    match singleBlock s p.height p.round (.ok stepPropose) (proposalSignBytes chainID p) p.timestamp with
    | .ok b => (s.sign sigOf b).2
    | _ => s
  | _ => s

/-- The process: the validator, and the loop of each configured node. -/
structure Single where
  pv : FilePV
  loops : Nat → Loop

/-- What an iteration meets, as in `Iter`, without the validator. -/
structure Meets where
  running : Bool
  dialFailures : Nat
  stream : Bytes
  stillRunning : Bool
  writeOk : Bool

/-- An iteration of the loop for node `j`; or the process is started again. -/
inductive SingleEv where
  | iter (j : Nat) (i : Meets)
  | restart

/-- The message an iteration has read. -/
def readIn : List Act → Option PMsg
  | [] => none
  | .read m :: _ => some m
  | _ :: as => readIn as

/-- `signer.go:30-97`: the process after a start. -/
def Single.boot (file : PFile) : Single := ⟨.boot file, fun _ => .live none⟩

/-- One event, with what an iteration does. A panic in one loop ends the process, with all loops. -/
def Single.step (text : Err → Bytes) (chainID key : Bytes) (sigOf : Bytes → Bytes) (s : Single) :
    SingleEv → Option (List Act × Loop) × Single
  | .restart => (none, .boot s.pv.file)
  | .iter j i =>
    let r := loopIter text ⟨i.running, i.dialFailures, i.stream, i.stillRunning, .single chainID key sigOf s.pv, i.writeOk⟩
      (s.loops j)
    let pv := match readIn r.1 with
      | none => s.pv
      | some m => s.pv.after chainID sigOf m
    (some r, ⟨pv, fun q => if r.2 = .crashed then .crashed else if q = j then r.2 else s.loops q⟩)

/-- A sequence of events. -/
def Single.run (text : Err → Bytes) (chainID key : Bytes) (sigOf : Bytes → Bytes) :
    Single → List SingleEv → List (Option (List Act × Loop)) × Single
  | s, [] => ([], s)
  | s, e :: es =>
    let r := s.step text chainID key sigOf e
    let rest := Single.run text chainID key sigOf r.2 es
    (r.1 :: rest.1, rest.2)

end Horcrux
