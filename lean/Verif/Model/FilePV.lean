import Verif.Model.Disk
import Verif.Model.Validator
/-
Single-signer mode: `cmd/horcrux/cmd/signer.go:30-97` with tendermint's `privval.FilePV` (external code, modelled from
its documented behaviour in v0.34: `CheckHRS` is the code that `sign_state.go:168-195` copies; `signVote` and
`signProposal` answer a request for the same height, round and step from the last sign state, with the earlier
timestamp, if it differs only by time; otherwise they sign, record and write the state file before answering).
-/
namespace Horcrux

/-- The process' last sign state (only the record, no cache) and the state file. -/
structure FilePV where
  lss : SignState
  file : PFile

/-- `privval.FilePV.signVote` / `signProposal` on a block to sign; the answer is the sign bytes the returned message
has, and the signature. `sigOf` is the private key. -/
def FilePV.sign (sigOf : Bytes → Bytes) (s : FilePV) (b : Block) : Out (Bytes × Slice) × FilePV :=
  match s.lss.checkHRS ⟨b.height, b.round, b.step, 0⟩ with
  | .panic => (.panic, s)
  | .err e => (.err e, s)
  | .ok true =>
    if b.signBytes = s.lss.signBytes.bytes then (.ok (b.signBytes, s.lss.signature), s)
    else
      match onlyDifferByTimestamp s.lss.step s.lss.signBytes.bytes b.signBytes with
      | none => (.ok (s.lss.signBytes.bytes, s.lss.signature), s)
      | some e => (.err e, s)
  | .ok false =>
    let lss : SignState := { s.lss with height := b.height, round := b.round, step := b.step,
                                        signature := some (sigOf b.signBytes), signBytes := some b.signBytes }
    (.ok (b.signBytes, lss.signature), ⟨lss, lss.persist⟩)

/-- `signer.go:74-80`: `privval.LoadFilePVEmptyState` takes the key, and an empty sign state whatever is in the
file. -/
def FilePV.boot (file : PFile) : FilePV := ⟨.empty, file⟩

/-- A request, or the process ends and is started again. -/
inductive FEv where
  | sign (b : Block)
  | restart

/-- One event; the answer is for `sign`. -/
def FilePV.step (sigOf : Bytes → Bytes) (s : FilePV) : FEv → Option (Out (Bytes × Slice)) × FilePV
  | .sign b => let r := s.sign sigOf b; (some r.1, r.2)
  | .restart => (none, .boot s.file)

/-- A history of a single signer. -/
inductive FRun (sigOf : Bytes → Bytes) (s0 : FilePV) : List (FEv × Option (Out (Bytes × Slice))) → FilePV → Prop where
  | nil : FRun sigOf s0 [] s0
  | snoc {tr : List (FEv × Option (Out (Bytes × Slice)))} {s : FilePV} (h : FRun sigOf s0 tr s) (e : FEv) :
      FRun sigOf s0 (tr ++ [(e, (s.step sigOf e).1)]) (s.step sigOf e).2

end Horcrux
