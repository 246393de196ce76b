import Verif.Model.Disk
/-
Specification: what it means that a file records a state.
-/
namespace Horcrux.Spec
open Horcrux

/-- The file holds the persistent fields of `l`; an empty slice counts as absent. -/
structure Holds (f : PFile) (l : SignState) : Prop where
  height : f.height = l.height
  round : f.round = l.round
  step : f.step = l.step
  ephemeralPublic : f.ephemeralPublic.bytes = l.ephemeralPublic.bytes
  signature : f.signature.bytes = l.signature.bytes
  signBytes : f.signBytes.bytes = l.signBytes.bytes

/-- The same without the ephemeral key: enough to refuse conflicting data. -/
structure HoldsRecord (f : PFile) (l : SignState) : Prop where
  height : f.height = l.height
  round : f.round = l.round
  step : f.step = l.step
  signature : f.signature.bytes = l.signature.bytes
  signBytes : f.signBytes.bytes = l.signBytes.bytes

/-- The process dies only when the file records the state it had. -/
def CrashesWhenRecorded (s : DState) (e : DEv) : Prop := e = .restart → HoldsRecord s.file s.mem.lss

/-- No write replaces a file by one with a lower watermark. -/
def WritesInOrder (s : DState) (e : DEv) : Prop :=
  ∀ i f, e = .write i → s.jobs[i]? = some (.marshalled f) →
    ¬ (f.height < s.file.height ∨ f.height = s.file.height ∧
        (f.round < s.file.round ∨ f.round = s.file.round ∧ f.step < s.file.step))

/-- The goroutines do their work one after the other, in the order in which they were started. -/
def OneAtATime (_ : DState) (e : DEv) : Prop := ∀ i, e = .marshal i ∨ e = .write i → i = 0

/-- The process dies only while no write is outstanding (and not by a panic). -/
def CrashesWhenIdle (s : DState) (e : DEv) : Prop := e = .restart → s.alive = true ∧ s.jobs = []

/-- Signing the same height, round and step a second time with new nonces does not happen. -/
def NoResign (C : Crypto) (cfg : CosignerCfg) (s : DState) (e : DEv) : Prop :=
  ∀ o, e = .op o → (s.mem.step C cfg o).2.lss.hrs = s.mem.lss.hrs →
    (s.mem.step C cfg o).2.lss.ephemeralPublic = s.mem.lss.ephemeralPublic

/-- Whenever the process dies in the history `tr`, the watermark in its file is not below the height, round and step of
any share signature it has released up to then, in whichever life. Nothing is said about what the file holds besides, or
about states that were recorded without a signature being released. -/
def CrashesCovered (C : Crypto) (cfg : CosignerCfg) (s0 : DState) (tr : List (DEv × Option (Out CosResp))) : Prop :=
  ∀ tr1 a tr2 s1, tr = tr1 ++ (DEv.restart, a) :: tr2 → DRun C cfg (fun _ _ => True) s0 tr1 s1 →
    ∀ bs r k, (DEv.op (.sign bs), some (Out.ok (CosResp.signed r))) ∈ tr1 → unpackHRST bs = .ok k →
      ¬ (s1.file.height < k.height ∨ s1.file.height = k.height ∧
          (s1.file.round < k.round ∨ s1.file.round = k.round ∧ s1.file.step < k.step))

end Horcrux.Spec
