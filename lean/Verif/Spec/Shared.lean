import Verif.Model.Shared
/-
Spec for processes that share a home directory (C95).
-/
namespace Horcrux.Spec

/-- Process `p` released the share signature `r` over `bs`. -/
def ReleasedBy (tr : List (HEv × Option (Out CosResp))) (p : Nat) (bs : Bytes) (r : SignRes) : Prop :=
  (HEv.op p (.sign bs), some (Out.ok (CosResp.signed r))) ∈ tr

/-- A process that gets to serve calls loaded what is still in the state file, and the watermark in it is not below the
height, round and step of any share signature released so far, by whichever process. -/
def TakesOverCurrent (tr : List (HEv × Option (Out CosResp))) (s : Shared) (e : HEv) : Prop :=
  ∀ p q, e = .openLog p → s.lock = none → s.procs p = some q → q.file = s.file ∧
    ∀ p' bs r k, ReleasedBy tr p' bs r → unpackHRST bs = .ok k →
      ¬ (q.file.height < k.height ∨ q.file.height = k.height ∧
          (q.file.round < k.round ∨ q.file.round = k.round ∧ q.file.step < k.step))

/-- What an operator can arrange: a process is started only while there is none; none is killed while a write of the state
file is outstanding, none panics, and no write replaces a newer file by an older one. -/
def OneAfterTheOther (C : Crypto) (cfg : CosignerCfg) (s : Shared) : HEv → Prop
  | .start _ _ => ∀ p, s.procs p = none
  | .kill p => ∀ q, s.procs p = some q → q.jobs = []
  | .op p o => ∀ q, s.procs p = some q → (q.mem.step C cfg o).1 ≠ .panic
  | .write p i => ∀ q f, s.procs p = some q → q.jobs[i]? = some (.marshalled f) →
      ¬ (f.height < s.file.height ∨ f.height = s.file.height ∧
          (f.round < s.file.round ∨ f.round = s.file.round ∧ f.step < s.file.step))
  | _ => True

/-- Everything as in `OneAfterTheOther`, but processes may be started at any time. -/
def OrderlyEnds (C : Crypto) (cfg : CosignerCfg) (s : Shared) : HEv → Prop
  | .start _ _ => True
  | e => OneAfterTheOther C cfg s e

end Horcrux.Spec
