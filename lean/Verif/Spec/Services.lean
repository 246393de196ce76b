import Verif.Model.Services
import Verif.Spec.Disk
/-
Specification: what one sees of a process that is asked to end.
-/
namespace Horcrux.Spec
open Horcrux

/-- Everything that the loop of the `i`-th chain node did. -/
def actsOf (i : Nat) (tr : List (PEv × PObs)) : List Act :=
  tr.flatMap fun x =>
    match x.1 with
    | .loop j _ => if j = i then x.2.acts else []
    | _ => []

/-- The requests among that. -/
def readsIn (as : List Act) : List PMsg :=
  as.filterMap fun a =>
    match a with
    | .read m => some m
    | _ => none

/-- The replies among that. -/
def repliesIn (as : List Act) : List Bytes :=
  as.filterMap fun a =>
    match a with
    | .write bs => some bs
    | _ => none

/-- No new life begins. -/
def OneLife (tr : List (PEv × PObs)) : Prop := ∀ x ∈ tr, x.1 ≠ .restart

/-- The process is only started again after it ended in an orderly way. -/
def EndsOrderly (p : Proc) (e : PEv) : Prop := e = .restart → p.ended = some .exited

/-- When it did so, no background write was outstanding. -/
def EndsIdle (p : Proc) (e : PEv) : Prop := e = .restart → p.disk.jobs = []

/-- No background write replaces a file by one with a lower watermark. -/
def ProcWritesInOrder (p : Proc) (e : PEv) : Prop := ∀ d, e = .disk d → WritesInOrder p.disk d

end Horcrux.Spec
