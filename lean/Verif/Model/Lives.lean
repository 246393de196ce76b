import Verif.Model.Disk
/-
Several cosigner processes with their state files (`Verif.Model.Disk`) side by side: `cmd/horcrux/cmd/cosigner.go:174-255`
on every node, with crashes and restarts (`cosigner.go:168-196` loads the share state file).
-/
namespace Horcrux

/-- One event on one node, with the answer if it was an operation. -/
structure LivesEv where
  node : Nat
  ev : DEv
  out : Option (Out CosResp)

/-- Joint histories: at each point anything can happen on any node. `ok i s e` says what fate and the scheduler allow on
node `i`. -/
inductive Lives (C : Crypto) (cfg : Nat → CosignerCfg) (ok : Nat → DState → DEv → Prop) (c0 : Nat → DState) :
    List LivesEv → (Nat → DState) → Prop where
  | nil : Lives C cfg ok c0 [] c0
  | snoc {tr : List LivesEv} {c : Nat → DState} (h : Lives C cfg ok c0 tr c) (i : Nat) (e : DEv) (he : ok i (c i) e) :
      Lives C cfg ok c0 (tr ++ [⟨i, e, ((c i).step C (cfg i) e).1⟩])
        (fun j => if j = i then ((c i).step C (cfg i) e).2 else c j)

end Horcrux
