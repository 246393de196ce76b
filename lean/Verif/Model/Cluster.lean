import Verif.Model.Round
/-
Several cosigner processes side by side (each is the process of `cmd/horcrux/cmd/cosigner.go`, serving the calls of
`signer/cosigner_grpc_server.go` and of its own validator).
-/
namespace Horcrux

/-- The cosigner processes by ID; `none` is a process that has aborted. -/
abbrev Cluster := Nat → Option CState

/-- One step of one cosigner of the cluster, with the answer it gave. -/
structure ClusterEv where
  node : Nat
  op : CosOp
  out : Out CosResp

/-- Joint runs: at each point any live cosigner executes any operation, requested by anybody (its own validator, any
number of other leaders, an attacker). A panic ends the process, the others go on. -/
inductive Cluster.Run (C : Crypto) (cfg : Nat → CosignerCfg) : Cluster → List ClusterEv → Cluster → Prop where
  | nil (c : Cluster) : Cluster.Run C cfg c [] c
  | cons {c c2 : Cluster} {i : Nat} {s s1 : CState} {op : CosOp} {out : Out CosResp} {tr : List ClusterEv}
      (halive : c i = some s) (hstep : s.step C (cfg i) op = (out, s1))
      (htail : Cluster.Run C cfg (fun j => if j = i then (if out = .panic then none else some s1) else c j) tr c2) :
      Cluster.Run C cfg c (⟨i, op, out⟩ :: tr) c2

end Horcrux
