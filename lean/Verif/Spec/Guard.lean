import Verif.Model.Guard
/-
Sequential use of a validator (C49): one call after the other.
-/
namespace Horcrux.Spec
open Horcrux

variable {M : Machine}

/-- One call alone: from the validator's state and the call's local state to others, by steps of the call and changes by
others. -/
inductive Alone (M : Machine) (s : M.State) (l : M.Local) : M.State → M.Local → Prop where
  | refl : Alone M s l s l
  | step {t u : M.State} {l' l'' : M.Local} (h : Alone M s l t l') (hs : M.step t l' u l'') : Alone M s l u l''
  | env {t u : M.State} {l' : M.Local} (h : Alone M s l t l') (hs : M.env t u) : Alone M s l u l'

/-- Changes by others. -/
inductive Idle (M : Machine) : M.State → M.State → Prop where
  | refl {s : M.State} : Idle M s s
  | env {s t u : M.State} (h : Idle M s t) (hs : M.env t u) : Idle M s u

/-- A number of complete calls, one after the other. -/
inductive Sequential (M : Machine) (s0 : M.State) : List (Nat × M.Req × M.Res) → M.State → Prop where
  | nil : Sequential M s0 [] s0
  | call {cs : List (Nat × M.Req × M.Res)} {s t u : M.State} {l : M.Local} {i : Nat} {q : M.Req} {r : M.Res}
      (h : Sequential M s0 cs s) (hi : Idle M s t) (ha : Alone M t (M.start q) u l) (hd : M.done l = some r) :
      Sequential M s0 (cs ++ [(i, q, r)]) u

/-- The calls that have left the validator, in that order. -/
def order (tr : List (GEv M)) : List (Nat × M.Req × M.Res) :=
  tr.filterMap fun e => match e with
    | .rel i q r => some (i, q, r)
    | _ => none

/-- The call is inside the validator. -/
def Inside (s : GState M) (i : Nat) : Prop := ∃ q l, s.call i = .inside q l

end Horcrux.Spec
