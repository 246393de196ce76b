import Verif.Model.Round
/-
Specification: the peers that answered, in the order in which their answers were taken.
-/
namespace Horcrux.Spec
open Horcrux

/-- The peers that answered, in order. -/
def answersOf : List CollectEv → List Nat
  | [] => []
  | .answered p :: es => p :: answersOf es
  | _ :: es => answersOf es

/-- A possible schedule: a peer answers at most once (one goroutine per peer), and the main goroutine is `me`, which
is none of the peers. -/
structure Schedule (me : Nat) (es : List CollectEv) : Prop where
  once : (answersOf es).Nodup
  main : ∀ x, CollectEv.proceed x ∈ es → x = me
  other : me ∉ answersOf es

end Horcrux.Spec
