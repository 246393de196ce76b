import Verif.Model.Gather
/-
Vocabulary: which peers answered, and the end of a round.
-/
namespace Horcrux.Spec

/-- Of the peers `asked`, those that answer, in order: there is one call per peer, so what comes of it counts once. -/
def answering : (asked : List Nat) → List GatherEv → List Nat
  | _, [] => []
  | asked, .answered p :: es => if p ∈ asked then p :: answering (asked.erase p) es else answering asked es
  | asked, .failed p :: es => answering (asked.erase p) es
  | asked, _ :: es => answering asked es

/-- Nothing can happen any more: all calls have ended, every goroutine that can go on has done so. -/
def AtRest (t : Int) (me : Nat) (s : Gather) : Prop := ∀ e, s.step t me e = .ok s

end Horcrux.Spec
