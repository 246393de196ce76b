import Verif.Model.PrivFile
import Verif.Spec.StateCmd
import Verif.Spec.KeyFile
/-
Specification: a validator key file as a chain node keeps it.
-/
namespace Horcrux.Spec
open Horcrux

/-- White space of JSON. -/
def Blank (w : Bytes) : Prop := ∀ c ∈ w, c = 32 ∨ c = 9 ∨ c = 10 ∨ c = 13

mutual
/-- The JSON texts for a value made of strings and objects, with any white space between the tokens. -/
inductive Renders : JVal → Bytes → Prop where
  | str (s : Bytes) : Renders (.str s false) (printStr s)
  | empty (w : Bytes) (hw : Blank w) : Renders (.obj .nil) ([123] ++ w ++ [125])
  | obj {k : Bytes} {v : JVal} {l : JObj} {t : Bytes} (h : RendersMembers (.cons k v l) t) :
      Renders (.obj (.cons k v l)) ([123] ++ t ++ [125])
/-- Members, separated by commas. -/
inductive RendersMembers : JObj → Bytes → Prop where
  | one {k : Bytes} {v : JVal} {t : Bytes} (w1 w2 w3 w4 : Bytes) (h1 : Blank w1) (h2 : Blank w2) (h3 : Blank w3)
      (h4 : Blank w4) (hv : Renders v t) :
      RendersMembers (.cons k v .nil) (w1 ++ printStr k ++ w2 ++ [58] ++ w3 ++ t ++ w4)
  | cons {k k' : Bytes} {v v' : JVal} {l : JObj} {t t' : Bytes} (w1 w2 w3 w4 : Bytes) (h1 : Blank w1) (h2 : Blank w2)
      (h3 : Blank w3) (h4 : Blank w4) (hv : Renders v t) (hl : RendersMembers (.cons k' v' l) t') :
      RendersMembers (.cons k v (.cons k' v' l)) (w1 ++ printStr k ++ w2 ++ [58] ++ w3 ++ t ++ w4 ++ [44] ++ t')
end

/-- An object with the given members. -/
def object : List (String × JVal) → JVal
  | l => .obj (go l)
where
  go : List (String × JVal) → JObj
    | [] => .nil
    | (k, v) :: l => .cons (text k) v (go l)

/-- A key with its type. -/
def typedKey (type : String) (key : Bytes) : JVal :=
  object [("type", .str (text type) false), ("value", .str (b64Enc key) false)]

/-- The file is a JSON text for the address and the two keys, the way a chain node writes it, up to white space. -/
def ValidatorKeyFile (pubType privType : String) (addr pub priv bs : Bytes) : Prop :=
  ∃ w t w', Blank w ∧ Blank w' ∧ bs = w ++ t ++ w' ∧
    Renders (object [("address", .str (hexEnc addr) false), ("pub_key", typedKey pubType pub),
      ("priv_key", typedKey privType priv)]) t

end Horcrux.Spec
