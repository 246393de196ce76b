import Verif.Lemmas.Lawful
import Mathlib.Algebra.Field.ZMod
import Mathlib.Tactic.NormNum.Prime
/-
A small instance of `Lawful` and `LawfulRSA` over the field with 257 elements, so that the assumptions of the algebraic
theorems are met by something. It offers no security, of course.
-/
namespace Horcrux

instance : Fact (Nat.Prime 257) := ⟨by norm_num⟩

theorem castInj257 : CastInj (ZMod 257) 255 := by
  intro i j hi hj h
  rw [ZMod.natCast_eq_natCast_iff'] at h
  omega

/-- Little-endian encoding in 32 bytes. -/
def fsc (x : ZMod 257) : Bytes := UInt8.ofNat (x.val % 256) :: UInt8.ofNat (x.val / 256) :: List.replicate 30 0

/-- Decoding of the first two bytes. -/
def fval : Bytes → ZMod 257
  | a :: b :: _ => (a.toNat : ZMod 257) + 256 * (b.toNat : ZMod 257)
  | _ => 0

theorem fval_fsc (x : ZMod 257) (l : Bytes) : fval (fsc x ++ l) = x := by
  have hx : x.val < 257 := ZMod.val_lt x
  unfold fsc fval
  simp only [List.cons_append]
  have h1 : (UInt8.ofNat (x.val % 256)).toNat = x.val % 256 := by
    rw [UInt8.toNat_ofNat']; omega
  have h2 : (UInt8.ofNat (x.val / 256)).toNat = x.val / 256 := by
    rw [UInt8.toNat_ofNat']; omega
  rw [h1, h2]
  have h3 : x.val % 256 + 256 * (x.val / 256) = x.val := Nat.mod_add_div _ _
  have h4 : ((x.val % 256 + 256 * (x.val / 256) : Nat) : ZMod 257) = x := by
    rw [h3]; exact ZMod.natCast_zmod_val x
  push_cast at h4
  exact h4

theorem fval_fsc' (x : ZMod 257) : fval (fsc x) = x := by simpa using fval_fsc x []

theorem fsc_length (x : ZMod 257) : (fsc x).length = 32 := by unfold fsc; simp

theorem fval_map (l : List (ZMod 257)) : (l.map fsc).map fval = l := by
  rw [List.map_map]
  conv_rhs => rw [← List.map_id l]
  exact List.map_congr_left fun x _ => fval_fsc' x

/-- The challenge: depends on all three arguments. -/
def fchal (R A m : Bytes) : ZMod 257 := fval R + 3 * fval A + (m.map (fun b : UInt8 => (b.toNat : ZMod 257))).sum

/-- The coefficients drawn from randomness `r`. -/
def fcoeffs (r : Bytes) (t : Nat) : List (ZMod 257) := (List.range (t - 1)).map (fun i : Nat => fval (r.drop i))

/-- The toy primitives. -/
def ftoy : Crypto where
  addScalars := fun l => fsc (l.map fval).sum
  addElements := fun l => fsc (l.map fval).sum
  scalarMultiplyBase := fun s => fsc (fval s)
  dealShares := fun s r t n => (dealF (fval s) (fcoeffs r t) n).map fsc
  scMinimal := fun _ => true
  signWithShare := fun m x r A R => fsc (fval r + fchal R A m * fval x)
  combineShares := fun _ ids l => fsc (combineF ids (l.map fval))
  verify := fun A m s => s.length == 64 && decide (fval (s.drop 32) = fval (s.take 32) + fchal (s.take 32) A m * fval A)
  rsaEncrypt := fun pub _ m => some (pub ++ m)
  rsaDecrypt := fun priv c => if c.take priv.length = priv then some (c.drop priv.length) else none
  rsaSign := fun priv _ d => some (priv ++ d.ephemeralPublic.bytes ++ d.encrypted.bytes)
  rsaVerify := fun pub d sig => decide (sig = pub ++ d.ephemeralPublic.bytes ++ d.encrypted.bytes)

/-- `ftoy` satisfies the assumed laws. -/
def ftoyLawful : Lawful ftoy (ZMod 257) (ZMod 257) where
  B := 1
  sc := fsc
  pt := fsc
  val := fval
  coeffs := fcoeffs
  chal := fchal
  castInj := castInj257
  sc_length := fsc_length
  sc_minimal := fun _ => rfl
  coeffs_length := fun r t h => by unfold fcoeffs; rw [List.length_map, List.length_range]; omega
  addScalars := fun l => by unfold ftoy; simp only [fval_map]
  addElements := fun l => by unfold ftoy; simp only [fval_map]
  base := fun s _ => by unfold ftoy; simp
  deal := fun s r t n _ _ _ _ => rfl
  sign := fun m x r A R => by unfold ftoy; simp only [fval_fsc']
  combine := fun n ids l _ _ _ _ => by unfold ftoy; simp only [fval_map]
  verify := fun A R m s => by
    unfold ftoy
    have h1 : (fsc R ++ fsc s).drop 32 = fsc s := by
      rw [List.drop_append_of_le_length (by rw [fsc_length]), List.drop_of_length_le (by rw [fsc_length])]
      rfl
    have h2 : (fsc R ++ fsc s).take 32 = fsc R := by
      rw [List.take_append_of_le_length (by rw [fsc_length]), List.take_of_length_le (by rw [fsc_length])]
    have h3 : ((fsc R ++ fsc s).length == 64) = true := by rw [List.length_append, fsc_length, fsc_length]; rfl
    simp only [h1, h2, h3, fval_fsc', decide_eq_true_eq, smul_eq_mul, mul_one, Bool.true_and]

theorem ftoyRSA : LawfulRSA ftoy (fun pub priv => pub = priv) where
  encrypt := by
    intro pub priv rnd m h _
    subst h
    refine ⟨pub ++ m, rfl, ?_⟩
    unfold ftoy
    simp
  sign := by
    intro pub priv rnd d h
    subst h
    exact ⟨_, rfl, by unfold ftoy; simp⟩

end Horcrux
