import Verif.Model.Server
import Verif.Lemmas.System
import Verif.Props.Start
/-
Lemmas about the methods of a node's gRPC port.
-/
namespace Horcrux
open Spec

section
variable {C : Crypto} {cfg : CosignerCfg}

theorem map_panic {α β : Type} (f : α → β) (o : Out α) : o.map f = .panic ↔ o = .panic := by cases o <;> simp [Out.map]

theorem step_get (s : CState) (req : GetPartReq) (rnd : Rand) :
    s.step C cfg (.getPart req rnd) = ((getPart C cfg s req rnd).1.map .part, (getPart C cfg s req rnd).2) := rfl

theorem step_set (s : CState) (req : SetPartReq) (rnd : Rand) :
    s.step C cfg (.setPart req rnd) = ((setPart C cfg s req rnd).1.map (fun _ => .unit), (setPart C cfg s req rnd).2) := rfl

/-- If no request for or with a part panics in any state that can be reached, the loop over the peers does not. -/
theorem getPartsLoop_no_panic {l : SignState}
    (hsafe : ∀ s tr, Run C cfg (CState.start l) tr s → ∀ req rnd, (getPart C cfg s req rnd).1 ≠ .panic) (k : HRST) :
    ∀ (order : List Int) (rnd : Nat → Rand) (s : CState) (acc : List SecretPart) (tr : List (CosOp × Out CosResp)),
      Run C cfg (CState.start l) tr s → (getPartsLoop C cfg k order rnd s acc).1 ≠ .panic := by
  intro order
  induction order with
  | nil => intro rnd s acc tr _; simp [getPartsLoop]
  | cons p ps ih =>
    intro rnd s acc tr hrun
    rw [getPartsLoop]
    split
    · exact ih _ _ _ _ hrun
    · have h0 := hsafe s tr hrun ⟨p, k.height, k.round, k.step, GoTime.ofUnixNano k.timestamp⟩ (rnd 0)
      have hst := step_get (C := C) (cfg := cfg) s ⟨p, k.height, k.round, k.step, GoTime.ofUnixNano k.timestamp⟩ (rnd 0)
      generalize getPart C cfg s ⟨p, k.height, k.round, k.step, GoTime.ofUnixNano k.timestamp⟩ (rnd 0) = x at h0 hst
      obtain ⟨o, s'⟩ := x
      cases o with
      | ok part => exact ih _ _ _ _ (Run.append hrun (.cons hst (by simp [Out.map]) (.nil _)))
      | err e => simp
      | panic => exact absurd rfl h0

/-- The parts that a call hands to the cosigner, one after the other, each with its randomness. -/
def setOps (k : HRST) : List SecretPart → (Nat → Rand) → List (CosOp × Out CosResp)
  | [], _ => []
  | p :: ps, rnd => (.setPart (p.toSetReq k) (rnd 0), .ok .unit) :: setOps k ps (fun n => rnd (n + 1))

theorem setPartsAndSign_panic {l : SignState}
    (hsafe : ∀ s tr, Run C cfg (CState.start l) tr s → ∀ req rnd, (setPart C cfg s req rnd).1 ≠ .panic) (k : HRST) (bs : Bytes) :
    ∀ (parts : List SecretPart) (rnd : Nat → Rand) (s : CState) (tr : List (CosOp × Out CosResp)),
      Run C cfg (CState.start l) tr s → ((setPartsAndSign C cfg k bs parts rnd s).1 = .panic ↔
        ∃ s', Run C cfg s (setOps k parts rnd) s' ∧ (sign C cfg s' bs).1 = .panic) := by
  intro parts
  induction parts with
  | nil =>
    intro rnd s tr _
    constructor
    · intro h; exact ⟨s, .nil _, h⟩
    · rintro ⟨s', h1, h2⟩
      cases h1
      exact h2
  | cons p ps ih =>
    intro rnd s tr hrun
    rw [setPartsAndSign]
    have h0 := hsafe s tr hrun (p.toSetReq k) (rnd 0)
    have hst := step_set (C := C) (cfg := cfg) s (p.toSetReq k) (rnd 0)
    generalize setPart C cfg s (p.toSetReq k) (rnd 0) = x at h0 hst
    obtain ⟨o, s1⟩ := x
    cases o with
    | ok u =>
      simp only
      rw [ih (fun n => rnd (n + 1)) s1 _ (Run.append hrun (.cons hst (by simp [Out.map]) (.nil _)))]
      constructor
      · rintro ⟨s', h1, h2⟩
        exact ⟨s', .cons hst (by simp) h1, h2⟩
      · rintro ⟨s', h1, h2⟩
        cases h1 with
        | cons g1 g2 g3 =>
          rw [hst] at g1
          simp only [Prod.mk.injEq] at g1
          rw [← g1.2] at g3
          exact ⟨s', g3, h2⟩
    | err e =>
      simp only [reduceCtorEq, false_iff]
      rintro ⟨s', h1, _⟩
      cases h1 with
      | cons g1 g2 g3 =>
        rw [hst] at g1
        simp [Out.map] at g1
    | panic => exact absurd rfl h0

theorem setOps_lss (k : HRST) : ∀ (parts : List SecretPart) (rnd : Nat → Rand) (s s' : CState),
    Run C cfg s (setOps k parts rnd) s' → s'.lss = s.lss := by
  intro parts
  induction parts with
  | nil => intro rnd s s' h; cases h; rfl
  | cons p ps ih =>
    intro rnd s s' h
    cases h with
    | cons g1 g2 g3 =>
      rw [step_set, Prod.mk.injEq] at g1
      rw [ih _ _ _ g3, ← g1.2]
      exact setPart_lss (Prod.mk.eta (p := setPart C cfg s (p.toSetReq k) (rnd 0))).symm

end

section
variable {C : Crypto} {F G : Type} [Field F] [AddCommGroup G] [Module F G] {L : Lawful C F G}
  {pair : Bytes → Bytes → Prop} {n t : Nat} {cfg : Nat → CosignerCfg} {x : F} {kc : List F} {rsaPub : Nat → Bytes}

theorem setPartsAndSign_crash (hS : Setup C L pair n t cfg x kc rsaPub) {p : Nat} (hp1 : 1 ≤ p) (hp2 : p ≤ n)
    {k : HRST} (hk : IsI64 k.timestamp) {bs : Bytes} (hu : unpackHRST bs = .panic) {sec r : Nat → Bytes} :
    ∀ (qs : List Nat) (parts : List SecretPart) (rnd : Nat → Rand) (s : CState) (D : List Nat),
      (∀ q ∈ qs, 1 ≤ q ∧ q ≤ n) →
      List.Forall₂ (fun q part => PartFrom L cfg rsaPub (sec q) (L.coeffs (r q) t) q p part) qs parts →
      Rec s k (fullRecord L n t p sec r D) →
      (setPartsAndSign C (cfg p) k bs parts rnd s).1 = .panic := by
  intro qs parts rnd s D hqs hf
  induction hf generalizing rnd s D with
  | nil =>
    intro hrec
    simp only [setPartsAndSign, sign, hu]
  | @cons q part qs parts hq _ ih =>
    intro hrec
    obtain ⟨h1, h2⟩ := hqs q (List.mem_cons_self ..)
    obtain ⟨s1, g1, g2, g3⟩ := setPart_honest hS hp1 hp2 h1 h2 hk (rnd := rnd 0) hq hrec
    simp only [setPartsAndSign, g1]
    exact ih (fun n => rnd (n + 1)) s1 (q :: D) (fun q' h => hqs q' (List.mem_cons_of_mem _ h)) g3

/-- A round for sign bytes on which `UnpackHRST` panics: it ends every participant. -/
theorem round_crash (hS : Setup C L pair n t cfg x kc rsaPub) {ps : List Nat}
    (hps : ∀ p ∈ ps, 1 ≤ p ∧ p ≤ n)
    {k : HRST} (hk : IsI64 k.timestamp) {bs : Bytes} (hu : unpackHRST bs = .panic)
    {order : Nat → List Nat} (hord : ∀ p ∈ ps, ∀ q ∈ order p, 1 ≤ q ∧ q ≤ n)
    (hall : ∀ p ∈ ps, ∀ q ∈ ps, q ≠ p → q ∈ order p) (hother : ∀ p ∈ ps, ∃ q ∈ order p, q ≠ p)
    {mapOrder : Nat → List Nat} (hmap : ∀ p ∈ ps, (mapOrder p).Perm ps)
    {rnd1 rnd2 : Nat → Nat → Rand} (hrnd : ∀ p ∈ ps, ∀ i, ∃ sec, (rnd1 p i).secret = some sec ∧ sec.length = 32)
    {st : Nat → CState} (hnew : ∀ p ∈ ps, (st p).hrsMeta k = none) :
    ∀ p ∈ ps, (roundCall C cfg k bs (fun p => (order p).map (fun q : Nat => (q : Int))) mapOrder rnd1 rnd2 st p).1 = .panic := by
  have h1 : ∀ p ∈ ps, ∃ sec r parts s', getParts C (cfg p) k ((order p).map (fun q : Nat => (q : Int))) (rnd1 p) (st p)
        = (.ok parts, s') ∧ s'.lss = (st p).lss ∧
      List.Forall₂ (fun q part => PartFrom L cfg rsaPub sec (L.coeffs r t) p q part)
        ((order p).filter (fun q => q ≠ p)) parts ∧ Rec s' k (ownRecord L n t p sec r) := by
    intro p hp
    obtain ⟨sec, r, parts, s', _, _, g1, g2, g3, g4⟩ := getPartsLoop_fresh hS (hps p hp).1 (hps p hp).2 hk
      (order p) (rnd1 p) (st p) (hord p hp) (hother p hp) (hnew p hp) (hrnd p hp)
    refine ⟨sec, r, parts, s', ?_, g2, g3, g4⟩
    unfold getParts
    obtain ⟨q, hq, _⟩ := hother p hp
    rw [if_neg, g1]
    intro h
    rw [List.map_eq_nil_iff] at h
    rw [h] at hq; cases hq
  have h1' : ∀ p, ∃ sec r parts s', p ∈ ps → (getParts C (cfg p) k ((order p).map (fun q : Nat => (q : Int))) (rnd1 p) (st p)
        = (.ok parts, s') ∧ s'.lss = (st p).lss ∧
      List.Forall₂ (fun q part => PartFrom L cfg rsaPub sec (L.coeffs r t) p q part)
        ((order p).filter (fun q => q ≠ p)) parts ∧ Rec s' k (ownRecord L n t p sec r)) := by
    intro p
    by_cases hp : p ∈ ps
    · obtain ⟨a, b, c, d, h⟩ := h1 p hp; exact ⟨a, b, c, d, fun _ => h⟩
    · exact ⟨[], [], [], st p, fun h => absurd h hp⟩
  choose sec r parts s1 hgot using h1'
  intro p hp
  have hmem : ∀ q, q ∈ mapOrder p ↔ q ∈ ps := fun q => (hmap p hp).mem_iff
  have hroute := partsFor_honest (L := L) (cfg := cfg) (rsaPub := rsaPub) (p := p) (ps := mapOrder p) (parts := parts)
    (order := order) (sec := sec) (co := fun q => L.coeffs (r q) t)
    (fun q hq => (hgot q ((hmem q).1 hq)).2.2.1) (fun q hq hne => hall q ((hmem q).1 hq) p hp (Ne.symm hne))
  have hrec : Rec (s1 p) k (fullRecord L n t p sec r [p]) := by
    have := (hgot p hp).2.2.2
    unfold ownRecord at this
    unfold fullRecord
    rw [slotsOf_congr L n sec (fun _ => sec p) (fun q => L.coeffs (r q) t) (fun _ => L.coeffs (r p) t) p [p]
      (by intro q hq; rw [List.mem_singleton.1 hq]; exact ⟨rfl, rfl⟩)]
    exact this
  have := setPartsAndSign_crash hS (hps p hp).1 (hps p hp).2 hk hu
    ((mapOrder p).filter (fun q => q ≠ p)) _ (rnd2 p) (s1 p) [p]
    (fun q hq => hps q ((hmem q).1 (List.mem_filter.1 hq).1)) hroute hrec
  rw [← this]
  unfold roundCall
  rw [(hgot p hp).1]
  congr 3
  refine List.map_congr_left fun q hq => ?_
  rw [(hgot q ((hmap p hp).mem_iff.1 hq)).1]
  rfl

/-- `roundShares` is made of these calls. -/
theorem roundShares_calls (C : Crypto) (cfg : Nat → CosignerCfg) (ps : List Nat) (leader total : Nat) (k : HRST) (bs : Bytes)
    (order : Nat → List Int) (mapOrder : Nat → List Nat) (rnd1 rnd2 : Nat → Nat → Rand) (st : Nat → CState) :
    roundShares C cfg ps leader total k bs order mapOrder rnd1 rnd2 st =
      let call := roundCall C cfg k bs order mapOrder rnd1 rnd2 st
      ((shareArray total ps (fun p => (call p).1), match (call leader).1 with | .ok r => r.ephemeralPublic.bytes | _ => []),
        fun p => if p ∈ ps then (call p).2 else st p) := rfl

end
end Horcrux
