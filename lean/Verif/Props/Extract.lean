import Verif.Spec.Extract
import Verif.Props.Retry
import Verif.Props.Shamir
/-
Property C72: the answers of the cosigners and the secrets behind them.
-/
namespace Horcrux
open Spec

section
variable {C : Crypto} {F G : Type} [Field F] [AddCommGroup G] [Module F G] {L : Lawful C F G}
  {pair : Bytes → Bytes → Prop} {n t : Nat} {cfg : Nat → CosignerCfg} {x : F} {kc : List F} {rsaPub : Nat → Bytes}

/-- A participant that has signed `bs` and still has its nonce record signs `bs` with trailing bytes as well, with the same
nonce. -/
theorem sign_trailing (hS : Setup C L pair n t cfg x kc rsaPub) {p : Nat} (hp1 : 1 ≤ p) (hp2 : p ≤ n)
    {k : HRST} {bs tl : Bytes} (hu : unpackHRST bs = .ok k) (ht : tl ≠ []) {sec r : Nat → Bytes} {ps D : List Nat}
    {s : CState} (hs : SignedAs L n t sec r ps x kc k bs p s) (hD : ∀ q, q ∈ D ↔ q ∈ ps)
    (hrec : Rec s k (fullRecord L n t p sec r D)) :
    ∃ res s', sign C (cfg p) s (bs ++ tl) = (.ok res, s') ∧
      res.signature = some (L.sc (shareSig L n t sec r ps x kc (bs ++ tl) p)) ∧
      res.ephemeralPublic = some (L.pt (jointR L n sec ps)) := by
  obtain ⟨ref, e1, e2⟩ := hrec
  have hne : bs ++ tl ≠ bs := by simpa using ht
  have hcongr := fun m => shareSig_congr (L := L) (n := n) (t := t) (x := x) (kc := kc) (bs := m) (p := p) (sec := sec)
    (sec' := sec) (r := r) (r' := r) hD (fun _ _ => ⟨rfl, rfl⟩)
  have hES : C.addScalars ((fullRecord L n t p sec r D).used.map (·.share))
      = L.sc ((idsOf n D).map (fun q => shareOf (L.val (sec q)) (L.coeffs (r q) t) p)).sum := by
    rw [used_fullRecord, List.map_map, ← L.addScalars, List.map_map]
    rfl
  have hEP : C.addElements ((fullRecord L n t p sec r D).used.map (·.ephemeralSecretPublicKey))
      = L.pt (jointR L n sec D) := by
    unfold jointR
    rw [used_fullRecord, List.map_map, ← L.addElements, List.map_map]
    rfl
  have hh := hs.hrs
  unfold SignState.hrs HRST.hrs at hh
  simp only [HRS.mk.injEq] at hh
  have hc : s.lss.checkHRS k = .ok true := by
    unfold SignState.checkHRS
    simp [hh, hs.signBytes, hs.signature]
  have e : sign C (cfg p) s (bs ++ tl) = signFresh C (cfg p) s (bs ++ tl) k := by
    unfold sign
    rw [unpackHRST_append hu tl]; simp only; rw [hc]; simp only
    have : s.lss.signBytes.bytes = bs := by rw [hs.signBytes]; rfl
    rw [this, if_neg hne, hh.2.2, (onlyDiffer_iff _ _ _).2 (differ_append hu tl)]
  rw [e]
  unfold signFresh
  rw [e1]; simp only; rw [e2]; simp only
  rw [hES, hEP, L.sc_length, L.sc_minimal]
  simp only [ne_eq, not_true_eq_false, if_false, Bool.true_eq_false]
  rw [hS.shareKey p hp1 hp2, hS.pub p hp1 hp2, L.sign]
  have hsig : ((idsOf n D).map (fun q => shareOf (L.val (sec q)) (L.coeffs (r q) t) p)).sum +
      L.chal (L.pt (jointR L n sec D)) (L.pt (x • L.B)) (bs ++ tl) * shareOf x kc p
      = shareSig L n t sec r ps x kc (bs ++ tl) p := (hcongr (bs ++ tl)).1
  rw [hsig, (hcongr bs).2]
  have hget : SignState.getErrorIfLessOrEqual { s.lss with ephemeralPublic := some (L.pt (jointR L n sec ps)) }
      k.height k.round k.step = some (.sameHRS ⟨k.height, k.round, k.step⟩) := by
    unfold SignState.getErrorIfLessOrEqual
    simp [hh]
  unfold SignState.save
  simp only [hget]
  exact ⟨_, _, rfl, rfl, rfl⟩

/-- C72 (full statement) is false: let a round for the sign bytes `bs` have been run with at least `t` participants, from
any states without a record or nonce material at the block. Whoever then asks every participant twice — for `bs` again,
and for `bs` with any non-empty trailing bytes `tl`, both times without sending parts — is answered by all of them, and
`keyFrom`, which uses only these answers, the messages and the public key, is the private key of the validator, and
`shareFrom` the key share of each participant, unless the challenges of `bs` and `bs ++ tl` happen to be equal. -/
theorem C72_fails (hS : Setup C L pair n t cfg x kc rsaPub) (hn : 2 ≤ n) (hval : ∀ y, L.val (L.sc y) = y)
    (ps : List Nat) (hnd : ps.Nodup) (hps : ∀ p ∈ ps, 1 ≤ p ∧ p ≤ n) (hlen : t ≤ ps.length)
    (leader : Nat) (hleader : leader ∈ ps) (k : HRST) (hk : IsI64 k.timestamp) (bs : Bytes) (hu : unpackHRST bs = .ok k)
    (order : Nat → List Nat) (hord : ∀ p, (order p).Perm (List.range' 1 n))
    (mapOrder : Nat → List Nat) (hmap : ∀ p, (mapOrder p).Perm ps)
    (rnd1 rnd2 : Nat → Nat → Rand) (hrnd : ∀ p i, ∃ sec, (rnd1 p i).secret = some sec ∧ sec.length = 32)
    (st : Nat → CState) (hlow : ∀ p, 1 ≤ p → p ≤ n → (st p).lss.hrs ≺ k.hrs)
    (hnew : ∀ p, 1 ≤ p → p ≤ n → (st p).hrsMeta k = none) (tl : Bytes) (ht : tl ≠ []) :
    ∃ R st', (roundShares C cfg ps leader n k bs (fun p => (order p).map (fun q : Nat => (q : Int))) mapOrder rnd1 rnd2 st).2
        = st' ∧
      ∃ a b : Nat → SignRes, (∀ p ∈ ps, ∀ rnd, ∃ s1 s2, setPartsAndSign C (cfg p) k bs [] rnd (st' p) = (.ok (a p), s1) ∧
          setPartsAndSign C (cfg p) k (bs ++ tl) [] rnd s1 = (.ok (b p), s2)) ∧
        (L.chal R (L.pt (x • L.B)) bs ≠ L.chal R (L.pt (x • L.B)) (bs ++ tl) →
          (∀ p ∈ ps, (cfg p).shareKey = L.sc (shareFrom L (L.pt (x • L.B)) bs (bs ++ tl) (a p) (b p))) ∧
          keyFrom L (L.pt (x • L.B)) bs (bs ++ tl) ps a b = x) := by
  obtain ⟨shares, eph, st', sig, h1, _, _, _, sec, r, _, hsig, _, he, _, hrec, _⟩ := round_full hS hn hnd hps hlen hleader hk hu
    hord hmap hrnd (TryInv.start hlow hnew) (rnd2 := rnd2)
  have hb : ∀ p, ∃ b : SignRes, p ∈ ps → ∃ s2, sign C (cfg p) (st' p) (bs ++ tl) = (.ok b, s2) ∧
      b.signature = some (L.sc (shareSig L n t sec r ps x kc (bs ++ tl) p)) ∧
      b.ephemeralPublic = some (L.pt (jointR L n sec ps)) := by
    intro p
    by_cases hp : p ∈ ps
    · obtain ⟨D, d1, d2⟩ := hrec p hp
      obtain ⟨b, s2, b1, b2, b3⟩ := sign_trailing hS (hps p hp).1 (hps p hp).2 hu ht (hsig p hp) d1 d2
      exact ⟨b, fun _ => ⟨s2, b1, b2, b3⟩⟩
    · exact ⟨⟨none, none, none⟩, fun h => absurd h hp⟩
  choose b hb using hb
  refine ⟨eph, st', by rw [h1],
    fun p => ⟨some (L.pt (jointR L n sec ps)), some (L.sc (shareSig L n t sec r ps x kc bs p)), none⟩, b, ?_, ?_⟩
  · intro p hp rnd
    obtain ⟨s2, b1, _⟩ := hb p hp
    exact ⟨st' p, s2, sign_signedAs (cfg := cfg) p hu (hsig p hp), b1⟩
  · intro hne
    rw [he] at hne
    have hshare : ∀ p ∈ ps, shareFrom L (L.pt (x • L.B)) bs (bs ++ tl)
        ⟨some (L.pt (jointR L n sec ps)), some (L.sc (shareSig L n t sec r ps x kc bs p)), none⟩ (b p) = shareOf x kc p := by
      intro p hp
      obtain ⟨_, _, b2, b3⟩ := hb p hp
      unfold shareFrom
      rw [b2, b3]
      show (L.val (L.sc _) - L.val (L.sc _)) / (L.chal (L.pt (jointR L n sec ps)) _ bs - L.chal (L.pt (jointR L n sec ps)) _ (bs ++ tl)) = _
      rw [hval, hval, div_eq_iff (sub_ne_zero.2 hne)]
      unfold shareSig
      ring
    refine ⟨fun p hp => ?_, ?_⟩
    · rw [hshare p hp]; exact hS.shareKey p (hps p hp).1 (hps p hp).2
    · unfold keyFrom
      rw [List.map_congr_left hshare]
      have := combine_eval n (fun i j hi hj => L.castInj i j (le_trans hi hS.n_le) (le_trans hj hS.n_le)) ps hnd hps (x :: kc)
        (by have := hS.kc_length; simp only [List.length_cons]; omega)
      exact this.trans (by simp [horner])

end

/-- Concretely: cosigners 3 and 1 of the 2-of-3 cluster with key 42 have signed the precommit `b1`; two questions to each of
them give the key. -/
example : ∃ a b : Nat → SignRes, keyFrom ftoyLawful (fsc (42 • 1)) b1 (b1 ++ [7]) [3, 1] a b = 42 := by
  obtain ⟨R, st', _, a, b, _, h⟩ := C72_fails fsetup (by decide) fval_fsc' [3, 1] (by decide) (by decide) (by decide) 3 (by decide)
    ⟨7, 1, 3, 1600000000000000005⟩ (by decide) b1 unpack_b1 (fun _ => [2, 1, 3]) (fun _ => by decide)
    (fun p => if p = 1 then [1, 3] else [3, 1]) (fun p => by by_cases h : p = 1 <;> simp only [h, if_true, if_false] <;> decide)
    (fun p _ => toyRnd (UInt8.ofNat p)) (fun _ _ => toyRnd 9)
    (fun p i => ⟨List.replicate 32 (UInt8.ofNat p), rfl, by simp⟩) (fun _ => CState.start .empty)
    (fun p _ _ => show (⟨0, 0, 0⟩ : HRS) ≺ ⟨7, 1, 3⟩ by decide) (fun _ _ _ => rfl) [7] (by decide)
  refine ⟨a, b, (h ?_).2⟩
  show fchal _ _ _ ≠ fchal _ _ _
  unfold fchal
  rw [List.map_append, List.sum_append]
  intro he
  rw [← add_assoc, left_eq_add] at he
  exact absurd he (by decide +kernel)

section
variable {C : Crypto} {F G : Type} [Field F] [AddCommGroup G] [Module F G] {L : Lawful C F G} {cfg : CosignerCfg}

theorem fresh_entry {s0 s : CState} {tr : List (CosOp × Out CosResp)} (hrun : Run C cfg s0 tr s) {bs : Bytes} {r : SignRes}
    {ref : Nat} {e : Bytes} (hm : (CosOp.sign bs, Out.ok (CosResp.signed r)) ∈ tr) (hr : r.nonce = some (ref, e)) :
    (∃ l l', e = C.addScalars l ∧ r.ephemeralPublic = some (C.addElements l')) ∧
    r.signature = some (C.signWithShare bs cfg.shareKey e cfg.pubKeyBytes r.ephemeralPublic.bytes) := by
  obtain ⟨l1, l2, rfl⟩ := List.mem_iff_append.1 hm
  obtain ⟨sa, _, hr2⟩ := hrun.split
  cases hr2 with
  | cons hstep _ _ =>
    rcases sign_ok_cases (step_sign hstep) with ⟨k, hc⟩ | ⟨k, ref', m, hf⟩
    · rw [hc.res] at hr; cases hr
    · have hn := hf.nonce
      rw [hr] at hn
      simp only [Option.some.injEq, Prod.mk.injEq] at hn
      exact ⟨⟨_, _, hn.2, hf.eph⟩, by rw [hf.sig, hf.eph, hn.2]; rfl⟩

/-- C72, partial: if a cosigner uses every nonce record for one signature only — one message, one sum of nonce shares —
then the share signatures of any run of it are consistent with every key share `y'` whatsoever: they are the ones that a
cosigner with the share `y'` makes with some other nonces `ρ'`. Missing for the full property: that a nonce record is used
once (false, see `C72_fails` and C13), and what can be computed from the public points, which is a matter of the
hardness of discrete logarithms. -/
theorem C72_once_partial (y y' : F) (hkey : cfg.shareKey = L.sc y) (l : SignState) (s : CState)
    (tr : List (CosOp × Out CosResp)) (hrun : Run C cfg (CState.start l) tr s)
    (hcanon : ∀ bs r ref e, (CosOp.sign bs, Out.ok (CosResp.signed r)) ∈ tr → r.nonce = some (ref, e) →
      ∃ ρ R, e = L.sc ρ ∧ r.ephemeralPublic = some (L.pt R))
    (honce : ∀ bs bs' r r' ref e e', (CosOp.sign bs, Out.ok (CosResp.signed r)) ∈ tr →
      (CosOp.sign bs', Out.ok (CosResp.signed r')) ∈ tr → r.nonce = some (ref, e) → r'.nonce = some (ref, e') →
      bs = bs' ∧ e = e' ∧ r.ephemeralPublic = r'.ephemeralPublic) :
    ∃ ρ' : Nat → F, ∀ bs r ref e, (CosOp.sign bs, Out.ok (CosResp.signed r)) ∈ tr → r.nonce = some (ref, e) →
      r.signature = some (C.signWithShare bs (L.sc y') (L.sc (ρ' ref)) cfg.pubKeyBytes r.ephemeralPublic.bytes) := by
  have hsig := fun bs r ref e hm hr => (fresh_entry (bs := bs) (r := r) (ref := ref) (e := e) hrun hm hr).2
  have hρ : ∀ ref, ∃ ρ' : F, ∀ bs r e, (CosOp.sign bs, Out.ok (CosResp.signed r)) ∈ tr → r.nonce = some (ref, e) →
      r.signature = some (C.signWithShare bs (L.sc y') (L.sc ρ') cfg.pubKeyBytes r.ephemeralPublic.bytes) := by
    intro ref
    by_cases hex : ∃ bs r e, (CosOp.sign bs, Out.ok (CosResp.signed r)) ∈ tr ∧ r.nonce = some (ref, e)
    · obtain ⟨bs, r, e, hm, hr⟩ := hex
      obtain ⟨ρ, R, he, hR⟩ := hcanon bs r ref e hm hr
      refine ⟨ρ + L.chal (L.pt R) cfg.pubKeyBytes bs * (y - y'), ?_⟩
      intro bs' r' e' hm' hr'
      obtain ⟨rfl, rfl, h3⟩ := honce bs bs' r r' ref e e' hm hm' hr hr'
      rw [hsig bs r' ref e hm' hr', ← h3, hR, hkey, he]
      show some (C.signWithShare bs (L.sc y) (L.sc ρ) _ (L.pt R)) = some (C.signWithShare bs (L.sc y') _ _ (L.pt R))
      rw [L.sign, L.sign]
      congr 2
      ring
    · exact ⟨0, fun bs r e hm hr => absurd ⟨bs, r, e, hm, hr⟩ hex⟩
  choose ρ' hρ using hρ
  exact ⟨ρ', fun bs r ref e hm hr => hρ ref bs r e hm hr⟩

/-- The hypotheses are met by a run with one fresh signature, which is consistent with the key share 100 (the share of
cosigner 1 being 42 + 7). -/
example : ∃ tr s, Run ftoy (fcfg 1) (CState.start .empty) tr s ∧ ((relAt tr 1).bind (·.2.nonce)).map (·.1) = some 0 ∧
    ∃ ρ' : Nat → ZMod 257, ∀ bs r ref e, (CosOp.sign bs, Out.ok (CosResp.signed r)) ∈ tr → r.nonce = some (ref, e) →
      r.signature = some (ftoy.signWithShare bs (fsc 100) (fsc (ρ' ref)) (fcfg 1).pubKeyBytes r.ephemeralPublic.bytes) := by
  have hrun := exec_run ftoy (fcfg 1) (CState.start .empty) [.getPart get1 (toyRnd 1), .sign b1] (by decide +kernel)
  refine ⟨_, _, hrun, by decide +kernel, C72_once_partial (L := ftoyLawful) (shareOf 42 [7] 1) 100 rfl _ _ _ hrun ?_ ?_⟩
  · intro bs r ref e hm hr
    obtain ⟨⟨l, l', h1, h2⟩, _⟩ := fresh_entry hrun hm hr
    exact ⟨_, _, h1, h2⟩
  · intro bs bs' r r' ref e e' hm hm' hr hr'
    simp only [exec, List.mem_cons, List.not_mem_nil, or_false, Prod.mk.injEq, reduceCtorEq, false_and, false_or,
      CosOp.sign.injEq] at hm hm'
    have := hm.2.trans hm'.2.symm
    simp only [Out.ok.injEq, CosResp.signed.injEq] at this
    subst this
    rw [hr] at hr'
    simp only [Option.some.injEq, Prod.mk.injEq, true_and] at hr'
    exact ⟨hm.1.trans hm'.1.symm, hr', rfl⟩

end

end Horcrux
