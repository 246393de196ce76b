import Verif.Props.Deploy
/-
C124: a cluster whose configurations ask for another threshold than the one the key was split with.
-/
namespace Horcrux
open Spec

/-- The inputs of a signing round of the cosigners `ps` out of `1..n`, none of which has signed at or above the block or has
nonce material for it. -/
structure Spec.RoundInput (n : Nat) (ps : List Nat) (leader : Nat) (k : HRST) (bs : Bytes) (order mapOrder : Nat → List Nat)
    (rnd : Nat → Nat → Rand) (st : Nat → CState) : Prop where
  nodup : ps.Nodup
  members : ∀ p ∈ ps, 1 ≤ p ∧ p ≤ n
  leads : leader ∈ ps
  time : IsI64 k.timestamp
  block : unpackHRST bs = .ok k
  orders : ∀ p, (order p).Perm (List.range' 1 n)
  mapOrders : ∀ p, (mapOrder p).Perm ps
  random : ∀ p i, ∃ sec, (rnd p i).secret = some sec ∧ sec.length = 32
  low : ∀ p ∈ ps, (st p).lss.hrs ≺ k.hrs
  new : ∀ p ∈ ps, (st p).hrsMeta k = none

/-- The shares of `ps` fit a split of `x` with the threshold `ps.length`. -/
def FitsThreshold {F : Type} [Field F] (x : F) (share : Nat → F) (ps : List Nat) : Prop :=
  ∃ l : List F, l.length + 1 = ps.length ∧ ∀ p ∈ ps, share p = shareOf x l p

/-- The outcome of a round is a signature that verifies. -/
def Spec.RoundSigned (C : Crypto) (pub bs : Bytes) (out : Out Bytes) : Prop :=
  ∃ sig, out = .ok sig ∧ C.verify pub bs sig = true

section
variable {C : Crypto} {F G : Type} [Field F] [AddCommGroup G] [Module F G] {L : Lawful C F G}
  {pair : Bytes → Bytes → Prop} {n t : Nat} {tn : Nat → Nat} {cfg : Nat → CosignerCfg} {x : F} {share : Nat → F}
  {rsaPub : Nat → Bytes}

/-- C124, exact condition for one round, whatever the thresholds in the configurations: cosigners `1..n` with any key shares,
cosigner `p` with threshold `tn p`, and any of them taking part that are enough for the leader. The round gives a signature,
which verifies, just if the share signatures fit a split of the right response with as many cosigners as take part; otherwise
the leader reports that the combined signature is not valid. In both cases the watermarks of all participants are at the
block. -/
theorem C124_round (hW : Wired C L pair n tn cfg share (x • L.B) rsaPub) (hB : L.B ≠ 0) (hn : 2 ≤ n)
    {ps : List Nat} {leader : Nat} {k : HRST} {bs : Bytes} {order mapOrder : Nat → List Nat} {rnd1 rnd2 : Nat → Nat → Rand}
    {st : Nat → CState} (hI : RoundInput n ps leader k bs order mapOrder rnd1 st) (hlen : tn leader ≤ ps.length) :
    ∃ (sec r : Nat → Bytes) (out : Out Bytes) (st' : Nat → CState) (c : F),
      (∀ p ∈ ps, ∃ i, (rnd1 p i).secret = some (sec p) ∧ (rnd1 p i).deal = r p) ∧
      c = L.chal (L.pt ((ps.map fun p => L.val (sec p)).sum • L.B)) (L.pt (x • L.B)) bs ∧
      signRound C cfg ps leader (tn leader) n (L.pt (x • L.B)) k bs (fun p => (order p).map (fun q : Nat => (q : Int)))
        mapOrder rnd1 rnd2 st = (out, st') ∧ (∀ p ∈ ps, (st' p).lss.hrs = k.hrs) ∧
      (RoundSigned C (L.pt (x • L.B)) bs out ↔
        FitsThreshold ((ps.map fun p => L.val (sec p)).sum + c * x)
          (fun p => (ps.map fun q => shareOf (L.val (sec q)) (L.coeffs (r q) (tn q)) p).sum + c * share p) ps) ∧
      (RoundSigned C (L.pt (x • L.B)) bs out ∨ out = .err .combinedInvalid) := by
  have hmem : ∀ p q, q ∈ order p ↔ 1 ≤ q ∧ q ≤ n := by
    intro p q
    rw [(hI.orders p).mem_iff, List.mem_range'_1]
    omega
  obtain ⟨sec, r, st', h1, h2, h3⟩ := round_wired (rnd2 := rnd2) hW hI.nodup hI.members hlen hI.leads hI.time hI.block
    (fun p _ q hq => (hmem p q).1 hq) (fun p _ q hq _ => (hmem p q).2 (hI.members q hq)) (by
      intro p _
      by_cases h : p = 1
      · exact ⟨2, (hmem p 2).2 ⟨by omega, hn⟩, by omega⟩
      · exact ⟨1, (hmem p 1).2 ⟨le_refl _, by omega⟩, Ne.symm h⟩)
    (fun p _ => hI.mapOrders p) (fun p _ => hI.random p) hI.low hI.new
  have hv := wiredOut_verify (C := C) (L := L) x bs (ps.map fun q => L.val (sec q)).sum
    (combineF ps (ps.map (roundSig L ps sec (fun q => L.coeffs (r q) (tn q)) share (x • L.B) bs)))
  have h1' : 1 ≤ ps.length := List.length_pos_of_mem hI.leads
  rw [combine_lucky (L.castInj.mono hW.n_le) hI.nodup hI.members h1', or_iff_left hB] at hv
  refine ⟨sec, r, _, st', _, h1, rfl, h2, h3, ?_, ?_⟩
  · refine Iff.trans ?_ hv
    by_cases hc : C.verify (L.pt (x • L.B)) bs (wiredOut C L (ps.map fun q => L.val (sec q)).sum
        (combineF ps (ps.map (roundSig L ps sec (fun q => L.coeffs (r q) (tn q)) share (x • L.B) bs)))) = true
    · rw [if_pos hc]
      exact ⟨fun _ => hc, fun _ => ⟨_, rfl, hc⟩⟩
    · rw [if_neg hc]
      exact ⟨fun ⟨_, h, _⟩ => (nomatch h), fun h => absurd h hc⟩
  · by_cases hc : C.verify (L.pt (x • L.B)) bs (wiredOut C L (ps.map fun q => L.val (sec q)).sum
        (combineF ps (ps.map (roundSig L ps sec (fun q => L.coeffs (r q) (tn q)) share (x • L.B) bs)))) = true
    · rw [if_pos hc]; exact .inl ⟨_, rfl, hc⟩
    · rw [if_neg hc]; exact .inr rfl

/-- C124, exact condition if none of the participants deals its nonces for more cosigners than take part (so when all
thresholds are the same): the round gives a signature just if the key shares of those that take part fit a split of the key
with as many cosigners as take part (or the challenge of this one signature is zero). -/
theorem C124_exact (hW : Wired C L pair n tn cfg share (x • L.B) rsaPub) (hB : L.B ≠ 0) (hn : 2 ≤ n)
    {ps : List Nat} {leader : Nat} {k : HRST} {bs : Bytes} {order mapOrder : Nat → List Nat} {rnd1 rnd2 : Nat → Nat → Rand}
    {st : Nat → CState} (hI : RoundInput n ps leader k bs order mapOrder rnd1 st) (hlen : ∀ p ∈ ps, tn p ≤ ps.length) :
    ∃ (sec : Nat → Bytes) (out : Out Bytes) (st' : Nat → CState),
      (∀ p ∈ ps, ∃ i, (rnd1 p i).secret = some (sec p)) ∧
      signRound C cfg ps leader (tn leader) n (L.pt (x • L.B)) k bs (fun p => (order p).map (fun q : Nat => (q : Int)))
        mapOrder rnd1 rnd2 st = (out, st') ∧ (∀ p ∈ ps, (st' p).lss.hrs = k.hrs) ∧
      (RoundSigned C (L.pt (x • L.B)) bs out ↔
        FitsThreshold x share ps ∨
          L.chal (L.pt ((ps.map fun p => L.val (sec p)).sum • L.B)) (L.pt (x • L.B)) bs = 0) ∧
      (RoundSigned C (L.pt (x • L.B)) bs out ∨ out = .err .combinedInvalid) := by
  obtain ⟨sec, r, out, st', c, h1, hc, h2, h3, h4, h5⟩ := C124_round (rnd2 := rnd2) hW hB hn hI (hlen _ hI.leads)
  have h1' : 1 ≤ ps.length := List.length_pos_of_mem hI.leads
  have hcast := L.castInj.mono hW.n_le
  refine ⟨sec, out, st', fun p hp => ?_, h2, h3, h4.trans ?_, h5⟩
  · obtain ⟨i, hi, _⟩ := h1 p hp
    exact ⟨i, hi⟩
  · unfold FitsThreshold
    rw [← hc, ← combine_lucky hcast hI.nodup hI.members h1', ← combine_lucky hcast hI.nodup hI.members h1',
      combine_wired hcast ps hI.nodup hI.members ps (fun q => L.val (sec q)) (fun q => L.coeffs (r q) (tn q))
        (fun q hq => by
          rw [L.coeffs_length _ _ (hW.t_pos q (hI.members q hq).1 (hI.members q hq).2)]; exact hlen q hq) h1' c share,
      add_right_inj, mul_eq_mul_left_iff]

/-- C124, exact condition if the key shares of the participants fit: the round gives a signature just if the nonce shares fit
too, that is, if the sum of the nonce dealings happens to be a dealing for as many cosigners as take part. -/
theorem C124_uneven (hW : Wired C L pair n tn cfg share (x • L.B) rsaPub) (hB : L.B ≠ 0) (hn : 2 ≤ n)
    {ps : List Nat} {leader : Nat} {k : HRST} {bs : Bytes} {order mapOrder : Nat → List Nat} {rnd1 rnd2 : Nat → Nat → Rand}
    {st : Nat → CState} (hI : RoundInput n ps leader k bs order mapOrder rnd1 st) (hlen : tn leader ≤ ps.length)
    (hfit : FitsThreshold x share ps) :
    ∃ (sec r : Nat → Bytes) (out : Out Bytes) (st' : Nat → CState),
      (∀ p ∈ ps, ∃ i, (rnd1 p i).secret = some (sec p) ∧ (rnd1 p i).deal = r p) ∧
      signRound C cfg ps leader (tn leader) n (L.pt (x • L.B)) k bs (fun p => (order p).map (fun q : Nat => (q : Int)))
        mapOrder rnd1 rnd2 st = (out, st') ∧ (∀ p ∈ ps, (st' p).lss.hrs = k.hrs) ∧
      (RoundSigned C (L.pt (x • L.B)) bs out ↔
        FitsThreshold (ps.map fun p => L.val (sec p)).sum
          (fun p => (ps.map fun q => shareOf (L.val (sec q)) (L.coeffs (r q) (tn q)) p).sum) ps) ∧
      (RoundSigned C (L.pt (x • L.B)) bs out ∨ out = .err .combinedInvalid) := by
  obtain ⟨sec, r, out, st', c, h1, hc, h2, h3, h4, h5⟩ := C124_round (rnd2 := rnd2) hW hB hn hI hlen
  have h1' : 1 ≤ ps.length := List.length_pos_of_mem hI.leads
  have hcast := L.castInj.mono hW.n_le
  refine ⟨sec, r, out, st', h1, h2, h3, h4.trans ?_, h5⟩
  unfold FitsThreshold at hfit ⊢
  rw [← combine_lucky hcast hI.nodup hI.members h1'] at hfit
  rw [← combine_lucky hcast hI.nodup hI.members h1', ← combine_lucky hcast hI.nodup hI.members h1',
    combine_add ps hI.nodup, hfit, add_left_inj]

/-- Which quorums fit: all of them just if the key was in effect split with a threshold of at most `t`. -/
theorem C124_quorums (hcast : CastInj F n) (t : Nat) (ht : 1 ≤ t) (htn : t ≤ n) (kc : List F) (hkc : kc.length + 1 ≤ n) :
    (∀ ps : List Nat, ps.Nodup → (∀ p ∈ ps, 1 ≤ p ∧ p ≤ n) → ps.length = t → FitsThreshold x (shareOf x kc) ps) ↔
      ∀ a ∈ kc.drop (t - 1), a = 0 := by
  constructor
  · intro H
    have hS : ∀ i ∈ List.range' 1 (t - 1), 1 ≤ i ∧ i ≤ n := fun i hi => by rw [List.mem_range'_1] at hi; omega
    have hq : ∀ p, t ≤ p → p ≤ n → ∃ l : List F, l.length + 1 = t ∧
        (∀ i ∈ List.range' 1 (t - 1), shareOf x kc i = shareOf x l i) ∧ shareOf x kc p = shareOf x l p := by
      intro p h1 h2
      obtain ⟨l, hl, h⟩ := H (List.range' 1 (t - 1) ++ [p])
        (List.nodup_append.2 ⟨List.nodup_range', by simp, fun a ha b hb => by
          rw [List.mem_range'_1] at ha; rw [List.mem_singleton] at hb; omega⟩)
        (by intro i hi; rcases List.mem_append.1 hi with hi | hi
            · exact hS i hi
            · rw [List.mem_singleton] at hi; omega)
        (by rw [List.length_append, List.length_range', List.length_singleton]; omega)
      rw [List.length_append, List.length_range', List.length_singleton] at hl
      exact ⟨l, by omega, fun i hi => h i (List.mem_append_left _ hi), h p (by simp)⟩
    obtain ⟨l, hl, hl1, _⟩ := hq t (le_refl _) htn
    have hall : ∀ i ∈ List.range' 1 n, shareOf x kc i = shareOf x l i := by
      intro i hi
      rw [List.mem_range'_1] at hi
      by_cases hit : i < t
      · exact hl1 i (by rw [List.mem_range'_1]; omega)
      · obtain ⟨l', hl', h1', h2'⟩ := hq i (by omega) (by omega)
        have := deal_unique hcast List.nodup_range' hS x l' l (by rw [List.length_range']; omega) (by omega)
          (fun j hj => by rw [← h1' j hj, hl1 j hj])
        rw [h2', this, show l'.length - l.length = 0 by omega]
        simp
    have hu : kc.length ≤ l.length ∨ l.length ≤ kc.length := by omega
    rcases hu with hu | hu
    · intro a ha
      rw [List.drop_eq_nil_of_le (by omega)] at ha
      cases ha
    · have := deal_unique hcast List.nodup_range' (fun i hi => by rw [List.mem_range'_1] at hi; omega) x kc l
        (by rw [List.length_range']; omega) hu hall
      intro a ha
      rw [this, List.drop_append_of_le_length (by omega), List.drop_eq_nil_of_le (by omega), List.nil_append] at ha
      exact List.eq_of_mem_replicate ha
  · intro h ps hnd hps hlen
    refine (combine_lucky hcast hnd hps (by omega) _ _).1 ?_
    have hkc' : kc = kc.take (t - 1) ++ List.replicate (kc.length - (t - 1)) 0 := by
      conv_lhs => rw [← List.take_append_drop (t - 1) kc]
      congr 1
      rw [← List.length_drop]
      exact List.eq_replicate_of_mem h
    have hm : ps.map (shareOf x kc) = ps.map fun i : Nat => horner (x :: kc.take (t - 1)) (i : F) := by
      refine List.map_congr_left fun i _ => ?_
      unfold shareOf
      conv_lhs => rw [hkc']
      rw [← List.cons_append, horner_snoc_zero]
    rw [hm, combine_eval n hcast ps hnd hps _ (by rw [List.length_cons, List.length_take]; omega)]
    simp [horner]

/-- With one share too few, no quorum fits, whoever takes part. -/
theorem C124_one_short (hcast : CastInj F n) (kc : List F) (a : F) (ha : a ≠ 0) {ps : List Nat} (hnd : ps.Nodup)
    (hps : ∀ p ∈ ps, 1 ≤ p ∧ p ≤ n) (hlen : kc.length + 1 = ps.length) :
    ¬ FitsThreshold x (shareOf x (kc ++ [a])) ps := by
  rintro ⟨l, hl, h⟩
  have hh := deal_unique hcast hnd hps x (kc ++ [a]) l (by simp; omega) (by simp; omega) h
  have h1 : (kc ++ [a]).length - l.length = 1 := by simp; omega
  rw [h1] at hh
  exact ha (by simpa using (List.append_inj' hh rfl).2)

/-- Nonce dealings for up to one cosigner more than take part do not fit unless their highest coefficients cancel. -/
theorem C124_nonces_short (hcast : CastInj F n) (a : Nat → F) (co : Nat → List F) {ps : List Nat} (hnd : ps.Nodup)
    (hps : ∀ p ∈ ps, 1 ≤ p ∧ p ≤ n) (h1 : 1 ≤ ps.length) (hco : ∀ q ∈ ps, (co q).length ≤ ps.length)
    (hne : (ps.map fun q => (co q).getD (ps.length - 1) 0).sum ≠ 0) :
    ¬ FitsThreshold (ps.map a).sum (fun p => (ps.map fun q => shareOf (a q) (co q) p).sum) ps := by
  obtain ⟨l, hl, h⟩ := shares_sum (ps.length - 1) ps a co fun q hq => by have := hco q hq; omega
  simp only [funext h]
  exact C124_one_short hcast l _ hne hnd hps (by omega)

end

section
variable (R : RSACodec) (E : SplitEnv) {F G : Type} [Field F] [AddCommGroup G] [Module F G] (L : Lawful E.C F G)
  (pair : Bytes → Bytes → Prop)

/-- What C124 assumes: `create-shares file t n` on a readable key file whose public key matches, thresholds and number of
shares within a byte, and accepted configurations that list the other cosigners; that of `p` asks for the threshold `tc p`. -/
structure Deployed (readPriv : Bytes → Option PrivFile) (d : Dir) (file ts ns : Str) (t : Nat) (tc : Nat → Nat) (n : Nat)
    (content : Bytes) (pv : PrivFile) (priv : Bytes) (lib : Lib) (conf : Nat → Config) : Prop where
  codec : R.Lawful pair
  rsa : LawfulRSA E.C pair
  gen : GenOk pair E.gen
  thr : parseInt ts = some (t : Int)
  num : parseInt ns = some (n : Int)
  t_pos : 1 ≤ t
  t_le : t ≤ n
  tc_pos : ∀ p, 1 ≤ p → p ≤ n → 1 ≤ tc p
  tc_le : ∀ p, 1 ≤ p → p ≤ n → tc p ≤ n
  n_ge : 2 ≤ n
  n_le : n ≤ 255
  file : d.files file = some content
  read : readPriv content = some pv
  secret : pv.priv = some priv
  privLen : 32 ≤ priv.length
  sized : pv.pub.Sized
  expand : (E.expand (priv.take 32)).length = 32
  matches' : pv.pub.raw = L.pt (L.val (E.expand (priv.take 32)) • L.B)
  writable : ∀ i : Nat, 1 ≤ i → i ≤ n → d.writable (keyFileName i) = true
  confs : ∀ p, 1 ≤ p → p ≤ n → ClusterConfig lib n (tc p) p (conf p)

variable {R E L pair} {readPriv : Bytes → Option PrivFile} {d : Dir} {file ts ns : Str} {t n : Nat} {tc : Nat → Nat}
  {content : Bytes} {pv : PrivFile} {priv : Bytes} {lib : Lib} {conf : Nat → Config}

/-- What follows for all: the shares are made, and all cosigners start. -/
theorem deployed (h : Deployed R E L pair readPriv d file ts ns t tc n content pv priv lib conf) :
    ∃ d' cfg rsaPub, createSharesCmd R E readPriv d [file, ts, ns] = (.done, d') ∧
      (∀ p : Nat, 1 ≤ p → p ≤ n → ∃ bs k, d'.files (keyFileName p) = some bs ∧ loadKey R bs = .ok k ∧
        startCfg lib (conf p) k.toKey = some (cfg p)) ∧
      Wired E.C L pair n tc cfg (shareOf (L.val (E.expand (priv.take 32))) (L.coeffs E.rand t))
        (L.val (E.expand (priv.take 32)) • L.B) rsaPub :=
  cluster_wired R E L pair h.codec h.rsa h.gen readPriv d file ts ns t n h.thr h.num h.t_pos h.t_le h.n_le content h.file pv
    h.read priv h.secret h.privLen h.sized h.expand h.matches' h.writable lib conf tc h.tc_pos h.tc_le h.confs

/-- Enough cosigners hold fitting shares. -/
theorem deployed_fits (h : Deployed R E L pair readPriv d file ts ns t tc n content pv priv lib conf) {ps : List Nat}
    (hnd : ps.Nodup) (hps : ∀ p ∈ ps, 1 ≤ p ∧ p ≤ n) (hlen : t ≤ ps.length) (x : F) :
    FitsThreshold x (shareOf x (L.coeffs E.rand t)) ps := by
  have ht := h.t_pos
  have hl := L.coeffs_length E.rand t ht
  refine (combine_lucky (L.castInj.mono h.n_le) hnd hps (by omega) _ _).1 ?_
  unfold shareOf
  rw [combine_eval n (L.castInj.mono h.n_le) ps hnd hps (x :: L.coeffs E.rand t) (by rw [List.length_cons]; omega)]
  simp [horner]

/-- C124, partial: any cosigners that are as many as the key was split for, and as many as each of their configurations asks
for, sign. Missing: smaller thresholds, and larger ones at others than the leader; both are accepted too (`C124_fails`,
`C124_uneven_fails`). -/
theorem C124_partial (h : Deployed R E L pair readPriv d file ts ns t tc n content pv priv lib conf) (hB : L.B ≠ 0) :
    ∃ d' cfg, createSharesCmd R E readPriv d [file, ts, ns] = (.done, d') ∧
      (∀ p : Nat, 1 ≤ p → p ≤ n → ∃ bs k, d'.files (keyFileName p) = some bs ∧ loadKey R bs = .ok k ∧
        startCfg lib (conf p) k.toKey = some (cfg p)) ∧
      ∀ (ps : List Nat) (leader : Nat) (k : HRST) (bs : Bytes) (order mapOrder : Nat → List Nat)
        (rnd1 rnd2 : Nat → Nat → Rand) (st : Nat → CState), RoundInput n ps leader k bs order mapOrder rnd1 st →
        t ≤ ps.length → (∀ p ∈ ps, tc p ≤ ps.length) → ∃ sig st', signRound E.C cfg ps leader (tc leader) n pv.pub.raw k bs
          (fun p => (order p).map (fun q : Nat => (q : Int))) mapOrder rnd1 rnd2 st = (.ok sig, st') ∧
          E.C.verify pv.pub.raw bs sig = true := by
  obtain ⟨d', cfg, rsaPub, h1, h2, hW⟩ := deployed h
  refine ⟨d', cfg, h1, h2, fun ps leader k bs order mapOrder rnd1 rnd2 st hI hlen htc => ?_⟩
  obtain ⟨sec, out, st', f1, f2, f3, f4, f5⟩ := C124_exact (rnd2 := rnd2) hW hB h.n_ge hI htc
  obtain ⟨sig, e1, e2⟩ := f4.2 (.inl (deployed_fits h hI.nodup hI.members hlen _))
  rw [h.matches']
  exact ⟨sig, st', by rw [f2, e1], e2⟩

/-- C124 is false of smaller thresholds: if the configurations ask for fewer cosigners than the key was split for (and one of
the coefficients above is not zero), all is accepted and all cosigners start, but there are `t1` of them that sign nothing:
whatever the block and whoever leads, unless the challenge is zero, the leader reports an invalid signature and the
participants' watermarks are at the block. -/
theorem C124_fails {t1 : Nat} (h : Deployed R E L pair readPriv d file ts ns t (fun _ => t1) n content pv priv lib conf)
    (hB : L.B ≠ 0) (hco : ∃ a ∈ (L.coeffs E.rand t).drop (t1 - 1), a ≠ 0) :
    ∃ d' cfg, createSharesCmd R E readPriv d [file, ts, ns] = (.done, d') ∧
      (∀ p : Nat, 1 ≤ p → p ≤ n → ∃ bs k, d'.files (keyFileName p) = some bs ∧ loadKey R bs = .ok k ∧
        startCfg lib (conf p) k.toKey = some (cfg p)) ∧
      ∃ ps : List Nat, ps.Nodup ∧ (∀ p ∈ ps, 1 ≤ p ∧ p ≤ n) ∧ ps.length = t1 ∧
        ∀ (ps' : List Nat) (leader : Nat) (k : HRST) (bs : Bytes) (order mapOrder : Nat → List Nat)
          (rnd1 rnd2 : Nat → Nat → Rand) (st : Nat → CState), ps'.Perm ps →
          RoundInput n ps' leader k bs order mapOrder rnd1 st →
          ∃ (sec : Nat → Bytes) (out : Out Bytes) (st' : Nat → CState), (∀ p ∈ ps', ∃ i, (rnd1 p i).secret = some (sec p)) ∧
            signRound E.C cfg ps' leader t1 n pv.pub.raw k bs (fun p => (order p).map (fun q : Nat => (q : Int))) mapOrder
              rnd1 rnd2 st = (out, st') ∧ (∀ p ∈ ps', (st' p).lss.hrs = k.hrs) ∧
            (L.chal (L.pt ((ps'.map fun p => L.val (sec p)).sum • L.B)) pv.pub.raw bs ≠ 0 → out = .err .combinedInvalid) := by
  have hn := h.n_ge
  obtain ⟨d', cfg, rsaPub, h1, h2, hW⟩ := deployed h
  refine ⟨d', cfg, h1, h2, ?_⟩
  have hq := C124_quorums (F := F) (x := L.val (E.expand (priv.take 32))) (L.castInj.mono h.n_le) t1
    (h.tc_pos 1 (le_refl _) (by omega)) (h.tc_le 1 (le_refl _) (by omega))
    (L.coeffs E.rand t) (by rw [L.coeffs_length _ _ h.t_pos]; exact h.t_le)
  have hnot : ¬ ∀ ps : List Nat, ps.Nodup → (∀ p ∈ ps, 1 ≤ p ∧ p ≤ n) → ps.length = t1 →
      FitsThreshold (L.val (E.expand (priv.take 32))) (shareOf (L.val (E.expand (priv.take 32))) (L.coeffs E.rand t)) ps := by
    intro H
    obtain ⟨a, ha, hne⟩ := hco
    exact hne (hq.1 H a ha)
  push Not at hnot
  obtain ⟨ps, e1, e2, e3, e4⟩ := hnot
  refine ⟨ps, e1, e2, e3, ?_⟩
  intro ps' leader k bs order mapOrder rnd1 rnd2 st hp hI
  obtain ⟨sec, out, st', f1, f2, f3, f4, f5⟩ := C124_exact (rnd2 := rnd2) hW hB h.n_ge hI
    (fun _ _ => by rw [hp.length_eq, e3])
  rw [h.matches']
  refine ⟨sec, out, st', f1, f2, f3, fun hc => ?_⟩
  rcases f5 with f5 | f5
  · rcases f4.1 f5 with ⟨l, hl, hf⟩ | hz
    · exact absurd ⟨l, by rw [hl, hp.length_eq], fun p hp' => hf p (hp.mem_iff.2 hp')⟩ e4
    · exact absurd hz hc
  · exact f5

/-- C124 is false of uneven thresholds: if the leader's configuration asks for fewer cosigners than that of another
participant, all is accepted and all start, but a round of as many as the leader asks for gives no signature, unless the
highest coefficients the participants drew cancel. (For thresholds up to one above the leader's; `C124_uneven` is the exact
condition for all.) -/
theorem C124_uneven_fails (h : Deployed R E L pair readPriv d file ts ns t tc n content pv priv lib conf) (hB : L.B ≠ 0) :
    ∃ d' cfg, createSharesCmd R E readPriv d [file, ts, ns] = (.done, d') ∧
      (∀ p : Nat, 1 ≤ p → p ≤ n → ∃ bs k, d'.files (keyFileName p) = some bs ∧ loadKey R bs = .ok k ∧
        startCfg lib (conf p) k.toKey = some (cfg p)) ∧
      ∀ (ps : List Nat) (leader : Nat) (k : HRST) (bs : Bytes) (order mapOrder : Nat → List Nat)
        (rnd1 rnd2 : Nat → Nat → Rand) (st : Nat → CState), RoundInput n ps leader k bs order mapOrder rnd1 st →
        t ≤ ps.length → ps.length = tc leader → (∀ p ∈ ps, tc p ≤ tc leader + 1) →
        ∃ (r : Nat → Bytes) (out : Out Bytes) (st' : Nat → CState), (∀ p ∈ ps, ∃ i, (rnd1 p i).deal = r p) ∧
          signRound E.C cfg ps leader (tc leader) n pv.pub.raw k bs (fun p => (order p).map (fun q : Nat => (q : Int)))
            mapOrder rnd1 rnd2 st = (out, st') ∧ (∀ p ∈ ps, (st' p).lss.hrs = k.hrs) ∧
          ((ps.map fun p => (L.coeffs (r p) (tc p)).getD (tc leader - 1) 0).sum ≠ 0 → out = .err .combinedInvalid) := by
  obtain ⟨d', cfg, rsaPub, h1, h2, hW⟩ := deployed h
  refine ⟨d', cfg, h1, h2, fun ps leader k bs order mapOrder rnd1 rnd2 st hI hlen htc hup => ?_⟩
  obtain ⟨sec, r, out, st', f1, f2, f3, f4, f5⟩ := C124_uneven (rnd2 := rnd2) hW hB h.n_ge hI (le_of_eq htc.symm)
    (deployed_fits h hI.nodup hI.members hlen _)
  rw [h.matches']
  refine ⟨r, out, st', fun p hp => ?_, f2, f3, fun hne => ?_⟩
  · obtain ⟨i, _, hi⟩ := f1 p hp
    exact ⟨i, hi⟩
  · rcases f5 with f5 | f5
    · refine absurd (f4.1 f5) (C124_nonces_short (L.castInj.mono h.n_le) _ _ hI.nodup hI.members
        (List.length_pos_of_mem hI.leads) (fun q hq => ?_) (by rw [htc]; exact hne))
      have := L.coeffs_length (r q) (tc q) (h.tc_pos q (hI.members q hq).1 (hI.members q hq).2)
      have := hup q hq
      omega
    · exact f5

end

/-- The toy command with other randomness, so that no coefficient is zero. -/
def mixedSplit : SplitEnv := ⟨ftoy, fun b => b, [3, 1, 2, 5], fun i => some ([UInt8.ofNat i], [UInt8.ofNat i])⟩

/-- The configuration of cosigner `p` of three, threshold 3. -/
def allConf (p : Nat) : Config :=
  ⟨[], [], [99], some ⟨3, 3, [], ((List.range' 1 3).filter (· ≠ p)).map fun i : Nat => ⟨i, [97]⟩, []⟩, []⟩

theorem mixedDeployed (t : Nat) (tc : Nat → Nat) (ts : Str) (conf : Nat → Config) (hts : parseInt ts = some (t : Int))
    (h1 : 1 ≤ t) (h2 : t ≤ 3) (h3 : ∀ p, 1 ≤ tc p) (h4 : ∀ p, tc p ≤ 3)
    (hc : ∀ p, 1 ≤ p → p ≤ 3 → ClusterConfig demoLib 3 (tc p) p (conf p)) :
    Deployed toyCodec mixedSplit ftoyLawful (fun pub priv => pub = priv) (fun _ => some toyPriv) toyDir [107] ts [51] t tc 3
      [] toyPriv (fsc 42) demoLib conf where
  codec := toyCodec_lawful
  rsa := ftoyRSA
  gen := fun _ => ⟨_, _, rfl, rfl⟩
  thr := hts
  num := by decide
  t_pos := h1
  t_le := h2
  tc_pos := fun p _ _ => h3 p
  tc_le := fun p _ _ => h4 p
  n_ge := by decide
  n_le := by decide
  file := rfl
  read := rfl
  secret := rfl
  privLen := by rw [fsc_length]
  sized := fsc_length _
  expand := by show ((fsc 42).take 32).length = 32; rw [List.take_of_length_le (by rw [fsc_length]), fsc_length]
  matches' := by
    show fsc 42 = fsc (fval ((fsc 42).take 32) • (1 : ZMod 257))
    rw [List.take_of_length_le (by rw [fsc_length]), fval_fsc', smul_eq_mul, mul_one]
  writable := fun _ _ _ => rfl
  confs := hc

theorem mixedInput : RoundInput 3 [3, 1, 2] 3 ⟨7, 1, 3, 1600000000000000005⟩ b1 (fun _ => [2, 1, 3]) (fun _ => [1, 2, 3])
    (fun p _ => toyRnd (UInt8.ofNat p)) (fun _ => CState.start .empty) where
  nodup := by decide
  members := by decide
  leads := by decide
  time := by decide
  block := unpack_b1
  orders := fun _ => by decide
  mapOrders := fun _ => by decide
  random := fun p i => ⟨List.replicate 32 (UInt8.ofNat p), rfl, by simp⟩
  low := fun p _ => show (⟨0, 0, 0⟩ : HRS) ≺ ⟨7, 1, 3⟩ by decide
  new := fun _ _ => rfl

/-- Key 42 split 2-of-3, threshold 3 in the configurations: the three sign `b1`. -/
example : ∃ d' cfg, createSharesCmd toyCodec mixedSplit (fun _ => some toyPriv) toyDir [[107], [50], [51]] = (.done, d') ∧
    ∃ sig st', signRound ftoy cfg [3, 1, 2] 3 3 3 (fsc 42) ⟨7, 1, 3, 1600000000000000005⟩ b1
      (fun _ => [2, 1, 3]) (fun _ => [1, 2, 3]) (fun p _ => toyRnd (UInt8.ofNat p)) (fun _ _ => toyRnd 9)
      (fun _ => CState.start .empty) = (.ok sig, st') ∧ ftoy.verify (fsc 42) b1 sig = true := by
  obtain ⟨d', cfg, h1, _, h3⟩ := C124_partial (mixedDeployed 2 (fun _ => 3) [50] allConf (by decide) (by decide) (by decide)
    (fun _ => by decide) (fun _ => by decide) (fun p h1 h3 => by
      have : p = 1 ∨ p = 2 ∨ p = 3 := by omega
      rcases this with rfl | rfl | rfl <;> exact ⟨by decide, _, rfl, rfl, by decide⟩)) (one_ne_zero (α := ZMod 257))
  refine ⟨d', cfg, h1, ?_⟩
  obtain ⟨sig, st', e1, e2⟩ := h3 [3, 1, 2] 3 ⟨7, 1, 3, 1600000000000000005⟩ b1 (fun _ => [2, 1, 3]) (fun _ => [1, 2, 3])
    (fun p _ => toyRnd (UInt8.ofNat p)) (fun _ _ => toyRnd 9) (fun _ => CState.start .empty) mixedInput (by decide) (by decide)
  exact ⟨sig, st', e1, e2⟩

/-- Key 42 split 3-of-3, threshold 2 in the configurations: some two of the three sign nothing. -/
example : ∃ d' cfg, createSharesCmd toyCodec mixedSplit (fun _ => some toyPriv) toyDir [[107], [51], [51]] = (.done, d') ∧
    (∀ p : Nat, 1 ≤ p → p ≤ 3 → ∃ bs k, d'.files (keyFileName p) = some bs ∧ loadKey toyCodec bs = .ok k ∧
      startCfg demoLib (deployConf p) k.toKey = some (cfg p)) ∧ ∃ ps : List Nat, ps.length = 2 ∧
    ∀ (leader : Nat) (k : HRST) (bs : Bytes) (order mapOrder : Nat → List Nat) (rnd1 : Nat → Nat → Rand)
      (st : Nat → CState), RoundInput 3 ps leader k bs order mapOrder rnd1 st → ∃ sec : Nat → Bytes,
      (∀ p ∈ ps, ∃ i, (rnd1 p i).secret = some (sec p)) ∧
      (fchal (fsc ((ps.map fun p => fval (sec p)).sum • (1 : ZMod 257))) (fsc 42) bs ≠ 0 →
        (signRound ftoy cfg ps leader 2 3 (fsc 42) k bs (fun p => (order p).map (fun q : Nat => (q : Int))) mapOrder
          rnd1 (fun _ _ => toyRnd 9) st).1 = .err .combinedInvalid) := by
  have hco : (256 : ZMod 257) ∈ (fcoeffs [3, 1, 2, 5] 3).drop 1 := by
    have : (fcoeffs [3, 1, 2, 5] 3).drop 1 = [256] := by decide +kernel
    rw [this]; exact List.mem_singleton.2 rfl
  obtain ⟨d', cfg, h1, h2, ps, _, _, h5, h6⟩ := C124_fails (mixedDeployed 3 (fun _ => 2) [51] deployConf (by decide) (by decide)
    (by decide) (fun _ => by decide) (fun _ => by decide) deployConf_ok) (one_ne_zero (α := ZMod 257)) ⟨256, hco, by decide⟩
  refine ⟨d', cfg, h1, h2, ps, h5, fun leader k bs order mapOrder rnd1 st hI => ?_⟩
  obtain ⟨sec, out, st', f1, f2, _, f4⟩ := h6 ps leader k bs order mapOrder rnd1 (fun _ _ => toyRnd 9) st (.refl _) hI
  exact ⟨sec, f1, fun hc => (congrArg Prod.fst f2).trans (f4 hc)⟩

/-- A 3-of-3 split with threshold 2 in the configurations: cosigners 3 and 1 asked for `b1`. -/
def mcfg (p : Nat) : CosignerCfg := { fcfg p with shareKey := fsc (shareOf 42 [7, 5] p) }

example : (signRound ftoy mcfg [3, 1] 3 2 3 (fsc 42) ⟨7, 1, 3, 1600000000000000005⟩ b1
    (fun _ => [2, 1, 3]) (fun _ => [1, 3]) (fun p _ => toyRnd (UInt8.ofNat p)) (fun _ _ => toyRnd 9)
    (fun _ => CState.start .empty)).1 = .err .combinedInvalid := by decide +kernel

example : ¬ FitsThreshold (42 : ZMod 257) (shareOf 42 [7, 5]) [3, 1] :=
  C124_one_short (castInj257.mono (by decide)) [7] 5 (by decide) (n := 3) (by decide) (by decide) rfl

/-- The leader, cosigner 3, asks for two, the others for three. -/
def unevenConf (p : Nat) : Config := if p = 3 then deployConf 3 else allConf p

/-- Key 42 split 2-of-3: cosigners 3 and 1 give no signature under these configurations when 3 leads. -/
example : ∃ d' cfg, createSharesCmd toyCodec mixedSplit (fun _ => some toyPriv) toyDir [[107], [50], [51]] = (.done, d') ∧
    (∀ p : Nat, 1 ≤ p → p ≤ 3 → ∃ bs k, d'.files (keyFileName p) = some bs ∧ loadKey toyCodec bs = .ok k ∧
      startCfg demoLib (unevenConf p) k.toKey = some (cfg p)) ∧
    (signRound ftoy cfg [3, 1] 3 2 3 (fsc 42) ⟨7, 1, 3, 1600000000000000005⟩ b1
      (fun _ => [2, 1, 3]) (fun _ => [1, 3]) (fun _ _ => ⟨some (List.replicate 32 1), [3, 1, 2, 5], [], []⟩)
      (fun _ _ => toyRnd 9) (fun _ => CState.start .empty)).1 = .err .combinedInvalid := by
  obtain ⟨d', cfg, h1, h2, h3⟩ := C124_uneven_fails (mixedDeployed 2 (fun p => if p = 3 then 2 else 3) [50] unevenConf
    (by decide) (by decide) (by decide) (fun p => by show 1 ≤ if p = 3 then 2 else 3; split <;> decide)
    (fun p => by show (if p = 3 then 2 else 3) ≤ 3; split <;> decide) (fun p h1 h3 => by
      have : p = 1 ∨ p = 2 ∨ p = 3 := by omega
      rcases this with rfl | rfl | rfl <;> exact ⟨by decide, _, rfl, rfl, by decide⟩)) (one_ne_zero (α := ZMod 257))
  refine ⟨d', cfg, h1, h2, ?_⟩
  obtain ⟨r, out, st', e1, e2, _, e4⟩ := h3 [3, 1] 3 ⟨7, 1, 3, 1600000000000000005⟩ b1 (fun _ => [2, 1, 3]) (fun _ => [1, 3])
    (fun _ _ => ⟨some (List.replicate 32 1), [3, 1, 2, 5], [], []⟩) (fun _ _ => toyRnd 9) (fun _ => CState.start .empty)
    { nodup := by decide, members := by decide, leads := by decide, time := by decide, block := unpack_b1
      orders := fun _ => by decide, mapOrders := fun _ => by decide
      random := fun p i => ⟨List.replicate 32 1, rfl, by simp⟩
      low := fun p _ => show (⟨0, 0, 0⟩ : HRS) ≺ ⟨7, 1, 3⟩ by decide
      new := fun _ _ => rfl } (by decide) (by decide) (by decide)
  obtain ⟨_, e3⟩ := e1 3 (by decide)
  obtain ⟨_, e3'⟩ := e1 1 (by decide)
  refine (congrArg Prod.fst e2).trans (e4 ?_)
  show ([3, 1].map fun p => (fcoeffs (r p) (if p = 3 then 2 else 3)).getD 1 0).sum ≠ 0
  simp only [List.map_cons, List.map_nil, ← e3, ← e3']
  decide +kernel

end Horcrux
