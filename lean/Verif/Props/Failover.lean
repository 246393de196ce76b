import Verif.Spec.Failover
import Verif.Props.Retry
/-
Property C70: a signed block is requested again, from another leader.
-/
namespace Horcrux
open Spec

theorem roundShares_congr {C : Crypto} {cfg : Nat → CosignerCfg} {ps ps' : List Nat} {leader total : Nat} {k : HRST}
    {bs : Bytes} {order : Nat → List Int} {mapOrder : Nat → List Nat} {rnd1 rnd2 : Nat → Nat → Rand} {st st' : Nat → CState}
    (hps : ∀ p, p ∈ ps ↔ p ∈ ps') (hm : ∀ p q, q ∈ mapOrder p → q ∈ ps) (hl : leader ∈ ps) (h : ∀ p ∈ ps, st p = st' p) :
    (roundShares C cfg ps leader total k bs order mapOrder rnd1 rnd2 st).1 =
      (roundShares C cfg ps' leader total k bs order mapOrder rnd1 rnd2 st').1 := by
  have hres : ∀ p ∈ ps, setPartsAndSign C (cfg p) k bs
        (partsFor ((mapOrder p).map fun q : Nat => ((q : Int), okParts (getParts C (cfg q) k (order q) (rnd1 q) (st q)).1))
          (p : Int)) (rnd2 p) (getParts C (cfg p) k (order p) (rnd1 p) (st p)).2 =
      setPartsAndSign C (cfg p) k bs
        (partsFor ((mapOrder p).map fun q : Nat => ((q : Int), okParts (getParts C (cfg q) k (order q) (rnd1 q) (st' q)).1))
          (p : Int)) (rnd2 p) (getParts C (cfg p) k (order p) (rnd1 p) (st' p)).2 := by
    intro p hp
    rw [h p hp]
    congr 2
    refine List.map_congr_left fun q hq => ?_
    rw [h q (hm p q hq)]
  unfold roundShares shareArray
  simp only [Prod.mk.injEq]
  refine ⟨List.map_congr_left fun i _ => ?_, ?_⟩
  · by_cases hi : i + 1 ∈ ps
    · rw [if_pos hi, if_pos ((hps _).1 hi), hres _ hi]
    · rw [if_neg hi, if_neg (fun e => hi ((hps _).2 e))]
  · rw [hres _ hl]

/-- What holds until the block is requested again: the participants' cosigners are as they were, their validators have not
started the block unless they led, and know of nothing above it. -/
structure Awaits (ps : List Nat) (k : HRS) (s s' : Sys) : Prop where
  cs : ∀ p ∈ ps, s'.cs p = s.cs p
  init : ∀ p ∈ ps, (s'.vs p).init = (s.vs p).init
  calls : ∀ p ∈ ps, (s'.vs p).calls = (s.vs p).calls
  lss : ∀ p ∈ ps, (s'.vs p).lss.hrs ≼ k
  same : ∀ p ∈ ps, (s.vs p).lss.hrs = k → (s'.vs p).lss = (s.vs p).lss

theorem save_same {l : SignState} {r : SSC} (h : l.hrs = r.hrs) : ∃ k, l.save r = (some (.sameHRS k), l) := by
  unfold SignState.hrs SSC.hrs at h
  simp only [HRS.mk.injEq] at h
  obtain ⟨h1, h2, h3⟩ := h
  refine ⟨⟨r.height, r.round, r.step⟩, ?_⟩
  unfold SignState.save SignState.getErrorIfLessOrEqual
  rw [if_neg (by omega), if_neg (by omega), if_neg (by omega), if_neg (by omega), if_neg (by omega), if_pos h3.symm]

theorem saveLSS_same {C : Crypto} {cfg : CosignerCfg} {s : CState} {r : SSC} (h : r.hrs ≼ s.lss.hrs) :
    (s.step C cfg (.saveLSS r)).2 = s := by
  have e := SignState.save_err s.lss r (HRS.not_lt.2 h)
  simp only [CState.step]
  cases hs : s.lss.save r with
  | mk o l =>
    rw [hs] at e
    simp only at e
    subst e
    cases o <;> rfl

theorem awaits_run {C : Crypto} {vcfg : ValidatorCfg} {cfg : Nat → CosignerCfg} {n : Nat} {ps : List Nat} {k : HRS} :
    ∀ (evs : List SysEv) (s s' : Sys), (∀ e ∈ evs, Elsewhere ps k e) → (∀ p ∈ ps, (s.cs p).lss.hrs = k) →
      Awaits ps k s s' → Awaits ps k s (s'.run C vcfg cfg n evs).2 := by
  intro evs
  induction evs with
  | nil => intro s s' _ _ h; exact h
  | cons e evs ih =>
    intro s s' he hk h
    refine ih s _ (fun e' he' => he e' (by simp [he'])) hk ?_
    have hel := he e (by simp)
    cases e with
    | sign q => exact absurd hel id
    | deliver p r =>
      simp only [Sys.step]
      refine ⟨fun j hj => ?_, fun j hj => ?_, fun j hj => ?_, fun j hj => ?_, fun j hj hjk => ?_⟩
      · by_cases e : j = p
        · subst e
          simp only [if_true]
          rw [saveLSS_same (by rw [h.cs j hj, hk j hj]; exact hel hj), h.cs j hj]
        · simp only [if_neg e]; exact h.cs j hj
      · by_cases e : j = p
        · subst e; simp only [if_true, VState.step]; exact h.init j hj
        · simp only [if_neg e]; exact h.init j hj
      · by_cases e : j = p
        · subst e; simp only [if_true, VState.step]; exact h.calls j hj
        · simp only [if_neg e]; exact h.calls j hj
      · by_cases e : j = p
        · subst e
          simp only [if_true, VState.step]
          rw [SignState.save_hrs]
          split
          · exact hel hj
          · exact h.lss j hj
        · simp only [if_neg e]; exact h.lss j hj
      · by_cases e : j = p
        · subst e
          simp only [if_true, VState.step]
          rw [SignState.save_err, h.same j hj hjk]
          rw [h.same j hj hjk, hjk, HRS.not_lt]; exact hel hj
        · simp only [if_neg e]; exact h.same j hj hjk
    | other p op =>
      have hne : ∀ j ∈ ps, j ≠ p := fun j hj e => hel (e ▸ hj)
      simp only [Sys.step]
      exact ⟨fun j hj => by simp only [if_neg (hne j hj)]; exact h.cs j hj, h.init, h.calls, h.lss, h.same⟩
    | restart p a b =>
      have hne : ∀ j ∈ ps, j ≠ p := fun j hj e => hel (e ▸ hj)
      simp only [Sys.step]
      exact ⟨fun j hj => by simp only [if_neg (hne j hj)]; exact h.cs j hj,
        fun j hj => by simp only [if_neg (hne j hj)]; exact h.init j hj,
        fun j hj => by simp only [if_neg (hne j hj)]; exact h.calls j hj,
        fun j hj => by simp only [if_neg (hne j hj)]; exact h.lss j hj,
        fun j hj => by simp only [if_neg (hne j hj)]; exact h.same j hj⟩

section
variable {C : Crypto} {F G : Type} [Field F] [AddCommGroup G] [Module F G] {L : Lawful C F G}
  {pair : Bytes → Bytes → Prop} {n t : Nat} {cfg : Nat → CosignerCfg} {x : F} {kc : List F} {rsaPub : Nat → Bytes}

/-- The cluster after events in order and before a request above them. -/
theorem below_run (hS : Setup C L pair n t cfg x kc rsaPub) (hn : 2 ≤ n) (q : Req) :
    ∀ (evs : List SysEv) (w : HRS) (s : Sys), SysBelow w s → InOrder n t w (evs ++ [.sign q]) →
      ∃ w', SysBelow w' (s.run C ⟨t, L.pt (x • L.B)⟩ cfg n evs).2 ∧ w' ≺ q.block.hrs ∧ Servable n t q := by
  intro evs
  induction evs with
  | nil => intro w s hs he; exact ⟨w, hs, he.1, he.2.1⟩
  | cons e evs ih =>
    intro w s hs he
    have hq := hs.quiet (C := C) (vcfg := ⟨t, L.pt (x • L.B)⟩) (cfg := cfg) (n := n)
    cases e with
    | sign q' =>
      obtain ⟨h1, h2, h3⟩ := he
      obtain ⟨sig, s', e1, e2, e3, _⟩ := signBlock_ok hS hn hs h2 h1
      simp only [Sys.run, Sys.step, e1]
      exact ih _ _ e3 h3
    | deliver p r => exact ih w _ (hq.1 p r he.1) he.2
    | other p op => exact ih w _ (hq.2.1 p op he.1) he.2
    | restart p a b => exact ih w _ (hq.2.2 p a b he.1 he.2.1) he.2.2

/-- A request, then other events, then the same block again with the same participants and another leader. -/
theorem signBlock_twice (hS : Setup C L pair n t cfg x kc rsaPub) (hn : 2 ≤ n) {w : HRS} {s : Sys} (hs : SysBelow w s)
    {q : Req} (hq : Servable n t q) (hw : w ≺ q.block.hrs) :
    ∃ sig s1, s.signBlock C ⟨t, L.pt (x • L.B)⟩ cfg n q = (.ret q.id q.block (some sig) q.block.timestamp none, s1) ∧
      C.verify (L.pt (x • L.B)) q.block.signBytes sig = true ∧
      (∀ p ∈ q.ps, (s1.cs p).lss.hrs = q.block.hrs) ∧
      (s1.vs q.leader).init.hrs = q.block.hrs ∧ (∀ p, p ≠ q.leader → (s1.vs p) = s.vs p) ∧
      (s1.vs q.leader).calls q.id = none ∧ (∀ i, (s.vs q.leader).calls i = none → (s1.vs q.leader).calls i = none) ∧
      (s1.vs q.leader).lss = ((s.vs q.leader).lss.save (q.block.record sig)).2 ∧
      ∀ (s2 : Sys) (q' : Req), Awaits q.ps q.block.hrs s1 s2 → Servable n t q' → q'.block = q.block → q'.ps.Perm q.ps →
        q'.leader ≠ q.leader → (s.vs q'.leader).calls q'.id = none →
        ∃ s3, s2.signBlock C ⟨t, L.pt (x • L.B)⟩ cfg n q' = (.ret q'.id q.block (some sig) q.block.timestamp none, s3) := by
  have hinv : TryInv L n t cfg x kc rsaPub q.ps q.block.key q.block.signBytes (fun _ => []) (fun _ => []) []
      ⟨s.cs, fun _ => []⟩ := by
    refine TryInv.start (fun p _ _ => HRS.lt_of_le_of_lt (hs.cs p).lss hw) (fun p _ _ => ?_)
    cases hm : (s.cs p).hrsMeta q.block.key with
    | none => rfl
    | some ref => exact absurd (HRS.lt_of_le_of_lt ((hs.cs p).recs _ _ hm) hw) (HRS.lt_irrefl _)
  have hord : ∀ p, ∃ o : List Nat, o.Perm (List.range' 1 n) ∧ q.order p = o.map (fun i : Nat => (i : Int)) :=
    fun p => perm_cast (hq.order p)
  choose ord hord1 hord2 using hord
  obtain ⟨shares, eph, st', sig, h1, h2, h3, h5, sec', r', _, h6, h7, h8, h9, _⟩ := round_full hS hn hq.nodup hq.ids hq.quorum
    hq.leads (k := q.block.key) (unixNano_isI64 _) hq.bytes hord1 hq.mapOrder (rnd2 := q.rnd2) hq.random hinv
  have hord3 : q.order = fun p => (ord p).map (fun i : Nat => (i : Int)) := funext hord2
  rw [← hord3] at h1
  have hi := HRS.lt_of_le_of_lt (hs.init q.leader) hw
  have hl := HRS.lt_of_le_of_lt (hs.lss q.leader) hw
  obtain ⟨init', hinit, hih⟩ : ∃ init', (s.vs q.leader).init.save (SSC.new q.block.height q.block.round q.block.step) =
      (none, init') ∧ init'.hrs = q.block.hrs := ⟨_, SignState.save_ok _ _ hi, rfl⟩
  obtain ⟨lss', hlss, hlh⟩ : ∃ lss', (s.vs q.leader).lss.save (q.block.record sig) = (none, lss') ∧
      lss'.hrs = q.block.hrs := ⟨_, SignState.save_ok _ _ hl, rfl⟩
  have hidle := hs.idle q.leader q.id
  have hsign : s.signBlock C ⟨t, L.pt (x • L.B)⟩ cfg n q = (.ret q.id q.block (some sig) q.block.timestamp none,
      ⟨fun p => if p = q.leader then ⟨lss', init', fun i => if i = q.id then none else (s.vs q.leader).calls i,
        (s.vs q.leader).emitted ++ [q.block.record sig]⟩ else s.vs p, st'⟩) := by
    unfold Sys.signBlock
    simp only [VState.begin, VState.assembleAndSave, VState.step, hidle, hinit, h1, VState.setPhase, if_true, h2, hlss, VState.finish]
    congr 2
    funext p
    by_cases hp : p = q.leader
    · simp only [if_pos hp]
      congr 1
      funext i
      by_cases hi : i = q.id <;> simp [hi]
    · simp only [if_neg hp]
  refine ⟨sig, _, hsign, h3, fun p hp => (h6 p hp).hrs, by simp only [if_true]; exact hih,
    fun p hp => by simp only [if_neg hp], by simp only [if_true], fun i hi => by simp only [if_true]; split <;> simp [hi],
    by simp only [if_true, hlss], ?_⟩
  intro s2 q' hA hq' hb hperm hne hidle'
  have hmem : ∀ p, p ∈ q'.ps ↔ p ∈ q.ps := fun p => hperm.mem_iff
  obtain ⟨ans, hinv2⟩ := h9 (fun p => if p ∈ q.ps then st' p else s.cs p) (fun p hp => by simp only [if_pos hp]) (by
    intro p _ _ hp
    simp only [if_neg hp]
    refine ⟨?_, HRS.lt_of_le_of_lt (hs.cs p).lss hw⟩
    cases hm : (s.cs p).hrsMeta q.block.key with
    | none => rfl
    | some ref => exact absurd (HRS.lt_of_le_of_lt ((hs.cs p).recs _ _ hm) hw) (HRS.lt_irrefl _))
  have hordB : ∀ p, ∃ o : List Nat, o.Perm (List.range' 1 n) ∧ q'.order p = o.map (fun i : Nat => (i : Int)) :=
    fun p => perm_cast (hq'.order p)
  choose ordB hordB1 hordB2 using hordB
  have hlead : q'.leader ∈ q.ps := (hmem _).1 hq'.leads
  obtain ⟨shares2, eph2, st2, sig2, g1, g2, g3, _, sec2, r2, g4, _, g7, g8, _⟩ := round_full hS hn hq.nodup hq.ids hq.quorum
    hlead (k := q.block.key) (unixNano_isI64 _) hq.bytes hordB1 (mapOrder := q'.mapOrder)
    (fun p => (hq'.mapOrder p).trans hperm) (rnd2 := q'.rnd2) hq'.random hinv2
  have hord3 : q'.order = fun p => (ordB p).map (fun i : Nat => (i : Int)) := funext hordB2
  rw [← hord3] at g1
  -- the same shares
  have hsh : shares2 = shares ∧ eph2 = eph := by
    rw [g7, g8, h7, h8]
    have hc : ∀ p, p ∈ q.ps → _ := fun p hp => shareSig_congr (L := L) (n := n) (t := t) (x := x) (kc := kc)
      (bs := q.block.signBytes) (p := p) (D := q.ps) (D' := q.ps) (fun _ => Iff.rfl) (fun q hq => g4 q hq)
    refine ⟨List.map_congr_left fun i _ => ?_, congrArg L.pt (hc q.leader hq.leads).2⟩
    by_cases hi : i + 1 ∈ q.ps
    · rw [if_pos hi, if_pos hi, (hc _ hi).1]
    · rw [if_neg hi, if_neg hi]
  obtain ⟨rfl, rfl⟩ := hsh
  have hround : (roundShares C cfg q'.ps q'.leader n q.block.key q.block.signBytes q'.order q'.mapOrder q'.rnd1 q'.rnd2
      s2.cs).1 = (shares2, eph2) := by
    rw [roundShares_congr hmem (fun p q hq => (hq'.mapOrder p).mem_iff.1 hq) hq'.leads
      (st' := fun p => if p ∈ q.ps then st' p else s.cs p), g1]
    intro p hp
    rw [hA.cs p ((hmem p).1 hp)]
    simp only [if_pos ((hmem p).1 hp)]
  have e1 : (s2.vs q'.leader).init = (s.vs q'.leader).init := by
    rw [hA.init _ hlead]; simp only [if_neg hne]
  have e2 : (s2.vs q'.leader).calls q'.id = none := by
    rw [hA.calls _ hlead]; simp only [if_neg hne]; exact hidle'
  obtain ⟨init2, hinit2⟩ : ∃ init2, (s2.vs q'.leader).init.save (SSC.new q'.block.height q'.block.round q'.block.step) =
      (none, init2) := by
    rw [e1, hb]
    exact ⟨_, SignState.save_ok _ _ (HRS.lt_of_le_of_lt (hs.init _) hw)⟩
  rw [hb] at hinit2
  unfold Sys.signBlock
  simp only [VState.begin, hb, VState.step, e2, hinit2]
  rw [hround]
  simp only [VState.assembleAndSave, VState.step, VState.setPhase, if_true, h2]
  rcases hA.lss _ hlead with heq | hlt
  rotate_left
  · have hsv : ∃ lss2, (s2.vs q'.leader).lss.save (q.block.record sig) = (none, lss2) := ⟨_, SignState.save_ok _ _ hlt⟩
    obtain ⟨lss2, hsv⟩ := hsv
    simp only [hsv, if_true]
    exact ⟨_, rfl⟩
  · have hsv : ∃ k', (s2.vs q'.leader).lss.save (q.block.record sig) = (some (.sameHRS k'), (s2.vs q'.leader).lss) :=
      save_same heq
    obtain ⟨k', hsv⟩ := hsv
    simp only [hsv, if_true]
    exact ⟨_, rfl⟩

/-- C70, partial: in an honest cluster, after any events in order (as in C63), a block is signed by some leader; raft makes
the record known to some or all nodes, and the nodes that did not take part do whatever they like. Then the same block,
requested from another leader with the same participants, is answered with the same signature. Missing: other
participants, see `C70_fails`. -/
theorem C70_partial (hS : Setup C L pair n t cfg x kc rsaPub) (hn : 2 ≤ n) (w : HRS) (lv lc : Nat → SignState)
    (hv : ∀ p, (lv p).hrs ≼ w) (hc : ∀ p, (lc p).hrs ≼ w) (evs : List SysEv) (q : Req)
    (hev : InOrder n t w (evs ++ [.sign q])) (evs' : List SysEv) (hevs' : ∀ e ∈ evs', Elsewhere q.ps q.block.hrs e)
    (q' : Req) (hq' : Servable n t q') (hb : q'.block = q.block) (hps : q'.ps.Perm q.ps) (hl : q'.leader ≠ q.leader) :
    let V : ValidatorCfg := ⟨t, L.pt (x • L.B)⟩
    let s := ((Sys.start lv lc).run C V cfg n evs).2
    let s1 := (s.signBlock C V cfg n q).2
    let s2 := (s1.run C V cfg n evs').2
    ∃ sig, (s.signBlock C V cfg n q).1 = .ret q.id q.block (some sig) q.block.timestamp none ∧
      (s2.signBlock C V cfg n q').1 = .ret q'.id q.block (some sig) q.block.timestamp none ∧
      C.verify (L.pt (x • L.B)) q.block.signBytes sig = true := by
  intro V s s1 s2
  obtain ⟨w', hs, hw, hq⟩ := below_run hS hn q evs w _ (SysBelow.start hv hc) hev
  obtain ⟨sig, s1', e1, e2, e3, _, e5, _, _, e6, e7⟩ := signBlock_twice hS hn hs hq hw
  have hs1 : s1 = s1' := congrArg Prod.snd e1
  have hA : Awaits q.ps q.block.hrs s1' s2 := by
    show Awaits q.ps q.block.hrs s1' (s1.run C V cfg n evs').2
    rw [hs1]
    refine awaits_run evs' s1' s1' hevs' e3 ⟨fun _ _ => rfl, fun _ _ => rfl, fun _ _ => rfl, ?_, fun _ _ _ => rfl⟩
    intro p hp
    by_cases h : p = q.leader
    · subst h
      rw [e6, SignState.save_ok _ (q.block.record sig) (HRS.lt_of_le_of_lt (hs.lss _) hw)]
      exact HRS.le_refl _
    · rw [e5 p h]; exact HRS.le_of_lt (HRS.lt_of_le_of_lt (hs.lss p) hw)
  obtain ⟨s3, h3⟩ := e7 s2 q' hA hq' hb hps hl (hs.idle _ _)
  exact ⟨sig, congrArg Prod.fst e1, congrArg Prod.fst h3, e2⟩

/-- Concretely: 1 leads with 2, the record reaches 3, which restarts; 2 is asked with 1. -/
example : InOrder 3 2 ⟨0, 0, 0⟩ ([] ++ [.sign (freq 0 blk1 1 [1, 2])]) ∧
    (∀ e ∈ [SysEv.deliver 3 (blk1.record [1]), .restart 3 .empty .empty], Elsewhere [1, 2] blk1.hrs e) ∧
    Servable 3 2 (freq 1 blk1 2 [2, 1]) ∧ [2, 1].Perm [1, 2] := by
  refine ⟨⟨by decide, fservable _ _ _ _ (by decide +kernel) (by decide) (by decide) (by decide) (by decide), trivial⟩, ?_,
    fservable _ _ _ _ (by decide +kernel) (by decide) (by decide) (by decide) (by decide), by decide⟩
  intro e he
  rcases List.mem_cons.1 he with rfl | he
  · show 3 ∈ [1, 2] → _; decide
  · rw [List.mem_singleton] at he; subst he
    show 3 ∉ [1, 2]; decide

/-- C70, partial: requested from the same leader again, the block is answered with the same signature at the first look at
the records. -/
theorem C70_same_leader (hS : Setup C L pair n t cfg x kc rsaPub) (hn : 2 ≤ n) (w : HRS) (lv lc : Nat → SignState)
    (hv : ∀ p, (lv p).hrs ≼ w) (hc : ∀ p, (lc p).hrs ≼ w) (evs : List SysEv) (q : Req)
    (hev : InOrder n t w (evs ++ [.sign q])) (h0 : -(2 ^ 63) + 3 ≤ q.block.height) (h64 : IsI64 q.block.height)
    (evs' : List SysEv) (hevs' : ∀ e ∈ evs', Elsewhere q.ps q.block.hrs e) (id : Nat) :
    let V : ValidatorCfg := ⟨t, L.pt (x • L.B)⟩
    let s := ((Sys.start lv lc).run C V cfg n evs).2
    let s1 := (s.signBlock C V cfg n q).2
    let v := (s1.run C V cfg n evs').2.vs q.leader
    ∃ sig v1 v2, (s.signBlock C V cfg n q).1 = .ret q.id q.block (some sig) q.block.timestamp none ∧
      v.step C V (.call id q.block .leader) = (.tau, v1) ∧
      v1.step C V (.poll id) = (.ret id q.block (some sig) q.block.timestamp none, v2) := by
  intro V s s1 v
  obtain ⟨w', hs, hw, hq⟩ := below_run hS hn q evs w _ (SysBelow.start hv hc) hev
  obtain ⟨sig, s1', e1, e2, e3, e4, e5, _, e9, e6, e7⟩ := signBlock_twice hS hn hs hq hw
  have hs1 : s1 = s1' := congrArg Prod.snd e1
  have hsv := SignState.save_ok (s.vs q.leader).lss (q.block.record sig) (HRS.lt_of_le_of_lt (hs.lss _) hw)
  have hlss : (s1'.vs q.leader).lss.hrs = q.block.hrs := by rw [e6, hsv]; rfl
  have hA : Awaits q.ps q.block.hrs s1' (s1'.run C V cfg n evs').2 := by
    refine awaits_run evs' s1' s1' hevs' e3 ⟨fun _ _ => rfl, fun _ _ => rfl, fun _ _ => rfl, ?_, fun _ _ _ => rfl⟩
    intro p hp
    by_cases h : p = q.leader
    · subst h; rw [hlss]; exact HRS.le_refl _
    · rw [e5 p h]; exact HRS.le_of_lt (HRS.lt_of_le_of_lt (hs.lss p) hw)
  have hvdef : v = (s1'.run C V cfg n evs').2.vs q.leader := by rw [← hs1]
  have a1 : v.init.hrs = q.block.hrs := by rw [hvdef, hA.init _ hq.leads]; exact e4
  have a2 : v.calls id = none := by rw [hvdef, hA.calls _ hq.leads]; exact e9 id (hs.idle _ _)
  have a3 : v.lss.cache q.block.hrs = some (q.block.record sig) := by
    rw [hvdef, hA.same _ hq.leads hlss, e6, hsv]
    have : i64 (q.block.height - blocksToCache) = q.block.height - blocksToCache := by
      refine i64_of_is ?_
      unfold IsI64 at h64 ⊢
      unfold blocksToCache
      omega
    show (if q.block.height < i64 (q.block.height - blocksToCache) then none else if q.block.hrs = q.block.hrs then _ else _) = _
    rw [this, if_neg (by unfold blocksToCache; omega), if_pos rfl]
  obtain ⟨k, a4⟩ := save_same (l := v.init) (r := SSC.new q.block.height q.block.round q.block.step) (by rw [a1]; rfl)
  refine ⟨sig, v.setPhase id q.block (.poll 0), (v.setPhase id q.block (.poll 0)).finish id, congrArg Prod.fst e1, by simp only [VState.step, a2, a4], ?_⟩
  have a5 : existingSignature v.lss q.block = .ok (some sig) := by
    unfold existingSignature SignState.getFromCache
    rw [a3]
    simp [Block.record, Slice.bytes]
  simp only [VState.step, VState.setPhase, if_true, a5]

end

/-! ### What goes wrong -/

/-- C70 fails of the code for other participants: a cosigner that did not take part but got the record through raft answers
a sign call for the block with the whole signature of the cluster, where the leader expects its share. -/
theorem C70_record_fails (C : Crypto) (cfg : CosignerCfg) (s : CState) (b : Block) (sig : Bytes)
    (hu : unpackHRST b.signBytes = .ok b.key) (hlow : s.lss.hrs ≺ b.hrs) :
    ∃ s', s.step C cfg (.saveLSS (b.record sig)) = (.ok .unit, s') ∧
      sign C cfg s' b.signBytes = (.ok ⟨s.lss.ephemeralPublic, some sig, none⟩, s') := by
  have hsv := SignState.save_ok s.lss (b.record sig) hlow
  refine ⟨_, by simp only [CState.step, hsv]; rfl, ?_⟩
  have hch : SignState.checkHRS { s.lss with
      cache := fun k => if k.height < i64 ((b.record sig).height - blocksToCache) then none
        else if k = (b.record sig).hrs then some (b.record sig) else s.lss.cache k
      height := (b.record sig).height, round := (b.record sig).round, step := (b.record sig).step
      signature := (b.record sig).signature, signBytes := (b.record sig).signBytes } b.key = .ok true := by
    unfold SignState.checkHRS
    simp [Block.record, Block.key]
  unfold sign
  rw [hu]
  simp only [hch]
  simp [Block.record, Slice.bytes]

/-- C70 fails of the code: cosigners 1 and 2 sign a block, with 1 as leader, and raft makes the record known to all. The
leader changes to 3, and the chain node asks for the block again: whoever takes part with 3, it gets an error. -/
theorem C70_fails :
    let s1 := ((Sys.start (fun _ => .empty) (fun _ => .empty)).signBlock ftoy ⟨2, fsc (42 • 1)⟩ fcfg 3 (freq 0 blk1 1 [1, 2]))
    ∃ r, (s1.2.vs 1).emitted = [r] ∧ fanswer s1.1 = some (0, true, none) ∧
      let s2 := (s1.2.run ftoy ⟨2, fsc (42 • 1)⟩ fcfg 3 [.deliver 1 r, .deliver 2 r, .deliver 3 r]).2
      ∀ p ∈ [1, 2], Servable 3 2 (freq 1 blk1 3 [3, p]) ∧
        fanswer (s2.signBlock ftoy ⟨2, fsc (42 • 1)⟩ fcfg 3 (freq 1 blk1 3 [3, p])).1 = some (1, false, some .combinedInvalid) := by
  refine ⟨(((Sys.start (fun _ => .empty) (fun _ => .empty)).signBlock ftoy ⟨2, fsc (42 • 1)⟩ fcfg 3
    (freq 0 blk1 1 [1, 2])).2.vs 1).emitted.headD (blk1.record []), by decide +kernel, by decide +kernel, ?_⟩
  intro s2 p hp
  refine ⟨fservable _ _ _ _ (by decide +kernel) ?_ ?_ (by simp) (by simp), ?_⟩
  · revert p; decide
  · revert p; decide
  · revert p; decide +kernel

end Horcrux
