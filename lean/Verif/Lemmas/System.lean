import Verif.Spec.System
import Verif.Lemmas.Retry
/-
Nonce records and watermarks never get ahead of the blocks that were asked for; a sign request in a quiet cluster.
-/
namespace Horcrux
open Spec

/-- No watermark and no nonce record above `w`. -/
structure CBelow (w : HRS) (s : CState) : Prop where
  lss : s.lss.hrs ≼ w
  recs : ∀ k ref, s.hrsMeta k = some ref → k.hrs ≼ w

theorem CBelow.mono {w w' : HRS} {s : CState} (h : CBelow w s) (hw : w ≼ w') : CBelow w' s :=
  ⟨HRS.le_trans h.lss hw, fun k ref hk => HRS.le_trans (h.recs k ref hk) hw⟩

theorem step_below {C : Crypto} {cfg : CosignerCfg} {s s' : CState} {op : CosOp} {out : Out CosResp} {w : HRS}
    (h : s.step C cfg op = (out, s')) (hs : CBelow w s) (hop : NotAbove w op) : CBelow w s' := by
  rcases step_cases h with ⟨req, rnd, rfl, hp⟩ | ⟨req, rnd, rfl, _, hp⟩ | ⟨bs, r, k, ref, m, rfl, _, hf⟩ |
    ⟨_, _, _, _, _, hc⟩ | ⟨_, _, _, rfl⟩ | ⟨ssc, rfl, rfl, _⟩
  · refine ⟨by rw [hp.lss]; exact hs.lss, fun k ref hk => ?_⟩
    rcases hp.maps.2.1 k ref hk with h1 | ⟨h0, _, _⟩ | ⟨h0, _⟩
    · exact hs.recs k ref h1
    · rw [h0]; exact hop
    · rcases h0 with h0 | h0 <;> rw [h0] <;> exact hop
  · refine ⟨by rw [hp.lss]; exact hs.lss, fun k ref hk => ?_⟩
    rcases hp.maps.2.1 k ref hk with h1 | ⟨h0, _, _⟩ | ⟨h0, _⟩
    · exact hs.recs k ref h1
    · rw [h0]; exact hop
    · rcases h0 with h0 | h0 <;> rw [h0] <;> exact hop
  · refine ⟨by rw [hf.hrs]; exact hop k hf.unpack, fun k' ref' hk => ?_⟩
    rw [hf.pruned] at hk
    split at hk
    · cases hk
    · exact hs.recs k' ref' hk
  · rw [hc.state]; exact hs
  · exact hs
  · refine ⟨?_, fun k ref hk => hs.recs k ref hk⟩
    show (s.lss.save ssc).2.hrs ≼ w
    rw [SignState.save_hrs]
    split
    · exact hop
    · exact hs.lss

theorem getPart_below {C : Crypto} {cfg : CosignerCfg} {s : CState} {req : GetPartReq} {rnd : Rand} {w : HRS}
    (hs : CBelow w s) (hr : ⟨req.height, req.round, req.step⟩ ≼ w) : CBelow w (getPart C cfg s req rnd).2 :=
  step_below (C := C) (cfg := cfg) (op := .getPart req rnd) (out := _) rfl hs hr

theorem setPart_below {C : Crypto} {cfg : CosignerCfg} {s : CState} {req : SetPartReq} {rnd : Rand} {w : HRS}
    (hs : CBelow w s) (hr : ⟨req.height, req.round, req.step⟩ ≼ w) : CBelow w (setPart C cfg s req rnd).2 :=
  step_below (C := C) (cfg := cfg) (op := .setPart req rnd) (out := _) rfl hs hr

theorem sign_below {C : Crypto} {cfg : CosignerCfg} {s : CState} {bs : Bytes} {w : HRS}
    (hs : CBelow w s) (hr : ∀ k, unpackHRST bs = .ok k → k.hrs ≼ w) : CBelow w (sign C cfg s bs).2 :=
  step_below (C := C) (cfg := cfg) (op := .sign bs) (out := _) rfl hs hr

theorem getPartsLoop_below {C : Crypto} {cfg : CosignerCfg} {k : HRST} {w : HRS} (hk : k.hrs ≼ w) :
    ∀ (order : List Int) (rnd : Nat → Rand) (s : CState) (acc : List SecretPart), CBelow w s →
      CBelow w (getPartsLoop C cfg k order rnd s acc).2 := by
  intro order
  induction order with
  | nil => intro rnd s acc h; exact h
  | cons p order ih =>
    intro rnd s acc h
    simp only [getPartsLoop]
    split
    · exact ih _ _ _ h
    · have h1 : CBelow w (getPart C cfg s ⟨p, k.height, k.round, k.step, GoTime.ofUnixNano k.timestamp⟩ (rnd 0)).2 :=
        getPart_below h hk
      generalize getPart C cfg s ⟨p, k.height, k.round, k.step, GoTime.ofUnixNano k.timestamp⟩ (rnd 0) = x at h1
      obtain ⟨o, s'⟩ := x
      cases o with
      | ok part => exact ih _ _ _ h1
      | err e => exact h1
      | panic => exact h1

theorem getParts_below {C : Crypto} {cfg : CosignerCfg} {k : HRST} {w : HRS} (hk : k.hrs ≼ w) (order : List Int)
    (rnd : Nat → Rand) (s : CState) (h : CBelow w s) : CBelow w (getParts C cfg k order rnd s).2 := by
  unfold getParts
  split
  · exact h
  · exact getPartsLoop_below hk _ _ _ _ h

theorem setPartsAndSign_below {C : Crypto} {cfg : CosignerCfg} {k : HRST} {bs : Bytes} {w : HRS} (hk : k.hrs ≼ w)
    (hb : ∀ k, unpackHRST bs = .ok k → k.hrs ≼ w) :
    ∀ (parts : List SecretPart) (rnd : Nat → Rand) (s : CState), CBelow w s →
      CBelow w (setPartsAndSign C cfg k bs parts rnd s).2 := by
  intro parts
  induction parts with
  | nil => intro rnd s h; exact sign_below h hb
  | cons p parts ih =>
    intro rnd s h
    simp only [setPartsAndSign]
    have h1 : CBelow w (setPart C cfg s (p.toSetReq k) (rnd 0)).2 := setPart_below h hk
    generalize setPart C cfg s (p.toSetReq k) (rnd 0) = x at h1
    obtain ⟨o, s'⟩ := x
    cases o with
    | ok part => exact ih _ _ h1
    | err e => exact h1
    | panic => exact h1

/-- Nothing in the cluster is above `w` and no call is running. -/
structure SysBelow (w : HRS) (s : Sys) : Prop where
  cs : ∀ p, CBelow w (s.cs p)
  lss : ∀ p, (s.vs p).lss.hrs ≼ w
  init : ∀ p, (s.vs p).init.hrs ≼ w
  idle : ∀ p id, (s.vs p).calls id = none

section
variable {C : Crypto} {F G : Type} [Field F] [AddCommGroup G] [Module F G] {L : Lawful C F G}
  {pair : Bytes → Bytes → Prop} {n t : Nat} {cfg : Nat → CosignerCfg} {x : F} {kc : List F} {rsaPub : Nat → Bytes}

theorem unixNano_isI64 (g : GoTime) : IsI64 g.unixNano := by
  unfold GoTime.unixNano
  exact isI64_i64 _

/-- Integers that are a permutation of `1..n`. -/
theorem perm_cast {l : List Int} {n : Nat} (h : l.Perm ((List.range' 1 n).map (fun i : Nat => (i : Int)))) :
    ∃ o : List Nat, o.Perm (List.range' 1 n) ∧ l = o.map (fun i : Nat => (i : Int)) := by
  refine ⟨l.map Int.toNat, ?_, ?_⟩
  · have := h.map Int.toNat
    rw [List.map_map] at this
    have e : (Int.toNat ∘ fun i : Nat => (i : Int)) = id := by funext i; simp
    rw [e, List.map_id] at this
    exact this
  · rw [List.map_map]
    conv_lhs => rw [← List.map_id l]
    refine List.map_congr_left fun i hi => ?_
    have := h.mem_iff.1 hi
    rw [List.mem_map] at this
    obtain ⟨j, _, rfl⟩ := this
    simp

/-- A sign request on a leader that has not started the block, after any attempts. -/
theorem signBlock_again (hS : Setup C L pair n t cfg x kc rsaPub) (hn : 2 ≤ n) {s : Sys} {q : Req}
    (hq : Servable n t q) {sec r : Nat → Bytes} {H : List Nat} {ans : Nat → List (List SecretPart)}
    (hinv : TryInv L n t cfg x kc rsaPub q.ps q.block.key q.block.signBytes sec r H ⟨s.cs, ans⟩)
    (hidle : (s.vs q.leader).calls q.id = none) (hi : (s.vs q.leader).init.hrs ≺ q.block.hrs)
    (hl : (s.vs q.leader).lss.hrs ≺ q.block.hrs) :
    ∃ sig s' init' lss', s.signBlock C ⟨t, L.pt (x • L.B)⟩ cfg n q =
        (.ret q.id q.block (some sig) q.block.timestamp none, s') ∧
      C.verify (L.pt (x • L.B)) q.block.signBytes sig = true ∧
      s'.cs = (roundShares C cfg q.ps q.leader n q.block.key q.block.signBytes q.order q.mapOrder q.rnd1 q.rnd2 s.cs).2 ∧
      (∀ p ∈ q.ps, (s'.cs p).lss.hrs = q.block.hrs) ∧ (∀ p, p ∉ q.ps → s'.cs p = s.cs p) ∧
      init'.hrs = q.block.hrs ∧ lss'.hrs = q.block.hrs ∧
      s'.vs = fun p => if p = q.leader then ⟨lss', init', fun i => if i = q.id then none else (s.vs q.leader).calls i,
        (s.vs q.leader).emitted ++ [q.block.record sig]⟩ else s.vs p := by
  have hord : ∀ p, ∃ o : List Nat, o.Perm (List.range' 1 n) ∧ q.order p = o.map (fun i : Nat => (i : Int)) :=
    fun p => perm_cast (hq.order p)
  choose ord hord1 hord2 using hord
  obtain ⟨shares, eph, st', sig, h1, h2, h3, h4, h5⟩ := round_again hS hn hq.nodup hq.ids hq.quorum hq.leads
    (k := q.block.key) (unixNano_isI64 _) hq.bytes hord1 hq.mapOrder (rnd2 := q.rnd2) hq.random hinv
  have hord3 : q.order = fun p => (ord p).map (fun i : Nat => (i : Int)) := funext hord2
  rw [← hord3] at h1
  obtain ⟨init', hinit, hih⟩ : ∃ init', (s.vs q.leader).init.save (SSC.new q.block.height q.block.round q.block.step) =
      (none, init') ∧ init'.hrs = q.block.hrs := ⟨_, SignState.save_ok _ _ hi, rfl⟩
  obtain ⟨lss', hlss, hlh⟩ : ∃ lss', (s.vs q.leader).lss.save (q.block.record sig) = (none, lss') ∧
      lss'.hrs = q.block.hrs := ⟨_, SignState.save_ok _ _ hl, rfl⟩
  unfold Sys.signBlock
  simp only [VState.begin, VState.assembleAndSave, VState.step, hidle, hinit, h1, VState.setPhase, if_true, h2, hlss, VState.finish]
  refine ⟨sig, _, init', lss', rfl, h3, rfl, h4, h5, hih, hlh, ?_⟩
  funext p
  by_cases hp : p = q.leader
  · simp only [if_pos hp]
    congr 1
    funext i
    by_cases hi : i = q.id <;> simp [hi]
  · simp only [if_neg hp]

/-- A sign request in a quiet cluster. -/
theorem signBlock_ok (hS : Setup C L pair n t cfg x kc rsaPub) (hn : 2 ≤ n) {w : HRS} {s : Sys} (hs : SysBelow w s)
    {q : Req} (hq : Servable n t q) (hw : w ≺ q.block.hrs) :
    ∃ sig s', s.signBlock C ⟨t, L.pt (x • L.B)⟩ cfg n q =
        (.ret q.id q.block (some sig) q.block.timestamp none, s') ∧
      C.verify (L.pt (x • L.B)) q.block.signBytes sig = true ∧ SysBelow q.block.hrs s' ∧
      (∀ p ∈ q.ps, (s'.cs p).lss.hrs = q.block.hrs) ∧ (s'.vs q.leader).lss.hrs = q.block.hrs ∧
      (s'.vs q.leader).emitted = (s.vs q.leader).emitted ++ [q.block.record sig] := by
  have hinv : TryInv L n t cfg x kc rsaPub q.ps q.block.key q.block.signBytes (fun _ => []) (fun _ => []) []
      ⟨s.cs, fun _ => []⟩ := by
    refine TryInv.start (fun p _ _ => HRS.lt_of_le_of_lt (hs.cs p).lss hw) (fun p _ _ => ?_)
    cases hm : (s.cs p).hrsMeta q.block.key with
    | none => rfl
    | some ref => exact absurd (HRS.lt_of_le_of_lt ((hs.cs p).recs _ _ hm) hw) (HRS.lt_irrefl _)
  obtain ⟨sig, s', i', l', h1, h2, h3, h4, h5, h6, h7, h8⟩ := signBlock_again hS hn hq hinv (hs.idle _ _)
    (HRS.lt_of_le_of_lt (hs.init q.leader) hw) (HRS.lt_of_le_of_lt (hs.lss q.leader) hw)
  have hk : q.block.key.hrs = q.block.hrs := rfl
  have hle := HRS.le_of_lt hw
  refine ⟨sig, s', h1, h2, ⟨?_, ?_, ?_, ?_⟩, h4, ?_, ?_⟩
  · intro p
    by_cases hp : p ∈ q.ps
    · rw [h3]
      unfold roundShares
      simp only [if_pos hp]
      refine setPartsAndSign_below (by rw [hk]; exact HRS.le_refl _) ?_ _ _ _
        (getParts_below (by rw [hk]; exact HRS.le_refl _) _ _ _ ((hs.cs p).mono hle))
      intro k hk
      rw [hq.bytes, Out.ok.injEq] at hk
      rw [← hk]
      exact HRS.le_refl _
    · rw [h5 p hp]; exact (hs.cs p).mono hle
  all_goals rw [h8]
  · intro p
    by_cases hp : p = q.leader
    · simp only [if_pos hp, h7]; exact HRS.le_refl _
    · simp only [if_neg hp]; exact HRS.le_trans (hs.lss p) hle
  · intro p
    by_cases hp : p = q.leader
    · simp only [if_pos hp, h6]; exact HRS.le_refl _
    · simp only [if_neg hp]; exact HRS.le_trans (hs.init p) hle
  · intro p id
    by_cases hp : p = q.leader
    · simp only [if_pos hp]
      split
      · rfl
      · exact hs.idle _ _
    · simp only [if_neg hp]; exact hs.idle _ _
  · simp only [if_true]; exact h7
  · simp only [if_true]

theorem vlss_below {C : Crypto} {vcfg : ValidatorCfg} {w : HRS} {v : VState} {r : SSC} (hl : v.lss.hrs ≼ w)
    (hr : r.hrs ≼ w) : (v.step C vcfg (.lss r)).2.lss.hrs ≼ w := by
  simp only [VState.step]
  rw [SignState.save_hrs]
  split
  · exact hr
  · exact hl

/-- Other events keep the cluster quiet. -/
theorem SysBelow.quiet {C : Crypto} {vcfg : ValidatorCfg} {cfg : Nat → CosignerCfg} {n : Nat} {w : HRS} {s : Sys}
    (hs : SysBelow w s) :
    (∀ p r, r.hrs ≼ w → SysBelow w (s.step C vcfg cfg n (.deliver p r)).2) ∧
    (∀ p op, NotAbove w op → SysBelow w (s.step C vcfg cfg n (.other p op)).2) ∧
    (∀ p lv lc, lv.hrs ≼ w → lc.hrs ≼ w → SysBelow w (s.step C vcfg cfg n (.restart p lv lc)).2) := by
  refine ⟨?_, ?_, ?_⟩
  · intro p r hr
    constructor <;> intro j <;> simp only [Sys.step] <;> by_cases hj : j = p <;> simp only [hj, if_true, if_false]
    · exact step_below (C := C) (cfg := cfg p) (op := .saveLSS r) rfl (hs.cs p) hr
    · exact hs.cs j
    · exact vlss_below (hs.lss p) hr
    · exact hs.lss j
    · exact hs.init p
    · exact hs.init j
    · exact hs.idle p
    · exact hs.idle j
  · intro p op hop
    constructor
    · intro j
      simp only [Sys.step]
      by_cases hj : j = p
      · simp only [hj, if_true]; exact step_below (C := C) (cfg := cfg p) (op := op) rfl (hs.cs p) hop
      · simp only [hj, if_false]; exact hs.cs j
    · exact hs.lss
    · exact hs.init
    · exact hs.idle
  · intro p lv lc hv hc
    constructor <;> intro j <;> simp only [Sys.step] <;> by_cases hj : j = p <;> simp only [hj, if_true, if_false]
    · exact ⟨hc, by simp [CState.start]⟩
    · exact hs.cs j
    · exact hv
    · exact hs.lss j
    · exact hv
    · exact hs.init j
    · intro id; rfl
    · exact hs.idle j

theorem SysBelow.start {w : HRS} {lv lc : Nat → SignState} (hv : ∀ p, (lv p).hrs ≼ w) (hc : ∀ p, (lc p).hrs ≼ w) :
    SysBelow w (Sys.start lv lc) :=
  ⟨fun p => ⟨hc p, by simp [Sys.start, CState.start]⟩, hv, hv, fun _ _ => rfl⟩

end
end Horcrux
