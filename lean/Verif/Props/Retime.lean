import Verif.Lemmas.Retime
import Verif.Spec.Private
import Verif.Props.System
/-
Property C82: a vote requested again with another time.
-/
namespace Horcrux
open Spec

/-- Nonce keys that a cosigner may have when `prev` has been asked for at `w`. -/
def KeyOk (w : HRS) (prev : List Block) (k : HRST) : Prop :=
  k.hrs ≺ w ∨ (k.hrs = w ∧ (prev = [] ∨ k.timestamp = GoTime.zero.unixNano ∨ ∃ b ∈ prev, b.key = k))

structure CTimes (w : HRS) (prev : List Block) (s : CState) : Prop where
  below : CBelow w s
  keys : ∀ k ref, s.hrsMeta k = some ref → KeyOk w prev k
  signed : prev ≠ [] → s.lss.hrs = w → ∃ b ∈ prev, s.lss.signBytes = some b.signBytes ∧ s.lss.signature ≠ none

structure VTimes (w : HRS) (prev : List Block) (v : VState) : Prop where
  lss : v.lss.hrs ≼ w
  init : v.init.hrs ≼ w
  idle : ∀ id, v.calls id = none
  cached : prev ≠ [] → -(2 ^ 63) + 3 ≤ w.height → v.lss.hrs = w →
    ∃ r, v.lss.cache w = some r ∧ r.step = w.step ∧ ∃ b ∈ prev, r.signBytes = some b.signBytes
  started : prev ≠ [] → v.init.hrs = w → v.lss.hrs = w

structure TimesInv (w : HRS) (prev : List Block) (s : Sys) : Prop where
  bytes : ∀ b ∈ prev, unpackHRST b.signBytes = .ok b.key
  cs : ∀ p, CTimes w prev (s.cs p)
  vs : ∀ p, VTimes w prev (s.vs p)

theorem Spec.Known.le {w : HRS} {prev : List Block} {h : HRS} {sb sg : Slice} (hk : Known w prev h sb sg) : h ≼ w := by
  rcases hk with h | ⟨h, _⟩
  · exact .inr h
  · exact .inl h

theorem Spec.KnownKey.le {w : HRS} {prev : List Block} {k : HRST} (hk : KnownKey w prev k) : k.hrs ≼ w := by
  rcases hk with h | ⟨h, _⟩
  · exact .inr h
  · exact .inl h

theorem Spec.KnownKey.ok {w : HRS} {prev : List Block} {k : HRST} (hk : KnownKey w prev k) : KeyOk w prev k := by
  rcases hk with h | ⟨h, h2 | h2⟩
  · exact .inl h
  · exact .inr ⟨h, .inl h2⟩
  · exact .inr ⟨h, .inr (.inr h2)⟩

theorem Spec.KnownKey.zero {w : HRS} {prev : List Block} {h r st ts : Int} (hk : KnownKey w prev ⟨h, r, st, ts⟩) :
    KeyOk w prev ⟨h, r, st, GoTime.zero.unixNano⟩ := by
  rcases hk with h | ⟨h, _⟩
  · exact .inl h
  · exact .inr ⟨h, .inr (.inl rfl)⟩

theorem Spec.KnownOp.notAbove {w : HRS} {prev : List Block} {op : CosOp} (h : KnownOp w prev op) : NotAbove w op := by
  cases op with
  | getPart req rnd => exact KnownKey.le (prev := prev) h
  | setPart req rnd => exact KnownKey.le (prev := prev) h
  | sign bs =>
    intro k hk
    rcases h k hk with h | ⟨h, _⟩
    · exact .inr h
    · exact .inl h
  | saveLSS r => exact Known.le (prev := prev) h

theorem lt_ne {a b : HRS} (h : a ≺ b) : a ≠ b := fun e => by rw [e] at h; exact HRS.lt_irrefl _ h

theorem step_times {C : Crypto} {cfg : CosignerCfg} {w : HRS} {prev : List Block} {s : CState} {op : CosOp}
    (hs : CTimes w prev s) (hop : KnownOp w prev op) : CTimes w prev (s.step C cfg op).2 := by
  generalize hx : s.step C cfg op = x
  obtain ⟨out, s'⟩ := x
  refine ⟨step_below hx hs.below (KnownOp.notAbove hop), ?_, ?_⟩
  · refine step_keys hx hs.keys ?_ ?_
    · rintro req rnd rfl; exact KnownKey.ok hop
    · rintro req rnd rfl; exact ⟨KnownKey.ok hop, KnownKey.zero hop⟩
  · intro hne he
    simp only at he ⊢
    rcases step_cases hx with ⟨req, rnd, rfl, hp⟩ | ⟨req, rnd, rfl, _, hp⟩ | ⟨bs, r, k, ref, m, rfl, _, hf⟩ |
      ⟨_, _, _, _, _, hc⟩ | ⟨_, _, _, rfl⟩ | ⟨ssc, rfl, rfl, _⟩
    · rw [hp.lss] at he ⊢; exact hs.signed hne he
    · rw [hp.lss] at he ⊢; exact hs.signed hne he
    · rw [hf.hrs] at he
      rcases hf.le with hl | hl
      · rw [(hf.again hl).1]
        exact hs.signed hne (hl.trans he)
      · obtain ⟨a, b⟩ := hf.advance hl
        rcases hop k hf.unpack with h | ⟨_, h | ⟨b0, h1, rfl⟩⟩
        · exact absurd he (lt_ne h)
        · exact absurd h hne
        · exact ⟨b0, h1, a, by rw [b, hf.sig]; simp⟩
    · rw [hc.state] at he ⊢; exact hs.signed hne he
    · exact hs.signed hne he
    · simp only at he ⊢
      by_cases hlt : s.lss.hrs ≺ ssc.hrs
      · rw [SignState.save_ok _ _ hlt] at he ⊢
        rcases hop with h | ⟨_, h | ⟨b, h1, h2, h3⟩⟩
        · exact absurd he (lt_ne h)
        · exact absurd h hne
        · exact ⟨b, h1, h2, h3⟩
      · rw [SignState.save_err _ _ hlt] at he ⊢
        exact hs.signed hne he

theorem bmod_le {x : Int} (h : -(2 ^ 63) ≤ x) : i64 x ≤ x := by
  unfold i64 Int.bmod
  simp only
  split <;> omega

/-- What a record saved at its own block leaves in the cache. -/
theorem save_cached {l : SignState} {r : SSC} (hlt : l.hrs ≺ r.hrs) (hh : -(2 ^ 63) + 3 ≤ r.height) :
    (l.save r).2.cache r.hrs = some r := by
  rw [SignState.save_ok _ _ hlt]
  have h1 := bmod_le (x := r.height - 3) (by omega)
  have h2 : ¬ r.hrs.height < i64 (r.height - blocksToCache) := by
    show ¬ r.height < i64 (r.height - 3)
    omega
  simp [h2]

theorem lss_times {w : HRS} {prev : List Block} {v : VState} {r : SSC} (hv : VTimes w prev v)
    (hr : Known w prev r.hrs r.signBytes r.signature) : VTimes w prev { v with lss := (v.lss.save r).2 } := by
  refine ⟨?_, hv.init, hv.idle, ?_, ?_⟩
  · rw [SignState.save_hrs]
    split
    · exact (Known.le hr)
    · exact hv.lss
  · intro hne hh he
    simp only at he ⊢
    by_cases hlt : v.lss.hrs ≺ r.hrs
    · have he' : r.hrs = w := by rw [SignState.save_hrs, if_pos hlt] at he; exact he
      rcases hr with h | ⟨_, h | ⟨b, h1, h2, h3⟩⟩
      · exact absurd he' (lt_ne h)
      · exact absurd h hne
      · rw [← he'] at hh ⊢
        exact ⟨r, save_cached hlt hh, rfl, b, h1, h2⟩
    · rw [SignState.save_err _ _ hlt] at he ⊢
      exact hv.cached hne hh he
  · intro hne he
    have h1 := hv.started hne he
    rw [SignState.save_hrs]
    split
    · next hlt =>
      rw [h1] at hlt
      exact absurd (HRS.lt_of_lt_of_le hlt (Known.le hr)) (HRS.lt_irrefl _)
    · exact h1

section
variable {C : Crypto} {F G : Type} [Field F] [AddCommGroup G] [Module F G] {L : Lawful C F G}
  {pair : Bytes → Bytes → Prop} {n t : Nat} {cfg : Nat → CosignerCfg} {x : F} {kc : List F} {rsaPub : Nat → Bytes}

theorem TimesInv.quiet {vcfg : ValidatorCfg} {w : HRS} {prev : List Block} {s : Sys} (hs : TimesInv w prev s) :
    (∀ p r, Known w prev r.hrs r.signBytes r.signature → TimesInv w prev (s.step C vcfg cfg n (.deliver p r)).2) ∧
    (∀ p op, KnownOp w prev op → TimesInv w prev (s.step C vcfg cfg n (.other p op)).2) ∧
    (∀ p lv lc, Known w prev lv.hrs lv.signBytes lv.signature →
      lv.cache lv.hrs = some ⟨lv.height, lv.round, lv.step, lv.signature, lv.signBytes⟩ →
      Known w prev lc.hrs lc.signBytes lc.signature → TimesInv w prev (s.step C vcfg cfg n (.restart p lv lc)).2) := by
  refine ⟨?_, ?_, ?_⟩
  · intro p r hr
    refine ⟨hs.bytes, fun j => ?_, fun j => ?_⟩ <;> simp only [Sys.step] <;> by_cases hj : j = p <;>
      simp only [hj, if_true, if_false]
    · exact step_times (op := .saveLSS r) (hs.cs p) hr
    · exact hs.cs j
    · exact lss_times (hs.vs p) hr
    · exact hs.vs j
  · intro p op hop
    refine ⟨hs.bytes, fun j => ?_, hs.vs⟩
    simp only [Sys.step]
    by_cases hj : j = p <;> simp only [hj, if_true, if_false]
    · exact step_times (hs.cs p) hop
    · exact hs.cs j
  · intro p lv lc hv hca hc
    refine ⟨hs.bytes, fun j => ?_, fun j => ?_⟩ <;> simp only [Sys.step] <;> by_cases hj : j = p <;>
      simp only [hj, if_true, if_false]
    · refine ⟨⟨(Known.le hc), by simp [CState.start]⟩, by simp [CState.start], ?_⟩
      intro hne he
      rcases hc with h | ⟨_, h | h⟩
      · exact absurd he (lt_ne h)
      · exact absurd h hne
      · exact h
    · exact hs.cs j
    · refine ⟨(Known.le hv), (Known.le hv), fun _ => rfl, ?_, fun _ h => h⟩
      intro hne _ he
      have he' : lv.hrs = w := he
      rcases hv with h | ⟨_, h | ⟨b, h1, h2, _⟩⟩
      · exact absurd he' (lt_ne h)
      · exact absurd h hne
      · subst he'
        exact ⟨_, hca, rfl, b, h1, h2⟩
    · exact hs.vs j

/-- A sign request for a higher block, or for a vote with another time, finds the cluster ready. -/
theorem times_ready {w : HRS} {prev : List Block} {s : Sys} (hs : TimesInv w prev s) {q : Req}
    (hcase : w ≺ q.block.hrs ∨ (q.block.hrs = w ∧ prev ≠ [] ∧ (w.step = 2 ∨ w.step = 3) ∧ -(2 ^ 63) + 3 ≤ w.height ∧
        ∀ b ∈ prev, DifferOnlyByTime w.step b.signBytes q.block.signBytes ∧ b.signBytes ≠ q.block.signBytes)) :
    (∀ p ∈ q.ps, SignsAnew (s.cs p).lss q.block.signBytes q.block.key) ∧
    ((s.vs q.leader).init.hrs ≺ q.block.hrs ∨
      ((s.vs q.leader).init.hrs = q.block.hrs ∧ existingSignature (s.vs q.leader).lss q.block = .ok none)) ∧
    (s.vs q.leader).lss.hrs ≼ q.block.hrs := by
  have hle : w ≼ q.block.hrs := by
    rcases hcase with h | ⟨h, _⟩
    · exact .inr h
    · exact .inl h.symm
  have hlow : ∀ p, (s.cs p).lss.hrs ≼ q.block.hrs := fun p => HRS.le_trans (hs.cs p).below.lss hle
  have hanew : ∀ p ∈ q.ps, SignsAnew (s.cs p).lss q.block.signBytes q.block.key := by
    intro p _
    rcases hlow p with he | hlt
    · rcases hcase with h | ⟨h, h1, _, _, h3⟩
      · have := (hs.cs p).below.lss
        rw [he] at this
        exact absurd (HRS.lt_of_le_of_lt this h) (HRS.lt_irrefl _)
      · obtain ⟨b, b1, b2, b3⟩ := (hs.cs p).signed h1 (he.trans h)
        refine .inr ⟨he, b3, b.signBytes, b2, Ne.symm (h3 b b1).2, ?_⟩
        have hst : (s.cs p).lss.step = w.step := by
          have := congrArg HRS.step (he.trans h)
          exact this
        rw [hst]
        exact (onlyDiffer_iff _ _ _).2 (h3 b b1).1
    · exact .inl hlt
  have hlss : (s.vs q.leader).lss.hrs ≼ q.block.hrs := HRS.le_trans (hs.vs _).lss hle
  have hinit : (s.vs q.leader).init.hrs ≺ q.block.hrs ∨
      ((s.vs q.leader).init.hrs = q.block.hrs ∧ existingSignature (s.vs q.leader).lss q.block = .ok none) := by
    rcases HRS.le_trans (hs.vs q.leader).init hle with he | hlt
    · right
      refine ⟨he, ?_⟩
      rcases hcase with h | ⟨h, h1, h2, hh, h3⟩
      · have := (hs.vs q.leader).init
        rw [he] at this
        exact absurd (HRS.lt_of_le_of_lt this h) (HRS.lt_irrefl _)
      · have hw := (hs.vs q.leader).started h1 (he.trans h)
        obtain ⟨r, r1, r2, b, b1, b2⟩ := (hs.vs q.leader).cached h1 hh hw
        unfold existingSignature SignState.getFromCache
        rw [h, r1]
        simp only
        have hne : ¬ (q.block.step = stepPropose ∨ q.block.signBytes = r.signBytes.bytes) := by
          rintro (h4 | h4)
          · have : q.block.step = w.step := congrArg HRS.step h
            rw [this] at h4
            unfold stepPropose at h4
            omega
          · rw [b2] at h4
            exact (h3 b b1).2 h4.symm
        rw [if_neg hne, r2, b2]
        have := (onlyDiffer_iff w.step b.signBytes q.block.signBytes).2 (h3 b b1).1
        simp only [Slice.bytes, Option.getD_some, this]
    · exact .inl hlt
  exact ⟨hanew, hinit, hlss⟩

/-- A sign request, for a higher block or for a vote with another time. -/
theorem signBlock_times (hS : Setup C L pair n t cfg x kc rsaPub) (hn : 2 ≤ n) {w : HRS} {prev prev' : List Block} {s : Sys}
    (hs : TimesInv w prev s) {q : Req} (hq : Servable n t q)
    (hcase : (w ≺ q.block.hrs ∧ prev' = [q.block]) ∨
      (q.block.hrs = w ∧ prev' = q.block :: prev ∧ prev ≠ [] ∧ (w.step = 2 ∨ w.step = 3) ∧ -(2 ^ 63) + 3 ≤ w.height ∧
        q.block.timestamp.unixNano ≠ GoTime.zero.unixNano ∧
        ∀ b ∈ prev, DifferOnlyByTime w.step b.signBytes q.block.signBytes ∧
          b.timestamp.unixNano ≠ q.block.timestamp.unixNano)) :
    ∃ sig s', s.signBlock C ⟨t, L.pt (x • L.B)⟩ cfg n q =
        (.ret q.id q.block (some sig) q.block.timestamp none, s') ∧
      C.verify (L.pt (x • L.B)) q.block.signBytes sig = true ∧ TimesInv q.block.hrs prev' s' ∧
      ∃ sec' r' ans', (∀ p ∈ q.ps, ∃ i, (q.rnd1 p i).secret = some (sec' p)) ∧
        sig = L.pt (jointR L n sec' q.ps) ++ L.sc (((idsOf n q.ps).map fun p => L.val (sec' p)).sum +
          L.chal (L.pt (jointR L n sec' q.ps)) (L.pt (x • L.B)) q.block.signBytes * x) ∧
        ∀ ps' bs', (∀ p, p ∈ ps' ↔ p ∈ q.ps) →
          TryInv L n t cfg x kc rsaPub ps' q.block.key bs' sec' r' q.ps ⟨lower q.block.key s'.cs, ans'⟩ := by
  have hle : w ≼ q.block.hrs := by
    rcases hcase with ⟨h, _⟩ | ⟨h, _⟩
    · exact .inr h
    · exact .inl h.symm
  have hlow : ∀ p, (s.cs p).lss.hrs ≼ q.block.hrs := fun p => HRS.le_trans (hs.cs p).below.lss hle
  -- nothing is there under the key
  have hnone : ∀ p, (s.cs p).hrsMeta q.block.key = none := by
    intro p
    cases hm : (s.cs p).hrsMeta q.block.key with
    | none => rfl
    | some ref =>
      exfalso
      rcases hcase with ⟨h, _⟩ | ⟨h, _, h1, _, _, h2, h3⟩
      · exact HRS.lt_irrefl _ (HRS.lt_of_le_of_lt ((hs.cs p).below.recs _ _ hm) h)
      · have hk : q.block.key.hrs = w := h
        rcases (hs.cs p).keys _ _ hm with h4 | ⟨_, h4 | h4 | ⟨b, h4, h5⟩⟩
        · rw [hk] at h4; exact HRS.lt_irrefl _ h4
        · exact h1 h4
        · exact h2 h4
        · refine (h3 b h4).2 ?_
          have := congrArg HRST.timestamp h5
          exact this
  have hinv : TryInv L n t cfg x kc rsaPub q.ps q.block.key q.block.signBytes (fun _ => []) (fun _ => []) []
      ⟨lower q.block.key s.cs, fun _ => []⟩ :=
    TryInv.start (fun p _ _ => lower_lss (hlow p)) (fun p _ _ => by rw [(lower_rest _ _ _).2.1]; exact hnone p)
  have hready := times_ready (q := q) hs (by
    rcases hcase with ⟨h, _⟩ | ⟨h, _, h1, h2, h3, _, h4⟩
    · exact .inl h
    · refine .inr ⟨h, h1, h2, h3, fun b hb => ⟨(h4 b hb).1, fun hbs => (h4 b hb).2 ?_⟩⟩
      have h5 := hs.bytes b hb
      rw [hbs, hq.bytes, Out.ok.injEq] at h5
      exact (congrArg HRST.timestamp h5).symm)
  obtain ⟨hanew, hinit, hlss⟩ := hready
  obtain ⟨sig, s', init', sec', r', e1, e2, _, e3, e4, e5, e6, e7, e8, e9, e10, e11⟩ :=
    signBlock_core hS hn hq hinv hanew ((hs.vs _).idle _) hinit hlss
  obtain ⟨ans', e11⟩ := e11 fun p _ _ _ => ⟨hnone p, hlow p⟩
  refine ⟨sig, s', e1, e2, ⟨?_, ?_, ?_⟩, sec', r', ans', fun p hp => e3 p hp (by simp), e4, e11⟩
  · intro b hb
    rcases hcase with ⟨_, rfl⟩ | ⟨_, rfl, _⟩
    · rw [List.mem_singleton] at hb; subst hb; exact hq.bytes
    · rcases List.mem_cons.1 hb with rfl | hb
      · exact hq.bytes
      · exact hs.bytes b hb
  · have hmem : q.block ∈ prev' := by rcases hcase with ⟨_, rfl⟩ | ⟨_, rfl, _⟩ <;> simp
    have hkeys : ∀ k, KeyOk w prev k → KeyOk q.block.hrs prev' k := by
      intro k hk
      rcases hcase with ⟨h, rfl⟩ | ⟨h, rfl, h1, _⟩
      · rcases hk with hk | ⟨hk, _⟩
        · exact .inl (HRS.lt_trans hk h)
        · exact .inl (by rw [hk]; exact h)
      · rw [h]
        rcases hk with hk | ⟨hk, hk2 | hk2 | ⟨b, hb, hk2⟩⟩
        · exact .inl hk
        · exact absurd hk2 h1
        · exact .inr ⟨hk, .inr (.inl hk2)⟩
        · exact .inr ⟨hk, .inr (.inr ⟨b, by simp [hb], hk2⟩)⟩
    intro p
    refine ⟨?_, ?_, ?_⟩
    · by_cases hp : p ∈ q.ps
      · rw [e5]
        unfold roundShares
        simp only [if_pos hp]
        have hk : q.block.key.hrs = q.block.hrs := rfl
        refine setPartsAndSign_below (by rw [hk]; exact HRS.le_refl _) ?_ _ _ _
          (getParts_below (by rw [hk]; exact HRS.le_refl _) _ _ _ ((hs.cs p).below.mono hle))
        intro k hk
        rw [hq.bytes, Out.ok.injEq] at hk
        rw [← hk]
        exact HRS.le_refl _
      · rw [e6 p hp]; exact (hs.cs p).below.mono hle
    · by_cases hp : p ∈ q.ps
      · rw [e5]
        unfold roundShares
        simp only [if_pos hp]
        have hk : KeyOk q.block.hrs prev' q.block.key := .inr ⟨rfl, .inr (.inr ⟨q.block, hmem, rfl⟩)⟩
        exact setPartsAndSign_keys (unixNano_isI64 _) hk (.inr ⟨rfl, .inr (.inl rfl)⟩) _ _ _
          (getParts_keys (unixNano_isI64 _) hk _ _ _ (fun k ref h => hkeys k ((hs.cs p).keys k ref h)))
      · rw [e6 p hp]; exact fun k ref h => hkeys k ((hs.cs p).keys k ref h)
    · intro _ he
      have old : (s.cs p).lss.hrs = q.block.hrs →
          ∃ b ∈ prev', (s.cs p).lss.signBytes = some b.signBytes ∧ (s.cs p).lss.signature ≠ none := by
        intro he
        rcases hcase with ⟨h, rfl⟩ | ⟨h, rfl, h1, _⟩
        · have := (hs.cs p).below.lss
          rw [he] at this
          exact absurd (HRS.lt_of_le_of_lt this h) (HRS.lt_irrefl _)
        · obtain ⟨b, b1, b2⟩ := (hs.cs p).signed h1 (he.trans h)
          exact ⟨b, by simp [b1], b2⟩
      by_cases hp : p ∈ q.ps
      · rcases hlow p with h | h
        · obtain ⟨e, h2⟩ := e7 p hp h
          rw [h2]
          exact old h
        · have h2 := e8 p hp h
          exact ⟨q.block, hmem, h2.signBytes, by rw [h2.signature]; simp⟩
      · rw [e6 p hp] at he ⊢
        exact old he
  · intro p
    rw [e10]
    by_cases hp : p = q.leader
    · have hc : ((s.vs q.leader).lss.save (q.block.record sig)).2.hrs = q.block.hrs := by
        rw [SignState.save_hrs]
        split
        · rfl
        · next h =>
          rcases hlss with h' | h'
          · exact h'
          · exact absurd h' h
      simp only [if_pos hp]
      refine ⟨.inl hc, .inl e9, ?_, ?_, fun _ _ => hc⟩
      · intro id
        simp only
        split
        · rfl
        · exact (hs.vs _).idle _
      · intro _ hh _
        simp only
        rcases hlss with h' | h'
        · rw [SignState.save_err _ _ (by show ¬ _ ≺ q.block.hrs; rw [h']; exact HRS.lt_irrefl _)]
          rcases hcase with ⟨h, rfl⟩ | ⟨h, rfl, h1, _⟩
          · have := (hs.vs q.leader).lss
            rw [h'] at this
            exact absurd (HRS.lt_of_le_of_lt this h) (HRS.lt_irrefl _)
          · rw [h] at hh h' ⊢
            obtain ⟨r, r1, r2, b, b1, b2⟩ := (hs.vs q.leader).cached h1 hh h'
            exact ⟨r, r1, r2, b, by simp [b1], b2⟩
        · exact ⟨_, save_cached (r := q.block.record sig) h' hh, rfl, q.block,
            by rcases hcase with ⟨_, rfl⟩ | ⟨_, rfl, _⟩ <;> simp, rfl⟩
    · simp only [if_neg hp]
      rcases hcase with ⟨h, rfl⟩ | ⟨h, rfl, h1, _⟩
      · have no : ∀ a : HRS, a ≼ w → a ≠ q.block.hrs := by
          rintro a ha rfl
          exact HRS.lt_irrefl _ (HRS.lt_of_le_of_lt ha h)
        exact ⟨HRS.le_trans (hs.vs p).lss hle, HRS.le_trans (hs.vs p).init hle, (hs.vs p).idle,
          fun _ _ h' => absurd h' (no _ (hs.vs p).lss), fun _ h' => absurd h' (no _ (hs.vs p).init)⟩
      · rw [h]
        refine ⟨(hs.vs p).lss, (hs.vs p).init, (hs.vs p).idle, ?_, fun _ => (hs.vs p).started h1⟩
        intro _ hh h'
        obtain ⟨r, r1, r2, b, b1, b2⟩ := (hs.vs p).cached h1 hh h'
        exact ⟨r, r1, r2, b, by simp [b1], b2⟩

/-- What was signed with the sum of the nonces. -/
theorem schnorr_sum {ps : List Nat} (hnd : ps.Nodup) (hids : ∀ p ∈ ps, 1 ≤ p ∧ p ≤ n) (sec : Nat → Bytes) (m : Bytes) :
    L.pt (jointR L n sec ps) ++ L.sc (((idsOf n ps).map fun p => L.val (sec p)).sum +
        L.chal (L.pt (jointR L n sec ps)) (L.pt (x • L.B)) m * x)
      = schnorr L x (ps.map fun p => L.val (sec p)).sum m := by
  have hp : (idsOf n ps).Perm ps :=
    (List.perm_ext_iff_of_nodup (idsOf_nodup n ps) hnd).2 fun p => by
      rw [mem_idsOf]; exact ⟨fun h => h.1, fun h => ⟨h, hids p h⟩⟩
  have h1 : ((idsOf n ps).map fun p => L.val (sec p)).sum = (ps.map fun p => L.val (sec p)).sum := (hp.map _).sum_eq
  have h2 : jointR L n sec ps = (ps.map fun p => L.val (sec p)).sum • L.B := by
    rw [← h1, List.sum_smul, List.map_map]
    rfl
  rw [h1, h2]
  rfl

/-- A run of events in order: every request is answered, with a signature made with nonces drawn for it. -/
theorem run_times (hS : Setup C L pair n t cfg x kc rsaPub) (hn : 2 ≤ n) (rest : List SysEv) :
    ∀ (evs : List SysEv) (w : HRS) (prev : List Block) (s : Sys), TimesInv w prev s → (∀ b ∈ prev, b.hrs = w) →
      InOrderTimes n t w prev (evs ++ rest) →
      List.Forall₂ (fun q a => a.1 = q ∧ ∃ y, DrawnFor L q y ∧
          a.2 = .ret q.id q.block (some (schnorr L x y q.block.signBytes)) q.block.timestamp none ∧
          C.verify (L.pt (x • L.B)) q.block.signBytes (schnorr L x y q.block.signBytes) = true)
        (requests evs) (s.run C ⟨t, L.pt (x • L.B)⟩ cfg n evs).1 ∧
      ∃ w' prev', TimesInv w' prev' (s.run C ⟨t, L.pt (x • L.B)⟩ cfg n evs).2 ∧ (∀ b ∈ prev', b.hrs = w') ∧
        InOrderTimes n t w' prev' rest ∧ ∀ b ∈ prev', b ∈ prev ∨ b ∈ (requests evs).map (·.block) := by
  intro evs
  induction evs with
  | nil => intro w prev s hs hp he; exact ⟨List.Forall₂.nil, w, prev, hs, hp, he, fun b hb => .inl hb⟩
  | cons e evs ih =>
    intro w prev s hs hp he
    have hq := hs.quiet (C := C) (vcfg := ⟨t, L.pt (x • L.B)⟩) (cfg := cfg) (n := n)
    cases e with
    | sign q =>
      obtain ⟨h1, ⟨h2, h3⟩ | ⟨h2, h3, h4, h5, h6, h7, h8⟩⟩ := he
      · obtain ⟨sig, s', e1, e2, e3, sec', r', ans', d1, d2, _⟩ := signBlock_times hS hn hs h1 (.inl ⟨h2, rfl⟩)
        rw [schnorr_sum h1.nodup h1.ids] at d2
        subst d2
        simp only [requests, Sys.run, Sys.step, e1]
        obtain ⟨f1, w', prev', f2, f3, f4, f5⟩ := ih _ _ _ e3 (by simp) h3
        refine ⟨List.Forall₂.cons ⟨rfl, _, ⟨sec', d1, rfl⟩, rfl, e2⟩ f1, w', prev', f2, f3, f4, fun b hb => .inr ?_⟩
        rcases f5 b hb with h | h
        · rw [List.mem_singleton] at h; simp [h]
        · exact List.mem_cons_of_mem _ h
      · obtain ⟨sig, s', e1, e2, e3, sec', r', ans', d1, d2, _⟩ :=
          signBlock_times hS hn hs h1 (.inr ⟨h2, rfl, h3, h4, h5, h6, h7⟩)
        rw [schnorr_sum h1.nodup h1.ids] at d2
        subst d2
        rw [h2] at e3
        simp only [requests, Sys.run, Sys.step, e1]
        obtain ⟨f1, w', prev', f2, f3, f4, f5⟩ := ih _ _ _ e3 (by simpa [h2] using hp) h8
        refine ⟨List.Forall₂.cons ⟨rfl, _, ⟨sec', d1, rfl⟩, rfl, e2⟩ f1, w', prev', f2, f3, f4, fun b hb => ?_⟩
        rcases f5 b hb with h | h
        · rcases List.mem_cons.1 h with h | h
          · exact .inr (by simp [h])
          · exact .inl h
        · exact .inr (List.mem_cons_of_mem _ h)
    | deliver p r => exact ih w prev _ (hq.1 p r he.1) hp he.2
    | other p op => exact ih w prev _ (hq.2.1 p op he.1) hp he.2
    | restart p a b => exact ih w prev _ (hq.2.2 p a b he.1 he.2.1 he.2.2.1) hp he.2.2.2

theorem times_start {w : HRS} {lv lc : Nat → SignState} (hv : ∀ p, (lv p).hrs ≼ w) (hc : ∀ p, (lc p).hrs ≼ w) :
    TimesInv w [] (Sys.start lv lc) := by
  refine ⟨by simp, fun p => ?_, fun p => ?_⟩
  · exact ⟨⟨hc p, by simp [Sys.start, CState.start]⟩, by simp [Sys.start, CState.start], by simp⟩
  · exact ⟨hv p, hv p, fun _ => rfl, by simp, by simp⟩

/-- C82: as C63, and any vote may be requested again with other times: from the node that led before or any other, with
whatever participants, restarts, raft events and late calls in between. Every request is answered with a signature that
verifies for its own sign bytes, with its own time. -/
theorem C82_signs (hS : Setup C L pair n t cfg x kc rsaPub) (hn : 2 ≤ n) (w : HRS) (lv lc : Nat → SignState)
    (hv : ∀ p, (lv p).hrs ≼ w) (hc : ∀ p, (lc p).hrs ≼ w) (evs : List SysEv) (hev : InOrderTimes n t w [] evs) :
    List.Forall₂ (fun q a => a.1 = q ∧ ∃ sig, a.2 = .ret q.id q.block (some sig) q.block.timestamp none ∧
        C.verify (L.pt (x • L.B)) q.block.signBytes sig = true)
      (requests evs) ((Sys.start lv lc).run C ⟨t, L.pt (x • L.B)⟩ cfg n evs).1 := by
  refine (run_times hS hn [] evs w [] _ (times_start hv hc) (by simp) (by simpa using hev)).1.imp ?_
  rintro q a ⟨h1, y, _, h2, h3⟩
  exact ⟨h1, _, h2, h3⟩

end

/-- C82: the blocks of two votes that agree in everything but the time are of one height, round and step, and their sign
bytes differ only in the time, as asked for in `InOrderTimes`. -/
theorem C82_votes (chainID : Bytes) (v : Vote) (time : GoTime) (b b' : Block) (hw : v.WF chainID)
    (hw' : ({ v with timestamp := time } : Vote).WF chainID) (h : voteBlock chainID v = .ok b)
    (h' : voteBlock chainID { v with timestamp := time } = .ok b') :
    b'.hrs = b.hrs ∧ (b.step = 2 ∨ b.step = 3) ∧ b'.timestamp = time ∧ DifferOnlyByTime b.step b.signBytes b'.signBytes := by
  unfold voteBlock at h h'
  cases hs : voteTypeToStep v.type with
  | panic => rw [hs] at h; cases h
  | err e => rw [hs] at h; cases h
  | ok st =>
    rw [hs] at h
    simp only [hs] at h h'
    split at h <;> try (cases h; done)
    split at h' <;> try (cases h'; done)
    rename_i bs hbs _ bs' hbs'
    rw [Out.ok.injEq] at h h'
    subst h h'
    have hst : st = 2 ∨ st = 3 := by
      unfold voteTypeToStep at hs
      (repeat' split at hs) <;> simp only [Out.ok.injEq, reduceCtorEq] at hs
      · exact .inl (by rw [← hs]; rfl)
      · exact .inr (by rw [← hs]; rfl)
    exact ⟨rfl, hst, rfl, (onlyDiffer_iff _ _ _).1
      ((C05_votes chainID chainID v _ bs bs' hw hw' hbs hbs' st hst).2 ⟨rfl, rfl, rfl, rfl, rfl⟩)⟩

/-- The vote of `blk1` at a third time. -/
def blk1c : Block :=
  ⟨7, 1, 3, bytesOf (voteSignBytes [97] { vote1 with timestamp := ⟨1600000002, 0⟩ }), ⟨1600000002, 0⟩⟩

/-- Concretely: cosigner 3 leads with 1; it is asked again with another time and takes 2 along; the first record reaches 2,
and a late call for the first time reaches 1; 2 leads for a third time; then comes the next height. -/
def revs : List SysEv :=
  [.sign (freq 0 blk1 3 [3, 1]), .sign (freq 1 blk2 3 [3, 2]), .deliver 2 (blk1.record [1]),
   .other 1 (.getPart get1 (toyRnd 3)), .sign (freq 2 blk1c 2 [2, 1]), .sign (freq 3 blk3 2 [2, 3])]

example : InOrderTimes 3 2 ⟨0, 0, 0⟩ [] revs ∧ (requests revs).map (·.id) = [0, 1, 2, 3] := by
  have d12 : DifferOnlyByTime 3 b1 b2 := (onlyDiffer_iff _ _ _).1 (by decide +kernel)
  have d13 : DifferOnlyByTime 3 b1 blk1c.signBytes := (onlyDiffer_iff _ _ _).1 (by decide +kernel)
  have d23 : DifferOnlyByTime 3 b2 blk1c.signBytes := (onlyDiffer_iff _ _ _).1 (by decide +kernel)
  refine ⟨⟨fservable _ _ _ _ (by decide +kernel) (by decide) (by decide) (by decide) (by decide), .inl ⟨by decide,
    fservable _ _ _ _ (by decide +kernel) (by decide) (by decide) (by decide) (by decide),
    .inr ⟨rfl, by decide, by decide, by decide, by decide +kernel, ?_,
    .inr ⟨rfl, .inr ⟨blk1, by simp [freq], rfl, by decide⟩⟩,
    .inr ⟨rfl, .inr ⟨blk1, by simp [freq], rfl⟩⟩,
    fservable _ _ _ _ (by decide +kernel) (by decide) (by decide) (by decide) (by decide),
    .inr ⟨rfl, by decide, by decide, by decide, by decide +kernel, ?_,
    fservable _ _ _ _ (by decide +kernel) (by decide) (by decide) (by decide) (by decide), .inl ⟨by decide, trivial⟩⟩⟩⟩⟩, rfl⟩
  · intro b hb
    simp only [freq, List.mem_singleton] at hb
    subst hb
    exact ⟨d12, by decide⟩
  · intro b hb
    simp only [freq, List.mem_cons, List.not_mem_nil, or_false] at hb
    rcases hb with rfl | rfl
    · exact ⟨d23, by decide⟩
    · exact ⟨d13, by decide⟩

example : ((Sys.start (fun _ => .empty) (fun _ => .empty)).run ftoy ⟨2, fsc (42 • 1)⟩ fcfg 3 revs).1.map
    (fun a => fanswer a.2) = [some (0, true, none), some (1, true, none), some (2, true, none), some (3, true, none)] := by
  decide +kernel

end Horcrux
