import Verif.Lemmas.WholeMem
import Verif.Props.WholeRest
/-
C119: a signing round access by access, together with the cosigners.
-/
namespace Horcrux
open Spec

/-- The main goroutine, when it goes on, reads what it reads in the corresponding round of `Whole`. -/
theorem signSim_read {total me : Nat} {ps : List Nat} {past : List SignEv} {m : SignMem} {ph : SignPhase}
    (h : SignSim total me ps past m ph) (hl : m.lead = .reads ∨ m.lead = .past) :
    ph.ended = some true ∧ ph.sigs = m.sigs ∧ ph.eph = m.eph := by
  have hen : ph.ended = some true := by
    rw [h.ended]; rcases hl with hl | hl <;> rw [hl] <;> rfl
  refine ⟨hen, h.sigs, ?_⟩
  rw [h.eph]
  unfold SignMem.nextEph
  split
  · rename_i r hr
    have hd := (h.due me).2 (by rw [hr]; rfl)
    rw [(h.inv.ended hen).2] at hd
    cases hd
  · rfl

/-- **C119.** So the whole round, whatever its schedule, lock by lock and access by access, comes out as if the cosigners were
asked one after the other (as in C118): if the main goroutine gets to reading the table of signatures, there are `t`
participants, the leader among them, that all answered the request for parts, such that what it assembles is what comes of
asking them one after the other for their parts and then to sign (`signRound`), and leaves them in the same states, or else a
call to sign failed (the leader's own only because its cosigner refused) and there are not enough cosigners. -/
theorem C119_serial (C : Crypto) (R : RoundCfg) (t : Nat) (ht : 1 ≤ t) (hR : R.threshold = t) (hnd : R.peers.Nodup)
    (hme : R.me ∉ R.peers) (hids : ∀ p, p = R.me ∨ p ∈ R.peers → 1 ≤ p ∧ p ≤ R.total) (st : Nat → CState)
    (es : List WholeMemEv) (s0 s : WholeMem) (h0 : WholeMem.start R st = .ok s0) (hr : s0.run C R es = .ok s)
    (m : SignMem) (hm : s.second = some m) (hl : m.lead = .reads ∨ m.lead = .past) (pub : Bytes) :
    ∃ (ps : List Nat) (mapOrder : Nat → List Nat) (out : Out Bytes × (Nat → CState)),
      signRound C R.cfg ps R.me R.threshold R.total pub R.k R.bs R.order mapOrder R.rnd1 R.rnd2 st = out ∧
      ps.Nodup ∧ ps.length = t ∧ R.me ∈ ps ∧ (∀ p ∈ ps, p = R.me ∨ p ∈ R.peers) ∧ (∀ p, (mapOrder p).Perm ps) ∧
      (∀ p ∈ ps, ∃ l, (getParts C (R.cfg p) R.k (R.order p) (R.rnd1 p) (st p)).1 = .ok l) ∧
      (∀ p, s.cs p = st p ∨ s.cs p = (getParts C (R.cfg p) R.k (R.order p) (R.rnd1 p) (st p)).2 ∨
        p ∈ ps ∧ s.cs p = out.2 p) ∧
      ((assemble C R.threshold pub R.bs m.sigs m.eph = out.1 ∧ ∀ p ∈ ps, s.cs p = out.2 p) ∨
       (assemble C R.threshold pub R.bs m.sigs m.eph = .err .notEnoughCosigners ∧
        ∃ p ∈ ps, WholeMemEv.second (.call p none) ∈ es ∧ (p = R.me → ∃ e, (setPartsAndSign C (R.cfg p) R.k R.bs
          (partsFor ((mapOrder p).map fun q : Nat => ((q : Int), okParts (getParts C (R.cfg q) R.k (R.order q) (R.rnd1 q)
            (st q)).1)) (p : Int)) (R.rnd2 p) (getParts C (R.cfg p) R.k (R.order p) (R.rnd1 p) (st p)).2).1 = .err e))) := by
  obtain ⟨s0', w0, h1, h2, h3⟩ := wholeSim_start ht hR hnd st
  rw [h0] at h1; cases h1
  obtain ⟨es', a1, a2, a3⟩ := wholeSim_run (C := C) ht hR hme hids es h3
  rcases a3 with ⟨a3, -⟩ | ⟨s', w, past, a3, a4, a5⟩
  · rw [hr] at a3; cases a3
  rw [hr] at a3; cases a3
  obtain ⟨past2, ph, b1, b2⟩ := a5.second m hm
  obtain ⟨c1, c2, c3⟩ := signSim_read b2 hl
  obtain ⟨ps, mo, out, d1, d2, d3, d4, d5, d6, d7, d8, d9⟩ :=
    C118_serial C R t ht hR hnd hme hids st es' w0 w h2 a4 ph b1 c1 pub
  rw [a5.cs] at d8 d9
  rw [c2, c3] at d9
  refine ⟨ps, mo, out, d1, d2, d3, d4, d5, d6, d7, d8, ?_⟩
  rcases d9 with d9 | ⟨d9, p, d10, d11, d12⟩
  · exact .inl d9
  · exact .inr ⟨d9, p, d10, a2 p d11, d12⟩

/-- **C119.** The leader crashes only if its own cosigner does. -/
theorem C119_crash (C : Crypto) (R : RoundCfg) (t : Nat) (ht : 1 ≤ t) (hR : R.threshold = t) (hnd : R.peers.Nodup)
    (hme : R.me ∉ R.peers) (hids : ∀ p, p = R.me ∨ p ∈ R.peers → 1 ≤ p ∧ p ≤ R.total) (st : Nat → CState)
    (es : List WholeMemEv) :
    ∃ s0, WholeMem.start R st = .ok s0 ∧
      ((∃ s, s0.run C R es = .ok s) ∨ s0.run C R es = .panic ∧ OwnCrash C R t st) := by
  obtain ⟨s0, w0, h1, h2, h3⟩ := wholeSim_start ht hR hnd st
  refine ⟨s0, h1, ?_⟩
  obtain ⟨es', -, -, a3⟩ := wholeSim_run (C := C) ht hR hme hids es h3
  rcases a3 with ⟨a3, a4⟩ | ⟨s', w, past, a3, -⟩
  · obtain ⟨w0', b1, b2⟩ := C118_crash C R t ht hR hnd hme hids st es'
    rw [h2] at b1; cases b1
    rcases b2 with ⟨w, b2⟩ | ⟨-, b2⟩
    · rw [a4] at b2; cases b2
    · exact .inr ⟨a3, b2⟩
  · exact .inl ⟨s', a3⟩

section
variable {C : Crypto} {F G : Type} [Field F] [AddCommGroup G] [Module F G] {L : Lawful C F G} {pair : Bytes → Bytes → Prop}
  {n t : Nat} {cfg : Nat → CosignerCfg} {x : F} {kc : List F} {rsaPub : Nat → Bytes}

/-- **C119.** And a cluster whose cosigners have not signed for this step yet gets a signature that verifies, if the main
goroutine gets to reading the table, unless a call to a peer failed. -/
theorem C119_signs (hS : Setup C L pair n t cfg x kc rsaPub) (hn : 2 ≤ n) (R : RoundCfg) (hcfg : R.cfg = cfg)
    (hR : R.threshold = t) (htot : R.total = n) (hnd : R.peers.Nodup) (hme : R.me ∉ R.peers)
    (hids : ∀ p, p = R.me ∨ p ∈ R.peers → 1 ≤ p ∧ p ≤ n) (hk : IsI64 R.k.timestamp) (hu : unpackHRST R.bs = .ok R.k)
    (order : Nat → List Nat) (hord : ∀ p, (order p).Perm (List.range' 1 n))
    (hRo : R.order = fun p => (order p).map fun q : Nat => (q : Int))
    (hrnd : ∀ p i, ∃ sec, (R.rnd1 p i).secret = some sec ∧ sec.length = 32) (st : Nat → CState)
    (hlow : ∀ p, 1 ≤ p → p ≤ n → (st p).lss.hrs ≺ R.k.hrs) (hnew : ∀ p, 1 ≤ p → p ≤ n → (st p).hrsMeta R.k = none)
    (es : List WholeMemEv) :
    ∃ s0 s, WholeMem.start R st = .ok s0 ∧ s0.run C R es = .ok s ∧
      ∀ m, s.second = some m → m.lead = .reads ∨ m.lead = .past →
        (∃ sig, assemble C R.threshold (L.pt (x • L.B)) R.bs m.sigs m.eph = .ok sig ∧
          C.verify (L.pt (x • L.B)) R.bs sig = true) ∨
        (assemble C R.threshold (L.pt (x • L.B)) R.bs m.sigs m.eph = .err .notEnoughCosigners ∧
          ∃ p ∈ R.peers, WholeMemEv.second (.call p none) ∈ es) := by
  have ht : 1 ≤ t := hS.t_pos
  have hids' : ∀ p, p = R.me ∨ p ∈ R.peers → 1 ≤ p ∧ p ≤ R.total := by rw [htot]; exact hids
  obtain ⟨s0, w0, h1, h2, h3⟩ := wholeSim_start ht hR hnd st
  obtain ⟨es', -, a2, a3⟩ := wholeSim_run (C := C) ht hR hme hids' es h3
  obtain ⟨w0', w', b1, b2, b3⟩ := C118_signs hS hn R hcfg hR htot hnd hme hids hk hu order hord hRo hrnd st hlow hnew es'
  rw [h2] at b1; cases b1
  rcases a3 with ⟨-, a4⟩ | ⟨s, w, past, a3, a4, a5⟩
  · rw [a4] at b2; cases b2
  rw [a4] at b2; cases b2
  refine ⟨s0, s, h1, a3, fun m hm hl => ?_⟩
  obtain ⟨past2, ph, c1, c2⟩ := a5.second m hm
  obtain ⟨d1, d2, d3⟩ := signSim_read c2 hl
  have := b3 ph c1 d1
  rw [d2, d3] at this
  rcases this with h | ⟨h, p, hp, he⟩
  · exact .inl h
  · exact .inr ⟨h, p, hp, a2 p he⟩

end

theorem ownInv_start {R : RoundCfg} {st : Nat → CState} {w : Whole} (h : Whole.start R st = .ok w) : OwnInv R [] w := by
  unfold Whole.start at h
  split at h
  · rename_i g hg
    cases h
    unfold Gather.start at hg
    split at hg
    · cases hg
      exact ⟨by simp, by simp, by simp, fun p hp => .inl hp⟩
    · cases hg
    · cases hg
  · cases h
  · cases h

/-- **C119.** No schedule deadlocks: a round in which nothing can happen any more, timeouts apart, has no goroutine of a peer
left and nobody holds a lock; and it is over, the table having been read by the main goroutine or the wait given up with
every goroutine ended, or it waits for peers whose calls have all failed but for fewer than are needed. -/
theorem C119_rest (C : Crypto) (R : RoundCfg) (t : Nat) (ht : 1 ≤ t) (hR : R.threshold = t) (hnd : R.peers.Nodup)
    (hme : R.me ∉ R.peers) (hids : ∀ p, p = R.me ∨ p ∈ R.peers → 1 ≤ p ∧ p ≤ R.total) (st : Nat → CState)
    (es : List WholeMemEv) (s0 s : WholeMem) (h0 : WholeMem.start R st = .ok s0) (hr : s0.run C R es = .ok s)
    (hq : ∀ e, e ≠ .first .timeout → e ≠ .second .timeout → s.step C R e = .ok s) :
    (∀ p, s.first.peer p = .ended) ∧ s.first.locked = false ∧
    ((s.first.lead = .failed ∧ ∃ e, (getParts C (R.cfg R.me) R.k (R.order R.me) (R.rnd1 R.me) (st R.me)).1 = .err e) ∨
     s.first.lead = .timedOut ∨
     (s.first.lead = .waiting ∧ s.first.map.length < t - 1 ∧
       ∀ p ∈ R.peers, p ∈ s.first.map ∨ .first (.call p false) ∈ es) ∨
     (s.first.lead = .past ∧ ∃ m, s.second = some m ∧ m.locked = false ∧ (∀ p ∈ s.first.map, m.signer p = .ended) ∧
       (m.lead = .timedOut ∨ m.lead = .past))) := by
  obtain ⟨s0', w0, h1, h2, h3⟩ := wholeSim_start ht hR hnd st
  rw [h0] at h1; cases h1
  obtain ⟨es', a1, a2, a3⟩ := wholeSim_run (C := C) ht hR hme hids es h3
  rcases a3 with ⟨a3, -⟩ | ⟨s', w, past, a3, a4, h⟩
  · rw [hr] at a3; cases a3
  rw [hr] at a3; cases a3
  have ho := ownInv_run (ownInv_start h2) a4
  rw [List.nil_append] at ho
  obtain ⟨w0', b1, hi⟩ := wholeInv_start (C := C) ht hR hnd st
  rw [h2] at b1; cases b1
  rcases wholeInv_run ht hR hme hids es' hi with ⟨w1, past1, past2, b2, hw, -⟩ | ⟨b2, -⟩
  swap
  · rw [a4] at b2; cases b2
  rw [a4] at b2; cases b2
  -- the first half at rest
  have q1 : ∀ e, e ≠ .timeout → s.allows1 R e = true → s.first.step R.threshold R.me e = .ok s.first := by
    intro e he ha
    have hq' := hq (.first e) (by simpa using he) (by simp)
    simp only [WholeMem.step, if_pos ha] at hq'
    split at hq'
    · rename_i g hg
      simp only [Out.ok.injEq] at hq'
      have : g = s.first := congrArg WholeMem.first hq'
      rw [hg, this]
    · cases hq'
    · cases hq'
  have hmv : ∀ p (a : PeerAt) (f : GetMem), s.first.step R.threshold R.me (.peer p) = .ok f → f.peer p = a →
      s.first.peer p = a := by
    intro p a f hf ha
    have := q1 (.peer p) (by simp) rfl
    rw [hf] at this
    cases this
    exact ha
  have hlead : s.first.lead ≠ .writes ∧ s.first.lead ≠ .unlocks := by
    constructor <;> intro hl
    · have := q1 .lead (by simp) rfl
      simp only [GetMem.step, hl, Out.ok.injEq] at this
      have := congrArg GetMem.lead this
      simp [hl] at this
    · have := q1 .lead (by simp) rfl
      simp only [GetMem.step, hl, Out.ok.injEq] at this
      have := congrArg GetMem.lead this
      simp [hl] at this
  have hpeer : ∀ p, s.first.peer p = .locks ∨ s.first.peer p = .ended := by
    intro p
    cases hp : s.first.peer p with
    | locks => exact .inl rfl
    | ended => exact .inr rfl
    | calling =>
      have := q1 (.call p false) (by simp) rfl
      simp only [GetMem.step, if_pos hp, Bool.false_eq_true, if_false, Out.ok.injEq] at this
      have := congrFun (congrArg GetMem.peer this) p
      simp [GetMem.at, hp] at this
    | tests =>
      by_cases hc : (s.first.map.length : Int) < R.threshold - 1
      · have := hmv p .writes (s.first.at p .writes) (by simp only [GetMem.step, GetMem.peerStep, hp]; rw [if_pos hc])
          (by simp [GetMem.at])
        rw [hp] at this; cases this
      · have := hmv p (.unlocks false) (s.first.at p (.unlocks false))
          (by simp only [GetMem.step, GetMem.peerStep, hp]; rw [if_neg hc]) (by simp [GetMem.at])
        rw [hp] at this; cases this
    | writes =>
      have := hmv p (.unlocks true) _ (by simp only [GetMem.step, GetMem.peerStep, hp]; rfl) (by simp [GetMem.at])
      rw [hp] at this; cases this
    | unlocks b =>
      have := hmv p (if b then .finishes else .ended) _ (by simp only [GetMem.step, GetMem.peerStep, hp]; rfl)
        (by simp [GetMem.at])
      rw [hp] at this; cases b <;> cases this
    | finishes =>
      have := q1 (.peer p) (by simp) rfl
      simp only [GetMem.step, GetMem.peerStep, hp] at this
      split at this
      · cases this
      · simp only [Out.ok.injEq] at this
        have := congrFun (congrArg GetMem.peer this) p
        simp [GetMem.at, hp] at this
  have hunl : s.first.locked = false := by
    cases hl : s.first.locked with
    | false => rfl
    | true =>
      rcases h.lock hl with ⟨p, hp⟩ | hp
      · rcases hpeer p with h' | h' <;> rw [h'] at hp <;> cases hp
      · cases hl' : s.first.lead <;> rw [hl'] at hp <;> first | exact absurd hl' hlead.1 | exact absurd hl' hlead.2 | cases hp
  have hend : ∀ p, s.first.peer p = .ended := by
    intro p
    rcases hpeer p with hp | hp
    · have := hmv p .tests _ (by simp only [GetMem.step, GetMem.peerStep, hp]; rw [if_neg (by rw [hunl]; simp)])
        (by simp [GetMem.at])
      rw [hp] at this; cases this
    · exact hp
  have hasked : w.first.asked = [] := by
    rw [List.eq_nil_iff_forall_not_mem]
    intro p hp
    rw [h.first.asked, hend p] at hp; cases hp
  have hdue : w.first.shared.due = [] := by
    rw [List.eq_nil_iff_forall_not_mem]
    intro p hp
    rw [h.first.due, hend p] at hp; cases hp
  refine ⟨hend, hunl, ?_⟩
  cases hm : s.first.lead with
  | writes => exact absurd hm hlead.1
  | unlocks => exact absurd hm hlead.2
  | failed =>
    obtain ⟨e, he⟩ := ho.failed (by rw [h.first.main, hm]; rfl)
    refine .inl ⟨rfl, e, ?_⟩
    have := hw.got _ _ he
    rw [this]; rfl
  | timedOut => exact .inr (.inl rfl)
  | locks =>
    exfalso
    have := q1 .lead (by simp) rfl
    simp only [GetMem.step, hm] at this
    rw [if_neg (by rw [hunl]; simp)] at this
    simp only [Out.ok.injEq] at this
    have := congrArg GetMem.lead this
    simp [hm] at this
  | making =>
    exfalso
    cases hg : s.got R.me with
    | none =>
      have hq' := hq (.serveGet R.me) (by simp) (by simp)
      simp only [WholeMem.step, hg, true_or, and_self, if_true] at hq'
      split at hq'
      · cases hq'
      · simp only [Out.ok.injEq] at hq'
        have := congrFun (congrArg WholeMem.got hq') R.me
        simp [hg] at this
    | some r =>
      cases r with
      | ok l =>
        have := q1 (.own true) (by simp) (by simp [WholeMem.allows1, hg])
        simp only [GetMem.step, hm, if_true, Out.ok.injEq] at this
        have := congrArg GetMem.lead this
        simp [hm] at this
      | err x =>
        have := q1 (.own false) (by simp) (by simp [WholeMem.allows1, hg])
        simp only [GetMem.step, hm, if_true, Bool.false_eq_true, if_false, Out.ok.injEq] at this
        have := congrArg GetMem.lead this
        simp [hm] at this
      | panic => exact ho.got (by rw [h.got]; exact hg)
  | waiting =>
    refine .inr (.inr (.inl ⟨rfl, ?_⟩))
    have hwt : s.first.waiter = true := by
      cases hw : s.first.waiter with
      | true => rfl
      | false =>
        have := q1 .select (by simp) rfl
        simp only [GetMem.step, hm, hw, and_self, if_true, Out.ok.injEq] at this
        have := congrArg GetMem.lead this
        simp [hm] at this
    have hc : s.first.counter ≠ 0 := by
      intro hc
      have := q1 .woken (by simp) rfl
      simp only [GetMem.step, hwt, hc, and_self, if_true, Out.ok.injEq] at this
      have := congrArg GetMem.waiter this
      simp [hwt] at this
    have hmain : w.first.main = .waiting := by rw [h.first.main, hm]; rfl
    have hnp : w.first.shared.proceeded = false := by
      cases hp : w.first.shared.proceeded with
      | false => rfl
      | true => have := hw.gather.late.1 hp; rw [hmain] at this; cases this
    have hj := hw.gather.shared.joined
    have hct := hw.gather.shared.counter
    rw [hnp] at hj
    simp only [Bool.false_eq_true, if_false, List.append_nil] at hj
    rw [← hj, hdue] at hct
    have hle : w.first.shared.joined.length ≤ t - 1 := by rw [hj, List.length_take]; omega
    simp only [List.length_nil, Nat.cast_zero, add_zero] at hct
    rw [h.first.counter] at hct
    have hlt : w.first.shared.joined.length < t - 1 := by omega
    rw [h.first.map] at hlt
    refine ⟨hlt, fun p hp => ?_⟩
    have hl := ho.lost p hp
    rw [h.first.map, hasked] at hl
    rcases hl with h' | h' | h' | h'
    · cases h'
    · exact .inr (a1 p h')
    · exact .inl h'
    · rw [hR] at h'; omega
  | past =>
    refine .inr (.inr (.inr ⟨rfl, ?_⟩))
    cases hsec : s.second with
    | none =>
      exfalso
      have hq' := hq (.begin s.first.map) (by simp) (by simp)
      simp only [WholeMem.step] at hq'
      rw [if_pos ⟨hm, by rw [hsec]; rfl, List.Perm.refl _⟩] at hq'
      split at hq'
      · simp only [Out.ok.injEq] at hq'
        have := congrArg WholeMem.second hq'
        simp [hsec] at this
      · cases hq'
      · cases hq'
    | some m =>
      obtain ⟨past3, ph, hph, hsim⟩ := h.second m hsec
      have q2 : ∀ e, e ≠ .timeout → s.allows2 R e = true → m.step R.me e = .ok m := by
        intro e he ha
        have hq' := hq (.second e) (by simp) (by simpa using he)
        simp only [WholeMem.step, hsec, if_pos ha] at hq'
        split at hq'
        · rename_i g hg
          simp only [Out.ok.injEq] at hq'
          have : some g = some m := (congrArg WholeMem.second hq').trans hsec
          cases this
          exact hg
        · cases hq'
        · cases hq'
      have hmv2 : ∀ p (a : SignAt) (f : SignMem), m.step R.me (.signer p) = .ok f → f.signer p = a → m.signer p = a := by
        intro p a f hf ha
        have := q2 (.signer p) (by simp) rfl
        rw [hf] at this
        cases this
        exact ha
      have hcall : ∀ p, s.allows2 R (.call p none) = true → m.signer p ≠ .calling := by
        intro p ha hp
        have := q2 (.call p none) (by simp) ha
        simp only [SignMem.step, if_pos hp, Out.ok.injEq] at this
        have := congrFun (congrArg SignMem.signer this) p
        simp [SignMem.at, hp] at this
      have hsig : ∀ p, (∃ r, m.signer p = .locks r) ∨ m.signer p = .absent ∨ m.signer p = .ended := by
        intro p
        cases hp : m.signer p with
        | locks r => exact .inl ⟨r, rfl⟩
        | absent => exact .inr (.inl rfl)
        | ended => exact .inr (.inr rfl)
        | reads =>
          have := hmv2 p .calling _ (by simp only [SignMem.step, SignMem.signerStep, hp]; rfl) (by simp [SignMem.at])
          rw [hp] at this; cases this
        | calling =>
          exfalso
          by_cases hpm : p = R.me
          · cases ha : s.ans p with
            | none =>
              have hq' := hq (.serveSign p s.first.map) (by simp) (by simp)
              simp only [WholeMem.step] at hq'
              rw [if_pos ⟨by simp [WholeMem.called, hsec, hp], List.Perm.refl _, ha⟩] at hq'
              split at hq'
              · cases hq'
              · simp only [Out.ok.injEq] at hq'
                have := congrFun (congrArg WholeMem.ans hq') p
                simp [ha] at this
            | some r =>
              cases r with
              | ok r =>
                have := q2 (.call p (some r)) (by simp) (by simp [WholeMem.allows2, ha])
                simp only [SignMem.step, if_pos hp, Out.ok.injEq] at this
                have := congrFun (congrArg SignMem.signer this) p
                simp [SignMem.at, hp] at this
              | err x => exact hcall p (by simp [WholeMem.allows2, ha]) hp
              | panic => exact ho.ans (by rw [h.ans, ← hpm]; exact ha)
          · exact hcall p (by simp [WholeMem.allows2, hpm]) hp
        | writesTable r =>
          exfalso
          have := q2 (.signer p) (by simp) rfl
          simp only [SignMem.step, SignMem.signerStep, hp] at this
          split at this
          · cases this
          · simp only [Out.ok.injEq] at this
            have := congrFun (congrArg SignMem.signer this) p
            simp only [SignMem.at, if_true, hp] at this
            split at this <;> cases this
        | writesEph r =>
          have := hmv2 p .unlocks _ (by simp only [SignMem.step, SignMem.signerStep, hp]; rfl) (by simp [SignMem.at])
          rw [hp] at this; cases this
        | unlocks =>
          have := hmv2 p .finishes _ (by simp only [SignMem.step, SignMem.signerStep, hp]; rfl) (by simp [SignMem.at])
          rw [hp] at this; cases this
        | finishes =>
          have := q2 (.signer p) (by simp) rfl
          simp only [SignMem.step, SignMem.signerStep, hp] at this
          split at this
          · cases this
          · simp only [Out.ok.injEq] at this
            have := congrFun (congrArg SignMem.signer this) p
            simp [SignMem.at, hp] at this
      have hunl2 : m.locked = false := by
        cases hl : m.locked with
        | false => rfl
        | true =>
          obtain ⟨p, hp⟩ := h.lock2 m hsec hl
          rcases hsig p with ⟨r, h'⟩ | h' | h' <;> rw [h'] at hp <;> cases hp
      have hrest : ∀ l, m.lead ≠ .spawns l := by
        intro l hl
        have := q2 .lead (by simp) rfl
        cases l with
        | nil =>
          simp only [SignMem.step, hl, Out.ok.injEq] at this
          have := congrArg SignMem.lead this
          simp [hl] at this
        | cons p l =>
          simp only [SignMem.step, hl, Out.ok.injEq] at this
          have := congrArg SignMem.lead this
          simp [hl] at this
      have hend2 : ∀ p ∈ s.first.map, m.signer p = .ended := by
        intro p hp
        rcases hsig p with ⟨r, h'⟩ | h' | h'
        · have := hmv2 p (.writesTable r) _
            (by simp only [SignMem.step, SignMem.signerStep, h']; rw [if_neg (by rw [hunl2]; simp)]) (by simp [SignMem.at])
          rw [h'] at this; cases this
        · have := h.started m hsec p hp h'
          cases hl : m.lead with
          | spawns l => exact absurd hl (hrest l)
          | _ => rw [hl] at this; cases this
        · exact h'
      refine ⟨m, rfl, hunl2, hend2, ?_⟩
      have hask2 : ph.asked = [] := by
        rw [List.eq_nil_iff_forall_not_mem]
        intro p hp
        have hpm := ((hsim.inv.asked p).1 hp).1
        rcases (hsim.asked p).1 hp with h' | h'
        · rw [hend2 p hpm] at h'; cases h'
        · have := hsim.rest p h'
          rw [hend2 p hpm] at this; cases this
      have hdue2 : ph.due = [] := by
        rw [List.eq_nil_iff_forall_not_mem]
        intro p hp
        have hpm := (hsim.inv.due p hp).1
        have := (hsim.due p).1 hp
        rw [hend2 p hpm] at this; cases this
      have hc0 : m.counter = 0 := by rw [← hsim.counter, hsim.inv.counter, hask2, hdue2]; rfl
      cases hl : m.lead with
      | spawns l => exact absurd hl (hrest l)
      | timedOut => exact .inl rfl
      | past => exact .inr rfl
      | reads =>
        exfalso
        have := q2 .lead (by simp) rfl
        simp only [SignMem.step, hl, Out.ok.injEq] at this
        have := congrArg SignMem.lead this
        simp [hl] at this
      | waiting =>
        exfalso
        cases hwt : m.waiter with
        | true =>
          have := q2 .woken (by simp) rfl
          simp only [SignMem.step, hwt, hc0, and_self, if_true, Out.ok.injEq] at this
          have := congrArg SignMem.waiter this
          simp [hwt] at this
        | false =>
          have := q2 .select (by simp) rfl
          simp only [SignMem.step, hl, hwt, and_self, if_true, Out.ok.injEq] at this
          have := congrArg SignMem.lead this
          simp [hl] at this

/-- The call to `p` returns what the cosigner answers. -/
def memAnswer (p : Nat) (ord : List Nat) : SignMemEv :=
  match (signOf ftoy wholeDemo (fun _ => CState.start .empty) p ord).1 with
  | .ok r => .call p (some r)
  | _ => .call p none

/-- The round `wholeEvs` access by access: peer 2 answers late, while 3 signs, finds the map full and ends. -/
def wholeMemEvs : List WholeMemEv :=
  [.serveGet 1, .first (.call 1 true), .first (.peer 1), .serveGet 3, .first (.own true), .first (.peer 1), .first (.peer 1),
   .first (.peer 1), .first (.peer 1), .first .woken, .first .select, .first .lead, .first .lead, .first .lead, .begin [3, 1],
   .second .lead, .second (.signer 3), .second .lead, .serveSign 3 [1, 3], .serveGet 2, .second .lead,
   .second (memAnswer 3 [1, 3]), .first (.call 2 true), .second (.signer 3), .second (.signer 3), .second (.signer 3),
   .second (.signer 3), .first (.peer 2), .first (.peer 2), .first (.peer 2), .second (.signer 3), .second (.signer 1),
   .serveSign 1 [3, 1], .second (memAnswer 1 [3, 1]), .second (.signer 1), .second (.signer 1), .second (.signer 1),
   .second (.signer 1), .second .woken, .second .select, .second .lead]

/-- Concretely: the main goroutine gets past reading the table, no call having failed, so there is a signature that verifies. -/
example : (∃ s0 s m, WholeMem.start wholeDemo (fun _ => CState.start .empty) = .ok s0 ∧
    s0.run ftoy wholeDemo wholeMemEvs = .ok s ∧ s.second = some m ∧ m.lead = .past ∧ s.first.map = [1, 3]) ∧
    ∀ p, WholeMemEv.second (.call p none) ∉ wholeMemEvs := by
  constructor
  · have h : (match WholeMem.start wholeDemo (fun _ => CState.start .empty) with
        | .ok s0 => match s0.run ftoy wholeDemo wholeMemEvs with
          | .ok s => match s.second with
            | some m => decide (m.lead = .past ∧ s.first.map = [1, 3])
            | none => false
          | _ => false
        | _ => false) = true := by decide +kernel
    split at h
    · next s0 h0 =>
      split at h
      · next s h1 =>
        split at h
        · next m h2 =>
          simp only [decide_eq_true_eq] at h
          exact ⟨s0, s, m, h0, h1, h2, h⟩
        · cases h
      · cases h
    · cases h
  · have e1 : (match memAnswer 3 [1, 3] with | .call _ (some _) => true | _ => false) = true := by decide +kernel
    have e2 : (match memAnswer 1 [3, 1] with | .call _ (some _) => true | _ => false) = true := by decide +kernel
    intro p hp
    simp only [wholeMemEvs, List.mem_cons, reduceCtorEq, WholeMemEv.second.injEq, List.not_mem_nil, or_false, false_or] at hp
    rcases hp with hp | hp
    · rw [← hp] at e1; cases e1
    · rw [← hp] at e2; cases e2

/-- A goroutine that has ended, or never was, stays so. -/
theorem wholeMem_ended {C : Crypto} {R : RoundCfg} {p : Nat} {es : List WholeMemEv} {s s' : WholeMem}
    (h : s.first.peer p = .ended) (hr : s.run C R es = .ok s') : s'.first.peer p = .ended := by
  induction es generalizing s with
  | nil => cases hr; exact h
  | cons e es ih =>
    simp only [WholeMem.run] at hr
    split at hr
    · rename_i s1 h1
      refine ih ?_ hr
      cases e with
      | first e =>
        simp only [WholeMem.step] at h1
        split at h1
        · split at h1
          · rename_i g hg
            cases h1
            show g.peer p = .ended
            cases e with
            | call q ok =>
              simp only [GetMem.step] at hg
              split at hg
              · rename_i hq
                cases hg
                have : p ≠ q := by rintro rfl; rw [h] at hq; cases hq
                simp [GetMem.at, this, h]
              · cases hg; exact h
            | peer q =>
              by_cases hpq : p = q
              · subst hpq; simp only [GetMem.step, GetMem.peerStep, h] at hg; cases hg; exact h
              · simp only [GetMem.step, GetMem.peerStep] at hg
                (repeat' split at hg) <;> cases hg <;> simp [GetMem.at, hpq, h]
            | _ => simp only [GetMem.step] at hg; (repeat' split at hg) <;> cases hg <;> exact h
          · cases h1
          · cases h1
        · cases h1; exact h
      | _ => simp only [WholeMem.step] at h1; (repeat' split at h1) <;> cases h1 <;> exact h
    · cases hr
    · cases hr

/-- Concretely: after `wholeMemEvs` nothing can happen any more. -/
example : ∃ s0 s, WholeMem.start wholeDemo (fun _ => CState.start .empty) = .ok s0 ∧
    s0.run ftoy wholeDemo wholeMemEvs = .ok s ∧ ∀ e, s.step ftoy wholeDemo e = .ok s := by
  have h : (match WholeMem.start wholeDemo (fun _ => CState.start .empty) with
      | .ok s0 => match s0.run ftoy wholeDemo wholeMemEvs with
        | .ok s => match s.second with
          | some m => decide (m.signer 1 = .ended ∧ m.signer 3 = .ended ∧ m.lead = .past ∧ m.waiter = false) &&
              decide (s.first.peer 1 = .ended ∧ s.first.peer 2 = .ended ∧ s.first.lead = .past ∧ s.first.waiter = false ∧
                s.first.map = [1, 3]) &&
              ((s.got 1).isSome && (s.got 2).isSome && (s.got 3).isSome && (s.ans 1).isSome && (s.ans 3).isSome)
          | none => false
        | _ => false
      | _ => false) = true := by decide +kernel
  obtain ⟨s0, w0, h0, h00, hsim⟩ := wholeSim_start (R := wholeDemo) (t := 2) (by decide) rfl (by decide)
    (fun _ => CState.start .empty)
  rw [h0] at h
  simp only at h
  split at h
  · next s h1 =>
    split at h
    · next m h2 =>
      simp only [Bool.and_eq_true, decide_eq_true_eq] at h
      obtain ⟨⟨⟨a1, a2, a3, a4⟩, b1, b2, b3, b4, b5⟩, ⟨⟨⟨c1, c2⟩, c3⟩, c4⟩, c5⟩ := h
      obtain ⟨es', -, -, d⟩ := wholeSim_run (C := ftoy) (R := wholeDemo) (t := 2) (by decide) rfl (by decide)
        (by intro p hp; simp only [wholeDemo, List.mem_cons, List.not_mem_nil, or_false] at hp ⊢; omega) wholeMemEvs hsim
      rcases d with ⟨d, -⟩ | ⟨s', w, past, d1, -, d3⟩
      · rw [h1] at d; cases d
      rw [h1] at d1; cases d1
      have hpeer : ∀ p, s.first.peer p = .ended := by
        intro p
        by_cases hp1 : p = 1
        · subst hp1; exact b1
        by_cases hp2 : p = 2
        · subst hp2; exact b2
        refine wholeMem_ended ?_ h1
        unfold WholeMem.start GetMem.start at h0
        cases h0
        simp [wholeDemo, hp1, hp2]
      have hsig : ∀ p, m.signer p = .absent ∨ m.signer p = .ended := by
        intro p
        by_cases hp : m.signer p = .absent
        · exact .inl hp
        · have := d3.within m h2 p hp
          rw [b5] at this
          simp only [List.mem_cons, List.not_mem_nil, or_false] at this
          rcases this with rfl | rfl
          · exact .inr a1
          · exact .inr a2
      refine ⟨s0, s, h0, h1, fun e => ?_⟩
      cases e with
      | serveGet p =>
        simp only [WholeMem.step]
        rw [if_neg]
        rintro ⟨hp, hg⟩
        simp only [wholeDemo, List.mem_cons, List.not_mem_nil, or_false] at hp
        rcases hp with rfl | rfl | rfl
        · rw [hg] at c3; cases c3
        · rw [hg] at c1; cases c1
        · rw [hg] at c2; cases c2
      | first e =>
        have hg : s.first.step wholeDemo.threshold wholeDemo.me e = .ok s.first := by
          cases e <;> simp [GetMem.step, GetMem.peerStep, hpeer, b3, b4]
        simp only [WholeMem.step, hg]
        split <;> rfl
      | begin ord => simp [WholeMem.step, h2]
      | serveSign p ord =>
        simp only [WholeMem.step]
        rw [if_neg]
        rintro ⟨hc, -, hg⟩
        have hp : p = 1 ∨ p = 3 := by
          have := d3.within m h2 p (by
            intro hab
            simp [WholeMem.called, h2, hab] at hc)
          rw [b5] at this
          simpa using this
        rcases hp with rfl | rfl
        · rw [hg] at c4; cases c4
        · rw [hg] at c5; cases c5
      | second e =>
        have hg : m.step wholeDemo.me e = .ok m := by
          cases e with
          | call p r => rcases hsig p with hp | hp <;> simp [SignMem.step, hp]
          | signer p => rcases hsig p with hp | hp <;> simp [SignMem.step, SignMem.signerStep, hp]
          | _ => simp [SignMem.step, a3, a4]
        simp only [WholeMem.step, h2, hg]
        rw [← h2]
        split <;> rfl
    · cases h
  · cases h

/-- **C119.** The round begins exactly with a threshold of at least one; with any other the leader crashes at once (line 368, as in
`C31_threshold_zero`). -/
theorem C119_threshold (R : RoundCfg) (cs : Nat → CState) :
    (1 ≤ R.threshold → ∃ s, WholeMem.start R cs = .ok s ∧ s.cs = cs ∧ s.first.map = []) ∧
    (R.threshold ≤ 0 → WholeMem.start R cs = .panic) := by
  unfold WholeMem.start GetMem.start
  constructor
  · intro h
    rw [if_neg (by omega)]
    exact ⟨_, rfl, rfl, rfl⟩
  · intro h
    rw [if_pos (by omega)]

example : WholeMem.start { wholeDemo with threshold := 0 } (fun _ => CState.start .empty) = .panic ∧
    ∃ s, WholeMem.start { wholeDemo with threshold := 1 } (fun _ => CState.start .empty) = .ok s :=
  ⟨(C119_threshold _ _).2 (by decide), (((C119_threshold _ _).1 (by decide)).imp fun _ h => h.1)⟩

end Horcrux
