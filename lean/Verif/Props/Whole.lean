import Verif.Props.SignPhase
import Verif.Lemmas.Whole
import Verif.Lemmas.Cluster
import Verif.Props.Retry
/-
Property C118: a signing round with all its goroutines comes out as if the cosigners were asked one after the other.
-/
namespace Horcrux
open Spec

theorem failed_of_outcome {p : Nat} : ∀ {l : List SignEv}, outcomeOf p l = some none → SignEv.failed p ∈ l
  | [], h => by cases h
  | .failed q :: l, h => by
    simp only [outcomeOf] at h
    by_cases hq : q = p
    · subst hq; simp
    · rw [if_neg hq] at h; exact List.mem_cons_of_mem _ (failed_of_outcome h)
  | .answered q r :: l, h => by
    simp only [outcomeOf] at h
    by_cases hq : q = p
    · rw [if_pos hq] at h; cases h
    · rw [if_neg hq] at h; exact List.mem_cons_of_mem _ (failed_of_outcome h)
  | .done _ :: l, h => List.mem_cons_of_mem _ (failed_of_outcome (l := l) h)
  | .proceed :: l, h => List.mem_cons_of_mem _ (failed_of_outcome (l := l) h)
  | .timeout :: l, h => List.mem_cons_of_mem _ (failed_of_outcome (l := l) h)

/-- A table with entries of exactly `ps` at most, and none of `p`, has fewer than `ps.length`. -/
theorem collectSigs_missing {total : Nat} {ps : List Nat} {f : Nat → Bytes} {p : Nat} (hp : p ∈ ps) (hf : f p = []) :
    (collectSigs 0 ((List.range total).map fun i => if i + 1 ∈ ps then f (i + 1) else [])).1.length < ps.length := by
  obtain ⟨h1, h2⟩ := collectSigs_ids ((List.range total).map fun i => if i + 1 ∈ ps then f (i + 1) else []) 0
  generalize hids : (collectSigs 0 ((List.range total).map fun i => if i + 1 ∈ ps then f (i + 1) else [])).1 = ids at h1 h2
  have hsub : ids ⊆ ps.erase p := by
    intro i hi
    obtain ⟨g1, b, g2, g3⟩ := h2 i hi
    have hlt : i - 1 - 0 < total := by
      by_contra hc
      rw [List.getElem?_eq_none (by simpa using hc)] at g2
      cases g2
    rw [List.getElem?_map, List.getElem?_range hlt] at g2
    simp only [Option.map_some, Option.some.injEq] at g2
    have he : i - 1 - 0 + 1 = i := by omega
    rw [he] at g2
    by_cases hip : i ∈ ps
    · rw [if_pos hip] at g2
      have hne : i ≠ p := by rintro rfl; rw [hf] at g2; subst g2; exact g3 rfl
      exact (List.mem_erase_of_ne hne).2 hip
    · rw [if_neg hip] at g2; subst g2; exact absurd rfl g3
  have hle := (h1.subperm hsub).length_le
  rw [List.length_erase_of_mem hp] at hle
  have := List.length_pos_of_mem hp
  omega

/-- C118: however the goroutines of a signing round are scheduled, whichever calls fail, whichever answers are late, and in
whatever order each goroutine goes through the map: if the round gets to assembling a signature, there are `t` participants,
the leader among them, that all answered the request for parts, such that what comes of it is what comes of asking these
participants one after the other for their parts and then one after the other to sign (`signRound`), or else a participant's
call to sign failed (the leader's own only because its cosigner refused) and the round reports that there are not enough
cosigners. In the first case the participants are left in
the same states; no cosigner is ever left in any state but the one before the round, the one after the request for parts, or
(participants only) that after asking one after the other. -/
theorem C118_serial (C : Crypto) (R : RoundCfg) (t : Nat) (ht : 1 ≤ t) (hR : R.threshold = t) (hnd : R.peers.Nodup)
    (hme : R.me ∉ R.peers) (hids : ∀ p, p = R.me ∨ p ∈ R.peers → 1 ≤ p ∧ p ≤ R.total) (st : Nat → CState)
    (es : List WholeEv) (s0 s : Whole) (h0 : Whole.start R st = .ok s0) (hr : s0.run C R es = .ok s)
    (ph : SignPhase) (hph : s.second = some ph) (hen : ph.ended = some true) (pub : Bytes) :
    ∃ (ps : List Nat) (mapOrder : Nat → List Nat) (out : Out Bytes × (Nat → CState)),
      signRound C R.cfg ps R.me R.threshold R.total pub R.k R.bs R.order mapOrder R.rnd1 R.rnd2 st = out ∧
      ps.Nodup ∧ ps.length = t ∧ R.me ∈ ps ∧ (∀ p ∈ ps, p = R.me ∨ p ∈ R.peers) ∧ (∀ p, (mapOrder p).Perm ps) ∧
      (∀ p ∈ ps, ∃ l, (getParts C (R.cfg p) R.k (R.order p) (R.rnd1 p) (st p)).1 = .ok l) ∧
      (∀ p, s.cs p = st p ∨ s.cs p = (getParts C (R.cfg p) R.k (R.order p) (R.rnd1 p) (st p)).2 ∨
        p ∈ ps ∧ s.cs p = out.2 p) ∧
      ((assemble C R.threshold pub R.bs ph.sigs ph.eph = out.1 ∧ ∀ p ∈ ps, s.cs p = out.2 p) ∨
       (assemble C R.threshold pub R.bs ph.sigs ph.eph = .err .notEnoughCosigners ∧
        ∃ p ∈ ps, WholeEv.second (.failed p) ∈ es ∧ (p = R.me → ∃ e, (setPartsAndSign C (R.cfg p) R.k R.bs
          (partsFor ((mapOrder p).map fun q : Nat => ((q : Int), okParts (getParts C (R.cfg q) R.k (R.order q) (R.rnd1 q)
            (st q)).1)) (p : Int)) (R.rnd2 p) (getParts C (R.cfg p) R.k (R.order p) (R.rnd1 p) (st p)).2).1 = .err e))) := by
  obtain ⟨s0', h0', hi⟩ := wholeInv_start (C := C) ht hR hnd st
  rw [h0] at h0'; cases h0'
  rcases wholeInv_run ht hR hme hids es hi with ⟨s', past1, past2, g1, h, g3⟩ | ⟨g1, _⟩
  swap
  · rw [hr] at g1; cases g1
  rw [hr] at g1; cases g1
  have hmp : R.me ∉ past1 := fun hc => hme (h.past _ hc).1
  obtain ⟨hm, hp⟩ := h.second ph hph
  obtain ⟨j1, j2, j3, j4⟩ := gatherInv_joined ht h.gather hmp hm
  have hj5 : ∀ p ∈ s.first.shared.joined, p = R.me ∨ p ∈ R.peers := by
    intro q hq
    rcases j4 q hq with h' | h'
    · exact .inl h'
    · exact .inr (h.past q h').1
  have horder : ∀ p, ∃ ord : List Nat, ord.Perm s.first.shared.joined ∧
      ∀ a, s.ans p = some a → signOf C R st p ord = (a, s.cs p) := by
    intro p
    cases ha : s.ans p with
    | none => exact ⟨_, List.Perm.refl _, by simp⟩
    | some a =>
      obtain ⟨_, _, ord, o1, o2⟩ := h.signed p a ha
      exact ⟨ord, o1, fun b hb => by cases hb; exact o2⟩
  choose mapOrder hperm hord using horder
  generalize hps : s.first.shared.joined = ps at *
  have hcs : ∀ p ∈ ps, (signRound C R.cfg ps R.me R.threshold R.total pub R.k R.bs R.order mapOrder R.rnd1 R.rnd2 st).2 p =
      (signOf C R st p (mapOrder p)).2 := by
    intro p hp
    show (if p ∈ ps then (signOf C R st p (mapOrder p)).2 else st p) = _
    rw [if_pos hp]
  have hdone : ∀ p ∈ ps, outcomeOf p past2 ≠ none := by
    intro p hpp hn
    have := (hp.asked p).2 ⟨hpp, hn⟩
    rw [(hp.ended hen).1] at this; cases this
  refine ⟨ps, mapOrder, _, rfl, j1, j2, j3, hj5, hperm, fun p hpp => ?_, ?_, ?_⟩
  · exact (h.parts ht hme hm p (by rw [hps]; exact hpp)).2.1
  · intro p
    cases ha : s.ans p with
    | none =>
      have := h.quiet p ha
      by_cases hg : s.got p = none
      · rw [if_pos hg] at this; exact .inl this
      · rw [if_neg hg] at this; exact .inr (.inl this)
    | some a =>
      have hpp := (h.signed p a ha).2.1
      rw [hps] at hpp
      exact .inr (.inr ⟨hpp, by rw [hcs p hpp, hord p a ha]⟩)
  · by_cases hfail : ∃ p ∈ ps, outcomeOf p past2 = some none
    · right
      obtain ⟨p, hpp, hf⟩ := hfail
      refine ⟨?_, p, hpp, (g3 _ (failed_of_outcome hf)).resolve_left (by simp), ?_⟩
      rotate_left
      · rintro rfl
        obtain ⟨e, he⟩ := h.ownFails (failed_of_outcome hf)
        have := hord _ _ he
        unfold signOf gotOf at this
        exact ⟨e, by rw [this]⟩
      have := collectSigs_missing (total := R.total) (f := fun i => sigIn (outcomeOf i past2)) hpp (by rw [hf]; rfl)
      unfold assemble
      simp only [hp.sigs]
      rw [if_pos (by rw [hR]; omega)]
    · left
      have hok : ∀ p ∈ ps, ∃ r, outcomeOf p past2 = some (some r) ∧ s.ans p = some (.ok r) := by
        intro p hpp
        cases ho : outcomeOf p past2 with
        | none => exact absurd ho (hdone p hpp)
        | some o =>
          cases o with
          | none => exact absurd ⟨p, hpp, ho⟩ hfail
          | some r => exact ⟨r, rfl, h.answers p r (answered_of_outcome ho)⟩
      have hres : ∀ p ∈ ps, ∃ r, outcomeOf p past2 = some (some r) ∧ (signOf C R st p (mapOrder p)) = (.ok r, s.cs p) := by
        intro p hpp
        obtain ⟨r, h1, h2⟩ := hok p hpp
        exact ⟨r, h1, hord p _ h2⟩
      have hsigs : ph.sigs = shareArray R.total ps (fun p => (signOf C R st p (mapOrder p)).1) := by
        rw [hp.sigs]
        unfold shareArray
        refine List.map_congr_left fun i _ => ?_
        by_cases hip : i + 1 ∈ ps
        · obtain ⟨r, h1, h2⟩ := hres _ hip
          simp only [if_pos hip, h1, h2]; rfl
        · rw [if_neg hip, if_neg hip]
      have heph : ph.eph = match (signOf C R st R.me (mapOrder R.me)).1 with | .ok r => r.ephemeralPublic.bytes | _ => [] := by
        rw [hp.eph, if_pos j3]
        obtain ⟨r, h1, h2⟩ := hres _ j3
        rw [h1, h2]; rfl
      refine ⟨by rw [hsigs, heph]; rfl, fun p hpp => ?_⟩
      obtain ⟨r, _, h2⟩ := hres p hpp
      rw [hcs p hpp, h2]

/-- C118: no schedule crashes the leader, except through its own cosigner. -/
theorem C118_crash (C : Crypto) (R : RoundCfg) (t : Nat) (ht : 1 ≤ t) (hR : R.threshold = t) (hnd : R.peers.Nodup)
    (hme : R.me ∉ R.peers) (hids : ∀ p, p = R.me ∨ p ∈ R.peers → 1 ≤ p ∧ p ≤ R.total) (st : Nat → CState)
    (es : List WholeEv) :
    ∃ s0, Whole.start R st = .ok s0 ∧ ((∃ s, s0.run C R es = .ok s) ∨ s0.run C R es = .panic ∧ OwnCrash C R t st) := by
  obtain ⟨s0, h0, hi⟩ := wholeInv_start (C := C) ht hR hnd st
  refine ⟨s0, h0, ?_⟩
  rcases wholeInv_run ht hR hme hids es hi with ⟨s', _, _, g1, _, _⟩ | h
  · exact .inl ⟨s', g1⟩
  · exact .inr h

section
variable {C : Crypto} {F G : Type} [Field F] [AddCommGroup G] [Module F G] {L : Lawful C F G}
  {pair : Bytes → Bytes → Prop} {n t : Nat} {cfg : Nat → CosignerCfg} {x : F} {kc : List F} {rsaPub : Nat → Bytes}

/-- In a cluster of honest cosigners, asking them one after the other, every one of them answers. -/
theorem honest_answers (hS : Setup C L pair n t cfg x kc rsaPub) (hn : 2 ≤ n) {ps : List Nat} (hnd : ps.Nodup)
    (hps : ∀ p ∈ ps, 1 ≤ p ∧ p ≤ n) (hlen : ps.length = t) {leader : Nat} (hleader : leader ∈ ps) {k : HRST}
    (hk : IsI64 k.timestamp) {bs : Bytes} (hu : unpackHRST bs = .ok k) {order : Nat → List Nat}
    (hord : ∀ p, (order p).Perm (List.range' 1 n)) {mapOrder : Nat → List Nat} (hmap : ∀ p, (mapOrder p).Perm ps)
    {rnd1 rnd2 : Nat → Nat → Rand} (hrnd : ∀ p i, ∃ sec, (rnd1 p i).secret = some sec ∧ sec.length = 32)
    {st : Nat → CState} (hlow : ∀ p ∈ ps, (st p).lss.hrs ≺ k.hrs) (hnew : ∀ p ∈ ps, (st p).hrsMeta k = none)
    {p : Nat} (hp : p ∈ ps) :
    ∃ r, (setPartsAndSign C (cfg p) k bs (partsFor ((mapOrder p).map fun q : Nat => ((q : Int),
        okParts (getParts C (cfg q) k ((order q).map fun q : Nat => (q : Int)) (rnd1 q) (st q)).1)) (p : Int)) (rnd2 p)
        (getParts C (cfg p) k ((order p).map fun q : Nat => (q : Int)) (rnd1 p) (st p)).2).1 = .ok r := by
  obtain ⟨sig, st', h1, _⟩ := C21_round hS hn ps hnd hps (by omega) leader hleader k hk bs hu order hord mapOrder hmap
    rnd1 rnd2 hrnd st hlow hnew
  generalize hres : (setPartsAndSign C (cfg p) k bs (partsFor ((mapOrder p).map fun q : Nat => ((q : Int),
        okParts (getParts C (cfg q) k ((order q).map fun q : Nat => (q : Int)) (rnd1 q) (st q)).1)) (p : Int)) (rnd2 p)
        (getParts C (cfg p) k ((order p).map fun q : Nat => (q : Int)) (rnd1 p) (st p)).2).1 = o
  cases o with
  | ok r => exact ⟨r, rfl⟩
  | _ =>
    exfalso
    have h2 := congrArg Prod.fst h1
    simp only [signRound, roundShares, assemble, shareArray] at h2
    have := collectSigs_missing (total := n) (f := fun i =>
      match (setPartsAndSign C (cfg i) k bs (partsFor ((mapOrder i).map fun q : Nat => ((q : Int),
        okParts (getParts C (cfg q) k ((order q).map fun q : Nat => (q : Int)) (rnd1 q) (st q)).1)) (i : Int)) (rnd2 i)
        (getParts C (cfg i) k ((order i).map fun q : Nat => (q : Int)) (rnd1 i) (st i)).2).1 with
      | .ok r => r.signature.bytes
      | _ => []) hp (by simp only [hres])
    rw [if_pos (by rw [hlen] at this; exact_mod_cast this)] at h2
    cases h2

/-- C118, in a cluster of honest cosigners: whatever the schedule, the leader does not crash; and if the round gets to
assembling a signature, it has one that verifies, unless the call to sign of one of its peers failed on the way. -/
theorem C118_signs (hS : Setup C L pair n t cfg x kc rsaPub) (hn : 2 ≤ n) (R : RoundCfg) (hcfg : R.cfg = cfg)
    (hR : R.threshold = t) (htot : R.total = n) (hnd : R.peers.Nodup) (hme : R.me ∉ R.peers)
    (hids : ∀ p, p = R.me ∨ p ∈ R.peers → 1 ≤ p ∧ p ≤ n) (hk : IsI64 R.k.timestamp) (hu : unpackHRST R.bs = .ok R.k)
    (order : Nat → List Nat) (hord : ∀ p, (order p).Perm (List.range' 1 n))
    (hRo : R.order = fun p => (order p).map fun q : Nat => (q : Int))
    (hrnd : ∀ p i, ∃ sec, (R.rnd1 p i).secret = some sec ∧ sec.length = 32) (st : Nat → CState)
    (hlow : ∀ p, 1 ≤ p → p ≤ n → (st p).lss.hrs ≺ R.k.hrs) (hnew : ∀ p, 1 ≤ p → p ≤ n → (st p).hrsMeta R.k = none)
    (es : List WholeEv) :
    ∃ s0 s, Whole.start R st = .ok s0 ∧ s0.run C R es = .ok s ∧
      ∀ ph, s.second = some ph → ph.ended = some true →
        (∃ sig, assemble C R.threshold (L.pt (x • L.B)) R.bs ph.sigs ph.eph = .ok sig ∧
          C.verify (L.pt (x • L.B)) R.bs sig = true) ∨
        (assemble C R.threshold (L.pt (x • L.B)) R.bs ph.sigs ph.eph = .err .notEnoughCosigners ∧
          ∃ p ∈ R.peers, WholeEv.second (.failed p) ∈ es) := by
  have hmeid := hids R.me (.inl rfl)
  have hgot : (gotOf C R st R.me).1 ≠ .panic := by
    obtain ⟨_, _, _, _, ⟨a, s', h⟩, _⟩ := (TryInv.start (L := L) (n := n) (t := t) (cfg := cfg) (x := x) (kc := kc)
      (rsaPub := rsaPub) (ps := []) (bs := R.bs) hlow hnew).ask hS hn hk hmeid.1 hmeid.2 (hord R.me) (hrnd R.me)
    unfold gotOf
    rw [hcfg, hRo]
    simp only at h ⊢
    rw [h]; simp
  obtain ⟨s0, h0, h⟩ := C118_crash C R t hS.t_pos hR hnd hme (by rw [htot]; exact hids) st es
  rcases h with ⟨s, hr⟩ | ⟨_, hc⟩
  swap
  · exfalso
    rcases hc with hc | ⟨ps, ord, p1, p2, p3, p4, p5, p6⟩
    · exact hgot hc
    · obtain ⟨r, hr⟩ := honest_answers hS hn p1 (fun p hp => hids p (p4 p hp)) p2 p3 hk hu hord (mapOrder := fun _ => ord)
        (fun _ => p5) (rnd2 := R.rnd2) hrnd (fun p hp => hlow p (hids p (p4 p hp)).1 (hids p (p4 p hp)).2)
        (fun p hp => hnew p (hids p (p4 p hp)).1 (hids p (p4 p hp)).2) p3
      simp only [signOf, gotOf, hcfg, hRo] at p6
      rw [hr] at p6; cases p6
  refine ⟨s0, s, h0, hr, fun ph hph hen => ?_⟩
  obtain ⟨ps, mapOrder, out, q1, q2, q3, q4, q5, q6, _, _, q9⟩ := C118_serial C R t hS.t_pos hR hnd hme
    (by rw [htot]; exact hids) st es s0 s h0 hr ph hph hen (L.pt (x • L.B))
  rcases q9 with ⟨q9, _⟩ | ⟨q9, p, hp, hf, hown⟩
  · left
    obtain ⟨sig, st', e1, e2, _⟩ := C21_round hS hn ps q2 (fun p hp => hids p (q5 p hp)) (by omega) R.me q4 R.k hk R.bs hu
      order hord mapOrder q6 R.rnd1 R.rnd2 hrnd st (fun p hp => hlow p (hids p (q5 p hp)).1 (hids p (q5 p hp)).2)
      (fun p hp => hnew p (hids p (q5 p hp)).1 (hids p (q5 p hp)).2)
    rw [hcfg, hR, htot, hRo, e1] at q1
    subst q1
    exact ⟨sig, q9, e2⟩
  · refine .inr ⟨q9, p, (q5 p hp).resolve_left fun he => ?_, hf⟩
    obtain ⟨e, he'⟩ := hown he
    obtain ⟨r, hr'⟩ := honest_answers hS hn q2 (fun p hp => hids p (q5 p hp)) q3 q4 hk hu hord q6 (rnd2 := R.rnd2) hrnd
      (fun p hp => hlow p (hids p (q5 p hp)).1 (hids p (q5 p hp)).2)
      (fun p hp => hnew p (hids p (q5 p hp)).1 (hids p (q5 p hp)).2) hp
    simp only [hcfg, hRo] at he'
    rw [hr'] at he'; cases he'

end

/-- A round of a 2-of-3 cluster, led by 3, for the precommit `b1`. -/
def wholeDemo : RoundCfg :=
  { cfg := fcfg, me := 3, peers := [1, 2], threshold := 2, total := 3, k := ⟨7, 1, 3, 1600000000000000005⟩, bs := b1,
    order := fun _ => [2, 1, 3], rnd1 := fun p _ => toyRnd (UInt8.ofNat p), rnd2 := fun _ _ => toyRnd 9 }

/-- The goroutine of `p` enters what the cosigner answers. -/
def wholeAnswer (p : Nat) (ord : List Nat) : SignEv :=
  match (signOf ftoy wholeDemo (fun _ => CState.start .empty) p ord).1 with
  | .ok r => .answered p r
  | _ => .failed p

/-- Peer 1 answers while the leader is still making its own parts, peer 2 serves the request late and its answer only comes in
when the others are signing; the leader's own share comes in before that of 1. -/
def wholeEvs : List WholeEv :=
  [.serveGet 1, .first (.answered 1), .serveGet 3, .first (.own true), .first (.done 1), .first .woken, .first .proceed,
   .begin, .serveSign 3 [1, 3], .serveGet 2, .second (wholeAnswer 3 [1, 3]), .first (.answered 2), .second (.done 3),
   .serveSign 1 [3, 1], .second (wholeAnswer 1 [3, 1]), .second (.done 1), .second .proceed]

/-- Concretely: the round `wholeEvs` completes, no call having failed, so by C118 it has a signature that verifies. -/
example : (∃ s0 s ph, Whole.start wholeDemo (fun _ => CState.start .empty) = .ok s0 ∧ s0.run ftoy wholeDemo wholeEvs = .ok s ∧
    s.second = some ph ∧ ph.ended = some true ∧ s.first.shared.joined = [1, 3]) ∧
    ∀ p, WholeEv.second (.failed p) ∉ wholeEvs := by
  constructor
  · have h : (match Whole.start wholeDemo (fun _ => CState.start .empty) with
        | .ok s0 => match s0.run ftoy wholeDemo wholeEvs with
          | .ok s => match s.second with
            | some ph => decide (ph.ended = some true ∧ s.first.shared.joined = [1, 3])
            | none => false
          | _ => false
        | _ => false) = true := by decide +kernel
    split at h
    · next s0 h0 =>
      split at h
      · next s h1 =>
        split at h
        · next ph h2 =>
          simp only [decide_eq_true_eq] at h
          exact ⟨s0, s, ph, h0, h1, h2, h⟩
        · cases h
      · cases h
    · cases h
  · have e1 : (match wholeAnswer 3 [1, 3] with | .answered 3 _ => true | _ => false) = true := by decide +kernel
    have e2 : (match wholeAnswer 1 [3, 1] with | .answered 1 _ => true | _ => false) = true := by decide +kernel
    intro p hp
    simp only [wholeEvs, List.mem_cons, reduceCtorEq, WholeEv.second.injEq, List.not_mem_nil, or_false, false_or] at hp
    rcases hp with hp | hp
    · rw [← hp] at e1; cases e1
    · rw [← hp] at e2; cases e2

/-- The hypotheses of `C118_signs` hold of it. -/
example (es : List WholeEv) := C118_signs fsetup (by decide) wholeDemo rfl rfl rfl (by decide) (by decide)
  (by simp only [wholeDemo]; intro p hp; rcases hp with rfl | hp
      · decide
      · revert p; decide)
  (by decide) unpack_b1 (fun _ => [2, 1, 3]) (fun _ => by decide) rfl
  (fun p i => ⟨List.replicate 32 (UInt8.ofNat p), rfl, by simp⟩) (fun _ => CState.start .empty)
  (fun p _ _ => show (⟨0, 0, 0⟩ : HRS) ≺ ⟨7, 1, 3⟩ by decide) (fun _ _ _ => rfl) es

end Horcrux
