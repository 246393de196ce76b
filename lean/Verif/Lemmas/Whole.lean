import Verif.Model.Whole
import Verif.Props.Gather
/-
Invariant of a whole signing round.
-/
namespace Horcrux
open Spec

/-- The request for parts, made of cosigner `p` in its state before the round. -/
def gotOf (C : Crypto) (R : RoundCfg) (st : Nat → CState) (p : Nat) : Out (List SecretPart) × CState :=
  getParts C (R.cfg p) R.k (R.order p) (R.rnd1 p) (st p)

/-- The request to sign, made of cosigner `p` after the request for parts. -/
def signOf (C : Crypto) (R : RoundCfg) (st : Nat → CState) (p : Nat) (ord : List Nat) : Out SignRes × CState :=
  setPartsAndSign C (R.cfg p) R.k R.bs
    (partsFor (ord.map fun q : Nat => ((q : Int), okParts (gotOf C R st q).1)) (p : Int)) (R.rnd2 p) (gotOf C R st p).2

/-- What holds after the peers `past1` have answered the request for parts, and the events `past2` of the second half. -/
structure WholeInv (C : Crypto) (R : RoundCfg) (t : Nat) (st : Nat → CState) (past1 : List Nat) (past2 : List SignEv)
    (s : Whole) : Prop where
  gather : GatherInv t R.me past1 s.first
  asked : ∀ p ∈ s.first.asked, p ∈ R.peers
  past : ∀ p ∈ past1, p ∈ R.peers ∧ ∃ l, s.got p = some (.ok l)
  own : s.first.main ≠ .making → s.first.main ≠ .failed → ∃ l, s.got R.me = some (.ok l)
  got : ∀ p r, s.got p = some r → r = (gotOf C R st p).1
  quiet : ∀ p, s.ans p = none → s.cs p = if s.got p = none then st p else (gotOf C R st p).2
  signed : ∀ p a, s.ans p = some a → s.second ≠ none ∧ p ∈ s.first.shared.joined ∧
    ∃ ord, ord.Perm s.first.shared.joined ∧ signOf C R st p ord = (a, s.cs p)
  second : ∀ ph, s.second = some ph → s.first.main = .proceeded ∧ PhaseInv R.total R.me s.first.shared.joined past2 ph
  before : s.second = none → past2 = []
  answers : ∀ p r, SignEv.answered p r ∈ past2 → s.ans p = some (.ok r)
  ownFails : SignEv.failed R.me ∈ past2 → ∃ e, s.ans R.me = some (.err e)

/-- The participants of a round that went on to the second half. -/
theorem gatherInv_joined {t me : Nat} (ht : 1 ≤ t) {past : List Nat} {g : Gather} (h : GatherInv t me past g)
    (hme : me ∉ past) (hm : g.main = .proceeded) :
    g.shared.joined.Nodup ∧ g.shared.joined.length = t ∧ me ∈ g.shared.joined ∧
      ∀ p ∈ g.shared.joined, p = me ∨ p ∈ past := by
  have hp := h.late.2 hm
  have hj := h.shared.joined
  rw [hp, if_pos rfl] at hj
  have hl := (h.shared.enough hp).1
  have hnd : past.Nodup := (List.nodup_append.1 h.nodup).1
  rw [hj]
  refine ⟨?_, ?_, by simp, ?_⟩
  · refine List.nodup_append.2 ⟨hnd.sublist (List.take_sublist _ _), by simp, ?_⟩
    intro a ha b hb
    rw [List.mem_singleton] at hb
    subst hb
    rintro rfl
    exact hme (List.mem_of_mem_take ha)
  · rw [List.length_append, List.length_take, List.length_singleton]; omega
  · intro p hp'
    rcases List.mem_append.1 hp' with h' | h'
    · exact .inr (List.mem_of_mem_take h')
    · exact .inl (List.mem_singleton.1 h')

/-- Once the main goroutine has gone on, the participants do not change. -/
theorem gather_fixed {t me : Nat} (ht : 1 ≤ t) {past : List Nat} {g g' : Gather} {e : GatherEv} (h : GatherInv t me past g)
    (hm : g.main = .proceeded) (hs : g.step t me e = .ok g') :
    g'.main = .proceeded ∧ g'.shared.joined = g.shared.joined := by
  have hp := h.late.2 hm
  have hl := (h.shared.enough hp).1
  have hjl : g.shared.joined.length = t := by
    rw [h.shared.joined, hp, if_pos rfl, List.length_append, List.length_take, List.length_singleton]; omega
  cases e with
  | failed p => simp only [Gather.step] at hs; split at hs <;> (cases hs; exact ⟨hm, rfl⟩)
  | answered p =>
    simp only [Gather.step, Gather.shareStep, Collect.step, hjl] at hs
    rw [if_neg (show ¬ ((t : Int) < (t : Int) - 1) by omega)] at hs
    split at hs <;> (cases hs; exact ⟨hm, rfl⟩)
  | done p =>
    simp only [Gather.step, Gather.shareStep, Collect.step, (h.shared.enough hp).2, List.not_mem_nil, if_false] at hs
    cases hs; exact ⟨hm, rfl⟩
  | own ok => simp only [Gather.step, hm, reduceCtorEq, if_false] at hs; cases hs; exact ⟨hm, rfl⟩
  | woken => simp only [Gather.step] at hs; split at hs <;> (cases hs; exact ⟨hm, rfl⟩)
  | proceed => simp only [Gather.step, hm, reduceCtorEq, false_and, if_false] at hs; cases hs; exact ⟨hm, rfl⟩
  | timeout => simp only [Gather.step, hm, reduceCtorEq, if_false] at hs; cases hs; exact ⟨hm, rfl⟩

theorem gather_asked {t : Int} {me : Nat} {g g' : Gather} {e : GatherEv} (hs : g.step t me e = .ok g') :
    ∀ p ∈ g'.asked, p ∈ g.asked := by
  intro p hp
  cases e <;> simp only [Gather.step, Gather.shareStep] at hs <;> (repeat' split at hs) <;> cases hs <;>
    first | exact hp | exact List.mem_of_mem_erase hp

theorem gather_main {t : Int} {me : Nat} {g g' : Gather} {e : GatherEv} (hs : g.step t me e = .ok g')
    (h1 : g'.main ≠ .making) (h2 : g'.main ≠ .failed) :
    (g.main ≠ .making ∧ g.main ≠ .failed) ∨ e = .own true := by
  cases e <;> simp only [Gather.step, Gather.shareStep] at hs <;> (repeat' split at hs) <;> cases hs <;> simp_all

theorem answering_one (asked : List Nat) (e : GatherEv) :
    answering asked [e] = [] ∨ ∃ p, e = .answered p ∧ p ∈ asked ∧ answering asked [e] = [p] := by
  cases e with
  | answered p =>
    simp only [answering]
    by_cases h : p ∈ asked
    · exact .inr ⟨p, rfl, h, by rw [if_pos h]⟩
    · exact .inl (by rw [if_neg h])
  | _ => exact .inl rfl

/-- The participants' and the leader's parts are what the map holds. -/
theorem WholeInv.parts {C : Crypto} {R : RoundCfg} {t : Nat} {st : Nat → CState} {past1 : List Nat} {past2 : List SignEv}
    {s : Whole} (h : WholeInv C R t st past1 past2 s) (ht : 1 ≤ t) (hme : R.me ∉ R.peers)
    (hm : s.first.main = .proceeded) (p : Nat) (hp : p ∈ s.first.shared.joined) :
    s.got p = some (gotOf C R st p).1 ∧ (∃ l, (gotOf C R st p).1 = .ok l) ∧ s.parts p = okParts (gotOf C R st p).1 := by
  have hg : ∃ l, s.got p = some (.ok l) := by
    rcases (gatherInv_joined ht h.gather (fun hc => hme (h.past _ hc).1) hm).2.2.2 p hp with rfl | hp'
    · exact h.own (by simp [hm]) (by simp [hm])
    · exact (h.past p hp').2
  obtain ⟨l, hl⟩ := hg
  have := h.got p _ hl
  exact ⟨by rw [hl, this], ⟨l, this.symm⟩, by unfold Whole.parts; rw [hl]; simp only [this]⟩

/-- The leader's own cosigner crashes: when asked for parts, or when asked to sign. -/
def OwnCrash (C : Crypto) (R : RoundCfg) (t : Nat) (st : Nat → CState) : Prop :=
  (gotOf C R st R.me).1 = .panic ∨
  ∃ ps ord : List Nat, ps.Nodup ∧ ps.length = t ∧ R.me ∈ ps ∧ (∀ p ∈ ps, p = R.me ∨ p ∈ R.peers) ∧ ord.Perm ps ∧
    (signOf C R st R.me ord).1 = .panic

theorem wholeInv_step {C : Crypto} {R : RoundCfg} {t : Nat} (ht : 1 ≤ t) (hR : R.threshold = t) (hme : R.me ∉ R.peers)
    (hids : ∀ p, p = R.me ∨ p ∈ R.peers → 1 ≤ p ∧ p ≤ R.total) {st : Nat → CState} {past1 : List Nat} {past2 : List SignEv}
    {s : Whole} (h : WholeInv C R t st past1 past2 s) (e : WholeEv) :
    (∃ s' past1' past2', s.step C R e = .ok s' ∧ WholeInv C R t st past1' past2' s' ∧
      (past2' = past2 ∨ ∃ x, e = .second x ∧ past2' = past2 ++ [x])) ∨
    s.step C R e = .panic ∧ OwnCrash C R t st := by
  have hmp : R.me ∉ past1 := fun hc => hme (h.past _ hc).1
  cases e with
  | serveGet p =>
    simp only [Whole.step]
    by_cases hc : (p = R.me ∨ p ∈ R.peers) ∧ s.got p = none
    · rw [if_pos hc]
      have hans : s.ans p = none := by
        cases ha : s.ans p with
        | none => rfl
        | some a =>
          obtain ⟨h1, h2, _⟩ := h.signed p a ha
          cases hs2 : s.second with
          | none => exact absurd hs2 h1
          | some ph =>
            have := (h.parts ht hme (h.second ph hs2).1 p h2).1
            rw [hc.2] at this; cases this
      have hcs : s.cs p = st p := by rw [h.quiet p hans, if_pos hc.2]
      have hg : getParts C (R.cfg p) R.k (R.order p) (R.rnd1 p) (s.cs p) = gotOf C R st p := by rw [hcs]; rfl
      rw [hg]
      by_cases hp : p = R.me ∧ (gotOf C R st p).1 = .panic
      · rw [if_pos hp]
        exact .inr ⟨rfl, .inl (hp.1 ▸ hp.2)⟩
      · rw [if_neg hp]
        have keep : ∀ q, (∃ l, s.got q = some (.ok l)) →
            ∃ l, (if q = p then some (gotOf C R st p).1 else s.got q) = some (.ok l) := by
          rintro q ⟨l, hl⟩
          by_cases hq : q = p
          · subst hq; rw [hc.2] at hl; cases hl
          · exact ⟨l, by rw [if_neg hq]; exact hl⟩
        refine .inl ⟨_, past1, past2, rfl, ⟨h.gather, h.asked, fun q hq => ⟨(h.past q hq).1, keep q (h.past q hq).2⟩,
          fun a b => keep _ (h.own a b), ?_, ?_, ?_, h.second, h.before, h.answers, h.ownFails⟩, .inl rfl⟩
        · intro q r hr
          simp only at hr
          by_cases hq : q = p
          · subst hq; rw [if_pos rfl] at hr; cases hr; rfl
          · rw [if_neg hq] at hr; exact h.got q r hr
        · intro q hq
          simp only
          by_cases hqp : q = p
          · subst hqp; simp
          · simp only [if_neg hqp]; exact h.quiet q hq
        · intro q a ha
          have hqp : q ≠ p := by rintro rfl; rw [hans] at ha; cases ha
          simp only [if_neg hqp]
          exact h.signed q a ha
    · rw [if_neg hc]
      exact .inl ⟨s, past1, past2, rfl, h, .inl rfl⟩
  | first e =>
    simp only [Whole.step]
    by_cases hal : s.allows1 R e = true
    · rw [if_pos hal, hR]
      obtain ⟨g, hg, hi, _⟩ := gatherInv_step ht h.gather e
      rw [hg]
      have hfix : s.second ≠ none → g.shared.joined = s.first.shared.joined ∧ g.main = .proceeded := by
        intro hne
        cases hs2 : s.second with
        | none => exact absurd hs2 hne
        | some ph =>
          have := gather_fixed ht h.gather (h.second ph hs2).1 hg
          exact ⟨this.2, this.1⟩
      refine .inl ⟨_, past1 ++ answering s.first.asked [e], past2, rfl, ⟨hi, fun p hp => h.asked p (gather_asked hg p hp),
        ?_, ?_, h.got, h.quiet, ?_, ?_, h.before, h.answers, h.ownFails⟩, .inl rfl⟩
      · intro p hp
        rcases List.mem_append.1 hp with hp | hp
        · exact h.past p hp
        · rcases answering_one s.first.asked e with h0 | ⟨q, rfl, hq, h0⟩
          · rw [h0] at hp; cases hp
          · rw [h0, List.mem_singleton] at hp
            subst hp
            refine ⟨h.asked _ hq, ?_⟩
            simp only [Whole.allows1] at hal
            split at hal
            · next l hl => exact ⟨l, hl⟩
            · cases hal
      · intro a b
        rcases gather_main hg a b with ⟨a', b'⟩ | rfl
        · exact h.own a' b'
        · simp only [Whole.allows1] at hal
          split at hal
          · next l hl => exact ⟨l, hl⟩
          · cases hal
          · cases hal
      · intro p a ha
        obtain ⟨h1, h2, h3⟩ := h.signed p a ha
        simp only [(hfix h1).1]
        exact ⟨h1, h2, h3⟩
      · intro ph hph
        obtain ⟨h1, h2⟩ := h.second ph hph
        have := hfix (by simp only at hph; rw [hph]; simp)
        exact ⟨this.2, by simp only [this.1]; exact h2⟩
    · rw [if_neg hal]
      exact .inl ⟨s, past1, past2, rfl, h, .inl rfl⟩
  | begin =>
    simp only [Whole.step]
    by_cases hc : s.first.main = .proceeded ∧ s.second = none
    · rw [if_pos hc, hR]
      obtain ⟨j1, j2, j3, j4⟩ := gatherInv_joined ht h.gather hmp hc.1
      obtain ⟨ph, e1, e2, _⟩ := phaseInv_start t R.total R.me s.first.shared.joined j1 (by omega)
      rw [e1]
      have hb := h.before hc.2
      subst hb
      refine .inl ⟨_, past1, [], rfl, ⟨h.gather, h.asked, h.past, h.own, h.got, h.quiet, ?_, ?_, by simp, h.answers, h.ownFails⟩, .inl rfl⟩
      · intro p a ha
        exact absurd hc.2 (h.signed p a ha).1
      · intro ph' hph
        simp only [Option.some.injEq] at hph
        subst hph
        exact ⟨hc.1, e2⟩
    · rw [if_neg hc]
      exact .inl ⟨s, past1, past2, rfl, h, .inl rfl⟩
  | serveSign p ord =>
    simp only [Whole.step]
    by_cases hc : s.second ≠ none ∧ p ∈ s.first.shared.joined ∧ ord.Perm s.first.shared.joined ∧ s.ans p = none
    · rw [if_pos hc]
      obtain ⟨c1, c2, c3, c4⟩ := hc
      obtain ⟨ph, hph⟩ := Option.ne_none_iff_exists'.1 c1
      have hm := (h.second ph hph).1
      have hcs : s.cs p = (gotOf C R st p).2 := by
        rw [h.quiet p c4, (h.parts ht hme hm p c2).1]; simp
      have hmap : (ord.map fun q : Nat => ((q : Int), s.parts q)) =
          ord.map fun q : Nat => ((q : Int), okParts (gotOf C R st q).1) :=
        List.map_congr_left fun q hq => by rw [(h.parts ht hme hm q (c3.mem_iff.1 hq)).2.2]
      have hso : setPartsAndSign C (R.cfg p) R.k R.bs (partsFor (ord.map fun q : Nat => ((q : Int), s.parts q)) (p : Int))
          (R.rnd2 p) (s.cs p) = signOf C R st p ord := by rw [hmap, hcs]; rfl
      rw [hso]
      by_cases hp : p = R.me ∧ (signOf C R st p ord).1 = .panic
      · rw [if_pos hp]
        obtain ⟨j1, j2, j3, j4⟩ := gatherInv_joined ht h.gather hmp hm
        refine .inr ⟨rfl, .inr ⟨s.first.shared.joined, ord, j1, j2, j3, ?_, c3, hp.1 ▸ hp.2⟩⟩
        intro q hq
        rcases j4 q hq with h' | h'
        · exact .inl h'
        · exact .inr (h.past q h').1
      · rw [if_neg hp]
        refine .inl ⟨_, past1, past2, rfl, ⟨h.gather, h.asked, h.past, h.own, h.got, ?_, ?_, h.second, h.before, ?_, ?_⟩, .inl rfl⟩
        · intro q hq
          simp only at hq ⊢
          by_cases hqp : q = p
          · rw [if_pos hqp] at hq; cases hq
          · rw [if_neg hqp] at hq ⊢; exact h.quiet q hq
        · intro q a ha
          simp only at ha ⊢
          by_cases hqp : q = p
          · subst hqp
            rw [if_pos rfl] at ha ⊢
            cases ha
            exact ⟨c1, c2, ord, c3, rfl⟩
          · rw [if_neg hqp] at ha ⊢; exact h.signed q a ha
        · intro q r hr
          simp only
          by_cases hqp : q = p
          · subst hqp
            have := h.answers _ r hr
            rw [c4] at this; cases this
          · rw [if_neg hqp]; exact h.answers q r hr
        · intro hf
          obtain ⟨e, he⟩ := h.ownFails hf
          have hqp : R.me ≠ p := by rintro rfl; rw [c4] at he; cases he
          exact ⟨e, by simp only; rw [if_neg hqp]; exact he⟩
    · rw [if_neg hc]
      exact .inl ⟨s, past1, past2, rfl, h, .inl rfl⟩
  | second e =>
    simp only [Whole.step]
    cases hs2 : s.second with
    | none => exact .inl ⟨s, past1, past2, rfl, h, .inl rfl⟩
    | some ph =>
      simp only
      by_cases hal : s.allows2 R e = true
      · rw [if_pos hal]
        obtain ⟨hm, hp⟩ := h.second ph hs2
        obtain ⟨j1, j2, j3, j4⟩ := gatherInv_joined ht h.gather hmp hm
        obtain ⟨ph', e1, e2⟩ := phaseInv_step (fun p hp => hids p (by
          rcases j4 p hp with h' | h'
          · exact .inl h'
          · exact .inr (h.past p h').1)) hp e
        rw [e1]
        refine .inl ⟨_, past1, past2 ++ [e], rfl, ⟨h.gather, h.asked, h.past, h.own, h.got, h.quiet, ?_, ?_, by simp, ?_, ?_⟩,
          .inr ⟨e, rfl, rfl⟩⟩
        · intro p a ha
          exact ⟨by simp, (h.signed p a ha).2⟩
        · intro ph'' hph
          simp only [Option.some.injEq] at hph
          subst hph
          exact ⟨hm, e2⟩
        · intro p r hr
          rcases List.mem_append.1 hr with hr | hr
          · exact h.answers p r hr
          · rw [List.mem_singleton] at hr
            subst hr
            simpa [Whole.allows2] using hal
        · intro hf
          rcases List.mem_append.1 hf with hf | hf
          · exact h.ownFails hf
          · rw [List.mem_singleton] at hf
            subst hf
            simp only [Whole.allows2, if_true] at hal
            split at hal
            · next x hx => exact ⟨x, hx⟩
            · cases hal
      · rw [if_neg hal]
        exact .inl ⟨s, past1, past2, rfl, h, .inl rfl⟩

theorem wholeInv_run {C : Crypto} {R : RoundCfg} {t : Nat} (ht : 1 ≤ t) (hR : R.threshold = t) (hme : R.me ∉ R.peers)
    (hids : ∀ p, p = R.me ∨ p ∈ R.peers → 1 ≤ p ∧ p ≤ R.total) {st : Nat → CState} :
    ∀ (es : List WholeEv) {past1 : List Nat} {past2 : List SignEv} {s : Whole}, WholeInv C R t st past1 past2 s →
    (∃ s' past1' past2', s.run C R es = .ok s' ∧ WholeInv C R t st past1' past2' s' ∧
      ∀ x ∈ past2', x ∈ past2 ∨ WholeEv.second x ∈ es) ∨
    s.run C R es = .panic ∧ OwnCrash C R t st
  | [], past1, past2, s, h => .inl ⟨s, past1, past2, rfl, h, fun x hx => .inl hx⟩
  | e :: es, past1, past2, s, h => by
    rcases wholeInv_step ht hR hme hids h e with ⟨s1, p1, p2, h1, h2, h3⟩ | ⟨h1, h2⟩
    · rcases wholeInv_run ht hR hme hids es h2 with ⟨s', q1, q2, g1, g2, g3⟩ | ⟨g1, g2⟩
      · refine .inl ⟨s', q1, q2, by unfold Whole.run; rw [h1]; exact g1, g2, fun x hx => ?_⟩
        rcases g3 x hx with hx | hx
        · rcases h3 with rfl | ⟨y, rfl, rfl⟩
          · exact .inl hx
          · rcases List.mem_append.1 hx with hx | hx
            · exact .inl hx
            · rw [List.mem_singleton] at hx; subst hx; exact .inr (by simp)
        · exact .inr (List.mem_cons_of_mem _ hx)
      · exact .inr ⟨by unfold Whole.run; rw [h1]; exact g1, g2⟩
    · exact .inr ⟨by unfold Whole.run; rw [h1], h2⟩

theorem wholeInv_start {C : Crypto} {R : RoundCfg} {t : Nat} (ht : 1 ≤ t) (hR : R.threshold = t) (hnd : R.peers.Nodup)
    (st : Nat → CState) : ∃ s, Whole.start R st = .ok s ∧ WholeInv C R t st [] [] s := by
  obtain ⟨c, h1, h2, h3⟩ := collectInv_start t ht R.me
  have hg : Gather.start R.threshold R.peers = .ok ⟨c, R.peers, .making, false⟩ := by
    unfold Gather.start; rw [hR, h1]
  refine ⟨⟨⟨c, R.peers, .making, false⟩, fun _ => none, none, fun _ => none, st⟩, by unfold Whole.start; rw [hg],
    ⟨⟨h2, by simpa using hnd, by simp [h3], by simp, by simp⟩, by simp, by simp, by simp, by simp, by simp, by simp, by simp,
      by simp, by simp, by simp⟩⟩

end Horcrux
