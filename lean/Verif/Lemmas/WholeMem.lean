import Verif.Model.WholeMem
import Verif.Lemmas.RoundMem
/-
The rounds of `WholeMem` against those of `Whole`.
-/
namespace Horcrux
open Spec

theorem whole_run_append {C : Crypto} {R : RoundCfg} {w w1 : Whole} {es1 es2 : List WholeEv}
    (h1 : w.run C R es1 = .ok w1) : w.run C R (es1 ++ es2) = w1.run C R es2 := by
  induction es1 generalizing w with
  | nil => cases h1; rfl
  | cons e es ih =>
    simp only [Whole.run, List.cons_append] at h1 ⊢
    split at h1
    · exact ih h1
    · cases h1
    · cases h1

/-- Steps of `Gather` that are allowed are steps of the round. -/
theorem whole_firsts {C : Crypto} {R : RoundCfg} {w : Whole} {es : List GatherEv} {g : Gather}
    (ha : ∀ x ∈ es, w.allows1 R x = true) (h : Gather.run R.threshold R.me w.first es = .ok g) :
    w.run C R (es.map .first) = .ok { w with first := g } := by
  induction es generalizing w with
  | nil => cases h; rfl
  | cons e es ih =>
    simp only [Gather.run] at h
    split at h
    · rename_i g1 h1
      simp only [List.map_cons, Whole.run, Whole.step]
      rw [if_pos (ha e (by simp)), h1]
      exact ih (w := { w with first := g1 }) (fun x hx => by
        have := ha x (List.mem_cons_of_mem _ hx)
        cases x <;> exact this) h
    · cases h
    · cases h

/-- The same for `SignPhase`. -/
theorem whole_seconds {C : Crypto} {R : RoundCfg} {w : Whole} {es : List SignEv} {ph ph' : SignPhase}
    (hw : w.second = some ph) (ha : ∀ x ∈ es, w.allows2 R x = true) (h : SignPhase.run R.me ph es = .ok ph') :
    w.run C R (es.map .second) = .ok { w with second := some ph' } := by
  induction es generalizing w ph with
  | nil => cases h; cases w; cases hw; rfl
  | cons e es ih =>
    simp only [SignPhase.run] at h
    split at h
    · rename_i ph1 h1
      simp only [List.map_cons, Whole.run, Whole.step, hw]
      rw [if_pos (ha e (by simp)), h1]
      exact ih (w := { w with second := some ph1 }) rfl (fun x hx => by
        have := ha x (List.mem_cons_of_mem _ hx)
        cases x <;> exact this) h
    · cases h
    · cases h

/-- There are goroutines for participants only. -/
theorem signMem_within {me : Nat} {m m' : SignMem} {e : SignMemEv} {ps : List Nat}
    (h : ∀ p, m.signer p ≠ .absent → p ∈ ps) (hr : ∀ p ∈ m.lead.rest, p ∈ ps) (hs : m.step me e = .ok m') :
    ∀ p, m'.signer p ≠ .absent → p ∈ ps := by
  intro q hq
  have hat : ∀ p (a : SignAt), m.signer p ≠ .absent → (m.at p a).signer q ≠ .absent → q ∈ ps := by
    intro p a hp hne
    by_cases hqp : q = p
    · subst hqp; exact h q hp
    · simp only [SignMem.at, if_neg hqp] at hne; exact h q hne
  cases e with
  | call p o =>
    simp only [SignMem.step] at hs
    split at hs
    · rename_i hp
      cases o <;> (cases hs; exact hat p _ (by rw [hp]; simp) hq)
    · cases hs; exact h q hq
  | signer p =>
    simp only [SignMem.step, SignMem.signerStep] at hs
    cases hp : m.signer p with
    | absent => rw [hp] at hs; cases hs; exact h q hq
    | calling => rw [hp] at hs; cases hs; exact h q hq
    | ended => rw [hp] at hs; cases hs; exact h q hq
    | _ =>
      rw [hp] at hs
      simp only at hs
      (try split at hs) <;> cases hs <;> first | exact h q hq | exact hat p _ (by rw [hp]; simp) hq
  | lead =>
    simp only [SignMem.step] at hs
    split at hs
    · cases hs; exact h q hq
    · rename_i p rest hl
      cases hs
      by_cases hqp : q = p
      · subst hqp; exact hr q (by rw [hl]; simp [Lead2At.rest])
      · simp only [SignMem.at, if_neg hqp] at hq; exact h q hq
    · cases hs; exact h q hq
    · cases hs; exact h q hq
  | _ =>
    simp only [SignMem.step] at hs
    split at hs <;> (cases hs; exact h q hq)

/-- If the mutex of the first half is locked, a goroutine holds it. -/
theorem getMem_locked {t : Int} {me : Nat} {s s' : GetMem} {e : GetEv}
    (h : s.locked = true → (∃ p, (s.peer p).holds = true) ∨ s.lead.holds = true) (hs : s.step t me e = .ok s') :
    s'.locked = true → (∃ p, (s'.peer p).holds = true) ∨ s'.lead.holds = true := by
  intro hlk
  have hkeep : ∀ p a, (a.holds = true ∨ (s.peer p).holds = false) → s.locked = true →
      (∃ q, ((s.at p a).peer q).holds = true) ∨ s.lead.holds = true := by
    intro p a ha hl
    rcases h hl with ⟨q, hq⟩ | hq
    · by_cases hqp : q = p
      · subst hqp
        rcases ha with ha | ha
        · exact .inl ⟨q, by simp [GetMem.at, ha]⟩
        · rw [ha] at hq; cases hq
      · exact .inl ⟨q, by simp [GetMem.at, hqp, hq]⟩
    · exact .inr hq
  cases e with
  | call p ok =>
    simp only [GetMem.step] at hs
    split at hs
    · rename_i hp
      cases hs; exact hkeep p _ (.inr (by rw [hp]; rfl)) hlk
    · cases hs; exact h hlk
  | peer p =>
    simp only [GetMem.step, GetMem.peerStep] at hs
    cases hp : s.peer p with
    | calling => rw [hp] at hs; cases hs; exact h hlk
    | ended => rw [hp] at hs; cases hs; exact h hlk
    | locks =>
      rw [hp] at hs; simp only at hs
      split at hs
      · cases hs; exact h hlk
      · cases hs; exact .inl ⟨p, by simp [GetMem.at, PeerAt.holds]⟩
    | tests =>
      rw [hp] at hs; simp only at hs
      split at hs <;> (cases hs; exact hkeep p _ (.inl rfl) hlk)
    | writes => rw [hp] at hs; cases hs; exact hkeep p _ (.inl rfl) hlk
    | unlocks b => rw [hp] at hs; cases hs; simp at hlk
    | finishes =>
      rw [hp] at hs; simp only at hs
      split at hs <;> cases hs
      exact hkeep p _ (.inr (by rw [hp]; rfl)) hlk
  | own ok =>
    simp only [GetMem.step] at hs
    split at hs
    · rename_i hl
      rcases (by split at hs <;> (cases hs; exact h hlk) : _) with ⟨q, hq⟩ | hq
      · refine .inl ⟨q, ?_⟩
        split at hs <;> (cases hs; exact hq)
      · rw [hl] at hq; cases hq
    · cases hs; exact h hlk
  | woken => simp only [GetMem.step] at hs; split at hs <;> (cases hs; exact h hlk)
  | select =>
    simp only [GetMem.step] at hs
    split at hs
    · rename_i hl
      cases hs
      rcases h hlk with ⟨q, hq⟩ | hq
      · exact .inl ⟨q, hq⟩
      · rw [hl.1] at hq; cases hq
    · cases hs; exact h hlk
  | timeout =>
    simp only [GetMem.step] at hs
    split at hs
    · rename_i hl
      cases hs
      rcases h hlk with ⟨q, hq⟩ | hq
      · exact .inl ⟨q, hq⟩
      · rw [hl] at hq; cases hq
    · cases hs; exact h hlk
  | lead =>
    simp only [GetMem.step] at hs
    split at hs
    · split at hs
      · cases hs; exact h hlk
      · cases hs; exact .inr rfl
    · cases hs; exact .inr rfl
    · cases hs; simp at hlk
    · cases hs; exact h hlk

/-- The same for the second half. -/
theorem signMem_locked {me : Nat} {m m' : SignMem} {e : SignMemEv}
    (h : m.locked = true → ∃ p, (m.signer p).holds = true) (hrest : ∀ p ∈ m.lead.rest, m.signer p = .absent)
    (hs : m.step me e = .ok m') : m'.locked = true → ∃ p, (m'.signer p).holds = true := by
  intro hlk
  have hkeep : ∀ p a, (a.holds = true ∨ (m.signer p).holds = false) → m.locked = true →
      ∃ q, ((m.at p a).signer q).holds = true := by
    intro p a ha hl
    obtain ⟨q, hq⟩ := h hl
    by_cases hqp : q = p
    · subst hqp
      rcases ha with ha | ha
      · exact ⟨q, by simp [SignMem.at, ha]⟩
      · rw [ha] at hq; cases hq
    · exact ⟨q, by simp [SignMem.at, hqp, hq]⟩
  cases e with
  | call p o =>
    simp only [SignMem.step] at hs
    split at hs
    · rename_i hp
      cases o <;> (cases hs; exact hkeep p _ (.inr (by rw [hp]; rfl)) hlk)
    · cases hs; exact h hlk
  | signer p =>
    simp only [SignMem.step, SignMem.signerStep] at hs
    cases hp : m.signer p with
    | absent => rw [hp] at hs; cases hs; exact h hlk
    | calling => rw [hp] at hs; cases hs; exact h hlk
    | ended => rw [hp] at hs; cases hs; exact h hlk
    | reads => rw [hp] at hs; cases hs; exact hkeep p _ (.inr (by rw [hp]; rfl)) hlk
    | locks r =>
      rw [hp] at hs; simp only at hs
      split at hs
      · cases hs; exact h hlk
      · cases hs; exact ⟨p, by simp [SignMem.at, SignAt.holds]⟩
    | writesTable r =>
      rw [hp] at hs; simp only at hs
      split at hs
      · cases hs
      · cases hs; exact hkeep p _ (.inl (by split <;> rfl)) hlk
    | writesEph r => rw [hp] at hs; cases hs; exact hkeep p _ (.inl rfl) hlk
    | unlocks => rw [hp] at hs; cases hs; simp at hlk
    | finishes =>
      rw [hp] at hs; simp only at hs
      split at hs <;> cases hs
      exact hkeep p _ (.inr (by rw [hp]; rfl)) hlk
  | lead =>
    simp only [SignMem.step] at hs
    split at hs
    · cases hs; exact h hlk
    · rename_i p rest hl
      cases hs
      exact hkeep p _ (.inr (by rw [hrest p (by rw [hl]; simp [Lead2At.rest])]; rfl)) hlk
    · cases hs; exact h hlk
    · cases hs; exact h hlk
  | _ =>
    simp only [SignMem.step] at hs
    split at hs <;> (cases hs; exact h hlk)

/-- A participant without a goroutine gets one. -/
theorem signMem_started {me : Nat} {m m' : SignMem} {e : SignMemEv} {ps : List Nat}
    (h : ∀ p ∈ ps, m.signer p = .absent → p ∈ m.lead.rest) (hs : m.step me e = .ok m') :
    ∀ p ∈ ps, m'.signer p = .absent → p ∈ m'.lead.rest := by
  intro q hq hab
  have hat : ∀ p (a : SignAt), a ≠ .absent → (m.at p a).signer q = .absent → q ∈ m.lead.rest := by
    intro p a ha hne
    by_cases hqp : q = p
    · subst hqp; simp only [SignMem.at, if_true] at hne; exact absurd hne ha
    · simp only [SignMem.at, if_neg hqp] at hne; exact h q hq hne
  cases e with
  | call p o =>
    simp only [SignMem.step] at hs
    split at hs
    · cases o <;> (cases hs; exact hat p _ (by simp) hab)
    · cases hs; exact h q hq hab
  | signer p =>
    simp only [SignMem.step, SignMem.signerStep] at hs
    cases hp : m.signer p with
    | absent => rw [hp] at hs; cases hs; exact h q hq hab
    | calling => rw [hp] at hs; cases hs; exact h q hq hab
    | ended => rw [hp] at hs; cases hs; exact h q hq hab
    | writesTable r =>
      rw [hp] at hs
      simp only at hs
      split at hs <;> cases hs
      exact hat p _ (by split <;> simp) hab
    | _ =>
      rw [hp] at hs
      simp only at hs
      (try split at hs) <;> cases hs <;> first | exact h q hq hab | exact hat p _ (by simp) hab
  | lead =>
    simp only [SignMem.step] at hs
    split at hs
    · rename_i hl
      cases hs
      have := h q hq hab
      rw [hl] at this
      exact this
    · rename_i p rest hl
      cases hs
      by_cases hqp : q = p
      · subst hqp; simp [SignMem.at] at hab
      · simp only [SignMem.at, if_neg hqp] at hab
        have := h q hq hab
        rw [hl] at this
        simpa [Lead2At.rest, hqp] using this
    · rename_i hl
      cases hs
      have := h q hq hab
      rw [hl] at this
      exact this
    · cases hs; exact h q hq hab
  | woken => simp only [SignMem.step] at hs; split at hs <;> (cases hs; exact h q hq hab)
  | select =>
    simp only [SignMem.step] at hs
    split at hs
    · rename_i hl
      cases hs
      have := h q hq hab
      rw [hl.1] at this
      exact this
    · cases hs; exact h q hq hab
  | timeout =>
    simp only [SignMem.step] at hs
    split at hs
    · rename_i hl
      cases hs
      have := h q hq hab
      rw [hl] at this
      exact this
    · cases hs; exact h q hq hab

/-- The memory `s` corresponds to the state `w`. -/
structure WholeSim (R : RoundCfg) (t : Nat) (past : List Nat) (s : WholeMem) (w : Whole) : Prop where
  first : GetSim t R.me past s.first w.first
  got : w.got = s.got
  ans : w.ans = s.ans
  cs : w.cs = s.cs
  asked : ∀ p ∈ w.first.asked, p ∈ R.peers
  past : ∀ p ∈ past, p ∈ R.peers
  heard : ∀ p, s.first.peer p = .locks ∨ s.first.peer p = .tests ∨ s.first.peer p = .writes → ∃ l, s.got p = some (.ok l)
  lock : s.first.locked = true → (∃ p, (s.first.peer p).holds = true) ∨ s.first.lead.holds = true
  none : s.second = none → w.second = none
  behind : s.second.isSome = true → s.first.lead = .past
  second : ∀ m, s.second = some m → ∃ past2 ph, w.second = some ph ∧ SignSim R.total R.me s.first.map past2 m ph
  told : ∀ m, s.second = some m → ∀ p r, m.signer p = .locks r ∨ m.signer p = .writesTable r → s.ans p = some (.ok r)
  within : ∀ m, s.second = some m → ∀ p, m.signer p ≠ .absent → p ∈ s.first.map
  started : ∀ m, s.second = some m → ∀ p ∈ s.first.map, m.signer p = .absent → p ∈ m.lead.rest
  lock2 : ∀ m, s.second = some m → m.locked = true → ∃ p, (m.signer p).holds = true

theorem wholeSim_step {C : Crypto} {R : RoundCfg} {t : Nat} (ht : 1 ≤ t) (hR : R.threshold = t) (hme : R.me ∉ R.peers)
    (hids : ∀ p, p = R.me ∨ p ∈ R.peers → 1 ≤ p ∧ p ≤ R.total) {past : List Nat} {s : WholeMem} {w : Whole}
    (h : WholeSim R t past s w) (e : WholeMemEv) :
    ∃ es, (∀ p, .first (.failed p) ∈ es → e = .first (.call p false)) ∧
      (∀ p, .second (.failed p) ∈ es → e = .second (.call p none)) ∧
      ((s.step C R e = .panic ∧ w.run C R es = .panic) ∨
       ∃ s' w' past', s.step C R e = .ok s' ∧ w.run C R es = .ok w' ∧ WholeSim R t past' s' w') := by
  have hmp : R.me ∉ past := fun hc => hme (h.past _ hc)
  have stay : s.step C R e = .ok s → ∃ es, (∀ p, .first (.failed p) ∈ es → e = .first (.call p false)) ∧
      (∀ p, .second (.failed p) ∈ es → e = .second (.call p none)) ∧
      ((s.step C R e = .panic ∧ w.run C R es = .panic) ∨
       ∃ s' w' past', s.step C R e = .ok s' ∧ w.run C R es = .ok w' ∧ WholeSim R t past' s' w') :=
    fun hs => ⟨[], by simp, by simp, .inr ⟨s, w, past, hs, rfl, h⟩⟩
  cases e with
  | serveGet p =>
    by_cases hc : (p = R.me ∨ p ∈ R.peers) ∧ s.got p = Option.none
    swap
    · exact stay (by simp only [WholeMem.step]; rw [if_neg hc])
    have hc' : (p = R.me ∨ p ∈ R.peers) ∧ w.got p = Option.none := by rw [h.got]; exact hc
    refine ⟨[.serveGet p], by simp, by simp, ?_⟩
    simp only [WholeMem.step, Whole.run, Whole.step]
    rw [if_pos hc, if_pos hc', h.got, h.cs]
    by_cases hp : p = R.me ∧ (getParts C (R.cfg p) R.k (R.order p) (R.rnd1 p) (s.cs p)).1 = .panic
    · rw [if_pos hp, if_pos hp]; exact .inl ⟨rfl, rfl⟩
    rw [if_neg hp, if_neg hp]
    refine .inr ⟨_, _, past, rfl, rfl, ?_⟩
    refine ⟨h.first, rfl, h.ans, rfl, h.asked, h.past, ?_, h.lock, h.none, h.behind, h.second, h.told, h.within, h.started, h.lock2⟩
    intro q hq
    obtain ⟨l, hl⟩ := h.heard q hq
    refine ⟨l, ?_⟩
    have : q ≠ p := by rintro rfl; rw [hc.2] at hl; cases hl
    simp only [if_neg this]; exact hl
  | first e =>
    by_cases hal : s.allows1 R e = true
    swap
    · exact stay (by simp only [WholeMem.step]; rw [if_neg hal])
    obtain ⟨f', es, g', past', h1, h2, h3, h4, h5⟩ := getSim_step ht h.first e
    rw [← hR] at h1 h2
    have hall : ∀ x ∈ es, w.allows1 R x = true := by
      intro x hx
      have hcx := h3 x hx
      cases x with
      | answered p =>
        obtain ⟨l, hl⟩ := h.heard p (.inr hcx)
        simp only [Whole.allows1, h.got, hl]
      | own ok =>
        have : e = .own ok := hcx
        rw [this] at hal
        simp only [WholeMem.allows1] at hal
        simp only [Whole.allows1, h.got]
        exact hal
      | _ => rfl
    refine ⟨es.map .first, ?_, by simp, .inr ⟨{ s with first := f' }, { w with first := g' }, past', ?_, whole_firsts hall h2, ?_⟩⟩
    · intro p hp
      obtain ⟨x, hx, hxe⟩ := List.mem_map.1 hp
      cases hxe
      have : e = .call p false := h3 _ hx
      rw [this]
    · simp only [WholeMem.step]; rw [if_pos hal, h1]
    · refine ⟨h5, h.got, h.ans, h.cs, fun p hp => h.asked p (gather_asked_run h2 p hp), fun p hp => ?_, ?_,
        getMem_locked h.lock h1, h.none, ?_, ?_, h.told, ?_, ?_, h.lock2⟩
      · exact (h4 p hp).elim (h.past p) (h.asked p)
      · refine getMem_told (P := fun p => ∃ l, s.got p = some (.ok l)) h.heard (fun p hp => ?_) h1
        rw [hp] at hal
        simp only [WholeMem.allows1] at hal
        split at hal
        · rename_i l hl; exact ⟨l, hl⟩
        · cases hal
      · intro hsome
        rw [hR] at h1
        exact (getMem_past ht h.first hmp (h.behind hsome) h1).1
      · intro m hm
        rw [hR] at h1
        have hb := getMem_past ht h.first hmp (h.behind (by rw [show s.second = some m from hm]; rfl)) h1
        simp only [hb.2]
        exact h.second m hm
      · intro m hm
        rw [hR] at h1
        have hb := getMem_past ht h.first hmp (h.behind (by rw [show s.second = some m from hm]; rfl)) h1
        simp only [hb.2]
        exact h.within m hm
      · intro m hm
        rw [hR] at h1
        have hb := getMem_past ht h.first hmp (h.behind (by rw [show s.second = some m from hm]; rfl)) h1
        simp only [hb.2]
        exact h.started m hm
  | begin ord =>
    by_cases hb : s.first.lead = .past ∧ s.second.isNone = true ∧ ord.Perm s.first.map
    swap
    · exact stay (by simp only [WholeMem.step]; rw [if_neg hb])
    have hmain : w.first.main = .proceeded := by rw [h.first.main, hb.1]; rfl
    obtain ⟨j1, j2, _, _⟩ := gatherInv_joined ht h.first.inv hmp hmain
    rw [h.first.map] at j1 j2
    obtain ⟨m, ph, hm, hph, hsim⟩ := signSim_start (total := R.total) (me := R.me) j1 j2 hb.2.2
    have hnone : s.second = Option.none := by
      cases hs : s.second with
      | none => rfl
      | some m => rw [hs] at hb; simp at hb
    rw [← hR] at hm hph
    have hst : m.locked = false ∧ (∀ p, m.signer p = .absent) ∧ m.lead.rest = ord := by
      unfold SignMem.start at hm
      split at hm <;> cases hm
      exact ⟨rfl, fun _ => rfl, rfl⟩
    refine ⟨[.begin], by simp, by simp, .inr ⟨{ s with second := some m }, { w with second := some ph }, past, ?_, ?_, ?_⟩⟩
    · simp only [WholeMem.step]; rw [if_pos hb, hm]
    · simp only [Whole.run, Whole.step]
      rw [if_pos ⟨hmain, h.none hnone⟩, h.first.map, hph]
    · refine ⟨h.first, h.got, h.ans, h.cs, h.asked, h.past, h.heard, h.lock, by simp, fun _ => hb.1, ?_, ?_, ?_, ?_, ?_⟩
      · intro m' hm'; cases hm'; exact ⟨[], ph, rfl, hsim⟩
      · intro m' hm' p r hp; cases hm'; rw [hst.2.1 p] at hp; simp at hp
      · intro m' hm' p hp; cases hm'; exact absurd (hst.2.1 p) hp
      · intro m' hm' p hp _; cases hm'; rw [hst.2.2]; exact hb.2.2.mem_iff.2 hp
      · intro m' hm' hl; cases hm'; rw [hst.1] at hl; cases hl
  | serveSign p ord =>
    by_cases hc : s.called p = true ∧ ord.Perm s.first.map ∧ s.ans p = Option.none
    swap
    · exact stay (by simp only [WholeMem.step]; rw [if_neg hc])
    obtain ⟨m, hm, hab⟩ : ∃ m, s.second = some m ∧ m.signer p ≠ .absent := by
      have := hc.1
      unfold WholeMem.called at this
      split at this
      · cases this
      · rename_i m hm
        refine ⟨m, hm, fun ha => ?_⟩
        rw [ha] at this; cases this
    obtain ⟨past2, ph, hph, hsim⟩ := h.second m hm
    have hc' : w.second ≠ Option.none ∧ p ∈ w.first.shared.joined ∧ ord.Perm w.first.shared.joined ∧ w.ans p = Option.none := by
      rw [h.first.map, h.ans, hph]
      exact ⟨by simp, h.within m hm p hab, hc.2.1, hc.2.2⟩
    have hparts : ∀ q, w.parts q = s.parts q := fun q => by unfold Whole.parts WholeMem.parts; rw [h.got]; cases s.got q <;> rfl
    refine ⟨[.serveSign p ord], by simp, by simp, ?_⟩
    simp only [WholeMem.step, Whole.run, Whole.step]
    rw [if_pos hc, if_pos hc', h.ans, h.cs]
    simp only [hparts]
    by_cases hp : p = R.me ∧ (setPartsAndSign C (R.cfg p) R.k R.bs
        (partsFor (ord.map fun q : Nat => ((q : Int), s.parts q)) (p : Int)) (R.rnd2 p) (s.cs p)).1 = .panic
    · rw [if_pos hp, if_pos hp]; exact .inl ⟨rfl, rfl⟩
    rw [if_neg hp, if_neg hp]
    refine .inr ⟨_, _, past, rfl, rfl, ?_⟩
    refine ⟨h.first, h.got, rfl, rfl, h.asked, h.past, h.heard, h.lock, h.none, h.behind, h.second, ?_, h.within, h.started, h.lock2⟩
    intro m' hm' q r hq
    have hl := h.told m' hm' q r hq
    have : q ≠ p := by rintro rfl; rw [hc.2.2] at hl; cases hl
    simp only [if_neg this]; exact hl
  | second e =>
    cases hsec : s.second with
    | none => exact stay (by simp only [WholeMem.step, hsec])
    | some m =>
      by_cases hal : s.allows2 R e = true
      swap
      · exact stay (by simp only [WholeMem.step, hsec]; rw [if_neg hal])
      obtain ⟨past2, ph, b1, b3⟩ := h.second m hsec
      have hlead := h.behind (by rw [hsec]; rfl)
      obtain ⟨_, _, _, j4⟩ := gatherInv_joined ht h.first.inv hmp (by rw [h.first.main, hlead]; rfl)
      rw [h.first.map] at j4
      have hps : ∀ p ∈ s.first.map, 1 ≤ p ∧ p ≤ R.total := fun p hp =>
        hids p ((j4 p hp).imp_right (h.past p))
      obtain ⟨m', es, ph', past2', c1, c2, c3, c4⟩ := signSim_step hps b3 e
      have hall : ∀ x ∈ es, w.allows2 R x = true := by
        intro x hx
        have hcx := c3 x hx
        cases x with
        | answered p r =>
          simp only [Whole.allows2, h.ans, h.told m hsec p r (.inr hcx), decide_true]
        | failed p =>
          have : e = .call p Option.none := hcx
          rw [this] at hal
          simp only [WholeMem.allows2] at hal
          simp only [Whole.allows2, h.ans]
          exact hal
        | _ => rfl
      refine ⟨es.map .second, by simp, ?_, .inr ⟨{ s with second := some m' }, { w with second := some ph' }, past, ?_,
        whole_seconds b1 hall c2, ?_⟩⟩
      · intro p hp
        obtain ⟨x, hx, hxe⟩ := List.mem_map.1 hp
        cases hxe
        have : e = .call p Option.none := c3 _ hx
        rw [this]
      · simp only [WholeMem.step, hsec]; rw [if_pos hal, c1]
      · refine ⟨h.first, h.got, h.ans, h.cs, h.asked, h.past, h.heard, h.lock, by simp, fun _ => hlead, ?_, ?_, ?_, ?_, ?_⟩
        · intro m1 hm1; cases hm1; exact ⟨past2', ph', rfl, c4⟩
        · intro m1 hm1
          cases hm1
          refine signMem_told (P := fun p r => s.ans p = some (.ok r)) (h.told m hsec) (fun p r hp => ?_) c1
          rw [hp] at hal
          simpa [WholeMem.allows2] using hal
        · intro m1 hm1
          cases hm1
          refine signMem_within (h.within m hsec) (fun p hp => ?_) c1
          exact ((b3.inv.asked p).1 ((b3.asked p).2 (.inr hp))).1
        · intro m1 hm1
          cases hm1
          exact signMem_started (h.started m hsec) c1
        · intro m1 hm1
          cases hm1
          exact signMem_locked (h.lock2 m hsec) b3.rest c1

theorem wholeSim_run {C : Crypto} {R : RoundCfg} {t : Nat} (ht : 1 ≤ t) (hR : R.threshold = t) (hme : R.me ∉ R.peers)
    (hids : ∀ p, p = R.me ∨ p ∈ R.peers → 1 ≤ p ∧ p ≤ R.total) (es : List WholeMemEv) :
    ∀ {past : List Nat} {s : WholeMem} {w : Whole}, WholeSim R t past s w →
    ∃ es', (∀ p, .first (.failed p) ∈ es' → .first (.call p false) ∈ es) ∧
      (∀ p, .second (.failed p) ∈ es' → .second (.call p none) ∈ es) ∧
      ((s.run C R es = .panic ∧ w.run C R es' = .panic) ∨
       ∃ s' w' past', s.run C R es = .ok s' ∧ w.run C R es' = .ok w' ∧ WholeSim R t past' s' w') := by
  induction es with
  | nil => exact fun {past s w} h => ⟨[], by simp, by simp, .inr ⟨s, w, past, rfl, rfl, h⟩⟩
  | cons e es ih =>
    intro past s w h
    obtain ⟨es1, a1, a2, a3⟩ := wholeSim_step (C := C) ht hR hme hids h e
    rcases a3 with ⟨a3, a4⟩ | ⟨s1, w1, past1, a3, a4, a5⟩
    · exact ⟨es1, fun p hp => by rw [a1 p hp]; simp, fun p hp => by rw [a2 p hp]; simp,
        .inl ⟨by simp only [WholeMem.run, a3], a4⟩⟩
    · obtain ⟨es2, b1, b2, b3⟩ := ih a5
      refine ⟨es1 ++ es2, fun p hp => ?_, fun p hp => ?_, ?_⟩
      · rcases List.mem_append.1 hp with hp | hp
        · rw [a1 p hp]; simp
        · exact List.mem_cons_of_mem _ (b1 p hp)
      · rcases List.mem_append.1 hp with hp | hp
        · rw [a2 p hp]; simp
        · exact List.mem_cons_of_mem _ (b2 p hp)
      · simp only [WholeMem.run, a3]
        rw [whole_run_append a4]
        exact b3

theorem wholeSim_start {R : RoundCfg} {t : Nat} (ht : 1 ≤ t) (hR : R.threshold = t) (hnd : R.peers.Nodup)
    (st : Nat → CState) :
    ∃ s w, WholeMem.start R st = .ok s ∧ Whole.start R st = .ok w ∧ WholeSim R t [] s w := by
  obtain ⟨f, g, h1, h2, h3⟩ := getSim_start (me := R.me) ht hnd
  have hf : f.locked = false ∧ ∀ p, f.peer p = if p ∈ R.peers then .calling else .ended := by
    unfold GetMem.start at h1
    split at h1 <;> cases h1
    exact ⟨rfl, fun _ => rfl⟩
  rw [← hR] at h1 h2
  refine ⟨⟨f, fun _ => none, none, fun _ => none, st⟩, ⟨g, fun _ => none, none, fun _ => none, st⟩,
    by simp only [WholeMem.start, h1], by simp only [Whole.start, h2], h3, rfl, rfl, rfl, ?_, by simp, ?_, ?_, fun _ => rfl,
    by simp, by simp, by simp, by simp, by simp, by simp⟩
  · intro p hp
    rw [h3.asked, hf.2] at hp
    by_contra hc
    rw [if_neg hc] at hp; cases hp
  · intro p hp
    simp only [hf.2] at hp
    split at hp <;> simp at hp
  · intro hl
    rw [hf.1] at hl; cases hl

end Horcrux
