import Verif.Props.FS
/-
Property C41: exactly what `state set` does.
-/
namespace Horcrux
open Spec

variable {P : Type} [DecidableEq P] (L : Layout P)

omit [DecidableEq P] in
theorem fsRead_iff (fs : FS P) (p : P) (f : PFile) : fs.readState p = some f ↔ fs.files p = some (.state f) := by
  unfold FS.readState
  split
  · next f' hf => rw [hf]; simp
  · next h =>
    constructor
    · intro h'; cases h'
    · intro h'; exact absurd h' (h f)

/-- C41: when `state set` reports success. -/
theorem C41_success (fs : FS P) (home : Str) (running homeFound : Bool) (arg : Str) (w : Kind → Bool) :
    (stateSet L fs home running homeFound arg (w .pv) (w .share)).1 = true ↔
      running = false ∧ homeFound = false ∧ (∃ height, parseInt arg = some height) ∧
      ∃ cfg, fs.readConfig L home = some cfg ∧ ∀ k, ∃ f, fs.files (L.state home cfg.chainID k) = some (.state f) := by
  unfold stateSet stateSetWith
  constructor
  · intro h
    split at h
    · cases h
    next h1 =>
    split at h
    · cases h
    next h2 =>
    split at h
    · cases h
    next cfg h3 =>
    split at h
    · cases h
    next pv h4 =>
    split at h
    · cases h
    next sh h5 =>
    split at h
    · cases h
    next ht h6 =>
    refine ⟨by simpa using h1, by simpa using h2, ⟨ht, h6⟩, cfg, h3, fun k => ?_⟩
    cases k with
    | pv => exact ⟨pv, (fsRead_iff ..).1 h4⟩
    | share => exact ⟨sh, (fsRead_iff ..).1 h5⟩
  · rintro ⟨rfl, rfl, ⟨ht, h6⟩, cfg, h3, hf⟩
    obtain ⟨pv, h4⟩ := hf .pv
    obtain ⟨sh, h5⟩ := hf .share
    simp [h3, (fsRead_iff ..).2 h4, (fsRead_iff ..).2 h5, h6]

theorem setOne_exact (fs : FS P) (p : P) (f : PFile) (height : Int) (w : Bool) :
    (setOne fs p f height w).files p = if w = true ∧ f.hrs ≺ ⟨height, 0, 0⟩ then
      some (.state ⟨height, 0, 0, none, none, none⟩) else fs.files p := by
  by_cases hlt : f.hrs ≺ ⟨height, 0, 0⟩
  · have hlt' : ({ f.load with ephemeralPublic := none } : SignState).hrs ≺ (⟨height, 0, 0, none, none⟩ : SSC).hrs := hlt
    unfold setOne
    rw [SignState.save_ok _ _ hlt']
    cases w <;> simp [FS.set, SignState.persist, Slice.norm, hlt]
  · rcases setOne_self fs p f height w with h | ⟨_, h, _⟩
    · rw [h, if_neg (fun h' => hlt h'.2)]
    · exact absurd h hlt

/-- C41: what a successful `state set` does. A state file of the configured chain gets the requested height, with round and
step 0 and no signature, exactly if its background write was done before the process exited and the height lies above what is in
it; otherwise it stays as it was, and so does every other file. -/
theorem C41_exact (fs : FS P) (home : Str) (running homeFound : Bool) (arg : Str) (w : Kind → Bool) (cfg : Config)
    (height : Int) (f : Kind → PFile) (hcfg : fs.readConfig L home = some cfg) (hp : parseInt arg = some height)
    (hf : ∀ k, fs.files (L.state home cfg.chainID k) = some (.state (f k)))
    (hok : (stateSet L fs home running homeFound arg (w .pv) (w .share)).1 = true) :
    (∀ k, (stateSet L fs home running homeFound arg (w .pv) (w .share)).2.files (L.state home cfg.chainID k) =
      some (.state (if w k = true ∧ ((f k).height < height ∨
          (f k).height = height ∧ ((f k).round < 0 ∨ (f k).round = 0 ∧ (f k).step < 0))
        then ⟨height, 0, 0, none, none, none⟩ else f k))) ∧
    ∀ p, (∀ k, p ≠ L.state home cfg.chainID k) →
      (stateSet L fs home running homeFound arg (w .pv) (w .share)).2.files p = fs.files p := by
  rcases stateSet_cases L fs home running homeFound arg (w .pv) (w .share) with
    ⟨h, _⟩ | ⟨cfg', pv, sh, height', h1, h2, h3, h4, h5⟩
  · rw [hok] at h; cases h
  rw [hcfg] at h1; cases h1
  rw [hp] at h4; cases h4
  have e2 : pv = f .pv := by
    have := (fsRead_iff ..).1 h2
    rw [hf] at this
    simpa using this.symm
  have e3 : sh = f .share := by
    have := (fsRead_iff ..).1 h3
    rw [hf] at this
    simpa using this.symm
  subst e2 e3
  have hne : L.state home cfg.chainID .pv ≠ L.state home cfg.chainID .share := L.kinds _ _ _ _
  have hlt : ∀ k, (f k).hrs ≺ ⟨height, 0, 0⟩ ↔ ((f k).height < height ∨
      (f k).height = height ∧ ((f k).round < 0 ∨ (f k).round = 0 ∧ (f k).step < 0)) := fun k => Iff.rfl
  rw [h5]
  constructor
  · intro k
    cases k with
    | pv =>
      simp only
      rw [setOne_other _ _ _ _ _ _ hne, setOne_exact, hf .pv]
      by_cases hc : w .pv = true ∧ (f .pv).hrs ≺ ⟨height, 0, 0⟩
      · rw [if_pos hc, if_pos ⟨hc.1, (hlt .pv).1 hc.2⟩]
      · rw [if_neg hc, if_neg (fun h => hc ⟨h.1, (hlt .pv).2 h.2⟩)]
    | share =>
      simp only
      rw [setOne_exact, setOne_other _ _ _ _ _ _ hne.symm, hf .share]
      by_cases hc : w .share = true ∧ (f .share).hrs ≺ ⟨height, 0, 0⟩
      · rw [if_pos hc, if_pos ⟨hc.1, (hlt .share).1 hc.2⟩]
      · rw [if_neg hc, if_neg (fun h => hc ⟨h.1, (hlt .share).2 h.2⟩)]
  · intro p hpne
    simp only
    rw [setOne_other _ _ _ _ _ _ (hpne .share), setOne_other _ _ _ _ _ _ (hpne .pv)]

/-- Only one of the two background writes gets done. -/
example : ∃ f : Kind → PFile, (∀ k, demoFS.files (demoLayout.state hm [99] k) = some (.state (f k))) ∧
    (stateSet demoLayout demoFS hm false false arg101 true false).1 = true ∧
    (stateSet demoLayout demoFS hm false false arg101 true false).2.files (.state hm [99] .pv) =
      some (.state ⟨101, 0, 0, none, none, none⟩) ∧
    (stateSet demoLayout demoFS hm false false arg101 true false).2.files (.state hm [99] .share) =
      some (.state shareFile) := by
  refine ⟨fun | .pv => pvFile | .share => shareFile, fun k => ?_, by decide +kernel, by decide +kernel, by decide +kernel⟩
  cases k <;> decide +kernel

end Horcrux
