import Verif.Props.Program
/-
Property C108: exactly when commands read the configuration that commands have written.
-/
namespace Horcrux
open Spec

variable {P : Type} [DecidableEq P] (L : Layout P) (lib : Lib) (e : Around)

/-- C108: the condition of `C108_partial` is needed. If something shadows `config.yaml`, whatever it contains, then no sequence of
commands of that caller ever changes what is read. -/
theorem C108_needed (m : Host P) (hs : ¬ Unshadowed m e.caller) (cmds : List ProgCmd) :
    (runProg L lib e m cmds).load L e.caller = m.load L e.caller := by
  have hf : e.caller.flag = none := by
    cases h : e.caller.flag with
    | none => rfl
    | some d => exact absurd (Or.inl (by rw [h]; simp)) hs
  have key : ∀ m' : Host P, m'.alt = m.alt → m'.used L e.caller = m.used L e.caller := by
    intro m' ha
    cases hj : m.alt .json with
    | some x => rw [used_json L m _ hf x hj, used_json L m' _ hf x (by rw [ha]; exact hj)]
    | none =>
      cases ht : m.alt .toml with
      | none => exact absurd (Or.inr ⟨hj, ht⟩) hs
      | some x =>
        have one : ∀ m2 : Host P, m2.alt = m.alt → m2.used L e.caller = some x := by
          intro m2 h2
          unfold Host.used
          rw [hf]
          have : supportedExts.find? (fun e' => (m2.text L e.caller.defaultHome e').isSome) = some .toml := by
            simp [supportedExts, Host.text, h2, hj, ht]
          simp only [this]
          simp [Host.text, h2, ht]
        rw [one m rfl, one m' ha]
  unfold Host.load
  rw [key _ (runProg_alt L lib e cmds m)]

/-- So what is read next is what was written exactly if nothing shadows `config.yaml` or nothing was to change. -/
theorem C108_exact (m : Host P) (c : CfgCmd) (cfg : Config) (hl : m.load L e.caller = some (some cfg))
    (ho : (ProgCmd.run L lib e m (.edit c)).1 = .ok) :
    (ProgCmd.run L lib e m (.edit c)).2.load L e.caller = some (some (c.run lib cfg).2) ↔
      Unshadowed m e.caller ∨ (c.run lib cfg).2 = cfg := by
  by_cases hu : Unshadowed m e.caller
  · exact ⟨fun _ => .inl hu, fun _ => ((C108_partial L lib e m hu).1 c cfg hl ho).2⟩
  · have h := C108_needed L lib e m hu [.edit c]
    have h' : (ProgCmd.run L lib e m (.edit c)).2.load L e.caller = some (some cfg) := by
      rw [← hl]; exact h
    rw [h']
    constructor
    · intro h2; right; simpa using h2.symm
    · rintro (h2 | h2)
      · exact absurd h2 hu
      · rw [h2]

/-- With a `config.toml` that is no TOML, `config init --overwrite` succeeds, and still no configuration is read. -/
example :
    let m : Host DemoPath := ⟨demoFS, fun x => if x = .toml then some .unreadable else none, false⟩
    ¬ Unshadowed m progAround.caller ∧ m.load demoLayout progAround.caller = some none ∧
    (ProgCmd.run demoLayout demoLib progAround m (.init (demoInit true) true)).1 = .ok ∧
    (ProgCmd.run demoLayout demoLib progAround m (.init (demoInit true) true)).2.load demoLayout progAround.caller =
      some none := by
  refine ⟨?_, by decide +kernel⟩
  rintro (h | ⟨_, h⟩)
  · exact h rfl
  · cases h

end Horcrux
