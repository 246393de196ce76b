import Verif.Lemmas.Duration
import Verif.Props.Init
import Verif.Model.Start
/-
C122: the timeout of a configuration.
-/
namespace Horcrux
open Spec

variable {fr : Nat → Nat → Nat → Nat}

/-- **C122.** Exactly the texts of durations are read, each as the duration it stands for. -/
theorem C122_text (s : Str) (d : Int) : parseDuration fr s = some d ↔ DurationText fr s d := by
  have hp : text "+" = [43] := by decide +kernel
  have hm : text "-" = [45] := by decide +kernel
  have h0 : text "0" = [48] := by decide +kernel
  have hhead : ∀ u n, (u = text "0" ∧ n = 0 ∨ DurText fr u n ∧ n < 2 ^ 63) → ∃ c t, u = c :: t ∧ c ≠ 43 ∧ c ≠ 45 := by
    rintro u n (⟨rfl, _⟩ | ⟨h, _⟩)
    · exact ⟨48, [], h0, by decide, by decide⟩
    · obtain ⟨h1, h2⟩ := durText_head h
      cases u with
      | nil => exact absurd rfl h1
      | cons c t =>
        have := h2 c rfl
        refine ⟨c, t, rfl, ?_, ?_⟩ <;> rintro rfl <;> revert this <;> decide
  unfold DurationText
  rw [hp, hm]
  constructor
  · intro h
    unfold parseDuration at h
    split at h
    · cases h
    · rename_i c t
      split at h
      · rename_i hc
        obtain ⟨n, hn, rfl⟩ := Option.map_eq_some_iff.1 h
        exact ⟨t, n, (parseUnsigned_iff fr t n).1 hn, .inr (.inr ⟨by rw [hc]; rfl, rfl⟩)⟩
      · split at h
        · rename_i hc
          obtain ⟨n, hn, rfl⟩ := Option.map_eq_some_iff.1 h
          exact ⟨t, n, (parseUnsigned_iff fr t n).1 hn, .inr (.inl ⟨by rw [hc]; rfl, rfl⟩)⟩
        · obtain ⟨n, hn, rfl⟩ := Option.map_eq_some_iff.1 h
          exact ⟨_, n, (parseUnsigned_iff fr _ n).1 hn, .inl ⟨rfl, rfl⟩⟩
  · rintro ⟨u, n, hu, (⟨rfl, rfl⟩ | ⟨rfl, rfl⟩ | ⟨rfl, rfl⟩)⟩
    · obtain ⟨c, t, rfl, h1, h2⟩ := hhead s n hu
      simp [parseDuration, h1, h2, (parseUnsigned_iff fr _ n).2 hu]
    · simp [parseDuration, (parseUnsigned_iff fr _ n).2 hu]
    · simp [parseDuration, (parseUnsigned_iff fr _ n).2 hu]

/-- Floating-point division as if it were exact, for the examples. -/
def exactFr (f n k : Nat) : Nat := f * n / 10 ^ k

example : parseDuration exactFr (text "1500ms") = some 1500000000 ∧ parseDuration exactFr (text "-1.5h") = some (-5400000000000) ∧
    parseDuration exactFr (text "2h45m") = some 9900000000000 ∧ parseDuration exactFr (text "+0") = some 0 ∧
    parseDuration exactFr (text "1.s.5s") = some 1500000000 ∧ parseDuration exactFr (text "1500") = none ∧
    parseDuration exactFr (text ".s") = none ∧ parseDuration exactFr (text "") = none ∧ parseDuration exactFr (text "-") = none ∧
    parseDuration exactFr (text "2562047h") = some 9223369200000000000 ∧ parseDuration exactFr (text "2562048h") = none ∧
    parseDuration exactFr (text "9223372036854775807ns") = some 9223372036854775807 ∧
    parseDuration exactFr (text "9223372036854775808ns") = none ∧
    parseDuration exactFr (text "0.99999999999999999999999s") = some 999999999 ∧ parseDuration exactFr (text "1 s") = none := by
  decide +kernel

example : DurationText exactFr (text "1.5s") 1500000000 :=
  (C122_text _ _).1 (by decide +kernel)

/-- **C122.** A process that gets as far as taking part (so also one whose configuration `config init` has made) has as timeout the
duration that is written in its configuration: the error dropped at `cosigner.go:210` cannot occur. -/
theorem C122_start (cfg : Config) (key : CosignerKey) (cc : CosignerCfg) (h : startCfg (durLib fr) cfg key = some cc) :
    ∃ c d, cfg.cosigner = some c ∧ DurationText fr c.timeout d ∧ startTimeout fr c = d := by
  unfold startCfg at h
  split at h
  · rename_i c hv hc
    obtain ⟨_, _, _, hd, _⟩ := (accepted_iff (durLib fr) cfg c).1 ⟨hc, hv⟩
    obtain ⟨d, hd⟩ := Option.isSome_iff_exists.1 (show (parseDuration fr c.timeout).isSome = true from hd)
    exact ⟨c, d, hc, (C122_text _ _).1 hd, by simp [startTimeout, hd]⟩
  · cases h

/-- **C122.** With flags that `config init` accepts, another timeout is accepted exactly if it is the text of a duration; and
it is in the configuration as it was given. -/
theorem C122_init (home : Str) (a : InitArgs) (cfg : Config) (ha : a.cosigner = true)
    (h : initConfig (durLib fr) home a = .ok cfg) (s : Str) :
    ((∃ cfg', initConfig (durLib fr) home { a with timeout := s } = .ok cfg') ↔ ∃ d, DurationText fr s d) ∧
    ∀ cfg', initConfig (durLib fr) home { a with timeout := s } = .ok cfg' → ∃ c, cfg'.cosigner = some c ∧ c.timeout = s := by
  have hiff : (durLib fr).durationOk s = true ↔ ∃ d, DurationText fr s d := by
    simp only [← C122_text]
    exact Option.isSome_iff_exists
  obtain ⟨peers, ⟨_, h1, h2, h3, h4, h5, h6, h7, h8, _, h9⟩, rfl⟩ := (C62_cosigner _ _ _ ha _).1 h
  refine ⟨⟨?_, ?_⟩, ?_⟩
  · rintro ⟨cfg', h'⟩
    obtain ⟨peers', ⟨_, _, _, _, _, _, _, _, _, hd, _⟩, _⟩ := (C62_cosigner _ _ { a with timeout := s } ha _).1 h'
    exact hiff.1 hd
  · intro hd
    exact ⟨_, (C62_cosigner _ _ { a with timeout := s } ha _).2
      ⟨peers, ⟨ha, h1, h2, h3, h4, h5, h6, h7, h8, hiff.2 hd, h9⟩, rfl⟩⟩
  · intro cfg' h'
    obtain ⟨peers', _, rfl⟩ := (C62_cosigner _ _ { a with timeout := s } ha _).1 h'
    exact ⟨_, rfl, rfl⟩

/-- The flags of the migration guide for signer 1, with any timeout. -/
def timeoutArgs (t : String) : InitArgs :=
  { chainID := text "c", chainNodes := some (text "tcp://10.168.0.1:1234"), cosigner := true,
    peers := text "tcp://10.168.1.2:2222|2,tcp://10.168.1.3:2222|3", threshold := 2, listen := text "tcp://10.168.1.1:2222",
    keyFile := [], timeout := text t, overwrite := false }

def initOk (t : String) : Bool :=
  match initConfig (durLib exactFr) [104] (timeoutArgs t) with | .ok _ => true | .error _ => false

example : initOk "1500ms" = true ∧ initOk "0" = true ∧ initOk "-1s" = true ∧ initOk "1500" = false ∧ initOk "" = false := by
  decide +kernel

/-- Handing an entry to raft always comes to one of its ends. -/
theorem applied_total (timeout : Int) (takes : Option Nat) : ∃ h, Applied timeout takes h := by
  by_cases ht : 0 < timeout
  · cases takes with
    | none => exact ⟨_, .refused timeout.toNat (by omega) (by omega) (by simp)⟩
    | some a =>
      by_cases ha : (a : Int) ≤ timeout
      · exact ⟨_, .taken a rfl fun _ => ha⟩
      · refine ⟨_, .refused timeout.toNat (by omega) (by omega) fun b hb => ?_⟩
        cases hb
        omega
  · cases takes with
    | none => exact ⟨_, .waits (by omega) rfl⟩
    | some a => exact ⟨_, .taken a rfl fun h => absurd h ht⟩

/-- How long it took, if it ended. -/
def Spec.Handed.Within (d : Int) : Handed → Prop
  | .taken a => (a : Int) ≤ d
  | .refused a => (a : Int) ≤ d
  | .waits => False

/-- **C122.** The exact condition: handing an entry to raft ends within the timeout, however long raft takes, if and only if the
timeout is positive. -/
theorem C122_exact (timeout : Int) :
    (∀ takes h, Applied timeout takes h → Spec.Handed.Within timeout h) ↔ 0 < timeout := by
  constructor
  · intro h
    by_cases hd : 0 < timeout
    · exact hd
    · exact absurd (h none .waits (.waits (by omega) rfl)) (by simp [Spec.Handed.Within])
  · rintro hd takes h (⟨a, _, h1⟩ | ⟨a, h1, _, _⟩ | ⟨h1, _⟩)
    · exact h1 hd
    · simp only [Spec.Handed.Within]; omega
    · omega

/-- **C122, partial**: on a process that takes part with a positive duration written in its configuration, handing an entry to raft
ends within that duration. Missing: durations that are not positive (`C122_fails`). -/
theorem C122_partial (cfg : Config) (key : CosignerKey) (cc : CosignerCfg) (hs : startCfg (durLib fr) cfg key = some cc)
    (c : CosignerConfig) (hc : cfg.cosigner = some c) (d : Int) (hd : DurationText fr c.timeout d) (hpos : 0 < d)
    (takes : Option Nat) (h : Handed) (ha : Applied (startTimeout fr c) takes h) : Spec.Handed.Within d h := by
  obtain ⟨c', d', hc', hd', ht⟩ := C122_start cfg key cc hs
  rw [hc] at hc'
  cases hc'
  have : d' = d := Option.some.inj (((C122_text _ _).2 hd').symm.trans ((C122_text _ _).2 hd))
  subst this
  rw [ht] at ha
  exact (C122_exact d').2 hpos takes h ha

/-- C122 is false of durations that are not positive: with flags that `config init` accepts it accepts such a duration as well,
written in any way; the error is not noticed at the start; and then a call that hands an entry to a raft that is busy for ever never returns. -/
theorem C122_fails (home : Str) (a : InitArgs) (cfg : Config) (ha : a.cosigner = true)
    (h : initConfig (durLib fr) home a = .ok cfg) (s : Str) (d : Int) (hs : DurationText fr s d) (hd : d ≤ 0) :
    ∃ cfg' c, initConfig (durLib fr) home { a with timeout := s } = .ok cfg' ∧ cfg'.cosigner = some c ∧
      validateCosignerConfig (durLib fr) cfg' = .ok () ∧
      ∀ o, Applied (startTimeout fr c) none o → o = .waits := by
  obtain ⟨h1, h2⟩ := C122_init home a cfg ha h s
  obtain ⟨cfg', h'⟩ := h1.2 ⟨d, hs⟩
  obtain ⟨c, hc, ht⟩ := h2 cfg' h'
  refine ⟨cfg', c, h', hc, (C62_starts _ _ { a with timeout := s } cfg' h').1 ha, ?_⟩
  have : startTimeout fr c = d := by simp [startTimeout, ht, (C122_text _ _).2 hs]
  rw [this]
  rintro o (⟨a, h1, _⟩ | ⟨a, h1, h2, _⟩ | _)
  · cases h1
  · omega
  · rfl

example : ∃ cfg' c, initConfig (durLib exactFr) [104] { timeoutArgs "1500ms" with timeout := text "0" } = .ok cfg' ∧
    cfg'.cosigner = some c ∧ validateCosignerConfig (durLib exactFr) cfg' = .ok () ∧
    ∀ o, Applied (startTimeout exactFr c) none o → o = .waits := by
  have hok : initOk "1500ms" = true := by decide +kernel
  unfold initOk at hok
  split at hok
  · rename_i cfg h
    exact C122_fails [104] (timeoutArgs "1500ms") cfg rfl h (text "0") 0 ((C122_text _ _).1 (by decide +kernel)) (by decide)
  · cases hok

end Horcrux
