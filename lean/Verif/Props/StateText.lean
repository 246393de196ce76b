import Verif.Lemmas.StateText
import Verif.Props.StateFile
/-
C79: exactly the JSON texts of a sign state are taken for one.
-/
namespace Horcrux
open Spec

/-- C79: a file that is accepted is a JSON text (by the grammar of RFC 8259) for an object that says what was loaded. -/
theorem C79_accepted (bs : Bytes) (s : SignState) (h : loadStateText bs = some s) : ∃ f, StateText f bs ∧ s = f.load := by
  unfold loadStateText at h
  rw [Option.map_eq_some_iff] at h
  obtain ⟨f, h1, h2⟩ := h
  exact ⟨f, readState_iff.1 h1, h2.symm⟩

/-- C79: every such text is accepted, whatever its layout, the order of its members, and what it contains besides. -/
theorem C79_readable (bs : Bytes) (f : PFile) (h : StateText f bs) : loadStateText bs = some f.load := by
  unfold loadStateText
  rw [readState_iff.2 h]
  rfl

/-- C79: a text says one thing only. -/
theorem C79_unique (bs : Bytes) (f f' : PFile) (h : StateText f bs) (h' : StateText f' bs) : f = f' := by
  have a := readState_iff.2 h
  rw [readState_iff.2 h'] at a
  exact (Option.some.inj a).symm

/-- C79: of a file and what is left of it after a cut, not both are accepted, unless just white space was lost and both say
the same. -/
theorem C79_cut (p q : Bytes) (f f' : PFile) (h : StateText f p) (h' : StateText f' (p ++ q)) : Blank q ∧ f = f' := by
  have jp : ∃ v, JsonText v p ∧ ¬ ∃ raw, v = .num raw := by
    cases h with
    | null h => exact ⟨_, h, by rintro ⟨raw, h⟩; cases h⟩
    | obj h => exact ⟨_, h, by rintro ⟨raw, h⟩; cases h⟩
  have jq : ∃ v, JsonText v (p ++ q) := by
    cases h' with
    | null h => exact ⟨_, h⟩
    | obj h => exact ⟨_, h⟩
  obtain ⟨v, hv, hn⟩ := jp
  obtain ⟨v', hv'⟩ := jq
  obtain ⟨rfl, hb⟩ := json_prefix hn hv hv'
  refine ⟨hb, ?_⟩
  have hp := parseJson_iff.2 hv
  have hq := parseJson_iff.2 hv'
  have a := readState_iff.2 h
  have b := readState_iff.2 h'
  unfold readState at a b
  rw [hp] at a
  rw [hq] at b
  rw [a] at b
  exact Option.some.inj b

/-- C79: a file that is no such text keeps `LoadSignState` (the start of a cosigner, the state commands) from going on. -/
theorem C79_refused (bs : Bytes) (h : ¬ ∃ f, StateText f bs) : loadStateText bs = none := by
  unfold loadStateText
  cases hr : readState bs with
  | none => rfl
  | some f => exact absurd ⟨f, readState_iff.1 hr⟩ h

/-- C79: what has been written by the program is such a text. -/
theorem C79_written (om : Slice → Bool) (h1 : om none = true) (h2 : ∀ b bs, om (some (b :: bs)) = false) (l : SignState)
    (hh : IsI64 l.height) (hr : IsI64 l.round) (hs : IsI8 l.step) : StateText l.persist (stateText om l.persist) := by
  apply readState_iff.1
  rw [readState_text om l.persist hh hr hs h1]
  have key : ∀ s : Slice, (if om s.norm then none else s.norm : Slice) = s.norm := by
    intro s
    rcases s with _ | _ | ⟨b, bs⟩
    · exact if_pos h1
    · exact if_pos h1
    · simp [Slice.norm, h2]
  show some (⟨l.height, l.round, l.step, l.ephemeralPublic.norm.norm,
    if om l.signature.norm then none else l.signature.norm.norm,
    if om l.signBytes.norm then none else l.signBytes.norm⟩ : PFile) = _
  rw [Slice.norm_norm, Slice.norm_norm, key, key]
  rfl

/-- A file edited by hand: other order and layout, a member that is not known, a number with a minus sign,
bytes as an array. -/
def editedState : Bytes :=
  text "\n{ \"step\" : 3,\t\"signbytes\":\"0aFf\" , \"note\":[true, {\"x\":-1.5e+3}, null, \"\"],\"signature\":[1, 255,null],\r\n\"round\":\"-0\",\"height\":\" 41\"}\n"

theorem editedState_text : StateText ⟨41, 0, 3, none, some [1, 255, 0], some [10, 255]⟩ editedState :=
  readState_iff.1 (by decide +kernel)

example : loadStateText editedState = some (PFile.load ⟨41, 0, 3, none, some [1, 255, 0], some [10, 255]⟩) :=
  C79_readable _ _ editedState_text

/-- Strings may be written in many ways: with escapes, with a pair of surrogates for U+1F600, in UTF-8, with a surrogate
that has no partner, with a byte that is no UTF-8. -/
example : JsonText (.str (utf8 'é' ++ utf8 '😀' ++ utf8 '€' ++ utf8 '�' ++ utf8 '/' ++ utf8 '�') true)
    (text "\"\\u00E9\\uD83d\\ude00" ++ utf8 '€' ++ text "\\ud800\\/" ++ [0xff] ++ text "\"") :=
  parseJson_iff.1 <| by
    have h : (match parseJson (text "\"\\u00E9\\uD83d\\ude00" ++ utf8 '€' ++ text "\\ud800\\/" ++ [0xff] ++ text "\"") with
        | some (.str s b) => some (s, b)
        | _ => none) =
        some (utf8 'é' ++ utf8 '😀' ++ utf8 '€' ++ utf8 '�' ++ utf8 '/' ++ utf8 '�', true) := by decide +kernel
    split at h
    · rename_i e
      rw [e]
      cases h
      rfl
    · cases h

/-- Texts that are no JSON, or do not say a state: a comma too many, a leading zero, something after the end, a step that is
not an integer, a height without quotes, half a byte, a digit that is none, a digit of the height or of the sign bytes that
is written as an escape sequence. -/
example : ∀ t ∈ ["{\"step\":3,}", "{\"step\":03}", "{\"step\":3}}", "{\"step\":3.0}", "{\"step\":3e0}", "{\"height\":41}",
    "{\"signbytes\":\"0aF\"}", "{\"signbytes\":\"0aFg\"}", "{\"step\":128}", "{\"signature\":\"AAAA=\"}", "{\"step\":+3}", "{\"signature\":[256]}", "{\"signature\":[-0]}", "{step:3}",
    "{\"step\":.3}", "[]", "", "{\"height\":\"4\\u0031\"}", "{\"signbytes\":\"0\\u0061\"}"], ¬ ∃ f, StateText f (text t) := by
  have h : ∀ t ∈ ["{\"step\":3,}", "{\"step\":03}", "{\"step\":3}}", "{\"step\":3.0}", "{\"step\":3e0}", "{\"height\":41}",
    "{\"signbytes\":\"0aF\"}", "{\"signbytes\":\"0aFg\"}", "{\"step\":128}", "{\"signature\":\"AAAA=\"}", "{\"step\":+3}", "{\"signature\":[256]}", "{\"signature\":[-0]}", "{step:3}",
    "{\"step\":.3}", "[]", "", "{\"height\":\"4\\u0031\"}", "{\"signbytes\":\"0\\u0061\"}"], readState (text t) = none := by decide +kernel
  rintro t ht ⟨f, hf⟩
  have := readState_iff.2 hf
  rw [h t ht] at this
  cases this

/-- C79 is false of files that do not say what height the process had reached: they are accepted as height 0. So is a file
with the name of a member misspelt. -/
theorem C79_silent_fails : ∀ t ∈ ["{}", "null", "{\"Height\":\"41\",\"round\":\"0\",\"step\":3}", "{\"height\":\"null\"}"],
    ∃ f, StateText f (text t) ∧ f.height = 0 ∧ loadStateText (text t) = some f.load := by
  have h : ∀ t ∈ ["{}", "null", "{\"Height\":\"41\",\"round\":\"0\",\"step\":3}", "{\"height\":\"null\"}"],
    (readState (text t)).any (fun f => f.height == 0) = true := by decide +kernel
  intro t ht
  have := h t ht
  cases hr : readState (text t) with
  | none => rw [hr] at this; cases this
  | some f =>
    rw [hr] at this
    exact ⟨f, readState_iff.1 hr, by simpa using this, by simp [loadStateText, hr]⟩

/-- C79 is false of the validator's own state file: whatever does not say a state, however little is wrong with it, is
overwritten with the empty state, and the process goes on from there. -/
theorem C79_damaged_fails (om : Slice → Bool) :
    (∀ bs, (¬ ∃ f, StateText f bs) → loadOrCreateText om (some bs) = (.empty, stateText om SignState.empty.persist)) ∧
    ∃ (good bad : Bytes) (f : PFile), StateText f good ∧ f.height = 41 ∧ bad.length = good.length ∧
      (∃ i : Nat, ∀ j : Nat, j ≠ i → bad[j]? = good[j]?) ∧ (loadOrCreateText om (some bad)).1.height = 0 := by
  have first : ∀ bs, (¬ ∃ f, StateText f bs) →
      loadOrCreateText om (some bs) = (.empty, stateText om SignState.empty.persist) := by
    intro bs h
    simp [loadOrCreateText, C79_refused bs h]
  refine ⟨first, text "{\"height\":\"41\"}", text "{\"height\":\"4l\"}", ⟨41, 0, 0, none, none, none⟩,
    readState_iff.1 (by decide +kernel), rfl, by decide +kernel, ⟨12, ?_⟩, ?_⟩
  · intro j hj
    match j with
    | 0 | 1 | 2 | 3 | 4 | 5 | 6 | 7 | 8 | 9 | 10 | 11 | 13 | 14 => decide +kernel
    | 12 => exact absurd rfl hj
    | n + 15 =>
      rw [show text "{\"height\":\"41\"}" = [123, 34, 104, 101, 105, 103, 104, 116, 34, 58, 34, 52, 49, 34, 125] by decide +kernel,
        show text "{\"height\":\"4l\"}" = [123, 34, 104, 101, 105, 103, 104, 116, 34, 58, 34, 52, 108, 34, 125] by
          decide +kernel]
      simp
  · have : readState (text "{\"height\":\"4l\"}") = none := by decide +kernel
    simp only [loadOrCreateText, loadStateText, this, Option.map_none]
    rfl

end Horcrux
