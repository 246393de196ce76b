import Verif.Lemmas.StateFile
import Verif.Props.Disk
/-
Property C65: the text of the sign state file.
-/
set_option linter.unusedSimpArgs false

namespace Horcrux
open Spec

theorem decInt_ascii (x : Int) : ∀ c ∈ decInt x, c < 0x80 ∧ c ≠ 125 := by
  have hd : ∀ c : UInt8, isDigit c = true → c < 0x80 ∧ c ≠ 125 := by
    intro c h
    simp only [isDigit, Bool.and_eq_true, decide_eq_true_eq] at h
    have h2 : c.toNat ≤ 57 := h.2
    refine ⟨show c.toNat < 128 by omega, ?_⟩
    rintro rfl
    exact absurd h2 (by decide)
  intro c hc
  unfold decInt at hc
  split at hc
  · rcases List.mem_cons.1 hc with rfl | hc
    · decide
    · exact hd c ((decNat_spec _).2.1 c hc)
  · exact hd c ((decNat_spec _).2.1 c hc)

theorem sanitize_decInt (x : Int) : sanitize (decInt x) = decInt x :=
  validUtf8_ascii _ fun c hc => (decInt_ascii x c hc).1

theorem decInt_escaped (x : Int) : escaped (decInt x) = false := by
  refine escaped_plain fun c hc => ⟨(decInt_ascii x c hc).1, ?_⟩
  have hd : ∀ c : UInt8, isDigit c = true ∨ c = 45 → escAscii c = [c] := u8_forall (by decide +kernel)
  refine hd c ?_
  unfold decInt at hc
  split at hc
  · rcases List.mem_cons.1 hc with rfl | hc
    · exact .inr rfl
    · exact .inl ((decNat_spec _).2.1 c hc)
  · exact .inl ((decNat_spec _).2.1 c hc)

theorem tmInt64_str {x : Int} (h : IsI64 x) : tmInt64 (some (.str (decInt x) false)) = some x := by
  have := parseJson_print (.num (decInt x)) (by simp only [JVal.numsOk]; exact decInt_numOk x)
    (Nat.zero_le _)
  simp only [JVal.print, JVal.clean] at this
  simp only [tmInt64, this, Option.bind_some, setInt, decInt_parseInt h]
  rw [if_pos]
  unfold IsI64 at h
  omega

theorem tmInt8_num {x : Int} (h : IsI8 x) : tmInt8 (some (.num (decInt x))) = some x := by
  have h' : IsI64 x := by unfold IsI64; unfold IsI8 at h; omega
  simp only [tmInt8, setInt, decInt_parseInt h']
  rw [if_pos]
  unfold IsI8 at h
  omega

theorem stateMembers_numsOk (om : Slice → Bool) (f : PFile) : (JObj.ofList (stateMembers om f)).numsOk := by
  have hb : ∀ s : Slice, (bytesJson s).numsOk := fun s => by cases s <;> exact trivial
  unfold stateMembers
  cases om f.signature <;> cases om f.signBytes <;>
    simp [JObj.ofList, JObj.numsOk, JVal.numsOk, decInt_numOk, hb]

/-- Reading back, exactly. -/
theorem readState_text (om : Slice → Bool) (f : PFile) (hh : IsI64 f.height) (hr : IsI64 f.round) (hs : IsI8 f.step)
    (h1 : om none = true) :
    readState (stateText om f) = some { f with
      ephemeralPublic := f.ephemeralPublic.norm
      signature := if om f.signature then none else f.signature.norm
      signBytes := if om f.signBytes then none else f.signBytes } := by
  have hp := parseJson_indent (JObj.ofList (stateMembers om f)) (stateMembers_numsOk om f)
    (by simp [stateMembers, JObj.ofList]) (by
      unfold stateMembers
      split <;> split <;> simp [JObj.ofList, JObj.depth, JVal.depth, bytesJson_depth, maxNesting])
  have hhex : ∀ s : Slice, om s = false → setHex (.str (hexEnc s.bytes) false) = some s := by
    intro s hs
    cases s with
    | none => rw [h1] at hs; cases hs
    | some b => simp [setHex, hexDec_enc, Slice.bytes]
  have hhe : ∀ bs : Bytes, sanitize (hexEnc bs) = hexEnc bs := hexEnc_valid
  have hb : ∀ s : Slice, tmBytes (some (bytesJson s).clean) = some s.norm := fun s => by rw [tmBytes, bytesJson_set]; rfl
  unfold readState stateText
  rw [hp]
  unfold stateMembers
  have e1 : sanitize fHeight = fHeight := by decide
  have e2 : sanitize fRound = fRound := by decide
  have e3 : sanitize fStep = fStep := by decide
  have e4 : sanitize fEphemeral = fEphemeral := by decide
  have e5 : sanitize fSignature = fSignature := by decide
  have e6 : sanitize fSignBytes = fSignBytes := by decide
  have n1 : fHeight ≠ fRound := by decide
  have n2 : fHeight ≠ fStep := by decide
  have n3 : fHeight ≠ fEphemeral := by decide
  have n4 : fHeight ≠ fSignature := by decide
  have n5 : fHeight ≠ fSignBytes := by decide
  have n6 : fRound ≠ fStep := by decide
  have n7 : fRound ≠ fEphemeral := by decide
  have n8 : fRound ≠ fSignature := by decide
  have n9 : fRound ≠ fSignBytes := by decide
  have n10 : fStep ≠ fEphemeral := by decide
  have n11 : fStep ≠ fSignature := by decide
  have n12 : fStep ≠ fSignBytes := by decide
  have n13 : fEphemeral ≠ fSignature := by decide
  have n14 : fEphemeral ≠ fSignBytes := by decide
  have n15 : fSignature ≠ fSignBytes := by decide
  have hhex' : ∀ s : Slice, om s = false → tmHex (some (.str (hexEnc s.bytes) false)) = some s := hhex
  cases hg : om f.signature <;> cases hc : om f.signBytes <;>
    simp [JObj.ofList, JObj.clean, JObj.member, e1, e2, e3, e4, e5, e6, n1, n2, n3, n4, n5, n6, n7, n8, n9, n10, n11, n12,
      n13, n14, n15, n1.symm, n2.symm, n3.symm, n4.symm, n5.symm, n6.symm, n7.symm, n8.symm, n9.symm, n10.symm, n11.symm,
      n12.symm, n13.symm, n14.symm, n15.symm, JVal.clean, sanitize_decInt, decInt_escaped, hexEnc_escaped, hhe, tmInt64_str, tmInt8_num, hh, hr, hs, hb,
      hhex', hg, hc, show tmBytes none = some none from rfl, show tmHex none = some none from rfl]

/-- C65: whatever state is written to the file is read back from its text: the same height, round, step, ephemeral key,
signature and sign bytes. (Only whether an empty slice is nil may change; `om` is what the library's `omitempty` leaves
out, among them nil slices and no non-empty ones.) -/
theorem C65_roundtrip (om : Slice → Bool) (h1 : om none = true) (h2 : ∀ b bs, om (some (b :: bs)) = false) (f : PFile)
    (hh : IsI64 f.height) (hr : IsI64 f.round) (hs : IsI8 f.step) :
    ∃ f', readState (stateText om f) = some f' ∧ f'.height = f.height ∧ f'.round = f.round ∧ f'.step = f.step ∧
      f'.ephemeralPublic.bytes = f.ephemeralPublic.bytes ∧
      (f.ephemeralPublic ≠ some [] → f'.ephemeralPublic = f.ephemeralPublic) ∧
      f'.signature.bytes = f.signature.bytes ∧ (f.signature ≠ some [] → f'.signature = f.signature) ∧
      f'.signBytes.bytes = f.signBytes.bytes ∧ (f.signBytes ≠ some [] → f'.signBytes = f.signBytes) := by
  have key : ∀ s : Slice, (if om s then none else s : Slice).bytes = s.bytes ∧
      (s ≠ some [] → (if om s then none else s : Slice) = s) := by
    intro s
    rcases s with _ | _ | ⟨b, bs⟩
    · simp [h1]
    · by_cases h : om (some []) = true <;> simp [h, Slice.bytes]
    · simp [h2]
  have norm : ∀ s : Slice, s.norm.bytes = s.bytes ∧ (s ≠ some [] → s.norm = s) := by
    intro s
    rcases s with _ | _ | ⟨b, bs⟩ <;> simp [Slice.norm, Slice.bytes]
  have both : ∀ s : Slice, (if om s then none else s.norm : Slice).bytes = s.bytes ∧
      (s ≠ some [] → (if om s then none else s.norm : Slice) = s) := by
    intro s
    rcases s with _ | _ | ⟨b, bs⟩
    · simp [h1]
    · by_cases h : om (some []) = true <;> simp [h, Slice.bytes, Slice.norm]
    · simp [h2, Slice.norm]
  refine ⟨_, readState_text om f hh hr hs h1, rfl, rfl, rfl, (norm _).1, (norm _).2, (both _).1, (both _).2, (key _).1,
    (key _).2⟩

theorem Slice.norm_norm (s : Slice) : s.norm.norm = s.norm := by
  rcases s with _ | _ | ⟨b, bs⟩ <;> rfl

/-- C65: loading the file a running process has written gives the state that the model of the disk (C36–C38) loads. -/
theorem C65_load (om : Slice → Bool) (h1 : om none = true) (h2 : ∀ b bs, om (some (b :: bs)) = false) (l : SignState)
    (hh : IsI64 l.height) (hr : IsI64 l.round) (hs : IsI8 l.step) :
    loadStateText (stateText om l.persist) = some l.persist.load := by
  have key : ∀ s : Slice, (if om s.norm then none else s.norm : Slice) = s.norm := by
    intro s
    rcases s with _ | _ | ⟨b, bs⟩
    · exact if_pos h1
    · exact if_pos h1
    · simp [Slice.norm, h2]
  unfold loadStateText
  rw [readState_text om l.persist hh hr hs h1]
  show some (PFile.load ⟨l.height, l.round, l.step, l.ephemeralPublic.norm.norm,
    if om l.signature.norm then none else l.signature.norm.norm,
    if om l.signBytes.norm then none else l.signBytes.norm⟩) = _
  rw [Slice.norm_norm, Slice.norm_norm, key, key]
  rfl

/-- C65: two files are the same only if they say the same. -/
theorem C65_injective (om : Slice → Bool) (h1 : om none = true) (h2 : ∀ b bs, om (some (b :: bs)) = false) (l l' : SignState)
    (hh : IsI64 l.height) (hr : IsI64 l.round) (hs : IsI8 l.step)
    (hh' : IsI64 l'.height) (hr' : IsI64 l'.round) (hs' : IsI8 l'.step)
    (h : stateText om l.persist = stateText om l'.persist) : l.persist = l'.persist := by
  have key : ∀ s : Slice, (if om s.norm then none else s.norm : Slice) = s.norm := by
    intro s
    rcases s with _ | _ | ⟨b, bs⟩
    · exact if_pos h1
    · exact if_pos h1
    · simp [Slice.norm, h2]
  have a := readState_text om l.persist hh hr hs h1
  have b := readState_text om l'.persist hh' hr' hs' h1
  rw [h, b] at a
  have := Option.some.inj a
  have hl : ∀ m : SignState, m.persist = ⟨m.height, m.round, m.step, m.ephemeralPublic.norm.norm,
      if om m.signature.norm then none else m.signature.norm.norm,
      if om m.signBytes.norm then none else m.signBytes.norm⟩ :=
    fun m => by rw [Slice.norm_norm, Slice.norm_norm, key, key]; rfl
  rw [hl l, hl l']
  exact this.symm

/-- No closing brace, ASCII only. -/
def NoBrace (s : Bytes) : Prop := ∀ c ∈ s, c < 0x80 ∧ c ≠ 125

theorem escAscii_noBrace {c : UInt8} (h : c < 0x80 ∧ c ≠ 125) : NoBrace (escAscii c) := by
  have key : ∀ n : Fin 128, n.val ≠ 125 → ∀ x ∈ escAscii (UInt8.ofNat n.val), x < 0x80 ∧ x ≠ 125 := by decide +kernel
  have hc : c = UInt8.ofNat c.toNat := by simp
  have hlt : c.toNat < 128 := h.1
  have := key ⟨c.toNat, hlt⟩ (fun h0 => h.2 (by rw [hc]; simp only at h0; rw [h0]; rfl))
  simp only at this
  rw [← hc] at this
  exact this

theorem encodeStrAux_noBrace : ∀ (f : Nat) (s : Bytes), NoBrace s → NoBrace (encodeStrAux f s)
  | 0, _, _ => by simp [encodeStrAux, NoBrace]
  | _ + 1, [], _ => by simp [encodeStrAux, NoBrace]
  | f + 1, c :: s, h => by
    have hc := h c (by simp)
    intro x hx
    simp only [encodeStrAux, hc.1, if_true] at hx
    rcases List.mem_append.1 hx with hx | hx
    · exact escAscii_noBrace hc x hx
    · exact encodeStrAux_noBrace f s (fun c hc => h c (by simp [hc])) x hx

theorem printStr_noBrace {s : Bytes} (h : NoBrace s) : NoBrace (printStr s) := by
  intro x hx
  simp only [printStr, List.mem_cons, List.mem_append, List.not_mem_nil, or_false] at hx
  rcases hx with rfl | hx | rfl
  · decide
  · exact encodeStrAux_noBrace _ s h x hx
  · decide

theorem b64Char_noBrace {n : Nat} (h : n < 64) : b64Char n < 0x80 ∧ b64Char n ≠ 125 := by
  have key : ∀ n : Fin 64, b64Char n.val < 0x80 ∧ b64Char n.val ≠ 125 := by decide +kernel
  exact key ⟨n, h⟩

theorem b64Enc_noBrace : ∀ bs : Bytes, NoBrace (b64Enc bs)
  | [] => by simp [b64Enc, NoBrace]
  | [a] => by
    have ha : a.toNat < 256 := a.toNat_lt
    intro x hx
    simp only [b64Enc, List.mem_cons, List.not_mem_nil, or_false] at hx
    rcases hx with rfl | rfl | rfl | rfl
    · exact b64Char_noBrace (by omega)
    · exact b64Char_noBrace (by omega)
    · decide
    · decide
  | [a, b] => by
    have ha : a.toNat < 256 := a.toNat_lt
    have hb : b.toNat < 256 := b.toNat_lt
    intro x hx
    simp only [b64Enc, List.mem_cons, List.not_mem_nil, or_false] at hx
    rcases hx with rfl | rfl | rfl | rfl
    · exact b64Char_noBrace (by omega)
    · exact b64Char_noBrace (by omega)
    · exact b64Char_noBrace (by omega)
    · decide
  | a :: b :: c :: rest => by
    have ha : a.toNat < 256 := a.toNat_lt
    have hb : b.toNat < 256 := b.toNat_lt
    have hc : c.toNat < 256 := c.toNat_lt
    intro x hx
    simp only [b64Enc, List.mem_cons] at hx
    rcases hx with rfl | rfl | rfl | rfl | hx
    · exact b64Char_noBrace (by omega)
    · exact b64Char_noBrace (by omega)
    · exact b64Char_noBrace (by omega)
    · exact b64Char_noBrace (by omega)
    · exact b64Enc_noBrace rest x hx

theorem hexEnc_noBrace : ∀ bs : Bytes, NoBrace (hexEnc bs)
  | [] => by simp [hexEnc, NoBrace]
  | b :: bs => by
    have key : ∀ n : Fin 16, hexUpper n.val < 0x80 ∧ hexUpper n.val ≠ 125 := by decide +kernel
    have hb : b.toNat < 256 := b.toNat_lt
    intro x hx
    simp only [hexEnc, List.mem_cons] at hx
    rcases hx with rfl | rfl | hx
    · exact key ⟨b.toNat / 16, by omega⟩
    · exact key ⟨b.toNat % 16, by omega⟩
    · exact hexEnc_noBrace bs x hx

theorem bytesJson_noBrace (s : Slice) : NoBrace (bytesJson s).print := by
  cases s with
  | none => unfold NoBrace; decide
  | some b => exact printStr_noBrace (b64Enc_noBrace b)

theorem indent_noBrace : ∀ (l : List (Bytes × JVal)) (b : Bool), (∀ e ∈ l, NoBrace e.1 ∧ NoBrace e.2.print) →
    NoBrace ((JObj.ofList l).indent b)
  | [], _, _ => by simp [JObj.ofList, JObj.indent, NoBrace]
  | (k, v) :: l, b, h => by
    have hl := indent_noBrace l false fun e he => h e (by simp [he])
    obtain ⟨h1, h2⟩ := h (k, v) (by simp)
    intro x hx
    simp only [JObj.ofList, JObj.indent, List.mem_append, List.mem_cons] at hx
    rcases hx with hx | rfl | rfl | rfl | hx | rfl | rfl | hx | hx
    · cases b
      · simp at hx; subst hx; decide
      · simp at hx
    · decide
    · decide
    · decide
    · exact printStr_noBrace h1 x hx
    · decide
    · decide
    · exact h2 x hx
    · exact hl x hx

theorem stateMembers_noBrace (om : Slice → Bool) (f : PFile) : ∀ e ∈ stateMembers om f, NoBrace e.1 ∧ NoBrace e.2.print := by
  have d1 : NoBrace fHeight := by unfold NoBrace; decide
  have d2 : NoBrace fRound := by unfold NoBrace; decide
  have d3 : NoBrace fStep := by unfold NoBrace; decide
  have d4 : NoBrace fEphemeral := by unfold NoBrace; decide
  have d5 : NoBrace fSignature := by unfold NoBrace; decide
  have d6 : NoBrace fSignBytes := by unfold NoBrace; decide
  intro e he
  unfold stateMembers at he
  rcases List.mem_append.1 he with he | he
  · rcases List.mem_append.1 he with he | he
    · simp only [List.mem_cons, List.not_mem_nil, or_false] at he
      rcases he with rfl | rfl | rfl | rfl
      · exact ⟨d1, printStr_noBrace (decInt_ascii _)⟩
      · exact ⟨d2, printStr_noBrace (decInt_ascii _)⟩
      · exact ⟨d3, decInt_ascii _⟩
      · exact ⟨d4, bytesJson_noBrace _⟩
    · split at he
      · cases he
      · simp only [List.mem_cons, List.not_mem_nil, or_false] at he
        subst he; exact ⟨d5, bytesJson_noBrace _⟩
  · split at he
    · cases he
    · simp only [List.mem_cons, List.not_mem_nil, or_false] at he
      subst he; exact ⟨d6, printStr_noBrace (hexEnc_noBrace _)⟩

/-- C65: a file cut short anywhere is not taken for a state. -/
theorem C65_truncated (om : Slice → Bool) (f : PFile) (p q : Bytes) (hq : q ≠ []) (h : stateText om f = p ++ q) :
    readState p = none := by
  have hplain : ∀ c ∈ (JObj.ofList (stateMembers om f)).indent true, c ≠ 125 :=
    fun c hc => (indent_noBrace _ true (stateMembers_noBrace om f) c hc).2
  cases p with
  | nil => rfl
  | cons c p =>
    unfold stateText at h
    simp only [List.cons_append, List.cons.injEq] at h
    obtain ⟨rfl, h⟩ := h
    have hno : 125 ∉ p := by
      intro hin
      obtain ⟨q', z, rfl⟩ : ∃ q' z, q = q' ++ [z] := ⟨q.dropLast, q.getLast hq, (List.dropLast_concat_getLast hq).symm⟩
      have h3 : (JObj.ofList (stateMembers om f)).indent true ++ [10] = p ++ q' := by
        have : (JObj.ofList (stateMembers om f)).indent true ++ [10] ++ [125] = (p ++ q') ++ [z] := by
          simpa using h
        exact (List.append_inj' this rfl).1
      have : (125 : UInt8) ∈ (JObj.ofList (stateMembers om f)).indent true ++ [10] := by rw [h3]; simp [hin]
      rcases List.mem_append.1 this with h4 | h4
      · exact hplain _ h4 rfl
      · simp at h4
    unfold readState
    rw [parseJson_open hno]

theorem tmInt64_range {v : Option JVal} {x : Int} (h : tmInt64 v = some x) : IsI64 x := by
  unfold tmInt64 at h
  split at h
  · cases h; exact ⟨by decide, by decide⟩
  · cases h; exact ⟨by decide, by decide⟩
  · obtain ⟨j, -, hj⟩ := Option.bind_eq_some_iff.1 h
    have := setInt_range hj (by decide)
    unfold IsI64; omega
  · cases h

theorem tmInt8_range {v : Option JVal} {x : Int} (h : tmInt8 v = some x) : IsI8 x := by
  unfold tmInt8 at h
  split at h
  · cases h; exact ⟨by decide, by decide⟩
  · have := setInt_range h (by decide)
    unfold IsI8; omega

/-- C65: whatever a file contains, the state read from it has a height and a round within int64 and a step within int8;
so it is one of those that the theorems above are about. -/
theorem C65_range (bs : Bytes) (f : PFile) (h : readState bs = some f) : IsI64 f.height ∧ IsI64 f.round ∧ IsI8 f.step := by
  unfold readState at h
  split at h
  · cases h; exact ⟨⟨by decide, by decide⟩, ⟨by decide, by decide⟩, ⟨by decide, by decide⟩⟩
  · split at h
    · rename_i hh hr hs _ _ _
      cases h
      exact ⟨tmInt64_range hh, tmInt64_range hr, tmInt8_range hs⟩
    · cases h
  · cases h

/-- C65: what was read from any file, written again, is read back with the same height, round, step, ephemeral key,
signature and sign bytes. -/
theorem C65_rewrite (om : Slice → Bool) (h1 : om none = true) (h2 : ∀ b bs, om (some (b :: bs)) = false) (bs : Bytes)
    (f : PFile) (h : readState bs = some f) :
    ∃ f', readState (stateText om f) = some f' ∧ f'.height = f.height ∧ f'.round = f.round ∧ f'.step = f.step ∧
      f'.ephemeralPublic.bytes = f.ephemeralPublic.bytes ∧ f'.signature.bytes = f.signature.bytes ∧
      f'.signBytes.bytes = f.signBytes.bytes := by
  obtain ⟨a, b, c⟩ := C65_range bs f h
  obtain ⟨f', e1, e2, e3, e4, e5, -, e6, -, e7, -⟩ := C65_roundtrip om h1 h2 f a b c
  exact ⟨f', e1, e2, e3, e4, e5, e6, e7⟩

/-- A file with step 128 is no state, one with step 127 is. -/
example : readState [123, 34, 115, 116, 101, 112, 34, 58, 49, 50, 56, 125] = none ∧
    readState [123, 34, 115, 116, 101, 112, 34, 58, 49, 50, 55, 125] = some ⟨0, 0, 127, none, none, none⟩ := by
  decide +kernel

/-- C65: at start, a file that can be read is used and left alone; otherwise an empty state is written, and read back as
empty next time. -/
theorem C65_created (om : Slice → Bool) (h1 : om none = true) (file : Option Bytes) :
    (∀ bs f, file = some bs → readState bs = some f → loadOrCreateText om file = (f.load, bs)) ∧
    ((∀ bs, file = some bs → readState bs = none) → ∃ bs, loadOrCreateText om file = (.empty, bs) ∧
      readState bs = some ⟨0, 0, 0, none, none, none⟩ ∧ loadOrCreateText om (some bs) =
        ((⟨0, 0, 0, none, none, none⟩ : PFile).load, bs)) := by
  have he : readState (stateText om SignState.empty.persist) = some ⟨0, 0, 0, none, none, none⟩ := by
    rw [readState_text om _ (by decide) (by decide) (by decide) h1]
    show some (⟨0, 0, 0, none, if om none then none else none, if om none then none else none⟩ : PFile) = _
    rw [h1]; rfl
  refine ⟨?_, ?_⟩
  · rintro bs f rfl hf
    simp [loadOrCreateText, loadStateText, hf]
  · intro h
    refine ⟨stateText om SignState.empty.persist, ?_, he, by simp [loadOrCreateText, loadStateText, he]⟩
    cases file with
    | none => rfl
    | some bs => simp [loadOrCreateText, loadStateText, h bs rfl]

/-- Concretely: the file of a precommit at height 7. -/
def fileText : Bytes := stateText (fun s => s.isNone) ⟨7, 1, 3, some [1, 2], some [255], some [171]⟩

example : readState fileText = some ⟨7, 1, 3, some [1, 2], some [255], some [171]⟩ ∧
    readState (fileText.take (fileText.length - 1)) = none ∧ readState [110, 117, 108, 108] = some ⟨0, 0, 0, none, none, none⟩ := by
  decide +kernel

example : (fun s : Slice => s.isNone) none = true ∧ (∀ b bs, (fun s : Slice => s.isNone) (some (b :: bs)) = false) ∧
    (fun s : Slice => s.bytes.isEmpty) none = true ∧ (∀ b bs, (fun s : Slice => s.bytes.isEmpty) (some (b :: bs)) = false) :=
  ⟨rfl, fun _ _ => rfl, rfl, fun _ _ => rfl⟩

end Horcrux
