import Verif.Spec.StateCmd
import Verif.Props.FS
import Verif.Lemmas.KeyFile
import Verif.Props.StateFile
/-
Property C75: the commands `state show` and `state set` as an operator calls them.
-/
namespace Horcrux
open Spec

variable {P : Type} [DecidableEq P] (L : Layout P)

/-! ### `state set` -/

/-- C75 is false of `state set`, always: called by its own name, the command finds itself among the running processes
and refuses, whatever else runs and whatever the files hold. -/
theorem C75_self_fails (fs : FS P) (c : Caller) (arg : Str) (w w' : Bool) (h : horcruxName <:+: c.self) :
    stateSetCmd L fs c arg w w' = (false, fs) := by
  have hr : c.isRunning = true := by simp [Caller.isRunning, h]
  simp [stateSetCmd, stateSet, hr]

/-- The command is installed as `horcrux` (`Makefile:12-18`); nothing else runs. -/
example : (⟨none, hm, fun _ => true, horcruxName, []⟩ : Caller).isRunning = true ∧
    (stateSetCmd demoLayout demoFS ⟨none, hm, fun _ => true, horcruxName, []⟩ arg101 true true).1 = false := by
  decide +kernel

/-- Files are in directories that exist. -/
def InDirs (L : Layout P) (fs : FS P) (c : Caller) : Prop := ∀ d, fs.files (L.config d) ≠ none → c.dirs d = true

/-- C75 is false with the `--home` flag, always: if the directory exists, both commands refuse; if it does not, there is
nothing to show or to set. -/
theorem C75_home_fails (fs : FS P) (c : Caller) (d : Str) (arg : Str) (w w' : Bool) (hf : c.flag = some d)
    (hd : InDirs L fs c) : stateSetCmd L fs c arg w w' = (false, fs) ∧ stateShowCmd L fs c = none := by
  have hh : c.home = d := by simp [Caller.home, hf]
  cases hdir : c.dirs d with
  | true =>
    have : c.homeFound = true := by simp [Caller.homeFound, hf, hdir]
    refine ⟨?_, by simp [stateShowCmd, this]⟩
    unfold stateSetCmd stateSet stateSetWith
    rw [this]
    simp
  | false =>
    have hc : fs.readConfig L d = none := by
      unfold FS.readConfig
      cases hx : fs.files (L.config d) with
      | none => rfl
      | some x => exact absurd (hd d (by rw [hx]; simp)) (by rw [hdir]; simp)
    refine ⟨?_, ?_⟩
    · unfold stateSetCmd stateSet stateSetWith
      rw [hh]
      split
      · rfl
      · split
        · rfl
        · rw [hc]
    · unfold stateShowCmd stateShowWith
      split
      · rfl
      · rw [hh, hc]

/-- The same files, with and without the flag. -/
example : InDirs demoLayout demoFS ⟨some hm, hm, fun _ => true, horcruxName, []⟩ ∧
    (stateShowCmd demoLayout demoFS ⟨some hm, hm, fun _ => true, horcruxName, []⟩).isSome = false ∧
    (stateShowCmd demoLayout demoFS ⟨none, hm, fun _ => true, horcruxName, []⟩).isSome = true :=
  ⟨fun _ _ => rfl, by decide +kernel, by decide +kernel⟩

/-- C75, partial: `state set` reports success exactly if it is called by another name, no process has `horcrux` in its
name, the `--home` flag is not given, the configuration and both state files can be read, and the argument is a 64-bit
integer. Missing: everything else that the operator may expect to work. -/
theorem C75_set_partial (fs : FS P) (c : Caller) (arg : Str) (w w' : Bool) (hd : InDirs L fs c) :
    (stateSetCmd L fs c arg w w').1 = true ↔
      ¬ horcruxName <:+: c.self ∧ (∀ n ∈ c.others, ¬ horcruxName <:+: n) ∧ c.flag = none ∧
      ∃ cfg pv share height, fs.files (L.config c.defaultHome) = some (.config cfg) ∧
        fs.files (L.state c.defaultHome cfg.chainID .pv) = some (.state pv) ∧
        fs.files (L.state c.defaultHome cfg.chainID .share) = some (.state share) ∧ parseInt arg = some height := by
  constructor
  · intro h
    have hself : ¬ horcruxName <:+: c.self := by
      intro hs
      rw [C75_self_fails L fs c arg w w' hs] at h
      cases h
    have hflag : c.flag = none := by
      cases hfl : c.flag with
      | none => rfl
      | some d =>
        rw [(C75_home_fails L fs c d arg w w' hfl hd).1] at h
        cases h
    have hhome : c.home = c.defaultHome := by simp [Caller.home, hflag]
    unfold stateSetCmd at h
    rcases stateSet_cases L fs c.home c.isRunning c.homeFound arg w w' with ⟨h', _⟩ | ⟨cfg, f, g, height, h1, h2, h3, h4, _⟩
    · rw [h] at h'; cases h'
    · refine ⟨hself, ?_, hflag, cfg, f, g, height, ?_, ?_, ?_, h4⟩
      · intro n hn hx
        have : c.isRunning = true := by
          simp only [Caller.isRunning, List.any_cons, Bool.or_eq_true, List.any_eq_true, decide_eq_true_eq]
          exact .inr ⟨n, hn, hx⟩
        simp [stateSet, this] at h
      · rw [hhome] at h1
        unfold FS.readConfig at h1
        split at h1
        · next x hx => cases h1; exact hx
        · cases h1
      · rw [hhome] at h2
        unfold FS.readState at h2
        split at h2
        · next x hx => cases h2; exact hx
        · cases h2
      · rw [hhome] at h3
        unfold FS.readState at h3
        split at h3
        · next x hx => cases h3; exact hx
        · cases h3
  · rintro ⟨hself, hoth, hflag, cfg, pv, share, height, h1, h2, h3, h4⟩
    have hhome : c.home = c.defaultHome := by simp [Caller.home, hflag]
    have hrun : c.isRunning = false := by
      simp only [Caller.isRunning, List.any_eq_false, List.mem_cons, decide_eq_true_eq]
      rintro n (rfl | hn)
      · exact hself
      · exact hoth n hn
    have hfound : c.homeFound = false := by simp [Caller.homeFound, hflag]
    simp [stateSetCmd, stateSet, stateSetWith, hrun, hfound, hhome, FS.readConfig, FS.readState, h1, h2, h3, h4]

/-- Called `hx`, it works. -/
example : (stateSetCmd demoLayout demoFS ⟨none, hm, fun _ => true, [104, 120], [[98, 97, 115, 104]]⟩ arg101 true true).1 =
    true := by decide +kernel

/-! ### `state show` -/

theorem unlines_inj : ∀ {a b : List Bytes}, (∀ l ∈ a, (10 : UInt8) ∉ l) → (∀ l ∈ b, (10 : UInt8) ∉ l) →
    unlines a = unlines b → a = b
  | [], [], _, _, _ => rfl
  | [], l :: b, _, _, h => by simp [unlines] at h
  | l :: a, [], _, _, h => by simp [unlines] at h
  | l :: a, m :: b, ha, hb, h => by
    have key : ∀ (l m r s : Bytes), (10 : UInt8) ∉ l → (10 : UInt8) ∉ m → l ++ 10 :: r = m ++ 10 :: s → l = m ∧ r = s := by
      intro l
      induction l with
      | nil =>
        intro m r s _ hm h
        cases m with
        | nil => exact ⟨rfl, by simpa using h⟩
        | cons x m =>
          simp only [List.nil_append, List.cons_append, List.cons.injEq] at h
          exact absurd (by rw [← h.1]; simp) hm
      | cons y l ih =>
        intro m r s hl hm h
        cases m with
        | nil =>
          simp only [List.nil_append, List.cons_append, List.cons.injEq] at h
          exact absurd (by rw [h.1]; simp) hl
        | cons x m =>
          simp only [List.cons_append, List.cons.injEq] at h
          obtain ⟨h1, h2⟩ := ih m r s (fun hx => hl (by simp [hx])) (fun hx => hm (by simp [hx])) h.2
          exact ⟨by rw [h.1, h1], h2⟩
    have h' : l ++ 10 :: unlines a = m ++ 10 :: unlines b := by simpa [unlines] using h
    obtain ⟨h1, h2⟩ := key l m _ _ (ha l (by simp)) (hb m (by simp)) h'
    rw [h1, unlines_inj (fun x hx => ha x (by simp [hx])) (fun x hx => hb x (by simp [hx])) h2]

theorem decAux_digits (f n : Nat) (acc : Bytes) (hacc : (10 : UInt8) ∉ acc) : (10 : UInt8) ∉ decAux f n acc := by
  induction f generalizing n acc with
  | zero => exact hacc
  | succ f ih =>
    have hd : ∀ k < 10, (10 : UInt8) ≠ UInt8.ofNat (48 + k) := by decide
    unfold decAux
    split
    · next h => 
      simp only [List.mem_cons, not_or]
      exact ⟨hd n h, hacc⟩
    · apply ih
      simp only [List.mem_cons, not_or]
      exact ⟨hd _ (Nat.mod_lt _ (by decide)), hacc⟩

theorem decInt_noNl (x : Int) : (10 : UInt8) ∉ decInt x := by
  unfold decInt
  split
  · simp only [List.mem_cons, not_or]
    exact ⟨by decide, decAux_digits _ _ _ (by simp)⟩
  · exact decAux_digits _ _ _ (by simp)

theorem hexEnc_noNl : ∀ bs : Bytes, (10 : UInt8) ∉ hexEnc bs
  | [] => by simp [hexEnc]
  | b :: bs => by
    have h : ∀ k < 16, (10 : UInt8) ≠ hexUpper k := by decide
    simp only [hexEnc, List.mem_cons, not_or]
    exact ⟨h _ (by have := b.toNat_lt; omega), h _ (Nat.mod_lt _ (by decide)), hexEnc_noNl bs⟩

theorem b64Enc_noNl (bs : Bytes) : (10 : UInt8) ∉ b64Enc bs := fun h => (b64Enc_mem bs 10 h).1 rfl

/-- Every line of a state begins with a space and has no line end in it. -/
theorem signStateLines_mem (f : PFile) : ∀ l ∈ signStateLines f, (∃ r, l = 32 :: r) ∧ (10 : UInt8) ∉ l := by
  have opt : ∀ (label : Bytes) (enc : Bytes → Bytes) (s : Slice), (∃ r, label = 32 :: r) → (10 : UInt8) ∉ label →
      (∀ bs, (10 : UInt8) ∉ enc bs) → ∀ l ∈ optLine label enc s, (∃ r, l = 32 :: r) ∧ (10 : UInt8) ∉ l := by
    rintro label enc s ⟨r, rfl⟩ hn he l hl
    cases s with
    | none => simp [optLine] at hl
    | some bs =>
      simp only [optLine, List.mem_singleton] at hl
      subst hl
      exact ⟨⟨_, rfl⟩, by rw [List.mem_append, not_or]; exact ⟨hn, he bs⟩⟩
  intro l hl
  simp only [signStateLines, List.mem_append, List.mem_cons, List.not_mem_nil, or_false] at hl
  rcases hl with (rfl | rfl | rfl) | hl | hl | hl
  · exact ⟨⟨_, rfl⟩, by rw [List.mem_append, not_or]; exact ⟨by decide, decInt_noNl _⟩⟩
  · exact ⟨⟨_, rfl⟩, by rw [List.mem_append, not_or]; exact ⟨by decide, decInt_noNl _⟩⟩
  · exact ⟨⟨_, rfl⟩, by rw [List.mem_append, not_or]; exact ⟨by decide, decInt_noNl _⟩⟩
  · exact opt _ _ _ ⟨_, rfl⟩ (by decide) b64Enc_noNl l hl
  · exact opt _ _ _ ⟨_, rfl⟩ (by decide) b64Enc_noNl l hl
  · exact opt _ _ _ ⟨_, rfl⟩ (by decide) hexEnc_noNl l hl

theorem b64Enc_inj {a b : Bytes} (h : b64Enc a = b64Enc b) : a = b := by
  have := b64Dec_enc a
  rw [h, b64Dec_enc] at this
  exact (Option.some.inj this).symm

theorem hexEnc_inj {a b : Bytes} (h : hexEnc a = hexEnc b) : a = b := by
  have := hexDec_enc a
  rw [h, hexDec_enc] at this
  exact (Option.some.inj this).symm

theorem signStateLines_inj {f g : PFile} (hf : IsI64 f.height ∧ IsI64 f.round ∧ IsI8 f.step)
    (hg : IsI64 g.height ∧ IsI64 g.round ∧ IsI8 g.step) (h : signStateLines f = signStateLines g) : f = g := by
  have i8 : ∀ {x : Int}, IsI8 x → IsI64 x := fun {x} hx => by unfold IsI8 at hx; unfold IsI64; omega
  obtain ⟨h1, r1, s1, e1, g1, b1⟩ := f
  obtain ⟨h2, r2, s2, e2, g2, b2⟩ := g
  simp only [signStateLines, List.cons_append, List.nil_append, List.cons.injEq, List.append_cancel_left_eq] at h
  obtain ⟨eh, er, es, eo⟩ := h
  have eh := decInt_inj hf.1 hg.1 eh
  have er := decInt_inj hf.2.1 hg.2.1 er
  have es := decInt_inj (i8 hf.2.2) (i8 hg.2.2) es
  have : e1 = e2 ∧ g1 = g2 ∧ b1 = b2 := by
    rcases e1 with _ | e1 <;> rcases e2 with _ | e2 <;> rcases g1 with _ | g1 <;> rcases g2 with _ | g2 <;>
      rcases b1 with _ | b1 <;> rcases b2 with _ | b2 <;>
      simp [optLine, lEphemeral, lSignature, lSignBytes] at eo ⊢
    all_goals
      first
      | exact b64Enc_inj eo
      | exact hexEnc_inj eo
      | exact ⟨b64Enc_inj eo.1, hexEnc_inj eo.2⟩
      | exact ⟨b64Enc_inj eo.1, b64Enc_inj eo.2⟩
      | exact ⟨b64Enc_inj eo.1, b64Enc_inj eo.2.1, hexEnc_inj eo.2.2⟩
  simp only at eh er es
  rw [eh, er, es, this.1, this.2.1, this.2.2]

/-- What is printed tells the two states apart from all others. -/
theorem showText_inj {pv share pv' share' : PFile}
    (h1 : IsI64 pv.height ∧ IsI64 pv.round ∧ IsI8 pv.step) (h2 : IsI64 share.height ∧ IsI64 share.round ∧ IsI8 share.step)
    (h1' : IsI64 pv'.height ∧ IsI64 pv'.round ∧ IsI8 pv'.step)
    (h2' : IsI64 share'.height ∧ IsI64 share'.round ∧ IsI8 share'.step)
    (h : showText pv share = showText pv' share') : pv = pv' ∧ share = share' := by
  have nonl : ∀ a b : PFile, ∀ l ∈ [lPrivate] ++ signStateLines a ++ ([lShare] ++ signStateLines b), (10 : UInt8) ∉ l := by
    intro a b l hl
    simp only [List.mem_append, List.mem_singleton] at hl
    rcases hl with (rfl | hl) | rfl | hl
    · decide
    · exact (signStateLines_mem a l hl).2
    · decide
    · exact (signStateLines_mem b l hl).2
  have hl := unlines_inj (nonl pv share) (nonl pv' share') h
  simp only [List.cons_append, List.nil_append, List.cons.injEq, true_and] at hl
  have split : ∀ (a b c d : List Bytes), (∀ l ∈ a, l ≠ lShare) → (∀ l ∈ b, l ≠ lShare) →
      a ++ lShare :: c = b ++ lShare :: d → a = b ∧ c = d := by
    intro a
    induction a with
    | nil =>
      intro b c d _ hb h
      cases b with
      | nil => exact ⟨rfl, by simpa using h⟩
      | cons x b =>
        simp only [List.nil_append, List.cons_append, List.cons.injEq] at h
        exact absurd h.1.symm (hb x (by simp))
    | cons y a ih =>
      intro b c d ha hb h
      cases b with
      | nil =>
        simp only [List.nil_append, List.cons_append, List.cons.injEq] at h
        exact absurd h.1 (ha y (by simp))
      | cons x b =>
        simp only [List.cons_append, List.cons.injEq] at h
        obtain ⟨e1, e2⟩ := ih b c d (fun l hl => ha l (by simp [hl])) (fun l hl => hb l (by simp [hl])) h.2
        exact ⟨by rw [h.1, e1], e2⟩
  have ne : ∀ a : PFile, ∀ l ∈ signStateLines a, l ≠ lShare := by
    rintro a l hl rfl
    obtain ⟨⟨r, hr⟩, -⟩ := signStateLines_mem a _ hl
    simp [lShare] at hr
  obtain ⟨e1, e2⟩ := split _ _ _ _ (ne pv) (ne pv') hl
  exact ⟨signStateLines_inj h1 h1' e1, signStateLines_inj h2 h2' e2⟩

theorem text_append (a b : String) : text (a ++ b) = text a ++ text b := by
  simp [text, String.toList_append]

theorem digitChar_byte : ∀ k < 10, UInt8.ofNat (Nat.digitChar k).toNat = UInt8.ofNat (48 + k) := by decide

theorem toDigitsCore_dec (f n : Nat) (acc : List Char) :
    (Nat.toDigitsCore 10 f n acc).map (fun c => UInt8.ofNat c.toNat) =
      decAux f n (acc.map fun c => UInt8.ofNat c.toNat) := by
  induction f generalizing n acc with
  | zero => rfl
  | succ f ih =>
    unfold Nat.toDigitsCore decAux
    by_cases h : n < 10
    · have h0 : n / 10 = 0 := by omega
      have h1 : n % 10 = n := by omega
      simp only [h0, h1, if_true, if_pos h, List.map_cons]
      rw [digitChar_byte n h]
    · have h0 : n / 10 ≠ 0 := by omega
      simp only [h0, if_false, if_neg h]
      rw [ih, List.map_cons, digitChar_byte _ (Nat.mod_lt _ (by decide))]

theorem text_nat (n : Nat) : text (Nat.repr n) = decNat n := by
  unfold text Nat.repr decNat
  rw [String.toList_ofList]
  exact toDigitsCore_dec (n + 1) n []

theorem text_int (x : Int) : text (toString x) = decInt x := by
  cases x with
  | ofNat n =>
    show text (Nat.repr n) = _
    rw [text_nat]
    have : ¬ (Int.ofNat n < 0) := by simp
    rw [decInt, if_neg this]; rfl
  | negSucc n =>
    show text ("-" ++ Nat.repr (n + 1)) = _
    rw [text_append, text_nat, decInt, if_pos (Int.negSucc_lt_zero n)]
    rfl

theorem unlines_append (a b : List Bytes) : unlines (a ++ b) = unlines a ++ unlines b := List.flatMap_append

theorem optLine_shown (s : String) (label : Bytes) (h : text s = label) (enc : Bytes → Bytes) (x : Slice) :
    unlines (optLine label enc x) = shownOpt s enc x := by
  cases x with
  | none => rfl
  | some bs => simp [optLine, shownOpt, unlines, h]; rfl

theorem unlines_shown (f : PFile) : unlines (signStateLines f) = shown f := by
  have e1 : text "  Height:    " = lHeight := rfl
  have e2 : text "  Round:     " = lRound := rfl
  have e3 : text "  Step:      " = lStep := rfl
  have e4 : text "\n" = [10] := rfl
  unfold signStateLines shown
  rw [unlines_append, unlines_append, unlines_append, optLine_shown "  Ephemeral Public Key: " lEphemeral rfl,
    optLine_shown "  Signature: " lSignature rfl, optLine_shown "  SignBytes: " lSignBytes rfl]
  simp only [text_append, text_int, e1, e2, e3, e4]
  simp [unlines]

theorem showText_shown (pv share : PFile) : showText pv share = shownBoth pv share := by
  have e1 : unlines [lPrivate] = text "Private Validator State:\n" := rfl
  have e2 : unlines [lShare] = text "Share Sign State:\n" := rfl
  unfold showText shownBoth
  rw [unlines_append, unlines_append, unlines_append, unlines_shown, unlines_shown, e1, e2, List.append_assoc,
    List.append_assoc, List.append_assoc]

omit [DecidableEq P] in
/-- C75: without the `--home` flag, `state show` fails exactly if the configuration or one of the state files cannot be
read, and otherwise prints the two stored states as specified. -/
theorem C75_show (fs : FS P) (c : Caller) (hflag : c.flag = none) (out : Bytes) :
    stateShowCmd L fs c = some out ↔ ∃ cfg pv share, fs.files (L.config c.defaultHome) = some (.config cfg) ∧
      fs.files (L.state c.defaultHome cfg.chainID .pv) = some (.state pv) ∧
      fs.files (L.state c.defaultHome cfg.chainID .share) = some (.state share) ∧ out = shownBoth pv share := by
  have hfound : c.homeFound = false := by simp [Caller.homeFound, hflag]
  have hhome : c.home = c.defaultHome := by simp [Caller.home, hflag]
  constructor
  · intro h
    unfold stateShowCmd stateShowWith at h
    rw [if_neg (by rw [hfound]; simp), hhome] at h
    split at h
    · cases h
    · next cfg hc =>
      split at h
      · cases h
      · next pv hp =>
        split at h
        · cases h
        · next share hs =>
          refine ⟨cfg, pv, share, ?_, ?_, ?_, ?_⟩
          · unfold FS.readConfig at hc
            split at hc
            · next x hx => cases hc; exact hx
            · cases hc
          · unfold FS.readState at hp
            split at hp
            · next x hx => cases hp; exact hx
            · cases hp
          · unfold FS.readState at hs
            split at hs
            · next x hx => cases hs; exact hx
            · cases hs
          · rw [← showText_shown]; exact (Option.some.inj h).symm
  · rintro ⟨cfg, pv, share, h1, h2, h3, rfl⟩
    simp [stateShowCmd, stateShowWith, hfound, hhome, FS.readConfig, FS.readState, h1, h2, h3, showText_shown]

/-- C75: what is printed tells everything: no other two states are printed like this. -/
theorem C75_show_injective {pv share pv' share' : PFile}
    (h1 : IsI64 pv.height ∧ IsI64 pv.round ∧ IsI8 pv.step) (h2 : IsI64 share.height ∧ IsI64 share.round ∧ IsI8 share.step)
    (h1' : IsI64 pv'.height ∧ IsI64 pv'.round ∧ IsI8 pv'.step)
    (h2' : IsI64 share'.height ∧ IsI64 share'.round ∧ IsI8 share'.step)
    (h : shownBoth pv share = shownBoth pv' share') : pv = pv' ∧ share = share' :=
  showText_inj h1 h2 h1' h2' (by rw [showText_shown, showText_shown]; exact h)

/-- What is printed of `⟨100, 2, 3, some [1], none, some [10]⟩`:
```
  Height:    100
  Round:     2
  Step:      3
  Ephemeral Public Key: AQ==
  SignBytes: 0A
```
-/
example : shown ⟨100, 2, 3, some [1], none, some [10]⟩ =
    text ("  Height:    100\n  Round:     2\n  Step:      3\n  Ephemeral Public Key: AQ==\n  SignBytes: 0A\n") := by
  decide +kernel

example : (stateShowCmd demoLayout demoFS ⟨none, hm, fun _ => true, horcruxName, []⟩) = some (showText pvFile shareFile) := by
  decide +kernel

end Horcrux
