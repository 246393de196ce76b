import Verif.Spec.Raft
import Verif.Lemmas.Json
import Verif.Lemmas.SignState
/-
The raft state machine: round trips of its JSON, the map against the log, and the events as saves.
-/
namespace Horcrux
open Spec

/-! ### JSON -/

theorem decodeFields_cons {α : Type} {set : α → Bytes → JVal → Option α} {m m' : α} {k : Bytes} {v : JVal} {l : JObj}
    (h : set m (foldKey k) v = some m') : decodeFields set m (.cons k v l) = decodeFields set m' l := by
  simp only [decodeFields, h]

theorem consStr_clean (k v : Bytes) (l : JObj) (hk : ValidUtf8 k) :
    (JObj.consStr k v l).clean = if v = [] then l.clean else .cons k (.str (sanitize v) (escaped v)) l.clean := by
  unfold JObj.consStr
  split
  · rfl
  · simp only [JObj.clean, JVal.clean, show sanitize k = k from hk]

theorem consStr_numsOk (k v : Bytes) (l : JObj) (h : l.numsOk) : (JObj.consStr k v l).numsOk := by
  unfold JObj.consStr
  split
  · exact h
  · exact ⟨trivial, h⟩

theorem consStr_depth (k v : Bytes) (l : JObj) : (JObj.consStr k v l).depth = l.depth := by
  unfold JObj.consStr
  split
  · rfl
  · simp [JObj.depth, JVal.depth]

theorem bytesJson_depth (s : Slice) : (bytesJson s).depth = 0 := by cases s <;> rfl

theorem objOfKV_depth : ∀ m : KV, (objOfKV m).depth = 0
  | [] => rfl
  | (_, _) :: m => by simp [objOfKV, JObj.depth, JVal.depth, objOfKV_depth m]

/-- A command reads back, up to invalid UTF-8. -/
theorem decode_encodeCommand (c : Command) :
    decodeCommand (encodeCommand c) = some ⟨sanitize c.op, sanitize c.key, sanitize c.value⟩ := by
  have hn : (JVal.obj (.consStr nOp c.op (.consStr nKey c.key (.consStr nValue c.value .nil)))).numsOk := by
    unfold JVal.numsOk
    exact consStr_numsOk _ _ _ (consStr_numsOk _ _ _ (consStr_numsOk _ _ _ trivial))
  unfold decodeCommand encodeCommand
  rw [parseJson_print _ hn (by simp [JVal.depth, JObj.depth, consStr_depth, maxNesting])]
  simp only [JVal.clean, consStr_clean nOp c.op _ rfl, consStr_clean nKey c.key _ rfl, consStr_clean nValue c.value _ rfl]
  obtain ⟨o, k, v⟩ := c
  by_cases ho : o = [] <;> by_cases hk : k = [] <;> by_cases hv : v = [] <;>
    simp only [ho, hk, hv, if_true, if_false] <;> rfl

theorem bytesJson_set (s : Slice) : setBytes (bytesJson s).clean = some s := by
  cases s with
  | none => rfl
  | some bs =>
    simp only [bytesJson, JVal.clean, setBytes, show sanitize (b64Enc bs) = _ from b64Enc_valid bs, b64Dec_enc]
    rfl

theorem setInt_dec {lo hi old x : Int} (h : IsI64 x) (h1 : lo ≤ x) (h2 : x ≤ hi) :
    setInt lo hi old (.num (decInt x)) = some x := by
  simp only [setInt, decInt_parseInt h, h1, h2, and_self, if_true]

/-- A record reads back; nil sign bytes become empty ones. -/
theorem decode_encodeSSC (r : SSC) (h1 : IsI64 r.height) (h2 : IsI64 r.round) (h3 : IsI8 r.step) :
    decodeSSC (encodeSSC r) = some { r with signBytes := some r.signBytes.bytes } := by
  have hb : (bytesJson r.signature).numsOk := by cases r.signature <;> exact trivial
  have hn : (JVal.obj (.cons nHeight (.num (decInt r.height)) (.cons nRound (.num (decInt r.round))
    (.cons nStep (.num (decInt r.step)) (.cons nSignature (bytesJson r.signature)
      (.cons nSignBytes (.str (hexEnc r.signBytes.bytes) false) .nil)))))).numsOk :=
    ⟨decInt_numOk _, decInt_numOk _, decInt_numOk _, hb, trivial, trivial⟩
  unfold decodeSSC encodeSSC
  rw [parseJson_print _ hn (by simp [JVal.depth, JObj.depth, bytesJson_depth, maxNesting])]
  simp only [JVal.clean, JObj.clean, show sanitize nHeight = nHeight from rfl, show sanitize nRound = nRound from rfl,
    show sanitize nStep = nStep from rfl, show sanitize nSignature = nSignature from rfl,
    show sanitize nSignBytes = nSignBytes from rfl, show sanitize (hexEnc r.signBytes.bytes) = _ from hexEnc_valid _,
    hexEnc_escaped]
  have h3' : IsI64 r.step := by unfold IsI64 IsI8 at *; omega
  have e1 : ∀ m : SSC, setSSC m (foldKey nHeight) (.num (decInt r.height)) = some { m with height := r.height } := by
    intro m
    rw [setSSC, if_pos rfl, setInt_dec h1 h1.1 (by have := h1.2; omega)]
    rfl
  have e2 : ∀ m : SSC, setSSC m (foldKey nRound) (.num (decInt r.round)) = some { m with round := r.round } := by
    intro m
    rw [setSSC, if_neg (by decide), if_pos rfl, setInt_dec h2 h2.1 (by have := h2.2; omega)]
    rfl
  have e3 : ∀ m : SSC, setSSC m (foldKey nStep) (.num (decInt r.step)) = some { m with step := r.step } := by
    intro m
    rw [setSSC, if_neg (by decide), if_neg (by decide), if_pos rfl,
      setInt_dec h3' (by unfold IsI8 at h3; omega) (by unfold IsI8 at h3; omega)]
    rfl
  have e4 : ∀ m : SSC, setSSC m (foldKey nSignature) (bytesJson r.signature).clean =
      some { m with signature := r.signature } := by
    intro m
    rw [setSSC, if_neg (by decide), if_neg (by decide), if_neg (by decide), if_pos rfl, bytesJson_set]
    rfl
  have e5 : ∀ m : SSC, setSSC m (foldKey nSignBytes) (.str (hexEnc r.signBytes.bytes) false) =
      some { m with signBytes := some r.signBytes.bytes } := by
    intro m
    rw [setSSC, if_neg (by decide), if_neg (by decide), if_neg (by decide), if_neg (by decide), if_pos rfl, setHex,
      hexDec_enc]
    rfl
  rw [decodeFields_cons (e1 _), decodeFields_cons (e2 _), decodeFields_cons (e3 _), decodeFields_cons (e4 _),
    decodeFields_cons (e5 _)]
  rfl

/-! ### Strings that come out of the decoder are valid -/

mutual
def JVal.valid : JVal → Prop
  | .str s _ => ValidUtf8 s
  | .arr l => l.valid
  | .obj l => l.valid
  | _ => True
def JArr.valid : JArr → Prop
  | .nil => True
  | .cons v l => v.valid ∧ l.valid
def JObj.valid : JObj → Prop
  | .nil => True
  | .cons k v l => ValidUtf8 k ∧ v.valid ∧ l.valid
end

theorem validUtf8_append_ascii {c : UInt8} {s : Bytes} (hc : c < 0x80) (h : ValidUtf8 s) : ValidUtf8 (c :: s) := by
  unfold ValidUtf8; rw [sanitize_cons_ascii hc, show sanitize s = s from h]

/-- Prefixing these bytes keeps a string valid. -/
def GoodPrefix (p : Bytes) : Prop := ∀ s, ValidUtf8 s → ValidUtf8 (p ++ s)

theorem goodPrefix_rune {c : UInt8} {s : Bytes} {n : Nat} (hc : ¬ c < 0x80) (h : runeLen (c :: s) = n + 1) :
    GoodPrefix ((c :: s).take (n + 1)) := by
  intro t ht
  unfold ValidUtf8
  rw [sanitize_append_rune hc h, show sanitize t = t from ht]

theorem goodPrefix_replacement : GoodPrefix replacement := by
  intro t ht
  unfold ValidUtf8
  rw [sanitize_append_replacement, show sanitize t = t from ht]

theorem goodPrefix_ascii {c : UInt8} (hc : c < 0x80) : GoodPrefix [c] := fun _ h => validUtf8_append_ascii hc h

theorem goodPrefix_of_rune {p : Bytes} {c : UInt8} {s : Bytes} (hp : p = c :: s) (hc : ¬ c < 0x80)
    (h : runeLen p = p.length) : GoodPrefix p := by
  subst hp
  have := goodPrefix_rune (n := s.length) hc (by rw [h]; rfl)
  rwa [List.take_of_length_le (by simp)] at this

theorem inRange_ofNat {lo hi : UInt8} {n : Nat} (h1 : lo.toNat ≤ n) (h2 : n ≤ hi.toNat) :
    inRange lo hi (UInt8.ofNat n) = true := by
  have hh := hi.toNat_lt
  have hn : (UInt8.ofNat n).toNat = n := by simp; omega
  simp only [inRange, Bool.and_eq_true, decide_eq_true_eq]
  exact ⟨by show lo.toNat ≤ (UInt8.ofNat n).toNat; omega, by show (UInt8.ofNat n).toNat ≤ hi.toNat; omega⟩

theorem inRange_ofNat_false {lo hi : UInt8} {n : Nat} (hn : n < 256) (h : ¬ (lo.toNat ≤ n ∧ n ≤ hi.toNat)) :
    inRange lo hi (UInt8.ofNat n) = false := by
  have hn : (UInt8.ofNat n).toNat = n := by simp; omega
  by_cases hr : inRange lo hi (UInt8.ofNat n) = true
  · exfalso
    simp only [inRange, Bool.and_eq_true, decide_eq_true_eq] at hr
    have h1 : lo.toNat ≤ (UInt8.ofNat n).toNat := hr.1
    have h2 : (UInt8.ofNat n).toNat ≤ hi.toNat := hr.2
    omega
  · simpa using hr

theorem ofNat_eq_lit {n : Nat} {b : UInt8} (hn : n < 256) : (UInt8.ofNat n = b) ↔ n = b.toNat := by
  constructor
  · rintro rfl; simp; omega
  · rintro rfl; simp

theorem encodeRune_good (r : Nat) : GoodPrefix (encodeRune r) := by
  unfold encodeRune
  split
  · exact goodPrefix_ascii (by show (UInt8.ofNat r).toNat < 128; simp; omega)
  split
  · have a1 : inRange 0xc2 0xdf (UInt8.ofNat (0xc0 + r / 64)) = true :=
      inRange_ofNat (by show 194 ≤ _; omega) (by show _ ≤ 223; omega)
    have a2 : inRange 0x80 0xbf (UInt8.ofNat (0x80 + r % 64)) = true :=
      inRange_ofNat (by show 128 ≤ _; omega) (by show _ ≤ 191; omega)
    refine goodPrefix_of_rune rfl (by show ¬ (UInt8.ofNat (0xc0 + r / 64)).toNat < 128; simp; omega) ?_
    simp only [runeLen, a1, a2, if_true]
    rfl
  split
  · exact goodPrefix_replacement
  split
  · rename_i h1 h2 h3 h4
    have hne : inRange 0xc2 0xdf (UInt8.ofNat (0xe0 + r / 4096)) = false :=
      inRange_ofNat_false (by omega) (by show ¬ (194 ≤ _ ∧ _ ≤ 223); omega)
    have a0 : inRange 0xe0 0xef (UInt8.ofNat (0xe0 + r / 4096)) = true :=
      inRange_ofNat (by show 224 ≤ _; omega) (by show _ ≤ 239; omega)
    have a3 : tail3 (UInt8.ofNat (0xe0 + r / 4096)) (UInt8.ofNat (0x80 + r / 64 % 64)) (UInt8.ofNat (0x80 + r % 64))
        = true := by
      unfold tail3
      rw [Bool.and_eq_true]
      refine ⟨?_, inRange_ofNat (by show 128 ≤ _; omega) (by show _ ≤ 191; omega)⟩
      have e0 := ofNat_eq_lit (n := 0xe0 + r / 4096) (b := 0xe0) (by omega)
      have ed := ofNat_eq_lit (n := 0xe0 + r / 4096) (b := 0xed) (by omega)
      rw [show (0xe0 : UInt8).toNat = 224 from rfl] at e0
      rw [show (0xed : UInt8).toNat = 237 from rfl] at ed
      apply inRange_ofNat
      · split
        · rename_i h; rw [e0] at h; show 160 ≤ _; omega
        · show 128 ≤ _; omega
      · split
        · rename_i h; rw [ed] at h; show _ ≤ 159; omega
        · show _ ≤ 191; omega
    refine goodPrefix_of_rune rfl (by show ¬ (UInt8.ofNat (0xe0 + r / 4096)).toNat < 128; simp; omega) ?_
    simp only [runeLen, hne, a0, a3, if_true]
    rfl
  · rename_i h1 h2 h3 h4
    have hne : inRange 0xc2 0xdf (UInt8.ofNat (0xf0 + r / 262144)) = false :=
      inRange_ofNat_false (by omega) (by show ¬ (194 ≤ _ ∧ _ ≤ 223); omega)
    have hne2 : inRange 0xe0 0xef (UInt8.ofNat (0xf0 + r / 262144)) = false :=
      inRange_ofNat_false (by omega) (by show ¬ (224 ≤ _ ∧ _ ≤ 239); omega)
    have a0 : inRange 0xf0 0xf4 (UInt8.ofNat (0xf0 + r / 262144)) = true :=
      inRange_ofNat (by show 240 ≤ _; omega) (by show _ ≤ 244; omega)
    have a4 : tail4 (UInt8.ofNat (0xf0 + r / 262144)) (UInt8.ofNat (0x80 + r / 4096 % 64))
        (UInt8.ofNat (0x80 + r / 64 % 64)) (UInt8.ofNat (0x80 + r % 64)) = true := by
      unfold tail4
      rw [Bool.and_eq_true, Bool.and_eq_true]
      refine ⟨⟨?_, inRange_ofNat (by show 128 ≤ _; omega) (by show _ ≤ 191; omega)⟩,
        inRange_ofNat (by show 128 ≤ _; omega) (by show _ ≤ 191; omega)⟩
      have e0 := ofNat_eq_lit (n := 0xf0 + r / 262144) (b := 0xf0) (by omega)
      have ed := ofNat_eq_lit (n := 0xf0 + r / 262144) (b := 0xf4) (by omega)
      rw [show (0xf0 : UInt8).toNat = 240 from rfl] at e0
      rw [show (0xf4 : UInt8).toNat = 244 from rfl] at ed
      apply inRange_ofNat
      · split
        · rename_i h; rw [e0] at h; show 144 ≤ _; omega
        · show 128 ≤ _; omega
      · split
        · rename_i h; rw [ed] at h; show _ ≤ 143; omega
        · show _ ≤ 191; omega
    refine goodPrefix_of_rune rfl (by show ¬ (UInt8.ofNat (0xf0 + r / 262144)).toNat < 128; simp; omega) ?_
    simp only [runeLen, hne, hne2, a0, a4, if_true]
    rfl

theorem uEscape_good (r : Nat) (rest : Bytes) : GoodPrefix (uEscape r rest).1 := by
  unfold uEscape
  split
  · split
    · rename_i rest'
      generalize hex4 rest' = o
      cases o with
      | none => exact goodPrefix_replacement
      | some x =>
        simp only
        split
        · dsimp only
          apply encodeRune_good
        · exact goodPrefix_replacement
    · exact goodPrefix_replacement
  · exact encodeRune_good _

theorem consStr_valid {p : Bytes} {o : Option (Bytes × Bytes)} {t rest : Bytes} (hp : GoodPrefix p)
    (ho : ∀ t' r', o = some (t', r') → ValidUtf8 t') (h : consStr p o = some (t, rest)) : ValidUtf8 t := by
  cases o with
  | none => cases h
  | some x =>
    obtain ⟨t', r'⟩ := x
    simp only [consStr, Option.some.injEq, Prod.mk.injEq] at h
    rw [← h.1]
    exact hp _ (ho t' r' rfl)

theorem parseStrAux_valid : ∀ (f : Nat) (s t rest : Bytes), parseStrAux f s = some (t, rest) → ValidUtf8 t := by
  intro f
  induction f with
  | zero => intro s t rest h; cases h
  | succ f ih =>
    intro s t rest h
    cases s with
    | nil => cases h
    | cons c s =>
      unfold parseStrAux at h
      have ih' : ∀ s' t' r', parseStrAux f s' = some (t', r') → ValidUtf8 t' := fun s' t' r' => ih s' t' r'
      split at h
      · cases h; rfl
      · split at h
        · split at h
          · cases h
          · split at h
            · split at h
              · cases h
              · exact consStr_valid (uEscape_good _ _) (fun t' r' => ih' _ t' r') h
            · split at h
              · cases h
              · rename_i b hb
                refine consStr_valid (goodPrefix_ascii ?_) (fun t' r' => ih' _ t' r') h
                unfold unescape at hb
                repeat' split at hb
                all_goals first | (cases hb; decide) | cases hb
        · split at h
          · cases h
          · split at h
            · rename_i hc
              exact consStr_valid (goodPrefix_ascii hc) (fun t' r' => ih' _ t' r') h
            · rename_i hc
              split at h
              · exact consStr_valid goodPrefix_replacement (fun t' r' => ih' _ t' r') h
              · rename_i n hn
                exact consStr_valid (goodPrefix_rune hc hn) (fun t' r' => ih' _ t' r') h

theorem parseStr_valid {s t rest : Bytes} (h : parseStr s = some (t, rest)) : ValidUtf8 t := parseStrAux_valid _ _ _ _ h

theorem parse_valid : ∀ f : Nat, (∀ bs v rest, parseVal f bs = some (v, rest) → v.valid) ∧
    (∀ bs l rest, parseElems f bs = some (l, rest) → l.valid) ∧
    (∀ bs l rest, parseMembers f bs = some (l, rest) → l.valid) := by
  intro f
  induction f with
  | zero =>
    refine ⟨?_, ?_, ?_⟩
    · intro bs v rest h; simp [parseVal] at h
    · intro bs v rest h; simp [parseElems] at h
    · intro bs v rest h; simp [parseMembers] at h
  | succ f ih =>
    obtain ⟨ih1, ih2, ih3⟩ := ih
    refine ⟨?_, ?_, ?_⟩
    · intro bs v rest h
      unfold parseVal at h
      split at h
      · cases h
      · split at h
        · split at h
          · cases h; exact trivial
          · split at h
            · cases h
            · rename_i l r hl
              cases h
              exact ih3 _ _ _ hl
        · split at h
          · split at h
            · cases h; exact trivial
            · split at h
              · cases h
              · rename_i l r hl
                cases h
                exact ih2 _ _ _ hl
          · split at h
            · split at h
              · cases h
              · rename_i t r ht
                cases h
                exact parseStr_valid ht
            · split at h
              · split at h <;> cases h; exact trivial
              · split at h
                · split at h <;> cases h; exact trivial
                · split at h
                  · split at h <;> cases h; exact trivial
                  · split at h <;> cases h; exact trivial
    · intro bs l rest h
      unfold parseElems at h
      split at h
      · cases h
      · rename_i v r hv
        split at h
        · split at h
          · cases h
          · rename_i l' r' hl'
            cases h
            exact ⟨ih1 _ _ _ hv, ih2 _ _ _ hl'⟩
        · cases h
          exact ⟨ih1 _ _ _ hv, trivial⟩
        · cases h
    · intro bs l rest h
      unfold parseMembers at h
      split at h
      · split at h
        · cases h
        · rename_i k s1 hk
          split at h
          · split at h
            · cases h
            · rename_i v r hv
              split at h
              · split at h
                · cases h
                · rename_i l' r' hl'
                  cases h
                  exact ⟨parseStr_valid hk, ih1 _ _ _ hv, ih3 _ _ _ hl'⟩
              · cases h
                exact ⟨parseStr_valid hk, ih1 _ _ _ hv, trivial⟩
              · cases h
          · cases h
      · cases h

theorem parseJson_valid {bs : Bytes} {v : JVal} (h : parseJson bs = some v) : v.valid := by
  unfold parseJson at h
  split at h
  · cases h
  · rename_i v' r hv
    split at h
    · cases h
      exact (parse_valid _).1 _ _ _ hv
    · cases h

theorem setString_valid {old s : Bytes} {v : JVal} (ho : ValidUtf8 old) (hv : v.valid) (h : setString old v = some s) :
    ValidUtf8 s := by
  cases v with
  | str t _ => cases h; exact hv
  | null => cases h; exact ho
  | _ => cases h

theorem decodeFields_command_valid : ∀ (l : JObj) (c c' : Command), l.valid → ValidUtf8 c.key → ValidUtf8 c.value →
    decodeFields setCommand c l = some c' → ValidUtf8 c'.key ∧ ValidUtf8 c'.value
  | .nil, c, c', _, hk, hv, h => by cases h; exact ⟨hk, hv⟩
  | .cons k v l, c, c', hl, hk, hv, h => by
    have hl' : ValidUtf8 k ∧ v.valid ∧ l.valid := by simpa only [JObj.valid] using hl
    unfold decodeFields at h
    split at h
    · cases h
    · rename_i m hm
      unfold setCommand at hm
      split at hm
      · cases hs : setString c.op v with
        | none => rw [hs] at hm; cases hm
        | some s =>
          rw [hs] at hm; cases hm
          exact decodeFields_command_valid l { c with op := s } c' hl'.2.2 hk hv h
      · split at hm
        · cases hs : setString c.key v with
          | none => rw [hs] at hm; cases hm
          | some s =>
            rw [hs] at hm; cases hm
            exact decodeFields_command_valid l { c with key := s } c' hl'.2.2 (setString_valid hk hl'.2.1 hs) hv h
        · split at hm
          · cases hs : setString c.value v with
            | none => rw [hs] at hm; cases hm
            | some s =>
              rw [hs] at hm; cases hm
              exact decodeFields_command_valid l { c with value := s } c' hl'.2.2 hk (setString_valid hv hl'.2.1 hs) h
          · cases hm
            exact decodeFields_command_valid l _ c' hl'.2.2 hk hv h

theorem decodeCommand_valid {bs : Bytes} {c : Command} (h : decodeCommand bs = some c) :
    ValidUtf8 c.key ∧ ValidUtf8 c.value := by
  unfold decodeCommand at h
  split at h
  · rename_i l hl
    exact decodeFields_command_valid l .zero c (parseJson_valid hl) rfl rfl h
  · cases h; exact ⟨rfl, rfl⟩
  · cases h

/-! ### What is printed is valid -/

theorem goodPrefix_nil : GoodPrefix [] := fun _ h => h

theorem goodPrefix_append {p q : Bytes} (hp : GoodPrefix p) (hq : GoodPrefix q) : GoodPrefix (p ++ q) := by
  intro s h
  rw [List.append_assoc]
  exact hp _ (hq _ h)

theorem goodPrefix_asciis : ∀ (p : Bytes), (∀ c ∈ p, c < 0x80) → GoodPrefix p
  | [], _ => goodPrefix_nil
  | c :: p, h => goodPrefix_append (goodPrefix_ascii (h c (by simp))) (goodPrefix_asciis p fun x hx => h x (by simp [hx]))

theorem goodPrefix_valid {p : Bytes} (h : GoodPrefix p) : ValidUtf8 p := by
  have := h [] rfl
  rwa [List.append_nil] at this

theorem hexDigit_ascii {n : Nat} (h : n < 16) : hexDigit n < 0x80 := by
  unfold hexDigit
  show (UInt8.ofNat _).toNat < 128
  split <;> (simp; omega)

theorem escAscii_good {c : UInt8} (hc : c < 0x80) : GoodPrefix (escAscii c) := by
  unfold escAscii
  split
  · exact goodPrefix_asciis _ (by decide)
  split
  · exact goodPrefix_asciis _ (by decide)
  split
  · exact goodPrefix_asciis _ (by decide)
  split
  · exact goodPrefix_asciis _ (by decide)
  split
  · exact goodPrefix_asciis _ (by decide)
  split
  · refine goodPrefix_asciis _ fun x hx => ?_
    have := c.toNat_lt
    simp only [escHex, List.mem_cons, List.not_mem_nil, or_false] at hx
    rcases hx with rfl | rfl | rfl | rfl | rfl | rfl
    · decide
    · decide
    · decide
    · decide
    · exact hexDigit_ascii (by omega)
    · exact hexDigit_ascii (by omega)
  · exact goodPrefix_ascii hc

theorem encodeStrAux_good : ∀ (f : Nat) (s : Bytes), GoodPrefix (encodeStrAux f s)
  | 0, _ => goodPrefix_nil
  | _ + 1, [] => goodPrefix_nil
  | f + 1, c :: s => by
    unfold encodeStrAux
    by_cases hc : c < 0x80
    · rw [if_pos hc]
      exact goodPrefix_append (escAscii_good hc) (encodeStrAux_good f s)
    · rw [if_neg hc]
      split
      · exact goodPrefix_append (goodPrefix_asciis _ (by decide)) (encodeStrAux_good f s)
      · rename_i n hn
        refine goodPrefix_append ?_ (encodeStrAux_good f _)
        split
        · exact goodPrefix_asciis _ (by decide)
        · split
          · exact goodPrefix_asciis _ (by decide)
          · exact goodPrefix_rune hc hn

theorem printStr_good (s : Bytes) : GoodPrefix (printStr s) :=
  goodPrefix_append (p := [34]) (goodPrefix_asciis _ (by decide))
    (goodPrefix_append (encodeStrAux_good _ _) (goodPrefix_asciis _ (by decide)))

theorem decInt_good (x : Int) : GoodPrefix (decInt x) := by
  have h : ∀ c ∈ decNat x.natAbs, c < 0x80 := by
    intro c hc
    have := (decNat_spec x.natAbs).2.1 c hc
    simp only [isDigit, Bool.and_eq_true, decide_eq_true_eq] at this
    have h2 : c.toNat ≤ 57 := this.2
    show c.toNat < 128
    omega
  unfold decInt
  split
  · refine goodPrefix_asciis _ fun c hc => ?_
    rcases List.mem_cons.1 hc with rfl | hc
    · decide
    · exact h c hc
  · exact goodPrefix_asciis _ h

mutual
/-- All numbers are ASCII. -/
def JVal.numsGood : JVal → Prop
  | .num raw => GoodPrefix raw
  | .arr l => l.numsGood
  | .obj l => l.numsGood
  | _ => True
def JArr.numsGood : JArr → Prop
  | .nil => True
  | .cons v l => v.numsGood ∧ l.numsGood
def JObj.numsGood : JObj → Prop
  | .nil => True
  | .cons _ v l => v.numsGood ∧ l.numsGood
end

theorem commaOrNot_good (b : Bool) : GoodPrefix (if b then [] else [44]) := by
  cases b
  · exact goodPrefix_asciis _ (by decide)
  · exact goodPrefix_nil

mutual
theorem JVal.print_good : ∀ v : JVal, v.numsGood → GoodPrefix v.print
  | .null, _ => by simp only [JVal.print]; exact goodPrefix_asciis _ (by decide)
  | .bool true, _ => by simp only [JVal.print]; exact goodPrefix_asciis _ (by decide)
  | .bool false, _ => by simp only [JVal.print]; exact goodPrefix_asciis _ (by decide)
  | .num _, h => by simpa only [JVal.print, JVal.numsGood] using h
  | .str s _, _ => by simp only [JVal.print]; exact printStr_good s
  | .arr l, h => by
    simp only [JVal.print]
    exact goodPrefix_append (p := [91]) (goodPrefix_asciis _ (by decide))
      (goodPrefix_append (l.print_good true (by simpa only [JVal.numsGood] using h)) (goodPrefix_asciis _ (by decide)))
  | .obj l, h => by
    simp only [JVal.print]
    exact goodPrefix_append (p := [123]) (goodPrefix_asciis _ (by decide))
      (goodPrefix_append (l.print_good true (by simpa only [JVal.numsGood] using h)) (goodPrefix_asciis _ (by decide)))
theorem JArr.print_good : ∀ (l : JArr) (b : Bool), l.numsGood → GoodPrefix (l.print b)
  | .nil, _, _ => by simp only [JArr.print]; exact goodPrefix_nil
  | .cons v l, b, h => by
    have h' : v.numsGood ∧ l.numsGood := by simpa only [JArr.numsGood] using h
    simp only [JArr.print]
    exact goodPrefix_append (commaOrNot_good b) (goodPrefix_append (v.print_good h'.1) (l.print_good false h'.2))
theorem JObj.print_good : ∀ (l : JObj) (b : Bool), l.numsGood → GoodPrefix (l.print b)
  | .nil, _, _ => by simp only [JObj.print]; exact goodPrefix_nil
  | .cons k v l, b, h => by
    have h' : v.numsGood ∧ l.numsGood := by simpa only [JObj.numsGood] using h
    simp only [JObj.print]
    exact goodPrefix_append (commaOrNot_good b) (goodPrefix_append (printStr_good k)
      (goodPrefix_append (p := [58]) (goodPrefix_asciis _ (by decide))
        (goodPrefix_append (v.print_good h'.1) (l.print_good false h'.2))))
end

theorem encodeSSC_valid (r : SSC) : ValidUtf8 (encodeSSC r) := by
  have hb : (bytesJson r.signature).numsGood := by cases r.signature <;> exact trivial
  exact goodPrefix_valid (JVal.print_good _ ⟨decInt_good _, decInt_good _, decInt_good _, hb, trivial, trivial⟩)

/-! ### The map -/

theorem KV.lookup_del (m : KV) (k k' : Bytes) : (m.del k).lookup k' = if k' = k then none else m.lookup k' := by
  induction m with
  | nil => simp [KV.del, KV.lookup]
  | cons e m ih =>
    obtain ⟨a, v⟩ := e
    by_cases h : a = k
    · have : KV.del ((a, v) :: m) k = KV.del m k := by simp [KV.del, h]
      rw [this, ih, KV.lookup]
      by_cases hk : k' = k
      · simp [hk]
      · rw [if_neg hk, if_neg hk, if_neg (fun ha => hk (ha.symm.trans h))]
    · have : KV.del ((a, v) :: m) k = (a, v) :: KV.del m k := by simp [KV.del, h]
      rw [this, KV.lookup, KV.lookup, ih]
      by_cases ha : a = k'
      · have : ¬ k' = k := fun hk => h (ha.trans hk)
        simp [ha, this]
      · simp [ha]

theorem KV.lookup_set (m : KV) (k v k' : Bytes) : (m.set k v).lookup k' = if k' = k then some v else m.lookup k' := by
  rw [KV.set, KV.lookup, KV.lookup_del]
  by_cases h : k' = k
  · simp [h]
  · rw [if_neg (fun h' => h h'.symm), if_neg h, if_neg h]

/-- Keys are distinct, everything is valid UTF-8, and the event key is not there. -/
structure KV.Clean (m : KV) : Prop where
  nodup : (m.map (·.1)).Nodup
  valid : ∀ e ∈ m, ValidUtf8 e.1 ∧ ValidUtf8 e.2

theorem KV.clean_nil : KV.Clean [] := ⟨List.nodup_nil, by simp⟩

theorem KV.clean_del {m : KV} (h : m.Clean) (k : Bytes) : (m.del k).Clean :=
  ⟨List.Nodup.sublist (List.Sublist.map _ List.filter_sublist) h.nodup,
    fun e he => h.valid e (List.mem_filter.1 he).1⟩

theorem KV.clean_set {m : KV} (h : m.Clean) {k v : Bytes} (hk : ValidUtf8 k) (hv : ValidUtf8 v) : (m.set k v).Clean := by
  have hd := KV.clean_del h k
  refine ⟨?_, ?_⟩
  · rw [KV.set, List.map_cons, List.nodup_cons]
    refine ⟨?_, hd.nodup⟩
    intro hm
    obtain ⟨e, he, heq⟩ := List.mem_map.1 hm
    have := (List.mem_filter.1 he).2
    simp at this
    exact this heq
  · intro e he
    rcases List.mem_cons.1 he with rfl | he
    · exact ⟨hk, hv⟩
    · exact hd.valid e he

theorem KV.lookup_eq_some_iff {m : KV} (h : (m.map (·.1)).Nodup) (k v : Bytes) :
    m.lookup k = some v ↔ (k, v) ∈ m := by
  induction m with
  | nil => simp [KV.lookup]
  | cons e m ih =>
    obtain ⟨a, b⟩ := e
    rw [List.map_cons, List.nodup_cons] at h
    rw [KV.lookup]
    by_cases hak : a = k
    · subst hak
      simp only [if_true, Option.some.injEq, List.mem_cons, Prod.mk.injEq, true_and]
      constructor
      · rintro rfl; exact Or.inl rfl
      · rintro (rfl | hm)
        · rfl
        · exact absurd (List.mem_map.2 ⟨_, hm, rfl⟩) h.1
    · rw [if_neg hak, ih h.2, List.mem_cons]
      constructor
      · exact Or.inr
      · rintro (heq | hm)
        · cases heq; exact absurd rfl hak
        · exact hm

/-! ### Snapshots -/

theorem mem_insertSorted (e x : Bytes × Bytes) (m : KV) : x ∈ insertSorted e m ↔ x = e ∨ x ∈ m := by
  induction m with
  | nil => simp [insertSorted]
  | cons a m ih =>
    unfold insertSorted
    split
    · simp
    · rw [List.mem_cons, ih, List.mem_cons]
      constructor
      · rintro (h | h | h)
        · exact Or.inr (Or.inl h)
        · exact Or.inl h
        · exact Or.inr (Or.inr h)
      · rintro (h | h | h)
        · exact Or.inr (Or.inl h)
        · exact Or.inl h
        · exact Or.inr (Or.inr h)

theorem mem_sortKV (x : Bytes × Bytes) (m : KV) : x ∈ sortKV m ↔ x ∈ m := by
  induction m with
  | nil => simp [sortKV]
  | cons e m ih => rw [sortKV, mem_insertSorted, ih, List.mem_cons]

theorem nodup_insertSorted (e : Bytes × Bytes) (m : KV) (h : (m.map (·.1)).Nodup) (he : e.1 ∉ m.map (·.1)) :
    ((insertSorted e m).map (·.1)).Nodup := by
  induction m with
  | nil => simp [insertSorted]
  | cons a m ih =>
    unfold insertSorted
    split
    · rw [List.map_cons, List.nodup_cons]; exact ⟨he, h⟩
    · rw [List.map_cons, List.nodup_cons] at h ⊢
      rw [List.map_cons, List.mem_cons] at he
      refine ⟨?_, ih h.2 fun hm => he (Or.inr hm)⟩
      intro hm
      obtain ⟨x, hx, hxe⟩ := List.mem_map.1 hm
      rcases (mem_insertSorted e x m).1 hx with rfl | hx
      · exact he (Or.inl hxe)
      · exact h.1 (List.mem_map.2 ⟨x, hx, hxe⟩)

theorem nodup_sortKV (m : KV) (h : (m.map (·.1)).Nodup) : ((sortKV m).map (·.1)).Nodup := by
  induction m with
  | nil => simp [sortKV]
  | cons e m ih =>
    rw [List.map_cons, List.nodup_cons] at h
    refine nodup_insertSorted e _ (ih h.2) ?_
    intro hm
    obtain ⟨x, hx, hxe⟩ := List.mem_map.1 hm
    exact h.1 (List.mem_map.2 ⟨x, (mem_sortKV x m).1 hx, hxe⟩)

theorem objOfKV_numsOk : ∀ m : KV, (objOfKV m).numsOk
  | [] => trivial
  | (_, _) :: m => ⟨trivial, objOfKV_numsOk m⟩

theorem kvOfObj_clean : ∀ (m acc : KV), (∀ e ∈ m, ValidUtf8 e.1 ∧ ValidUtf8 e.2) →
    kvOfObj acc (objOfKV m).clean = kvOfObj acc (objOfKV m)
  | [], _, _ => rfl
  | (k, v) :: m, acc, h => by
    have h1 := h (k, v) (by simp)
    simp only [objOfKV, JObj.clean, JVal.clean, show sanitize k = k from h1.1, show sanitize v = v from h1.2, kvOfObj,
      setString, kvOfObj_clean m _ fun e he => h e (by simp [he])]

theorem kvOfObj_objOfKV : ∀ (m acc : KV), (m.map (·.1)).Nodup → (∀ e ∈ m, ValidUtf8 e.1 ∧ ValidUtf8 e.2) → acc.Clean →
    ∃ m', kvOfObj acc (objOfKV m) = some m' ∧ m'.Clean ∧
      ∀ k, m'.lookup k = match m.lookup k with
        | some v => some v
        | none => acc.lookup k
  | [], acc, _, _, ha => ⟨acc, rfl, ha, fun _ => rfl⟩
  | (a, b) :: m, acc, hn, hv, ha => by
    rw [List.map_cons, List.nodup_cons] at hn
    have hab := hv (a, b) (by simp)
    obtain ⟨m', h1, h2, h3⟩ := kvOfObj_objOfKV m (acc.set a b) hn.2 (fun e he => hv e (by simp [he]))
      (KV.clean_set ha hab.1 hab.2)
    refine ⟨m', by simpa only [objOfKV, kvOfObj, setString] using h1, h2, ?_⟩
    intro k
    rw [h3 k, KV.lookup, KV.lookup_set]
    by_cases hk : k = a
    · subst hk
      have : KV.lookup m k = none := by
        cases hl : KV.lookup m k with
        | none => rfl
        | some v => exact absurd (List.mem_map.2 ⟨_, (KV.lookup_eq_some_iff hn.2 k v).1 hl, rfl⟩) hn.1
      simp [this]
    · rw [if_neg hk, if_neg fun h => hk h.symm]

/-- Restoring a snapshot gives the same contents. -/
theorem restore_snapshot {m : KV} (h : m.Clean) :
    ∃ m', restoreKV (snapshotKV m) = some m' ∧ m'.Clean ∧ ∀ k, m'.lookup k = m.lookup k := by
  have hn : (JVal.obj (objOfKV (sortKV m))).numsOk := objOfKV_numsOk _
  have hv : ∀ e ∈ sortKV m, ValidUtf8 e.1 ∧ ValidUtf8 e.2 := fun e he => h.valid e ((mem_sortKV e m).1 he)
  obtain ⟨m', h1, h2, h3⟩ := kvOfObj_objOfKV (sortKV m) [] (nodup_sortKV m h.nodup) hv KV.clean_nil
  refine ⟨m', ?_, h2, ?_⟩
  · unfold restoreKV snapshotKV
    rw [parseFirst_print _ hn (by simp [JVal.depth, objOfKV_depth, maxNesting])]
    simp only [JVal.clean, kvOfObj_clean _ _ hv]
    exact h1
  · intro k
    rw [h3 k]
    have key : KV.lookup (sortKV m) k = KV.lookup m k := by
      cases hl : KV.lookup (sortKV m) k with
      | some v =>
        have := (mem_sortKV _ _).1 ((KV.lookup_eq_some_iff (nodup_sortKV m h.nodup) k v).1 hl)
        rw [(KV.lookup_eq_some_iff h.nodup k v).2 this]
      | none =>
        cases hl' : KV.lookup m k with
        | none => rfl
        | some v =>
          have := (mem_sortKV _ _).2 ((KV.lookup_eq_some_iff h.nodup k v).1 hl')
          rw [(KV.lookup_eq_some_iff (nodup_sortKV m h.nodup) k v).2 this] at hl
          cases hl
    rw [key]
    cases KV.lookup m k <;> rfl

/-! ### Applying entries -/

theorem Fsm.run_append (s : Fsm) (a b : List Bytes) : s.run (a ++ b) = (s.run a).run b := by
  induction a generalizing s with
  | nil => rfl
  | cons e a ih => exact ih _

/-- What an entry does to the map. -/
def entryLookup (old : Option Bytes) (k e : Bytes) : Option Bytes :=
  match decodeCommand e with
  | none => old
  | some c =>
    if c.op = opSet then (if c.key ≠ keyLSS ∧ k = c.key then some c.value else old)
    else if c.op = opDelete then (if k = c.key then none else old)
    else old

theorem Fsm.handleLSS_m (s : Fsm) (v : Bytes) : (s.handleLSS v).m = s.m := by
  unfold Fsm.handleLSS; split <;> rfl

theorem Fsm.applySet_m (s : Fsm) (k v : Bytes) : (s.applySet k v).m = if k = keyLSS then s.m else s.m.set k v := by
  unfold Fsm.applySet
  by_cases h : k = keyLSS
  · simp [h, Fsm.handleLSS_m]
  · simp [h]

theorem Fsm.lookup_apply (s : Fsm) (e k : Bytes) : (s.apply e).m.lookup k = entryLookup (s.m.lookup k) k e := by
  unfold Fsm.apply entryLookup
  generalize decodeCommand e = o
  cases o with
  | none => rfl
  | some c =>
    simp only
    split
    · rw [Fsm.applySet_m]
      split
      · rename_i h; simp [h]
      · rename_i h; rw [KV.lookup_set]; simp [h]
    · split
      · exact KV.lookup_del _ _ _
      · rfl

/-- Applying entries to maps with the same contents gives maps with the same contents, whatever the sign states. -/
theorem Fsm.run_lookup (s t : Fsm) (h : ∀ k, s.m.lookup k = t.m.lookup k) (log : List Bytes) :
    ∀ k, (s.run log).m.lookup k = (t.run log).m.lookup k := by
  induction log generalizing s t with
  | nil => exact h
  | cons e log ih => exact ih _ _ fun k => by rw [Fsm.lookup_apply, Fsm.lookup_apply, h]

theorem Fsm.apply_clean (s : Fsm) (h : s.m.Clean) (e : Bytes) : (s.apply e).m.Clean := by
  unfold Fsm.apply
  split
  · exact h
  · rename_i c hc
    have hv := decodeCommand_valid hc
    split
    · rw [Fsm.applySet_m]
      split
      · exact h
      · exact KV.clean_set h hv.1 hv.2
    · split
      · exact KV.clean_del h _
      · exact h

theorem Fsm.run_clean (s : Fsm) (h : s.m.Clean) (log : List Bytes) : (s.run log).m.Clean := by
  induction log generalizing s with
  | nil => exact h
  | cons e log ih => exact ih _ (s.apply_clean h e)

theorem Fsm.apply_of_not_touches (s : Fsm) {e k : Bytes} (h : ¬ Touches e k) :
    (s.apply e).m.lookup k = s.m.lookup k := by
  rw [Fsm.lookup_apply]
  unfold entryLookup
  split
  · rfl
  · rename_i c hc
    obtain ⟨o, k', v⟩ := c
    simp only
    split
    · rename_i ho
      split
      · rename_i hk
        exfalso
        apply h
        left
        refine ⟨v, ?_⟩
        rw [Sets, hc, ho, hk.2]
      · rfl
    · split
      · rename_i ho
        split
        · rename_i hk
          exact absurd (Or.inr ⟨v, by rw [hc, ho, hk]⟩) h
        · rfl
      · rfl

theorem Fsm.run_of_not_touches (s : Fsm) {k : Bytes} (log : List Bytes) (h : ∀ e ∈ log, ¬ Touches e k) :
    (s.run log).m.lookup k = s.m.lookup k := by
  induction log generalizing s with
  | nil => rfl
  | cons e log ih =>
    show ((s.apply e).run log).m.lookup k = _
    rw [ih _ fun e' he' => h e' (by simp [he']), s.apply_of_not_touches (h e (by simp))]

theorem Fsm.apply_sets (s : Fsm) {e k v : Bytes} (h : Sets e k v) (hk : k ≠ keyLSS) :
    (s.apply e).m.lookup k = some v := by
  rw [Fsm.lookup_apply, entryLookup, show decodeCommand e = _ from h]
  simp [hk]

theorem Fsm.apply_deletes (s : Fsm) {e k : Bytes} (h : Deletes e k) : (s.apply e).m.lookup k = none := by
  obtain ⟨v, h⟩ := h
  rw [Fsm.lookup_apply, entryLookup, h]
  simp only [if_true]
  rw [if_neg (by decide)]

/-- Every log either does not write a key, or has a last write of it. -/
theorem last_write (log : List Bytes) (k : Bytes) :
    (∀ e ∈ log, ¬ Touches e k) ∨ (∃ v, LastSet log k v) ∨ LastDelete log k := by
  induction log with
  | nil => exact Or.inl (by simp)
  | cons e log ih =>
    rcases ih with ih | ⟨v, pre, e', post, h1, h2, h3⟩ | ⟨pre, e', post, h1, h2, h3⟩
    · by_cases ht : Touches e k
      · right
        rcases ht with ⟨v, hs⟩ | hd
        · exact Or.inl ⟨v, [], e, log, rfl, hs, ih⟩
        · exact Or.inr ⟨[], e, log, rfl, hd, ih⟩
      · left
        intro e' he'
        rcases List.mem_cons.1 he' with rfl | he'
        · exact ht
        · exact ih e' he'
    · exact Or.inr (Or.inl ⟨v, e :: pre, e', post, by rw [h1]; rfl, h2, h3⟩)
    · exact Or.inr (Or.inr ⟨e :: pre, e', post, by rw [h1]; rfl, h2, h3⟩)

/-! ### Events -/

/-- The record an entry carries. -/
def eventOf (e : Bytes) : Option SSC :=
  match decodeCommand e with
  | some c => if c.op = opSet ∧ c.key = keyLSS then decodeSSC c.value else none
  | none => none

theorem event_iff (e : Bytes) (r : SSC) : Event e r ↔ eventOf e = some r := by
  unfold Event Sets eventOf
  constructor
  · rintro ⟨v, h, hr⟩
    simp [h, hr]
  · intro h
    split at h
    · rename_i c hc
      split at h
      · rename_i hk
        obtain ⟨o, k, v⟩ := c
        obtain ⟨rfl, rfl⟩ := hk
        exact ⟨v, hc, h⟩
      · cases h
    · cases h

theorem Fsm.apply_states (s : Fsm) (e : Bytes) :
    (s.apply e).val = s.val.saves (eventOf e).toList ∧ (s.apply e).cos = s.cos.saves (eventOf e).toList := by
  unfold Fsm.apply eventOf
  generalize decodeCommand e = o
  cases o with
  | none => exact ⟨rfl, rfl⟩
  | some c =>
    simp only
    unfold Fsm.applySet
    by_cases ho : c.op = opSet <;> by_cases hk : c.key = keyLSS
    · simp only [ho, hk, if_true, ne_eq, not_true_eq_false, if_false, and_self, Fsm.handleLSS]
      cases decodeSSC c.value <;> exact ⟨rfl, rfl⟩
    · simp only [ho, hk, if_true, ne_eq, not_false_eq_true, if_false, and_false]
      exact ⟨rfl, rfl⟩
    all_goals
      simp only [ho, if_false, false_and]
      split <;> exact ⟨rfl, rfl⟩

theorem SignState.saves_append (s : SignState) (a b : List SSC) : s.saves (a ++ b) = (s.saves a).saves b := by
  induction a generalizing s with
  | nil => rfl
  | cons r a ih => exact ih _

theorem Fsm.run_states (s : Fsm) (log : List Bytes) :
    (s.run log).val = s.val.saves (log.filterMap eventOf) ∧ (s.run log).cos = s.cos.saves (log.filterMap eventOf) := by
  induction log generalizing s with
  | nil => exact ⟨rfl, rfl⟩
  | cons e log ih =>
    have h1 := s.apply_states e
    have h2 := ih (s.apply e)
    rw [h1.1, h1.2] at h2
    have : (e :: log).filterMap eventOf = (eventOf e).toList ++ log.filterMap eventOf := by
      rw [List.filterMap_cons]
      cases eventOf e <;> simp
    rw [this, SignState.saves_append, SignState.saves_append]
    exact h2

/-- Saves that are not above the watermark do nothing. -/
theorem SignState.saves_below (s : SignState) (rs : List SSC) (h : ∀ r ∈ rs, r.hrs ≼ s.hrs) : s.saves rs = s := by
  induction rs with
  | nil => rfl
  | cons r rs ih =>
    show (s.save r).2.saves rs = s
    rw [s.save_err r fun hlt => HRS.lt_irrefl _ (HRS.lt_of_lt_of_le hlt (h r (by simp)))]
    exact ih fun r' hr' => h r' (by simp [hr'])

theorem SignState.saves_ge (s : SignState) (rs : List SSC) : ∀ r ∈ rs, r.hrs ≼ (s.saves rs).hrs := by
  induction rs generalizing s with
  | nil => simp
  | cons r rs ih =>
    intro r' hr'
    rcases List.mem_cons.1 hr' with rfl | hr'
    · refine HRS.le_trans (b := (s.save r').2.hrs) ?_ (SignState.saves_mono _ _)
      rw [SignState.save_hrs]
      split
      · exact Or.inl rfl
      · rename_i h; exact HRS.not_lt.1 h
    · exact ih _ r' hr'

theorem SignState.saves_attained (s : SignState) (rs : List SSC) :
    (s.saves rs).hrs = s.hrs ∨ ∃ r ∈ rs, (s.saves rs).hrs = r.hrs := by
  induction rs generalizing s with
  | nil => exact Or.inl rfl
  | cons r rs ih =>
    rcases ih (s.save r).2 with h | ⟨r', h1, h2⟩
    · rw [show (s.saves (r :: rs)) = (s.save r).2.saves rs from rfl, h, SignState.save_hrs]
      split
      · exact Or.inr ⟨r, by simp, rfl⟩
      · exact Or.inl rfl
    · exact Or.inr ⟨r', by simp [h1], h2⟩

/-! ### Membership -/

instance (id addr : Bytes) (s : Server) : Decidable (Unrelated id addr s) := inferInstanceAs (Decidable (_ ∧ _))

theorem configOk_iff (cfg : List Server) : configOk cfg = true ↔
    (∀ s ∈ cfg, s.id ≠ [] ∧ s.addr ≠ []) ∧ (cfg.map (·.id)).Nodup ∧ (cfg.map (·.addr)).Nodup ∧ ∃ s ∈ cfg, s.voter = true := by
  simp only [configOk, Bool.and_eq_true, List.all_eq_true, decide_eq_true_eq, List.any_eq_true, and_assoc]

theorem cfgRemove_append (id : Bytes) (pre post : List Server) (s : Server) (hs : s.id = id)
    (h : ∀ t ∈ pre, t.id ≠ id) : cfgRemove id (pre ++ s :: post) = pre ++ post := by
  induction pre with
  | nil => simp [cfgRemove, hs]
  | cons t pre ih =>
    have ht : t.id ≠ id := h t (by simp)
    simp only [List.cons_append, cfgRemove, ht, if_false]
    rw [ih fun t' ht' => h t' (by simp [ht'])]

theorem cfgAddVoter_fresh (id addr : Bytes) (cfg : List Server) (h : ∀ t ∈ cfg, t.id ≠ id) :
    cfgAddVoter id addr cfg = cfg ++ [⟨true, id, addr⟩] := by
  induction cfg with
  | nil => rfl
  | cons t cfg ih =>
    have ht : t.id ≠ id := h t (by simp)
    simp only [cfgAddVoter, ht, if_false, List.cons_append]
    rw [ih fun t' ht' => h t' (by simp [ht'])]

theorem nodup_map_inj {α β : Type} {f : α → β} {l : List α} (h : (l.map f).Nodup) {a b : α} (ha : a ∈ l) (hb : b ∈ l)
    (hf : f a = f b) : a = b := by
  induction l with
  | nil => cases ha
  | cons x l ih =>
    rw [List.map_cons, List.nodup_cons] at h
    rcases List.mem_cons.1 ha with rfl | ha
    · rcases List.mem_cons.1 hb with rfl | hb
      · rfl
      · exact absurd (List.mem_map.2 ⟨b, hb, hf.symm⟩) h.1
    · rcases List.mem_cons.1 hb with hb | hb
      · exact absurd (List.mem_map.2 ⟨a, ha, hf.trans (by rw [hb])⟩) h.1
      · exact ih h.2 ha hb

/-- The loop of `Join`: what has been passed is the unrelated part; it stops at the pair itself or at an error. -/
theorem joinLoop_spec (id addr : Bytes) (cfg : List Server) (hid : (cfg.map (·.id)).Nodup)
    (had : (cfg.map (·.addr)).Nodup) : ∀ (ss pre : List Server) (oks : List Bool), cfg = pre ++ ss →
    (∀ s ∈ pre, ¬ (s.id = id ∧ s.addr = addr)) →
    (∃ r, joinLoop id addr ss (pre.filter (Unrelated id addr) ++ ss) oks = .inl r ∧
      ((r.1 = false ∧ r.2 = cfg ∧ ∃ s ∈ cfg, s.id = id ∧ s.addr = addr) ∨
        (r.1 = true ∧ (∀ s, s ∈ r.2 → s ∈ cfg) ∧ ∀ s ∈ cfg, Unrelated id addr s → s ∈ r.2))) ∨
    ((∀ s ∈ cfg, ¬ (s.id = id ∧ s.addr = addr)) ∧
      ∃ oks', joinLoop id addr ss (pre.filter (Unrelated id addr) ++ ss) oks = .inr (cfg.filter (Unrelated id addr), oks'))
  | [], pre, oks, hc, hp => by
    right
    rw [List.append_nil] at hc
    subst hc
    exact ⟨hp, oks, by rw [List.append_nil]; rfl⟩
  | s :: ss, pre, oks, hc, hp => by
    have hmem : s ∈ cfg := by rw [hc]; simp
    unfold joinLoop
    by_cases hrel : s.id = id ∨ s.addr = addr
    · rw [if_pos hrel]
      by_cases hexact : s.addr = addr ∧ s.id = id
      · rw [if_pos hexact]
        left
        refine ⟨_, rfl, Or.inl ⟨rfl, ?_, s, hmem, hexact.2, hexact.1⟩⟩
        have hf : pre.filter (Unrelated id addr) = pre := by
          rw [List.filter_eq_self]
          intro t ht
          rw [decide_eq_true_eq]
          have htc : t ∈ cfg := by rw [hc]; simp [ht]
          refine ⟨fun hti => ?_, fun hta => ?_⟩
          · have := nodup_map_inj hid htc hmem (hti.trans hexact.2.symm)
            subst this
            exact hp t ht ⟨hexact.2, hexact.1⟩
          · have := nodup_map_inj had htc hmem (hta.trans hexact.1.symm)
            subst this
            exact hp t ht ⟨hexact.2, hexact.1⟩
        show pre.filter _ ++ s :: ss = cfg
        rw [hf, hc]
      · rw [if_neg hexact]
        have hrm : cfgRemove s.id (pre.filter (Unrelated id addr) ++ s :: ss) = pre.filter (Unrelated id addr) ++ ss := by
          refine cfgRemove_append _ _ _ s rfl ?_
          intro t ht hts
          have htp := (List.mem_filter.1 ht).1
          have := nodup_map_inj hid (a := t) (b := s) (by rw [hc]; simp [htp]) hmem hts
          subst this
          have hu := (List.mem_filter.1 ht).2
          rw [decide_eq_true_eq] at hu
          rcases hrel with h | h
          · exact hu.1 h
          · exact hu.2 h
        rw [hrm]
        cases hch : cfgChange (oks.headD false) (pre.filter (Unrelated id addr) ++ ss) with
        | none =>
          left
          refine ⟨_, rfl, Or.inr ⟨rfl, ?_, ?_⟩⟩
          · intro t ht
            rw [hc]
            rcases List.mem_append.1 ht with ht | ht
            · exact List.mem_append.2 (Or.inl (List.mem_filter.1 ht).1)
            · exact List.mem_append.2 (Or.inr ht)
          · intro t ht hu
            rw [hc] at ht
            rcases List.mem_append.1 ht with ht | ht
            · exact List.mem_append.2 (Or.inl (List.mem_filter.2 ⟨ht, by rw [decide_eq_true_eq]; exact hu⟩))
            · exact List.mem_append.2 (Or.inr ht)
        | some cur' =>
          have hcur : cur' = pre.filter (Unrelated id addr) ++ ss := by
            unfold cfgChange at hch
            split at hch
            · cases hch; rfl
            · cases hch
          subst hcur
          have hnu : ¬ Unrelated id addr s := by
            intro hu
            rcases hrel with h | h
            · exact hu.1 h
            · exact hu.2 h
          have := joinLoop_spec id addr cfg hid had ss (pre ++ [s]) oks.tail (by rw [hc]; simp) (by
            intro t ht
            rcases List.mem_append.1 ht with ht | ht
            · exact hp t ht
            · rw [List.mem_singleton.1 ht]; exact fun h => hexact ⟨h.2, h.1⟩)
          rw [List.filter_append, show [s].filter (Unrelated id addr) = [] by simp [hnu]] at this
          simpa using this
    · rw [if_neg hrel]
      have hu : Unrelated id addr s := ⟨fun h => hrel (Or.inl h), fun h => hrel (Or.inr h)⟩
      have := joinLoop_spec id addr cfg hid had ss (pre ++ [s]) oks (by rw [hc]; simp) (by
        intro t ht
        rcases List.mem_append.1 ht with ht | ht
        · exact hp t ht
        · rw [List.mem_singleton.1 ht]; exact fun h => hu.1 h.1)
      rw [List.filter_append, show [s].filter (Unrelated id addr) = [s] by simp [hu]] at this
      simpa using this

/-- If the pair is a member, the loop stops there with success and nothing has changed. -/
theorem joinLoop_member (id addr : Bytes) (cfg : List Server) (hid : (cfg.map (·.id)).Nodup)
    (had : (cfg.map (·.addr)).Nodup) (h : ∃ s ∈ cfg, s.id = id ∧ s.addr = addr) (cur : List Server) (oks : List Bool) :
    joinLoop id addr cfg cur oks = .inl (false, cur) := by
  obtain ⟨u, hu, hui, hua⟩ := h
  have : ∀ ss : List Server, (∀ s ∈ ss, s ∈ cfg) → u ∈ ss → joinLoop id addr ss cur oks = .inl (false, cur) := by
    intro ss
    induction ss with
    | nil => intro _ h; cases h
    | cons s ss ih =>
      intro hsub hmem
      unfold joinLoop
      by_cases hs : s = u
      · subst hs
        rw [if_pos (Or.inl hui), if_pos ⟨hua, hui⟩]
      · rw [if_neg]
        · exact ih (fun t ht => hsub t (by simp [ht])) (by
            rcases List.mem_cons.1 hmem with h | h
            · exact absurd h.symm hs
            · exact h)
        · rintro (h | h)
          · exact hs (nodup_map_inj hid (hsub s (by simp)) hu (h.trans hui.symm))
          · exact hs (nodup_map_inj had (hsub s (by simp)) hu (h.trans hua.symm))
  exact this cfg (fun _ h => h) hu

end Horcrux
