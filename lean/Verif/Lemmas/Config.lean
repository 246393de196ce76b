import Verif.Model.Config
import Verif.Spec.Config
import Mathlib.Data.List.Forall2
namespace Horcrux
open Spec

/-! ### Splitting and joining -/

theorem splitOn_ne_nil (sep : UInt8) (s : Str) : splitOn sep s ≠ [] := by
  cases s with
  | nil => simp [splitOn]
  | cons c s =>
    unfold splitOn
    split
    · simp
    · split <;> simp

theorem joinWith_cons {sep : UInt8} {p : Bytes} {ps : List Bytes} (h : ps ≠ []) :
    joinWith sep (p :: ps) = p ++ sep :: joinWith sep ps := by
  cases ps with
  | nil => exact absurd rfl h
  | cons q qs => rfl

theorem joinWith_cons_head (sep c : UInt8) (h : Bytes) (t : List Bytes) :
    joinWith sep ((c :: h) :: t) = c :: joinWith sep (h :: t) := by
  cases t <;> rfl

/-- Joining the pieces gives the text back. -/
theorem join_splitOn (sep : UInt8) (s : Str) : joinWith sep (splitOn sep s) = s := by
  induction s with
  | nil => rfl
  | cons c s ih =>
    unfold splitOn
    split
    · next h =>
      rw [joinWith_cons (splitOn_ne_nil sep s), ih, h]; rfl
    · split
      · next h => exact absurd h (splitOn_ne_nil sep s)
      · next h t heq =>
        rw [joinWith_cons_head, ← heq, ih]

/-- No piece contains the separator. -/
theorem splitOn_pieces (sep : UInt8) (s : Str) : ∀ p ∈ splitOn sep s, sep ∉ p := by
  induction s with
  | nil => intro p hp; simp [splitOn] at hp; simp [hp]
  | cons c s ih =>
    intro p hp
    unfold splitOn at hp
    split at hp
    · rcases List.mem_cons.1 hp with rfl | h
      · simp
      · exact ih p h
    · next hc =>
      split at hp
      · next h => exact absurd h (splitOn_ne_nil sep s)
      · next h t heq =>
        rcases List.mem_cons.1 hp with rfl | h'
        · have := ih h (by rw [heq]; simp)
          intro hm
          rcases List.mem_cons.1 hm with h1 | h1
          · exact hc h1.symm
          · exact this h1
        · exact ih p (by rw [heq]; simp [h'])

theorem splitOn_append (sep : UInt8) (p : Bytes) (s : Str) (h : sep ∉ p) :
    splitOn sep (p ++ sep :: s) = p :: splitOn sep s := by
  induction p with
  | nil => simp [splitOn]
  | cons c p ih =>
    have hc : c ≠ sep := fun e => h (by simp [e])
    have := ih (fun m => h (by simp [m]))
    simp only [List.cons_append]
    rw [splitOn, if_neg hc, this]

theorem splitOn_single (sep : UInt8) (p : Bytes) (h : sep ∉ p) : splitOn sep p = [p] := by
  induction p with
  | nil => rfl
  | cons c p ih =>
    have hc : c ≠ sep := fun e => h (by simp [e])
    have := ih (fun m => h (by simp [m]))
    rw [splitOn, if_neg hc, this]

/-- Splitting undoes joining. -/
theorem splitOn_join (sep : UInt8) (ps : List Bytes) (hne : ps ≠ []) (h : ∀ p ∈ ps, sep ∉ p) :
    splitOn sep (joinWith sep ps) = ps := by
  induction ps with
  | nil => exact absurd rfl hne
  | cons p ps ih =>
    by_cases hp : ps = []
    · subst hp; exact splitOn_single sep p (h p (by simp))
    · rw [joinWith_cons hp, splitOn_append sep p _ (h p (by simp)), ih hp (fun q hq => h q (by simp [hq]))]

/-! ### Numbers -/

theorem digits_eq (acc : Nat) (s : Str) (v : Nat) :
    digits acc s = some v ↔ (∀ c ∈ s, IsDigit c) ∧ v = s.foldl (fun a c => a * 10 + (c.toNat - 48)) acc := by
  induction s generalizing acc with
  | nil => simp [digits, eq_comm]
  | cons c s ih =>
    unfold digits
    have hd : (48 ≤ c ∧ c ≤ 57) ↔ IsDigit c := by
      unfold IsDigit; rw [UInt8.le_iff_toNat_le, UInt8.le_iff_toNat_le]; rfl
    split
    · next h => rw [ih]; simp [hd.1 h]
    · next h =>
      have : ¬ IsDigit c := fun e => h (hd.2 e)
      simp [this]

theorem not_digit_plus : ¬ IsDigit 43 := by unfold IsDigit; decide
theorem not_digit_minus : ¬ IsDigit 45 := by unfold IsDigit; decide

/-- `parseInt` accepts exactly the numerals of 64-bit integers. -/
theorem parseInt_iff (s : Str) (n : Int) : parseInt s = some n ↔ Numeral s n := by
  unfold Numeral
  constructor
  · intro h
    cases s with
    | nil => simp [parseInt] at h
    | cons c s =>
      simp only [parseInt] at h
      generalize hb : (if c = 43 ∨ c = 45 then s else c :: s) = body at h
      split at h
      · simp at h
      · next hne =>
        split at h
        · simp at h
        · next v hv =>
          obtain ⟨hd, hv⟩ := (digits_eq _ _ _).1 hv
          by_cases h45 : c = 45
          · subst h45
            simp only [or_true, if_true] at hb
            subst hb
            simp only [if_true] at h
            split at h
            · next hr =>
              simp only [Option.some.injEq] at h
              refine ⟨?_, s, hne, hd, Or.inr (Or.inr ⟨rfl, ?_⟩)⟩
              · unfold IsI64; omega
              · rw [← h, hv]; rfl
            · simp at h
          · simp only [h45, or_false, if_false] at hb h
            split at h
            · next hr =>
              simp only [Option.some.injEq] at h
              by_cases h43 : c = 43
              · subst h43
                simp only [if_true] at hb
                subst hb
                refine ⟨?_, s, hne, hd, Or.inr (Or.inl ⟨rfl, ?_⟩)⟩
                · unfold IsI64; omega
                · rw [← h, hv]; rfl
              · simp only [h43, if_false] at hb
                subst hb
                refine ⟨?_, c :: s, hne, hd, Or.inl ⟨rfl, ?_⟩⟩
                · unfold IsI64; omega
                · rw [← h, hv]; rfl
            · simp at h
  · rintro ⟨hn, ds, hne, hd, h⟩
    have hv : digits 0 ds = some (decValue ds) := (digits_eq _ _ _).2 ⟨hd, rfl⟩
    unfold IsI64 at hn
    rcases h with ⟨rfl, rfl⟩ | ⟨rfl, rfl⟩ | ⟨rfl, rfl⟩
    · cases s with
      | nil => exact absurd rfl hne
      | cons c s =>
        have h43 : c ≠ 43 := fun e => not_digit_plus (e ▸ hd c (by simp))
        have h45 : c ≠ 45 := fun e => not_digit_minus (e ▸ hd c (by simp))
        simp only [parseInt, h43, h45, or_false, if_false, hv]
        rw [if_neg (by simp), if_pos (by omega)]
    · simp only [parseInt, true_or, if_true, hv]
      rw [if_neg hne, if_neg (by decide), if_pos (by omega)]
    · simp only [parseInt, or_true, if_true, hv]
      rw [if_neg hne, if_pos (by omega)]

theorem decValue_append (ds : Bytes) (c : UInt8) : decValue (ds ++ [c]) = decValue ds * 10 + (c.toNat - 48) := by
  simp [decValue]

theorem digit_toNat (n : Nat) (h : n < 10) : (48 + n.toUInt8).toNat = 48 + n := by
  have : n = 0 ∨ n = 1 ∨ n = 2 ∨ n = 3 ∨ n = 4 ∨ n = 5 ∨ n = 6 ∨ n = 7 ∨ n = 8 ∨ n = 9 := by omega
  rcases this with rfl|rfl|rfl|rfl|rfl|rfl|rfl|rfl|rfl|rfl <;> rfl

theorem decimal_spec (n : Nat) : decimal n ≠ [] ∧ (∀ c ∈ decimal n, IsDigit c) ∧ decValue (decimal n) = n := by
  induction n using Nat.strongRecOn with
  | _ n ih =>
    unfold decimal
    split
    · next h =>
      refine ⟨by simp, ?_, ?_⟩
      · intro c hc
        rw [List.mem_singleton.1 hc]; unfold IsDigit; rw [digit_toNat n h]; omega
      · simp only [decValue, List.foldl_cons, List.foldl_nil]; rw [digit_toNat n h]; omega
    · next h =>
      obtain ⟨_, h2, h3⟩ := ih (n / 10) (by omega)
      have hm : n % 10 < 10 := by omega
      refine ⟨by simp, ?_, ?_⟩
      · intro c hc
        rcases List.mem_append.1 hc with hc | hc
        · exact h2 c hc
        · rw [List.mem_singleton.1 hc]; unfold IsDigit; rw [digit_toNat _ hm]; omega
      · rw [decValue_append, h3, digit_toNat _ hm]; omega

theorem numeral_intText (n : Int) (h : IsI64 n) : Numeral (intText n) n := by
  obtain ⟨h1, h2, h3⟩ := decimal_spec n.natAbs
  refine ⟨h, decimal n.natAbs, h1, h2, ?_⟩
  unfold intText
  split
  · refine Or.inr (Or.inr ⟨rfl, ?_⟩); rw [h3]; omega
  · refine Or.inl ⟨rfl, ?_⟩; rw [h3]; omega

theorem intText_no_sep (n : Int) (sep : UInt8) (hs : sep = 44 ∨ sep = 124) : sep ∉ intText n := by
  obtain ⟨_, h2, _⟩ := decimal_spec n.natAbs
  have : sep ∉ decimal n.natAbs := by
    intro hm
    have := h2 sep hm
    unfold IsDigit at this
    rcases hs with rfl | rfl <;> revert this <;> decide
  unfold intText
  split
  · rcases hs with rfl | rfl <;> simp [this]
  · exact this

/-! ### Peers -/

theorem peersFromFlag_go (ps : List Str) (l : List CosignerPeer) :
    peersFromFlag.go ps = .ok l ↔
      List.Forall₂ (fun p q => splitOn bar p = [q.p2pAddr, (splitOn bar p).getLast (splitOn_ne_nil bar p)] ∧
        parseInt ((splitOn bar p).getLast (splitOn_ne_nil bar p)) = some q.shareID) ps l := by
  induction ps generalizing l with
  | nil => cases l <;> simp [peersFromFlag.go]
  | cons p ps ih =>
    unfold peersFromFlag.go
    split
    · next addr num heq =>
      have hl : (splitOn bar p).getLast (splitOn_ne_nil bar p) = num := by simp [heq]
      split
      · next hn => 
        simp only [reduceCtorEq, false_iff]
        intro hf
        cases hf with
        | cons h _ => rw [hl, hn] at h; simp at h
      · next n hn =>
        split
        · next l' hl' =>
          simp only [Except.ok.injEq]
          constructor
          · rintro rfl
            refine .cons ⟨?_, ?_⟩ ((ih _).1 hl')
            · rw [hl]; exact heq
            · rw [hl]; exact hn
          · intro hf
            cases hf with
            | @cons _ q _ qs h ht =>
              have := (ih _).2 ht
              rw [hl'] at this
              rw [hl, hn] at h
              have h1 := h.1
              rw [heq] at h1
              simp at h1 h
              cases q
              simp_all
        · next e he =>
          simp only [reduceCtorEq, false_iff]
          intro hf
          cases hf with
          | cons h ht =>
            have := (ih _).2 ht
            rw [he] at this
            simp at this
    · next hx =>
      simp only [reduceCtorEq, false_iff]
      intro hf
      cases hf with
      | cons h _ => exact hx _ _ h.1

theorem duplicatePeers_nil (seen : List Int) (ps : List CosignerPeer) :
    duplicatePeers seen ps = [] ↔ (ps.map (·.shareID)).Nodup ∧ ∀ p ∈ ps, p.shareID ∉ seen := by
  induction ps generalizing seen with
  | nil => simp [duplicatePeers]
  | cons p ps ih =>
    unfold duplicatePeers
    split
    · next h => simp [h]
    · next h =>
      rw [ih]
      simp only [List.map_cons, List.nodup_cons, List.mem_map, not_exists, not_and, List.mem_cons, not_or,
        forall_eq_or_imp]
      constructor
      · rintro ⟨h1, h2⟩
        exact ⟨⟨fun q hq e => (h2 q hq).1 e, h1⟩, h, fun q hq => (h2 q hq).2⟩
      · rintro ⟨⟨h1, h2⟩, _, h3⟩
        exact ⟨h2, fun q hq => ⟨h1 q hq, h3 q hq⟩⟩

theorem diffSet_eq {α : Type} [DecidableEq α] (a b : List α) (inst : ∀ x, Decidable (x ∉ b)) :
    diffSet a b = a.filter (fun x => decide (x ∉ b)) := by
  unfold diffSet
  congr 1
  funext x
  rw [Bool.eq_iff_iff]
  simp only [Bool.not_eq_true', List.any_eq_false, decide_eq_true_eq]
  exact ⟨fun h hm => h x hm rfl, fun h y hy e => h (e ▸ hy)⟩

instance (s : Bytes) (n : Int) : Decidable (Numeral s n) := decidable_of_iff _ (parseInt_iff s n)

theorem namedIDs_ok (p : CosignerPeer) (ids : List Str) (l : List CosignerPeer) (h : namedIDs p ids = .ok l) :
    (∀ q ∈ l, q = p) ∧ (l ≠ [] ↔ ∃ s ∈ ids, parseInt s = some p.shareID) := by
  induction ids generalizing l with
  | nil => simp [namedIDs] at h; simp [h]
  | cons s ids ih =>
    unfold namedIDs at h
    split at h
    · simp at h
    · next id hid =>
      split at h
      · simp at h
      · next l' hl' =>
        obtain ⟨h1, h2⟩ := ih l' hl'
        simp only [Except.ok.injEq] at h
        subst h
        split
        · next he =>
          subst he
          refine ⟨?_, by simp [hid]⟩
          intro q hq
          rcases List.mem_cons.1 hq with rfl | hq
          · rfl
          · exact h1 q hq
        · next he =>
          refine ⟨h1, ?_⟩
          rw [h2]
          have : id ≠ p.shareID := fun e => he e.symm
          simp [hid, this]

theorem namedPeers_ok (ids : List Str) (ps l : List CosignerPeer) (h : namedPeers ids ps = .ok l) (p : CosignerPeer) :
    p ∈ l ↔ p ∈ ps ∧ ∃ s ∈ ids, parseInt s = some p.shareID := by
  induction ps generalizing l with
  | nil => simp [namedPeers] at h; simp [h]
  | cons q ps ih =>
    unfold namedPeers at h
    split at h
    · simp at h
    · next l1 h1 =>
      split at h
      · simp at h
      · next l2 h2 =>
        obtain ⟨ha, hb⟩ := namedIDs_ok _ _ _ h1
        have hc := ih l2 h2
        simp only [Except.ok.injEq] at h
        subst h
        rw [List.mem_append, hc, List.mem_cons]
        constructor
        · rintro (h | ⟨h, h'⟩)
          · have := ha p h
            subst this
            exact ⟨Or.inl rfl, hb.1 (List.ne_nil_of_mem h)⟩
          · exact ⟨Or.inr h, h'⟩
        · rintro ⟨rfl | h, h'⟩
          · have hne := hb.2 h'
            cases l1 with
            | nil => exact absurd rfl hne
            | cons x xs =>
              have := ha x (by simp)
              subst this
              exact Or.inl (by simp)
          · exact Or.inr ⟨h, h'⟩

theorem namedPeers_err (ids : List Str) (ps : List CosignerPeer) :
    (∃ e, namedPeers ids ps = .error e) ↔ ps ≠ [] ∧ ∃ s ∈ ids, parseInt s = none := by
  have hids : ∀ p ids, (∃ e, namedIDs p ids = .error e) ↔ ∃ s ∈ ids, parseInt s = none := by
    intro p ids
    induction ids with
    | nil => simp [namedIDs]
    | cons s ids ih =>
      unfold namedIDs
      split
      · next h => simp [h]
      · next id h =>
        split
        · next e he => have := ih.1 ⟨e, he⟩; simpa [h] using this
        · next l hl =>
          rw [hl] at ih
          simpa [h] using ih
  induction ps with
  | nil => simp [namedPeers]
  | cons p ps ih =>
    unfold namedPeers
    split
    · next e he => simpa using (hids p ids).1 ⟨e, he⟩
    · next l hl =>
      have hn := hids p ids
      rw [hl] at hn
      simp only [reduceCtorEq, exists_false, false_iff] at hn
      split
      · next e he => exact absurd (ih.1 ⟨e, he⟩).2 hn
      · simp only [reduceCtorEq, exists_false, ne_eq, not_false_eq_true, true_and, false_iff]
        simpa using hn

theorem validateChainNodes_iff (lib : Lib) (nodes : List Str) :
    validateChainNodes lib nodes = .ok () ↔ ∀ n ∈ nodes.getLast?, lib.urlOk n = true := by
  unfold validateChainNodes
  rcases List.eq_nil_or_concat nodes with rfl | ⟨l, n, rfl⟩
  · simp
  · simp

theorem validateCosignerPeers_iff (peers : List CosignerPeer) (shares : Int) :
    validateCosignerPeers peers shares = .ok () ↔
      (peers.map (·.shareID)).Nodup ∧ (∀ p ∈ peers, 1 ≤ p.shareID ∧ p.shareID ≤ shares) ∧
      (peers.length : Int) ≠ shares := by
  have hd : (duplicatePeers [] peers).length ≠ 0 ↔ ¬ (peers.map (·.shareID)).Nodup := by
    rw [Ne, List.length_eq_zero_iff, duplicatePeers_nil]; simp
  have ha : peers.any (fun p => decide (p.shareID < 1 ∨ p.shareID > shares)) = true ↔
      ¬ ∀ p ∈ peers, 1 ≤ p.shareID ∧ p.shareID ≤ shares := by
    simp only [List.any_eq_true, decide_eq_true_eq]
    constructor
    · rintro ⟨p, hp, h⟩ hall
      have := hall p hp
      omega
    · intro h
      apply Classical.byContradiction
      intro hc
      apply h
      intro p hp
      have : ¬ (p.shareID < 1 ∨ p.shareID > shares) := fun e => hc ⟨p, hp, e⟩
      omega
  unfold validateCosignerPeers
  split
  · next h => simp [hd.1 h]
  · next h =>
    have h1 : (peers.map (·.shareID)).Nodup := Classical.byContradiction fun hc => h (hd.2 hc)
    split
    · next h' =>
      have := ha.1 h'
      constructor
      · intro h; simp at h
      · intro h; exact absurd h.2.1 this
    · next h' =>
      have h2 : ∀ p ∈ peers, 1 ≤ p.shareID ∧ p.shareID ≤ shares :=
        Classical.byContradiction fun hc => h' (ha.2 hc)
      split
      · next h3 => simp [h3]
      · next h3 => exact ⟨fun _ => ⟨h1, h2, h3⟩, fun _ => rfl⟩

end Horcrux
