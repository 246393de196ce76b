import Verif.Spec.PrivFile
import Verif.Lemmas.StateFile
import Verif.Lemmas.KeyFile
/-
Reading JSON texts with any white space; reading a validator key file.
-/
namespace Horcrux
open Spec

theorem skipWs_blank : ∀ (w s : Bytes), Blank w → skipWs (w ++ s) = skipWs s
  | [], _, _ => rfl
  | c :: w, s, h => by
    have hc := h c (by simp)
    have := skipWs_blank w s fun x hx => h x (by simp [hx])
    rw [List.cons_append, skipWs, if_pos hc, this]

theorem parseVal_blank (f : Nat) (w s : Bytes) (h : Blank w) : parseVal f (w ++ s) = parseVal f s := by
  cases f with
  | zero => rfl
  | succ f => simp only [parseVal, skipWs_blank w s h]

theorem parseMembers_blank (f : Nat) (w s : Bytes) (h : Blank w) : parseMembers f (w ++ s) = parseMembers f s := by
  cases f with
  | zero => rfl
  | succ f => simp only [parseMembers, skipWs_blank w s h]

theorem printStr_head (s : Bytes) : ∃ t, printStr s = 34 :: t := ⟨_, rfl⟩

theorem skipWs_idem (s : Bytes) : skipWs (skipWs s) = skipWs s := by
  induction s with
  | nil => rfl
  | cons c s ih =>
    rw [skipWs]
    split
    · exact ih
    · next h => rw [skipWs, if_neg h]

theorem parseMembers_skip (f : Nat) (s : Bytes) : parseMembers f (skipWs s) = parseMembers f s := by
  cases f with
  | zero => rfl
  | succ f => simp only [parseMembers, skipWs_idem]

/-- Members begin with a quote. -/
theorem members_head {l : JObj} {t : Bytes} (h : RendersMembers l t) (rest : Bytes) : ∃ s, skipWs (t ++ rest) = 34 :: s := by
  have hq : ∀ (k x : Bytes), ∃ s, skipWs (printStr k ++ x) = 34 :: s := by
    intro k x
    obtain ⟨u, hu⟩ := printStr_head k
    rw [hu, List.cons_append]
    exact ⟨_, skipWs_of (by decide)⟩
  cases h with
  | one w1 w2 w3 w4 h1 _ _ _ _ =>
    simp only [List.append_assoc]
    rw [skipWs_blank _ _ h1]
    exact hq _ _
  | cons w1 w2 w3 w4 h1 _ _ _ _ _ =>
    simp only [List.append_assoc]
    rw [skipWs_blank _ _ h1]
    exact hq _ _

mutual
theorem renders_parse : ∀ {v : JVal} {t : Bytes}, Renders v t → ∀ (f : Nat) (rest : Bytes), v.fuel ≤ f →
    parseVal f (t ++ rest) = some (v.clean, rest)
  | _, _, .str s, f, rest, hf => by
    cases f with
    | zero => simp [JVal.fuel] at hf
    | succ f =>
      rw [printStr_append]
      have : skipWs (34 :: (encodeStrAux s.length s ++ 34 :: rest)) = 34 :: (encodeStrAux s.length s ++ 34 :: rest) :=
        skipWs_of (by decide)
      simp only [parseVal, this, parseStr_print, JVal.clean, take_str]
      rfl
  | _, _, .empty w hw, f, rest, hf => by
    cases f with
    | zero => simp [JVal.fuel] at hf
    | succ f =>
      have h1 : ∀ t, skipWs (123 :: t) = 123 :: t := fun t => skipWs_of (by decide)
      have h2 : ∀ t, skipWs (125 :: t) = 125 :: t := fun t => skipWs_of (by decide)
      simp only [List.cons_append, List.nil_append, List.append_assoc, parseVal, h1, if_true, skipWs_blank w _ hw, h2]
      rfl
  | .obj (.cons k v l), _, .obj (t := t) h, f, rest, hf => by
    cases f with
    | zero => simp [JVal.fuel] at hf
    | succ f =>
      simp only [JVal.fuel] at hf
      have h1 : ∀ t, skipWs (123 :: t) = 123 :: t := fun t => skipWs_of (by decide)
      have hp := rendersMembers_parse h f rest (by omega)
      obtain ⟨s, hs⟩ := members_head h (125 :: rest)
      rw [← parseMembers_skip, hs] at hp
      simp only [List.cons_append, List.nil_append, List.append_assoc, parseVal, h1, if_true, hs]
      split
      · rename_i h; simp only [List.cons.injEq] at h; exact absurd h.1 (by decide)
      · simp only [hp]
        rfl
theorem rendersMembers_parse : ∀ {l : JObj} {t : Bytes}, RendersMembers l t → ∀ (f : Nat) (rest : Bytes), l.fuel ≤ f →
    parseMembers f (t ++ 125 :: rest) = some (l.clean, rest)
  | .cons k v .nil, _, .one (t := t) w1 w2 w3 w4 h1 h2 h3 h4 hv, f, rest, hf => by
    cases f with
    | zero => simp [JObj.fuel] at hf
    | succ f =>
      have hf' : v.fuel ≤ f := by simp only [JObj.fuel] at hf; omega
      have hw34 : ∀ t, skipWs (34 :: t) = 34 :: t := fun t => skipWs_of (by decide)
      have hw58 : ∀ t, skipWs (58 :: t) = 58 :: t := fun t => skipWs_of (by decide)
      have hw125 : ∀ t, skipWs (125 :: t) = 125 :: t := fun t => skipWs_of (by decide)
      have hp := renders_parse hv f (w4 ++ 125 :: rest) hf'
      simp only [List.append_assoc, List.cons_append, List.nil_append]
      rw [parseMembers_blank _ _ _ h1, printStr_append]
      simp only [parseMembers, hw34, parseStr_print, skipWs_blank w2 _ h2, hw58, parseVal_blank f w3 _ h3, hp,
        skipWs_blank w4 _ h4, hw125]
      rfl
  | .cons k v (.cons k' v' l), _, .cons (t := t) (t' := t') w1 w2 w3 w4 h1 h2 h3 h4 hv hl, f, rest, hf => by
    cases f with
    | zero => simp [JObj.fuel] at hf
    | succ f =>
      have hf' : v.fuel ≤ f ∧ (JObj.cons k' v' l).fuel ≤ f := by
        rw [JObj.fuel] at hf; omega
      have hw34 : ∀ t, skipWs (34 :: t) = 34 :: t := fun t => skipWs_of (by decide)
      have hw58 : ∀ t, skipWs (58 :: t) = 58 :: t := fun t => skipWs_of (by decide)
      have hw44 : ∀ t, skipWs (44 :: t) = 44 :: t := fun t => skipWs_of (by decide)
      have hp := renders_parse hv f (w4 ++ 44 :: (t' ++ 125 :: rest)) hf'.1
      have hp' := rendersMembers_parse hl f rest hf'.2
      simp only [List.append_assoc, List.cons_append, List.nil_append]
      rw [parseMembers_blank _ _ _ h1, printStr_append]
      simp only [parseMembers, hw34, parseStr_print, skipWs_blank w2 _ h2, hw58, parseVal_blank f w3 _ h3, hp,
        skipWs_blank w4 _ h4, hw44, hp']
      rfl
end

mutual
theorem renders_fuel : ∀ {v : JVal} {t : Bytes}, Renders v t → v.fuel + 1 ≤ 2 * t.length
  | _, _, .str s => by
    simp only [JVal.fuel, printStr, List.length_cons, List.length_append]
    omega
  | _, _, .empty w hw => by
    simp only [JVal.fuel, JObj.fuel, List.length_cons, List.length_append, List.length_nil]
    omega
  | .obj (.cons k v l), _, .obj (t := t) h => by
    have := rendersMembers_fuel h
    simp only [JVal.fuel, List.length_cons, List.length_append, List.length_nil]
    omega
theorem rendersMembers_fuel : ∀ {l : JObj} {t : Bytes}, RendersMembers l t → l.fuel ≤ 2 * t.length
  | .cons k v .nil, _, .one (t := t) w1 w2 w3 w4 h1 h2 h3 h4 hv => by
    have := renders_fuel hv
    simp only [JObj.fuel, List.length_cons, List.length_append, List.length_nil]
    omega
  | .cons k v (.cons k' v' l), _, .cons (t := t) (t' := t') w1 w2 w3 w4 h1 h2 h3 h4 hv hl => by
    have := renders_fuel hv
    have := rendersMembers_fuel hl
    rw [JObj.fuel]
    simp only [List.length_cons, List.length_append, List.length_nil]
    omega
end

/-- A JSON text is read as its value, up to invalid UTF-8. -/
theorem renders_json {v : JVal} {t w w' : Bytes} (h : Renders v t) (hw : Blank w) (hw' : Blank w') (hd : v.depth ≤ maxNesting) :
    parseJson (w ++ t ++ w') = some v.clean := by
  have hf := renders_fuel h
  have := renders_parse h (2 * (w ++ t ++ w').length + 2) w' (by simp only [List.length_append]; omega)
  unfold parseJson
  rw [List.append_assoc] at this ⊢
  rw [parseVal_blank _ _ _ hw, this]
  have : skipWs w' = [] := by
    have := skipWs_blank w' [] hw'
    rw [List.append_nil] at this
    rw [this]; rfl
  simp only [this, v.clean_depth, hd, and_self, if_true]

end Horcrux
