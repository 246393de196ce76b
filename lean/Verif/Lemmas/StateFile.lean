import Verif.Model.StateFile
import Verif.Lemmas.Raft
/-
Reading back an indented object.
-/
namespace Horcrux

theorem skipWs_32 (s : Bytes) : skipWs (32 :: s) = skipWs s := by simp [skipWs]
theorem skipWs_10 (s : Bytes) : skipWs (10 :: s) = skipWs s := by simp [skipWs]

theorem parseVal_ws (f : Nat) (s : Bytes) : parseVal f (32 :: s) = parseVal f s := by
  cases f with
  | zero => rfl
  | succ f => simp only [parseVal, skipWs_32]

theorem JObj.parse_indent : ∀ (l : JObj) (f : Nat) (rest : Bytes), l.numsOk → l.fuel ≤ f → l ≠ .nil →
    parseMembers f (l.indent true ++ (10 :: 125 :: rest)) = some (l.clean, rest)
  | .nil, _, _, _, _, h => absurd rfl h
  | .cons k v l, f, rest, hn, hf, _ => by
    cases f with
    | zero => simp [JObj.fuel] at hf
    | succ f =>
      have hn' : v.numsOk ∧ l.numsOk := by simpa [JObj.numsOk] using hn
      have hf' : v.fuel ≤ f ∧ l.fuel ≤ f := by simp only [JObj.fuel] at hf; omega
      have hw34 : ∀ t, skipWs (34 :: t) = 34 :: t := fun t => skipWs_of (by decide)
      have hw58 : ∀ t, skipWs (58 :: t) = 58 :: t := fun t => skipWs_of (by decide)
      have hl' := JObj.parse_indent l f rest hn'.2 hf'.2
      cases l with
      | nil =>
        have hv := JVal.parse_print v f (10 :: 125 :: rest) hn'.1 (by simp [Term]) hf'.1
        have hw : ∀ t, skipWs (125 :: t) = 125 :: t := fun t => skipWs_of (by decide)
        simp only [JObj.indent, if_true, List.nil_append, List.append_nil, List.append_assoc, List.cons_append,
          printStr_append]
        simp only [parseMembers, skipWs_10, skipWs_32, hw34, parseStr_print, hw58, parseVal_ws, hv, hw]
        rfl
      | cons k' w l' =>
        have hv := JVal.parse_print v f (44 :: ((JObj.cons k' w l').indent true ++ 10 :: 125 :: rest)) hn'.1
          (by simp [Term]) hf'.1
        have hl := hl' (by intro h; cases h)
        have hpr : (JObj.cons k v (JObj.cons k' w l')).indent true ++ 10 :: 125 :: rest =
            10 :: 32 :: 32 :: (printStr k ++ (58 :: 32 :: (v.print ++
              (44 :: ((JObj.cons k' w l').indent true ++ 10 :: 125 :: rest))))) := by
          simp [JObj.indent]
        have hw : ∀ t, skipWs (44 :: t) = 44 :: t := fun t => skipWs_of (by decide)
        rw [hpr, printStr_append]
        simp only [parseMembers, skipWs_10, skipWs_32, hw34, parseStr_print, hw58, parseVal_ws, hv, hw, hl]
        rfl

theorem JObj.indent_length : ∀ (l : JObj) (b : Bool), (l.print b).length ≤ (l.indent b).length
  | .nil, _ => by simp [JObj.print, JObj.indent]
  | .cons k v l, b => by
    have := JObj.indent_length l false
    simp only [JObj.print, JObj.indent, List.length_append, List.length_cons]
    omega

theorem parseJson_indent (l : JObj) (h : l.numsOk) (hne : l ≠ .nil) (hd : l.depth + 1 ≤ maxNesting) :
    parseJson (123 :: (l.indent true ++ [10, 125])) = some (.obj l.clean) := by
  have hlen := JObj.indent_length l true
  have hfuel := JObj.fuel_le l true h
  have hp := JObj.parse_indent l (2 * (123 :: (l.indent true ++ [10, 125])).length + 1) [] h
    (by simp only [List.length_cons, List.length_append]; omega) hne
  unfold parseJson
  have hw : ∀ t, skipWs (123 :: t) = 123 :: t := fun t => skipWs_of (by decide)
  have hw' : ∀ t, skipWs (34 :: t) = 34 :: t := fun t => skipWs_of (by decide)
  have : parseVal (2 * (123 :: (l.indent true ++ [10, 125])).length + 2) (123 :: (l.indent true ++ [10, 125])) =
      some (.obj l.clean, []) := by
    cases l with
    | nil => exact absurd rfl hne
    | cons k v l =>
      have hsk : skipWs ((JObj.cons k v l).indent true ++ [10, 125]) =
          34 :: (encodeStrAux k.length k ++ 34 :: (58 :: 32 :: (v.print ++ (l.indent false ++ [10, 125])))) := by
        simp only [JObj.indent, if_true, List.nil_append, List.cons_append, List.append_assoc, skipWs_10, skipWs_32,
          printStr_append, hw']
      have hpm : parseMembers (2 * (123 :: ((JObj.cons k v l).indent true ++ [10, 125])).length + 1)
          (34 :: (encodeStrAux k.length k ++ 34 :: (58 :: 32 :: (v.print ++ (l.indent false ++ [10, 125]))))) =
          some ((JObj.cons k v l).clean, []) := by
        rw [← hp]
        show parseMembers _ _ = parseMembers _ ((JObj.cons k v l).indent true ++ [10, 125])
        simp only [parseMembers, hsk, hw']
      simp only [parseVal, hw, if_true, hsk]
      split
      · rename_i h; simp only [List.cons.injEq] at h; exact absurd h.1 (by decide)
      · simp only [hpm]
  rw [this]
  simp [skipWs, JVal.depth, l.clean_depth, hd]

/-! ### Nothing is read that is not there -/

theorem skipWs_subset : ∀ (s : Bytes), ∀ c ∈ skipWs s, c ∈ s
  | [], c, h => h
  | a :: s, c, h => by
    simp only [skipWs] at h
    split at h
    · exact List.mem_cons_of_mem _ (skipWs_subset s c h)
    · exact h

theorem hex4_subset {s rest : Bytes} {n : Nat} (h : hex4 s = some (n, rest)) : ∀ c ∈ rest, c ∈ s := by
  unfold hex4 at h
  split at h
  · split at h
    · simp only [Option.some.injEq, Prod.mk.injEq] at h
      intro c hc
      rw [← h.2] at hc
      simp [hc]
    · cases h
  · cases h

theorem uEscape_subset (r : Nat) (s : Bytes) : ∀ c ∈ (uEscape r s).2, c ∈ s := by
  intro c hc
  unfold uEscape at hc
  split at hc
  · split at hc
    · split at hc
      · rename_i h4
        split at hc
        · have := hex4_subset h4 c hc
          simp [this]
        · exact hc
      · exact hc
    · exact hc
  · exact hc

theorem consStr_rest {a : Bytes} {o : Option (Bytes × Bytes)} {t rest : Bytes} (h : consStr a o = some (t, rest)) :
    ∃ t', o = some (t', rest) := by
  unfold consStr at h
  split at h
  · cases h
  · simp only [Option.some.injEq, Prod.mk.injEq] at h
    exact ⟨_, by rw [← h.2]⟩

theorem parseStrAux_subset : ∀ (f : Nat) (s t rest : Bytes), parseStrAux f s = some (t, rest) → ∀ c ∈ rest, c ∈ s
  | 0, _, _, _, h => by simp [parseStrAux] at h
  | _ + 1, [], _, _, h => by simp [parseStrAux] at h
  | f + 1, a :: s, t, rest, h => by
    intro c hc
    simp only [parseStrAux] at h
    split at h
    · simp only [Option.some.injEq, Prod.mk.injEq] at h
      rw [← h.2] at hc; simp [hc]
    · split at h
      · split at h
        · cases h
        · rename_i e s'
          split at h
          · split at h
            · cases h
            · rename_i r rest' h4
              obtain ⟨t', h'⟩ := consStr_rest h
              have := hex4_subset h4 c (uEscape_subset _ _ c (parseStrAux_subset f _ _ _ h' c hc))
              simp [this]
          · split at h
            · cases h
            · obtain ⟨t', h'⟩ := consStr_rest h
              have := parseStrAux_subset f _ _ _ h' c hc
              simp [this]
      · split at h
        · cases h
        · split at h
          · obtain ⟨t', h'⟩ := consStr_rest h
            exact List.mem_cons_of_mem _ (parseStrAux_subset f _ _ _ h' c hc)
          · split at h
            · obtain ⟨t', h'⟩ := consStr_rest h
              exact List.mem_cons_of_mem _ (parseStrAux_subset f _ _ _ h' c hc)
            · obtain ⟨t', h'⟩ := consStr_rest h
              exact List.mem_cons_of_mem _ (List.mem_of_mem_drop (parseStrAux_subset f _ _ _ h' c hc))

theorem spanDigits_subset : ∀ s : Bytes, ∀ c ∈ (spanDigits s).2, c ∈ s
  | [], c, h => h
  | a :: s, c, h => by
    simp only [spanDigits] at h
    split at h
    · exact List.mem_cons_of_mem _ (spanDigits_subset s c h)
    · exact h

theorem parseNum_subset {s n rest : Bytes} (h : parseNum s = some (n, rest)) : ∀ c ∈ rest, c ∈ s := by
  have hm : ∀ c ∈ (minusPart s).2, c ∈ s := by
    intro c hc
    unfold minusPart at hc
    split at hc
    · simp [hc]
    · exact hc
  have hi : ∀ {s a b : Bytes}, intPart s = some (a, b) → ∀ c ∈ b, c ∈ s := by
    intro s a b h c hc
    unfold intPart at h
    split at h
    · cases h
    · split at h
      · simp only [Option.some.injEq, Prod.mk.injEq] at h
        rw [← h.2] at hc; simp [hc]
      · split at h
        · rename_i x y _ _
          have h2 : (spanDigits (x :: y)).2 = b := by rw [Option.some.inj h]
          rw [← h2] at hc
          exact spanDigits_subset _ c hc
        · cases h
  have hf : ∀ {s a b : Bytes}, fracPart s = some (a, b) → ∀ c ∈ b, c ∈ s := by
    intro s a b h c hc
    unfold fracPart at h
    split at h
    · split at h
      · cases h
      · simp only [Option.some.injEq, Prod.mk.injEq] at h
        rw [← h.2] at hc
        exact List.mem_cons_of_mem _ (spanDigits_subset _ c hc)
    · simp only [Option.some.injEq, Prod.mk.injEq] at h
      rw [h.2]; exact hc
  have hsg : ∀ s : Bytes, ∀ c ∈ (signPart s).2, c ∈ s := by
    intro s c hc
    unfold signPart at hc
    split at hc
    · exact hc
    · split at hc
      · simp [hc]
      · exact hc
  have he : ∀ {s a b : Bytes}, expPart s = some (a, b) → ∀ c ∈ b, c ∈ s := by
    intro s a b h c hc
    unfold expPart at h
    split at h
    · simp only [Option.some.injEq, Prod.mk.injEq] at h
      rw [← h.2] at hc; exact hc
    · split at h
      · split at h
        · cases h
        · simp only [Option.some.injEq, Prod.mk.injEq] at h
          rw [← h.2] at hc
          exact List.mem_cons_of_mem _ (hsg _ c (spanDigits_subset _ c hc))
      · simp only [Option.some.injEq, Prod.mk.injEq] at h
        rw [← h.2] at hc; exact hc
  unfold parseNum at h
  split at h
  · cases h
  · rename_i h1
    split at h
    · cases h
    · rename_i h2
      split at h
      · cases h
      · rename_i h3
        simp only [Option.some.injEq, Prod.mk.injEq] at h
        intro c hc
        rw [← h.2] at hc
        exact hm c (hi h1 c (hf h2 c (he h3 c hc)))

/-- The rest after a value consists of bytes of the input, and an object has a closing brace. -/
theorem parse_subset : ∀ f : Nat,
    (∀ s v rest, parseVal f s = some (v, rest) → ∀ c ∈ rest, c ∈ s) ∧
    (∀ s l rest, parseElems f s = some (l, rest) → ∀ c ∈ rest, c ∈ s) ∧
    (∀ s l rest, parseMembers f s = some (l, rest) → (∀ c ∈ rest, c ∈ s) ∧ 125 ∈ s)
  | 0 => by simp [parseVal, parseElems, parseMembers]
  | f + 1 => by
    obtain ⟨ihv, ihe, ihm⟩ := parse_subset f
    have hws : ∀ {s t : Bytes}, skipWs s = t → ∀ c ∈ t, c ∈ s := fun h c hc => skipWs_subset _ c (h ▸ hc)
    refine ⟨?_, ?_, ?_⟩
    · intro s v rest h c hc
      simp only [parseVal] at h
      split at h
      · cases h
      · rename_i a s1 hs1
        have h1 : ∀ c ∈ s1, c ∈ s := fun c hc => hws hs1 c (List.mem_cons_of_mem _ hc)
        split at h
        · split at h
          · rename_i hs2
            simp only [Option.some.injEq, Prod.mk.injEq] at h
            exact h1 c (hws hs2 c (List.mem_cons_of_mem _ (h.2 ▸ hc)))
          · split at h
            · cases h
            · rename_i hm
              simp only [Option.some.injEq, Prod.mk.injEq] at h
              exact h1 c (skipWs_subset _ c ((ihm _ _ _ hm).1 c (h.2 ▸ hc)))
        · split at h
          · split at h
            · rename_i hs2
              simp only [Option.some.injEq, Prod.mk.injEq] at h
              exact h1 c (hws hs2 c (List.mem_cons_of_mem _ (h.2 ▸ hc)))
            · split at h
              · cases h
              · rename_i hm
                simp only [Option.some.injEq, Prod.mk.injEq] at h
                exact h1 c (skipWs_subset _ c (ihe _ _ _ hm c (h.2 ▸ hc)))
          · split at h
            · split at h
              · cases h
              · rename_i hp
                simp only [Option.some.injEq, Prod.mk.injEq] at h
                exact h1 c (parseStrAux_subset _ _ _ _ hp c (h.2 ▸ hc))
            · split at h
              · split at h
                · simp only [Option.some.injEq, Prod.mk.injEq] at h
                  exact h1 c (by simp [h.2, hc])
                · cases h
              · split at h
                · split at h
                  · simp only [Option.some.injEq, Prod.mk.injEq] at h
                    exact h1 c (by simp [h.2, hc])
                  · cases h
                · split at h
                  · split at h
                    · simp only [Option.some.injEq, Prod.mk.injEq] at h
                      exact h1 c (by simp [h.2, hc])
                    · cases h
                  · split at h
                    · cases h
                    · rename_i hp
                      simp only [Option.some.injEq, Prod.mk.injEq] at h
                      exact hws hs1 c (parseNum_subset hp c (h.2 ▸ hc))
    · intro s l rest h c hc
      simp only [parseElems] at h
      split at h
      · cases h
      · rename_i hv
        split at h
        · rename_i hs
          split at h
          · cases h
          · rename_i he
            simp only [Option.some.injEq, Prod.mk.injEq] at h
            exact ihv _ _ _ hv c (hws hs c (List.mem_cons_of_mem _ (ihe _ _ _ he c (h.2 ▸ hc))))
        · rename_i hs
          simp only [Option.some.injEq, Prod.mk.injEq] at h
          exact ihv _ _ _ hv c (hws hs c (List.mem_cons_of_mem _ (h.2 ▸ hc)))
        · cases h
    · intro s l rest h
      simp only [parseMembers] at h
      split at h
      · rename_i s0 hs0
        split at h
        · cases h
        · rename_i hk
          split at h
          · rename_i hs2
            split at h
            · cases h
            · rename_i hv
              have hin : ∀ c, c ∈ _ → c ∈ s := fun c hc => hws hs0 c (List.mem_cons_of_mem _
                (parseStrAux_subset _ _ _ _ hk c (hws hs2 c (List.mem_cons_of_mem _ (ihv _ _ _ hv c hc)))))
              split at h
              · rename_i hs
                split at h
                · cases h
                · rename_i he
                  simp only [Option.some.injEq, Prod.mk.injEq] at h
                  obtain ⟨g1, g2⟩ := ihm _ _ _ he
                  exact ⟨fun c hc => hin c (hws hs c (List.mem_cons_of_mem _ (g1 c (h.2 ▸ hc)))),
                    hin _ (hws hs _ (List.mem_cons_of_mem _ g2))⟩
              · rename_i hs
                simp only [Option.some.injEq, Prod.mk.injEq] at h
                exact ⟨fun c hc => hin c (hws hs c (List.mem_cons_of_mem _ (h.2 ▸ hc))), hin _ (hws hs _ (by simp))⟩
              · cases h
          · cases h
      · cases h

/-- What starts like an object and has no closing brace is no JSON. -/
theorem parseJson_open {s : Bytes} (h : 125 ∉ s) : parseJson (123 :: s) = none := by
  unfold parseJson
  have : parseVal (2 * (123 :: s).length + 2) (123 :: s) = none := by
    have hw : skipWs (123 :: s) = 123 :: s := skipWs_of (by decide)
    simp only [parseVal, hw, if_true]
    split
    · rename_i hs
      exact absurd (skipWs_subset s 125 (by rw [hs]; simp)) h
    · split
      · rfl
      · rename_i hm
        exact absurd (skipWs_subset s 125 ((parse_subset _).2.2 _ _ _ hm).2) h
  rw [this]

end Horcrux
