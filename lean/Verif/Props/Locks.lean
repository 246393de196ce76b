import Verif.Lemmas.Locks
/-
C96: no requests wait for each other for ever.
-/
namespace Horcrux

/-- C96: as long as something that was begun has not ended, something can go on: there is no circle of goroutines, on one
node or on several, each of which waits for a mutex that the next one holds, or for a call to return. -/
theorem C96_no_deadlock (s : Waits) (h : s.Run) (g : Goroutine) (hg : g ∈ s.all) (hd : ¬ (g.rest = .done ∧ g.waits = none)) :
    ∃ s', s.Step s' := by
  obtain ⟨fl, held, hi⟩ := h.inv
  obtain ⟨i, hi', rfl⟩ := List.getElem_of_mem hg
  exact hi.progress (List.getElem?_eq_getElem hi') hd

theorem Waits.Steps.run {s s' : Waits} {k : Nat} (h : s.Run) (t : s.Steps k s') : s'.Run := by
  induction t with
  | nil => exact h
  | step a _ ih => exact ih (h.step a)
  | givesUp a _ ih => exact ih (h.givesUp a)

theorem Waits.Steps.size {s s' : Waits} {k : Nat} (t : s.Steps k s') : s'.size + k ≤ s.size := by
  induction t with
  | nil => omega
  | step a _ ih => have := a.size_lt; omega
  | givesUp a _ ih => have := a.size_lt; omega

theorem Waits.Patient.steps {s s' : Waits} {k : Nat} (t : s.Patient k s') : s.Steps k s' := by
  induction t with
  | nil => exact .nil _
  | step a _ ih => exact .step a ih

theorem all_finish_aux : ∀ (n : Nat) (s : Waits), s.size ≤ n → s.Run →
    ∃ k s', s.Patient k s' ∧ ∀ g ∈ s'.all, g.rest = .done ∧ g.waits = none := by
  intro n
  induction n with
  | zero =>
    intro s hn h
    by_cases hs : ∃ s', s.Step s'
    · obtain ⟨s', hs'⟩ := hs
      have := hs'.size_lt
      omega
    · exact ⟨0, s, .nil s, fun g hg => Classical.byContradiction fun hd => hs (C96_no_deadlock s h g hg hd)⟩
  | succ n ih =>
    intro s hn h
    by_cases hs : ∃ s', s.Step s'
    · obtain ⟨s', hs'⟩ := hs
      have := hs'.size_lt
      obtain ⟨k, s'', h1, h2⟩ := ih s' (by omega) (h.step hs')
      exact ⟨k + 1, s'', .step hs' h1, h2⟩
    · exact ⟨0, s, .nil s, fun g hg => Classical.byContradiction fun hd => hs (C96_no_deadlock s h g hg hd)⟩

/-- C96: whatever has happened so far, and in whatever order things go on, everything that was begun comes to its end, after
a number of steps that does not depend on the order, with no mutex held: no choice of what goes on next leads to a standstill,
and no remote call has to be given up for it. -/
theorem C96_ends (s : Waits) (h : s.Run) :
    ∃ bound, ∀ k s', s.Steps k s' → k ≤ bound ∧
      ∃ k' s'', s'.Patient k' s'' ∧ k + k' ≤ bound ∧ (∀ g ∈ s''.all, g.rest = .done ∧ g.waits = none) ∧ ∀ m, s''.owner m = none := by
  refine ⟨s.size, fun k s' t => ?_⟩
  have h1 := t.size
  refine ⟨by omega, ?_⟩
  obtain ⟨k', s'', t', hd⟩ := all_finish_aux _ s' (Nat.le_refl _) (t.run h)
  have h2 := t'.steps.size
  refine ⟨k', s'', t', by omega, hd, fun m => ?_⟩
  obtain ⟨fl, held, hi⟩ := (t'.steps.run (t.run h)).inv
  cases ho : s''.owner m with
  | none => rfl
  | some i =>
    have hm := (hi.owner m i).1 ho
    obtain ⟨g, hg⟩ := hi.held_lt hm
    have hord := hi.ordered i g hg
    rw [(hd g (List.mem_of_getElem? hg)).1] at hord
    rw [show held i = [] from hord] at hm
    cases hm

/-- C96: no mutex is unlocked but by the goroutine that holds it (unlocking one that is not locked ends the process). -/
theorem C96_unlocks (s : Waits) (h : s.Run) (i : Nat) (m : Mutex) (p : Prog) (hg : s.all[i]? = some ⟨.unlock m p, none⟩) :
    s.owner m = some i := by
  obtain ⟨fl, held, hi⟩ := h.inv
  have hord : Ordered (.unlock m p) (fl i) (held i) := hi.ordered i _ hg
  exact (hi.owner m i).2 hord.1

/-- Two nodes that take each other for the leader, each asked by its chain node. -/
def crossed : Waits :=
  ⟨[⟨.unlock (.pv 1) .done, some (2, false)⟩, ⟨.unlock (.pv 2) .done, some (3, false)⟩,
    ⟨.done, some (4, true)⟩, ⟨.done, some (5, true)⟩, ⟨lkBegin 2 false 1 .done, none⟩, ⟨lkBegin 1 false 1 .done, none⟩],
   fun m => if m = .pv 2 then some 1 else if m = .pv 1 then some 0 else none⟩

/-- The state is one that can be reached: both chain nodes' requests hold the guards of their nodes, and wait for the other
node. -/
theorem crossed_run : crossed.Run := by
  have p : ∀ n m : Nat, LkRequest (.lock (.pv n) (.call (.rpc (lkBegin m false 1 .done) .done) (.unlock (.pv n) .done))) :=
    fun n m => .sign n (.proxied n (.answered m 1))
  have h0 := ((Waits.Run.idle.arrives (.mk (p 1 2))).arrives (.mk (p 2 1)))
  have h1 := h0.step (.lock (i := 0) rfl rfl)
  have h2 := h1.step (.lock (i := 1) rfl rfl)
  have h3 := h2.step (.call (i := 0) rfl)
  have h4 := h3.step (.call (i := 1) rfl)
  have h5 := h4.step (.rpc (i := 2) rfl)
  exact h5.step (.rpc (i := 3) rfl)

/-- From there, both requests are answered, and no mutex is left locked. -/
example : ∃ k s, crossed.Patient k s ∧ (∀ g ∈ s.all, g.rest = .done ∧ g.waits = none) ∧ ∀ m, s.owner m = none := by
  obtain ⟨b, h⟩ := C96_ends crossed crossed_run
  obtain ⟨_, k, s, h1, _, h2⟩ := h 0 crossed (.nil _)
  exact ⟨k, s, h1, h2⟩

/-- A mutex held over a call that needs it: what would happen if requests of other nodes went through the guard too. -/
example : ∃ s : Waits, s.all[0]? = some ⟨.unlock (.pv 1) .done, some (2, true)⟩ ∧
    s.all[1]? = some ⟨.unlock (.pv 2) .done, some (3, true)⟩ ∧
    s.all[2]? = some ⟨crit (.pv 2) [] .done, none⟩ ∧ s.all[3]? = some ⟨crit (.pv 1) [] .done, none⟩ ∧ s.all.length = 4 ∧
    s.owner (.pv 1) = some 0 ∧ s.owner (.pv 2) = some 1 ∧ ¬ ∃ s', s.Step s' := by
  refine ⟨⟨[⟨.unlock (.pv 1) .done, some (2, true)⟩, ⟨.unlock (.pv 2) .done, some (3, true)⟩, ⟨crit (.pv 2) [] .done, none⟩,
    ⟨crit (.pv 1) [] .done, none⟩], fun m => if m = .pv 2 then some 1 else if m = .pv 1 then some 0 else none⟩,
    rfl, rfl, rfl, rfl, rfl, rfl, rfl, ?_⟩
  have key : ∀ {i : Nat} {g : Goroutine}, [(⟨.unlock (.pv 1) .done, some (2, true)⟩ : Goroutine),
      ⟨.unlock (.pv 2) .done, some (3, true)⟩, ⟨crit (.pv 2) [] .done, none⟩, ⟨crit (.pv 1) [] .done, none⟩][i]? = some g →
      g = ⟨.unlock (.pv 1) .done, some (2, true)⟩ ∨ g = ⟨.unlock (.pv 2) .done, some (3, true)⟩ ∨
      g = ⟨crit (.pv 2) [] .done, none⟩ ∨ g = ⟨crit (.pv 1) [] .done, none⟩ := by
    intro i g h
    have := List.mem_of_getElem? h
    simpa using this
  rintro ⟨s', st⟩
  cases st with
  | lock h ho =>
    rcases key h with h | h | h | h <;> cases h
    · cases ho
    · cases ho
  | unlock h => rcases key h with h | h | h | h <;> cases h
  | acc h => rcases key h with h | h | h | h <;> cases h
  | go h => rcases key h with h | h | h | h <;> cases h
  | call h => rcases key h with h | h | h | h <;> cases h
  | rpc h => rcases key h with h | h | h | h <;> cases h
  | ret h hj =>
    rcases key h with h | h | h | h <;> cases h
    · cases hj
    · cases hj

end Horcrux
