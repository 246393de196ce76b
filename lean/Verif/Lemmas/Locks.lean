import Verif.Model.Locks
/-
Goroutines that take mutexes in an order, and call only what takes mutexes after those they hold, never wait for each other.
-/
namespace Horcrux

/-- The order of the mutexes: the guard of the validator first, then the turn of the state machine, then all others. -/
def Mutex.rank : Mutex → Nat
  | .pv _ => 0
  | .fsm _ => 1
  | _ => 2

theorem Mutex.rank_le (m : Mutex) : m.rank ≤ 2 := by cases m <;> simp [Mutex.rank]

/-- The mutex that is held by whoever writes. -/
def Mem.guard : Mem → Mutex
  | .started n | .startedCache n => .initiated n
  | .lss n | .lssCache n => .lss n
  | .share n | .shareCache n | .nonces n => .cosigner n
  | .store n => .fsm n
  | .kv n => .store n

/-- The accesses without that mutex: reads that are (almost) the last thing a goroutine does, and reads of the variable of the store with
the mutex of the store. -/
def Mem.Loose (v : Mem) (w : Bool) (p : Prog) (H : List Mutex) : Prop :=
  w = false ∧ match v with
    | .lss _ | .share _ => p = .done
    | .started n => p = .done ∨ p = .acc (.started n) false .done
    | .store n => .store n ∈ H
    | _ => False

/-- The program takes and gives back mutexes in order when those in `H` are held and none below `fl` may be taken; and it
accesses memory with the mutex that guards it, or loosely. -/
def Ordered : Prog → Nat → List Mutex → Prop
  | .done, _, H => H = []
  | .lock m p, fl, H => fl ≤ m.rank ∧ (∀ h ∈ H, h.rank < m.rank) ∧ Ordered p fl (m :: H)
  | .unlock m p, fl, H => m ∈ H ∧ Ordered p fl (H.filter (fun h => !decide (h = m)))
  | .acc v w p, fl, H => (v.guard ∈ H ∨ v.Loose w p H) ∧ Ordered p fl H
  | .go c p, fl, H => Ordered c 0 [] ∧ Ordered p fl H
  | .call c p, fl, H => (∃ f, fl ≤ f ∧ (∀ h ∈ H, h.rank < f) ∧ Ordered c f []) ∧ Ordered p fl H
  | .rpc c p, fl, H => (∃ f, fl ≤ f ∧ (∀ h ∈ H, h.rank < f) ∧ Ordered c f []) ∧ Ordered p fl H

/-- The invariant: goroutine `i` holds the mutexes `held i` and takes none below `fl i`. -/
structure Waits.Inv (s : Waits) (fl : Nat → Nat) (held : Nat → List Mutex) : Prop where
  owner : ∀ m i, s.owner m = some i ↔ m ∈ held i
  ordered : ∀ (i : Nat) (g : Goroutine), s.all[i]? = some g → Ordered g.rest (fl i) (held i)
  waits : ∀ (i : Nat) (g : Goroutine), s.all[i]? = some g → ∀ j b, g.waits = some (j, b) →
    i < j ∧ j < s.all.length ∧ fl i ≤ fl j ∧ ∀ m ∈ held i, m.rank < fl j
  fresh : ∀ i, s.all.length ≤ i → held i = []

/-- Update of a function at a point. -/
def setAt {α : Type} (f : Nat → α) (i : Nat) (x : α) : Nat → α := fun j => if j = i then x else f j

theorem getElem?_set_self' {l : List Goroutine} {i : Nat} {g g' : Goroutine} (h : l[i]? = some g) :
    (l.set i g')[i]? = some g' := by
  have : i < l.length := by
    rcases Nat.lt_or_ge i l.length with h' | h'
    · exact h'
    · rw [List.getElem?_eq_none h'] at h; cases h
  simp [this]

theorem getElem?_set_cases {l : List Goroutine} {i k : Nat} {g g' : Goroutine} (h : (l.set i g')[k]? = some g) :
    (k = i ∧ g = g') ∨ (k ≠ i ∧ l[k]? = some g) := by
  by_cases hk : k = i
  · subst hk
    left
    refine ⟨rfl, ?_⟩
    rw [List.getElem?_set] at h
    simp only [if_true] at h
    split at h
    · cases h; rfl
    · cases h
  · right
    refine ⟨hk, ?_⟩
    rwa [List.getElem?_set_ne (by omega)] at h

theorem getElem?_snoc {l : List Goroutine} {k : Nat} {g c : Goroutine} (h : (l ++ [c])[k]? = some g) :
    l[k]? = some g ∨ (k = l.length ∧ g = c) := by
  rcases Nat.lt_trichotomy k l.length with h' | h' | h'
  · rw [List.getElem?_append_left h'] at h; exact .inl h
  · subst h'; simp at h; exact .inr ⟨rfl, h.symm⟩
  · rw [List.getElem?_eq_none (by simp; omega)] at h; cases h

theorem lt_of_getElem? {l : List Goroutine} {i : Nat} {g : Goroutine} (h : l[i]? = some g) : i < l.length := by
  rcases Nat.lt_or_ge i l.length with h' | h'
  · exact h'
  · rw [List.getElem?_eq_none h'] at h; cases h

theorem Waits.Inv.idle : Waits.idle.Inv (fun _ => 0) (fun _ => []) :=
  ⟨by simp [Waits.idle], by simp [Waits.idle], by simp [Waits.idle], by simp⟩

/-- A new goroutine. -/
theorem Waits.Inv.add {s : Waits} {fl held} (h : s.Inv fl held) {p : Prog} {f : Nat} (hp : Ordered p f []) :
    Waits.Inv ⟨s.all ++ [⟨p, none⟩], s.owner⟩ (setAt fl s.all.length f) held := by
  refine ⟨h.owner, ?_, ?_, ?_⟩
  · intro i g hg
    rcases getElem?_snoc hg with hg | ⟨rfl, rfl⟩
    · have := lt_of_getElem? hg
      simp only [setAt, show ¬ i = s.all.length by omega, if_false]
      exact h.ordered i g hg
    · simp only [setAt, if_true, h.fresh _ (Nat.le_refl _)]
      exact hp
  · intro i g hg j b hj
    rcases getElem?_snoc hg with hg | ⟨rfl, rfl⟩
    · have h1 := lt_of_getElem? hg
      obtain ⟨h2, h3, h4, h5⟩ := h.waits i g hg j b hj
      simp only [setAt, show ¬ i = s.all.length by omega, show ¬ j = s.all.length by omega, if_false]
      exact ⟨h2, by simp; omega, h4, h5⟩
    · cases hj
  · intro i hi
    simp only [List.length_append, List.length_cons, List.length_nil] at hi
    exact h.fresh i (by omega)

theorem Waits.Inv.held_lt {s : Waits} {fl held} (h : s.Inv fl held) {m : Mutex} {i : Nat} (hm : m ∈ held i) :
    ∃ g, s.all[i]? = some g := by
  rcases Nat.lt_or_ge i s.all.length with h' | h'
  · exact ⟨_, List.getElem?_eq_getElem h'⟩
  · rw [h.fresh i h'] at hm; cases hm

/-- A goroutine goes on, with the same mutexes. -/
theorem Waits.Inv.next {s : Waits} {fl held} (h : s.Inv fl held) {i : Nat} {g : Goroutine} (hg : s.all[i]? = some g) {p : Prog}
    (hp : Ordered p (fl i) (held i)) : Waits.Inv ⟨s.all.set i ⟨p, none⟩, s.owner⟩ fl held := by
  refine ⟨h.owner, ?_, ?_, ?_⟩
  · intro k g' hk
    rcases getElem?_set_cases hk with ⟨rfl, rfl⟩ | ⟨_, hk⟩
    · exact hp
    · exact h.ordered k g' hk
  · intro k g' hk j b hj
    rcases getElem?_set_cases hk with ⟨rfl, rfl⟩ | ⟨_, hk⟩
    · cases hj
    · simpa using h.waits k g' hk j b hj
  · intro k hk
    exact h.fresh k (by simpa using hk)

/-- A goroutine starts to wait for a new one. -/
theorem Waits.Inv.startCall {s : Waits} {fl held} (h : s.Inv fl held) {i : Nat} {g : Goroutine} (hg : s.all[i]? = some g)
    {c p : Prog} (b : Bool) {f : Nat} (hf : fl i ≤ f) (hh : ∀ m ∈ held i, m.rank < f) (hc : Ordered c f [])
    (hp : Ordered p (fl i) (held i)) :
    Waits.Inv ⟨s.all.set i ⟨p, some (s.all.length, b)⟩ ++ [⟨c, none⟩], s.owner⟩ (setAt fl s.all.length f) held := by
  have hi := lt_of_getElem? hg
  refine ⟨h.owner, ?_, ?_, ?_⟩
  · intro k g' hk
    rcases getElem?_snoc hk with hk | ⟨hl, rfl⟩
    · have hkl := lt_of_getElem? hk
      simp only [List.length_set] at hkl
      simp only [setAt, show ¬ k = s.all.length by omega, if_false]
      rcases getElem?_set_cases hk with ⟨rfl, rfl⟩ | ⟨_, hk⟩
      · exact hp
      · exact h.ordered k g' hk
    · simp only [List.length_set] at hl
      subst hl
      simp only [setAt, if_true, h.fresh _ (Nat.le_refl _)]
      exact hc
  · intro k g' hk j b' hj
    rcases getElem?_snoc hk with hk | ⟨hl, rfl⟩
    · have hkl := lt_of_getElem? hk
      simp only [List.length_set] at hkl
      rcases getElem?_set_cases hk with ⟨rfl, rfl⟩ | ⟨_, hk⟩
      · cases hj
        simp only [setAt, show ¬ k = s.all.length by omega, if_false, if_true]
        exact ⟨hi, by simp, hf, hh⟩
      · obtain ⟨h2, h3, h4, h5⟩ := h.waits k g' hk j b' hj
        simp only [setAt, show ¬ k = s.all.length by omega, show ¬ j = s.all.length by omega, if_false]
        exact ⟨h2, by simp; omega, h4, h5⟩
    · cases hj
  · intro k hk
    simp only [List.length_append, List.length_set, List.length_cons, List.length_nil] at hk
    exact h.fresh k (by omega)

theorem Waits.Inv.step {s s' : Waits} {fl held} (h : s.Inv fl held) (st : s.Step s') : ∃ fl' held', s'.Inv fl' held' := by
  cases st with
  | @lock i m p hg ho =>
    have hord : Ordered (.lock m p) (fl i) (held i) := h.ordered i _ hg
    obtain ⟨h1, h2, h3⟩ := hord
    refine ⟨fl, setAt held i (m :: held i), ?_, ?_, ?_, ?_⟩
    · intro m' k
      simp only [setOwner, setAt]
      by_cases hm : m' = m
      · subst hm
        simp only [if_true]
        by_cases hk : k = i
        · subst hk; simp
        · simp only [hk, if_false, Option.some.injEq, show ¬ i = k from fun h => hk h.symm, false_iff]
          intro hc
          rw [(h.owner m' k).2 hc] at ho
          cases ho
      · simp only [hm, if_false]
        by_cases hk : k = i
        · subst hk; simp [hm, h.owner]
        · simp [hk, h.owner]
    · intro k g' hk
      rcases getElem?_set_cases hk with ⟨rfl, rfl⟩ | ⟨hne, hk⟩
      · simpa [setAt] using h3
      · simpa [setAt, hne] using h.ordered k g' hk
    · intro k g' hk j b hj
      rcases getElem?_set_cases hk with ⟨rfl, rfl⟩ | ⟨hne, hk⟩
      · cases hj
      · simpa [setAt, hne] using h.waits k g' hk j b hj
    · intro k hk
      have hi := lt_of_getElem? hg
      simp only [List.length_set] at hk
      simp only [setAt, show ¬ k = i by omega, if_false]
      exact h.fresh k hk
  | @unlock i m p hg =>
    have hord : Ordered (.unlock m p) (fl i) (held i) := h.ordered i _ hg
    obtain ⟨h1, h2⟩ := hord
    refine ⟨fl, setAt held i ((held i).filter (fun h => !decide (h = m))), ?_, ?_, ?_, ?_⟩
    · intro m' k
      simp only [setOwner, setAt]
      by_cases hm : m' = m
      · subst hm
        simp only [if_true]
        by_cases hk : k = i
        · subst hk; simp
        · simp only [hk, if_false]
          constructor
          · intro hc; cases hc
          · intro hc
            have e1 := (h.owner m' k).2 hc
            rw [(h.owner m' i).2 h1] at e1
            cases e1
            exact absurd rfl hk
      · simp only [hm, if_false]
        by_cases hk : k = i
        · subst hk; simp [hm, h.owner]
        · simp [hk, h.owner]
    · intro k g' hk
      rcases getElem?_set_cases hk with ⟨rfl, rfl⟩ | ⟨hne, hk⟩
      · simpa [setAt] using h2
      · simpa [setAt, hne] using h.ordered k g' hk
    · intro k g' hk j b hj
      rcases getElem?_set_cases hk with ⟨rfl, rfl⟩ | ⟨hne, hk⟩
      · cases hj
      · simpa [setAt, hne] using h.waits k g' hk j b hj
    · intro k hk
      have hi := lt_of_getElem? hg
      simp only [List.length_set] at hk
      simp only [setAt, show ¬ k = i by omega, if_false]
      exact h.fresh k hk
  | @acc i v w p hg =>
    have hord : Ordered (.acc v w p) (fl i) (held i) := h.ordered i _ hg
    exact ⟨_, _, h.next hg hord.2⟩
  | @go i c p hg =>
    have hord : Ordered (.go c p) (fl i) (held i) := h.ordered i _ hg
    have := (h.next hg hord.2).add hord.1
    exact ⟨_, _, this⟩
  | @call i c p hg =>
    have hord : Ordered (.call c p) (fl i) (held i) := h.ordered i _ hg
    obtain ⟨⟨f, h1, h2, h3⟩, h4⟩ := hord
    exact ⟨_, _, h.startCall hg false h1 h2 h3 h4⟩
  | @rpc i c p hg =>
    have hord : Ordered (.rpc c p) (fl i) (held i) := h.ordered i _ hg
    obtain ⟨⟨f, h1, h2, h3⟩, h4⟩ := hord
    exact ⟨_, _, h.startCall hg true h1 h2 h3 h4⟩
  | ret hg _ => exact ⟨_, _, h.next hg (h.ordered _ _ hg)⟩

theorem Waits.Inv.givesUp {s s' : Waits} {fl held} (h : s.Inv fl held) (st : s.GivesUp s') : s'.Inv fl held := by
  obtain ⟨hg⟩ := st
  exact h.next hg (h.ordered _ _ hg)

/-- Unless it waits for another one or for a mutex that is held, a goroutine that is not at its end can go on. -/
theorem Waits.blocked (s : Waits) (stuck : ¬ ∃ s', s.Step s') {i : Nat} {g : Goroutine}
    (hg : s.all[i]? = some g) (hw : g.waits = none) (hr : g.rest ≠ .done) :
    ∃ m p k, g.rest = .lock m p ∧ s.owner m = some k := by
  obtain ⟨r, w⟩ := g
  subst hw
  cases r with
  | done => exact absurd rfl hr
  | lock m p =>
    cases ho : s.owner m with
    | none => exact absurd ⟨_, .lock hg ho⟩ stuck
    | some k => exact ⟨m, p, k, rfl, ho⟩
  | unlock m p => exact absurd ⟨_, .unlock hg⟩ stuck
  | acc v w p => exact absurd ⟨_, .acc hg⟩ stuck
  | go c p => exact absurd ⟨_, .go hg⟩ stuck
  | call c p => exact absurd ⟨_, .call hg⟩ stuck
  | rpc c p => exact absurd ⟨_, .rpc hg⟩ stuck

/-- There is no circle: a goroutine that waits for something at or above rank `r` would wait for one that waits for something
higher, or for one that was started later. -/
theorem Waits.Inv.no_circle {s : Waits} {fl held} (h : s.Inv fl held) (stuck : ¬ ∃ s', s.Step s') :
    ∀ (k r i : Nat) (g : Goroutine), (3 - r) * (s.all.length + 1) + (s.all.length - i) ≤ k → s.all[i]? = some g →
      ((∃ j b, g.waits = some (j, b) ∧ r ≤ fl j) ∨ (g.waits = none ∧ ∃ m p, g.rest = .lock m p ∧ r ≤ m.rank)) → False := by
  intro k
  induction k with
  | zero =>
    intro r i g hk hg
    have := lt_of_getElem? hg
    omega
  | succ k ih =>
    intro r i g hk hg hc
    have hi := lt_of_getElem? hg
    rcases hc with ⟨j, b, hw, hr⟩ | ⟨hw, m, p, hm, hr⟩
    · obtain ⟨h1, h2, _, _⟩ := h.waits i g hg j b hw
      have hj : s.all[j]? = some s.all[j] := List.getElem?_eq_getElem h2
      generalize s.all[j] = g' at hj
      refine ih r j g' (by omega) hj ?_
      cases hw' : g'.waits with
      | some x =>
        obtain ⟨j', b'⟩ := x
        exact .inl ⟨j', b', rfl, Nat.le_trans hr (h.waits j g' hj j' b' hw').2.2.1⟩
      | none =>
        right
        refine ⟨rfl, ?_⟩
        by_cases hd : g'.rest = .done
        · exfalso
          obtain ⟨r', w'⟩ := g'
          subst hd hw'
          obtain ⟨rg, wg⟩ := g
          subst hw
          exact stuck ⟨_, .ret hg hj⟩
        · obtain ⟨m, p, _, hm, _⟩ := s.blocked stuck hj hw' hd
          have := h.ordered j g' hj
          rw [hm] at this
          exact ⟨m, p, hm, Nat.le_trans hr this.1⟩
    · obtain ⟨m', p', k', hm', ho⟩ := s.blocked stuck hg hw (by rw [hm]; intro hc; cases hc)
      rw [hm] at hm'
      cases hm'
      have hk' := (h.owner m k').1 ho
      obtain ⟨g', hg'⟩ := h.held_lt hk'
      have hl := lt_of_getElem? hg'
      have hmr := m.rank_le
      have hord := h.ordered k' g' hg'
      refine ih (m.rank + 1) k' g' ?_ hg' ?_
      · have e1 : 3 - r = (3 - (m.rank + 1)) + (m.rank + 1 - r) := by omega
        have e2 : (s.all.length + 1) ≤ (m.rank + 1 - r) * (s.all.length + 1) := Nat.le_mul_of_pos_left _ (by omega)
        rw [e1, Nat.add_mul] at hk
        omega
      · cases hw' : g'.waits with
        | some x =>
          obtain ⟨j', b'⟩ := x
          exact .inl ⟨j', b', rfl, (h.waits k' g' hg' j' b' hw').2.2.2 m hk'⟩
        | none =>
          right
          refine ⟨rfl, ?_⟩
          by_cases hd : g'.rest = .done
          · exfalso
            rw [hd] at hord
            rw [show held k' = [] from hord] at hk'
            cases hk'
          · obtain ⟨m2, p2, _, hm2, _⟩ := s.blocked stuck hg' hw' hd
            rw [hm2] at hord
            exact ⟨m2, p2, hm2, hord.2.1 m hk'⟩

theorem Waits.Inv.progress {s : Waits} {fl held} (h : s.Inv fl held) {i : Nat} {g : Goroutine} (hg : s.all[i]? = some g)
    (hd : ¬ (g.rest = .done ∧ g.waits = none)) : ∃ s', s.Step s' := by
  refine Classical.byContradiction fun stuck => ?_
  refine h.no_circle stuck _ 0 i g (Nat.le_refl _) hg ?_
  cases hw : g.waits with
  | some x => exact .inl ⟨x.1, x.2, rfl, Nat.zero_le _⟩
  | none =>
    right
    obtain ⟨m, p, _, hm, _⟩ := s.blocked stuck hg hw (fun hc => hd ⟨hc, hw⟩)
    exact ⟨rfl, m, p, hm, Nat.zero_le _⟩

/-! ### Every step brings the end nearer -/

def Prog.size : Prog → Nat
  | .done => 0
  | .lock _ p => p.size + 1
  | .unlock _ p => p.size + 1
  | .acc _ _ p => p.size + 1
  | .go c p => c.size + p.size + 1
  | .call c p => c.size + p.size + 2
  | .rpc c p => c.size + p.size + 2

def Goroutine.size (g : Goroutine) : Nat := g.rest.size + if g.waits.isSome then 1 else 0

/-- The steps that are left. -/
def Waits.size (s : Waits) : Nat := (s.all.map Goroutine.size).sum

theorem sum_set {l : List Goroutine} {i : Nat} {g g' : Goroutine} (h : l[i]? = some g) :
    ((l.set i g').map Goroutine.size).sum + g.size = (l.map Goroutine.size).sum + g'.size := by
  induction l generalizing i with
  | nil => simp at h
  | cons a l ih =>
    cases i with
    | zero =>
      simp only [List.getElem?_cons_zero, Option.some.injEq] at h
      subst h
      simp only [List.set_cons_zero, List.map_cons, List.sum_cons]
      omega
    | succ i =>
      simp only [List.getElem?_cons_succ] at h
      have := ih h
      simp only [List.set_cons_succ, List.map_cons, List.sum_cons]
      omega

theorem Waits.Step.size_lt {s s' : Waits} (st : s.Step s') : s'.size < s.size := by
  cases st with
  | @lock _ _ p h _ => have := sum_set h (g' := ⟨p, none⟩); simp [Waits.size, Goroutine.size, Prog.size] at this ⊢; omega
  | @unlock _ _ p h => have := sum_set h (g' := ⟨p, none⟩); simp [Waits.size, Goroutine.size, Prog.size] at this ⊢; omega
  | @acc _ _ _ p h => have := sum_set h (g' := ⟨p, none⟩); simp [Waits.size, Goroutine.size, Prog.size] at this ⊢; omega
  | @go _ _ p h => have := sum_set h (g' := ⟨p, none⟩); simp [Waits.size, Goroutine.size, Prog.size] at this ⊢; omega
  | @call _ _ p h =>
    have := sum_set h (g' := ⟨p, some (s.all.length, false)⟩); simp [Waits.size, Goroutine.size, Prog.size] at this ⊢; omega
  | @rpc _ _ p h =>
    have := sum_set h (g' := ⟨p, some (s.all.length, true)⟩); simp [Waits.size, Goroutine.size, Prog.size] at this ⊢; omega
  | @ret _ _ _ p h _ => have := sum_set h (g' := ⟨p, none⟩); simp [Waits.size, Goroutine.size] at this ⊢; omega

theorem Waits.GivesUp.size_lt {s s' : Waits} (st : s.GivesUp s') : s'.size < s.size := by
  cases st with
  | @mk _ _ p h => have := sum_set h (g' := ⟨p, none⟩); simp [Waits.size, Goroutine.size] at this ⊢; omega

/-! ### The programs are in order -/

theorem ordered_accs {l : List (Mem × Bool)} {p : Prog} {fl : Nat} {H : List Mutex} (hl : ∀ a ∈ l, a.1.guard ∈ H)
    (hp : Ordered p fl H) : Ordered (accs l p) fl H := by
  induction l with
  | nil => exact hp
  | cons a l ih => exact ⟨.inl (hl a (by simp)), ih fun b hb => hl b (by simp [hb])⟩

theorem ordered_unlock {m : Mutex} {p : Prog} {fl : Nat} {H : List Mutex} (hh : ∀ h ∈ H, h.rank < m.rank)
    (hp : Ordered p fl H) : Ordered (.unlock m p) fl (m :: H) := by
  refine ⟨by simp, ?_⟩
  have : (m :: H).filter (fun h => !decide (h = m)) = H := by
    rw [List.filter_cons_of_neg (by simp), List.filter_eq_self]
    intro h hm
    have := hh h hm
    have : h ≠ m := by rintro rfl; omega
    simp [this]
  rw [this]
  exact hp

theorem ordered_crit {m : Mutex} {l : List (Mem × Bool)} {p : Prog} {fl : Nat} {H : List Mutex} (hf : fl ≤ m.rank)
    (hh : ∀ h ∈ H, h.rank < m.rank) (hl : ∀ a ∈ l, a.1.guard ∈ m :: H) (hp : Ordered p fl H) : Ordered (crit m l p) fl H :=
  ⟨hf, hh, ordered_accs hl (ordered_unlock hh hp)⟩

theorem ordered_crits {m : Mutex} {l : List (Mem × Bool)} {p : Prog} {fl : Nat} {H : List Mutex} (hf : fl ≤ m.rank)
    (hh : ∀ h ∈ H, h.rank < m.rank) (hl : ∀ a ∈ l, a.1.guard ∈ m :: H) (hp : Ordered p fl H) : ∀ k, Ordered (crits m l k p) fl H
  | 0 => hp
  | k + 1 => ordered_crit hf hh hl (ordered_crits hf hh hl hp k)

theorem ordered_goAll {p : Prog} {fl : Nat} {H : List Mutex} (hp : Ordered p fl H) : ∀ l : List Prog, (∀ c ∈ l, Ordered c 0 []) →
    Ordered (goAll l p) fl H
  | [], _ => hp
  | c :: l, h => ⟨h c (by simp), ordered_goAll hp l fun c' hc => h c' (by simp [hc])⟩

theorem ordered_nil (fl : Nat) : Ordered .done fl [] := rfl

theorem ordered_ite {p q : Prog} {fl : Nat} {H : List Mutex} (b : Bool) (hp : Ordered p fl H) (hq : Ordered q fl H) :
    Ordered (if b then p else q) fl H := by cases b <;> assumption

theorem ordered_save {m : Mutex} {fields cache : Mem} {file ok : Bool} {p : Prog} {fl : Nat} {H : List Mutex} (hf : fl ≤ m.rank)
    (hh : ∀ h ∈ H, h.rank < m.rank) (h1 : fields.guard = m) (h2 : cache.guard = m)
    (hm : file = true → fields.Loose false .done []) (hp : Ordered p fl H) :
    Ordered (lkSave m fields cache file ok p) fl H := by
  have hu := ordered_unlock hh hp
  refine ⟨hf, hh, .inl (by simp [h1]), ordered_ite ok ⟨.inl (by simp [h2]), .inl (by simp [h1]), ?_⟩ hu⟩
  cases file with
  | false => exact hu
  | true => exact ⟨⟨.inr (hm rfl), rfl⟩, hu⟩

theorem ordered_getParts (n k : Nat) {fl : Nat} (hf : fl ≤ 2) : Ordered (lkGetParts n k) fl [] :=
  ordered_crits (by simpa [Mutex.rank] using hf) (by simp) (by simp [lkNonces, Mem.guard]) (ordered_nil fl) k

theorem ordered_sign (n : Nat) (e : LkSignEnd) {fl : Nat} (hf : fl ≤ 2) : Ordered (lkSign n e) fl [] := by
  have hu : Ordered (.unlock (.cosigner n) .done) fl [Mutex.cosigner n] := ordered_unlock (by simp) (ordered_nil fl)
  refine ⟨by simpa [Mutex.rank] using hf, by simp, ?_⟩
  cases e with
  | bad => exact hu
  | fromState => exact ordered_accs (by simp [Mem.guard]) hu
  | noNonce => exact ordered_accs (by simp [Mem.guard]) hu
  | resigned => exact ordered_accs (by simp [Mem.guard]) hu
  | signed =>
    exact ordered_accs (by simp [Mem.guard]) ⟨⟨.inr ⟨rfl, rfl⟩, rfl⟩, ordered_accs (by simp [Mem.guard]) hu⟩

theorem ordered_setAndSign (n k : Nat) (e : Option LkSignEnd) {fl : Nat} (hf : fl ≤ 2) : Ordered (lkSetAndSign n k e) fl [] := by
  refine ordered_crits (by simpa [Mutex.rank] using hf) (by simp) (by simp [lkNonces, Mem.guard]) ?_ k
  cases e with
  | none => exact ordered_nil fl
  | some e => exact ordered_sign n e hf

theorem ordered_askParts (r i k : Nat) (ok : Bool) : Ordered (lkAskParts r i k ok) 0 [] :=
  ⟨⟨0, Nat.le_refl _, by simp, ordered_getParts i k (by omega)⟩,
    ordered_ite ok (ordered_crit (by simp) (by simp) (by simp) (ordered_nil 0)) (ordered_nil 0)⟩

theorem ordered_askSign (r : Nat) (a : LkAsk) : Ordered (lkAskSign r a) 0 [] :=
  ⟨⟨0, Nat.le_refl _, by simp, ordered_setAndSign _ _ _ (by omega)⟩,
    ordered_ite _ (ordered_crit (by simp) (by simp) (by simp) (ordered_nil 0)) (ordered_nil 0)⟩

theorem ordered_ownSign (r : Nat) (a : LkAsk) : Ordered (lkOwnSign r a) 0 [] :=
  ⟨⟨0, Nat.le_refl _, by simp, ordered_setAndSign _ _ _ (by omega)⟩,
    ordered_ite _ (ordered_crit (by simp) (by simp) (by simp) (ordered_nil 0)) (ordered_nil 0)⟩

theorem ordered_fsm_end (n fl : Nat) : Ordered (.unlock (.fsm n) .done) fl [Mutex.fsm n] :=
  ordered_unlock (by simp) (ordered_nil fl)

theorem ordered_applyLSS (n : Nat) (ok ok' : Bool) {fl : Nat} (h : fl ≤ 1) : Ordered (lkApplyLSS n ok ok') fl [] := by
  refine ⟨h, by simp, ?_⟩
  refine ordered_save (by simp only [Mutex.rank]; omega) (by simp [Mutex.rank]) rfl rfl (fun _ => ⟨rfl, rfl⟩) ?_
  exact ordered_save (by simp only [Mutex.rank]; omega) (by simp [Mutex.rank]) rfl rfl (fun _ => ⟨rfl, rfl⟩) (ordered_fsm_end n fl)

theorem ordered_applyStore (n : Nat) : Ordered (lkApplyStore n) 0 [] :=
  ⟨Nat.zero_le _, by simp, ordered_crit (Nat.zero_le _) (by simp [Mutex.rank]) (by simp [Mem.guard]) (ordered_fsm_end n 0)⟩

theorem ordered_snapshot (n : Nat) : Ordered (lkSnapshot n) 0 [] :=
  ⟨Nat.zero_le _, by simp, ordered_crit (Nat.zero_le _) (by simp [Mutex.rank]) (by simp [Mem.guard]) (ordered_fsm_end n 0)⟩

theorem ordered_restore (n : Nat) : Ordered (lkRestore n) 0 [] :=
  ⟨Nat.zero_le _, by simp, .inl (by simp [Mem.guard]), ordered_fsm_end n 0⟩

theorem ordered_refuse (n fl : Nat) : Ordered (lkRefuse n .done) fl [] := ⟨.inr ⟨rfl, .inl rfl⟩, rfl⟩

theorem ordered_refuseTwice (n fl : Nat) : Ordered (lkRefuse n (lkRefuse n .done)) fl [] :=
  ⟨.inr ⟨rfl, .inr rfl⟩, ordered_refuse n fl⟩

theorem ordered_begin (n : Nat) (ok : Bool) (k : Nat) {p : Prog} (hp : Ordered p 1 []) : Ordered (lkBegin n ok k p) 1 [] :=
  ordered_save (by simp [Mutex.rank]) (by simp) rfl rfl (by simp)
    (ordered_crits (by simp [Mutex.rank]) (by simp) (by simp [Mem.guard]) hp k)

theorem ordered_collect (r n : Nat) (asks : List (Nat × Nat × Bool)) (k : Nat) {p : Prog} (hp : Ordered p 1 []) :
    Ordered (lkCollect r n asks k p) 1 [] := by
  refine ordered_goAll (p := .call (lkGetParts n k) p) ⟨⟨1, Nat.le_refl _, by simp, ordered_getParts n k (by omega)⟩, hp⟩ _ ?_
  intro c hc
  obtain ⟨a, _, rfl⟩ := List.mem_map.1 hc
  exact ordered_askParts _ _ _ _

theorem ordered_signAll (r : Nat) (own : LkAsk) (asks : List LkAsk) {p : Prog} (hp : Ordered p 1 []) :
    Ordered (lkSignAll r own asks p) 1 [] := by
  refine ordered_crit (by simp [Mutex.rank]) (by simp) (by simp) (ordered_goAll hp _ ?_)
  intro c hc
  rcases List.mem_cons.1 hc with rfl | hc
  · exact ordered_ownSign _ _
  · obtain ⟨a, _, rfl⟩ := List.mem_map.1 hc
    exact ordered_askSign _ _

theorem ordered_saveLSS (n : Nat) (ok : Bool) {p : Prog} (hp : Ordered p 1 []) : Ordered (lkSaveLSS n ok p) 1 [] :=
  ordered_save (by simp [Mutex.rank]) (by simp) rfl rfl (fun _ => ⟨rfl, rfl⟩) hp

theorem ordered_emit (n : Nat) (others : List (Nat × Bool × Bool)) (ok ok' : Bool) : Ordered (lkEmit n others ok ok') 1 [] := by
  refine ordered_goAll (p := .call (lkApplyLSS n ok ok') .done)
    ⟨⟨1, Nat.le_refl _, by simp, ordered_applyLSS n ok ok' (Nat.le_refl _)⟩, ordered_nil 1⟩ _ ?_
  intro c hc
  obtain ⟨a, _, rfl⟩ := List.mem_map.1 hc
  exact ordered_applyLSS _ _ _ (by omega)

theorem ordered_signBlock {n : Nat} {p : Prog} (h : LkSignBlock n p) : Ordered p 1 [] := by
  induction h with
  | unled => exact ordered_nil 1
  | proxied _ _ ih => exact ⟨⟨1, Nat.le_refl _, by simp, ih⟩, ordered_nil 1⟩
  | answered => exact ordered_begin _ _ _ (ordered_nil 1)
  | refused => exact ordered_begin _ _ _ (ordered_refuse _ 1)
  | refusedTwice => exact ordered_begin _ _ _ (ordered_refuseTwice _ 1)
  | noParts => exact ordered_begin _ _ _ (ordered_collect _ _ _ _ (ordered_nil 1))
  | noShares => exact ordered_begin _ _ _ (ordered_collect _ _ _ _ (ordered_signAll _ _ _ (ordered_nil 1)))
  | signed =>
    exact ordered_begin _ _ _ (ordered_collect _ _ _ _ (ordered_signAll _ _ _ (ordered_saveLSS _ _ (ordered_nil 1))))
  | emitted =>
    exact ordered_begin _ _ _ (ordered_collect _ _ _ _ (ordered_signAll _ _ _ (ordered_saveLSS _ _ (ordered_emit _ _ _ _))))

/-- What may be taken above a higher floor may be taken above a lower one. -/
theorem Ordered.mono {p : Prog} : ∀ {fl fl' : Nat} {H : List Mutex}, Ordered p fl H → fl' ≤ fl → Ordered p fl' H := by
  induction p with
  | done => intro fl fl' H h _; exact h
  | lock m p ih => intro fl fl' H h hf; exact ⟨Nat.le_trans hf h.1, h.2.1, ih h.2.2 hf⟩
  | unlock m p ih => intro fl fl' H h hf; exact ⟨h.1, ih h.2 hf⟩
  | acc v w p ih => intro fl fl' H h hf; exact ⟨h.1, ih h.2 hf⟩
  | go c p _ ih => intro fl fl' H h hf; exact ⟨h.1, ih h.2 hf⟩
  | call c p _ ih =>
    intro fl fl' H h hf
    obtain ⟨⟨f, h1, h2⟩, h3⟩ := h
    exact ⟨⟨f, Nat.le_trans hf h1, h2⟩, ih h3 hf⟩
  | rpc c p _ ih =>
    intro fl fl' H h hf
    obtain ⟨⟨f, h1, h2⟩, h3⟩ := h
    exact ⟨⟨f, Nat.le_trans hf h1, h2⟩, ih h3 hf⟩

theorem ordered_request {p : Prog} (h : LkRequest p) : Ordered p 0 [] := by
  cases h with
  | pubKey n => exact ordered_crit (Nat.zero_le _) (by simp) (by simp) (ordered_nil 0)
  | sign n h =>
    refine ⟨Nat.zero_le _, by simp, ⟨1, by omega, by simp [Mutex.rank], ordered_signBlock h⟩, by simp, ?_⟩
    simp [Ordered]
  | signBlock n h => exact (ordered_signBlock h).mono (by omega)
  | getParts n k => exact ordered_getParts n k (by omega)
  | setAndSign n k e => exact ordered_setAndSign n k e (by omega)
  | applyLSS n ok ok' => exact ordered_applyLSS n ok ok' (by omega)
  | applyNothing n => exact ⟨Nat.zero_le _, by simp, ordered_fsm_end n 0⟩
  | applyStore n => exact ordered_applyStore n
  | snapshot n => exact ordered_snapshot n
  | restore n => exact ordered_restore n
  | get n =>
    refine ⟨Nat.zero_le _, by simp, .inr ⟨rfl, by simp⟩, .inl (by simp [Mem.guard]), ordered_unlock (by simp) (ordered_nil 0)⟩

theorem Waits.Run.inv {s : Waits} (h : s.Run) : ∃ fl held, s.Inv fl held := by
  induction h with
  | idle => exact ⟨_, _, .idle⟩
  | arrives _ a ih =>
    obtain ⟨fl, held, hi⟩ := ih
    obtain ⟨hp⟩ := a
    exact ⟨_, _, hi.add (ordered_request hp)⟩
  | step _ a ih =>
    obtain ⟨fl, held, hi⟩ := ih
    exact hi.step a
  | givesUp _ a ih =>
    obtain ⟨fl, held, hi⟩ := ih
    exact ⟨fl, held, hi.givesUp a⟩

end Horcrux
