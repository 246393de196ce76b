import Verif.Lemmas.Locks
/-
C97: goroutines do not access memory while another one writes it.
-/
namespace Horcrux

/-- Two goroutines that both hold the mutex of the memory they access are one. -/
theorem Waits.Inv.same {s : Waits} {fl held} (h : s.Inv fl held) {m : Mutex} {i j : Nat} (hi : m ∈ held i) (hj : m ∈ held j) :
    i = j := by
  have h1 := (h.owner m i).2 hi
  rw [(h.owner m j).2 hj] at h1
  cases h1
  rfl

/-- Who writes holds the mutex. -/
theorem Waits.Inv.writer {s : Waits} {fl held} (h : s.Inv fl held) {i : Nat} {v : Mem} {p : Prog}
    (hg : s.all[i]? = some ⟨.acc v true p, none⟩) : v.guard ∈ held i := by
  have hord : Ordered (.acc v true p) (fl i) (held i) := h.ordered i _ hg
  rcases hord.1 with h | h
  · exact h
  · cases h.1

/-- C97, what holds: no map is ever accessed while another goroutine writes it, so that the runtime never ends the process for
it; for any number of requests and any interleaving. -/
theorem C97_maps (s : Waits) (h : s.Run) (v : Mem) (hv : v.isMap = true) : ¬ s.Race v := by
  rintro ⟨i, j, w, p, q, hne, hi, hj⟩
  obtain ⟨fl, held, inv⟩ := h.inv
  have hord : Ordered (.acc v w q) (fl j) (held j) := inv.ordered j _ hj
  rcases hord.1 with h' | h'
  · exact hne (inv.same (inv.writer hi) h')
  · cases v <;> first | exact h'.2 | cases hv

/-- C97, what holds: no memory is written by two goroutines at once. -/
theorem C97_writes (s : Waits) (h : s.Run) (v : Mem) (i j : Nat) (p q : Prog) (hi : s.all[i]? = some ⟨.acc v true p, none⟩)
    (hj : s.all[j]? = some ⟨.acc v true q, none⟩) : i = j := by
  obtain ⟨fl, held, inv⟩ := h.inv
  exact inv.same (inv.writer hi) (inv.writer hj)

/-- C97, the part that holds: the only races are those of the goroutine that marshals a sign state for its file with the next
`Save`, of the text of a refusal with the start of another block, and of `Get` with `Restore`. -/
theorem C97_partial (s : Waits) (h : s.Run) (v : Mem) (i j : Nat) (w : Bool) (p q : Prog) (hne : i ≠ j)
    (hi : s.all[i]? = some ⟨.acc v true p, none⟩) (hj : s.all[j]? = some ⟨.acc v w q, none⟩) :
    (∃ n, (v = .lss n ∨ v = .share n) ∧ s.all[j]? = some ⟨lkMarshal v, none⟩) ∨
    (∃ n, v = .started n ∧
      (s.all[j]? = some ⟨lkRefuse n .done, none⟩ ∨ s.all[j]? = some ⟨lkRefuse n (lkRefuse n .done), none⟩)) ∨
    (∃ n, v = .store n ∧ w = false ∧ s.owner (.store n) = some j ∧ s.owner (.fsm n) = some i) := by
  obtain ⟨fl, held, inv⟩ := h.inv
  have hord : Ordered (.acc v w q) (fl j) (held j) := inv.ordered j _ hj
  have hwr := inv.writer hi
  rcases hord.1 with h' | h'
  · exact absurd (inv.same hwr h') hne
  · obtain ⟨rfl, h'⟩ := h'
    cases v with
    | lss n => simp only at h'; subst h'; exact .inl ⟨n, .inl rfl, hj⟩
    | share n => simp only at h'; subst h'; exact .inl ⟨n, .inr rfl, hj⟩
    | started n =>
      simp only at h'
      rcases h' with rfl | rfl
      · exact .inr (.inl ⟨n, rfl, .inl hj⟩)
      · exact .inr (.inl ⟨n, rfl, .inr hj⟩)
    | store n => exact .inr (.inr ⟨n, rfl, rfl, (inv.owner _ _).2 h', (inv.owner _ _).2 hwr⟩)
    | startedCache n => exact h'.elim
    | lssCache n => exact h'.elim
    | shareCache n => exact h'.elim
    | nonces n => exact h'.elim
    | kv n => exact h'.elim

theorem Waits.Run.accs {s : Waits} (h : s.Run) {i : Nat} {l : List (Mem × Bool)} {p : Prog}
    (hg : s.all[i]? = some ⟨Horcrux.accs l p, none⟩) : Waits.Run ⟨s.all.set i ⟨p, none⟩, s.owner⟩ := by
  induction l generalizing s with
  | nil =>
    have : s.all.set i ⟨p, none⟩ = s.all := by
      have hi := lt_of_getElem? hg
      apply List.ext_getElem?
      intro k
      by_cases hk : k = i
      · subst hk; rw [getElem?_set_self' hg]; exact hg.symm
      · rw [List.getElem?_set_ne (by omega)]
    rw [this]
    exact h
  | cons a l ih =>
    have := ih (h.step (.acc hg)) (getElem?_set_self' hg)
    simpa using this

/-- C97 is false: a cosigner that signs a block while the state file of the block before is being written changes the state that
is being marshalled (what comes of it is in C38). -/
theorem C97_marshal_fails (n : Nat) : ∃ s : Waits, s.Run ∧ s.Race (.share n) := by
  have r : LkRequest (lkSetAndSign n 0 (some .signed)) := .setAndSign n 0 _
  let m := Mutex.cosigner n
  let stop := Prog.unlock m .done
  let o : Mutex → Option Nat := fun _ => none
  have h1 : Waits.Run ⟨[⟨lkSign n .signed, none⟩], o⟩ := Waits.Run.idle.arrives (.mk r)
  have h2 : Waits.Run ⟨[⟨.go (lkMarshal (.share n)) (.acc (.nonces n) true stop), none⟩], setOwner o m (some 0)⟩ :=
    (h1.step (.lock (i := 0) rfl rfl)).accs (i := 0) (l := [(.share n, false), (.nonces n, false), (.share n, true),
      (.share n, false), (.shareCache n, true), (.share n, true)]) rfl
  have h3 : Waits.Run ⟨[⟨.acc (.nonces n) true stop, none⟩, ⟨lkMarshal (.share n), none⟩], setOwner o m (some 0)⟩ :=
    h2.step (.go (i := 0) rfl)
  have h4 : Waits.Run ⟨[⟨.done, none⟩, ⟨lkMarshal (.share n), none⟩], setOwner (setOwner o m (some 0)) m none⟩ :=
    (h3.step (.acc (i := 0) rfl)).step (.unlock (i := 0) rfl)
  have h5 := (h4.arrives (.mk r)).step (.lock (i := 2) rfl (by simp [setOwner, m]))
  have h6 := h5.accs (i := 2) (l := [(.share n, false), (.nonces n, false)]) rfl
  exact ⟨_, h6, 2, 1, false, _, _, by decide, rfl, rfl⟩

/-- C97 is false: the text of a refusal is made from the block that was started while another request, forwarded by another
node and so past the guard, starts one. -/
theorem C97_refusal_fails (n : Nat) : ∃ s : Waits, s.Run ∧ s.Race (.started n) := by
  have h1 := Waits.Run.idle.arrives (.mk (.sign n (.refused n 0)))
  have h2 := h1.arrives (.mk (.signBlock n (.noParts 0 n true 0 [] 0)))
  have h3 := h2.step (.lock (i := 0) rfl rfl)
  have h4 := h3.step (.call (i := 0) rfl)
  have h5 := h4.step (.lock (i := 2) rfl (by simp [setOwner, Waits.idle]))
  have h6 := h5.step (.acc (i := 2) rfl)
  have h7 := h6.step (.unlock (i := 2) rfl)
  have h8 := h7.step (.lock (i := 1) rfl (by simp [setOwner]))
  have h9 := h8.step (.acc (i := 1) rfl)
  have h10 := h9.step (.acc (i := 1) rfl)
  exact ⟨_, h10, 1, 2, false, _, _, by decide, rfl, rfl⟩

/-- C97 is false: `Restore` sets the variable of the store without the mutex that `Get` holds. (Only tests call `Get`.) -/
theorem C97_restore_fails (n : Nat) : ∃ s : Waits, s.Run ∧ s.Race (.store n) := by
  have h1 := Waits.Run.idle.arrives (.mk (.restore n))
  have h2 := h1.arrives (.mk (.get n))
  have h3 := h2.step (.lock (i := 0) rfl rfl)
  have h4 := h3.step (.lock (i := 1) rfl (by simp [setOwner, Waits.idle]))
  exact ⟨_, h4, 0, 1, false, _, _, by decide, rfl, rfl⟩

/-- Two goroutines that are about to access the nonce records, one of them to write: it holds the mutex, and the other one waits
for it. -/
example : ∃ s : Waits, s.Run ∧ s.all[0]? = some ⟨.acc (.nonces 1) true (.unlock (.cosigner 1) .done), none⟩ ∧
    s.all[1]? = some ⟨lkGetParts 1 1, none⟩ ∧ s.owner (.cosigner 1) = some 0 ∧ ¬ s.Race (.nonces 1) := by
  have h1 := Waits.Run.idle.arrives (.mk (.getParts 1 1))
  have h2 := h1.arrives (.mk (.getParts 1 1))
  have h3 := h2.step (.lock (i := 0) rfl rfl)
  have h4 := h3.step (.acc (i := 0) rfl)
  exact ⟨_, h4, rfl, rfl, rfl, C97_maps _ h4 _ rfl⟩

end Horcrux
