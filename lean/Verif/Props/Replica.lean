import Verif.Spec.Replica
import Verif.Props.Raft
/-
Properties C110 and C111.
-/
namespace Horcrux
open Spec

/-- The map after applying `log` to an empty store. -/
def replay (log : List Bytes) : KV := (Fsm.run ⟨[], .empty, .empty⟩ log).m

/-- A map with the contents that the first `i` entries make. -/
structure Makes (log : List Bytes) (i : Nat) (m : KV) : Prop where
  le : i ≤ log.length
  clean : m.Clean
  same : ∀ k, m.lookup k = (replay (log.take i)).lookup k

theorem Makes.zero (log : List Bytes) : Makes log 0 [] := ⟨Nat.zero_le _, KV.clean_nil, fun _ => rfl⟩

theorem Makes.commit {log : List Bytes} {i : Nat} {m : KV} (h : Makes log i m) (e : Bytes) : Makes (log ++ [e]) i m :=
  ⟨by have := h.le; simp; omega, h.clean, fun k => by rw [List.take_append_of_le_length h.le]; exact h.same k⟩

theorem Makes.apply {log : List Bytes} {i : Nat} {s : Fsm} (h : Makes log i s.m) {e : Bytes} (he : log[i]? = some e) :
    Makes log (i + 1) (s.apply e).m := by
  obtain ⟨hi, rfl⟩ := List.getElem?_eq_some_iff.1 he
  refine ⟨hi, s.apply_clean h.clean _, fun k => ?_⟩
  rw [List.take_add_one, List.getElem?_eq_getElem hi, replay, Option.toList_some, Fsm.run_append]
  show _ = (Fsm.apply _ _).m.lookup k
  rw [Fsm.lookup_apply, Fsm.lookup_apply, h.same k]
  rfl

theorem Makes.restore {log : List Bytes} {i : Nat} {m : KV} (h : Makes log i m) :
    ∃ m', restoreKV (snapshotKV m) = some m' ∧ Makes log i m' := by
  obtain ⟨m', h1, h2, h3⟩ := restore_snapshot h.clean
  exact ⟨m', h1, h.le, h2, fun k => (h3 k).trans (h.same k)⟩

theorem mem_insertSnap {x y : Nat × Bytes} : ∀ {l : List (Nat × Bytes)}, y ∈ insertSnap x l → y = x ∨ y ∈ l
  | [], h => by simp [insertSnap] at h; exact .inl h
  | z :: l, h => by
    unfold insertSnap at h
    split at h
    · simpa using h
    · rcases List.mem_cons.1 h with h | h
      · exact .inr (by simp [h])
      · rcases mem_insertSnap h with h | h
        · exact .inl h
        · exact .inr (by simp [h])

theorem mem_addSnap {x y : Nat × Bytes} {l : List (Nat × Bytes)} (h : y ∈ addSnap x l) : y = x ∨ y ∈ l :=
  mem_insertSnap (List.mem_of_mem_take h)

/-- The newest snapshot afterwards is the new one or that before, and not older than either. -/
theorem head_addSnap (x : Nat × Bytes) (l : List (Nat × Bytes)) :
    ∃ y, (addSnap x l).head? = some y ∧ x.1 ≤ y.1 ∧ ∀ z, l.head? = some z → z.1 ≤ y.1 := by
  cases l with
  | nil => exact ⟨x, rfl, Nat.le_refl _, by simp⟩
  | cons z l =>
    unfold addSnap insertSnap
    split
    · next h => exact ⟨x, rfl, Nat.le_refl _, by simpa using h⟩
    · next h => exact ⟨z, rfl, by omega, by simp⟩

theorem top_addSnap {x : Nat × Bytes} {l : List (Nat × Bytes)} (h : ∀ a ∈ l, ∀ y, l.head? = some y → a.1 ≤ y.1) :
    ∀ a ∈ addSnap x l, ∀ y, (addSnap x l).head? = some y → a.1 ≤ y.1 := by
  intro a ha y hy
  obtain ⟨z, h1, h2, h3⟩ := head_addSnap x l
  rw [h1] at hy
  cases hy
  rcases mem_addSnap ha with rfl | ha
  · exact h2
  · cases hl : l.head? with
    | none => rw [List.head?_eq_none_iff.1 hl] at ha; cases ha
    | some w => exact Nat.le_trans (h a ha w hl) (h3 w hl)

/-- A node is well. -/
structure Replica.Good (log : List Bytes) (r : Replica) : Prop where
  up : r.down = false
  mem : Makes log r.applied r.fsm.m
  kept : r.first ≤ r.applied
  pend : ∀ i m, r.pending = some (i, m) → i ≤ r.applied ∧ Makes log i m
  snap : ∀ i bs, (i, bs) ∈ r.snaps → ∃ m, bs = snapshotKV m ∧ Makes log i m
  old : ∀ x ∈ r.snaps, x.1 ≤ r.applied
  top : ∀ x ∈ r.snaps, ∀ y, r.snaps.head? = some y → x.1 ≤ y.1
  newest : r.first = 0 ∨ ∃ i bs, r.snaps.head? = some (i, bs) ∧ r.first ≤ i

theorem head_mem {x : Nat × Bytes} {l : List (Nat × Bytes)} (h : l.head? = some x) : x ∈ l := by
  cases l with
  | nil => cases h
  | cons y l => simp at h; simp [h]

theorem Replica.Good.boot {log : List Bytes} {r : Replica} (h : r.Good log) (lv lc : SignState) :
    (r.boot lv lc).Good log ∧ (r.boot lv lc).fsm.val = lv ∧ (r.boot lv lc).fsm.cos = lc := by
  unfold Replica.boot
  cases hs : r.snaps.head? with
  | none =>
    dsimp only
    have hf : r.first = 0 := by
      rcases h.newest with h1 | ⟨i, bs, h1, _⟩
      · exact h1
      · rw [hs] at h1; cases h1
    have hn : r.snaps = [] := List.head?_eq_none_iff.1 hs
    exact ⟨⟨h.up, Makes.zero _, by simp [hf], by simp, h.snap, by simp [hn], h.top, .inl hf⟩, rfl, rfl⟩
  | some x =>
    obtain ⟨i, bs⟩ := x
    obtain ⟨m, rfl, hm⟩ := h.snap i bs (head_mem hs)
    obtain ⟨m', h1, h2⟩ := hm.restore
    dsimp only
    rw [h1]
    dsimp only
    have hf : r.first ≤ i := by
      rcases h.newest with h3 | ⟨j, bs, h3, h4⟩
      · omega
      · rw [hs] at h3; cases h3; exact h4
    exact ⟨⟨h.up, h2, hf, by simp, h.snap, fun x hx => h.top x hx _ hs, h.top, h.newest⟩, rfl, rfl⟩

theorem Replica.Good.commit {log : List Bytes} {r : Replica} (h : r.Good log) (e : Bytes) : r.Good (log ++ [e]) :=
  ⟨h.up, h.mem.commit e, h.kept, fun i m hp => ⟨(h.pend i m hp).1, (h.pend i m hp).2.commit e⟩,
    fun i bs hs => (h.snap i bs hs).imp fun _ hm => ⟨hm.1, hm.2.commit e⟩, h.old, h.top, h.newest⟩

theorem replica_set {c : Replicas} (h : ∀ p, (c.node p).Good c.log) {p : Nat} {r : Replica} (hr : r.Good c.log) :
    ∀ j, ((c.set p r).node j).Good (c.set p r).log := by
  intro j
  simp only [Replicas.set]
  split
  · exact hr
  · exact h j

theorem replica_step {c c' : Replicas} (h : ∀ p, (c.node p).Good c.log) {e : RepEv} (hs : c.step e = some c') :
    ∀ p, (c'.node p).Good c'.log := by
  cases e with
  | commit e =>
    simp only [Replicas.step, Option.some.injEq] at hs
    subst hs
    exact fun p => (h p).commit e
  | apply p =>
    simp only [Replicas.step] at hs
    split at hs
    · cases hs
    · split at hs
      · cases hs
      · next e he =>
        simp only [Option.some.injEq] at hs
        subst hs
        have hp := h p
        exact replica_set h ⟨hp.up, hp.mem.apply he, by have := hp.kept; dsimp only; omega,
          fun i m hi => ⟨by have := (hp.pend i m hi).1; dsimp only; omega, (hp.pend i m hi).2⟩, hp.snap,
          fun x hx => Nat.le_succ_of_le (hp.old x hx), hp.top, hp.newest⟩
  | snapshot p =>
    simp only [Replicas.step] at hs
    split at hs
    · cases hs
    · simp only [Option.some.injEq] at hs
      subst hs
      have hp := h p
      refine replica_set h ⟨hp.up, hp.mem, hp.kept, ?_, hp.snap, hp.old, hp.top, hp.newest⟩
      intro i m hi
      cases hi
      exact ⟨Nat.le_refl _, hp.mem⟩
  | persist p sink cut =>
    simp only [Replicas.step] at hs
    split at hs
    · cases hs
    · next i m hpm =>
      split at hs
      · cases hs
      · next hc =>
        have hp := h p
        have hpend := hp.pend i m hpm
        split at hs
        · simp only [Option.some.injEq] at hs
          subst hs
          exact replica_set h ⟨hp.up, hp.mem, hp.kept, by simp, hp.snap, hp.old, hp.top, hp.newest⟩
        · next bs hb =>
          simp only [Option.some.injEq] at hs
          subst hs
          have hbs : bs = snapshotKV m := by
            unfold persist at hb
            split at hb
            · cases hb
            · split at hb
              · cases hb
              · cases hb; rfl
          have hcut : cut ≤ i := by omega
          refine replica_set h ⟨hp.up, hp.mem, ?_, by simp, ?_, ?_, top_addSnap hp.top, ?_⟩
          · have := hp.kept; dsimp only; omega
          · intro j bs' hj
            rcases mem_addSnap hj with hj | hj
            · cases hj; exact ⟨m, hbs, hpend.2⟩
            · exact hp.snap j bs' hj
          · intro x hx
            rcases mem_addSnap hx with hx | hx
            · subst hx; exact hpend.1
            · exact hp.old x hx
          · obtain ⟨y, h1, h2, h3⟩ := head_addSnap (i, bs) (c.node p).snaps
            refine .inr ⟨y.1, y.2, h1, ?_⟩
            dsimp only at h2 ⊢
            rcases hp.newest with h4 | ⟨j, bs', h4, h5⟩
            · omega
            · have := h3 _ h4; dsimp only at this; omega
  | install p q =>
    simp only [Replicas.step] at hs
    split at hs
    · cases hs
    · next i bs hq =>
      split at hs
      · cases hs
      · next hc =>
        obtain ⟨m, rfl, hm⟩ := (h q).snap i bs (head_mem hq)
        obtain ⟨m', h1, h2⟩ := hm.restore
        rw [h1] at hs
        simp only [Option.some.injEq] at hs
        subst hs
        have hp := h p
        have hi : (c.node p).applied < i := by omega
        refine replica_set h ⟨hp.up, h2, by have := hp.kept; dsimp only; omega, ?_, ?_, ?_, top_addSnap hp.top, ?_⟩
        · intro j m'' hj
          have := hp.pend j m'' hj
          exact ⟨by dsimp only; omega, this.2⟩
        · intro j bs' hj
          rcases mem_addSnap hj with hj | hj
          · cases hj; exact ⟨m, rfl, hm⟩
          · exact hp.snap j bs' hj
        · intro x hx
          rcases mem_addSnap hx with hx | hx
          · subst hx; exact Nat.le_refl _
          · exact Nat.le_trans (hp.old x hx) (Nat.le_of_lt hi)
        · obtain ⟨y, h3, h4, _⟩ := head_addSnap (i, snapshotKV m) (c.node p).snaps
          refine .inr ⟨y.1, y.2, h3, ?_⟩
          have := hp.kept
          dsimp only at h4 ⊢; omega
  | restart p lv lc =>
    simp only [Replicas.step] at hs
    split at hs
    · cases hs
    · simp only [Option.some.injEq] at hs
      subst hs
      exact replica_set h ((h p).boot lv lc).1

theorem replica_run : ∀ {evs : List RepEv} {c c' : Replicas}, (∀ p, (c.node p).Good c.log) → c.run evs = some c' →
    ∀ p, (c'.node p).Good c'.log
  | [], c, c', h, hr => by simp only [Replicas.run, Option.some.injEq] at hr; subst hr; exact h
  | e :: evs, c, c', h, hr => by
    simp only [Replicas.run] at hr
    obtain ⟨c1, h1, h2⟩ := Option.bind_eq_some_iff.1 hr
    exact replica_run (replica_step h h1) h2

theorem replica_start (lv lc : Nat → SignState) (p : Nat) :
    ((Replicas.start lv lc).node p).Good (Replicas.start lv lc).log :=
  ⟨rfl, Makes.zero _, Nat.le_refl _, by simp [Replicas.start], by simp [Replicas.start],
    by simp [Replicas.start], by simp [Replicas.start], .inl rfl⟩

theorem replay_base (s0 : Fsm) (h0 : s0.m = []) (log : List Bytes) (k : Bytes) :
    (replay log).lookup k = (s0.run log).m.lookup k :=
  Fsm.run_lookup _ _ (fun k => by rw [h0]) log k

/-- C110: whatever entries are committed, whichever nodes apply them when, whatever snapshots are taken, fail, are written
while entries are applied, replace the beginning of the log or are given to other nodes, and whichever nodes start again:
every node runs, and its store has the contents of the entries that it has applied, as if it had applied them one by one. -/
theorem C110_contents (lv lc : Nat → SignState) (evs : List RepEv) (c : Replicas)
    (h : (Replicas.start lv lc).run evs = some c) (p : Nat) :
    (c.node p).down = false ∧ ∀ s0 : Fsm, s0.m = [] → ∀ k,
      (c.node p).fsm.m.get k = (s0.run (c.log.take (c.node p).applied)).m.get k := by
  have hg := replica_run (replica_start lv lc) h p
  refine ⟨hg.up, fun s0 h0 k => ?_⟩
  rw [KV.get, hg.mem.same k, replay_base s0 h0]
  rfl

/-- C110: so two nodes that have applied the same number of entries have the same contents. -/
theorem C110_agree (lv lc : Nat → SignState) (evs : List RepEv) (c : Replicas)
    (h : (Replicas.start lv lc).run evs = some c) (p q : Nat) (ha : (c.node p).applied = (c.node q).applied) (k : Bytes) :
    (c.node p).fsm.m.get k = (c.node q).fsm.m.get k := by
  rw [(C110_contents lv lc evs c h p).2 ⟨[], .empty, .empty⟩ rfl, (C110_contents lv lc evs c h q).2 ⟨[], .empty, .empty⟩ rfl,
    ha]

theorem apply_possible {c : Replicas} (h : ∀ p, (c.node p).Good c.log) {p : Nat}
    (hp : (c.node p).applied < c.log.length) :
    ∃ c', c.step (.apply p) = some c' ∧ c'.log = c.log ∧ (c'.node p).applied = (c.node p).applied + 1 := by
  have hg := h p
  have hk := hg.kept
  have hn : ¬ ((c.node p).down = true ∨ (c.node p).applied < (c.node p).first) := by
    rw [hg.up]; simp; exact hk
  refine ⟨c.set p { c.node p with
    fsm := (c.node p).fsm.apply c.log[(c.node p).applied], applied := (c.node p).applied + 1 }, ?_, rfl, ?_⟩
  · simp only [Replicas.step, hn, if_false, List.getElem?_eq_getElem hp]
  · simp [Replicas.set]

/-- C110: no entry that a node still needs is cut off: a node that has not applied everything can always go on, and so can
one that starts again at any time; in the end it has the contents of the whole log. -/
theorem C110_progress (lv lc : Nat → SignState) (evs : List RepEv) (c : Replicas)
    (h : (Replicas.start lv lc).run evs = some c) (p : Nat) (lv' lc' : SignState) :
    ∃ k c', c.run (.restart p lv' lc' :: List.replicate k (.apply p)) = some c' ∧ c'.log = c.log ∧
      (c'.node p).applied = c.log.length ∧
      ∀ s0 : Fsm, s0.m = [] → ∀ key, (c'.node p).fsm.m.get key = (s0.run c.log).m.get key := by
  have hg := replica_run (replica_start lv lc) h
  have key : ∀ (d : Nat) (c : Replicas), (∀ p, (c.node p).Good c.log) → c.log.length = (c.node p).applied + d →
      ∃ c', c.run (List.replicate d (.apply p)) = some c' ∧ c'.log = c.log ∧ (c'.node p).applied = c.log.length ∧
        ∀ p, (c'.node p).Good c'.log := by
    intro d
    induction d with
    | zero => intro c hg hd; exact ⟨c, rfl, rfl, by omega, hg⟩
    | succ d ih =>
      intro c hg hd
      obtain ⟨c1, h1, h2, h3⟩ := apply_possible hg (p := p) (by omega)
      obtain ⟨c2, i1, i2, i3, i4⟩ := ih c1 (replica_step hg h1) (by rw [h2, h3]; omega)
      exact ⟨c2, by simp [List.replicate_succ, Replicas.run, h1, i1], i2.trans h2, by rw [i3, h2], i4⟩
  have hs : c.step (.restart p lv' lc') = some (c.set p ((c.node p).boot lv' lc')) := by
    simp [Replicas.step, (hg p).up]
  have hg1 := replica_step hg hs
  have hle := (hg1 p).mem.le
  obtain ⟨c2, i1, i2, i3, i4⟩ := key (c.log.length - ((c.set p ((c.node p).boot lv' lc')).node p).applied) _ hg1 (by
    change _ ≤ c.log.length at hle
    show c.log.length = _
    omega)
  refine ⟨_, c2, by simp only [Replicas.run, hs, Option.bind_some]; exact i1, i2, i3, fun s0 h0 k => ?_⟩
  have := (i4 p).mem
  rw [KV.get, this.same k, i3, i2, replay_base s0 h0]
  show _ = (s0.run c.log).m.get k
  rw [show (c.set p ((c.node p).boot lv' lc')).log = c.log from rfl, List.take_length]
  rfl

/-- Nodes 1 and 2, without sign states. -/
def reps0 : Replicas := .start (fun _ => .empty) (fun _ => .empty)

/-- `a := b`, `d := e`, `a := cc`, and a record of height 7. -/
def repLog : List Bytes := [encodeCommand ⟨opSet, [97], [98]⟩, encodeCommand ⟨opSet, [100], [101]⟩,
  encodeCommand ⟨opSet, [97], [99, 99]⟩, encodeCommand ⟨opSet, keyLSS, encodeSSC rec712⟩]

/-- Node 1 takes a snapshot after two entries and goes on applying while it is written; a second snapshot fails; node 1
starts again from the first one, node 2 is given it; both go on. -/
example : ((reps0.run (repLog.map .commit ++ [.apply 1, .apply 1, .snapshot 1, .apply 1, .persist 1 ⟨true, true⟩ 2, .apply 1,
      .snapshot 1, .persist 1 ⟨true, false⟩ 4, .restart 1 .empty .empty, .install 2 1, .apply 2])).map fun c =>
        ((c.node 1).applied, (c.node 1).fsm.m.get [97], (c.node 2).applied, (c.node 2).fsm.m.get [97], (c.node 1).first)) =
      some (2, [98], 3, [99, 99], 2) := by
  decide +kernel

/-! ### C111: watermarks -/

/-- What a node has applied is in its sign states. -/
def Covers (c : Replicas) (p : Nat) : Prop :=
  ∀ e ∈ c.log.take (c.node p).applied, ∀ r, Event e r →
    r.hrs ≼ (c.node p).fsm.val.hrs ∧ r.hrs ≼ (c.node p).fsm.cos.hrs

theorem covers_step {c c' : Replicas} (hg : ∀ p, (c.node p).Good c.log) {p : Nat} (h : Covers c p) {e : RepEv}
    (hi : ∀ q, e ≠ .install p q)
    (hr : ∀ lv lc, e = .restart p lv lc → (c.node p).fsm.val.hrs ≼ lv.hrs ∧ (c.node p).fsm.cos.hrs ≼ lc.hrs)
    (hs : c.step e = some c') : Covers c' p := by
  have other : ∀ (j : Nat) (r : Replica), (j = p → r.applied = (c.node p).applied ∧ r.fsm = (c.node p).fsm) →
      Covers (c.set j r) p := by
    intro j r hj x hx r' hr'
    simp only [Replicas.set] at hx ⊢
    by_cases hjp : p = j
    · obtain ⟨h1, h2⟩ := hj hjp.symm
      simp only [hjp, if_true] at hx ⊢
      rw [h1] at hx
      rw [h2]
      exact h x hx r' hr'
    · simp only [hjp, if_false] at hx ⊢
      exact h x hx r' hr'
  cases e with
  | commit e =>
    simp only [Replicas.step, Option.some.injEq] at hs
    subst hs
    intro x hx r hr
    dsimp only at hx ⊢
    rw [List.take_append_of_le_length (hg p).mem.le] at hx
    exact h x hx r hr
  | apply j =>
    simp only [Replicas.step] at hs
    split at hs
    · cases hs
    · split at hs
      · cases hs
      · next e he =>
        simp only [Option.some.injEq] at hs
        subst hs
        by_cases hj : p = j
        · subst hj
          intro x hx r hr
          simp only [Replicas.set, if_true] at hx ⊢
          obtain ⟨hlt, rfl⟩ := List.getElem?_eq_some_iff.1 he
          rw [List.take_add_one, List.getElem?_eq_getElem hlt] at hx
          have hw := (C44_watermark (c.node p).fsm [c.log[(c.node p).applied]])
          have hst := (c.node p).fsm.run_states [c.log[(c.node p).applied]]
          change (((c.node p).fsm.apply _).val = _ ∧ ((c.node p).fsm.apply _).cos = _) at hst
          rcases List.mem_append.1 hx with hx | hx
          · obtain ⟨h1, h2⟩ := h x hx r hr
            rw [hst.1, hst.2]
            exact ⟨HRS.le_trans h1 (SignState.saves_mono _ _), HRS.le_trans h2 (SignState.saves_mono _ _)⟩
          · simp only [Option.toList_some, List.mem_singleton] at hx
            subst hx
            exact hw.1 _ (by simp) r hr
        · exact other j _ fun h => absurd h.symm hj
  | snapshot j =>
    simp only [Replicas.step] at hs
    split at hs
    · cases hs
    · simp only [Option.some.injEq] at hs
      subst hs
      exact other j _ fun h => by subst h; exact ⟨rfl, rfl⟩
  | persist j sink cut =>
    simp only [Replicas.step] at hs
    split at hs
    · cases hs
    · split at hs
      · cases hs
      · split at hs
        all_goals
          simp only [Option.some.injEq] at hs
          subst hs
          exact other j _ fun h => by subst h; exact ⟨rfl, rfl⟩
  | install j q =>
    have hj : j ≠ p := fun h => hi q (by rw [h])
    simp only [Replicas.step] at hs
    split at hs
    · cases hs
    · split at hs
      · cases hs
      · split at hs
        all_goals
          simp only [Option.some.injEq] at hs
          subst hs
        · exact h
        · exact other j _ fun h => absurd h hj
  | restart j lv lc =>
    simp only [Replicas.step] at hs
    split at hs
    · cases hs
    · simp only [Option.some.injEq] at hs
      subst hs
      by_cases hj : p = j
      · subst hj
        obtain ⟨h1, h2⟩ := hr lv lc rfl
        obtain ⟨_, b2, b3⟩ := (hg p).boot lv lc
        have hle : ((c.node p).boot lv lc).applied ≤ (c.node p).applied := by
          unfold Replica.boot
          split
          · exact Nat.zero_le _
          · next i bs hs =>
            split
            · exact Nat.le_refl _
            · exact (hg p).old _ (head_mem hs)
        intro x hx r hr'
        simp only [Replicas.set, if_true] at hx ⊢
        rw [b2, b3]
        obtain ⟨h3, h4⟩ := h x ((List.take_subset_take_left _ hle) hx) r hr'
        exact ⟨HRS.le_trans h3 h1, HRS.le_trans h4 h2⟩
      · exact other j _ fun h => absurd h.symm hj

/-- C111, partial: a node that is given no snapshot of another node, and that finds sign states in its files not below those
it had whenever it starts again, knows every block of the entries that it has applied or restored: both its watermarks are
there or above. Missing: snapshots of other nodes (`C111_fails`) and files that are behind (`C111_restart_fails`). -/
theorem C111_partial (lv lc : Nat → SignState) (evs : List RepEv) (c : Replicas)
    (h : (Replicas.start lv lc).run evs = some c) (p : Nat) (hp : Spared p (Replicas.start lv lc) evs) :
    ∀ e ∈ c.log.take (c.node p).applied, ∀ r, Event e r →
      r.hrs ≼ (c.node p).fsm.val.hrs ∧ r.hrs ≼ (c.node p).fsm.cos.hrs := by
  have key : ∀ (evs : List RepEv) (c0 : Replicas), (∀ p, (c0.node p).Good c0.log) → Covers c0 p → Spared p c0 evs →
      c0.run evs = some c → Covers c p := by
    intro evs
    induction evs with
    | nil =>
      intro c0 _ hk _ hr
      simp only [Replicas.run, Option.some.injEq] at hr
      subst hr
      exact hk
    | cons e evs ih =>
      intro c0 hg hk hs hr
      simp only [Replicas.run] at hr
      obtain ⟨c1, h1, h2⟩ := Option.bind_eq_some_iff.1 hr
      exact ih c1 (replica_step hg h1) (covers_step hg hk hs.1 hs.2.1 h1) (hs.2.2 c1 h1) h2
  exact key evs _ (replica_start lv lc) (by intro e he; simp [Replicas.start] at he) hp h

/-- The file of node 1 holds the record of height 7 when it starts again. -/
example : Spared 1 reps0 [.commit repLog[3], .apply 1, .snapshot 1, .persist 1 ⟨true, true⟩ 1,
    .restart 1 (SignState.empty.save rec712).2 (SignState.empty.save rec712).2] := by
  refine ⟨by simp, by simp, fun c hc => ⟨by simp, by simp, fun c' hc' => ⟨by simp, by simp, fun c'' hc'' => ⟨by simp, by simp,
    fun c3 hc3 => ⟨by simp, ?_, fun _ _ => trivial⟩⟩⟩⟩⟩
  intro lv lc h
  cases h
  have h0 : (reps0.run [.commit repLog[3], .apply 1, .snapshot 1, .persist 1 ⟨true, true⟩ 1]) = some c3 := by
    simp only [Replicas.run, hc, hc', hc'', hc3, Option.bind_some]
  have h1 : ((reps0.run [.commit repLog[3], .apply 1, .snapshot 1, .persist 1 ⟨true, true⟩ 1]).map
      fun c => ((c.node 1).fsm.val.hrs, (c.node 1).fsm.cos.hrs)) = some (⟨7, 1, 2⟩, ⟨7, 1, 2⟩) := by decide +kernel
  rw [h0] at h1
  simp only [Option.map_some, Option.some.injEq, Prod.mk.injEq] at h1
  rw [h1.1, h1.2]
  exact ⟨.inl (by decide +kernel), .inl (by decide +kernel)⟩

/-- C111 is false: snapshots do not contain the records. A node that lags behind and is given a snapshot has caught up with
the whole log, and both its watermarks are still where its files had them, below a block of which the log says that it was
signed. -/
theorem C111_fails (lv lc : Nat → SignState) (e : Bytes) (r : SSC) (he : Event e r) (hv : (lv 2).hrs ≺ r.hrs)
    (hc : (lc 2).hrs ≺ r.hrs) :
    ∃ evs c, (Replicas.start lv lc).run evs = some c ∧ (∃ e ∈ c.log, Event e r) ∧ (c.node 2).applied = c.log.length ∧
      (c.node 2).fsm.val.hrs ≺ r.hrs ∧ (c.node 2).fsm.cos.hrs ≺ r.hrs := by
  refine ⟨[.commit e, .apply 1, .snapshot 1, .persist 1 ⟨true, true⟩ 1, .install 2 1], ?_⟩
  obtain ⟨m', h1, _⟩ := restore_snapshot (Fsm.apply_clean ⟨[], lv 1, lc 1⟩ KV.clean_nil e)
  have h2 : (((Replicas.start lv lc).run [.commit e, .apply 1, .snapshot 1, .persist 1 ⟨true, true⟩ 1, .install 2 1]).map
      fun c => (c.log, (c.node 2).applied, (c.node 2).fsm.val, (c.node 2).fsm.cos)) = some ([e], 1, lv 2, lc 2) := by
    simp [Replicas.run, Replicas.step, Replicas.start, Replicas.set, persist, addSnap, insertSnap, retainSnapshotCount, h1]
  obtain ⟨c, h3, h4⟩ := Option.map_eq_some_iff.1 h2
  simp only [Prod.mk.injEq] at h4
  exact ⟨c, h3, ⟨e, by simp [h4.1], he⟩, by rw [h4.1, h4.2.1]; rfl, by rw [h4.2.2.1]; exact hv, by rw [h4.2.2.2]; exact hc⟩

/-- C111 is false for a single node too: a node whose file was not written yet when it stopped starts again behind what it
knew. Without a snapshot it applies the log again and knows the block; if it has taken a snapshot, it does not. -/
theorem C111_restart_fails (lv lc : Nat → SignState) (e : Bytes) (r : SSC) (he : Event e r) (hv : (lv 1).hrs ≺ r.hrs)
    (hc : (lc 1).hrs ≺ r.hrs) :
    (∃ c, (Replicas.start lv lc).run [.commit e, .apply 1, .restart 1 (lv 1) (lc 1), .apply 1] = some c ∧
      (c.node 1).applied = 1 ∧ (c.node 1).fsm.val.hrs = r.hrs ∧ (c.node 1).fsm.cos.hrs = r.hrs) ∧
    ∃ c, (Replicas.start lv lc).run [.commit e, .apply 1, .snapshot 1, .persist 1 ⟨true, true⟩ 0, .restart 1 (lv 1) (lc 1)] =
        some c ∧ (c.node 1).applied = 1 ∧ (c.node 1).fsm.val.hrs ≺ r.hrs ∧ (c.node 1).fsm.cos.hrs ≺ r.hrs := by
  obtain ⟨m', h1, _⟩ := restore_snapshot (Fsm.apply_clean ⟨[], lv 1, lc 1⟩ KV.clean_nil e)
  have h5 := C44_event ⟨[], lv 1, lc 1⟩ e r he
  constructor
  · have h2 : (((Replicas.start lv lc).run [.commit e, .apply 1, .restart 1 (lv 1) (lc 1), .apply 1]).map
        fun c => ((c.node 1).applied, (c.node 1).fsm)) = some (1, Fsm.apply ⟨[], lv 1, lc 1⟩ e) := by
      simp [Replicas.run, Replicas.step, Replicas.start, Replicas.set, Replica.boot]
    obtain ⟨c, h3, h4⟩ := Option.map_eq_some_iff.1 h2
    simp only [Prod.mk.injEq] at h4
    exact ⟨c, h3, h4.1, by rw [h4.2]; exact h5.2.1.trans (if_pos hv), by rw [h4.2]; exact h5.2.2.trans (if_pos hc)⟩
  · have h2 : (((Replicas.start lv lc).run
        [.commit e, .apply 1, .snapshot 1, .persist 1 ⟨true, true⟩ 0, .restart 1 (lv 1) (lc 1)]).map
        fun c => ((c.node 1).applied, (c.node 1).fsm.val, (c.node 1).fsm.cos)) = some (1, lv 1, lc 1) := by
      simp [Replicas.run, Replicas.step, Replicas.start, Replicas.set, persist, addSnap, insertSnap, retainSnapshotCount, h1,
        Replica.boot]
    obtain ⟨c, h3, h4⟩ := Option.map_eq_some_iff.1 h2
    simp only [Prod.mk.injEq] at h4
    exact ⟨c, h3, h4.1, by rw [h4.2.1]; exact hv, by rw [h4.2.2]; exact hc⟩

/-- The record of height 7 is in the log. Node 1 has applied it, node 2 has caught up with the snapshot of node 1. -/
example : ((reps0.run (repLog.map .commit ++ [.apply 1, .apply 1, .apply 1, .apply 1, .snapshot 1, .persist 1 ⟨true, true⟩ 4,
      .install 2 1])).map fun c => ((c.node 1).fsm.val.hrs, (c.node 2).applied, (c.node 2).fsm.m.get [97],
        (c.node 2).fsm.val.hrs, (c.node 2).fsm.cos.hrs)) =
      some (⟨7, 1, 2⟩, 4, [99, 99], ⟨0, 0, 0⟩, ⟨0, 0, 0⟩) := by
  decide +kernel

/-- A node is where its life has brought it. -/
structure Lived (c : Replicas) (p : Nat) (a : Life) : Prop where
  sub : a.heard.Sublist (c.log.take (c.node p).applied)
  val : (c.node p).fsm.val = a.lv.saves (a.heard.filterMap eventOf)
  cos : (c.node p).fsm.cos = a.lc.saves (a.heard.filterMap eventOf)

theorem lived_step {c c' : Replicas} (hg : ∀ p, (c.node p).Good c.log) {p : Nat} {a : Life} (h : Lived c p a) {e : RepEv}
    (hs : c.step e = some c') : Lived c' p (a.after p c e) := by
  have other : ∀ (j : Nat) (r : Replica),
      (j = p → (c.node p).applied ≤ r.applied ∧ r.fsm.val = (c.node p).fsm.val ∧ r.fsm.cos = (c.node p).fsm.cos) →
      Lived (c.set j r) p a := by
    intro j r hj
    by_cases hjp : p = j
    · obtain ⟨h1, h2, h3⟩ := hj hjp.symm
      refine ⟨?_, ?_, ?_⟩ <;> simp only [Replicas.set, hjp, if_true]
      · subst hjp; exact h.sub.trans (List.take_sublist_take_left h1)
      · rw [h2]; exact h.val
      · rw [h3]; exact h.cos
    · refine ⟨?_, ?_, ?_⟩ <;> simp only [Replicas.set, hjp, if_false]
      · exact h.sub
      · exact h.val
      · exact h.cos
  cases e with
  | commit e =>
    simp only [Replicas.step, Option.some.injEq] at hs
    subst hs
    refine ⟨?_, h.val, h.cos⟩
    dsimp only [Life.after]
    rw [List.take_append_of_le_length (hg p).mem.le]
    exact h.sub
  | apply j =>
    simp only [Replicas.step] at hs
    split at hs
    · cases hs
    · split at hs
      · cases hs
      · next e he =>
        simp only [Option.some.injEq] at hs
        subst hs
        by_cases hj : j = p
        · subst hj
          have hst := (c.node j).fsm.run_states [e]
          change (((c.node j).fsm.apply _).val = _ ∧ ((c.node j).fsm.apply _).cos = _) at hst
          refine ⟨?_, ?_, ?_⟩ <;> simp only [Life.after, Replicas.set, if_true, he, Option.toList_some]
          · rw [List.take_add_one, he]
            exact h.sub.append (List.Sublist.refl _)
          · rw [hst.1, h.val, List.filterMap_append, SignState.saves_append]
          · rw [hst.2, h.cos, List.filterMap_append, SignState.saves_append]
        · simp only [Life.after, hj, if_false]
          exact other j _ fun h => absurd h hj
  | snapshot j =>
    simp only [Replicas.step] at hs
    split at hs
    · cases hs
    · simp only [Option.some.injEq] at hs
      subst hs
      exact other j _ fun h => by subst h; exact ⟨Nat.le_refl _, rfl, rfl⟩
  | persist j sink cut =>
    simp only [Replicas.step] at hs
    split at hs
    · cases hs
    · split at hs
      · cases hs
      · split at hs
        all_goals
          simp only [Option.some.injEq] at hs
          subst hs
          exact other j _ fun h => by subst h; exact ⟨Nat.le_refl _, rfl, rfl⟩
  | install j q =>
    simp only [Replicas.step] at hs
    split at hs
    · cases hs
    · split at hs
      · cases hs
      · next hc =>
        split at hs
        all_goals
          simp only [Option.some.injEq] at hs
          subst hs
        · exact h
        · exact other j _ fun h => by subst h; exact ⟨by dsimp only; omega, rfl, rfl⟩
  | restart j lv lc =>
    simp only [Replicas.step] at hs
    split at hs
    · cases hs
    · simp only [Option.some.injEq] at hs
      subst hs
      by_cases hj : j = p
      · subst hj
        obtain ⟨_, b2, b3⟩ := (hg j).boot lv lc
        refine ⟨?_, ?_, ?_⟩ <;> simp only [Life.after, Replicas.set, if_true]
        · exact List.nil_sublist _
        · exact b2
        · exact b3
      · simp only [Life.after, hj, if_false]
        exact other j _ fun h => absurd h hj

/-- Being at or below what was saved, record by record. -/
theorem le_saves (s : SignState) (log : List Bytes) (k : HRS) :
    k ≼ (s.saves (log.filterMap eventOf)).hrs ↔ k ≼ s.hrs ∨ ∃ e ∈ log, ∃ r, Event e r ∧ k ≼ r.hrs := by
  have h := C44_watermark ⟨[], s, s⟩ log
  rw [(Fsm.run_states ⟨[], s, s⟩ log).1] at h
  constructor
  · intro hk
    rcases h.2.1 with h1 | ⟨e, he, r, hr, h1⟩
    · exact .inl (h1 ▸ hk)
    · exact .inr ⟨e, he, r, hr, h1 ▸ hk⟩
  · rintro (hk | ⟨e, he, r, hr, hk⟩)
    · exact HRS.le_trans hk (SignState.saves_mono _ _)
    · exact HRS.le_trans hk (h.1 e he r hr).1

/-- C111, the exact condition: whatever happens, a node knows of a block just if the sign state in its file was there or above
when it was last started, or one of the entries it has applied itself since then is a record there or above. Those entries are
among the ones it counts as applied, in order; entries that it has from a snapshot, its own or that of another node, are not
among them. -/
theorem C111_exact (lv lc : Nat → SignState) (evs : List RepEv) (c : Replicas)
    (h : (Replicas.start lv lc).run evs = some c) (p : Nat) :
    let a := lifeOf p (Replicas.start lv lc) ⟨lv p, lc p, []⟩ evs
    a.heard.Sublist (c.log.take (c.node p).applied) ∧
    ∀ k : HRS, (k ≼ (c.node p).fsm.val.hrs ↔ k ≼ a.lv.hrs ∨ ∃ e ∈ a.heard, ∃ r, Event e r ∧ k ≼ r.hrs) ∧
      (k ≼ (c.node p).fsm.cos.hrs ↔ k ≼ a.lc.hrs ∨ ∃ e ∈ a.heard, ∃ r, Event e r ∧ k ≼ r.hrs) := by
  have key : ∀ (evs : List RepEv) (c0 : Replicas) (a : Life), (∀ p, (c0.node p).Good c0.log) → Lived c0 p a →
      c0.run evs = some c → Lived c p (lifeOf p c0 a evs) := by
    intro evs
    induction evs with
    | nil =>
      intro c0 a _ hk hr
      simp only [Replicas.run, Option.some.injEq] at hr
      subst hr
      exact hk
    | cons e evs ih =>
      intro c0 a hg hk hr
      simp only [Replicas.run] at hr
      obtain ⟨c1, h1, h2⟩ := Option.bind_eq_some_iff.1 hr
      simp only [lifeOf, h1]
      exact ih c1 _ (replica_step hg h1) (lived_step hg hk h1) h2
  have hl := key evs _ ⟨lv p, lc p, []⟩ (replica_start lv lc) ⟨List.nil_sublist _, rfl, rfl⟩ h
  refine ⟨hl.sub, fun k => ⟨?_, ?_⟩⟩
  · rw [hl.val]; exact le_saves _ _ k
  · rw [hl.cos]; exact le_saves _ _ k

/-- Node 1 starts again from a snapshot of two entries and applies the rest, with the record of height 7; node 2 is given a
snapshot of all four entries and applies none. -/
example : (lifeOf 1 reps0 ⟨.empty, .empty, []⟩ (repLog.map .commit ++ [.apply 1, .apply 1, .snapshot 1, .persist 1 ⟨true, true⟩ 2,
      .restart 1 .empty .empty, .apply 1, .apply 1, .snapshot 1, .persist 1 ⟨true, true⟩ 4, .install 2 1])).heard = repLog.drop 2 ∧
    (lifeOf 2 reps0 ⟨.empty, .empty, []⟩ (repLog.map .commit ++ [.apply 1, .apply 1, .snapshot 1, .persist 1 ⟨true, true⟩ 2,
      .restart 1 .empty .empty, .apply 1, .apply 1, .snapshot 1, .persist 1 ⟨true, true⟩ 4, .install 2 1])).heard = [] := by
  decide +kernel

end Horcrux
