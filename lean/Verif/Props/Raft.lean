import Verif.Lemmas.Raft
/-
Properties C42–C46: the replicated store, its snapshots, its events and its membership.
-/
namespace Horcrux
open Spec

/-! ### Concrete material -/

/-- A sign state at (5, 1, 2). -/
def ss512 : SignState := ⟨5, 1, 2, none, none, none, fun _ => none⟩

/-- A node with an empty store. -/
def fsm0 : Fsm := ⟨[], ss512, ss512⟩

def rec712 : SSC := ⟨7, 1, 2, some [1, 2, 3], some [10, 11]⟩

def rec400 : SSC := ⟨4, 0, 0, none, none⟩

/-- `Set(a, b)`, garbage, an unknown command, `Set(a, cc)`, a watermark event, `Set(d, e)`, `Delete(d)`. -/
def log1 : List Bytes :=
  [encodeCommand ⟨opSet, [97], [98]⟩, [1, 2, 3], encodeCommand ⟨[120], [97], [98]⟩, encodeCommand ⟨opSet, [97], [99, 99]⟩,
    encodeCommand ⟨opSet, keyLSS, encodeSSC rec712⟩, encodeCommand ⟨opSet, [100], [101]⟩, encodeCommand ⟨opDelete, [100], []⟩]

/-! ### C42: the store is a map -/

/-- C42: after any log, `Get` gives the value of the last write of the key if that is a set, and the empty string if it
is a delete or there is none; and one of the three is the case. -/
theorem C42_get (s : Fsm) (h0 : s.m = []) (log : List Bytes) (k : Bytes) (hk : k ≠ keyLSS) :
    (∃ v, LastSet log k v ∧ (s.run log).m.get k = v) ∨
    (LastDelete log k ∧ (s.run log).m.get k = []) ∨
    ((∀ e ∈ log, ¬ Touches e k) ∧ (s.run log).m.get k = []) := by
  rcases last_write log k with h | ⟨v, hv⟩ | hd
  · refine Or.inr (Or.inr ⟨h, ?_⟩)
    rw [KV.get, s.run_of_not_touches log h, h0]; rfl
  · refine Or.inl ⟨v, hv, ?_⟩
    obtain ⟨pre, e, post, rfl, hs, hp⟩ := hv
    rw [KV.get, Fsm.run_append]
    show (((((s.run pre).apply e).run post).m.lookup k).getD []) = v
    rw [Fsm.run_of_not_touches _ post hp, Fsm.apply_sets _ hs hk]; rfl
  · refine Or.inr (Or.inl ⟨hd, ?_⟩)
    obtain ⟨pre, e, post, rfl, hs, hp⟩ := hd
    rw [KV.get, Fsm.run_append]
    show (((((s.run pre).apply e).run post).m.lookup k).getD []) = []
    rw [Fsm.run_of_not_touches _ post hp, Fsm.apply_deletes _ hs]; rfl

example : (fsm0.run log1).m.get [97] = [99, 99] ∧ (fsm0.run log1).m.get [100] = [] ∧ (fsm0.run log1).m.get [5] = [] := by
  decide +kernel

/-- C42: an entry that is malformed or no known command changes nothing at all. -/
theorem C42_ignored (s : Fsm) (e : Bytes) (h : NoCommand e) : s.apply e = s := by
  unfold Fsm.apply
  split
  · rfl
  · rename_i c hc
    obtain ⟨o, k, v⟩ := c
    simp only
    split
    · rename_i ho; exact absurd (Or.inl ⟨v, by rw [Sets, hc, ho]⟩) (h k)
    · split
      · rename_i ho; exact absurd (Or.inr ⟨v, by rw [hc, ho]⟩) (h k)
      · rfl

example : NoCommand [1, 2, 3] ∧ NoCommand (encodeCommand ⟨[120], [97], [98]⟩) := by
  have h : decodeCommand [1, 2, 3] = none := by decide +kernel
  have h' : decodeCommand (encodeCommand ⟨[120], [97], [98]⟩) = some ⟨[120], [97], [98]⟩ := by decide +kernel
  refine ⟨?_, ?_⟩ <;> rintro k (⟨v, hv⟩ | ⟨v, hv⟩)
  · rw [Sets, h] at hv; cases hv
  · rw [h] at hv; cases hv
  · rw [Sets, h', Option.some.injEq] at hv; exact absurd (congrArg Command.op hv) (by decide : ¬ ([120] : Bytes) = opSet)
  · rw [h', Option.some.injEq] at hv; exact absurd (congrArg Command.op hv) (by decide : ¬ ([120] : Bytes) = opDelete)

/-- C42: two nodes that start empty and apply the same log agree on the contents, whatever their sign states. -/
theorem C42_agree (s t : Fsm) (hs : s.m = []) (ht : t.m = []) (log : List Bytes) (k : Bytes) :
    (s.run log).m.lookup k = (t.run log).m.lookup k ∧ (s.run log).m.get k = (t.run log).m.get k := by
  have := s.run_lookup t (fun k => by rw [hs, ht]) log k
  exact ⟨this, by rw [KV.get, this]; rfl⟩

example : fsm0.m = [] ∧ (Fsm.mk [] { ss512 with height := 9 } ss512).m = [] ∧
    ((Fsm.mk [] { ss512 with height := 9 } ss512).run log1).m.get [97] = [99, 99] := by decide +kernel

/-- The entry `Set` or `Delete` proposes. -/
def Spec.Write.entry : Write → Bytes
  | .set k v => encodeCommand ⟨opSet, k, v⟩
  | .delete k => encodeCommand ⟨opDelete, k, []⟩

/-- C42: what `Set` and `Delete` propose sets and deletes that key. Bytes that are not UTF-8 are replaced on the way. -/
theorem C42_commands (k v : Bytes) :
    Sets (encodeCommand ⟨opSet, k, v⟩) (sanitize k) (sanitize v) ∧ Deletes (encodeCommand ⟨opDelete, k, v⟩) (sanitize k) := by
  refine ⟨?_, sanitize v, ?_⟩
  · rw [Sets, decode_encodeCommand]; rfl
  · rw [decode_encodeCommand]; rfl

/-- C42: a log of `Set`s and `Delete`s leaves the contents of the corresponding map. -/
theorem C42_api (s : Fsm) (ws : List Write) (hk : ∀ w ∈ ws, w.key ≠ keyLSS)
    (hv : ∀ w ∈ ws, match w with
      | .set k v => ValidUtf8 k ∧ ValidUtf8 v
      | .delete k => ValidUtf8 k) (k : Bytes) :
    (s.run (ws.map (·.entry))).m.lookup k = contents s.m.lookup ws k := by
  induction ws generalizing s with
  | nil => rfl
  | cons w ws ih =>
    show ((s.apply w.entry).run (ws.map (·.entry))).m.lookup k = _
    rw [ih _ (fun w' hw' => hk w' (by simp [hw'])) (fun w' hw' => hv w' (by simp [hw']))]
    have hw := hv w (by simp)
    cases w with
    | set a b =>
      have he := (C42_commands a b).1
      rw [show sanitize a = a from hw.1, show sanitize b = b from hw.2] at he
      rw [contents]
      congr 1
      funext x
      by_cases hx : x = a
      · subst hx
        rw [if_pos rfl]
        exact s.apply_sets he (hk (.set x b) (by simp))
      · rw [if_neg hx]
        apply s.apply_of_not_touches
        rintro (⟨v, h⟩ | ⟨v, h⟩)
        · rw [Sets, show Write.entry (.set a b) = encodeCommand ⟨opSet, a, b⟩ from rfl] at h; rw [Sets] at he; rw [he] at h
          cases h; exact hx rfl
        · rw [Sets] at he; rw [show Write.entry (.set a b) = encodeCommand ⟨opSet, a, b⟩ from rfl, he] at h
          exact absurd (congrArg Command.op (Option.some.inj h)) (by decide : ¬ opSet = opDelete)
    | delete a =>
      have he := (C42_commands a []).2
      rw [show sanitize a = a from hw] at he
      rw [contents]
      congr 1
      funext x
      by_cases hx : x = a
      · subst hx
        rw [if_pos rfl]
        exact s.apply_deletes he
      · rw [if_neg hx]
        obtain ⟨v', he⟩ := he
        apply s.apply_of_not_touches
        rintro (⟨v, h⟩ | ⟨v, h⟩)
        · rw [Sets, show Write.entry (.delete a) = encodeCommand ⟨opDelete, a, []⟩ from rfl, he] at h
          exact absurd (congrArg Command.op (Option.some.inj h)) (by decide : ¬ opDelete = opSet)
        · rw [show Write.entry (.delete a) = encodeCommand ⟨opDelete, a, []⟩ from rfl, he] at h; cases h; exact hx rfl

example : contents (fun _ => none) [.set [97] [98], .set [99] [100], .delete [99], .set [97] [101]] [97] = some [101] ∧
    contents (fun _ => none) [.set [97] [98], .set [99] [100], .delete [99], .set [97] [101]] [99] = none ∧
    ValidUtf8 [97] := ⟨by decide +kernel, by decide +kernel, rfl⟩

/-! ### C43: snapshots -/

/-- What happens to a node: it applies an entry; or a snapshot of it is taken and restored, in a process whose sign
states are the given ones. -/
inductive StoreEv where
  | entry (e : Bytes)
  | snapRestore (val cos : SignState)

/-- The result; `none` if a snapshot does not decode. -/
def Fsm.play (s : Fsm) : List StoreEv → Option Fsm
  | [] => some s
  | .entry e :: evs => (s.apply e).play evs
  | .snapRestore val cos :: evs =>
    match restoreKV (snapshotKV s.m) with
    | none => none
    | some m => Fsm.play ⟨m, val, cos⟩ evs

/-- The entries among the events. -/
def entriesOf : List StoreEv → List Bytes
  | [] => []
  | .entry e :: evs => e :: entriesOf evs
  | .snapRestore _ _ :: evs => entriesOf evs

theorem play_spec (s t : Fsm) (hs : s.m.Clean) (h : ∀ k, s.m.lookup k = t.m.lookup k) (evs : List StoreEv) :
    ∃ r, s.play evs = some r ∧ r.m.Clean ∧ ∀ k, r.m.lookup k = (t.run (entriesOf evs)).m.lookup k := by
  induction evs generalizing s t with
  | nil => exact ⟨s, rfl, hs, h⟩
  | cons ev evs ih =>
    cases ev with
    | entry e =>
      exact ih _ (t.apply e) (s.apply_clean hs e) fun k => by rw [Fsm.lookup_apply, Fsm.lookup_apply, h]
    | snapRestore val cos =>
      obtain ⟨m', h1, h2, h3⟩ := restore_snapshot hs
      obtain ⟨r, hr⟩ := ih ⟨m', val, cos⟩ t h2 fun k => (h3 k).trans (h k)
      exact ⟨r, by simp only [Fsm.play, h1, hr.1], hr.2⟩

/-- C43: restoring the snapshot taken after any prefix succeeds, and applying the rest gives the contents of the full
replay. -/
theorem C43_snapshot (s : Fsm) (h0 : s.m = []) (pre post : List Bytes) (val cos : SignState) :
    ∃ m, restoreKV (snapshotKV (s.run pre).m) = some m ∧
      ∀ k, (Fsm.run ⟨m, val, cos⟩ post).m.lookup k = (s.run (pre ++ post)).m.lookup k := by
  obtain ⟨m, h1, _, h3⟩ := restore_snapshot (s.run_clean (by rw [h0]; exact KV.clean_nil) pre)
  refine ⟨m, h1, fun k => ?_⟩
  rw [Fsm.run_append]
  exact Fsm.run_lookup _ _ h3 post k

example : (restoreKV (snapshotKV (fsm0.run (log1.take 6)).m)).map (fun m => (m.lookup [97], m.lookup [100], m.lookup keyLSS))
    = some (some [99, 99], some [101], none) := by decide +kernel

/-- C43: the same with any number of snapshots, restored at any points. -/
theorem C43_many (s : Fsm) (h0 : s.m = []) (evs : List StoreEv) :
    ∃ r, s.play evs = some r ∧ ∀ k, r.m.lookup k = (s.run (entriesOf evs)).m.lookup k ∧
      r.m.get k = (s.run (entriesOf evs)).m.get k := by
  obtain ⟨r, h1, _, h3⟩ := play_spec s s (by rw [h0]; exact KV.clean_nil) (fun _ => rfl) evs
  exact ⟨r, h1, fun k => ⟨h3 k, by rw [KV.get, h3 k]; rfl⟩⟩

example : (fsm0.play [.entry log1[0], .snapRestore ss512 ss512, .entry log1[5], .snapRestore ss512 ss512, .entry log1[6]]).map
    (fun r => (r.m.get [97], r.m.lookup [100])) = some ([98], none) := by decide +kernel

theorem sorted_insert (e : Bytes × Bytes) (m : KV) (h : m.Pairwise fun a b => a.1 ≤ b.1) :
    (insertSorted e m).Pairwise fun a b => a.1 ≤ b.1 := by
  induction m with
  | nil => simp [insertSorted]
  | cons a m ih =>
    rw [List.pairwise_cons] at h
    unfold insertSorted
    split
    · next hle =>
      refine List.pairwise_cons.2 ⟨fun b hb => ?_, List.pairwise_cons.2 h⟩
      rcases List.mem_cons.1 hb with rfl | hb
      · exact hle
      · exact List.le_trans hle (h.1 b hb)
    · next hle =>
      refine List.pairwise_cons.2 ⟨fun b hb => ?_, ih h.2⟩
      rcases (mem_insertSorted e b m).1 hb with rfl | hb
      · exact (List.le_total a.1 b.1).resolve_right hle
      · exact h.1 b hb

theorem sorted_sortKV (m : KV) : (sortKV m).Pairwise fun a b => a.1 ≤ b.1 := by
  induction m with
  | nil => exact List.Pairwise.nil
  | cons e m ih => exact sorted_insert e _ ih

/-- Two ascending lists with the same elements are the same. -/
theorem sorted_ext : ∀ (l l' : KV), (l.map (·.1)).Nodup → (l'.map (·.1)).Nodup → (l.Pairwise fun a b => a.1 ≤ b.1) →
    (l'.Pairwise fun a b => a.1 ≤ b.1) → (∀ x, x ∈ l ↔ x ∈ l') → l = l'
  | [], [], _, _, _, _, _ => rfl
  | [], b :: l', _, _, _, _, h => absurd ((h b).2 (List.mem_cons_self ..)) (by simp)
  | a :: l, [], _, _, _, _, h => absurd ((h a).1 (List.mem_cons_self ..)) (by simp)
  | a :: l, b :: l', n1, n2, s1, s2, h => by
    rw [List.map_cons, List.nodup_cons] at n1 n2
    rw [List.pairwise_cons] at s1 s2
    have hab : a = b := by
      rcases List.mem_cons.1 ((h a).1 (List.mem_cons_self ..)) with h1 | h1
      · exact h1
      · rcases List.mem_cons.1 ((h b).2 (List.mem_cons_self ..)) with h2 | h2
        · exact h2.symm
        · have : a.1 = b.1 := List.le_antisymm (s1.1 b h2) (s2.1 a h1)
          exact absurd (this ▸ List.mem_map.2 ⟨a, h1, rfl⟩ : b.1 ∈ l'.map (·.1)) n2.1
    subst hab
    congr 1
    refine sorted_ext l l' n1.2 n2.2 s1.2 s2.2 fun x => ?_
    have hx := h x
    rw [List.mem_cons, List.mem_cons] at hx
    constructor
    · intro hm
      rcases hx.1 (Or.inr hm) with rfl | h'
      · exact absurd (List.mem_map.2 ⟨x, hm, rfl⟩) n1.1
      · exact h'
    · intro hm
      rcases hx.2 (Or.inr hm) with rfl | h'
      · exact absurd (List.mem_map.2 ⟨x, hm, rfl⟩) n2.1
      · exact h'

/-- C43: the snapshot is the JSON object of the keys in ascending order with their values. So whatever logs two nodes
come from, if their contents agree they write the same bytes. -/
theorem C43_bytes (s : Fsm) (h0 : s.m = []) (log : List Bytes) :
    (∃ l : KV, (l.Pairwise fun a b => a.1 ≤ b.1) ∧ (l.map (·.1)).Nodup ∧
      (∀ k v, (k, v) ∈ l ↔ (s.run log).m.lookup k = some v) ∧ snapshotKV (s.run log).m = (JVal.obj (objOfKV l)).print) ∧
    ∀ (t : Fsm) (log' : List Bytes), t.m = [] → (∀ k, (t.run log').m.lookup k = (s.run log).m.lookup k) →
      snapshotKV (t.run log').m = snapshotKV (s.run log).m := by
  have hc := s.run_clean (by rw [h0]; exact KV.clean_nil) log
  refine ⟨⟨sortKV (s.run log).m, sorted_sortKV _, nodup_sortKV _ hc.nodup, fun k v => ?_, rfl⟩, ?_⟩
  · rw [mem_sortKV, KV.lookup_eq_some_iff hc.nodup]
  · intro t log' ht h
    have hc' := t.run_clean (by rw [ht]; exact KV.clean_nil) log'
    unfold snapshotKV
    rw [sorted_ext _ _ (nodup_sortKV _ hc'.nodup) (nodup_sortKV _ hc.nodup) (sorted_sortKV _) (sorted_sortKV _)]
    rintro ⟨k, v⟩
    rw [mem_sortKV, mem_sortKV, ← KV.lookup_eq_some_iff hc.nodup, ← KV.lookup_eq_some_iff hc'.nodup, h]

/-- The order of two writes does not show. -/
example : snapshotKV (fsm0.run [log1[5], log1[0]]).m = snapshotKV (fsm0.run [log1[0], log1[5]]).m ∧
    (fsm0.run [log1[5], log1[0]]).m ≠ (fsm0.run [log1[0], log1[5]]).m := by decide +kernel

/-! ### C44: watermark events -/

/-- C44: an event is a save into both sign states and nothing else; the saves are subject to monotonicity, and an error
of one does not stop the other. -/
theorem C44_event (s : Fsm) (e : Bytes) (r : SSC) (h : Event e r) :
    s.apply e = ⟨s.m, (s.val.save r).2, (s.cos.save r).2⟩ ∧
    (s.apply e).val.hrs = (if s.val.hrs ≺ r.hrs then r.hrs else s.val.hrs) ∧
    (s.apply e).cos.hrs = (if s.cos.hrs ≺ r.hrs then r.hrs else s.cos.hrs) := by
  obtain ⟨v, h1, h2⟩ := h
  have : s.apply e = ⟨s.m, (s.val.save r).2, (s.cos.save r).2⟩ := by
    unfold Fsm.apply
    rw [show decodeCommand e = _ from h1]
    simp only [if_true]
    unfold Fsm.applySet Fsm.handleLSS
    rw [h2]
    simp
  rw [this]
  exact ⟨rfl, SignState.save_hrs _ _, SignState.save_hrs _ _⟩

/-- C44: any other entry leaves both sign states alone. -/
theorem C44_other (s : Fsm) (e : Bytes) (h : ∀ r, ¬ Event e r) : (s.apply e).val = s.val ∧ (s.apply e).cos = s.cos := by
  have he : eventOf e = none := by
    cases hc : eventOf e with
    | none => rfl
    | some r => exact absurd ((event_iff e r).2 hc) (h r)
  have := s.apply_states e
  rw [he] at this
  exact this

/-- C44: what the leader emits for a record is an event with that record; only nil sign bytes become empty ones. -/
theorem C44_emit (res : Option RaftErr) (r : SSC) (h1 : IsI64 r.height) (h2 : IsI64 r.round) (h3 : IsI8 r.step) :
    ∃ e, storeEmit .leader res keyLSS r = (res, [e]) ∧ Event e { r with signBytes := some r.signBytes.bytes } := by
  refine ⟨_, rfl, encodeSSC r, ?_, decode_encodeSSC r h1 h2 h3⟩
  have hv : ValidUtf8 (encodeSSC r) := encodeSSC_valid r
  have := (C42_commands keyLSS (encodeSSC r)).1
  rw [show sanitize (encodeSSC r) = _ from hv] at this
  exact this

example : Event (encodeCommand ⟨opSet, keyLSS, encodeSSC rec712⟩) rec712 ∧
    (fsm0.run log1).val.hrs = ⟨7, 1, 2⟩ ∧ (fsm0.run log1).cos.hrs = ⟨7, 1, 2⟩ :=
  ⟨⟨encodeSSC rec712, by rw [Sets]; decide +kernel, by decide +kernel⟩, by decide +kernel, by decide +kernel⟩

/-- C44: no log, with any number of snapshots restored along the way, puts an event into the store or a snapshot. -/
theorem C44_not_stored (s : Fsm) (h0 : s.m = []) (evs : List StoreEv) :
    ∃ r, s.play evs = some r ∧ r.m.get keyLSS = [] ∧ r.m.lookup keyLSS = none ∧
      ∃ m, restoreKV (snapshotKV r.m) = some m ∧ m.lookup keyLSS = none := by
  have hrun : ∀ (t : Fsm) (log : List Bytes), t.m.lookup keyLSS = none → (t.run log).m.lookup keyLSS = none := by
    intro t log
    induction log generalizing t with
    | nil => exact id
    | cons e log ih =>
      intro ht
      refine ih _ ?_
      rw [Fsm.lookup_apply, ht, entryLookup]
      split
      · rfl
      · split
        · rw [if_neg]
          rintro ⟨h1, h2⟩
          exact h1 h2.symm
        · split
          · split <;> rfl
          · rfl
  obtain ⟨r, h1, hc, h3⟩ := play_spec s s (by rw [h0]; exact KV.clean_nil) (fun _ => rfl) evs
  have hn : r.m.lookup keyLSS = none := by rw [h3]; exact hrun s _ (by rw [h0]; rfl)
  obtain ⟨m, hm1, _, hm3⟩ := restore_snapshot hc
  exact ⟨r, h1, by rw [KV.get, hn]; rfl, hn, m, hm1, by rw [hm3, hn]⟩

/-- C44: after a log both watermarks are at least every event's, and each is where it was or at one of the events. -/
theorem C44_watermark (s : Fsm) (log : List Bytes) :
    (∀ e ∈ log, ∀ r, Event e r → r.hrs ≼ (s.run log).val.hrs ∧ r.hrs ≼ (s.run log).cos.hrs) ∧
    ((s.run log).val.hrs = s.val.hrs ∨ ∃ e ∈ log, ∃ r, Event e r ∧ (s.run log).val.hrs = r.hrs) ∧
    ((s.run log).cos.hrs = s.cos.hrs ∨ ∃ e ∈ log, ∃ r, Event e r ∧ (s.run log).cos.hrs = r.hrs) := by
  have h := s.run_states log
  have back : ∀ r ∈ log.filterMap eventOf, ∃ e ∈ log, Event e r := by
    intro r hr
    obtain ⟨e, he, her⟩ := List.mem_filterMap.1 hr
    exact ⟨e, he, (event_iff e r).2 her⟩
  refine ⟨fun e he r hr => ?_, ?_, ?_⟩
  · have hm : r ∈ log.filterMap eventOf := List.mem_filterMap.2 ⟨e, he, (event_iff e r).1 hr⟩
    rw [h.1, h.2]
    exact ⟨SignState.saves_ge _ _ r hm, SignState.saves_ge _ _ r hm⟩
  · rw [h.1]
    rcases SignState.saves_attained s.val (log.filterMap eventOf) with h' | ⟨r, hr, h'⟩
    · exact Or.inl h'
    · obtain ⟨e, he, her⟩ := back r hr
      exact Or.inr ⟨e, he, r, her, h'⟩
  · rw [h.2]
    rcases SignState.saves_attained s.cos (log.filterMap eventOf) with h' | ⟨r, hr, h'⟩
    · exact Or.inl h'
    · obtain ⟨e, he, her⟩ := back r hr
      exact Or.inr ⟨e, he, r, her, h'⟩

/-- C44: entries whose events are at or below the watermarks, such as those replayed after a restart, change no sign
state: not the watermark, not the cache, not what is to be written. -/
theorem C44_replay_below (s : Fsm) (log : List Bytes)
    (h : ∀ e ∈ log, ∀ r, Event e r → r.hrs ≼ s.val.hrs ∧ r.hrs ≼ s.cos.hrs) :
    (s.run log).val = s.val ∧ (s.run log).cos = s.cos := by
  have hr := s.run_states log
  rw [hr.1, hr.2]
  refine ⟨SignState.saves_below _ _ fun r hm => ?_, SignState.saves_below _ _ fun r hm => ?_⟩
  all_goals
    obtain ⟨e, he, her⟩ := List.mem_filterMap.1 hm
  · exact (h e he r ((event_iff e r).2 her)).1
  · exact (h e he r ((event_iff e r).2 her)).2

/-- C44: applying again, in any order and any number of times, entries that were applied before, changes no sign
state. -/
theorem C44_replay (s : Fsm) (log again : List Bytes) (h : ∀ e ∈ again, e ∈ log) :
    (s.run (log ++ again)).val = (s.run log).val ∧ (s.run (log ++ again)).cos = (s.run log).cos := by
  rw [Fsm.run_append]
  refine C44_replay_below _ again fun e he r her => ?_
  exact (C44_watermark s log).1 e (h e he) r her

example : (∀ e ∈ (log1.drop 4).take 1, e ∈ log1) ∧ (∃ r, Event (log1[4]) r) ∧
    (fsm0.run (log1 ++ (log1.drop 4).take 1)).val.hrs = ⟨7, 1, 2⟩ ∧
    (fsm0.run (log1 ++ [encodeCommand ⟨opSet, keyLSS, encodeSSC rec400⟩])).cos.hrs = ⟨7, 1, 2⟩ :=
  ⟨by decide +kernel, ⟨rec712, encodeSSC rec712, by rw [Sets]; decide +kernel, by decide +kernel⟩, by decide +kernel,
    by decide +kernel⟩

/-- C44: an event without content (`{}` or `null`) counts as one at height, round and step 0: it never changes anything
on a node whose watermarks are not negative. -/
theorem C44_empty (s : Fsm) (v : Bytes) (hv : v = "{}".toUTF8.data.toList ∨ v = "null".toUTF8.data.toList)
    (h1 : ⟨0, 0, 0⟩ ≼ s.val.hrs) (h2 : ⟨0, 0, 0⟩ ≼ s.cos.hrs) : s.apply (encodeCommand ⟨opSet, keyLSS, v⟩) = s := by
  have he : Event (encodeCommand ⟨opSet, keyLSS, v⟩) ⟨0, 0, 0, none, none⟩ := by
    rcases hv with rfl | rfl
    · exact ⟨"{}".toUTF8.data.toList, by rw [Sets]; decide +kernel, by decide +kernel⟩
    · exact ⟨"null".toUTF8.data.toList, by rw [Sets]; decide +kernel, by decide +kernel⟩
  have hn : ∀ w : HRS, ⟨0, 0, 0⟩ ≼ w → ¬ w ≺ ⟨0, 0, 0⟩ := by
    rintro w (rfl | h) h'
    · simp [HRS.lt] at h'
    · simp only [HRS.lt] at h h'; omega
  rw [(C44_event s _ _ he).1]
  rw [SignState.save_err _ _ (hn _ h1), SignState.save_err _ _ (hn _ h2)]

example : fsm0.apply (encodeCommand ⟨opSet, keyLSS, "{}".toUTF8.data.toList⟩) = fsm0 :=
  C44_empty fsm0 _ (Or.inl rfl) (by decide +kernel) (by decide +kernel)

/-- C44: whatever an entry contains, the record it carries has a height and a round within int64 and a step within int8:
anything else is no event, and so (`C44_other`) changes no watermark. -/
theorem C44_range (e : Bytes) (r : SSC) (h : Event e r) : IsI64 r.height ∧ IsI64 r.round ∧ IsI8 r.step := by
  obtain ⟨v, _, h⟩ := h
  have step : ∀ (r r' : SSC) (k : Bytes) (v : JVal), setSSC r k v = some r' →
      (IsI64 r.height ∧ IsI64 r.round ∧ IsI8 r.step) → (IsI64 r'.height ∧ IsI64 r'.round ∧ IsI8 r'.step) := by
    intro r r' k v h h0
    have g1 := h0.1
    have g2 := h0.2.1
    have g3 := h0.2.2
    unfold IsI64 at g1 g2
    unfold IsI8 at g3
    unfold setSSC at h
    (repeat' split at h) <;> (try simp only [Option.map_eq_some_iff] at h) <;>
      (try obtain ⟨x, hx, rfl⟩ := h) <;> (try cases h)
    · have := setInt_range hx (by omega); refine ⟨?_, h0.2⟩; unfold IsI64; simp only; omega
    · have := setInt_range hx (by omega); refine ⟨h0.1, ?_, h0.2.2⟩; unfold IsI64; simp only; omega
    · have := setInt_range hx (by omega); refine ⟨h0.1, h0.2.1, ?_⟩; unfold IsI8; simp only; omega
    · exact h0
    · exact h0
    · exact h0
  have h0 : IsI64 (SSC.new 0 0 0).height ∧ IsI64 (SSC.new 0 0 0).round ∧ IsI8 (SSC.new 0 0 0).step :=
    ⟨⟨by decide, by decide⟩, ⟨by decide, by decide⟩, ⟨by decide, by decide⟩⟩
  unfold decodeSSC at h
  split at h
  · exact decodeFields_keeps (P := fun r : SSC => IsI64 r.height ∧ IsI64 r.round ∧ IsI8 r.step) step _ _ _ h h0
  · rw [Option.some.injEq] at h; subst h; exact h0
  · cases h

/-- An event for step 128 changes nothing, one for step 127 does. -/
example : (fsm0.apply (encodeCommand ⟨opSet, keyLSS, encodeSSC ⟨9, 9, 128, none, none⟩⟩)).val.hrs = fsm0.val.hrs ∧
    (fsm0.apply (encodeCommand ⟨opSet, keyLSS, encodeSSC ⟨9, 9, 127, none, none⟩⟩)).val.hrs = ⟨9, 9, 127⟩ := by
  decide +kernel

/-! ### C45: joining -/

theorem join_spec (id addr : Bytes) (cfg : List Server) (hok : configOk cfg = true) (oks : List Bool) :
    (join id addr cfg oks = (false, cfg) ∧ ∃ s ∈ cfg, s.id = id ∧ s.addr = addr) ∨
    (join id addr cfg oks = (false, cfg.filter (Unrelated id addr) ++ [⟨true, id, addr⟩]) ∧
      ∀ s ∈ cfg, ¬ (s.id = id ∧ s.addr = addr)) ∨
    ((join id addr cfg oks).1 = true ∧ (∀ s ∈ (join id addr cfg oks).2, s ∈ cfg) ∧
      ∀ s ∈ cfg, Unrelated id addr s → s ∈ (join id addr cfg oks).2) := by
  obtain ⟨_, hid, had, _⟩ := (configOk_iff cfg).1 hok
  unfold join
  by_cases h0 : oks.headD false = true
  · rw [if_pos h0]
    rcases joinLoop_spec id addr cfg hid had cfg [] oks.tail rfl (by simp) with ⟨r, h1, h2⟩ | ⟨h1, oks', h2⟩
    · rw [List.filter_nil, List.nil_append] at h1
      rw [h1]
      obtain ⟨b, c⟩ := r
      rcases h2 with ⟨rfl, rfl, h⟩ | ⟨rfl, h, h'⟩
      · exact Or.inl ⟨rfl, h⟩
      · exact Or.inr (Or.inr ⟨rfl, h, h'⟩)
    · rw [List.filter_nil, List.nil_append] at h2
      rw [h2]
      simp only
      rw [cfgAddVoter_fresh id addr (cfg.filter (Unrelated id addr)) fun t ht => by
        have := (List.mem_filter.1 ht).2
        rw [decide_eq_true_eq] at this
        exact this.1]
      cases hch : cfgChange (oks'.headD false) (cfg.filter (Unrelated id addr) ++ [⟨true, id, addr⟩]) with
      | none =>
        refine Or.inr (Or.inr ⟨rfl, fun s hs => (List.mem_filter.1 hs).1, fun s hs hu => ?_⟩)
        exact List.mem_filter.2 ⟨hs, by rw [decide_eq_true_eq]; exact hu⟩
      | some c =>
        have : c = cfg.filter (Unrelated id addr) ++ [⟨true, id, addr⟩] := by
          unfold cfgChange at hch
          split at hch
          · cases hch; rfl
          · cases hch
        subst this
        exact Or.inr (Or.inl ⟨rfl, h1⟩)
  · rw [if_neg h0]
    exact Or.inr (Or.inr ⟨rfl, fun s hs => hs, fun s hs _ => hs⟩)

/-- C45: after a successful join the configuration contains the pair, in exactly one entry, no other entry has that ID
or that address, the unrelated entries are exactly the former ones, and there is nothing else. -/
theorem C45_join (id addr : Bytes) (cfg cfg' : List Server) (hok : configOk cfg = true) (oks : List Bool)
    (h : join id addr cfg oks = (false, cfg')) :
    (∃ s ∈ cfg', s.id = id ∧ s.addr = addr) ∧
    (∀ s ∈ cfg', ∀ t ∈ cfg', ¬ Unrelated id addr s → ¬ Unrelated id addr t → s = t) ∧
    (∀ s, Unrelated id addr s → (s ∈ cfg' ↔ s ∈ cfg)) ∧
    (cfg'.map (·.id)).Nodup ∧ (cfg'.map (·.addr)).Nodup := by
  obtain ⟨_, hid, had, _⟩ := (configOk_iff cfg).1 hok
  rcases join_spec id addr cfg hok oks with ⟨h1, hex⟩ | ⟨h1, hno⟩ | ⟨h1, _⟩
  · rw [h] at h1
    cases h1
    refine ⟨hex, ?_, fun _ _ => Iff.rfl, hid, had⟩
    obtain ⟨u, hu, hui, hua⟩ := hex
    have key : ∀ s ∈ cfg, ¬ Unrelated id addr s → s = u := by
      intro s hs hr
      by_cases h' : s.id = id
      · exact nodup_map_inj hid hs hu (h'.trans hui.symm)
      · have : s.addr = addr := Classical.byContradiction fun ha => hr ⟨h', ha⟩
        exact nodup_map_inj had hs hu (this.trans hua.symm)
    intro s hs t ht hrs hrt
    rw [key s hs hrs, key t ht hrt]
  · rw [h] at h1
    cases h1
    have hf : ∀ s ∈ cfg.filter (Unrelated id addr), Unrelated id addr s := fun s hs => by
      have := (List.mem_filter.1 hs).2
      rwa [decide_eq_true_eq] at this
    have key : ∀ s ∈ cfg.filter (Unrelated id addr) ++ [⟨true, id, addr⟩], ¬ Unrelated id addr s →
        s = ⟨true, id, addr⟩ := by
      intro s hs hr
      rcases List.mem_append.1 hs with hs | hs
      · exact absurd (hf s hs) hr
      · exact List.mem_singleton.1 hs
    refine ⟨⟨⟨true, id, addr⟩, by simp, rfl, rfl⟩, fun s hs t ht hrs hrt => by rw [key s hs hrs, key t ht hrt], ?_, ?_, ?_⟩
    · intro s hu
      constructor
      · intro hs
        rcases List.mem_append.1 hs with hs | hs
        · exact (List.mem_filter.1 hs).1
        · rw [List.mem_singleton.1 hs] at hu; exact absurd rfl hu.1
      · intro hs
        exact List.mem_append.2 (Or.inl (List.mem_filter.2 ⟨hs, by rw [decide_eq_true_eq]; exact hu⟩))
    · rw [List.map_append, List.nodup_append]
      refine ⟨hid.sublist (List.Sublist.map _ List.filter_sublist), by simp, ?_⟩
      intro a ha b hb heq
      obtain ⟨s, hs, rfl⟩ := List.mem_map.1 ha
      simp at hb
      exact (hf s hs).1 (heq.trans hb)
    · rw [List.map_append, List.nodup_append]
      refine ⟨had.sublist (List.Sublist.map _ List.filter_sublist), by simp, ?_⟩
      intro a ha b hb heq
      obtain ⟨s, hs, rfl⟩ := List.mem_map.1 ha
      simp at hb
      exact (hf s hs).2 (heq.trans hb)
  · rw [h] at h1; cases h1

/-- C45: re-joining a member changes nothing, whatever happens to the raft calls. -/
theorem C45_rejoin (id addr : Bytes) (cfg : List Server) (hok : configOk cfg = true) (oks : List Bool)
    (h : ∃ s ∈ cfg, s.id = id ∧ s.addr = addr) : (join id addr cfg oks).2 = cfg ∧
      (oks.headD false = true → (join id addr cfg oks).1 = false) := by
  obtain ⟨_, hid, had, _⟩ := (configOk_iff cfg).1 hok
  unfold join
  by_cases h0 : oks.headD false = true
  · rw [if_pos h0]
    rw [joinLoop_member id addr cfg hid had h]
    exact ⟨rfl, fun _ => rfl⟩
  · rw [if_neg h0]
    exact ⟨rfl, fun h => absurd h h0⟩

/-- C45: a failed join adds nothing and removes no unrelated entry. -/
theorem C45_failed (id addr : Bytes) (cfg cfg' : List Server) (hok : configOk cfg = true) (oks : List Bool)
    (h : join id addr cfg oks = (true, cfg')) :
    (∀ s ∈ cfg', s ∈ cfg) ∧ ∀ s ∈ cfg, Unrelated id addr s → s ∈ cfg' := by
  rcases join_spec id addr cfg hok oks with ⟨h1, _⟩ | ⟨h1, _⟩ | ⟨_, h1⟩
  · rw [h] at h1; cases h1
  · rw [h] at h1; cases h1
  · rw [h] at h1; exact h1

/-- A cluster in which the ID and the address to join belong to two different members. -/
def cfg3 : List Server := [⟨true, [1], [11]⟩, ⟨true, [2], [12]⟩, ⟨true, [3], [13]⟩]

example : configOk cfg3 = true ∧
    join [2] [13] cfg3 (List.replicate 9 true) = (false, [⟨true, [1], [11]⟩, ⟨true, [2], [13]⟩]) ∧
    join [4] [14] cfg3 (List.replicate 9 true) = (false, cfg3 ++ [⟨true, [4], [14]⟩]) ∧
    join [2] [12] cfg3 (List.replicate 9 true) = (false, cfg3) ∧
    join [2] [13] cfg3 [true, true, false] = (true, [⟨true, [1], [11]⟩, ⟨true, [3], [13]⟩]) := by decide +kernel

/-! ### C46: writes -/

/-- C46: on a node that is not the leader `Set`, `Delete` and `Emit` fail and propose nothing. -/
theorem C46_not_leader (st : RaftState) (h : st ≠ .leader) (res : Option RaftErr) (k v : Bytes) (r : SSC) :
    storeSet st res k v = (some .notLeader, []) ∧ storeDelete st res k = (some .notLeader, []) ∧
    storeEmit st res k r = (some .notLeader, []) := by
  simp [storeSet, storeDelete, storeEmit, h]

/-- C46: on the leader each proposes exactly one entry, which is the requested write, and returns raft's answer. -/
theorem C46_leader (res : Option RaftErr) (k v : Bytes) (hk : ValidUtf8 k) (hv : ValidUtf8 v) :
    (∃ e, storeSet .leader res k v = (res, [e]) ∧ Sets e k v) ∧
    (∃ e, storeDelete .leader res k = (res, [e]) ∧ Deletes e k) := by
  have h1 := (C42_commands k v).1
  have h2 := (C42_commands k []).2
  rw [show sanitize k = k from hk] at h1 h2
  rw [show sanitize v = v from hv] at h1
  exact ⟨⟨_, rfl, h1⟩, ⟨_, rfl, h2⟩⟩

example : storeSet .follower none [97] [98] = (some .notLeader, []) ∧
    storeSet .leader none [97] [98] = (none, [encodeCommand ⟨opSet, [97], [98]⟩]) := ⟨rfl, rfl⟩

end Horcrux
