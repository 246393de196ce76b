import Verif.Spec.Elect
import Verif.Props.Membership
/-
Property C121: who leads after `horcrux elect`.
-/
namespace Horcrux
open Spec

variable {c : ElectNet} {url : Nat → Str}

theorem transfer_listed (hs : ElectNet.Sound c url) {j m : Nat} (hj : 1 ≤ j ∧ j ≤ c.n) (hm : 1 ≤ m ∧ m ≤ c.n) (h : j ≠ m) :
    (transferLeadership c.urlHost (c.cfgs m).peers (decInt j)).1 = .toServer (decInt j) (c.addr j) := by
  obtain ⟨s, _, _, h1, h2, h3⟩ := C69_member_partial c.urlHost c.n hs.1 url c.cfgs hs.2.1 m hm.1 hm.2 j hj.1 hj.2 h
  rw [h3, h1, h2, hs.2.2]

theorem transfer_own (hs : ElectNet.Sound c url) {j : Nat} (hj : 1 ≤ j ∧ j ≤ c.n) :
    (transferLeadership c.urlHost (c.cfgs j).peers (decInt j)).1 = .toAny := by
  rw [C69_unlisted_fails]
  intro p hp e
  obtain ⟨k, hk, rfl⟩ := List.mem_map.1 ((hs.2.1 j hj.1 hj.2).2.mem_iff.1 hp)
  obtain ⟨hk1, hk2⟩ := List.mem_filter.1 hk
  have hr := List.mem_range'_1.1 hk1
  have hn := hs.1
  have : (k : Int) = (j : Int) := decInt_inj ⟨by omega, by omega⟩ ⟨by omega, by omega⟩ e
  have hkj : k ≠ j := by simpa using hk2
  omega

theorem server_known (hs : ElectNet.Sound c url) {j : Nat} (hj : 1 ≤ j ∧ j ≤ c.n) :
    c.server (decInt j) (c.addr j) = some j := by
  have hn := hs.1
  unfold ElectNet.server
  cases hf : (List.range' 1 c.n).find? fun i : Nat => decide (decInt i = decInt j ∧ c.addr i = c.addr j) with
  | none =>
    have := List.find?_eq_none.1 hf j (List.mem_range'_1.2 ⟨hj.1, by omega⟩)
    simp at this
  | some i =>
    have hi := List.mem_range'_1.1 (List.mem_of_find?_eq_some hf)
    have he := List.find?_some hf
    simp only [decide_eq_true_eq] at he
    have : (i : Int) = (j : Int) := decInt_inj ⟨by omega, by omega⟩ ⟨by omega, by omega⟩ he.1
    have : i = j := by omega
    rw [this]

/-- An attempt that works moves the leadership to the cosigner asked for, or away from it if it leads already. -/
theorem handle_works (hs : ElectNet.Sound c url) {j l : Nat} (hj : 1 ≤ j ∧ j ≤ c.n) (hl : 1 ≤ l ∧ l ≤ c.n) {a : Attempt}
    (hw : Works c.n l a) :
    (a.node = none → c.handle (decInt j) l a = l) ∧
    (a.node ≠ none → l ≠ j → c.handle (decInt j) l a = j) ∧
    (a.node ≠ none → l = j → c.handle (decInt j) l a = a.next ∧ a.next ≠ j) ∧
    (1 ≤ c.handle (decInt j) l a ∧ c.handle (decInt j) l a ≤ c.n) := by
  unfold ElectNet.handle
  cases hn : a.node with
  | none => simp [hl]
  | some m =>
    obtain ⟨rfl, h1, h2, h3, h4⟩ := hw m hn
    simp only [if_true, ElectNet.transfer, h1]
    by_cases he : m = j
    · subst he
      rw [transfer_own hs hl]
      simp [h2, h3, h4]
    · rw [transfer_listed hs hj hl (Ne.symm he)]
      simp [server_known hs hj, he, hj]

theorem tries_made (arg : Bytes) : ∀ (k l : Nat) (as : List Attempt),
    (c.tries arg k l as).made.length ≤ k ∧ (c.tries arg k l as).made.map (·.2) <+: as ∧
    ((c.tries arg k l as).ok = true → 1 ≤ handled (c.tries arg k l as)) := by
  intro k
  induction k with
  | zero => intro l as; simp [ElectNet.tries]
  | succ k ih =>
    intro l as
    cases as with
    | nil => simp [ElectNet.tries]
    | cons a as =>
      simp only [ElectNet.tries]
      cases hr : a.reply with
      | answered =>
        refine ⟨by simp, by simp, ?_⟩
        intro h
        simp only at h
        simp [handled, h]
      | final => simp
      | retriable =>
        obtain ⟨h1, h2, h3⟩ := ih (c.handle arg l a) as
        refine ⟨by simpa using h1, by simpa using h2, ?_⟩
        intro h
        have := h3 h
        unfold handled at this ⊢
        simp only [List.filter_cons]
        split
        · simp only [List.length_cons]; omega
        · exact this

theorem tries_exact (hs : ElectNet.Sound c url) {j : Nat} (hj : 1 ≤ j ∧ j ≤ c.n) : ∀ (k l : Nat) (as : List Attempt),
    1 ≤ l ∧ l ≤ c.n → (∀ x ∈ (c.tries (decInt j) k l as).made, Works c.n x.1 x.2) →
    ((c.tries (decInt j) k l as).leader = j ↔ (handled (c.tries (decInt j) k l as) % 2 = 1 ↔ l ≠ j)) := by
  intro k
  induction k with
  | zero => intro l as _ _; simp [ElectNet.tries, handled]
  | succ k ih =>
    intro l as hl hw
    cases as with
    | nil => simp [ElectNet.tries, handled]
    | cons a as =>
      have last : Works c.n l a → ∀ b, ((⟨b, [(l, a)], c.handle (decInt j) l a⟩ : Elected).leader = j ↔
          (handled ⟨b, [(l, a)], c.handle (decInt j) l a⟩ % 2 = 1 ↔ l ≠ j)) := by
        intro hwa b
        obtain ⟨h1, h2, h3, _⟩ := handle_works hs hj hl hwa
        cases hn : a.node with
        | none => simp [handled, hn, h1 hn]
        | some m =>
          by_cases he : l = j
          · have := h3 (by rw [hn]; simp) he
            subst he
            simp [handled, hn, this]
          · have := h2 (by rw [hn]; simp) he
            simp [handled, hn, this, he]
      simp only [ElectNet.tries] at hw ⊢
      cases hr : a.reply with
      | answered =>
        rw [hr] at hw
        exact last (hw (l, a) (by simp)) _
      | final =>
        rw [hr] at hw
        exact last (hw (l, a) (by simp)) _
      | retriable =>
        rw [hr] at hw
        simp only at hw ⊢
        have hwa : Works c.n l a := hw (l, a) (by simp)
        obtain ⟨h1, h2, h3, h4⟩ := handle_works hs hj hl hwa
        have hi := ih (c.handle (decInt j) l a) as h4 (fun x hx => hw x (List.mem_cons_of_mem _ hx))
        rw [hi]
        generalize hrr : c.tries (decInt j) k (c.handle (decInt j) l a) as = r
        cases hn : a.node with
        | none => simp [handled, hn, h1 hn]
        | some m =>
          have hh : handled ⟨r.ok, (l, a) :: r.made, r.leader⟩ = handled r + 1 := by simp [handled, hn]
          rw [hh]
          by_cases he : l = j
          · have := h3 (by rw [hn]; simp) he
            rw [this.1]
            simp only [ne_eq, this.2, not_false_eq_true, iff_true, he, not_true, iff_false]
            omega
          · have := h2 (by rw [hn]; simp) he
            rw [this]
            simp only [ne_eq, he, not_false_eq_true, iff_true, not_true, iff_false]
            omega

/-- C121, the exact condition: in a cluster with agreeing configurations in which everything works but the connection of the
caller, `elect` with the ID of a cosigner leaves that cosigner in the lead exactly if the number of attempts that were handled is
odd; if it was the leader already, exactly if it is even. -/
theorem C121_exact (hs : ElectNet.Sound c url) (j l : Nat) (hj : 1 ≤ j ∧ j ≤ c.n) (hl : 1 ≤ l ∧ l ≤ c.n) (as : List Attempt)
    (hw : ∀ x ∈ (c.elect (decInt j) l as).made, Works c.n x.1 x.2) :
    ((c.elect (decInt j) l as).leader = j ↔ (handled (c.elect (decInt j) l as) % 2 = 1 ↔ l ≠ j)) :=
  tries_exact hs hj 5 l as hl hw

/-- C121, partial: if in addition only one attempt was handled, and the cosigner was not the leader before, then after success it
is. Missing: attempts that are handled again because the answer was lost (`C121_fails`), transfers that do not come about
(`C121_silent_fails`), the own ID (`C121_own_fails`). -/
theorem C121_partial (hs : ElectNet.Sound c url) (j l : Nat) (hj : 1 ≤ j ∧ j ≤ c.n) (hl : 1 ≤ l ∧ l ≤ c.n) (hne : l ≠ j)
    (as : List Attempt) (hw : ∀ x ∈ (c.elect (decInt j) l as).made, Works c.n x.1 x.2)
    (hok : (c.elect (decInt j) l as).ok = true) (hone : handled (c.elect (decInt j) l as) ≤ 1) :
    (c.elect (decInt j) l as).leader = j := by
  rw [C121_exact hs j l hj hl as hw]
  have := (tries_made (c := c) (decInt j) 5 l as).2.2 hok
  have h1 : handled (c.elect (decInt j) l as) = 1 := by
    unfold ElectNet.elect at *
    omega
  simp [h1, hne]

/-- C121: whatever happens, `elect` makes at most five attempts, success means that at least one was handled, and without any
attempt handled the leadership does not move. -/
theorem C121_attempts (arg : Bytes) (l : Nat) (as : List Attempt) :
    (c.elect arg l as).made.length ≤ 5 ∧ ((c.elect arg l as).ok = true → 1 ≤ handled (c.elect arg l as)) ∧
    (handled (c.elect arg l as) = 0 → (c.elect arg l as).leader = l) := by
  refine ⟨(tries_made arg 5 l as).1, (tries_made arg 5 l as).2.2, ?_⟩
  unfold ElectNet.elect
  generalize 5 = k
  induction k generalizing l as with
  | zero => intro _; rfl
  | succ k ih =>
    cases as with
    | nil => intro _; rfl
    | cons a as =>
      simp only [ElectNet.tries]
      have hk : a.node = none → c.handle arg l a = l := by intro h; simp [ElectNet.handle, h]
      cases hr : a.reply with
      | answered =>
        intro h
        apply hk
        cases hn : a.node with
        | none => rfl
        | some m => simp [handled, hn] at h
      | final =>
        intro h
        apply hk
        cases hn : a.node with
        | none => rfl
        | some m => simp [handled, hn] at h
      | retriable =>
        intro h
        cases hn : a.node with
        | some m => simp [handled, hn] at h
        | none =>
          simp only
          rw [hk hn]
          apply ih
          have h' := h
          simp only [handled, hn, List.filter_cons] at h'
          rw [hk hn] at h'
          exact h'

theorem tries_settled (arg : Bytes) : ∀ (k l : Nat) (as : List Attempt),
    (c.tries arg k l as).made.map (·.2) = untilSettled (as.take k) ∧
    ((c.tries arg k l as).ok = true ↔
      ∃ a, ((c.tries arg k l as).made.map (·.2)).getLast? = some a ∧ a.reply = .answered ∧ a.node ≠ none) := by
  intro k
  induction k with
  | zero => intro l as; simp [ElectNet.tries, untilSettled]
  | succ k ih =>
    intro l as
    cases as with
    | nil => simp [ElectNet.tries, untilSettled]
    | cons a as =>
      cases hr : a.reply with
      | answered => simp [ElectNet.tries, hr, untilSettled, Option.isSome_iff_ne_none]
      | final => simp [ElectNet.tries, hr, untilSettled]
      | retriable =>
        obtain ⟨h1, h2⟩ := ih (c.handle arg l a) as
        refine ⟨by simp only [ElectNet.tries, hr, List.map_cons, h1, List.take_succ_cons, untilSettled, if_true], ?_⟩
        simp only [ElectNet.tries, hr, List.map_cons, h2, List.getLast?_cons]
        cases hl : ((c.tries arg k (c.handle arg l a) as).made.map (·.2)).getLast? with
        | none => simp [hr]
        | some b => simp

/-- C121: of the attempts, exactly the first five are made, up to the first that is answered or ends in an error that is not tried
again; success is reported exactly if the last attempt made was handled and answered. -/
theorem C121_made (arg : Bytes) (l : Nat) (as : List Attempt) :
    (c.elect arg l as).made.map (·.2) = untilSettled (as.take 5) ∧
    ((c.elect arg l as).ok = true ↔
      ∃ a, (untilSettled (as.take 5)).getLast? = some a ∧ a.reply = .answered ∧ a.node ≠ none) := by
  have h := tries_settled (c := c) arg 5 l as
  exact ⟨h.1, by rw [← h.1]; exact h.2⟩

example : untilSettled ((List.replicate 6 ⟨some 1, true, 2, .retriable⟩).take 5) = List.replicate 5 ⟨some 1, true, 2, .retriable⟩ ∧
    untilSettled [⟨none, true, 2, .retriable⟩, ⟨some 1, true, 2, .answered⟩, ⟨some 1, true, 2, .answered⟩] =
      [⟨none, true, 2, .retriable⟩, ⟨some 1, true, 2, .answered⟩] := by decide

/-- C121 is false: in every cluster with agreeing configurations, although everything works but one answer that is lost on its way
to the caller, `elect` with the ID of a cosigner that does not lead reports success and leaves somebody else in the lead: the
second attempt goes to the cosigner that leads now, which does not list itself and hands over to any other. -/
theorem C121_fails (hs : ElectNet.Sound c url) (j l k : Nat) (hj : 1 ≤ j ∧ j ≤ c.n) (hl : 1 ≤ l ∧ l ≤ c.n) (hne : l ≠ j)
    (hk : 1 ≤ k ∧ k ≤ c.n) (hkj : k ≠ j) :
    ∃ as, (∀ x ∈ (c.elect (decInt j) l as).made, Works c.n x.1 x.2) ∧ as.length = 2 ∧
      (c.elect (decInt j) l as).ok = true ∧ (c.elect (decInt j) l as).leader = k := by
  have e1 : c.handle (decInt j) l ⟨some l, true, j, .retriable⟩ = j :=
    (handle_works hs hj hl (fun m hm => by cases hm; exact ⟨rfl, rfl, hj.1, hj.2, hne.symm⟩)).2.1 (by simp) hne
  have e2 : c.handle (decInt j) j ⟨some j, true, k, .answered⟩ = k :=
    ((handle_works hs hj hj (fun m hm => by cases hm; exact ⟨rfl, rfl, hk.1, hk.2, hkj⟩)).2.2.1 (by simp) rfl).1
  refine ⟨[⟨some l, true, j, .retriable⟩, ⟨some j, true, k, .answered⟩], ?_, rfl, ?_, ?_⟩
  · simp only [ElectNet.elect, ElectNet.tries, e1, List.mem_cons, List.not_mem_nil, or_false]
    rintro x (rfl | rfl) m hm
    · cases hm; exact ⟨rfl, rfl, hj.1, hj.2, hne.symm⟩
    · cases hm; exact ⟨rfl, rfl, hk.1, hk.2, hkj⟩
  · simp [ElectNet.elect, ElectNet.tries]
  · simp [ElectNet.elect, ElectNet.tries, e1, e2]

/-- C121 is false also if no answer is lost: what becomes of the transfer is not looked at, and neither is whether the node leads
that handles the call; success is reported, and the leader stays. -/
theorem C121_silent_fails (arg : Bytes) (l : Nat) (a : Attempt) (ha : a.reply = .answered) (m : Nat) (hn : a.node = some m)
    (h : a.moves = false ∨ m ≠ l) : (c.elect arg l [a]).ok = true ∧ (c.elect arg l [a]).leader = l := by
  simp only [ElectNet.elect, ElectNet.tries, ha, hn, Option.isSome_some, true_and, ElectNet.handle]
  rcases h with h | h
  · simp [ElectNet.transfer, h]
  · simp [h]

/-- C121 is false for the ID of the leader: everything works, success is reported, and another cosigner leads. -/
theorem C121_own_fails (hs : ElectNet.Sound c url) (j : Nat) (hj : 1 ≤ j ∧ j ≤ c.n) (a : Attempt) (ha : a.reply = .answered)
    (hn : a.node = some j) (hw : Works c.n j a) :
    (c.elect (decInt j) j [a]).ok = true ∧ (c.elect (decInt j) j [a]).leader ≠ j := by
  obtain ⟨h1, h2⟩ := (handle_works hs hj hj hw).2.2.1 (by rw [hn]; simp) rfl
  simp only [ElectNet.elect, ElectNet.tries, ha, h1]
  exact ⟨by rw [hn]; rfl, h2⟩

/-- C121 is false of errors too: in every cluster with agreeing configurations `elect` may end with an error after the leadership has
moved to the cosigner asked for. -/
theorem C121_error_fails (hs : ElectNet.Sound c url) (j l : Nat) (hj : 1 ≤ j ∧ j ≤ c.n) (hl : 1 ≤ l ∧ l ≤ c.n) (hne : l ≠ j) :
    ∃ a, Works c.n l a ∧ (c.elect (decInt j) l [a]).ok = false ∧ (c.elect (decInt j) l [a]).leader = j := by
  have hw : Works c.n l ⟨some l, true, j, .final⟩ := fun m hm => by cases hm; exact ⟨rfl, rfl, hj.1, hj.2, hne.symm⟩
  refine ⟨_, hw, rfl, ?_⟩
  have := (handle_works hs hj hl hw).2.1 (by simp) hne
  simpa [ElectNet.elect, ElectNet.tries] using this

/-- C121 without an ID: each attempt that works and is handled hands over to another server. So it is false that success means a new
leader: with one answer lost, the former leader may lead again. -/
theorem C121_any_fails (l k : Nat) (hl : 1 ≤ l ∧ l ≤ c.n) (hk : 1 ≤ k ∧ k ≤ c.n) (hne : l ≠ k) :
    ∃ as, (∀ x ∈ (c.elect [] l as).made, Works c.n x.1 x.2) ∧ (c.elect [] l as).ok = true ∧ (c.elect [] l as).leader = l := by
  have e1 : c.handle [] l ⟨some l, true, k, .retriable⟩ = k := by
    simp [ElectNet.handle, ElectNet.transfer, C69_any_partial, hk]
  have e2 : c.handle [] k ⟨some k, true, l, .answered⟩ = l := by
    simp [ElectNet.handle, ElectNet.transfer, C69_any_partial, hl]
  refine ⟨[⟨some l, true, k, .retriable⟩, ⟨some k, true, l, .answered⟩], ?_, ?_, ?_⟩
  · simp only [ElectNet.elect, ElectNet.tries, e1, List.mem_cons, List.not_mem_nil, or_false]
    rintro x (rfl | rfl) m hm
    · cases hm; exact ⟨rfl, rfl, hk.1, hk.2, hne.symm⟩
    · cases hm; exact ⟨rfl, rfl, hl.1, hl.2, hne⟩
  · simp [ElectNet.elect, ElectNet.tries]
  · simp [ElectNet.elect, ElectNet.tries, e1, e2]

/-- C121 without an ID, partial: if everything works and one attempt is handled, success means that another cosigner leads. -/
theorem C121_any_partial (l : Nat) (as : List Attempt) (hw : ∀ x ∈ (c.elect [] l as).made, Works c.n x.1 x.2)
    (hok : (c.elect [] l as).ok = true) (hone : handled (c.elect [] l as) ≤ 1) : (c.elect [] l as).leader ≠ l := by
  unfold ElectNet.elect at *
  generalize hk : 5 = k at *
  clear hk
  induction k generalizing as with
  | zero => simp [ElectNet.tries] at hok
  | succ k ih =>
    cases as with
    | nil => simp [ElectNet.tries] at hok
    | cons a as =>
      simp only [ElectNet.tries] at hw hok hone ⊢
      cases hr : a.reply with
      | final => rw [hr] at hok; cases hok
      | answered =>
        rw [hr] at hok hw
        simp only at hok hw ⊢
        cases hn : a.node with
        | none => rw [hn] at hok; cases hok
        | some m =>
          obtain ⟨rfl, h1, h2, h3, h4⟩ := hw (l, a) (by simp) m hn
          simp only at h1 h2 h3 h4
          simp [ElectNet.handle, hn, ElectNet.transfer, h1, C69_any_partial, h2, h3, h4]
      | retriable =>
        rw [hr] at hok hw hone
        simp only at hok hw hone ⊢
        cases hn : a.node with
        | none =>
          have e : c.handle [] l a = l := by simp [ElectNet.handle, hn]
          rw [e] at hok hw hone ⊢
          refine ih as (fun x hx => hw x (List.mem_cons_of_mem _ hx)) hok ?_
          simpa [handled, hn] using hone
        | some m =>
          have := (tries_made (c := c) [] k (c.handle [] l a) as).2.2 hok
          simp only [handled, List.filter_cons, hn, Option.isSome_some, if_true, List.length_cons] at hone
          unfold handled at this
          omega

theorem tries_invariant (arg : Bytes) (P : Nat → Prop) (h : ∀ l a, P l → P (c.handle arg l a)) : ∀ (k l : Nat) (as : List Attempt),
    P l → P (c.tries arg k l as).leader := by
  intro k
  induction k with
  | zero => intro l as hl; simpa [ElectNet.tries] using hl
  | succ k ih =>
    intro l as hl
    cases as with
    | nil => simpa [ElectNet.tries] using hl
    | cons a as =>
      have := h l a hl
      cases hr : a.reply with
      | answered => simpa [ElectNet.tries, hr] using this
      | final => simpa [ElectNet.tries, hr] using this
      | retriable => simpa [ElectNet.tries, hr] using ih _ as this

/-- C121: whatever is asked for and becomes of the attempts, one of the cosigners leads then. -/
theorem C121_member (arg : Bytes) (l : Nat) (hl : 1 ≤ l ∧ l ≤ c.n) (as : List Attempt) :
    1 ≤ (c.elect arg l as).leader ∧ (c.elect arg l as).leader ≤ c.n := by
  refine tries_invariant arg (fun l => 1 ≤ l ∧ l ≤ c.n) ?_ 5 l as hl
  intro l a hl
  unfold ElectNet.handle
  split
  · exact hl
  · split
    · unfold ElectNet.transfer
      split
      · split
        · rename_i id ad _
          cases hs : c.server id ad with
          | none => exact hl
          | some i =>
            have := List.mem_range'_1.1 (List.mem_of_find?_eq_some hs)
            simp only [Option.getD_some]
            omega
        · split
          · assumption
          · exact hl
      · exact hl
    · exact hl

/-- C121: if the leader lists the cosigner asked for with an address that is not the one raft knows it by, nothing happens, and
success may be reported. -/
theorem C121_unknown_fails (arg id ad : Bytes) (l : Nat) (ht : (transferLeadership c.urlHost (c.cfgs l).peers arg).1 = .toServer id ad)
    (hu : ∀ i : Nat, 1 ≤ i → i ≤ c.n → ¬ (decInt i = id ∧ c.addr i = ad)) :
    (∀ as, (c.elect arg l as).leader = l) ∧ ∃ a, a.node = some l ∧ a.moves = true ∧
      (c.elect arg l [a]).ok = true := by
  refine ⟨fun as => tries_invariant arg (fun m => m = l) ?_ 5 l as rfl, ⟨some l, true, 0, .answered⟩, rfl, rfl, rfl⟩
  · rintro m a rfl
    unfold ElectNet.handle
    split
    · rfl
    · split
      · rename_i e
        subst e
        rw [ht]
        unfold ElectNet.transfer
        have : c.server id ad = none := by
          unfold ElectNet.server
          rw [List.find?_eq_none]
          intro i hi
          have := List.mem_range'_1.1 hi
          simpa using hu i (by omega) (by omega)
        simp [this]
      · rfl

/-- Three cosigners of which the first leads; `elect 3`, with no trouble, with a lost answer, with a lost request and an answer. -/
def electNet : ElectNet := ⟨3, some, demoCluster, demoUrl⟩

theorem electNet_sound : ElectNet.Sound electNet demoUrl := ⟨by decide, fun _ _ _ => ⟨rfl, .refl _⟩, fun _ => rfl⟩

example : (electNet.elect (decInt 3) 1 [⟨some 1, true, 2, .answered⟩]).leader = 3 ∧
    (electNet.elect (decInt 3) 1 [⟨some 1, true, 2, .retriable⟩, ⟨some 3, true, 2, .answered⟩]).leader = 2 ∧
    (electNet.elect (decInt 3) 1 [⟨some 1, true, 2, .retriable⟩, ⟨some 3, true, 2, .answered⟩]).ok = true ∧
    (electNet.elect (decInt 3) 1 [⟨none, true, 2, .retriable⟩, ⟨some 1, true, 2, .answered⟩]).leader = 3 ∧
    handled (electNet.elect (decInt 3) 1 [⟨none, true, 2, .retriable⟩, ⟨some 1, true, 2, .answered⟩]) = 1 ∧
    (electNet.elect (decInt 3) 1 (List.replicate 6 ⟨none, true, 2, .retriable⟩)).made.length = 5 := by decide +kernel

example : ∀ x ∈ (electNet.elect (decInt 3) 1 [⟨some 1, true, 2, .retriable⟩, ⟨some 3, true, 2, .answered⟩]).made,
    Works electNet.n x.1 x.2 := by
  have : (electNet.elect (decInt 3) 1 [⟨some 1, true, 2, .retriable⟩, ⟨some 3, true, 2, .answered⟩]).made =
    [(1, ⟨some 1, true, 2, .retriable⟩), (3, ⟨some 3, true, 2, .answered⟩)] := by decide +kernel
  rw [this]
  simp only [List.mem_cons, List.not_mem_nil, or_false]
  rintro x (rfl | rfl) m hm <;> cases hm <;> exact ⟨rfl, rfl, by decide, by decide, by decide⟩

/-- Cosigner 1 lists cosigner 3 with an address that raft does not know it by. -/
def movedNet : ElectNet := { electNet with addr := fun i => if i = 3 then [1] else demoUrl i }

example : (∀ as, (movedNet.elect (decInt 3) 1 as).leader = 1) :=
  (C121_unknown_fails (c := movedNet) (decInt 3) (decInt 3) (demoUrl 3) 1 (by decide +kernel) (by
    intro i h1 h2 ⟨h3, h4⟩
    have hn : movedNet.n = 3 := rfl
    have : i = 1 ∨ i = 2 ∨ i = 3 := by omega
    rcases this with rfl | rfl | rfl
    · revert h3; decide +kernel
    · revert h3; decide +kernel
    · revert h4; decide +kernel)).1

end Horcrux
