import Verif.Props.Admin
/-
Property C112: what each call of the administration service does to the members.
-/
namespace Horcrux
open Spec

theorem map_id_of {f : Server → Server} {cfg : List Server} (h : ∀ s ∈ cfg, f s = s) : cfg.map f = cfg := by
  rw [List.map_congr_left (g := id) h, List.map_id]

theorem cfgAddVoter_asked (id addr : Bytes) : ∀ cfg : List Server, (cfg.map Server.id).Nodup →
    cfgAddVoter id addr cfg = membersAsked .addVoter id addr cfg
  | [], _ => rfl
  | s :: cfg, h => by
    obtain ⟨h1, h2⟩ := List.nodup_cons.1 h
    unfold cfgAddVoter
    by_cases hs : s.id = id
    · have : ∀ t ∈ cfg, t.id ≠ id := fun t ht e => h1 (by rw [hs, ← e]; exact List.mem_map_of_mem ht)
      simp only [hs, membersAsked, List.map_cons, List.mem_cons, true_or, if_true]
      rw [map_id_of fun t ht => if_neg (this t ht)]
    · rw [if_neg hs, cfgAddVoter_asked id addr cfg h2]
      have hs' : ¬ id = s.id := fun e => hs e.symm
      simp only [membersAsked, List.map_cons, List.mem_cons, hs', false_or, hs, if_false]
      by_cases hm : id ∈ cfg.map Server.id
      · rw [if_pos hm, if_pos hm]
      · rw [if_neg hm, if_neg hm]; rfl

theorem cfgAddNonvoter_asked (id addr : Bytes) : ∀ cfg : List Server, (cfg.map Server.id).Nodup →
    cfgAddNonvoter id addr cfg = membersAsked .addNonvoter id addr cfg
  | [], _ => rfl
  | s :: cfg, h => by
    obtain ⟨h1, h2⟩ := List.nodup_cons.1 h
    unfold cfgAddNonvoter
    by_cases hs : s.id = id
    · have : ∀ t ∈ cfg, t.id ≠ id := fun t ht e => h1 (by rw [hs, ← e]; exact List.mem_map_of_mem ht)
      simp only [hs, membersAsked, List.map_cons, List.mem_cons, true_or, if_true]
      rw [map_id_of fun t ht => if_neg (this t ht)]
    · rw [if_neg hs, cfgAddNonvoter_asked id addr cfg h2]
      have hs' : ¬ id = s.id := fun e => hs e.symm
      simp only [membersAsked, List.map_cons, List.mem_cons, hs', false_or, hs, if_false]
      by_cases hm : id ∈ cfg.map Server.id
      · rw [if_pos hm, if_pos hm]
      · rw [if_neg hm, if_neg hm]; rfl

theorem cfgDemote_asked (id addr : Bytes) : ∀ cfg : List Server, (cfg.map Server.id).Nodup →
    cfgDemote id cfg = membersAsked .demoteVoter id addr cfg
  | [], _ => rfl
  | s :: cfg, h => by
    obtain ⟨h1, h2⟩ := List.nodup_cons.1 h
    unfold cfgDemote
    by_cases hs : s.id = id
    · have : ∀ t ∈ cfg, t.id ≠ id := fun t ht e => h1 (by rw [hs, ← e]; exact List.mem_map_of_mem ht)
      simp only [hs, membersAsked, List.map_cons, if_true]
      rw [map_id_of fun t ht => if_neg (this t ht)]
    · rw [if_neg hs, cfgDemote_asked id addr cfg h2]
      simp only [membersAsked, List.map_cons, hs, if_false]

theorem cfgRemove_asked (id addr : Bytes) : ∀ cfg : List Server, (cfg.map Server.id).Nodup →
    cfgRemove id cfg = membersAsked .removeServer id addr cfg
  | [], _ => rfl
  | s :: cfg, h => by
    obtain ⟨h1, h2⟩ := List.nodup_cons.1 h
    unfold cfgRemove
    by_cases hs : s.id = id
    · have : ∀ t ∈ cfg, t.id ≠ id := fun t ht e => h1 (by rw [hs, ← e]; exact List.mem_map_of_mem ht)
      simp only [hs, membersAsked, if_true]
      rw [List.filter_cons_of_neg (by simp [hs]), List.filter_eq_self.2 fun t ht => by simpa using this t ht]
    · rw [if_neg hs, cfgRemove_asked id addr cfg h2]
      simp only [membersAsked]
      rw [List.filter_cons_of_pos (by simpa using hs)]

theorem gDecode_adminAdd {m : AdminMethod} (hm : m = .addVoter ∨ m = .addNonvoter) {id address : Bytes} (h1 : Sendable id)
    (h2 : Sendable address) {prev : Nat} (h3 : prev < 2 ^ 64) :
    gDecode addVoterHandler ⟨[], [], 0⟩ (adminBytes m id address prev) = some ⟨id, address, prev⟩ := by
  have e : adminBytes m id address prev =
      encBytesField 0x0a id ++ (encBytesField 0x12 address ++ (encVarintField 0x18 prev ++ [])) := by
    rcases hm with rfl | rfl <;> rfl
  have hp : toU64 (prev : Int) = prev := by unfold toU64; omega
  rw [e, gdec_bytes addVoterHandler _ ⟨id, [], 0⟩ 0x0a id _ 1 rfl (by decide) (by decide) rfl rfl h1.2
    (by intro h0; rw [h0]) (by simp only [addVoterHandler, h1.1, if_true])]
  rw [gdec_bytes addVoterHandler _ ⟨id, address, 0⟩ 0x12 address _ 2 rfl (by decide) (by decide) rfl rfl h2.2
    (by intro h0; rw [h0]) (by simp only [addVoterHandler, h2.1, if_true])]
  rw [gdec_varint addVoterHandler _ ⟨id, address, prev⟩ 0x18 prev _ 3 rfl (by decide) (by decide) rfl rfl
    (by intro h0; have : prev = 0 := by omega
        rw [this]) (by simp only [addVoterHandler, hp])]
  rfl

theorem gDecode_adminRemove {m : AdminMethod} (hm : m = .demoteVoter ∨ m = .removeServer) {id : Bytes} (address : Bytes)
    (h1 : Sendable id) {prev : Nat} (h3 : prev < 2 ^ 64) :
    gDecode removeServerHandler ⟨[], 0⟩ (adminBytes m id address prev) = some ⟨id, prev⟩ := by
  have e : adminBytes m id address prev = encBytesField 0x0a id ++ (encVarintField 0x10 prev ++ []) := by
    rcases hm with rfl | rfl <;> rfl
  have hp : toU64 (prev : Int) = prev := by unfold toU64; omega
  rw [e, gdec_bytes removeServerHandler _ ⟨id, 0⟩ 0x0a id _ 1 rfl (by decide) (by decide) rfl rfl h1.2
    (by intro h0; rw [h0]) (by simp only [removeServerHandler, h1.1, if_true])]
  rw [gdec_varint removeServerHandler _ ⟨id, prev⟩ 0x10 prev _ 2 rfl (by decide) (by decide) rfl rfl
    (by intro h0; have : prev = 0 := by omega
        rw [this]) (by simp only [removeServerHandler, hp])]
  rfl

/-- C112, for each call: whoever calls a method with whatever arguments, the members become what was asked for just if the node
that is called leads, the index that the caller expects is the current one or 0, and raft accepts the new members: they have
IDs and addresses, all different, and one of them is a voter. Otherwise nothing changes. -/
theorem C112_call (cfg : List Server) (hok : configOk cfg = true) (st : RaftState) (index : Nat) (m : AdminMethod)
    (id address : Bytes) (h1 : Sendable id) (h2 : Sendable address) (prev : Nat) (h3 : prev < 2 ^ 64) :
    adminMembers st index m (adminBytes m id address prev) cfg =
      if st = .leader ∧ (prev = 0 ∨ prev = index) ∧ (∀ s ∈ membersAsked m id address cfg, s.id ≠ [] ∧ s.addr ≠ []) ∧
        ((membersAsked m id address cfg).map Server.id).Nodup ∧ ((membersAsked m id address cfg).map Server.addr).Nodup ∧
        ∃ s ∈ membersAsked m id address cfg, s.voter = true
      then membersAsked m id address cfg else cfg := by
  have hnd := ((configOk_iff _).1 hok).2.1
  have fin : ∀ new : List Server, (cfgChange (decide (st = .leader) && (decide (prev = 0) || decide (prev = index))) new).getD cfg =
      if st = .leader ∧ (prev = 0 ∨ prev = index) ∧ (∀ s ∈ new, s.id ≠ [] ∧ s.addr ≠ []) ∧ (new.map Server.id).Nodup ∧
        (new.map Server.addr).Nodup ∧ ∃ s ∈ new, s.voter = true then new else cfg := by
    intro new
    have e := configOk_iff new
    unfold cfgChange
    by_cases hc : configOk new = true
    · have e' := e.1 hc
      by_cases hl : st = .leader ∧ (prev = 0 ∨ prev = index)
      · rw [if_pos (by simp [hl.1, hl.2, hc]), if_pos ⟨hl.1, hl.2, e'⟩]; rfl
      · rw [if_neg (by simp only [Bool.and_eq_true, decide_eq_true_eq, Bool.or_eq_true, hc, and_true]; exact hl),
          if_neg (fun h => hl ⟨h.1, h.2.1⟩)]; rfl
    · rw [if_neg (by simp [hc]), if_neg (fun h => hc (e.2 h.2.2))]; rfl
  unfold adminMembers
  cases m with
  | addVoter =>
    simp only [gDecode_adminAdd (.inl rfl) h1 h2 h3, cfgAddVoter_asked id address cfg hnd]
    exact fin _
  | addNonvoter =>
    simp only [gDecode_adminAdd (.inr rfl) h1 h2 h3, cfgAddNonvoter_asked id address cfg hnd]
    exact fin _
  | demoteVoter =>
    simp only [gDecode_adminRemove (.inl rfl) address h1 h3, cfgDemote_asked id address cfg hnd]
    exact fin _
  | removeServer =>
    simp only [gDecode_adminRemove (.inr rfl) address h1 h3, cfgRemove_asked id address cfg hnd]
    exact fin _

/-- In the cluster of three, at configuration index 7: a voter is demoted; with an old index it is not; a member moves to a new
address, but not to that of another; a node joins. -/
example : configOk cfg3 = true ∧
    adminRun cfg3 [(.leader, 7, .demoteVoter, adminBytes .demoteVoter [2] [] 7)] =
      [⟨true, [1], [11]⟩, ⟨false, [2], [12]⟩, ⟨true, [3], [13]⟩] ∧
    adminRun cfg3 [(.leader, 7, .demoteVoter, adminBytes .demoteVoter [2] [] 6)] = cfg3 ∧
    adminRun cfg3 [(.leader, 7, .addVoter, adminBytes .addVoter [2] [22] 0)] =
      [⟨true, [1], [11]⟩, ⟨true, [2], [22]⟩, ⟨true, [3], [13]⟩] ∧
    adminRun cfg3 [(.leader, 7, .addVoter, adminBytes .addVoter [2] [13] 0)] = cfg3 ∧
    adminRun cfg3 [(.leader, 7, .addNonvoter, adminBytes .addNonvoter [4] [14] 7)] = cfg3 ++ [⟨false, [4], [14]⟩] := by
  decide +kernel

end Horcrux
