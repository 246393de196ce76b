import Verif.Lemmas.Wire
namespace Horcrux

theorem encVarintField_zero (tag : UInt8) : encVarintField tag 0 = [] := by simp [encVarintField]
theorem encFixedField_zero (tag : UInt8) : encFixedField tag 0 = [] := by simp [encFixedField]
theorem encBytesField_nil (tag : UInt8) : encBytesField tag [] = [] := by simp [encBytesField]
theorem encBytesField_ne {tag : UInt8} {bs : Bytes} (h : bs ≠ []) : encBytesField tag bs = encLen tag bs := by
  simp [encBytesField, h]

theorem encLen_length (tag : UInt8) (bs : Bytes) : bs.length < (encLen tag bs).length := by
  simp [encLen]; omega
theorem encBytesField_length (tag : UInt8) (bs : Bytes) : bs.length ≤ (encBytesField tag bs).length := by
  unfold encBytesField; split
  · simp_all
  · have := encLen_length tag bs; omega

theorem GoTime.valid_iff (t : GoTime) : t.valid = true ↔
    -62135596800 ≤ t.sec ∧ t.sec < 253402300800 ∧ 0 ≤ t.nsec ∧ t.nsec < 1000000000 := by
  simp [GoTime.valid, timestampValid]; omega

theorem decodeTime_encTime (t : GoTime) (h : t.valid = true) : decodeTime (encTime t) = some t := by
  have hv := (GoTime.valid_iff t).1 h
  have hs : IsI64 t.sec := by unfold IsI64; omega
  have hn : IsI32 t.nsec := by unfold IsI32; omega
  have h2 : ∀ m : PTimestamp, m.nanos = 0 →
      decodeMsg timestampHandler m (encVarintField 0x10 t.nsec) = some { m with nanos := t.nsec } := by
    intro m hm
    by_cases h0 : t.nsec = 0
    · rw [h0, encVarintField_zero, decodeMsg_nil]; cases m; simp_all
    · rw [← List.append_nil (encVarintField _ _),
        decodeMsg_varintField _ _ _ _ _ (by decide) (by decide) rfl (by decide) h0]
      simp only [timestampHandler]
      rw [show (16 : UInt8).toNat / 8 = 2 by rfl]
      simp only [Option.bind_some, decodeMsg_nil, i32_toU64 hn]
  have h1 : decodeMsg timestampHandler ⟨0, 0⟩ (encTime t) = some ⟨t.sec, t.nsec⟩ := by
    unfold encTime
    by_cases h0 : t.sec = 0
    · rw [h0, encVarintField_zero, List.nil_append, h2 _ rfl]
    · rw [decodeMsg_varintField _ _ _ _ _ (by decide) (by decide) rfl (by decide) h0]
      simp only [timestampHandler]
      rw [show (8 : UInt8).toNat / 8 = 1 by rfl]
      simp only [Option.bind_some, i64_toU64 hs]
      exact h2 _ rfl
  unfold decodeTime
  rw [h1]
  have : timestampValid ⟨t.sec, t.nsec⟩ = true := h
  simp [this]

theorem decodePSH_enc (p : CPSH) (h : p.total < 2 ^ 32) (hl : p.hash.length < 2 ^ 64) :
    decodeMsg pshHandler ⟨0, []⟩ (encPSH p) = some p := by
  have h2 : ∀ m : CPSH, m.hash = [] →
      decodeMsg pshHandler m (encBytesField 0x12 p.hash) = some { m with hash := p.hash } := by
    intro m hm
    by_cases h0 : p.hash = []
    · rw [h0, encBytesField_nil, decodeMsg_nil]; cases m; simp_all
    · rw [encBytesField_ne h0, ← List.append_nil (encLen _ _),
        decodeMsg_lenField _ _ _ _ _ (by decide) (by decide) rfl (by decide) hl]
      simp only [pshHandler]
      rw [show (18 : UInt8).toNat / 8 = 2 by rfl]
      simp only [Option.bind_some, decodeMsg_nil]
  unfold encPSH
  by_cases h0 : (p.total : Int) = 0
  · rw [h0, encVarintField_zero, List.nil_append, h2 _ rfl]
    cases p; simp at *; omega
  · rw [decodeMsg_varintField _ _ _ _ _ (by decide) (by decide) rfl (by decide) h0]
    simp only [pshHandler]
    rw [show (8 : UInt8).toNat / 8 = 1 by rfl]
    simp only [Option.bind_some]
    have : toU64 (p.total : Int) % 2 ^ 32 = p.total := by unfold toU64; omega
    rw [this]
    exact h2 _ rfl

/-- A block ID whose fields have Go's types. -/
def CBlockID.WF (b : CBlockID) : Prop := b.psh.total < 2 ^ 32

theorem decodeBlockID_enc (b : CBlockID) (h : b.WF) (hl : (encBlockID b).length < 2 ^ 64) :
    decodeMsg blockIDHandler ⟨[], ⟨0, []⟩⟩ (encBlockID b) = some b := by
  have l1 := encBytesField_length 0x0a b.hash
  have l2 := encLen_length 0x12 (encPSH b.psh)
  have l3 := encBytesField_length 0x12 b.psh.hash
  have l4 : (encBytesField 0x12 b.psh.hash).length ≤ (encPSH b.psh).length := by simp [encPSH]
  have l5 : (encBlockID b).length = (encBytesField 0x0a b.hash).length + (encLen 0x12 (encPSH b.psh)).length := by
    simp [encBlockID]
  have h2 : ∀ m : CBlockID, m.psh = ⟨0, []⟩ →
      decodeMsg blockIDHandler m (encLen 0x12 (encPSH b.psh)) = some { m with psh := b.psh } := by
    intro m hm
    rw [← List.append_nil (encLen _ _),
        decodeMsg_lenField _ _ _ _ _ (by decide) (by decide) rfl (by decide) (by omega)]
    simp only [blockIDHandler]
    rw [show (18 : UInt8).toNat / 8 = 2 by rfl]
    simp only [hm, decodePSH_enc b.psh h (by omega), Option.map_some, Option.bind_some, decodeMsg_nil]
  unfold encBlockID
  by_cases h0 : b.hash = []
  · rw [h0, encBytesField_nil, List.nil_append, h2 _ rfl]
    cases b; simp at *; exact h0
  · rw [encBytesField_ne h0, decodeMsg_lenField _ _ _ _ _ (by decide) (by decide) rfl (by decide) (by omega)]
    simp only [blockIDHandler]
    rw [show (10 : UInt8).toNat / 8 = 1 by rfl]
    simp only [Option.bind_some]
    exact h2 _ rfl

/-- A canonical vote whose fields have Go's types, with an encodable timestamp. -/
structure CVote.WF (v : CVote) : Prop where
  type : IsI32 v.type
  height : IsI64 v.height
  round : IsI64 v.round
  block : ∀ b, v.blockID = some b → b.WF
  time : v.timestamp.valid = true

/-- A canonical proposal whose fields have Go's types, with an encodable timestamp. -/
structure CProposal.WF (v : CProposal) : Prop where
  type : IsI32 v.type
  height : IsI64 v.height
  round : IsI64 v.round
  polRound : IsI64 v.polRound
  block : ∀ b, v.blockID = some b → b.WF
  time : v.timestamp.valid = true

section vote
variable (v : CVote)

theorem dv6 (hl : v.chainID.length < 2 ^ 64) (m : CVote) (hm : m.chainID = []) :
    decodeMsg voteHandler m (encBytesField 0x32 v.chainID) = some { m with chainID := v.chainID } := by
  by_cases h0 : v.chainID = []
  · rw [h0, encBytesField_nil, decodeMsg_nil]; cases m; simp_all
  · rw [encBytesField_ne h0, ← List.append_nil (encLen _ _),
      decodeMsg_lenField _ _ _ _ _ (by decide) (by decide) rfl (by decide) hl]
    simp only [voteHandler]
    rw [show (0x32 : UInt8).toNat / 8 = 6 by rfl]
    simp only [Option.bind_some, decodeMsg_nil]

theorem dv5 (hl : v.chainID.length < 2 ^ 64) (ht : v.timestamp.valid = true)
    (hl2 : (encTime v.timestamp).length < 2 ^ 64) (m : CVote) (hm : m.chainID = []) :
    decodeMsg voteHandler m (encLen 0x2a (encTime v.timestamp) ++ encBytesField 0x32 v.chainID)
      = some { m with chainID := v.chainID, timestamp := v.timestamp } := by
  rw [decodeMsg_lenField _ _ _ _ _ (by decide) (by decide) rfl (by decide) hl2]
  simp only [voteHandler]
  rw [show (0x2a : UInt8).toNat / 8 = 5 by rfl]
  simp only [decodeTime_encTime _ ht, Option.map_some, Option.bind_some]
  exact dv6 v hl { m with timestamp := v.timestamp } hm

theorem dv4 (hl : (encVote v).length < 2 ^ 64) (hw : v.WF) (m : CVote) (hm : m.chainID = [])
    (hb : m.blockID = none) :
    decodeMsg voteHandler m (encBlockIDField 0x22 v.blockID ++ (encLen 0x2a (encTime v.timestamp)
      ++ encBytesField 0x32 v.chainID))
      = some { m with chainID := v.chainID, timestamp := v.timestamp, blockID := v.blockID } := by
  have l1 := encBytesField_length 0x32 v.chainID
  have l2 := encLen_length 0x2a (encTime v.timestamp)
  have l3 : (encVote v).length = (encVarintField 0x08 v.type).length + (encFixedField 0x11 v.height).length
    + (encFixedField 0x19 v.round).length + (encBlockIDField 0x22 v.blockID).length
    + (encLen 0x2a (encTime v.timestamp)).length + (encBytesField 0x32 v.chainID).length := by
    simp [encVote]; omega
  cases hvb : v.blockID with
  | none =>
    rw [encBlockIDField, List.nil_append, dv5 v (by omega) hw.time (by omega) m hm]
    cases m; simp_all
  | some b =>
    rw [hvb] at l3
    unfold encBlockIDField at l3
    simp only at l3
    have l4 := encLen_length 0x22 (encBlockID b)
    unfold encBlockIDField
    rw [decodeMsg_lenField _ _ _ _ _ (by decide) (by decide) rfl (by decide) (by omega)]
    simp only [voteHandler]
    rw [show (0x22 : UInt8).toNat / 8 = 4 by rfl]
    simp only [setBlockID, hb, Option.getD_none, decodeBlockID_enc b (hw.block b hvb) (by omega),
      Option.map_some, Option.bind_some]
    exact dv5 v (by omega) hw.time (by omega) { m with blockID := some b } hm

theorem decodeMsg_encVote (hl : (encVote v).length < 2 ^ 64) (hw : v.WF) :
    decodeMsg voteHandler CVote.zero (encVote v) = some v := by
  have h3 : ∀ m : CVote, m.chainID = [] → m.blockID = none → m.round = 0 →
      decodeMsg voteHandler m (encFixedField 0x19 v.round ++ (encBlockIDField 0x22 v.blockID ++
        (encLen 0x2a (encTime v.timestamp) ++ encBytesField 0x32 v.chainID)))
      = some { m with chainID := v.chainID, timestamp := v.timestamp, blockID := v.blockID, round := v.round } := by
    intro m hm hb hr
    by_cases h0 : v.round = 0
    · rw [h0, encFixedField_zero, List.nil_append, dv4 v hl hw m hm hb]; cases m; simp_all
    · rw [decodeMsg_fixedField _ _ _ _ _ (by decide) (by decide) rfl (by decide) h0]
      simp only [voteHandler]
      rw [show (0x19 : UInt8).toNat / 8 = 3 by rfl]
      simp only [Option.bind_some, i64_toU64 hw.round]
      exact dv4 v hl hw { m with round := v.round } hm hb
  have h2 : ∀ m : CVote, m.chainID = [] → m.blockID = none → m.round = 0 → m.height = 0 →
      decodeMsg voteHandler m (encFixedField 0x11 v.height ++ (encFixedField 0x19 v.round ++
        (encBlockIDField 0x22 v.blockID ++
        (encLen 0x2a (encTime v.timestamp) ++ encBytesField 0x32 v.chainID))))
      = some ⟨m.type, v.height, v.round, v.blockID, v.timestamp, v.chainID⟩ := by
    intro m hm hb hr hh
    by_cases h0 : v.height = 0
    · rw [h0, encFixedField_zero, List.nil_append, h3 m hm hb hr]; cases m; simp_all
    · rw [decodeMsg_fixedField _ _ _ _ _ (by decide) (by decide) rfl (by decide) h0]
      simp only [voteHandler]
      rw [show (0x11 : UInt8).toNat / 8 = 2 by rfl]
      simp only [Option.bind_some, i64_toU64 hw.height]
      exact h3 { m with height := v.height } hm hb hr
  unfold encVote
  simp only [List.append_assoc]
  by_cases h0 : v.type = 0
  · rw [h0, encVarintField_zero, List.nil_append, h2 CVote.zero rfl rfl rfl rfl]; cases v; simp_all [CVote.zero]
  · rw [decodeMsg_varintField _ _ _ _ _ (by decide) (by decide) rfl (by decide) h0]
    simp only [voteHandler]
    rw [show (0x08 : UInt8).toNat / 8 = 1 by rfl]
    simp only [Option.bind_some, i32_toU64 hw.type]
    exact h2 { CVote.zero with type := v.type } rfl rfl rfl rfl

end vote

section proposal
variable (v : CProposal)

theorem dp7 (hl : v.chainID.length < 2 ^ 64) (m : CProposal) (hm : m.chainID = []) :
    decodeMsg proposalHandler m (encBytesField 0x3a v.chainID) = some { m with chainID := v.chainID } := by
  by_cases h0 : v.chainID = []
  · rw [h0, encBytesField_nil, decodeMsg_nil]; cases m; simp_all
  · rw [encBytesField_ne h0, ← List.append_nil (encLen _ _),
      decodeMsg_lenField _ _ _ _ _ (by decide) (by decide) rfl (by decide) hl]
    simp only [proposalHandler]
    rw [show (0x3a : UInt8).toNat / 8 = 7 by rfl]
    simp only [Option.bind_some, decodeMsg_nil]

theorem dp6 (hl : v.chainID.length < 2 ^ 64) (ht : v.timestamp.valid = true)
    (hl2 : (encTime v.timestamp).length < 2 ^ 64) (m : CProposal) (hm : m.chainID = []) :
    decodeMsg proposalHandler m (encLen 0x32 (encTime v.timestamp) ++ encBytesField 0x3a v.chainID)
      = some { m with chainID := v.chainID, timestamp := v.timestamp } := by
  rw [decodeMsg_lenField _ _ _ _ _ (by decide) (by decide) rfl (by decide) hl2]
  simp only [proposalHandler]
  rw [show (0x32 : UInt8).toNat / 8 = 6 by rfl]
  simp only [decodeTime_encTime _ ht, Option.map_some, Option.bind_some]
  exact dp7 v hl { m with timestamp := v.timestamp } hm

theorem dp5 (hl : (encProposal v).length < 2 ^ 64) (hw : v.WF) (m : CProposal) (hm : m.chainID = [])
    (hb : m.blockID = none) :
    decodeMsg proposalHandler m (encBlockIDField 0x2a v.blockID ++ (encLen 0x32 (encTime v.timestamp)
      ++ encBytesField 0x3a v.chainID))
      = some { m with chainID := v.chainID, timestamp := v.timestamp, blockID := v.blockID } := by
  have l1 := encBytesField_length 0x3a v.chainID
  have l2 := encLen_length 0x32 (encTime v.timestamp)
  have l3 : (encProposal v).length = (encVarintField 0x08 v.type).length + (encFixedField 0x11 v.height).length
    + (encFixedField 0x19 v.round).length + (encVarintField 0x20 v.polRound).length
    + (encBlockIDField 0x2a v.blockID).length
    + (encLen 0x32 (encTime v.timestamp)).length + (encBytesField 0x3a v.chainID).length := by
    simp [encProposal]; omega
  cases hvb : v.blockID with
  | none =>
    rw [encBlockIDField, List.nil_append, dp6 v (by omega) hw.time (by omega) m hm]
    cases m; simp_all
  | some b =>
    rw [hvb] at l3
    unfold encBlockIDField at l3
    simp only at l3
    have l4 := encLen_length 0x2a (encBlockID b)
    unfold encBlockIDField
    rw [decodeMsg_lenField _ _ _ _ _ (by decide) (by decide) rfl (by decide) (by omega)]
    simp only [proposalHandler]
    rw [show (0x2a : UInt8).toNat / 8 = 5 by rfl]
    simp only [setBlockID, hb, Option.getD_none, decodeBlockID_enc b (hw.block b hvb) (by omega),
      Option.map_some, Option.bind_some]
    exact dp6 v (by omega) hw.time (by omega) { m with blockID := some b } hm

theorem decodeMsg_encProposal (hl : (encProposal v).length < 2 ^ 64) (hw : v.WF) :
    decodeMsg proposalHandler CProposal.zero (encProposal v) = some v := by
  have h4 : ∀ m : CProposal, m.chainID = [] → m.blockID = none → m.polRound = 0 →
      decodeMsg proposalHandler m (encVarintField 0x20 v.polRound ++ (encBlockIDField 0x2a v.blockID ++
        (encLen 0x32 (encTime v.timestamp) ++ encBytesField 0x3a v.chainID)))
      = some { m with chainID := v.chainID, timestamp := v.timestamp, blockID := v.blockID, polRound := v.polRound } := by
    intro m hm hb hr
    by_cases h0 : v.polRound = 0
    · rw [h0, encVarintField_zero, List.nil_append, dp5 v hl hw m hm hb]; cases m; simp_all
    · rw [decodeMsg_varintField _ _ _ _ _ (by decide) (by decide) rfl (by decide) h0]
      simp only [proposalHandler]
      rw [show (0x20 : UInt8).toNat / 8 = 4 by rfl]
      simp only [Option.bind_some, i64_toU64 hw.polRound]
      exact dp5 v hl hw { m with polRound := v.polRound } hm hb
  have h3 : ∀ m : CProposal, m.chainID = [] → m.blockID = none → m.polRound = 0 → m.round = 0 →
      decodeMsg proposalHandler m (encFixedField 0x19 v.round ++ (encVarintField 0x20 v.polRound ++
        (encBlockIDField 0x2a v.blockID ++
        (encLen 0x32 (encTime v.timestamp) ++ encBytesField 0x3a v.chainID))))
      = some ⟨m.type, m.height, v.round, v.polRound, v.blockID, v.timestamp, v.chainID⟩ := by
    intro m hm hb hp hr
    by_cases h0 : v.round = 0
    · rw [h0, encFixedField_zero, List.nil_append, h4 m hm hb hp]; cases m; simp_all
    · rw [decodeMsg_fixedField _ _ _ _ _ (by decide) (by decide) rfl (by decide) h0]
      simp only [proposalHandler]
      rw [show (0x19 : UInt8).toNat / 8 = 3 by rfl]
      simp only [Option.bind_some, i64_toU64 hw.round]
      exact h4 { m with round := v.round } hm hb hp
  have h2 : ∀ m : CProposal, m.chainID = [] → m.blockID = none → m.polRound = 0 → m.round = 0 → m.height = 0 →
      decodeMsg proposalHandler m (encFixedField 0x11 v.height ++ (encFixedField 0x19 v.round ++
        (encVarintField 0x20 v.polRound ++ (encBlockIDField 0x2a v.blockID ++
        (encLen 0x32 (encTime v.timestamp) ++ encBytesField 0x3a v.chainID)))))
      = some ⟨m.type, v.height, v.round, v.polRound, v.blockID, v.timestamp, v.chainID⟩ := by
    intro m hm hb hp hr hh
    by_cases h0 : v.height = 0
    · rw [h0, encFixedField_zero, List.nil_append, h3 m hm hb hp hr]; cases m; simp_all
    · rw [decodeMsg_fixedField _ _ _ _ _ (by decide) (by decide) rfl (by decide) h0]
      simp only [proposalHandler]
      rw [show (0x11 : UInt8).toNat / 8 = 2 by rfl]
      simp only [Option.bind_some, i64_toU64 hw.height]
      exact h3 { m with height := v.height } hm hb hp hr
  unfold encProposal
  simp only [List.append_assoc]
  by_cases h0 : v.type = 0
  · rw [h0, encVarintField_zero, List.nil_append, h2 CProposal.zero rfl rfl rfl rfl rfl]
    cases v; simp_all [CProposal.zero]
  · rw [decodeMsg_varintField _ _ _ _ _ (by decide) (by decide) rfl (by decide) h0]
    simp only [proposalHandler]
    rw [show (0x08 : UInt8).toNat / 8 = 1 by rfl]
    simp only [Option.bind_some, i32_toU64 hw.type]
    exact h2 { CProposal.zero with type := v.type } rfl rfl rfl rfl rfl

end proposal

/-! ### Framing -/

theorem undelimit_delimit (bs trail : Bytes) (h : bs.length < 2 ^ 63 - 1) :
    undelimit (delimit bs ++ trail) = some bs := by
  unfold undelimit delimit
  rw [List.append_assoc, readUvarint_encode _ _ (by omega)]
  have h1 : ¬ (bs.length ≥ 2 ^ 63 - 1) := by omega
  have h2 : ¬ (bs.length > (encodeVarint bs.length ++ (bs ++ trail)).length) := by simp; omega
  have h3 : ¬ ((bs ++ trail).length < bs.length) := by simp
  simp only [h1, h2, h3, if_false]
  simp

theorem decodeVote_encode (v : CVote) (trail : Bytes) (hw : v.WF) (hl : (encVote v).length < 2 ^ 63 - 1) :
    decodeVote (delimit (encVote v) ++ trail) = some v := by
  unfold decodeVote
  rw [undelimit_delimit _ _ hl, Option.bind_some, decodeMsg_encVote v (by omega) hw]

theorem decodeProposal_encode (v : CProposal) (trail : Bytes) (hw : v.WF)
    (hl : (encProposal v).length < 2 ^ 63 - 1) :
    decodeProposal (delimit (encProposal v) ++ trail) = some v := by
  unfold decodeProposal
  rw [undelimit_delimit _ _ hl, Option.bind_some, decodeMsg_encProposal v (by omega) hw]

/-! ### Length bounds -/

theorem encodeVarintAux_length (f v : Nat) : (encodeVarintAux f v).length ≤ f + 1 := by
  induction f generalizing v with
  | zero => simp [encodeVarintAux]
  | succ f ih => unfold encodeVarintAux; split <;> simp; have := ih (v / 128); omega

theorem encodeVarint_length (v : Nat) : (encodeVarint v).length ≤ 10 := encodeVarintAux_length 9 v

theorem encVarintField_le (tag : UInt8) (x : Int) : (encVarintField tag x).length ≤ 11 := by
  unfold encVarintField; split
  · simp
  · have := encodeVarint_length (toU64 x); simp; omega

theorem encFixedField_le (tag : UInt8) (x : Int) : (encFixedField tag x).length ≤ 9 := by
  unfold encFixedField; split
  · simp
  · simp [leBytes_length]

theorem encLen_le (tag : UInt8) (bs : Bytes) : (encLen tag bs).length ≤ 11 + bs.length := by
  have := encodeVarint_length bs.length; simp [encLen]; omega

theorem encBytesField_le (tag : UInt8) (bs : Bytes) : (encBytesField tag bs).length ≤ 11 + bs.length := by
  unfold encBytesField; split
  · simp
  · exact encLen_le tag bs

theorem encTime_le (t : GoTime) : (encTime t).length ≤ 22 := by
  have := encVarintField_le 0x08 t.sec
  have := encVarintField_le 0x10 t.nsec
  simp [encTime]; omega

theorem encBlockID_le (b : CBlockID) : (encBlockID b).length ≤ 44 + b.hash.length + b.psh.hash.length := by
  have := encBytesField_le 0x0a b.hash
  have := encLen_le 0x12 (encPSH b.psh)
  have := encBytesField_le 0x12 b.psh.hash
  have := encVarintField_le 0x08 b.psh.total
  have : (encPSH b.psh).length = (encVarintField 0x08 b.psh.total).length
    + (encBytesField 0x12 b.psh.hash).length := by simp [encPSH]
  simp [encBlockID]; omega

theorem encBlockIDField_le (tag : UInt8) (b : Option CBlockID) (n : Nat)
    (h : ∀ c, b = some c → c.hash.length + c.psh.hash.length ≤ n) :
    (encBlockIDField tag b).length ≤ 55 + n := by
  cases b with
  | none => simp [encBlockIDField]
  | some c =>
    have := h c rfl
    have := encLen_le tag (encBlockID c)
    have := encBlockID_le c
    simp [encBlockIDField]; omega

theorem encVote_le (v : CVote) (n : Nat)
    (h : ∀ c, v.blockID = some c → c.hash.length + c.psh.hash.length ≤ n) :
    (encVote v).length ≤ 200 + n + v.chainID.length := by
  have := encVarintField_le 0x08 v.type
  have := encFixedField_le 0x11 v.height
  have := encFixedField_le 0x19 v.round
  have := encBlockIDField_le 0x22 v.blockID n h
  have := encLen_le 0x2a (encTime v.timestamp)
  have := encTime_le v.timestamp
  have := encBytesField_le 0x32 v.chainID
  simp [encVote]; omega

theorem encProposal_le (v : CProposal) (n : Nat)
    (h : ∀ c, v.blockID = some c → c.hash.length + c.psh.hash.length ≤ n) :
    (encProposal v).length ≤ 200 + n + v.chainID.length := by
  have := encVarintField_le 0x08 v.type
  have := encFixedField_le 0x11 v.height
  have := encFixedField_le 0x19 v.round
  have := encVarintField_le 0x20 v.polRound
  have := encBlockIDField_le 0x2a v.blockID n h
  have := encLen_le 0x32 (encTime v.timestamp)
  have := encTime_le v.timestamp
  have := encBytesField_le 0x3a v.chainID
  simp [encProposal]; omega

section
variable {α : Type}

/-- Decoding past a varint field. -/
theorem dec_varint (h : Handler α) (m m' : α) (tag : UInt8) (x : Int) (rest : Bytes) (n : Nat)
    (hn : tag.toNat / 8 = n) (h0 : 0 < n) (htag : tag.toNat < 128) (hwt : tag.toNat % 8 = 0)
    (hk : h.wireType n = some 0) (hz : x = 0 → m' = m) (hs : h.set m n (.varint (toU64 x)) = some m') :
    decodeMsg h m (encVarintField tag x ++ rest) = decodeMsg h m' rest := by
  subst hn
  by_cases hx : x = 0
  · rw [hx, encVarintField_zero, hz hx]; rfl
  · rw [decodeMsg_varintField _ _ _ _ _ htag h0 hk hwt hx, hs]; rfl

/-- Decoding past a message field. -/
theorem dec_len (h : Handler α) (m m' : α) (tag : UInt8) (bs rest : Bytes) (n : Nat)
    (hn : tag.toNat / 8 = n) (h0 : 0 < n) (htag : tag.toNat < 128) (hwt : tag.toNat % 8 = 2)
    (hk : h.wireType n = some 2) (hl : bs.length < 2 ^ 64) (hs : h.set m n (.len bs) = some m') :
    decodeMsg h m (encLen tag bs ++ rest) = decodeMsg h m' rest := by
  subst hn
  rw [decodeMsg_lenField _ _ _ _ _ htag h0 hk hwt hl, hs]; rfl

/-- Decoding past a bytes field. -/
theorem dec_bytes (h : Handler α) (m m' : α) (tag : UInt8) (bs rest : Bytes) (n : Nat)
    (hn : tag.toNat / 8 = n) (h0 : 0 < n) (htag : tag.toNat < 128) (hwt : tag.toNat % 8 = 2)
    (hk : h.wireType n = some 2) (hl : bs.length < 2 ^ 64) (hz : bs = [] → m' = m)
    (hs : h.set m n (.len bs) = some m') :
    decodeMsg h m (encBytesField tag bs ++ rest) = decodeMsg h m' rest := by
  by_cases hx : bs = []
  · rw [hx, encBytesField_nil, hz hx]; rfl
  · rw [encBytesField_ne hx]
    exact dec_len h m m' tag bs rest n hn h0 htag hwt hk hl hs

end

end Horcrux
