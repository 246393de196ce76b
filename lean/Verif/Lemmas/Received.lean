import Verif.Lemmas.Remote
import Verif.Lemmas.Unpack
/-
What any request that is read satisfies, whatever its bytes were.
-/
namespace Horcrux

variable {α : Type}

theorem readVal_small {wt : Nat} {bs rest x : Bytes} (h : readVal wt bs = some (.len x, rest)) : x.length ≤ bs.length := by
  unfold readVal at h
  split at h
  · split at h
    · simp at h
    · simp at h
  split at h
  · split at h
    · simp at h
    · simp at h
  split at h
  · split at h
    · simp at h
    · next h' =>
      have := readVarint_lt h'
      split at h
      · simp at h
      · simp only [Option.some.injEq, Prod.mk.injEq, WireVal.len.injEq] at h
        rw [← h.1]; simp; omega
  · simp at h

/-- As `decodeLoop_inv`, for pieces of at most `L` bytes. -/
theorem decodeLoop_small (h : Handler α) (P : α → Prop) (L : Nat)
    (hs : ∀ m n v m', P m → (∀ x, v = .len x → x.length ≤ L) → h.set m n v = some m' → P m')
    (f : Nat) (m m' : α) (bs : Bytes) (hL : bs.length ≤ L) (h0 : P m) (hd : decodeLoop h f m bs = some m') : P m' := by
  induction f generalizing m bs with
  | zero =>
    cases bs with
    | nil => simp [decodeLoop] at hd; rw [← hd]; exact h0
    | cons b bs => simp [decodeLoop] at hd
  | succ f ih =>
    cases bs with
    | nil => simp [decodeLoop] at hd; rw [← hd]; exact h0
    | cons b bs =>
      rw [decodeLoop] at hd
      split at hd
      · cases hd
      · next wire rest hv =>
        have h1 := readVarint_lt hv
        dsimp only at hd
        split at hd
        · cases hd
        · split at hd
          · cases hd
          · split at hd
            · split at hd
              · cases hd
              · split at hd
                · cases hd
                · next hval =>
                  split at hd
                  · cases hd
                  · next hset =>
                    have h2 := readVal_le hval
                    refine ih _ _ (by omega) (hs _ _ _ _ h0 ?_ hset) hd
                    rintro x rfl
                    have h3 := readVal_small hval
                    omega
            · split at hd
              · cases hd
              · next hsk => have h2 := skipAux_lt hsk; exact ih _ _ (by omega) h0 hd

theorem decodeMsg_small (h : Handler α) (P : α → Prop) (L : Nat)
    (hs : ∀ m n v m', P m → (∀ x, v = .len x → x.length ≤ L) → h.set m n v = some m' → P m')
    (m m' : α) (bs : Bytes) (hL : bs.length ≤ L) (h0 : P m) (hd : decodeMsg h m bs = some m') : P m' :=
  decodeLoop_small h P L hs _ m m' bs hL h0 hd

/-- Values of the Go types, and pieces of at most `L` bytes. -/
structure Vote.Read (L : Nat) (v : Vote) : Prop where
  type : IsI32 v.type
  height : IsI64 v.height
  round : IsI32 v.round
  total : v.blockID.pshTotal < 2 ^ 32
  time : v.timestamp.valid = true
  index : IsI32 v.validatorIndex
  addr : v.validatorAddress.length ≤ L

structure Proposal.Read (p : Proposal) : Prop where
  type : IsI32 p.type
  height : IsI64 p.height
  round : IsI32 p.round
  polRound : IsI32 p.polRound
  total : p.blockID.pshTotal < 2 ^ 32
  time : p.timestamp.valid = true

theorem setPBlockID_total {o b : BlockID} {bs : Bytes} (h0 : o.pshTotal < 2 ^ 32) (h : setPBlockID o bs = some b) :
    b.pshTotal < 2 ^ 32 := by
  unfold setPBlockID at h
  simp only [Option.map_eq_some_iff] at h
  obtain ⟨c, hc, rfl⟩ := h
  refine decodeMsg_inv blockIDHandler (fun c => c.psh.total < 2 ^ 32) ?_ _ _ _ h0 hc
  intro m n w m' hm hs
  simp only [blockIDHandler] at hs
  split at hs
  · simp only [Option.some.injEq] at hs; subst hs; exact hm
  · simp only [Option.map_eq_some_iff] at hs
    obtain ⟨p, hp, rfl⟩ := hs
    refine decodeMsg_inv pshHandler (fun p => p.total < 2 ^ 32) ?_ _ _ _ hm hp
    intro m n w m' hm hs
    simp only [pshHandler] at hs
    split at hs
    · simp only [Option.some.injEq] at hs; subst hs; exact Nat.mod_lt _ (by decide)
    · simp only [Option.some.injEq] at hs; subst hs; exact hm
    · cases hs
  · cases hs

theorem pvote_read {L : Nat} {m v : Vote} {bs : Bytes} (hL : bs.length ≤ L) (h0 : m.Read L)
    (h : decodeMsg pvoteHandler m bs = some v) : v.Read L := by
  refine decodeMsg_small pvoteHandler (Vote.Read L) L ?_ m v bs hL h0 h
  intro m n w m' hm hx hs
  simp only [pvoteHandler] at hs
  split at hs
  · simp only [Option.some.injEq] at hs; subst hs; exact ⟨by simp only; apply isI32_i32, hm.height, hm.round, hm.total, hm.time, hm.index, hm.addr⟩
  · simp only [Option.some.injEq] at hs; subst hs; exact ⟨hm.type, by simp only; apply isI64_i64, hm.round, hm.total, hm.time, hm.index, hm.addr⟩
  · simp only [Option.some.injEq] at hs; subst hs; exact ⟨hm.type, hm.height, by simp only; apply isI32_i32, hm.total, hm.time, hm.index, hm.addr⟩
  · simp only [Option.map_eq_some_iff] at hs; obtain ⟨b, hb, rfl⟩ := hs
    exact ⟨hm.type, hm.height, hm.round, setPBlockID_total hm.total hb, hm.time, hm.index, hm.addr⟩
  · simp only [Option.map_eq_some_iff] at hs; obtain ⟨t, ht, rfl⟩ := hs; exact ⟨hm.type, hm.height, hm.round, hm.total, decodeTime_valid ht, hm.index, hm.addr⟩
  · simp only [Option.some.injEq] at hs; subst hs; exact ⟨hm.type, hm.height, hm.round, hm.total, hm.time, hm.index, hx _ rfl⟩
  · simp only [Option.some.injEq] at hs; subst hs; exact ⟨hm.type, hm.height, hm.round, hm.total, hm.time, by simp only; apply isI32_i32, hm.addr⟩
  · simp only [Option.some.injEq] at hs; subst hs; exact ⟨hm.type, hm.height, hm.round, hm.total, hm.time, hm.index, hm.addr⟩
  · cases hs

theorem pproposal_read {m v : Proposal} {bs : Bytes} (h0 : m.Read) (h : decodeMsg pproposalHandler m bs = some v) :
    v.Read := by
  refine decodeMsg_inv pproposalHandler Proposal.Read ?_ m v bs h0 h
  intro m n w m' hm hs
  simp only [pproposalHandler] at hs
  split at hs
  · simp only [Option.some.injEq] at hs; subst hs; exact ⟨by simp only; apply isI32_i32, hm.height, hm.round, hm.polRound, hm.total, hm.time⟩
  · simp only [Option.some.injEq] at hs; subst hs; exact ⟨hm.type, by simp only; apply isI64_i64, hm.round, hm.polRound, hm.total, hm.time⟩
  · simp only [Option.some.injEq] at hs; subst hs; exact ⟨hm.type, hm.height, by simp only; apply isI32_i32, hm.polRound, hm.total, hm.time⟩
  · simp only [Option.some.injEq] at hs; subst hs; exact ⟨hm.type, hm.height, hm.round, by simp only; apply isI32_i32, hm.total, hm.time⟩
  · simp only [Option.map_eq_some_iff] at hs; obtain ⟨b, hb, rfl⟩ := hs
    exact ⟨hm.type, hm.height, hm.round, hm.polRound, setPBlockID_total hm.total hb, hm.time⟩
  · simp only [Option.map_eq_some_iff] at hs; obtain ⟨t, ht, rfl⟩ := hs; exact ⟨hm.type, hm.height, hm.round, hm.polRound, hm.total, decodeTime_valid ht⟩
  · simp only [Option.some.injEq] at hs; subst hs; exact ⟨hm.type, hm.height, hm.round, hm.polRound, hm.total, hm.time⟩
  · cases hs

/-- The same of a request. -/
def PMsg.ReadOk (L : Nat) : PMsg → Prop
  | .signVoteRequest (some v) _ => v.Read L
  | .signProposalRequest (some p) _ => p.Read
  | _ => True

theorem voteZero_read (L : Nat) : Vote.zero.Read L :=
  ⟨by decide, by decide, by decide, by decide, by decide, by decide, by simp [Vote.zero]⟩

theorem proposalZero_read : Proposal.zero.Read :=
  ⟨by decide, by decide, by decide, by decide, by decide, by decide⟩

theorem signReq_small (h : Handler α) (zero : α) (P : α → Prop) (L : Nat) (h0 : P zero)
    (hd : ∀ m m' bs, bs.length ≤ L → P m → decodeMsg h m bs = some m' → P m') (m m' : Option α × Bytes) (bs : Bytes)
    (hL : bs.length ≤ L) (hm : ∀ x, m.1 = some x → P x) (he : decodeMsg (signReqHandler h zero) m bs = some m') :
    ∀ x, m'.1 = some x → P x := by
  refine decodeMsg_small (signReqHandler h zero) (fun m => ∀ x, m.1 = some x → P x) L ?_ m m' bs hL hm he
  intro m n w m' hm hx hs
  simp only [signReqHandler] at hs
  split at hs
  · simp only [Option.map_eq_some_iff] at hs
    obtain ⟨y, hy, rfl⟩ := hs
    intro x hx'
    cases hx'
    refine hd _ _ _ (hx _ rfl) ?_ hy
    cases hc : m.1 with
    | none => exact h0
    | some z => exact hm z hc
  · cases hs; exact hm
  · cases hs

theorem pmsg_readOk {L : Nat} {m : PMsg} {bs : Bytes} (hL : bs.length ≤ L) (h : decodeMsg pmsgHandler .empty bs = some m) :
    m.ReadOk L := by
  refine decodeMsg_small pmsgHandler (PMsg.ReadOk L) L ?_ .empty m bs hL trivial h
  intro m n w m' _ hx hs
  simp only [pmsgHandler] at hs
  split at hs
  · simp only [Option.map_eq_some_iff] at hs; obtain ⟨b, _, rfl⟩ := hs; trivial
  · simp only [Option.map_eq_some_iff] at hs; obtain ⟨b, _, rfl⟩ := hs; trivial
  · simp only [Option.map_eq_some_iff] at hs
    obtain ⟨b, hb, rfl⟩ := hs
    have := signReq_small pvoteHandler .zero (Vote.Read L) L (voteZero_read L)
      (fun m m' bs hl h0 hd => pvote_read hl h0 hd) (none, []) b _ (hx _ rfl) (by intro x hx; cases hx) hb
    unfold PMsg.ReadOk
    split
    · next heq => injection heq with h1 _; exact this _ h1
    · next heq => cases heq
    · trivial
  · simp only [Option.map_eq_some_iff] at hs; obtain ⟨b, _, rfl⟩ := hs; trivial
  · simp only [Option.map_eq_some_iff] at hs
    obtain ⟨b, hb, rfl⟩ := hs
    have := signReq_inv pproposalHandler .zero Proposal.Read proposalZero_read
      (fun m m' bs h0 hd => pproposal_read h0 hd) (none, []) b _ (by intro x hx; cases hx) hb
    unfold PMsg.ReadOk
    split
    · next heq => cases heq
    · next heq => injection heq with h1 _; exact this _ h1
    · trivial
  · simp only [Option.map_eq_some_iff] at hs; obtain ⟨b, _, rfl⟩ := hs; trivial
  · simp only [Option.map_eq_some_iff] at hs; obtain ⟨b, _, rfl⟩ := hs; trivial
  · simp only [Option.map_eq_some_iff] at hs; obtain ⟨b, _, rfl⟩ := hs; trivial
  · cases hs

theorem readMsg_readOk {stream rest : Bytes} {m : PMsg} (h : readMsg stream = some (m, rest)) :
    m.ReadOk maxRemoteSignerMsgSize := by
  unfold readMsg at h
  split at h
  · cases h
  · split at h
    · cases h
    · split at h
      · cases h
      · simp only [Option.map_eq_some_iff] at h
        obtain ⟨x, hx, hh⟩ := h
        cases hh
        exact pmsg_readOk (by simp; omega) hx

theorem Vote.Read.wf {L : Nat} {v : Vote} (h : v.Read L) {chainID : Bytes} (hc : chainID.length < 2 ^ 62) : v.WF chainID :=
  ⟨h.type, h.height, h.round, h.total, hc⟩

theorem Proposal.Read.wf {p : Proposal} (h : p.Read) {chainID : Bytes} (hc : chainID.length < 2 ^ 62) : p.WF chainID :=
  ⟨h.height, h.round, h.polRound, h.total, hc⟩

end Horcrux
