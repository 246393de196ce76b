import Verif.Model.Start
import Verif.Props.Config
import Verif.Props.Cosigner
/-
C20: requests against the tables of a cosigner started from an accepted configuration.
-/
namespace Horcrux
open Spec

variable {C : Crypto} {cfg : CosignerCfg}

/-- Dealing gives one share per cosigner. -/
def DealsAll (C : Crypto) : Prop := ∀ secret rand t n, (C.dealShares secret rand t n).length = n

/-- All references are valid and every record has tables of `n` entries. -/
def CState.Tables (n : Nat) (s : CState) : Prop :=
  s.Ok ∧ ∀ m ∈ s.heap, m.peers.length = n ∧ m.dealtShares.length = n

theorem tables_run (hd : DealsAll C) {l : SignState} {s : CState} {tr : List (CosOp × Out CosResp)}
    (h : Run C cfg (CState.start l) tr s) : s.Tables cfg.total := by
  refine ⟨run_ok h (start_ok l), fun m hm => ⟨run_slots h (start_slots l _) m hm, ?_⟩⟩
  obtain ⟨_, _, rnd, _, _, _, h4⟩ := drawn_inv h m hm
  rw [h4]; exact hd ..

theorem tables_metaFor (hd : DealsAll C) {s s1 : CState} {k kd : HRST} {rnd : Rand} {ref : Nat}
    (h : metaFor C cfg s k kd rnd = some (ref, s1)) (ht : s.Tables cfg.total) :
    ∃ m, s1.heap[ref]? = some m ∧ m.peers.length = cfg.total ∧ m.dealtShares.length = cfg.total := by
  rcases metaFor_spec h with ⟨h1, rfl⟩ | ⟨h1, h2, rfl⟩ | ⟨h1, h2, rfl, sec, h3, rfl⟩
  · have hl := ht.1 k ref h1
    exact ⟨_, List.getElem?_eq_getElem hl, ht.2 _ (List.getElem_mem hl)⟩
  · have hl := ht.1 kd ref h2
    exact ⟨_, List.getElem?_eq_getElem hl, ht.2 _ (List.getElem_mem hl)⟩
  · refine ⟨newMeta C cfg sec rnd, by simp [CState.setMeta], by simp [newMeta], hd ..⟩

theorem goIndex_some {α : Type} {l : List α} {i : Int} (h0 : 0 ≤ i) (h : i < l.length) : ∃ x, goIndex l i = some x := by
  unfold goIndex
  rw [if_neg (by omega)]
  exact ⟨_, List.getElem?_eq_getElem (by omega)⟩

theorem goIndex_none {α : Type} {l : List α} {i : Int} (h : l.length ≤ i) : goIndex l i = none := by
  unfold goIndex
  rw [if_neg (by omega), List.getElem?_eq_none_iff]
  omega

theorem goIndex_range {α : Type} {l : List α} {i : Int} {x : α} (h : goIndex l i = some x) : 0 ≤ i ∧ i < l.length := by
  by_cases h0 : i < 0
  · simp [goIndex, h0] at h
  · refine ⟨by omega, ?_⟩
    by_cases h1 : (l.length : Int) ≤ i
    · rw [goIndex_none h1] at h; cases h
    · omega

theorem setSlot_some {s : CState} {ref : Nat} {i : Int} {p : PeerMeta} {m : Meta} (hm : s.heap[ref]? = some m)
    (h0 : 0 ≤ i) (h : i < m.peers.length) : ∃ s', s.setSlot ref i p = some s' := by
  unfold CState.setSlot
  obtain ⟨x, hx⟩ := goIndex_some h0 h
  rw [hm]; simp only [hx]
  exact ⟨_, rfl⟩

/-- No part request panics if the own ID and the IDs in the peer map are table positions. -/
theorem part_no_panic (hd : DealsAll C) {s : CState} (ht : s.Tables cfg.total)
    (hid : 1 ≤ cfg.id ∧ cfg.id ≤ cfg.total) (hp : ∀ i k, cfg.peers i = some k → 1 ≤ i ∧ i ≤ cfg.total) :
    (∀ req rnd, (getPart C cfg s req rnd).1 ≠ .panic) ∧ (∀ req rnd, (setPart C cfg s req rnd).1 ≠ .panic) := by
  constructor
  · intro req rnd
    unfold getPart
    simp only
    cases hm : metaFor C cfg s req.key req.key rnd with
    | none => simp
    | some p =>
      obtain ⟨ref, s1⟩ := p
      obtain ⟨m, h1, h2, h3⟩ := tables_metaFor hd hm ht
      simp only [h1]
      obtain ⟨own, ho⟩ := goIndex_some (l := m.dealtShares) (i := cfg.id - 1) (by omega) (by omega)
      simp only [ho]
      obtain ⟨s2, hs2⟩ := setSlot_some (p := ⟨own, C.scalarMultiplyBase m.secret⟩) h1 (i := cfg.id - 1) (by omega) (by omega)
      simp only [hs2]
      cases hq : cfg.peers req.id with
      | none => simp
      | some pk =>
        have := hp _ _ hq
        obtain ⟨sh, hsh⟩ := goIndex_some (l := m.dealtShares) (i := req.id - 1) (by omega) (by omega)
        simp only [hsh]
        split
        · simp
        · split <;> simp
  · intro req rnd
    unfold setPart
    cases hsig : req.sourceSig with
    | none => simp
    | some sig =>
      simp only
      cases hq : cfg.peers req.sourceID with
      | none => simp
      | some pk =>
        simp only
        split
        · simp
        · cases hm : metaFor C cfg s req.key ⟨req.height, req.round, req.step, GoTime.zero.unixNano⟩ rnd with
          | none => simp
          | some p =>
            obtain ⟨ref, s1⟩ := p
            obtain ⟨m, h1, h2, h3⟩ := tables_metaFor hd hm ht
            simp only
            cases hdec : C.rsaDecrypt cfg.rsaKey req.encrypted.bytes with
            | none => simp
            | some share =>
              simp only
              have := hp _ _ hq
              obtain ⟨s2, hs2⟩ := setSlot_some (p := ⟨share, req.ephemeralPublic.bytes⟩) h1 (i := req.sourceID - 1)
                (by omega) (by omega)
              simp [hs2]

/-! ### The start -/

theorem enterPeers_spec {keys : List Bytes} {ps : List CosignerPeer} {m m' : Int → Option Bytes}
    (h : enterPeers keys ps m = some m') :
    (∀ i, (m' i).isSome ↔ (m i).isSome ∨ ∃ p ∈ ps, p.shareID = i) := by
  induction ps generalizing m with
  | nil => simp [enterPeers] at h; subst h; simp
  | cons p ps ih =>
    unfold enterPeers at h
    split at h
    · simp at h
    · split at h
      · simp at h
      · next k hk =>
        intro i
        rw [ih h i]
        unfold mapSet
        by_cases hi : i = p.shareID
        · simp [hi]
        · have : p.shareID ≠ i := fun e => hi e.symm
          simp [hi, this]

/-- What a successful start says. -/
theorem startCfg_spec {lib : Lib} {cf : Config} {key : CosignerKey} {cc : CosignerCfg}
    (h : startCfg lib cf key = some cc) :
    ∃ c, Accepted lib cf c ∧ cc.id = key.id ∧ cc.total = u8 (c.peers.length + 1) ∧ cc.threshold = u8 c.threshold ∧
      ∀ i, (cc.peers i).isSome ↔ i = key.id ∨ ∃ p ∈ c.peers, p.shareID = i := by
  unfold startCfg at h
  split at h
  · next c hv hc =>
    split at h
    · simp at h
    · next m hm =>
      simp only [Option.some.injEq] at h
      subst h
      refine ⟨c, ⟨hc, hv⟩, rfl, rfl, rfl, ?_⟩
      intro i
      rw [enterPeers_spec hm i]
      unfold mapSet
      by_cases hi : i = key.id <;> simp [hi]
  · simp at h

/-- C20, partial: a cosigner started from an accepted configuration that lists all other cosigners (`shares` is the
number of peers plus one, as `config init` writes it), has at most 255 shares and a key of one of these shares, never
aborts on a request for or with a secret part, whatever happened before. Missing: configurations that list only some of
the peers, see `C20_gap_fails`. (Aborts in `sign` are C09.) -/
theorem C20_complete_partial (hd : DealsAll C) (lib : Lib) (cf : Config) (key : CosignerKey) (c : CosignerConfig)
    (cc : CosignerCfg) (hs : startCfg lib cf key = some cc) (hc : cf.cosigner = some c)
    (hall : c.shares = c.peers.length + 1) (h255 : c.shares ≤ 255) (hkey : 1 ≤ key.id ∧ key.id ≤ c.shares)
    (l : SignState) (s : CState) (tr : List (CosOp × Out CosResp)) (hrun : Run C cc (CState.start l) tr s) :
    (∀ req rnd, (getPart C cc s req rnd).1 ≠ .panic) ∧ (∀ req rnd, (setPart C cc s req rnd).1 ≠ .panic) := by
  obtain ⟨c', ⟨h1, h2⟩, h3, h4, _, h5⟩ := startCfg_spec hs
  rw [hc] at h1
  simp only [Option.some.injEq] at h1
  subst h1
  obtain ⟨_, _, _, _, _, hv, _⟩ := (accepted_iff lib cf c).1 ⟨hc, h2⟩
  obtain ⟨_, hr, _⟩ := (validateCosignerPeers_iff _ _).1 hv
  have htot : (cc.total : Int) = c.shares := by
    rw [h4]; unfold u8; omega
  refine part_no_panic hd (tables_run hd hrun) (by rw [h3, htot]; exact hkey) ?_
  intro i k hk
  rw [htot]
  rcases (h5 i).1 (by simp [hk]) with rfl | ⟨p, hp, rfl⟩
  · exact hkey
  · exact hr p hp

/-- Three cosigners, the local one has share 1. -/
def demoKey : CosignerKey := ⟨[8], [9], [1], [1], 1, [[1], [2], [3]]⟩

theorem toy_dealsAll : DealsAll toy := fun _ _ _ _ => by simp [toy]

example : ∃ cc, startCfg demoLib demoConfig demoKey = some cc ∧ ∃ c, demoConfig.cosigner = some c ∧
    c.shares = c.peers.length + 1 ∧ c.shares ≤ 255 ∧ 1 ≤ demoKey.id ∧ demoKey.id ≤ c.shares :=
  ⟨_, rfl, _, rfl, by decide, by decide, by decide, by decide⟩

/-- C20 (full statement) is false: if some configured peer's ID exceeds the number of configured cosigners, the first
request of that peer for its secret part aborts the process. -/
theorem C20_gap_fails (hd : DealsAll C) (lib : Lib) (cf : Config) (key : CosignerKey) (c : CosignerConfig)
    (cc : CosignerCfg) (hs : startCfg lib cf key = some cc) (hc : cf.cosigner = some c) (p : CosignerPeer)
    (hp : p ∈ c.peers) (hgap : p.shareID > c.peers.length + 1) (l : SignState) (req : GetPartReq)
    (hreq : req.id = p.shareID) (rnd : Rand) (sec : Bytes) (hrnd : rnd.secret = some sec) :
    (getPart C cc (CState.start l) req rnd).1 = .panic := by
  obtain ⟨c', ⟨h1, h2⟩, h3, h4, _, h5⟩ := startCfg_spec hs
  rw [hc] at h1
  simp only [Option.some.injEq] at h1
  subst h1
  have htot : (cc.total : Int) ≤ c.peers.length + 1 := by
    rw [h4]; unfold u8; omega
  have hpk := (h5 req.id).2 (Or.inr ⟨p, hp, hreq.symm⟩)
  obtain ⟨pk, hpk⟩ := Option.isSome_iff_exists.1 hpk
  unfold getPart
  simp only
  cases hm : metaFor C cc (CState.start l) req.key req.key rnd with
  | none => simp [metaFor, dealSharesFor, CState.start, hrnd] at hm
  | some x =>
    obtain ⟨ref, s1⟩ := x
    obtain ⟨m, g1, g2, g3⟩ := tables_metaFor hd hm ⟨start_ok l, by intro m hm; cases hm⟩
    simp only [g1]
    cases goIndex m.dealtShares (cc.id - 1) with
    | none => rfl
    | some own =>
      simp only
      cases s1.setSlot ref (cc.id - 1) ⟨own, C.scalarMultiplyBase m.secret⟩ with
      | none => rfl
      | some s2 =>
        simp only [hpk]
        rw [goIndex_none (by omega)]

/-- The same configuration aborts when that peer submits a properly signed and encrypted part. -/
theorem C20_gap_set_fails (hd : DealsAll C) (lib : Lib) (cf : Config) (key : CosignerKey) (c : CosignerConfig)
    (cc : CosignerCfg) (hs : startCfg lib cf key = some cc) (hc : cf.cosigner = some c) (p : CosignerPeer)
    (_hp : p ∈ c.peers) (hgap : p.shareID > c.peers.length + 1) (l : SignState) (req : SetPartReq)
    (hreq : req.sourceID = p.shareID) (rnd : Rand) (sec sig pk share : Bytes) (hrnd : rnd.secret = some sec)
    (hsig : req.sourceSig = some sig) (hpk : cc.peers req.sourceID = some pk)
    (hver : C.rsaVerify pk ⟨req.sourceID, req.ephemeralPublic, req.encrypted⟩ sig = true)
    (hdec : C.rsaDecrypt cc.rsaKey req.encrypted.bytes = some share) :
    (setPart C cc (CState.start l) req rnd).1 = .panic := by
  obtain ⟨c', ⟨h1, h2⟩, h3, h4, _, h5⟩ := startCfg_spec hs
  rw [hc] at h1
  simp only [Option.some.injEq] at h1
  subst h1
  have htot : (cc.total : Int) ≤ c.peers.length + 1 := by
    rw [h4]; unfold u8; omega
  unfold setPart
  simp only [hsig, hpk, hver]
  cases hm : metaFor C cc (CState.start l) req.key ⟨req.height, req.round, req.step, GoTime.zero.unixNano⟩ rnd with
  | none => simp [metaFor, dealSharesFor, CState.start, hrnd] at hm
  | some x =>
    obtain ⟨ref, s1⟩ := x
    obtain ⟨m, g1, g2, g3⟩ := tables_metaFor hd hm ⟨start_ok l, by intro m hm; cases hm⟩
    have hno : s1.setSlot ref (req.sourceID - 1) ⟨share, req.ephemeralPublic.bytes⟩ = none := by
      unfold CState.setSlot
      rw [g1]
      simp only [goIndex_none (l := m.peers) (i := req.sourceID - 1) (by omega)]
    simp [hdec, hno]

/-- C20, the exact condition: with a configuration and key that start accepts, no sequence of requests ever makes a request
for or with a secret part abort the process iff the own share ID and the IDs of all listed peers are at most the number of
listed cosigners (as a byte: `cosigner.go:204` truncates it). -/
theorem C20_exact (hd : DealsAll C) (lib : Lib) (cf : Config) (key : CosignerKey) (c : CosignerConfig)
    (cc : CosignerCfg) (hs : startCfg lib cf key = some cc) (hc : cf.cosigner = some c) (l : SignState) :
    (∀ s tr, Run C cc (CState.start l) tr s →
      (∀ req rnd, (getPart C cc s req rnd).1 ≠ .panic) ∧ (∀ req rnd, (setPart C cc s req rnd).1 ≠ .panic)) ↔
    (1 ≤ key.id ∧ key.id ≤ ((c.peers.length + 1) % 256 : Int)) ∧
      ∀ p ∈ c.peers, p.shareID ≤ ((c.peers.length + 1) % 256 : Int) := by
  obtain ⟨c', ⟨h1, h2⟩, h3, h4, _, h5⟩ := startCfg_spec hs
  rw [hc] at h1
  simp only [Option.some.injEq] at h1
  subst h1
  obtain ⟨_, _, _, _, _, hv, _⟩ := (accepted_iff lib cf c).1 ⟨hc, h2⟩
  obtain ⟨_, hr, _⟩ := (validateCosignerPeers_iff _ _).1 hv
  have htot : (cc.total : Int) = (c.peers.length + 1) % 256 := by
    rw [h4]; unfold u8; omega
  constructor
  · intro hno
    -- a request for the share of an ID in the peer map, to the fresh process
    have key1 : ∀ i, (cc.peers i).isSome → ¬ (cc.id < 1 ∨ cc.total < cc.id ∨ i < 1 ∨ cc.total < i) := by
      intro i hi hbad
      obtain ⟨pk, hpk⟩ := Option.isSome_iff_exists.1 hi
      refine (hno _ _ (Run.nil _)).1 ⟨i, 0, 0, 0, ⟨0, 0⟩⟩ ⟨some [], [], [], []⟩ ?_
      unfold getPart
      simp only
      cases hm : metaFor C cc (CState.start l) (GetPartReq.key ⟨i, 0, 0, 0, ⟨0, 0⟩⟩) (GetPartReq.key ⟨i, 0, 0, 0, ⟨0, 0⟩⟩)
          ⟨some [], [], [], []⟩ with
      | none => simp [metaFor, dealSharesFor, CState.start] at hm
      | some x =>
        obtain ⟨ref, s1⟩ := x
        obtain ⟨m, g1, g2, g3⟩ := tables_metaFor hd hm ⟨start_ok l, by intro m hm; cases hm⟩
        simp only [g1]
        cases hg : goIndex m.dealtShares (cc.id - 1) with
        | none => rfl
        | some own =>
          have hin := goIndex_range hg
          simp only
          cases s1.setSlot ref (cc.id - 1) ⟨own, C.scalarMultiplyBase m.secret⟩ with
          | none => rfl
          | some s2 =>
            simp only [hpk]
            cases hg' : goIndex m.dealtShares (i - 1) with
            | none => rfl
            | some x => have := goIndex_range hg'; omega
    have own := key1 key.id ((h5 _).2 (Or.inl rfl))
    refine ⟨by omega, fun p hp => ?_⟩
    have := key1 p.shareID ((h5 _).2 (Or.inr ⟨p, hp, rfl⟩))
    omega
  · rintro ⟨hkey, hpeers⟩ s tr hrun
    refine part_no_panic hd (tables_run hd hrun) (by rw [h3, htot]; exact hkey) ?_
    intro i k hk
    rw [htot]
    rcases (h5 i).1 (by simp [hk]) with rfl | ⟨p, hp, rfl⟩
    · exact hkey
    · exact ⟨(hr p hp).1, hpeers p hp⟩

/-- An accepted configuration with such a gap: three shares, but only peer 3 is listed. -/
def gapConfig : Config :=
  { demoConfig with cosigner := some { threshold := 2, shares := 3, p2pListen := [108], peers := [⟨3, [98]⟩], timeout := [49] } }

example : ∃ cc, startCfg demoLib gapConfig demoKey = some cc ∧
    (getPart toy cc (CState.start .empty) ⟨3, 7, 1, 3, ⟨0, 0⟩⟩ (toyRnd 5)).1 = .panic ∧
    (getPart toy cc (CState.start .empty) ⟨2, 7, 1, 3, ⟨0, 0⟩⟩ (toyRnd 5)).1 = .err .unknownPeerID ∧
    (setPart toy cc (CState.start .empty) ⟨3, some [7], some [1, 5], some [3, 7, 1, 5], 7, 1, 3, ⟨0, 0⟩⟩ (toyRnd 5)).1 = .panic :=
  ⟨_, rfl, by decide +kernel, by decide +kernel, by decide +kernel⟩

/-- The exact condition holds for the complete configuration and fails for the one with a gap. -/
example : (1 ≤ demoKey.id ∧ demoKey.id ≤ ((2 + 1) % 256 : Int)) ∧
    (∀ c, demoConfig.cosigner = some c → ∀ p ∈ c.peers, p.shareID ≤ ((c.peers.length + 1) % 256 : Int)) ∧
    ¬ (∀ c, gapConfig.cosigner = some c → ∀ p ∈ c.peers, p.shareID ≤ ((c.peers.length + 1) % 256 : Int)) := by
  refine ⟨by decide, fun c hc => ?_, fun h => ?_⟩
  · cases hc; decide
  · exact absurd (h _ rfl) (by decide)

end Horcrux
