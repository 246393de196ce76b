import Verif.Lemmas.Config
import Verif.Spec.Order
import Mathlib.Order.Interval.Finset.Defs
import Mathlib.Data.Int.Interval
/-
C25, C50, C51, C52, C53, C60: configurations and the commands that edit them.
-/
namespace Horcrux
open Spec

/-- A library that accepts a text unless it starts with `!`. -/
def demoLib : Lib := ⟨fun s => s.head? ≠ some 33, fun s => s.head? ≠ some 33, fun s => some s⟩

/-- A three-share configuration with two peers. -/
def demoConfig : Config :=
  { homeDir := [], privValKeyFile := [], chainID := [99],
    cosigner := some { threshold := 2, shares := 3, p2pListen := [108], peers := [⟨2, [97]⟩, ⟨3, [98]⟩], timeout := [49] },
    chainNodes := [[110], [111]] }

/-! ### C25 -/

/-- The configuration is accepted, with this cosigner section. -/
def Accepted (lib : Lib) (cfg : Config) (c : CosignerConfig) : Prop :=
  cfg.cosigner = some c ∧ validateCosignerConfig lib cfg = .ok ()

theorem accepted_iff (lib : Lib) (cfg : Config) (c : CosignerConfig) :
    Accepted lib cfg c ↔ cfg.cosigner = some c ∧ cfg.chainID ≠ [] ∧ c.threshold ≤ c.peers.length + 1 ∧
      lib.durationOk c.timeout = true ∧ lib.urlOk c.p2pListen = true ∧
      validateCosignerPeers c.peers c.shares = .ok () ∧ validateChainNodes lib cfg.chainNodes = .ok () := by
  unfold Accepted validateCosignerConfig
  constructor
  · rintro ⟨h0, h⟩
    rw [h0] at h
    refine ⟨h0, ?_⟩
    split at h
    · simp at h
    · next h1 =>
      simp only at h
      split at h
      · simp at h
      · next h2 =>
        split at h
        · simp at h
        · next h3 =>
          split at h
          · simp at h
          · next h4 =>
            split at h
            · simp at h
            · next h5 =>
              exact ⟨h1, by omega, by simpa using h3, by simpa using h4, h5, h⟩
  · rintro ⟨h0, h1, h2, h3, h4, h5, h6⟩
    refine ⟨h0, ?_⟩
    rw [if_neg h1, h0]
    simp only
    rw [if_neg (by omega), if_neg (by simp [h3]), if_neg (by simp [h4]), h5]
    exact h6

/-- At most `shares` distinct IDs fit into `1..shares`. -/
theorem ids_le (ids : List Int) (n : Int) (hn : ids.Nodup) (h : ∀ i ∈ ids, 1 ≤ i ∧ i ≤ n) : ids.length ≤ n.toNat := by
  have hs : ids.toFinset ⊆ Finset.Icc 1 n := by
    intro i hi
    rw [Finset.mem_Icc]
    exact h i (List.mem_toFinset.1 hi)
  have := Finset.card_le_card hs
  rw [List.toFinset_card_of_nodup hn, Int.card_Icc] at this
  have h2 : (n + 1 - 1).toNat = n.toNat := by congr 1; omega
  omega

/-- C25, partial: an accepted configuration's threshold is at most the number of cosigners taking part (the peers and
the local node), and, if there are peers, at most the number of shares. Missing: `1 ≤ threshold`,
`2 * threshold > n`, and the bound by the number of shares without peers. -/
theorem C25_upper_bound_partial (lib : Lib) (cfg : Config) (c : CosignerConfig) (h : Accepted lib cfg c) :
    c.threshold ≤ c.peers.length + 1 ∧ (c.peers ≠ [] → (c.peers.length : Int) + 1 ≤ c.shares) := by
  obtain ⟨_, _, h2, _, _, h5, _⟩ := (accepted_iff lib cfg c).1 h
  obtain ⟨h6, h7, h8⟩ := (validateCosignerPeers_iff _ _).1 h5
  refine ⟨h2, fun hne => ?_⟩
  have := ids_le _ c.shares h6 (by
    intro i hi
    obtain ⟨p, hp, rfl⟩ := List.mem_map.1 hi
    exact h7 p hp)
  rw [List.length_map] at this
  have h0 : 0 < c.shares := by
    cases hc : c.peers with
    | nil => exact absurd hc hne
    | cons p ps => have := h7 p (by simp [hc]); omega
  omega

example : Accepted demoLib demoConfig ⟨2, 3, [108], [⟨2, [97]⟩, ⟨3, [98]⟩], [49]⟩ := ⟨rfl, by decide +kernel⟩

/-- C25 (full statement) is false: for every number `n ≥ 2` of shares and every threshold of at most `n` — zero and
negative ones and ones of at most `n / 2` included — some configuration with all `n - 1` peers is accepted. -/
theorem C25_fails (n : Nat) (hn : 2 ≤ n) (t : Int) (ht : t ≤ n) :
    ∃ cfg c, Accepted demoLib cfg c ∧ c.threshold = t ∧ c.shares = n ∧ c.peers.length + 1 = n := by
  let ps : List CosignerPeer := (List.range (n - 1)).map fun i : Nat => ⟨(i : Int) + 2, [97]⟩
  refine ⟨⟨[], [], [99], some ⟨t, n, [108], ps, [49]⟩, []⟩, ⟨t, n, [108], ps, [49]⟩, ?_, rfl, rfl, ?_⟩
  · rw [accepted_iff]
    refine ⟨rfl, by simp, ?_, rfl, rfl, ?_, rfl⟩
    · simp [ps]; omega
    · rw [validateCosignerPeers_iff]
      refine ⟨?_, ?_, ?_⟩
      · simp only [ps, List.map_map]
        refine List.Nodup.map ?_ List.nodup_range
        intro a b h
        simp at h
        exact h
      · intro p hp
        obtain ⟨i, hi, rfl⟩ := List.mem_map.1 hp
        have := List.mem_range.1 hi
        simp only; omega
      · simp [ps]; omega
  · simp [ps]; omega

/-- … and with a negative number of shares. -/
theorem C25_shares_fails : ∃ cfg c, Accepted demoLib cfg c ∧ c.shares = -1 ∧ c.threshold = 1 :=
  ⟨⟨[], [], [99], some ⟨1, -1, [108], [], [49]⟩, []⟩, _, ⟨rfl, by decide +kernel⟩, rfl, rfl⟩

/-- C25, exactly: the thresholds, numbers of shares and numbers of peers that accepted configurations have. Nothing bounds the
threshold from below, and without peers nothing but 0 is refused as the number of shares. -/
theorem C25_exact (t shares : Int) (m : Nat) :
    (∃ cfg c, Accepted demoLib cfg c ∧ c.threshold = t ∧ c.shares = shares ∧ c.peers.length = m) ↔
      t ≤ m + 1 ∧ (m = 0 → shares ≠ 0) ∧ (m ≠ 0 → (m : Int) + 1 ≤ shares) := by
  constructor
  · rintro ⟨cfg, c, h, rfl, rfl, rfl⟩
    obtain ⟨h1, h2⟩ := C25_upper_bound_partial demoLib cfg c h
    obtain ⟨_, _, _, _, _, h5, _⟩ := (accepted_iff demoLib cfg c).1 h
    obtain ⟨_, _, h8⟩ := (validateCosignerPeers_iff _ _).1 h5
    exact ⟨h1, fun h0 h => h8 (by rw [h0, h]; rfl), fun h0 => h2 (fun h => h0 (by rw [h]; rfl))⟩
  · rintro ⟨h1, h2, h3⟩
    let ps : List CosignerPeer := (List.range m).map fun i : Nat => ⟨(i : Int) + 2, [97]⟩
    refine ⟨⟨[], [], [99], some ⟨t, shares, [108], ps, [49]⟩, []⟩, ⟨t, shares, [108], ps, [49]⟩, ?_, rfl, rfl, by simp [ps]⟩
    rw [accepted_iff]
    refine ⟨rfl, by simp, ?_, rfl, rfl, ?_, rfl⟩
    · simp [ps]; omega
    · rw [validateCosignerPeers_iff]
      refine ⟨?_, ?_, ?_⟩
      · simp only [ps, List.map_map]
        refine List.Nodup.map ?_ List.nodup_range
        intro a b h
        simp at h
        exact h
      · intro p hp
        obtain ⟨i, hi, rfl⟩ := List.mem_map.1 hp
        have := List.mem_range.1 hi
        have := h3 (by omega)
        simp only; omega
      · simp only [ps, List.length_map, List.length_range]
        by_cases h0 : m = 0
        · have := h2 h0; omega
        · have := h3 h0; omega

/-- With two peers any threshold up to 3 and any number of shares from 3; without peers minus one share. -/
example : ((-5 : Int) ≤ ((2 : Nat) : Int) + 1 ∧ ((2 : Nat) = 0 → (9 : Int) ≠ 0) ∧ ((2 : Nat) ≠ 0 → ((2 : Nat) : Int) + 1 ≤ 9)) ∧
    ¬ ((4 : Int) ≤ ((2 : Nat) : Int) + 1) := by decide

/-! ### C50 -/

/-- C50: a peer list is accepted exactly when its share IDs are pairwise distinct, all within `1..shares`, and their
number differs from `shares`. -/
theorem C50_accepted_iff (peers : List CosignerPeer) (shares : Int) :
    validateCosignerPeers peers shares = .ok () ↔
      (peers.map (·.shareID)).Nodup ∧ (∀ p ∈ peers, 1 ≤ p.shareID ∧ p.shareID ≤ shares) ∧
      (peers.length : Int) ≠ shares :=
  validateCosignerPeers_iff peers shares

/-- C50: in an accepted non-empty peer list there are fewer peers than shares, and some share ID is left for the local
node. -/
theorem C50_room (peers : List CosignerPeer) (shares : Int) (h : validateCosignerPeers peers shares = .ok ())
    (hne : peers ≠ []) :
    (peers.length : Int) < shares ∧ ∃ i, 1 ≤ i ∧ i ≤ shares ∧ ∀ p ∈ peers, p.shareID ≠ i := by
  obtain ⟨h6, h7, h8⟩ := (C50_accepted_iff _ _).1 h
  have hle := ids_le _ shares h6 (by
    intro i hi
    obtain ⟨p, hp, rfl⟩ := List.mem_map.1 hi
    exact h7 p hp)
  rw [List.length_map] at hle
  have h0 : 0 < shares := by
    cases hc : peers with
    | nil => exact absurd hc hne
    | cons p ps => have := h7 p (by simp [hc]); omega
  have hlt : (peers.length : Int) < shares := by omega
  refine ⟨hlt, ?_⟩
  by_contra hcon
  push Not at hcon
  have hs : Finset.Icc 1 shares ⊆ (peers.map (·.shareID)).toFinset := by
    intro i hi
    rw [Finset.mem_Icc] at hi
    obtain ⟨p, hp, he⟩ := hcon i hi.1 hi.2
    rw [List.mem_toFinset, List.mem_map]
    exact ⟨p, hp, he⟩
  have := Finset.card_le_card hs
  rw [List.toFinset_card_of_nodup h6, Int.card_Icc, List.length_map] at this
  omega

/-- C50: which error a refused list gives: repeated IDs come first, then IDs out of range, then the count. -/
theorem C50_errors (peers : List CosignerPeer) (shares : Int) (e : CfgErr)
    (h : validateCosignerPeers peers shares = .error e) :
    (e = .duplicateIDs ∧ ¬ (peers.map (·.shareID)).Nodup) ∨
    (e = .idOutOfRange ∧ ∃ p ∈ peers, p.shareID < 1 ∨ shares < p.shareID) ∨
    (e = .tooManyPeers ∧ (peers.length : Int) = shares) := by
  unfold validateCosignerPeers at h
  split at h
  · next h1 =>
    refine Or.inl ⟨by simpa using h.symm, ?_⟩
    intro hn
    apply h1
    rw [(duplicatePeers_nil [] peers).2 ⟨hn, by simp⟩]; rfl
  · split at h
    · next h1 =>
      refine Or.inr (Or.inl ⟨by simpa using h.symm, ?_⟩)
      simpa [List.any_eq_true] using h1
    · split at h
      · next h1 => exact Or.inr (Or.inr ⟨by simpa using h.symm, h1⟩)
      · simp at h

example : validateCosignerPeers [⟨2, [97]⟩, ⟨3, [98]⟩] 3 = .ok () ∧
    validateCosignerPeers [⟨2, [97]⟩, ⟨2, [98]⟩] 3 = .error .duplicateIDs ∧
    validateCosignerPeers [⟨2, [97]⟩, ⟨4, [98]⟩] 3 = .error .idOutOfRange ∧
    validateCosignerPeers [⟨2, [97]⟩, ⟨1, [98]⟩] 2 = .error .tooManyPeers := by decide +kernel

/-! ### C51 -/

/-- The addresses named by the argument of `nodes add`/`nodes remove`: the comma-separated pieces. -/
abbrev pieces (arg : Str) : List Str := splitOn comma arg

/-- The pieces of a text are the only texts without commas that join to it. -/
theorem pieces_iff (arg : Str) (ps : List Str) :
    pieces arg = ps ↔ ps ≠ [] ∧ joinWith 44 ps = arg ∧ ∀ p ∈ ps, (44 : UInt8) ∉ p := by
  constructor
  · rintro rfl
    exact ⟨splitOn_ne_nil _ _, join_splitOn _ _, splitOn_pieces _ _⟩
  · rintro ⟨h1, rfl, h2⟩
    exact splitOn_join _ _ h1 h2

theorem finish_done {cfg cfg' : Config} {r : Except CfgErr Config} (h : CfgCmd.run.finish cfg r = (.done, cfg')) :
    r = .ok cfg' := by
  unfold CfgCmd.run.finish at h
  split at h <;> simp at h; simp [h]

theorem onCosigner_done {cfg cfg' : Config} {f : CosignerConfig → Except CfgErr CosignerConfig}
    (h : CfgCmd.run.onCosigner cfg f = (.done, cfg')) :
    ∃ c c', cfg.cosigner = some c ∧ f c = .ok c' ∧ cfg' = { cfg with cosigner := some c' } := by
  unfold CfgCmd.run.onCosigner at h
  split at h
  · simp at h
  · next c hc =>
    split at h
    · next c' hc' => simp at h; exact ⟨c, c', hc, hc', h.symm⟩
    · simp at h

theorem addNodes_ok {lib : Lib} {cfg cfg' : Config} {arg : Str} (h : addNodes lib cfg arg = .ok cfg') :
    cfg' = { cfg with chainNodes := cfg.chainNodes ++ (pieces arg).filter (fun x => decide (x ∉ cfg.chainNodes)) } ∧
    (pieces arg).filter (fun x => decide (x ∉ cfg.chainNodes)) ≠ [] ∧ validateChainNodes lib cfg'.chainNodes = .ok () := by
  unfold addNodes at h
  split at h
  · simp at h
  · next nodes hn =>
    have hp : nodes = pieces arg := by
      unfold chainNodesFromArg parseChainNodes at hn
      split at hn <;> simp at hn
      exact hn.symm
    subst hp
    simp only at h
    split at h
    · simp at h
    · next hne =>
      split at h
      · simp at h
      · next hv =>
        simp only [Except.ok.injEq] at h
        subst h
        rw [diffSet_eq _ _ (fun _ => inferInstance)] at hne hv
        rw [diffSet_eq _ _ (fun _ => inferInstance)]
        exact ⟨rfl, by simpa using hne, hv⟩

theorem removeNodes_ok {lib : Lib} {cfg cfg' : Config} {arg : Str} (h : removeNodes lib cfg arg = .ok cfg') :
    cfg' = { cfg with chainNodes := cfg.chainNodes.filter (fun x => decide (x ∉ pieces arg)) } ∧
    cfg'.chainNodes ≠ [] ∧ validateChainNodes lib cfg'.chainNodes = .ok () := by
  unfold removeNodes at h
  split at h
  · simp at h
  · next nodes hn =>
    have hp : nodes = pieces arg := by
      unfold chainNodesFromArg parseChainNodes at hn
      split at hn <;> simp at hn
      exact hn.symm
    subst hp
    simp only at h
    split at h
    · simp at h
    · next hne =>
      split at h
      · simp at h
      · next hv =>
        simp only [Except.ok.injEq] at h
        subst h
        rw [diffSet_eq _ _ (fun _ => inferInstance)] at hne hv
        rw [diffSet_eq _ _ (fun _ => inferInstance)]
        exact ⟨rfl, by simpa using hne, hv⟩

theorem addPeers_ok {c c' : CosignerConfig} {arg : Str} (h : addPeers c arg = .ok c') :
    ∃ l, peersFromFlag arg = .ok l ∧ c' = { c with peers := c.peers ++ l.filter (fun x => decide (x ∉ c.peers)) } ∧
      l.filter (fun x => decide (x ∉ c.peers)) ≠ [] ∧ validateCosignerPeers c'.peers c'.shares = .ok () := by
  unfold addPeers at h
  split at h
  · simp at h
  · next l hl =>
    simp only at h
    split at h
    · simp at h
    · next hne =>
      split at h
      · simp at h
      · next hv =>
        simp only [Except.ok.injEq] at h
        subst h
        rw [diffSet_eq _ _ (fun _ => inferInstance)] at hne hv
        rw [diffSet_eq _ _ (fun _ => inferInstance)]
        exact ⟨l, hl, rfl, by simpa using hne, hv⟩

theorem removePeers_ok {c c' : CosignerConfig} {arg : Str} (h : removePeers c arg = .ok c') :
    c' = { c with peers := c.peers.filter (fun p => decide (¬ ∃ s ∈ pieces arg, Numeral s p.shareID)) } ∧
      c'.peers ≠ [] ∧ (∀ s ∈ pieces arg, ∃ n, Numeral s n) ∧ validateCosignerPeers c'.peers c'.shares = .ok () := by
  unfold removePeers at h
  split at h
  · simp at h
  · next l hl =>
    simp only at h
    split at h
    · simp at h
    · next hne =>
      split at h
      · simp at h
      · next hv =>
        simp only [Except.ok.injEq] at h
        subst h
        have hm := namedPeers_ok _ _ _ hl
        have hf : diffSet c.peers l = c.peers.filter (fun p => decide (¬ ∃ s ∈ pieces arg, Numeral s p.shareID)) := by
          rw [diffSet_eq _ _ (fun _ => inferInstance)]
          apply List.filter_congr
          intro p hp
          simp only [hm p, hp, true_and, ← parseInt_iff]
        rw [← hf]
        refine ⟨rfl, by simpa using hne, ?_, hv⟩
        intro s hs
        cases hps : parseInt s with
        | some n => exact ⟨n, (parseInt_iff _ _).1 hps⟩
        | none =>
          exfalso
          have hpe : c.peers ≠ [] := by
            intro he
            apply hne
            rw [he]; rfl
          obtain ⟨e, he⟩ := (namedPeers_err (splitOn comma arg) c.peers).2 ⟨hpe, s, hs, hps⟩
          rw [he] at hl
          simp at hl

/-- C51: a command that does not succeed leaves the configuration as it was. -/
theorem C51_failure (lib : Lib) (cfg cfg' : Config) (cmd : CfgCmd) (r : CmdRes) (h : cmd.run lib cfg = (r, cfg'))
    (hr : r ≠ .done) : cfg' = cfg := by
  have hfin : ∀ x, CfgCmd.run.finish cfg x = (r, cfg') → cfg' = cfg := by
    intro x hx
    unfold CfgCmd.run.finish at hx
    split at hx
    · simp only [Prod.mk.injEq] at hx; exact absurd hx.1.symm hr
    · simp only [Prod.mk.injEq] at hx; exact hx.2.symm
  have hon : ∀ f, CfgCmd.run.onCosigner cfg f = (r, cfg') → cfg' = cfg := by
    intro f hx
    unfold CfgCmd.run.onCosigner at hx
    split at hx
    · simp only [Prod.mk.injEq] at hx; exact hx.2.symm
    · split at hx
      · simp only [Prod.mk.injEq] at hx; exact absurd hx.1.symm hr
      · simp only [Prod.mk.injEq] at hx; exact hx.2.symm
  cases cmd with
  | nodesAdd arg => exact hfin _ h
  | nodesRemove arg => exact hfin _ h
  | peersAdd arg =>
    simp only [CfgCmd.run] at h
    split at h
    · simp only [Prod.mk.injEq] at h; exact h.2.symm
    · exact hon _ h
  | peersRemove arg => exact hon _ h
  | setShares arg =>
    simp only [CfgCmd.run] at h
    split at h
    · simp only [Prod.mk.injEq] at h; exact h.2.symm
    · exact hon _ h

/-- C51, nodes: adding keeps the nodes and appends those named that are new (at least one), removing keeps those not
named (at least one); nothing else changes. -/
theorem C51_nodes (lib : Lib) (cfg cfg' : Config) (arg : Str) :
    ((CfgCmd.nodesAdd arg).run lib cfg = (.done, cfg') →
      cfg' = { cfg with chainNodes := cfg.chainNodes ++ (pieces arg).filter (· ∉ cfg.chainNodes) } ∧
      ∃ n ∈ pieces arg, n ∉ cfg.chainNodes) ∧
    ((CfgCmd.nodesRemove arg).run lib cfg = (.done, cfg') →
      cfg' = { cfg with chainNodes := cfg.chainNodes.filter (· ∉ pieces arg) } ∧ cfg'.chainNodes ≠ []) := by
  constructor
  · intro h
    obtain ⟨h1, h2, _⟩ := addNodes_ok (finish_done h)
    refine ⟨h1, ?_⟩
    obtain ⟨x, hx⟩ := List.exists_mem_of_ne_nil _ h2
    rw [List.mem_filter] at hx
    exact ⟨x, hx.1, by simpa using hx.2⟩
  · intro h
    obtain ⟨h1, h2, _⟩ := removeNodes_ok (finish_done h)
    exact ⟨h1, h2⟩

/-- C51, peers: adding keeps the peers and appends those named that are new (at least one), removing keeps those whose
ID is not named (at least one); nothing else changes. (`C53` says how a peer list is written.) -/
theorem C51_peers (lib : Lib) (cfg cfg' : Config) (arg : Str) :
    ((CfgCmd.peersAdd arg).run lib cfg = (.done, cfg') →
      ∃ c l, cfg.cosigner = some c ∧ peersFromFlag arg = .ok l ∧
        cfg' = { cfg with cosigner := some { c with peers := c.peers ++ l.filter (· ∉ c.peers) } } ∧
        ∃ p ∈ l, p ∉ c.peers) ∧
    ((CfgCmd.peersRemove arg).run lib cfg = (.done, cfg') →
      ∃ c ps, cfg.cosigner = some c ∧ cfg' = { cfg with cosigner := some { c with peers := ps } } ∧ ps ≠ [] ∧
        (∀ s ∈ pieces arg, ∃ n, Numeral s n) ∧
        ps = c.peers.filter (fun p => ∀ s ∈ pieces arg, ¬ Numeral s p.shareID)) := by
  constructor
  · intro h
    simp only [CfgCmd.run] at h
    split at h
    · simp at h
    · obtain ⟨c, c', h1, h2, h3⟩ := onCosigner_done h
      obtain ⟨l, h4, rfl, h5, _⟩ := addPeers_ok h2
      obtain ⟨x, hx⟩ := List.exists_mem_of_ne_nil _ h5
      rw [List.mem_filter] at hx
      exact ⟨c, l, h1, h4, h3, x, hx.1, by simpa using hx.2⟩
  · intro h
    obtain ⟨c, c', h1, h2, h3⟩ := onCosigner_done h
    obtain ⟨h4, h5, h6, _⟩ := removePeers_ok h2
    refine ⟨c, c'.peers, h1, ?_, h5, h6, ?_⟩
    · rw [h3, h4]
    · rw [h4]
      apply List.filter_congr
      intro p _
      simp only [decide_eq_decide]
      push Not
      rfl

/-- C51, shares: `set-shares` changes only the number of shares, to the number given. -/
theorem C51_shares (lib : Lib) (cfg cfg' : Config) (arg : Str)
    (h : (CfgCmd.setShares arg).run lib cfg = (.done, cfg')) :
    ∃ c n, cfg.cosigner = some c ∧ Numeral arg n ∧ cfg' = { cfg with cosigner := some { c with shares := n } } ∧
      validateCosignerPeers c.peers n = .ok () := by
  simp only [CfgCmd.run] at h
  split at h
  · simp at h
  · next n hn =>
    obtain ⟨c, c', h1, h2, h3⟩ := onCosigner_done h
    unfold setShares at h2
    rw [hn] at h2
    simp only at h2
    split at h2
    · simp at h2
    · next hv =>
      simp only [Except.ok.injEq] at h2
      subst h2
      exact ⟨c, n, h1, (parseInt_iff _ _).1 hn, h3, hv⟩

/-- C51: a node survives any sequence of commands that do not remove it by name. -/
theorem C51_survives (lib : Lib) (cfg : Config) (cmds : List CfgCmd) (n : Str) (hn : n ∈ cfg.chainNodes)
    (h : ∀ arg, CfgCmd.nodesRemove arg ∈ cmds → n ∉ pieces arg) : n ∈ (runCmds lib cfg cmds).chainNodes := by
  induction cmds generalizing cfg with
  | nil => exact hn
  | cons cmd cmds ih =>
    refine ih _ ?_ (fun arg ha => h arg (List.mem_cons_of_mem _ ha))
    show n ∈ (cmd.run lib cfg).2.chainNodes
    generalize hx : cmd.run lib cfg = x
    obtain ⟨r, cfg'⟩ := x
    by_cases hr : r = .done
    · subst hr
      cases cmd with
      | nodesAdd arg =>
        rw [((C51_nodes lib cfg _ arg).1 hx).1]
        exact List.mem_append_left _ hn
      | nodesRemove arg =>
        rw [((C51_nodes lib cfg _ arg).2 hx).1]
        exact List.mem_filter.2 ⟨hn, by simpa using h arg (by simp)⟩
      | peersAdd arg =>
        obtain ⟨c, l, _, _, h3, _⟩ := (C51_peers lib cfg _ arg).1 hx
        rw [h3]; exact hn
      | peersRemove arg =>
        obtain ⟨c, l, _, h3, _⟩ := (C51_peers lib cfg _ arg).2 hx
        rw [h3]; exact hn
      | setShares arg =>
        obtain ⟨c, l, _, _, h3, _⟩ := C51_shares lib cfg _ arg hx
        rw [h3]; exact hn
    · rw [C51_failure lib cfg _ cmd _ hx hr]; exact hn

/-- `nodes add n,p`, `peers remove 3`, `peers remove 2,+3` and `peers add c|1`. -/
example :
    (CfgCmd.nodesAdd [110, 44, 112]).run demoLib demoConfig = (.done, { demoConfig with chainNodes := [[110], [111], [112]] }) ∧
    (CfgCmd.nodesRemove [110, 44, 112]).run demoLib demoConfig = (.done, { demoConfig with chainNodes := [[111]] }) ∧
    ((CfgCmd.peersRemove [51]).run demoLib demoConfig).2.cosigner.map (·.peers) = some [⟨2, [97]⟩] ∧
    (CfgCmd.peersRemove [50, 44, 43, 51]).run demoLib demoConfig = (.failed .removesAll, demoConfig) ∧
    (CfgCmd.peersAdd [99, 124, 49]).run demoLib demoConfig = (.failed .tooManyPeers, demoConfig) ∧
    (CfgCmd.setShares [52]).run demoLib demoConfig =
      (.done, { demoConfig with cosigner := demoConfig.cosigner.map ({ · with shares := 4 }) }) := by decide +kernel

/-! ### C52 -/

/-- C52, partial: a list of chain nodes is accepted exactly if its *last* address parses (or it is empty). Missing: the
addresses before the last. -/
theorem C52_last_partial (lib : Lib) (nodes : List Str) :
    validateChainNodes lib nodes = .ok () ↔ ∀ n ∈ nodes.getLast?, lib.urlOk n = true :=
  validateChainNodes_iff lib nodes

/-- C52 (full statement) is false: whatever URL parsing does, any list of bad addresses is accepted if a good one
follows. -/
theorem C52_fails (lib : Lib) (bad : List Str) (good : Str) (hg : lib.urlOk good = true) :
    validateChainNodes lib (bad ++ [good]) = .ok () := by
  rw [C52_last_partial]; simpa using hg

example : validateChainNodes demoLib [[33], [110]] = .ok () ∧ validateChainNodes demoLib [[110], [33]] = .error .badURL ∧
    demoLib.urlOk [33] = false := by decide +kernel

/-! ### C53 -/

/-- C53: writing a non-empty peer list whose addresses contain no separators and parsing it gives the list back. -/
theorem C53_round_trip (ps : List CosignerPeer) (hne : ps ≠ [])
    (h : ∀ p ∈ ps, IsI64 p.shareID ∧ (44 : UInt8) ∉ p.p2pAddr ∧ (124 : UInt8) ∉ p.p2pAddr) :
    peersFromFlag (peersText (ps.map fun p => (p.shareID, p.p2pAddr))) = .ok ps := by
  unfold peersFromFlag peersText
  rw [show comma = 44 from rfl, splitOn_join]
  · rw [peersFromFlag_go, List.map_map, List.forall₂_map_left_iff, List.forall₂_same]
    intro p hp
    obtain ⟨h1, h2, h3⟩ := h p hp
    have hs : splitOn bar (p.p2pAddr ++ 124 :: intText p.shareID) = [p.p2pAddr, intText p.shareID] := by
      rw [show bar = 124 from rfl, splitOn_append _ _ _ h3,
        splitOn_single _ _ (intText_no_sep _ _ (Or.inr rfl))]
    simp only [Function.comp_apply, hs, List.getLast_cons_cons, List.getLast_singleton, true_and]
    exact (parseInt_iff _ _).2 (numeral_intText _ h1)
  · simpa using hne
  · intro t ht
    simp only [List.map_map, List.mem_map, Function.comp_apply] at ht
    obtain ⟨p, hp, rfl⟩ := ht
    obtain ⟨h1, h2, h3⟩ := h p hp
    simp only [List.mem_append, List.mem_cons, not_or]
    exact ⟨h2, by decide, intText_no_sep _ _ (Or.inl rfl)⟩

/-- C53: a text is accepted exactly if each comma-separated entry is an address without `|`, one `|`, and a numeral;
the peers are these, in order. -/
theorem C53_accepted_iff (s : Str) (ps : List CosignerPeer) :
    peersFromFlag s = .ok ps ↔
      List.Forall₂ (fun t p => ∃ num, t = p.p2pAddr ++ 124 :: num ∧ (124 : UInt8) ∉ p.p2pAddr ∧ (124 : UInt8) ∉ num ∧
        Numeral num p.shareID) (pieces s) ps := by
  unfold peersFromFlag
  rw [peersFromFlag_go]
  have key : ∀ (t : Str) (p : CosignerPeer),
      (splitOn bar t = [p.p2pAddr, (splitOn bar t).getLast (splitOn_ne_nil bar t)] ∧
        parseInt ((splitOn bar t).getLast (splitOn_ne_nil bar t)) = some p.shareID) ↔
      ∃ num, t = p.p2pAddr ++ 124 :: num ∧ (124 : UInt8) ∉ p.p2pAddr ∧ (124 : UInt8) ∉ num ∧ Numeral num p.shareID := by
    intro t p
    constructor
    · rintro ⟨h1, h2⟩
      generalize (splitOn bar t).getLast (splitOn_ne_nil bar t) = num at h1 h2
      have hj := join_splitOn bar t
      have hp := splitOn_pieces bar t
      rw [h1] at hj hp
      exact ⟨num, hj.symm, hp _ (by simp), hp _ (by simp), (parseInt_iff _ _).1 h2⟩
    · rintro ⟨num, rfl, h1, h2, h3⟩
      have hs : splitOn bar (p.p2pAddr ++ 124 :: num) = [p.p2pAddr, num] := by
        rw [show bar = 124 from rfl, splitOn_append _ _ _ h1, splitOn_single _ _ h2]
      simp only [hs, List.getLast_cons_cons, List.getLast_singleton, true_and]
      exact (parseInt_iff _ _).2 h3
  simp only [key]

/-- C53: a text with an entry without exactly one `|`, or with something other than a numeral after it, is refused. -/
theorem C53_refused (s t : Str) (ht : t ∈ pieces s)
    (hb : t.count 124 ≠ 1 ∨ ∃ addr num, t = addr ++ 124 :: num ∧ ∀ n, ¬ Numeral num n) :
    ∃ e, peersFromFlag s = .error e := by
  cases hp : peersFromFlag s with
  | error e => exact ⟨e, rfl⟩
  | ok ps =>
    exfalso
    have hf := (C53_accepted_iff s ps).1 hp
    have key : ∀ (l : List Str) (ps : List CosignerPeer), List.Forall₂ (fun t p => ∃ num, t = p.p2pAddr ++ 124 :: num ∧
        (124 : UInt8) ∉ p.p2pAddr ∧ (124 : UInt8) ∉ num ∧ Numeral num p.shareID) l ps → t ∈ l →
        ∃ p : CosignerPeer, ∃ num, t = p.p2pAddr ++ 124 :: num ∧
        (124 : UInt8) ∉ p.p2pAddr ∧ (124 : UInt8) ∉ num ∧ Numeral num p.shareID := by
      intro l ps hf ht
      induction hf with
      | nil => cases ht
      | @cons a b _ _ h _ ih =>
        rcases List.mem_cons.1 ht with rfl | ht
        · exact ⟨b, h⟩
        · exact ih ht
    obtain ⟨p, num, rfl, h1, h2, h3⟩ := key _ _ hf ht
    rcases hb with hb | ⟨addr, num', he, hn⟩
    · apply hb
      rw [List.count_append, List.count_cons_self, List.count_eq_zero_of_not_mem h1, List.count_eq_zero_of_not_mem h2]
    · have : num' = num := by
        have h4 : (124 : UInt8) ∉ addr := by
          intro hm
          have hc := congrArg (List.count 124) he
          rw [List.count_append, List.count_append, List.count_cons_self, List.count_cons_self,
            List.count_eq_zero_of_not_mem h1, List.count_eq_zero_of_not_mem h2] at hc
          have := List.count_pos_iff.2 hm
          omega
        have h5 : (124 : UInt8) ∉ num' := by
          intro hm
          have hc := congrArg (List.count 124) he
          rw [List.count_append, List.count_append, List.count_cons_self, List.count_cons_self,
            List.count_eq_zero_of_not_mem h1, List.count_eq_zero_of_not_mem h2] at hc
          have := List.count_pos_iff.2 hm
          omega
        have := congrArg (splitOn 124) he
        rw [splitOn_append _ _ _ h1, splitOn_append _ _ _ h4, splitOn_single _ _ h2, splitOn_single _ _ h5] at this
        simp only [List.cons.injEq, and_true] at this
        exact this.2.symm
      exact hn _ (this ▸ h3)

/-- `tcp://a|2,b|-7` and four refused texts. -/
example : peersFromFlag [116, 99, 112, 58, 47, 47, 97, 124, 50, 44, 98, 124, 45, 55] =
      .ok [⟨2, [116, 99, 112, 58, 47, 47, 97]⟩, ⟨-7, [98]⟩] ∧
    peersText [(2, [116, 99, 112, 58, 47, 47, 97]), (-7, [98])] =
      [116, 99, 112, 58, 47, 47, 97, 124, 50, 44, 98, 124, 45, 55] ∧
    peersFromFlag [97] = .error .badPeer ∧ peersFromFlag [97, 124, 50, 124, 51] = .error .badPeer ∧
    peersFromFlag [97, 124, 32, 50] = .error .badNumber ∧ peersFromFlag [] = .error .badPeer := by decide +kernel

/-! ### C60 -/

/-- C60, partial: every editing command other than `peers remove` turns an accepted configuration into an accepted one.
Missing: `peers remove`, see `C60_peers_remove_partial`. -/
theorem C60_accepted_partial (lib : Lib) (cfg cfg' : Config) (c : CosignerConfig) (cmd : CfgCmd)
    (hcmd : ∀ arg, cmd ≠ .peersRemove arg) (ha : Accepted lib cfg c) (h : cmd.run lib cfg = (.done, cfg')) :
    ∃ c', Accepted lib cfg' c' := by
  obtain ⟨h0, h1, h2, h3, h4, h5, h6⟩ := (accepted_iff lib cfg c).1 ha
  cases cmd with
  | peersRemove arg => exact absurd rfl (hcmd arg)
  | nodesAdd arg =>
    obtain ⟨hc, _, hv⟩ := addNodes_ok (finish_done h)
    refine ⟨c, (accepted_iff _ _ _).2 ⟨?_, ?_, h2, h3, h4, h5, hv⟩⟩ <;> rw [hc] <;> assumption
  | nodesRemove arg =>
    obtain ⟨hc, _, hv⟩ := removeNodes_ok (finish_done h)
    refine ⟨c, (accepted_iff _ _ _).2 ⟨?_, ?_, h2, h3, h4, h5, hv⟩⟩ <;> rw [hc] <;> assumption
  | peersAdd arg =>
    simp only [CfgCmd.run] at h
    split at h
    · simp at h
    · obtain ⟨c1, c2, g1, g2, g3⟩ := onCosigner_done h
      obtain ⟨l, _, g4, _, g5⟩ := addPeers_ok g2
      rw [h0] at g1
      simp only [Option.some.injEq] at g1
      subst g1
      refine ⟨c2, (accepted_iff _ _ _).2 ⟨by rw [g3], by rw [g3]; exact h1, ?_, ?_, ?_, g5, by rw [g3]; exact h6⟩⟩
      · rw [g4]; simp only [List.length_append]; omega
      · rw [g4]; exact h3
      · rw [g4]; exact h4
  | setShares arg =>
    obtain ⟨c1, n, g1, _, g3, g4⟩ := C51_shares lib cfg _ arg h
    rw [h0] at g1
    simp only [Option.some.injEq] at g1
    subst g1
    exact ⟨{ c with shares := n }, (accepted_iff _ _ _).2
      ⟨by rw [g3], by rw [g3]; exact h1, h2, h3, h4, g4, by rw [g3]; exact h6⟩⟩

/-- C60, partial: `peers remove` keeps an accepted configuration accepted exactly if enough peers for the threshold are
left. Missing: the command does not check this. -/
theorem C60_peers_remove_partial (lib : Lib) (cfg cfg' : Config) (c : CosignerConfig) (arg : Str)
    (ha : Accepted lib cfg c) (h : (CfgCmd.peersRemove arg).run lib cfg = (.done, cfg')) :
    ∃ c', cfg'.cosigner = some c' ∧ c'.threshold = c.threshold ∧
      (Accepted lib cfg' c' ↔ c.threshold ≤ c'.peers.length + 1) := by
  obtain ⟨h0, h1, h2, h3, h4, h5, h6⟩ := (accepted_iff lib cfg c).1 ha
  obtain ⟨c1, c2, g1, g2, g3⟩ := onCosigner_done h
  obtain ⟨g4, _, _, g5⟩ := removePeers_ok g2
  rw [h0] at g1
  simp only [Option.some.injEq] at g1
  subst g1
  refine ⟨c2, by rw [g3], by rw [g4], ?_⟩
  rw [accepted_iff]
  constructor
  · rintro ⟨_, _, k, _⟩
    rw [g4] at k ⊢
    exact k
  · intro k
    refine ⟨by rw [g3], by rw [g3]; exact h1, ?_, ?_, ?_, g5, by rw [g3]; exact h6⟩
    · rw [g4] at k ⊢; exact k
    · rw [g4]; exact h3
    · rw [g4]; exact h4

/-- C60 (full statement) is false: `peers remove 2` on a configuration with threshold 3. -/
theorem C60_fails : ∃ (cfg : Config) (c : CosignerConfig) (cmd : CfgCmd) (cfg' : Config), Accepted demoLib cfg c ∧ cmd.run demoLib cfg = (.done, cfg') ∧
    validateCosignerConfig demoLib cfg' = .error .tooFewPeers :=
  ⟨{ demoConfig with cosigner := demoConfig.cosigner.map ({ · with threshold := 3 }) }, _, .peersRemove [50], _,
    ⟨rfl, by decide +kernel⟩, rfl, by decide +kernel⟩

/-- C60: from a configuration with a valid peer list, no sequence of commands leads to one with an invalid peer list. -/
theorem C60_peers_valid (lib : Lib) (cfg : Config) (cmds : List CfgCmd)
    (h : ∀ c, cfg.cosigner = some c → validateCosignerPeers c.peers c.shares = .ok ()) :
    ∀ c, (runCmds lib cfg cmds).cosigner = some c → validateCosignerPeers c.peers c.shares = .ok () := by
  induction cmds generalizing cfg with
  | nil => exact h
  | cons cmd cmds ih =>
    apply ih
    show ∀ c, (cmd.run lib cfg).2.cosigner = some c → _
    generalize hx : cmd.run lib cfg = x
    obtain ⟨r, cfg'⟩ := x
    by_cases hr : r = .done
    · subst hr
      intro c hc
      cases cmd with
      | nodesAdd arg =>
        rw [((C51_nodes lib cfg _ arg).1 hx).1] at hc
        exact h c hc
      | nodesRemove arg =>
        rw [((C51_nodes lib cfg _ arg).2 hx).1] at hc
        exact h c hc
      | peersAdd arg =>
        simp only [CfgCmd.run] at hx
        split at hx
        · simp at hx
        · obtain ⟨c1, c2, g1, g2, g3⟩ := onCosigner_done hx
          obtain ⟨l, _, g4, _, g5⟩ := addPeers_ok g2
          rw [g3] at hc
          simp only [Option.some.injEq] at hc
          exact hc ▸ g5
      | peersRemove arg =>
        obtain ⟨c1, c2, g1, g2, g3⟩ := onCosigner_done hx
        obtain ⟨g4, _, _, g5⟩ := removePeers_ok g2
        rw [g3] at hc
        simp only [Option.some.injEq] at hc
        exact hc ▸ g5
      | setShares arg =>
        obtain ⟨c1, n, _, _, g3, g4⟩ := C51_shares lib cfg _ arg hx
        rw [g3] at hc
        simp only [Option.some.injEq] at hc
        exact hc ▸ g4
    · rw [C51_failure lib cfg _ cmd _ hx hr]; exact h

example : ∀ c, demoConfig.cosigner = some c → validateCosignerPeers c.peers c.shares = .ok () := by
  intro c hc; simp [demoConfig] at hc; subst hc; decide +kernel

end Horcrux
