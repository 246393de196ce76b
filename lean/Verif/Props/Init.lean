import Verif.Props.FS
/-
C62: which flags `config init` accepts, and what it writes.
-/
namespace Horcrux
open Spec

namespace Spec

/-- `0.0.0.0`. -/
def unspecified : Bytes := "0.0.0.0".toUTF8.data.toList

/-- The chain node addresses given on the command line: the comma-separated pieces (`pieces_iff` says what these are). -/
def namedNodes (a : InitArgs) : List Bytes := (a.chainNodes.map (Horcrux.splitOn 44)).getD []

/-- The flags a single signer is initialised with: a chain ID and chain nodes, the last of which parses. -/
def SingleFlags (lib : Lib) (a : InitArgs) : Prop :=
  a.cosigner = false ∧ a.chainID ≠ [] ∧ ∃ nodes last, namedNodes a = nodes ++ [last] ∧ lib.urlOk last = true

/-- The flags a cosigner with these peers is initialised with. -/
def CosignerFlags (lib : Lib) (a : InitArgs) (peers : List CosignerPeer) : Prop :=
  a.cosigner = true ∧ a.chainID ≠ [] ∧
  -- the peers flag reads as these peers
  List.Forall₂ (fun t p => ∃ num, t = p.p2pAddr ++ 124 :: num ∧ (124 : UInt8) ∉ p.p2pAddr ∧ (124 : UInt8) ∉ num ∧
    Numeral num p.shareID) (Horcrux.splitOn 44 a.peers) peers ∧
  -- they are all the other cosigners
  (peers.map (·.shareID)).Nodup ∧ (∀ p ∈ peers, 1 ≤ p.shareID ∧ p.shareID ≤ peers.length + 1) ∧
  a.threshold ≤ peers.length + 1 ∧
  -- the address to listen on
  a.listen ≠ [] ∧ lib.urlOk a.listen = true ∧ (∃ host, lib.hostOf a.listen = some host ∧ host ≠ unspecified) ∧
  lib.durationOk a.timeout = true ∧
  -- the last chain node, if there is any
  ∀ n ∈ (namedNodes a).getLast?, lib.urlOk n = true

/-- The cosigner section asked for: the number of shares is that of the peers and the node itself. -/
def askedSection (a : InitArgs) (peers : List CosignerPeer) : CosignerConfig :=
  { threshold := a.threshold, shares := peers.length + 1, p2pListen := a.listen, peers := peers, timeout := a.timeout }

/-- The configuration asked for. -/
def askedConfig (home : Bytes) (a : InitArgs) (cosigner : Option CosignerConfig) : Config :=
  { homeDir := home, privValKeyFile := a.keyFile, chainID := a.chainID, cosigner := cosigner,
    chainNodes := namedNodes a }

end Spec

theorem unspecified_eq : unspecified = [48, 46, 48, 46, 48, 46, 48] := by decide +kernel

theorem initNodes_eq (lib : Lib) (a : InitArgs) :
    initNodes lib a =
      if (∀ n ∈ (namedNodes a).getLast?, lib.urlOk n = true) then Except.ok (namedNodes a) else .error .badURL := by
  unfold initNodes namedNodes
  cases h : a.chainNodes with
  | none => simp
  | some arg =>
    simp only [Option.map_some, Option.getD_some]
    unfold chainNodesFromArg parseChainNodes
    rw [show (44 : UInt8) = comma from rfl]
    have hv := validateChainNodes_iff lib (splitOn comma arg)
    by_cases hl : ∀ n ∈ (splitOn comma arg).getLast?, lib.urlOk n = true
    · rw [hv.2 hl, if_pos hl]
    · rw [if_neg hl]
      cases hc : validateChainNodes lib (splitOn comma arg) with
      | ok u => exact absurd (hv.1 (by cases u; exact hc)) hl
      | error e =>
        simp only
        have : ∀ (l : List Str) (r : Except CfgErr Unit), (r = .ok () ∨ r = .error .badURL) →
            l.foldl (fun _ n => if lib.urlOk n then Except.ok () else .error CfgErr.badURL) r = .ok () ∨
            l.foldl (fun _ n => if lib.urlOk n then Except.ok () else .error CfgErr.badURL) r = .error .badURL := by
          intro l
          induction l with
          | nil => intro r hr; exact hr
          | cons x l ih => intro r _; apply ih; dsimp only; split <;> simp
        have h2 := this (splitOn comma arg) (.ok ()) (Or.inl rfl)
        unfold validateChainNodes at hc
        rw [hc] at h2
        simpa using h2

/-- C62: a single signer is initialised exactly if there are a chain ID and chain nodes whose last address parses, with
the configuration that was asked for. -/
theorem C62_single (lib : Lib) (home : Str) (a : InitArgs) (ha : a.cosigner = false) (cfg : Config) :
    initConfig lib home a = .ok cfg ↔ SingleFlags lib a ∧
      cfg = askedConfig home a none := by
  have hlast : (∃ nodes last, namedNodes a = nodes ++ [last] ∧ lib.urlOk last = true) ↔
      namedNodes a ≠ [] ∧ ∀ n ∈ (namedNodes a).getLast?, lib.urlOk n = true := by
    constructor
    · rintro ⟨nodes, last, h, hu⟩
      rw [h]; simpa using hu
    · rintro ⟨hne, h⟩
      refine ⟨(namedNodes a).dropLast, (namedNodes a).getLast hne, (List.dropLast_append_getLast hne).symm, ?_⟩
      exact h _ (by rw [List.getLast?_eq_getLast_of_ne_nil hne]; rfl)
  unfold SingleFlags
  rw [hlast]
  unfold initConfig
  rw [initNodes_eq, ha]
  by_cases hu : ∀ n ∈ (namedNodes a).getLast?, lib.urlOk n = true
  · rw [if_pos hu]
    simp only [Bool.false_eq_true, if_false]
    by_cases hn : (namedNodes a).length = 0
    · rw [if_pos hn]
      simp [List.length_eq_zero_iff.1 hn]
    · rw [if_neg hn]
      have hn' : namedNodes a ≠ [] := fun h => hn (by rw [h]; rfl)
      unfold validateSingleSignerConfig
      simp only
      by_cases hc : a.chainID = []
      · simp [hc]
      · rw [if_neg hc, if_neg hn, (validateChainNodes_iff lib _).2 hu]
        simp only [Except.ok.injEq]
        constructor
        · intro h; exact ⟨⟨trivial, hc, hn', hu⟩, h.symm⟩
        · intro h; exact h.2.symm
  · rw [if_neg hu]
    simp only [reduceCtorEq, false_iff]
    rintro ⟨⟨_, _, _, h⟩, _⟩
    exact hu h

/-- C62: a cosigner is initialised exactly if all flags are as they should be, with the configuration that was asked
for; the number of shares is that of the peers and the node itself. -/
theorem C62_cosigner (lib : Lib) (home : Str) (a : InitArgs) (ha : a.cosigner = true) (cfg : Config) :
    initConfig lib home a = .ok cfg ↔ ∃ peers, CosignerFlags lib a peers ∧
      cfg = askedConfig home a (some (askedSection a peers)) := by
  unfold CosignerFlags
  have h53 := C53_accepted_iff a.peers
  unfold pieces at h53
  rw [show comma = 44 from rfl] at h53
  simp only [← h53]
  unfold initConfig
  rw [initNodes_eq, ha]
  by_cases hu : ∀ n ∈ (namedNodes a).getLast?, lib.urlOk n = true
  · rw [if_pos hu]
    simp only [if_true]
    cases hp : peersFromFlag a.peers with
    | error e => simp
    | ok peers =>
      simp only [Except.ok.injEq]
      by_cases hl : a.listen = []
      · simp [hl]
      · rw [if_neg hl]
        by_cases hul : lib.urlOk a.listen = true
        · rw [if_neg (by simp [hul])]
          cases hh : lib.hostOf a.listen with
          | none => simp
          | some host =>
            simp only [Option.some.injEq]
            rw [← unspecified_eq]
            by_cases hz : host = unspecified
            · rw [if_pos hz]
              simp only [reduceCtorEq, false_iff]
              rintro ⟨ps, ⟨_, _, _, _, _, _, _, _, ⟨host', e, hne⟩, _⟩, _⟩
              exact hne (e ▸ hz)
            · rw [if_neg hz]
              have hacc := accepted_iff lib (askedConfig home a (some (askedSection a peers))) (askedSection a peers)
              unfold Accepted at hacc
              rw [C50_accepted_iff, validateChainNodes_iff] at hacc
              simp only [askedConfig, askedSection, true_and] at hacc
              simp only [askedConfig, askedSection]
              constructor
              · intro h
                split at h
                · cases h
                · next hv =>
                  obtain ⟨h1, h2, h3, _, ⟨h4, h5, _⟩, _⟩ := hacc.1 hv
                  refine ⟨peers, ⟨trivial, h1, rfl, h4, h5, h2, hl, hul, ⟨host, rfl, hz⟩, h3, hu⟩, ?_⟩
                  simpa using h.symm
              · rintro ⟨ps, ⟨_, h1, rfl, h4, h5, h2, _, _, _, h3, _⟩, rfl⟩
                rw [hacc.2 ⟨h1, h2, h3, hul, ⟨h4, h5, by omega⟩, hu⟩]
        · rw [if_pos (by simpa using hul)]
          simp [hul]
  · rw [if_neg hu]
    simp only [reduceCtorEq, false_iff]
    rintro ⟨ps, ⟨_, _, _, _, _, _, _, _, _, _, h⟩, _⟩
    exact hu h

/-- C62: what `config init --cosigner` writes passes the checks of `cosigner start`; what it writes without the flag
passes those of `signer start`. -/
theorem C62_starts (lib : Lib) (home : Str) (a : InitArgs) (cfg : Config) (h : initConfig lib home a = .ok cfg) :
    (a.cosigner = true → validateCosignerConfig lib cfg = .ok ()) ∧
    (a.cosigner = false → validateSingleSignerConfig lib cfg = .ok ()) := by
  constructor
  · intro ha
    obtain ⟨peers, ⟨_, h1, _, h4, h5, h2, _, hul, _, h3, hu⟩, rfl⟩ := (C62_cosigner lib home a ha cfg).1 h
    have hacc := (accepted_iff lib (askedConfig home a (some (askedSection a peers))) (askedSection a peers)).2
      ⟨rfl, h1, h2, h3, hul, (C50_accepted_iff _ _).2 ⟨h4, h5, by simp only [askedSection]; omega⟩, (validateChainNodes_iff _ _).2 hu⟩
    exact hacc.2
  · intro ha
    obtain ⟨⟨_, hc, nodes, last, hn, hu⟩, rfl⟩ := (C62_single lib home a ha cfg).1 h
    unfold validateSingleSignerConfig askedConfig
    simp only
    rw [if_neg hc, if_neg (by rw [hn]; simp)]
    rw [validateChainNodes_iff, hn]
    simpa using hu

/-- Flags of a cosigner with two peers, `a|2,b|3`. -/
def demoFlags : InitArgs :=
  { chainID := [99], chainNodes := some [110, 44, 111], cosigner := true, peers := [97, 124, 50, 44, 98, 124, 51],
    threshold := 2, listen := [108], keyFile := [], timeout := [49], overwrite := false }

example : initConfig demoLib [104] demoFlags = .ok { demoConfig with homeDir := [104] } ∧
    initConfig demoLib [104] { demoFlags with cosigner := false } =
      .ok ⟨[104], [], [99], none, [[110], [111]]⟩ ∧
    initConfig demoLib [104] { demoFlags with cosigner := false, chainNodes := none } = .error .noNodes ∧
    initConfig demoLib [104] { demoFlags with listen := [48, 46, 48, 46, 48, 46, 48] } = .error .unspecifiedHost := by
  decide +kernel

end Horcrux
