import Verif.Lemmas.Url
import Verif.Props.Membership
import Verif.Props.Init
/-
C89: everything that is sent to a cosigner goes to the host and port its address names. C90: the listen address `config init`
takes can be used by the other cosigners. C91: chain nodes are dialled at the host and port their addresses name.
-/
namespace Horcrux
open Spec

/-! ### C89 -/

/-- C89, partial: requests of signing rounds, raft messages, leadership transfers and `horcrux elect` go to the host and port
that the address names, and this is the port the cosigner listens on. Missing: addresses of other forms, which the validation
accepts as well; see the theorems `C89_…_fails`. -/
theorem C89_partial (u host port : Str) (h : Names u host port) :
    cosignerTarget u = host ++ [58] ++ port ∧ raftAddr urlHost u = host ++ [58] ++ port ∧
    electAddr u = some (host ++ [58] ++ port) ∧ listenPort u = some port := by
  have e : host ++ [58] ++ port = host ++ 58 :: port := by simp
  rw [e]
  refine ⟨?_, ?_, ?_, ?_⟩
  · simp [cosignerTarget, urlHost_names h]
  · simp [raftAddr, urlHost_names h]
  · simp [electAddr, urlHost_names h, split_names h]
  · simp [listenPort, raftAddr, urlHost_names h, split_names h]

/-- C89, partial: the same with an IPv6 address, but not for `horcrux elect`. -/
theorem C89_v6_partial (u host port : Str) (h : NamesV6 u host port) :
    cosignerTarget u = [91] ++ host ++ [93, 58] ++ port ∧ raftAddr urlHost u = [91] ++ host ++ [93, 58] ++ port ∧
    listenPort u = some port := by
  have e : [91] ++ host ++ [93, 58] ++ port = 91 :: (host ++ 93 :: 58 :: port) := by simp
  rw [e]
  refine ⟨?_, ?_, ?_⟩
  · simp [cosignerTarget, urlHost_v6 h]
  · simp [raftAddr, urlHost_v6 h]
  · simp [listenPort, raftAddr, urlHost_v6 h, split_v6 h]

/-- C89: signing rounds and raft always mean the same place, whatever the address. -/
theorem C89_same (u : Str) : cosignerTarget u = raftAddr urlHost u := rfl

/-- C89: what `horcrux elect` dials is the place that signing rounds use, except for the brackets of an IPv6 address. -/
theorem C89_elect (u a : Str) (h : electAddr u = some a) :
    ∃ host port, a = host ++ [58] ++ port ∧ 58 ∉ port ∧
      ((58 ∉ host ∧ cosignerTarget u = a) ∨ cosignerTarget u = [91] ++ host ++ [93, 58] ++ port) := by
  unfold electAddr at h
  unfold cosignerTarget
  cases hu : urlHost u with
  | none => rw [hu] at h; cases h
  | some x =>
    rw [hu] at h
    simp only at h ⊢
    cases hs : splitHostPort x with
    | none => rw [hs] at h; cases h
    | some q =>
      obtain ⟨host, port⟩ := q
      rw [hs] at h
      cases h
      obtain ⟨h1, -, -, -, -, h2⟩ := splitHostPort_iff.1 hs
      refine ⟨host, port, by simp, h1, ?_⟩
      rcases h2 with ⟨h3, h4⟩ | h4
      · exact .inl ⟨h3, h4⟩
      · exact .inr (by simp [h4])

/-- Host and port are the only ones with that text. -/
theorem endpoint_inj {h h' p p' : Str} (hp : (58 : UInt8) ∉ p) (hp' : (58 : UInt8) ∉ p') (e : h ++ 58 :: p = h' ++ 58 :: p') :
    h = h' ∧ p = p' := by
  have a := (cutLast_some (s := h ++ 58 :: p)).2 ⟨rfl, hp⟩
  have b := cutLast_some.2 ⟨e, hp'⟩
  rw [a] at b
  cases b
  exact ⟨rfl, rfl⟩

/-- C89, partial: cosigners whose configurations agree and whose addresses name different places all start with the raft
configuration that has one voter for each of them at the place its address names, and `horcrux elect` on any of them asks all
of them. Missing: addresses of other forms. -/
theorem C89_cluster_partial (n : Nat) (hn : n < 2 ^ 63) (url host port : Nat → Str) (cfgs : Nat → CosignerConfig)
    (h : Agree n url cfgs) (hu : ∀ j, 1 ≤ j → j ≤ n → Names (url j) (host j) (port j))
    (hd : ∀ j k, 1 ≤ j → j ≤ n → 1 ≤ k → k ≤ n → host j = host k → port j = port k → j = k)
    (i : Nat) (h1 : 1 ≤ i) (h2 : i ≤ n) :
    (∃ c, bootstrap none (bootServers urlHost i (cfgs i)) = some c ∧
      c.Perm ((List.range' 1 n).map fun j : Nat => ⟨true, decInt j, host j ++ [58] ++ port j⟩)) ∧
    ∃ l, electTarget (cfgs i) = text "multi:///" ++ joinComma l ∧
      l.Perm ((List.range' 1 n).map fun j : Nat => host j ++ [58] ++ port j) := by
  have hg : ∀ j, 1 ≤ j → j ≤ n → (urlHost (url j)).getD (url j) = host j ++ [58] ++ port j := by
    intro j a b
    rw [urlHost_names (hu j a b)]
    simp
  constructor
  · obtain ⟨c, hc, hp⟩ := C68_partial urlHost n hn url cfgs h
      (fun j a b => by rw [hg j a b]; simp)
      (fun j k a b a' b' e => by
        rw [hg j a b, hg k a' b'] at e
        simp only [List.append_assoc, List.singleton_append] at e
        obtain ⟨_, _, _, pj, _⟩ := hu j a b
        obtain ⟨_, _, _, pk, _⟩ := hu k a' b'
        obtain ⟨e1, e2⟩ := endpoint_inj (port_noColon pj).1 (port_noColon pk).1 e
        exact hd j k a b a' b' e1 e2) i h1 h2
    refine ⟨c, hc, hp.trans (.of_eq ?_)⟩
    unfold members
    apply List.map_congr_left
    intro j hj
    rw [List.mem_range'_1] at hj
    rw [hg j hj.1 (by omega)]
  · refine ⟨_, rfl, ?_⟩
    obtain ⟨hl, hp⟩ := h i h1 h2
    have e1 : ((cfgs i).p2pListen :: (cfgs i).peers.map (·.p2pAddr)).Perm ((List.range' 1 n).map url) := by
      rw [hl]
      have a := hp.map (·.p2pAddr)
      rw [List.map_map] at a
      refine (a.cons _).trans ?_
      have b : (i :: (List.range' 1 n).filter fun j : Nat => j ≠ i).Perm (List.range' 1 n) := by
        have hm : i ∈ List.range' 1 n := List.mem_range'_1.2 ⟨h1, by omega⟩
        rw [show ((List.range' 1 n).filter fun j : Nat => decide (j ≠ i)) = (List.range' 1 n).erase i from by
          rw [List.Nodup.erase_eq_filter List.nodup_range']
          congr 1; funext j; simp [bne, BEq.beq]]
        exact (List.perm_cons_erase hm).symm
      exact b.map url
    refine (e1.filterMap _).trans (.of_eq ?_)
    rw [List.filterMap_map]
    have : ∀ l : List Nat, (∀ j ∈ l, 1 ≤ j ∧ j ≤ n) →
        l.filterMap (electAddr ∘ url) = l.map fun j : Nat => host j ++ [58] ++ port j := by
      intro l hl
      induction l with
      | nil => rfl
      | cons j l ih =>
        obtain ⟨a, b⟩ := hl j (by simp)
        rw [List.filterMap_cons_some (b := host j ++ [58] ++ port j), ih fun k hk => hl k (by simp [hk])]
        · rfl
        · exact (C89_partial _ _ _ (hu j a b)).2.2.1
    apply this
    intro j hj
    rw [List.mem_range'_1] at hj
    omega

/-- `node-1`, `node-2`, … -/
def nodeHost (j : Nat) : Str := text "node-" ++ [UInt8.ofNat (48 + j)]

/-- `tcp://node-1:2222`, `tcp://node-2:2222`, … -/
def nodeUrl (j : Nat) : Str := text "tcp://" ++ nodeHost j ++ text ":2222"

theorem nodeUrl_names (j : Nat) (h1 : 1 ≤ j) (h2 : j ≤ 9) : Names (nodeUrl j) (nodeHost j) (text "2222") := by
  refine ⟨text "tcp", ⟨116, text "cp", by decide +kernel, by decide +kernel, by decide +kernel⟩, ?_,
    ⟨by decide +kernel, by decide +kernel⟩, ?_⟩
  · refine ⟨by simp [nodeHost], ?_⟩
    have : ∀ j : Fin 10, ∀ d ∈ nodeHost j.val, Letter d ∨ Digit d ∨ d = 45 ∨ d = 46 ∨ d = 95 ∨ d = 126 := by decide +kernel
    exact this ⟨j, by omega⟩
  · unfold nodeUrl
    rw [show text "tcp://" = text "tcp" ++ [58, 47, 47] by decide +kernel, show text ":2222" = [58] ++ text "2222" by decide +kernel]
    simp

/-- The configurations of three cosigners at these addresses. -/
def nodeCluster (i : Nat) : CosignerConfig :=
  ⟨2, 3, nodeUrl i, ((List.range' 1 3).filter fun j : Nat => j ≠ i).map fun j : Nat => ⟨(j : Int), nodeUrl j⟩, [49]⟩

example : Agree 3 nodeUrl nodeCluster ∧ (∀ j, 1 ≤ j → j ≤ 3 → Names (nodeUrl j) (nodeHost j) (text "2222")) ∧
    (∀ j k, 1 ≤ j → j ≤ 3 → 1 ≤ k → k ≤ 3 → nodeHost j = nodeHost k → text "2222" = text "2222" → j = k) ∧
    electTarget (nodeCluster 2) = text "multi:///node-2:2222,node-1:2222,node-3:2222" := by
  refine ⟨fun _ _ _ => ⟨rfl, .refl _⟩, fun j a b => nodeUrl_names j a (by omega), ?_, by decide +kernel⟩
  intro j k a b a' b' e _
  have : ∀ j k : Fin 4, nodeHost j.val = nodeHost k.val → j = k := by decide +kernel
  exact congrArg Fin.val (this ⟨j, by omega⟩ ⟨k, by omega⟩ e)

/-- An IPv6 address. -/
theorem v6_names : NamesV6 (text "tcp://[fd00::2]:2222") (text "fd00::2") (text "2222") :=
  ⟨text "tcp", ⟨116, text "cp", by decide +kernel, by decide +kernel, by decide +kernel⟩,
    ⟨by decide +kernel, by decide +kernel⟩, ⟨by decide +kernel, by decide +kernel⟩, by decide +kernel⟩

/-- A configuration of cosigner 1 with these addresses of cosigners 2 and 3. -/
def withPeers (listen a b : Str) : Config :=
  { demoConfig with cosigner := some ⟨2, 3, listen, [⟨2, a⟩, ⟨3, b⟩], [49]⟩ }

/-- C89 is false of addresses without a scheme: the configuration is accepted, and everything for these cosigners goes to
the empty address; the node gets no raft configuration, and `horcrux elect` leaves them out. -/
theorem C89_no_scheme_fails : ∃ cfg cc c, startCfg (goLib fun _ => true) cfg demoKey = some cc ∧ cfg.cosigner = some c ∧
    c.peers.map (·.p2pAddr) = [text "node-2:2222", text "node-3:2222"] ∧
    (∀ p ∈ c.peers, cosignerTarget p.p2pAddr = [] ∧ raftAddr urlHost p.p2pAddr = []) ∧
    bootstrap none (bootServers urlHost demoKey.id c) = none ∧ electTarget c = text "multi:///node-1:2222" :=
  ⟨withPeers (text "tcp://node-1:2222") (text "node-2:2222") (text "node-3:2222"), _, _, rfl, rfl, by decide +kernel,
    by decide +kernel, by decide +kernel, by decide +kernel⟩

/-- C89 is false of IP addresses without a scheme: signing rounds and raft reach them, but `horcrux elect` leaves them
out. -/
theorem C89_elect_fails : ∃ cfg cc c, startCfg (goLib fun _ => true) cfg demoKey = some cc ∧ cfg.cosigner = some c ∧
    c.peers.map (fun p => cosignerTarget p.p2pAddr) = [text "10.0.0.2:2222", text "10.0.0.3:2222"] ∧
    (∃ r, bootstrap none (bootServers urlHost demoKey.id c) = some r) ∧ electTarget c = text "multi:///10.0.0.1:2222" :=
  ⟨withPeers (text "tcp://10.0.0.1:2222") (text "10.0.0.2:2222") (text "10.0.0.3:2222"), _, _, rfl, rfl, by decide +kernel,
    ⟨_, rfl⟩, by decide +kernel⟩

/-- C89 is false of every IPv6 address: `horcrux elect` loses its brackets, and what it dials is no host and port any
more. -/
theorem C89_v6_fails (u host port : Str) (h : NamesV6 u host port) (hc : 58 ∈ host) :
    electAddr u = some (host ++ [58] ++ port) ∧ splitHostPort (host ++ [58] ++ port) = none ∧
    splitHostPort (cosignerTarget u) = some (host, port) := by
  refine ⟨by simp [electAddr, urlHost_v6 h, split_v6 h], ?_, by simp [cosignerTarget, urlHost_v6 h, split_v6 h]⟩
  obtain ⟨_, _, hv, hp, _⟩ := h
  cases hs : splitHostPort (host ++ [58] ++ port) with
  | none => rfl
  | some q =>
    obtain ⟨a, b⟩ := q
    exfalso
    obtain ⟨h1, -, -, -, -, ⟨h2, e⟩ | e⟩ := splitHostPort_iff.1 hs
    · rw [List.append_assoc, List.singleton_append] at e
      obtain ⟨rfl, -⟩ := endpoint_inj (port_noColon hp).1 h1 e
      exact h2 hc
    · cases host with
      | nil => exact hv.1 rfl
      | cons x t =>
        have e' : x = 91 := (List.cons.inj e).1
        exact (v6Name_byte hv x (by simp)).2.1 e'

example : electAddr (text "tcp://[fd00::2]:2222") = some (text "fd00::2:2222") ∧
    cosignerTarget (text "tcp://[fd00::2]:2222") = text "[fd00::2]:2222" := by
  have h := (C89_v6_fails _ _ _ v6_names (by decide +kernel)).1
  exact ⟨h.trans (by decide +kernel), (C89_v6_partial _ _ _ v6_names).1.trans (by decide +kernel)⟩

/-- C89 is false of a listen address without a port: the start is accepted, and the process panics when it starts to
listen. -/
theorem C89_no_port_fails : ∃ cfg cc c, startCfg (goLib fun _ => true) cfg demoKey = some cc ∧ cfg.cosigner = some c ∧
    c.p2pListen = text "tcp://node-1" ∧ listenPort c.p2pListen = none :=
  ⟨withPeers (text "tcp://node-1") (text "tcp://node-2:2222") (text "tcp://node-3:2222"), _, _, rfl, rfl, rfl, by decide +kernel⟩

/-! ### C90 -/

/-- C90, partial: the listen address `config init` takes has a host and a port, other cosigners that are given it connect to
just these, the process listens on that port, and the host is not `0.0.0.0`. Missing: other ways to write an address that no
other cosigner can reach. -/
theorem C90_partial (d : Str → Bool) (home : Str) (a : InitArgs) (cfg : Config) (ha : a.cosigner = true)
    (h : initConfig (goLib d) home a = .ok cfg) :
    ∃ c host port, cfg.cosigner = some c ∧ c.p2pListen = a.listen ∧ host ≠ unspecified ∧ 58 ∉ port ∧
      ((58 ∉ host ∧ cosignerTarget a.listen = host ++ [58] ++ port) ∨
        cosignerTarget a.listen = [91] ++ host ++ [93, 58] ++ port) ∧ listenPort a.listen = some port := by
  obtain ⟨peers, ⟨_, _, _, _, _, _, _, _, ⟨host, hh, hne⟩, _, _⟩, rfl⟩ := (C62_cosigner _ _ _ ha _).1 h
  simp only [goLib] at hh
  cases hu : urlHost a.listen with
  | none => rw [hu] at hh; cases hh
  | some x =>
    rw [hu, Option.bind_some, Option.map_eq_some_iff] at hh
    obtain ⟨⟨host', port⟩, hs, rfl⟩ := hh
    obtain ⟨h1, -, -, -, -, h2⟩ := splitHostPort_iff.1 hs
    refine ⟨_, host', port, rfl, rfl, hne, h1, ?_, by simp [listenPort, raftAddr, hu, hs]⟩
    simp only [cosignerTarget, hu]
    rcases h2 with ⟨h3, h4⟩ | h4
    · exact .inl ⟨h3, by simp [h4]⟩
    · exact .inr (by simp [h4])

/-- C90: an address that names `0.0.0.0` is not taken. -/
theorem C90_refused (d : Str → Bool) (home : Str) (a : InitArgs) (port : Str) (ha : a.cosigner = true)
    (hn : Names a.listen unspecified port) : ∀ cfg, initConfig (goLib d) home a ≠ .ok cfg := by
  intro cfg h
  obtain ⟨peers, ⟨_, _, _, _, _, _, _, _, ⟨host, hh, hne⟩, _, _⟩, rfl⟩ := (C62_cosigner _ _ _ ha _).1 h
  simp only [goLib, urlHost_names hn, Option.bind_some, split_names hn, Option.map_some] at hh
  exact hne (Option.some.inj hh).symm

/-- C90: every address that names another host and a port is taken: with flags that `config init` accepts, any such listen
address does as well. -/
theorem C90_taken (d : Str → Bool) (home : Str) (a : InitArgs) (cfg : Config) (ha : a.cosigner = true)
    (h : initConfig (goLib d) home a = .ok cfg) (u host port : Str)
    (hn : Names u host port ∨ NamesV6 u host port) (hne : host ≠ unspecified) :
    ∃ cfg' c, initConfig (goLib d) home { a with listen := u } = .ok cfg' ∧ cfg'.cosigner = some c ∧ c.p2pListen = u := by
  obtain ⟨peers, ⟨_, h1, h2, h3, h4, h5, _, _, _, h6, h7⟩, rfl⟩ := (C62_cosigner _ _ _ ha _).1 h
  refine ⟨_, _, (C62_cosigner _ _ { a with listen := u } ha _).2
    ⟨peers, ⟨ha, h1, h2, h3, h4, h5, ?_, ?_, ⟨host, ?_, hne⟩, h6, h7⟩, rfl⟩, rfl, rfl⟩
  · rcases hn with ⟨s, _, _, _, rfl⟩ | ⟨s, _, _, _, rfl⟩ <;> simp
  · rcases hn with hn | hn
    · simp [goLib, urlHost_names hn]
    · simp [goLib, urlHost_v6 hn]
  · rcases hn with hn | hn
    · simp [goLib, urlHost_names hn, split_names hn]
    · simp [goLib, urlHost_v6 hn, split_v6 hn]

/-- `config init` of a cosigner with this listen address. -/
def listenArgs (u : Str) : InitArgs :=
  ⟨[99], none, true, text "tcp://node-2:2222|2,tcp://node-3:2222|3", 2, u, [], [49], false⟩

example : ∃ cfg, initConfig (goLib fun _ => true) [104] (listenArgs (text "tcp://node-1:2222")) = .ok cfg := ⟨_, rfl⟩

example : Names (listenArgs (text "tcp://0.0.0.0:2222")).listen unspecified (text "2222") :=
  ⟨text "tcp", ⟨116, text "cp", by decide +kernel, by decide +kernel, by decide +kernel⟩,
    ⟨by decide +kernel, by decide +kernel⟩, ⟨by decide +kernel, by decide +kernel⟩, by decide +kernel⟩

/-- C90 is false of these addresses, which are taken: no host, the unspecified address of IPv6, other ways to write the one of
IPv4, no port, a port that does not exist. -/
theorem C90_fails : ∀ u ∈ ["tcp://:2222", "tcp://[::]:2222", "tcp://0:2222", "tcp://node-1:", "tcp://node-1:99999"],
    ∃ cfg, initConfig (goLib fun _ => true) [104] (listenArgs (text u)) = .ok cfg := by
  have key : ∀ u ∈ ["tcp://:2222", "tcp://[::]:2222", "tcp://0:2222", "tcp://node-1:", "tcp://node-1:99999"],
      (match initConfig (goLib fun _ => true) [104] (listenArgs (text u)) with | .ok _ => true | .error _ => false) = true := by
    decide +kernel
  intro u hu
  have := key u hu
  cases h : initConfig (goLib fun _ => true) [104] (listenArgs (text u)) with
  | ok c => exact ⟨c, rfl⟩
  | error e => rw [h] at this; cases this

/-- C90 is false of a configuration edited by hand: the start takes `0.0.0.0`. -/
theorem C90_start_fails : ∃ cfg cc c, startCfg (goLib fun _ => true) cfg demoKey = some cc ∧ cfg.cosigner = some c ∧
    Names c.p2pListen unspecified (text "2222") :=
  ⟨withPeers (text "tcp://0.0.0.0:2222") (text "tcp://node-2:2222") (text "tcp://node-3:2222"), _, _, rfl, rfl,
    text "tcp", ⟨116, text "cp", by decide +kernel, by decide +kernel, by decide +kernel⟩,
    ⟨by decide +kernel, by decide +kernel⟩, ⟨by decide +kernel, by decide +kernel⟩, by decide +kernel⟩

/-! ### C91 -/

theorem cutScheme_of {s r : Bytes} (h : (58 : UInt8) ∉ s) : cutScheme (s ++ 58 :: 47 :: 47 :: r) = some (s, r) := by
  induction s with
  | nil => simp [cutScheme]
  | cons b s ih =>
    have hb : b ≠ 58 := fun e => h (by simp [e])
    simp only [List.cons_append, cutScheme]
    rw [if_neg (by simp [hb]), ih fun m => h (by simp [m])]
    rfl

theorem schemeWord_noColon {s : Str} (h : SchemeWord s) : (58 : UInt8) ∉ s := by
  obtain ⟨c, t, rfl, hc, ht⟩ := h
  intro hm
  rcases List.mem_cons.1 hm with rfl | hm
  · exact absurd hc (by decide +kernel)
  · exact (schemeByte_facts _ ((schemeByte_iff _).2 (ht _ hm))).2.1 rfl

/-- C91, partial: chain nodes whose addresses have the documented form are accepted, and each is dialled by the network its
address names, at the host and port it names. Missing: other addresses that are accepted. -/
theorem C91_partial (d : Str → Bool) (nodes : List Str)
    (h : ∀ u ∈ nodes, ∃ host port, Names u host port ∨ NamesV6 u host port) :
    validateChainNodes (goLib d) nodes = .ok () ∧
    ∀ u ∈ nodes, ∀ net a, SchemeWord net → u = net ++ text "://" ++ a → nodeTarget u = (net, a) := by
  constructor
  · rw [validateChainNodes_iff]
    intro u hu
    obtain ⟨host, port, hn | hn⟩ := h u (List.mem_of_getLast? hu)
    · simp [goLib, urlHost_names hn]
    · simp [goLib, urlHost_v6 hn]
  · rintro u _ net a hw rfl
    unfold nodeTarget
    rw [show text "://" = [58, 47, 47] by decide +kernel]
    rw [show net ++ [58, 47, 47] ++ a = net ++ 58 :: 47 :: 47 :: a by simp, cutScheme_of (schemeWord_noColon hw)]

/-- C91: with the scheme `tcp` that is a host and a port. -/
theorem C91_dialable (u host port : Str) (h : Names u host port ∨ NamesV6 u host port) (ht : ∃ r, u = text "tcp://" ++ r) :
    Dialable (nodeTarget u) := by
  have e3 : text "tcp://" = text "tcp" ++ [58, 47, 47] := by decide +kernel
  have n : (58 : UInt8) ∉ text "tcp" := by decide +kernel
  obtain ⟨r, hr⟩ := ht
  have fin : ∀ s w, SchemeWord s → u = s ++ [58, 47, 47] ++ w → nodeTarget u = (text "tcp", w) := by
    intro s w hs hu
    have a : cutScheme u = some (s, w) := by
      rw [hu, show s ++ [58, 47, 47] ++ w = s ++ 58 :: 47 :: 47 :: w by simp]
      exact cutScheme_of (schemeWord_noColon hs)
    have b : cutScheme u = some (text "tcp", r) := by
      rw [hr, e3, show text "tcp" ++ [58, 47, 47] ++ r = text "tcp" ++ 58 :: 47 :: 47 :: r by simp]
      exact cutScheme_of n
    rw [a] at b
    cases b
    unfold nodeTarget
    rw [a]
  rcases h with ⟨s, hs, hh, hp, e⟩ | ⟨s, hs, hh, hp, e⟩
  · rw [fin s (host ++ [58] ++ port) hs (by rw [e]; simp)]
    exact ⟨rfl, host, port, hp, .inl ⟨hh, rfl⟩⟩
  · rw [fin s ([91] ++ host ++ [93, 58] ++ port) hs (by rw [e]; simp)]
    exact ⟨rfl, host, port, hp, .inr ⟨hh, rfl⟩⟩

example : Dialable (nodeTarget (nodeUrl 1)) ∧ nodeTarget (nodeUrl 1) = (text "tcp", text "node-1:2222") :=
  ⟨C91_dialable _ _ _ (.inl (nodeUrl_names 1 (by decide) (by decide))) ⟨_, by unfold nodeUrl; rw [List.append_assoc]⟩,
    by decide +kernel⟩

theorem dialable_split {t : Str × Str} (h : Dialable t) :
    t.1 = text "tcp" ∧ ∃ host port, splitHostPort t.2 = some (host, port) ∧ PortNo port := by
  obtain ⟨h1, host, port, hp, ⟨hh, e⟩ | ⟨hh, e⟩⟩ := h
  · refine ⟨h1, host, port, ?_, hp⟩
    have hb := hostName_byte hh
    exact splitHostPort_iff.2 ⟨(port_noColon hp).1, (port_noColon hp).2.1, (port_noColon hp).2.2,
      fun m => (hb _ m).2.2.1 rfl, fun m => (hb _ m).2.2.2 rfl, .inl ⟨fun m => (hb _ m).2.1 rfl, by rw [e]; simp⟩⟩
  · refine ⟨h1, host, port, ?_, hp⟩
    have hb := v6Name_byte hh
    exact splitHostPort_iff.2 ⟨(port_noColon hp).1, (port_noColon hp).2.1, (port_noColon hp).2.2,
      fun m => (hb _ m).2.1 rfl, fun m => (hb _ m).2.2.1 rfl, .inr (by rw [e]; simp)⟩

/-- C91 is false of these addresses, which are accepted: there is no host, no port, something after the port, or a network
that does not exist. The process tries to dial them for ever. -/
theorem C91_fails (d : Str → Bool) :
    ∀ u ∈ ["", "node-1", "tcp://node-1", "tcp://node-1:1234/", "http://node-1:1234", "tcp:node-1:1234"],
      validateChainNodes (goLib d) [text u] = .ok () ∧ ¬ Dialable (nodeTarget (text u)) := by
  have key : ∀ u ∈ ["", "node-1", "tcp://node-1", "tcp://node-1:1234/", "http://node-1:1234", "tcp:node-1:1234"],
      (urlHost (text u)).isSome = true ∧ ((nodeTarget (text u)).1 = text "tcp" →
        (match splitHostPort (nodeTarget (text u)).2 with | none => true | some p => !p.2.all isDigit) = true) := by
    decide +kernel
  intro u hu
  obtain ⟨h1, h2⟩ := key u hu
  refine ⟨by simp [validateChainNodes, goLib, h1], fun hd => ?_⟩
  obtain ⟨hn, host, port, hs, hp⟩ := dialable_split hd
  have := h2 hn
  rw [hs] at this
  simp only [Bool.not_eq_true', List.all_eq_false] at this
  obtain ⟨c, hc, hx⟩ := this
  exact hx (port_digit hp c hc)

/-- C91 is false of IP addresses without a scheme: they could be dialled, but are refused. -/
theorem C91_refused_fails (d : Str → Bool) : validateChainNodes (goLib d) [text "10.0.0.1:1234"] = .error .badURL ∧
    Dialable (nodeTarget (text "10.0.0.1:1234")) := by
  refine ⟨?_, by decide +kernel, text "10.0.0.1", text "1234", ⟨by decide +kernel, by decide +kernel⟩, .inl ⟨⟨by decide +kernel, by decide +kernel⟩, by decide +kernel⟩⟩
  have : urlHost (text "10.0.0.1:1234") = none := by decide +kernel
  simp [validateChainNodes, goLib, this]

end Horcrux
