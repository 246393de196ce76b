import Verif.Model.Prim
/-
`cmd/horcrux/cmd/config.go`: the configuration and the commands that edit it. Strings are byte strings. `url.Parse`,
`net.SplitHostPort` and `time.ParseDuration` (standard library) are parameters; YAML encoding is not modelled (a
configuration file is the configuration it encodes).
-/
namespace Horcrux

/-- A Go string. -/
abbrev Str := Bytes

/-- Library predicates: whether `url.Parse` / `time.ParseDuration` accept a string, and the host that
`net.SplitHostPort` finds in the URL's host part (`none` if it fails). -/
structure Lib where
  urlOk : Str → Bool
  durationOk : Str → Bool
  hostOf : Str → Option Str

/-- The errors of the configuration commands. -/
inductive CfgErr where
  | emptyChainID       -- 186, 199
  | noCosigner         -- 202
  | noNodes            -- 128, 189
  | tooFewPeers        -- 205
  | badTimeout         -- 211
  | badListen          -- 214, 100, 104
  | emptyListen        -- 96
  | unspecifiedHost    -- 107
  | duplicateIDs       -- 566
  | idOutOfRange       -- 572
  | tooManyPeers       -- 580
  | badPeer            -- 602
  | badNumber          -- 606, 396, 443
  | badURL             -- 631
  | nothingNew         -- 254, 357
  | removesAll         -- 294, 406
  | alreadyExists      -- 77
  | io
  deriving DecidableEq, Repr

/-- `config.go:558-561`. -/
structure CosignerPeer where
  shareID : Int
  p2pAddr : Str
  deriving DecidableEq, Repr

/-- `config.go:543-549`. -/
structure CosignerConfig where
  threshold : Int
  shares : Int
  p2pListen : Str
  peers : List CosignerPeer
  timeout : Str
  deriving DecidableEq, Repr

/-- `config.go:520-526`; a chain node (613-615) is its address. -/
structure Config where
  homeDir : Str
  privValKeyFile : Str
  chainID : Str
  cosigner : Option CosignerConfig
  chainNodes : List Str
  deriving DecidableEq, Repr

/-- `,` and `|`. -/
def comma : UInt8 := 44
def bar : UInt8 := 124

/-- `strings.Split(s, sep)` for a one-byte separator. -/
def splitOn (sep : UInt8) : Str → List Str
  | [] => [[]]
  | c :: s =>
    if c = sep then [] :: splitOn sep s
    else
      match splitOn sep s with
      | [] => [[c]]
      | h :: t => (c :: h) :: t

/-- Value of a string of decimal digits, continuing from `acc`; `none` if another byte occurs. -/
def digits : Nat → Str → Option Nat
  | acc, [] => some acc
  | acc, c :: s => if 48 ≤ c ∧ c ≤ 57 then digits (acc * 10 + (c.toNat - 48)) s else none

/-- `strconv.ParseInt(s, 10, 64)` and `strconv.Atoi(s)` (standard library; `int` has 64 bits): an optional sign and at
least one digit, within range. -/
def parseInt : Str → Option Int
  | [] => none
  | c :: s =>
    let neg := c = 45
    let body := if c = 43 ∨ c = 45 then s else c :: s
    if body = [] then none
    else
      match digits 0 body with
      | none => none
      | some n =>
        if neg then (if n ≤ 2 ^ 63 then some (-(n : Int)) else none)
        else (if n < 2 ^ 63 then some (n : Int) else none)

/-- `config.go:598-611` `peersFromFlag`. -/
def peersFromFlag (s : Str) : Except CfgErr (List CosignerPeer) :=
  go (splitOn comma s)
where
  /-- The loop over the entries. -/
  go : List Str → Except CfgErr (List CosignerPeer)
  | [] => .ok []
  | p :: ps =>
    match splitOn bar p with
    | [addr, num] =>
      match parseInt num with
      | none => .error .badNumber
      | some n =>
        match go ps with
        | .ok l => .ok (⟨n, addr⟩ :: l)
        | .error e => .error e
    | _ => .error .badPeer

/-- `config.go:586-596` `duplicatePeers`: the peers whose ID was encountered before; `seen` are the encountered IDs. -/
def duplicatePeers : List Int → List CosignerPeer → List CosignerPeer
  | _, [] => []
  | seen, p :: ps => if p.shareID ∈ seen then p :: duplicatePeers seen ps else duplicatePeers (p.shareID :: seen) ps

/-- `config.go:563-584` `validateCosignerPeers`. -/
def validateCosignerPeers (peers : List CosignerPeer) (shares : Int) : Except CfgErr Unit :=
  if (duplicatePeers [] peers).length ≠ 0 then .error .duplicateIDs
  else if peers.any (fun p => decide (p.shareID < 1 ∨ p.shareID > shares)) then .error .idOutOfRange
  else if (peers.length : Int) = shares then .error .tooManyPeers
  else .ok ()

/-- `config.go:622-627` `parseChainNodes`. -/
def parseChainNodes (s : Str) : List Str := splitOn comma s

/-- `config.go:629-634` `validateChainNodes`: the named result `err` is overwritten in every iteration. -/
def validateChainNodes (lib : Lib) (nodes : List Str) : Except CfgErr Unit :=
  nodes.foldl (fun _ n => if lib.urlOk n then .ok () else .error .badURL) (.ok ())

/-- `config.go:617-620` `chainNodesFromArg`. -/
def chainNodesFromArg (lib : Lib) (arg : Str) : Except CfgErr (List Str) :=
  match validateChainNodes lib (parseChainNodes arg) with
  | .ok () => .ok (parseChainNodes arg)
  | .error e => .error e

/-- `config.go:184-195` `validateSingleSignerConfig`. -/
def validateSingleSignerConfig (lib : Lib) (cfg : Config) : Except CfgErr Unit :=
  if cfg.chainID = [] then .error .emptyChainID
  else if cfg.chainNodes.length = 0 then .error .noNodes
  else validateChainNodes lib cfg.chainNodes

/-- `config.go:197-223` `validateCosignerConfig`. -/
def validateCosignerConfig (lib : Lib) (cfg : Config) : Except CfgErr Unit :=
  if cfg.chainID = [] then .error .emptyChainID
  else
    match cfg.cosigner with
    | none => .error .noCosigner
    | some c =>
      if (c.peers.length : Int) + 1 < c.threshold then .error .tooFewPeers
      else if lib.durationOk c.timeout = false then .error .badTimeout
      else if lib.urlOk c.p2pListen = false then .error .badListen
      else
        match validateCosignerPeers c.peers c.shares with
        | .error e => .error e
        | .ok () => validateChainNodes lib cfg.chainNodes

/-- `config.go:311-326, 458-473` `diffSetChainNode`, `diffSetCosignerPeer`. -/
def diffSet {α : Type} [DecidableEq α] (a b : List α) : List α := a.filter (fun x => !b.any (fun y => decide (x = y)))

/-- `config.go:239-266` `nodes add`: the configuration written, or the error. (Failure of the write itself is not
modelled here.) -/
def addNodes (lib : Lib) (cfg : Config) (arg : Str) : Except CfgErr Config :=
  match chainNodesFromArg lib arg with
  | .error e => .error e
  | .ok argNodes =>
    let diff := diffSet argNodes cfg.chainNodes
    if diff.length = 0 then .error .nothingNew
    else
      let diff := cfg.chainNodes ++ diff
      match validateChainNodes lib diff with
      | .error e => .error e
      | .ok () => .ok { cfg with chainNodes := diff }

/-- `config.go:279-307` `nodes remove`. -/
def removeNodes (lib : Lib) (cfg : Config) (arg : Str) : Except CfgErr Config :=
  match chainNodesFromArg lib arg with
  | .error e => .error e
  | .ok argNodes =>
    let diff := diffSet cfg.chainNodes argNodes
    if diff.length = 0 then .error .removesAll
    else
      match validateChainNodes lib diff with
      | .error e => .error e
      | .ok () => .ok { cfg with chainNodes := diff }

/-- `config.go:342-369` `peers add`. The commands on peers dereference `config.CosignerConfig` unconditionally: without
a cosigner section they panic; here the section is an argument. -/
def addPeers (c : CosignerConfig) (arg : Str) : Except CfgErr CosignerConfig :=
  match peersFromFlag arg with
  | .error e => .error e
  | .ok argPeers =>
    let diff := diffSet argPeers c.peers
    if diff.length = 0 then .error .nothingNew
    else
      let diff := c.peers ++ diff
      match validateCosignerPeers diff c.shares with
      | .error e => .error e
      | .ok () => .ok { c with peers := diff }

/-- `config.go:393-401`, the inner loop of `peers remove` for one peer: how often its ID is named. -/
def namedIDs (peer : CosignerPeer) : List Str → Except CfgErr (List CosignerPeer)
  | [] => .ok []
  | s :: ss =>
    match parseInt s with
    | none => .error .badNumber
    | some id =>
      match namedIDs peer ss with
      | .error e => .error e
      | .ok l => .ok (if peer.shareID = id then peer :: l else l)

/-- `config.go:391-402`, the loops of `peers remove`. -/
def namedPeers (ids : List Str) : List CosignerPeer → Except CfgErr (List CosignerPeer)
  | [] => .ok []
  | p :: ps =>
    match namedIDs p ids with
    | .error e => .error e
    | .ok l =>
      match namedPeers ids ps with
      | .error e => .error e
      | .ok l' => .ok (l ++ l')

/-- `config.go:382-419` `peers remove`. -/
def removePeers (c : CosignerConfig) (arg : Str) : Except CfgErr CosignerConfig :=
  match namedPeers (splitOn comma arg) c.peers with
  | .error e => .error e
  | .ok argPeers =>
    let diff := diffSet c.peers argPeers
    if diff.length = 0 then .error .removesAll
    else
      match validateCosignerPeers diff c.shares with
      | .error e => .error e
      | .ok () => .ok { c with peers := diff }

/-- `config.go:432-454` `peers set-shares`. -/
def setShares (c : CosignerConfig) (arg : Str) : Except CfgErr CosignerConfig :=
  match parseInt arg with
  | none => .error .badNumber
  | some n =>
    match validateCosignerPeers c.peers n with
    | .error e => .error e
    | .ok () => .ok { c with shares := n }

/-- The editing commands (`config.go:225-456`). -/
inductive CfgCmd where
  | nodesAdd (arg : Str)
  | nodesRemove (arg : Str)
  | peersAdd (arg : Str)
  | peersRemove (arg : Str)
  | setShares (arg : Str)
  deriving DecidableEq, Repr

/-- How a command ends. -/
inductive CmdRes where
  | done
  | failed (e : CfgErr)
  | crash
  deriving DecidableEq, Repr

/-- Run an editing command on the configuration in the file; the second component is the configuration in the file
afterwards. The file is only written (`writeConfigFile`, 180-182) when every check passed, and the write is assumed to
succeed. The commands on peers dereference `config.CosignerConfig`: they crash without a cosigner section (except that
`peers add` (348) and `set-shares` (440) parse their argument first). -/
def CfgCmd.run (lib : Lib) (cfg : Config) : CfgCmd → CmdRes × Config
  | .nodesAdd arg => finish cfg (addNodes lib cfg arg)
  | .nodesRemove arg => finish cfg (removeNodes lib cfg arg)
  | .peersAdd arg =>
    match peersFromFlag arg with
    | .error e => (.failed e, cfg)
    | .ok _ => onCosigner cfg (Horcrux.addPeers · arg)
  | .peersRemove arg => onCosigner cfg (Horcrux.removePeers · arg)
  | .setShares arg =>
    match parseInt arg with
    | none => (.failed .badNumber, cfg)
    | some _ => onCosigner cfg (Horcrux.setShares · arg)
where
  /-- Write the new configuration, or report the error. -/
  finish (cfg : Config) : Except CfgErr Config → CmdRes × Config
    | .ok c => (.done, c)
    | .error e => (.failed e, cfg)
  /-- Edit the cosigner section. -/
  onCosigner (cfg : Config) (f : CosignerConfig → Except CfgErr CosignerConfig) : CmdRes × Config :=
    match cfg.cosigner with
    | none => (.crash, cfg)
    | some c =>
      match f c with
      | .ok c' => (.done, { cfg with cosigner := some c' })
      | .error e => (.failed e, cfg)

/-- The configuration after a sequence of commands. -/
def runCmds (lib : Lib) (cfg : Config) (cmds : List CfgCmd) : Config :=
  cmds.foldl (fun c cmd => (cmd.run lib c).2) cfg

/-- The flags of `config init` (`config.go:167-176`). -/
structure InitArgs where
  chainID : Str
  chainNodes : Option Str
  cosigner : Bool
  peers : Str
  threshold : Int
  listen : Str
  keyFile : Str
  timeout : Str
  overwrite : Bool

/-- `config.go:55-61`: the chain nodes of the command line. -/
def initNodes (lib : Lib) (a : InitArgs) : Except CfgErr (List Str) :=
  match a.chainNodes with
  | none => .ok []
  | some arg => chainNodesFromArg lib arg

/-- `config.go:54-61, 81-139`: the configuration `config init` builds for home directory `home`, or the error. -/
def initConfig (lib : Lib) (home : Str) (a : InitArgs) : Except CfgErr Config :=
  match initNodes lib a with
  | .error e => .error e
  | .ok cn =>
    if a.cosigner then
      match peersFromFlag a.peers with
      | .error e => .error e
      | .ok peers =>
        if a.listen = [] then .error .emptyListen
        else if lib.urlOk a.listen = false then .error .badListen
        else
          match lib.hostOf a.listen with
          | none => .error .badListen
          | some host =>
            if host = [48, 46, 48, 46, 48, 46, 48] then .error .unspecifiedHost
            else
              let cfg : Config :=
                { homeDir := home, privValKeyFile := a.keyFile, chainID := a.chainID,
                  cosigner := some { threshold := a.threshold, shares := peers.length + 1, p2pListen := a.listen,
                                     peers := peers, timeout := a.timeout },
                  chainNodes := cn }
              match validateCosignerConfig lib cfg with
              | .error e => .error e
              | .ok () => .ok cfg
    else if cn.length = 0 then .error .noNodes
    else
      let cfg : Config :=
        { homeDir := home, privValKeyFile := a.keyFile, chainID := a.chainID, cosigner := none, chainNodes := cn }
      match validateSingleSignerConfig lib cfg with
      | .error e => .error e
      | .ok () => .ok cfg

end Horcrux
