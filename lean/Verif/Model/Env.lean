import Verif.Model.Program
import Verif.Model.Json
/-
`cmd/horcrux/cmd/root.go:35-60` and the tags of `cmd/horcrux/cmd/config.go:520-615` with environment variables: the
configuration file as a tree of YAML values, read twice, once by viper (1.8.1, with mapstructure) together with the
environment, and once by yaml.v2. Both from knowledge of the libraries.

Simplified: keys are strings, no mapping has two keys that are equal up to case, keys have no dots; no anchors, merges,
floating-point numbers or dates.
-/
namespace Horcrux

/-- A YAML value. A number or truth value that is not quoted keeps its text (`raw`), which yaml.v2 takes for strings. -/
inductive YVal where
  | null
  | str (s : Str)
  | int (raw : Str) (i : Int)
  | bool (raw : Str) (b : Bool)
  | seq (l : List YVal)
  | map (l : List (Str × YVal))

/-- The values of the environment variables; empty if not set (viper takes an empty variable for none). -/
abbrev Env := Str → Str

/-- `root.go:47-48` with viper's `mergeWithEnvPrefix`: the name of the variable for a path of keys, that is `HORCRUX_`
and the keys, joined by dots, in capitals. -/
def envName (path : List Str) : Str :=
  [72, 79, 82, 67, 82, 85, 88, 95] ++
    (([46] : Str).intercalate (path.map foldKey)).map (fun c => if 97 ≤ c ∧ c ≤ 122 then c - 32 else c)

/-- viper's `Get` for a leaf: the variable of the path; nothing if a variable hides the path; the value of the file. -/
def getLeaf (env : Env) (path : List Str) (hidden : Bool) (v : YVal) : Option YVal :=
  if env (envName path) ≠ [] then some (.str (env (envName path)))
  else if hidden then none
  else match v with
    | .null => none
    | v => some v

mutual
/-- viper's `AllSettings`, one value: only leaves count; a variable for a mapping hides what is in it. -/
def YVal.settings (env : Env) (path : List Str) (hidden : Bool) : YVal → Option YVal
  | .map l =>
    match entrySettings env path (hidden || decide (env (envName path) ≠ [])) l with
    | [] => none
    | e :: l' => some (.map (e :: l'))
  | v => getLeaf env path hidden v

def entrySettings (env : Env) (path : List Str) (hidden : Bool) : List (Str × YVal) → List (Str × YVal)
  | [] => []
  | (k, v) :: l =>
    match v.settings env (path ++ [k]) hidden with
    | some v' => (k, v') :: entrySettings env path hidden l
    | none => entrySettings env path hidden l
end

/-- The value of a key, up to case (mapstructure). -/
def foldGet (name : Str) (l : List (Str × YVal)) : Option YVal := (l.find? fun e => foldKey e.1 = foldKey name).map (·.2)

/-- The value of a key (yaml.v2). -/
def keyGet (name : Str) (l : List (Str × YVal)) : Option YVal := (l.find? fun e => e.1 = name).map (·.2)

/-- mapstructure's `decodeString` with weak typing; `none` is an error. -/
def weakStr : YVal → Option Str
  | .null => some []
  | .str s => some s
  | .int _ i => some (decInt i)
  | .bool _ b => some [if b then 49 else 48]
  | _ => none

/-- mapstructure's `decodeInt` with weak typing; `num` is `strconv.ParseInt(s, 0, 64)`. -/
def weakInt (num : Str → Option Int) : YVal → Option Int
  | .null => some 0
  | .str s => num s
  | .int _ i => some i
  | .bool _ b => some (if b then 1 else 0)
  | _ => none

/-- mapstructure's `decodeSlice` with weak typing and viper's hook for strings. -/
def weakSeq {α : Type} (dec : YVal → Option α) : YVal → Option (List α)
  | .null => some []
  | .seq l => l.mapM dec
  | .map [] => some []
  | .str [] => some []
  | .str s => (splitOn comma s).mapM fun p => dec (.str p)
  | v => [v].mapM dec

/-- A field of a structure (mapstructure): as it was if there is no such key. -/
def weakField {α : Type} (dec : YVal → Option α) (zero : α) (name : Str) (l : List (Str × YVal)) : Option α :=
  match foldGet name l with
  | none => some zero
  | some v => dec v

/-- The field names `HomeDir`, `PrivValKeyFile`, `ChainID`, `CosignerConfig`, `ChainNodes` (`config.go:521-525`). -/
def fHomeDir : Str := [72, 111, 109, 101, 68, 105, 114]
def fPrivValKeyFile : Str := [80, 114, 105, 118, 86, 97, 108, 75, 101, 121, 70, 105, 108, 101]
def fChainID : Str := [67, 104, 97, 105, 110, 73, 68]
def fCosignerConfig : Str := [67, 111, 115, 105, 103, 110, 101, 114, 67, 111, 110, 102, 105, 103]
def fChainNodes : Str := [67, 104, 97, 105, 110, 78, 111, 100, 101, 115]
/-- `Threshold`, `Shares`, `P2PListen`, `Peers`, `Timeout` (`config.go:544-548`). -/
def fThreshold : Str := [84, 104, 114, 101, 115, 104, 111, 108, 100]
def fShares : Str := [83, 104, 97, 114, 101, 115]
def fP2PListen : Str := [80, 50, 80, 76, 105, 115, 116, 101, 110]
def fPeers : Str := [80, 101, 101, 114, 115]
def fTimeout : Str := [84, 105, 109, 101, 111, 117, 116]
/-- `ShareID`, `P2PAddr` (`config.go:559-560`), `PrivValAddr` (614). -/
def fShareID : Str := [83, 104, 97, 114, 101, 73, 68]
def fP2PAddr : Str := [80, 50, 80, 65, 100, 100, 114]
def fPrivValAddr : Str := [80, 114, 105, 118, 86, 97, 108, 65, 100, 100, 114]

/-- The tags `home-dir`, `key-file`, `chain-id`, `cosigner`, `chain-nodes` (`config.go:521-525`). -/
def tHomeDir : Str := [104, 111, 109, 101, 45, 100, 105, 114]
def tKeyFile : Str := [107, 101, 121, 45, 102, 105, 108, 101]
def tChainID : Str := [99, 104, 97, 105, 110, 45, 105, 100]
def tCosigner : Str := [99, 111, 115, 105, 103, 110, 101, 114]
def tChainNodes : Str := [99, 104, 97, 105, 110, 45, 110, 111, 100, 101, 115]
/-- `threshold`, `shares`, `p2p-listen`, `peers`, `rpc-timeout` (`config.go:544-548`). -/
def tThreshold : Str := [116, 104, 114, 101, 115, 104, 111, 108, 100]
def tShares : Str := [115, 104, 97, 114, 101, 115]
def tP2PListen : Str := [112, 50, 112, 45, 108, 105, 115, 116, 101, 110]
def tPeers : Str := [112, 101, 101, 114, 115]
def tTimeout : Str := [114, 112, 99, 45, 116, 105, 109, 101, 111, 117, 116]
/-- `share-id`, `p2p-addr` (`config.go:559-560`), `priv-val-addr` (614). -/
def tShareID : Str := [115, 104, 97, 114, 101, 45, 105, 100]
def tP2PAddr : Str := [112, 50, 112, 45, 97, 100, 100, 114]
def tPrivValAddr : Str := [112, 114, 105, 118, 45, 118, 97, 108, 45, 97, 100, 100, 114]

/-- Go's zero values of the structures. -/
def CosignerConfig.zero : CosignerConfig := ⟨0, 0, [], [], []⟩
def Config.zero : Config := ⟨[], [], [], none, []⟩

/-- `config.go:558-561` read by mapstructure. -/
def weakPeer (num : Str → Option Int) : YVal → Option CosignerPeer
  | .null => some ⟨0, []⟩
  | .map l => do
    let i ← weakField (weakInt num) 0 fShareID l
    let a ← weakField weakStr [] fP2PAddr l
    pure ⟨i, a⟩
  | _ => none

/-- `config.go:613-615` read by mapstructure. -/
def weakNode : YVal → Option Str
  | .null => some []
  | .map l => weakField weakStr [] fPrivValAddr l
  | _ => none

/-- `config.go:543-549` read by mapstructure. -/
def weakCosigner (num : Str → Option Int) : YVal → Option (Option CosignerConfig)
  | .null => some none
  | .map l => do
    let t ← weakField (weakInt num) 0 fThreshold l
    let n ← weakField (weakInt num) 0 fShares l
    let p ← weakField weakStr [] fP2PListen l
    let ps ← weakField (weakSeq (weakPeer num)) [] fPeers l
    let d ← weakField weakStr [] fTimeout l
    pure (some ⟨t, n, p, ps, d⟩)
  | _ => none

/-- `root.go:54` `viper.Unmarshal(&cfg)`: the entries of the file with the environment, into the fields by their Go names
(there are no `mapstructure` tags). -/
def viperDecode (num : Str → Option Int) (env : Env) (l : List (Str × YVal)) : Option Config := do
  let m := entrySettings env [] false l
  let h ← weakField weakStr [] fHomeDir m
  let k ← weakField weakStr [] fPrivValKeyFile m
  let c ← weakField weakStr [] fChainID m
  let s ← weakField (weakCosigner num) none fCosignerConfig m
  let ns ← weakField (weakSeq weakNode) [] fChainNodes m
  pure ⟨h, k, c, s, ns⟩

/-- yaml.v2 into a string. -/
def yamlStr : YVal → Option Str
  | .null => some []
  | .str s => some s
  | .int raw _ => some raw
  | .bool raw _ => some raw
  | _ => none

/-- yaml.v2 into an `int`. -/
def yamlInt : YVal → Option Int
  | .null => some 0
  | .int _ i => some i
  | _ => none

/-- yaml.v2 into a slice. -/
def yamlSeq {α : Type} (dec : YVal → Option α) : YVal → Option (List α)
  | .null => some []
  | .seq l => l.mapM dec
  | _ => none

/-- A field of a structure (yaml.v2), which already has the value `cur`. -/
def yamlField {α : Type} (dec : YVal → Option α) (cur : α) (tag : Str) (l : List (Str × YVal)) : Option α :=
  match keyGet tag l with
  | none => some cur
  | some v => dec v

/-- `config.go:558-561` read by yaml.v2. -/
def yamlPeer : YVal → Option CosignerPeer
  | .null => some ⟨0, []⟩
  | .map l => do
    let i ← yamlField yamlInt 0 tShareID l
    let a ← yamlField yamlStr [] tP2PAddr l
    pure ⟨i, a⟩
  | _ => none

/-- `config.go:613-615` read by yaml.v2. -/
def yamlNode : YVal → Option Str
  | .null => some []
  | .map l => yamlField yamlStr [] tPrivValAddr l
  | _ => none

/-- `config.go:543-549` read by yaml.v2 into a pointer that is `cur`. -/
def yamlCosigner (cur : Option CosignerConfig) : YVal → Option (Option CosignerConfig)
  | .null => some none
  | .map l => do
    let c := cur.getD .zero
    let t ← yamlField yamlInt c.threshold tThreshold l
    let n ← yamlField yamlInt c.shares tShares l
    let p ← yamlField yamlStr c.p2pListen tP2PListen l
    let ps ← yamlField (yamlSeq yamlPeer) c.peers tPeers l
    let d ← yamlField yamlStr c.timeout tTimeout l
    pure (some ⟨t, n, p, ps, d⟩)
  | _ => none

/-- `root.go:57` `yaml.Unmarshal(bz, &cfg)`, into the configuration that viper has read. -/
def yamlDecode (cur : Config) (l : List (Str × YVal)) : Option Config := do
  let h ← yamlField yamlStr cur.homeDir tHomeDir l
  let k ← yamlField yamlStr cur.privValKeyFile tKeyFile l
  let c ← yamlField yamlStr cur.chainID tChainID l
  let s ← yamlField (yamlCosigner cur.cosigner) cur.cosigner tCosigner l
  let ns ← yamlField (yamlSeq yamlNode) cur.chainNodes tChainNodes l
  pure ⟨h, k, c, s, ns⟩

/-- `root.go:49-58`: what a configuration file is to `initConfig`. -/
def YVal.text (num : Str → Option Int) (env : Env) : YVal → CfgText
  | .map l =>
    match viperDecode num env l with
    | none => .mistyped
    | some cfg =>
      match yamlDecode cfg l with
      | none => .mistyped
      | some cfg => .config cfg
  | .null => .config .zero
  | _ => .unreadable

/-- `config.go:558-561` as written. -/
def CosignerPeer.doc (p : CosignerPeer) : YVal := .map [(tShareID, .int (decInt p.shareID) p.shareID), (tP2PAddr, .str p.p2pAddr)]

/-- `config.go:543-549` as written. -/
def CosignerConfig.doc (c : CosignerConfig) : YVal :=
  .map [(tThreshold, .int (decInt c.threshold) c.threshold), (tShares, .int (decInt c.shares) c.shares),
    (tP2PListen, .str c.p2pListen), (tPeers, .seq (c.peers.map CosignerPeer.doc)), (tTimeout, .str c.timeout)]

/-- `config.go:535-541` `MustMarshalYaml` with the tags of 520-526: what is written for a configuration. -/
def Config.doc (c : Config) : YVal :=
  .map ([(tHomeDir, .str c.homeDir)] ++
    (if c.privValKeyFile = [] then [] else [(tKeyFile, .str c.privValKeyFile)]) ++
    [(tChainID, .str c.chainID)] ++
    (match c.cosigner with
      | none => []
      | some s => [(tCosigner, s.doc)]) ++
    (if c.chainNodes = [] then [] else [(tChainNodes, .seq (c.chainNodes.map fun a => .map [(tPrivValAddr, .str a)]))]))

/-- An editing command (`config.go:242-460`) on the file, in an environment. -/
def editDoc (lib : Lib) (num : Str → Option Int) (env : Env) (c : CfgCmd) (file : YVal) : YVal :=
  match file.text num env with
  | .config cfg =>
    match c.run lib cfg with
    | (.done, cfg') => cfg'.doc
    | _ => file
  | _ => file

end Horcrux
