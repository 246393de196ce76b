import Verif.Model.Env
import Verif.Model.Url
import Verif.Spec.StateCmd
/-
Property C117: environment variables and the configuration file.
-/
namespace Horcrux
open Spec

namespace Spec

/-- The names of the Go fields of a configuration, in lower case. -/
def goNames : List Bytes :=
  [text "homedir", text "privvalkeyfile", text "chainid", text "cosignerconfig", text "chainnodes"]

/-- No setting of the file is spelled like a Go field. -/
def NoGoNames (l : List (Bytes × YVal)) : Prop := ∀ e ∈ l, foldKey e.1 ∉ goNames

end Spec

theorem entrySettings_keys (env : Env) (path : List Str) (hidden : Bool) (l : List (Str × YVal)) :
    ∀ e ∈ entrySettings env path hidden l, ∃ v, (e.1, v) ∈ l := by
  induction l with
  | nil => intro e he; simp [entrySettings] at he
  | cons a l ih =>
    obtain ⟨k, v⟩ := a
    intro e he
    rw [entrySettings] at he
    split at he
    · rcases List.mem_cons.1 he with rfl | he
      · exact ⟨v, by simp⟩
      · obtain ⟨v', h⟩ := ih e he; exact ⟨v', by simp [h]⟩
    · obtain ⟨v', h⟩ := ih e he; exact ⟨v', by simp [h]⟩

theorem entrySettings_append (env : Env) (path : List Str) (hidden : Bool) (l l' : List (Str × YVal)) :
    entrySettings env path hidden (l ++ l') = entrySettings env path hidden l ++ entrySettings env path hidden l' := by
  induction l with
  | nil => simp [entrySettings]
  | cons a l ih =>
    obtain ⟨k, v⟩ := a
    simp only [List.cons_append, entrySettings]
    split <;> simp [ih]

theorem foldGet_none {name : Str} {l : List (Str × YVal)} (h : ∀ e ∈ l, foldKey e.1 ≠ foldKey name) : foldGet name l = none := by
  unfold foldGet
  rw [List.find?_eq_none.2 (by simpa using h)]
  rfl

theorem settings_noGo {env : Env} {path : List Str} {hidden : Bool} {l : List (Str × YVal)} (h : NoGoNames l) :
    NoGoNames (entrySettings env path hidden l) := by
  intro e he
  obtain ⟨v, hv⟩ := entrySettings_keys env path hidden l e he
  exact h (e.1, v) hv

theorem noGo_field {l : List (Str × YVal)} (h : NoGoNames l) (name : Str) (hn : foldKey name ∈ goNames) : foldGet name l = none :=
  foldGet_none fun e he heq => h e he (heq ▸ hn)

/-- viper finds nothing in a file without such settings, whatever the environment. -/
theorem viper_zero (num : Str → Option Int) (env : Env) (l : List (Str × YVal)) (h : NoGoNames l) :
    viperDecode num env l = some .zero := by
  have hs := settings_noGo (env := env) (path := []) (hidden := false) h
  unfold viperDecode weakField
  simp only [noGo_field hs fHomeDir (by decide), noGo_field hs fPrivValKeyFile (by decide),
    noGo_field hs fChainID (by decide), noGo_field hs fCosignerConfig (by decide), noGo_field hs fChainNodes (by decide)]
  rfl

/-- C117: a file without settings that are spelled like a Go field, whoever wrote it, is read the same way in every
environment. -/
theorem C117_file_only (num num' : Str → Option Int) (env env' : Env) (l : List (Str × YVal)) (h : NoGoNames l) :
    (YVal.map l).text num env = (YVal.map l).text num' env' := by
  simp only [YVal.text, viper_zero _ _ l h]

/-- Concretely: a file written by hand, with a comment of another program and a number for the chain ID. -/
example : NoGoNames [(text "chain-id", .int (text "0x10") 16), (text "x", .map [(text "chainid", .str (text "a"))])] ∧
    (YVal.map [(text "chain-id", .int (text "0x10") 16), (text "x", .map [(text "chainid", .str (text "a"))])]).text
      parseInt (fun _ => text "b") = .config { Config.zero with chainID := text "0x10" } := by
  constructor
  · intro e he
    simp only [List.mem_cons, List.not_mem_nil, or_false] at he
    rcases he with rfl | rfl <;> decide
  · decide

theorem mapM_peers (ps : List CosignerPeer) : (ps.map CosignerPeer.doc).mapM yamlPeer = some ps := by
  induction ps with
  | nil => rfl
  | cons p ps ih =>
    rw [List.map_cons, List.mapM_cons, ih]
    rfl

theorem mapM_nodes (ns : List Str) : (ns.map fun a => YVal.map [(tPrivValAddr, .str a)]).mapM yamlNode = some ns := by
  induction ns with
  | nil => rfl
  | cons a ns ih =>
    rw [List.map_cons, List.mapM_cons, ih]
    rfl

theorem cosigner_doc (c : CosignerConfig) : yamlCosigner none c.doc = some (some c) := by
  have h := mapM_peers c.peers
  unfold CosignerConfig.doc yamlCosigner
  simp only [yamlField, keyGet]
  rw [show (fun e : Str × YVal => decide (e.1 = tThreshold)) = (fun e => decide (e.1 = tThreshold)) from rfl]
  simp [List.find?, tThreshold, tShares, tP2PListen, tPeers, tTimeout, yamlInt, yamlStr, yamlSeq, h]

theorem written_keys (c : Config) : ∃ l, c.doc = .map l ∧ NoGoNames l ∧ yamlDecode .zero l = some c := by
  obtain ⟨hd, kf, ci, cs, ns⟩ := c
  refine ⟨_, rfl, ?_, ?_⟩
  · intro e he
    have : e.1 ∈ [tHomeDir, tKeyFile, tChainID, tCosigner, tChainNodes] := by
      simp only [List.mem_append, List.mem_singleton] at he
      rcases he with (((he | he) | he) | he) | he
      · subst he; simp
      · split at he
        · simp at he
        · rw [List.mem_singleton] at he; subst he; simp
      · subst he; simp
      · cases cs with
        | none => simp at he
        | some s => rw [List.mem_singleton] at he; subst he; simp
      · split at he
        · simp at he
        · rw [List.mem_singleton] at he; subst he; simp
    generalize e.1 = k at this
    revert k
    decide
  · have h1 := mapM_nodes ns
    cases cs with
    | none =>
      by_cases h2 : kf = [] <;> by_cases h3 : ns = [] <;>
        simp [h2, h3, yamlDecode, yamlField, keyGet, List.find?, tHomeDir, tKeyFile, tChainID, tCosigner, tChainNodes, yamlStr,
          yamlSeq, h1, Config.zero]
    | some s =>
      have h4 := cosigner_doc s
      by_cases h2 : kf = [] <;> by_cases h3 : ns = [] <;>
        simp [h2, h3, yamlDecode, yamlField, keyGet, List.find?, tHomeDir, tKeyFile, tChainID, tCosigner, tChainNodes, yamlStr,
          yamlSeq, h1, h4, Config.zero]

/-- C117: whatever is set in the environment, the configuration that a command reads is the one that was written. -/
theorem C117_written (num : Str → Option Int) (env : Env) (c : Config) : c.doc.text num env = .config c := by
  obtain ⟨l, h1, h2, h3⟩ := written_keys c
  rw [h1]
  simp only [YVal.text, viper_zero _ _ l h2, h3]

/-- Concretely: the configuration of a cosigner, while variables for every setting are set. -/
def envConfig : Config :=
  ⟨text "/h", text "", text "hub", some ⟨2, 3, text "tcp://10.0.0.1:2222",
    [⟨2, text "tcp://10.0.0.2:2222"⟩, ⟨3, text "tcp://10.0.0.3:2222"⟩], text "1000ms"⟩, [text "tcp://10.1.0.1:1234"]⟩

example : envConfig.doc.text parseInt (fun _ => text "x") = .config envConfig := by decide +kernel

/-- A command that does not succeed leaves the configuration alone. -/
theorem cmd_keeps (lib : Lib) (c : Config) (cmd : CfgCmd) (h : (cmd.run lib c).1 ≠ .done) : (cmd.run lib c).2 = c := by
  revert h
  cases cmd <;> simp only [CfgCmd.run, CfgCmd.run.finish, CfgCmd.run.onCosigner] <;> (repeat' split) <;> simp

/-- C117: any sequence of editing commands, each in an environment of its own, leaves the file of the configuration that
the commands make of the first one. -/
theorem C117_sequence (lib : Lib) (num : Str → Option Int) (cmds : List (Env × CfgCmd)) : ∀ c : Config,
    cmds.foldl (fun file p => editDoc lib num p.1 p.2 file) c.doc = (runCmds lib c (cmds.map (·.2))).doc := by
  induction cmds with
  | nil => intro c; rfl
  | cons p cmds ih =>
    intro c
    have h : editDoc lib num p.1 p.2 c.doc = ((p.2.run lib c).2).doc := by
      unfold editDoc
      rw [C117_written]
      simp only
      split
      · rename_i h; rw [h]
      · rename_i h
        rw [cmd_keeps lib c p.2]
        rintro h'
        exact h _ (Prod.ext h' rfl)
    simp only [List.foldl_cons, List.map_cons, runCmds, h]
    exact ih _

/-- When a variable does count: the chain ID of a file that has it under the Go name (in any case), and not under its
own, is that of `HORCRUX_CHAINID`, if that is set. -/
theorem C117_chainID (num : Str → Option Int) (env : Env) (pre post : List (Str × YVal)) (k a : Str)
    (hk : foldKey k = text "chainid") (h1 : NoGoNames pre) (h2 : NoGoNames post)
    (h3 : ∀ e ∈ pre ++ post, e.1 ≠ text "chain-id") (hne : env (text "HORCRUX_CHAINID") ≠ []) (cfg : Config)
    (h : (YVal.map (pre ++ (k, .str a) :: post)).text num (fun _ => []) = .config cfg) :
    cfg.chainID = a ∧ (YVal.map (pre ++ (k, .str a) :: post)).text num env =
      .config { cfg with chainID := env (text "HORCRUX_CHAINID") } := by
  have hv : ∀ env : Env, viperDecode num env (pre ++ (k, .str a) :: post) =
      some { Config.zero with chainID := if env (text "HORCRUX_CHAINID") ≠ [] then env (text "HORCRUX_CHAINID") else a } := by
    intro env
    have hs1 := settings_noGo (env := env) (path := []) (hidden := false) h1
    have hs2 := settings_noGo (env := env) (path := []) (hidden := false) h2
    have hname : envName [k] = text "HORCRUX_CHAINID" := by
      unfold envName
      rw [List.map_singleton, hk]
      decide
    have hset : (YVal.str a).settings env [k] false =
        some (.str (if env (text "HORCRUX_CHAINID") ≠ [] then env (text "HORCRUX_CHAINID") else a)) := by
      rw [YVal.settings, getLeaf, hname]
      · split <;> simp
      · intro h; cases h
      · intro l h; cases h
    have hm : entrySettings env [] false (pre ++ (k, .str a) :: post) = entrySettings env [] false pre ++
        (k, .str (if env (text "HORCRUX_CHAINID") ≠ [] then env (text "HORCRUX_CHAINID") else a)) ::
        entrySettings env [] false post := by
      rw [entrySettings_append, entrySettings, List.nil_append, hset]
    have hno : ∀ name : Str, foldKey name ∈ goNames → foldKey name ≠ text "chainid" →
        foldGet name (entrySettings env [] false (pre ++ (k, .str a) :: post)) = none := by
      intro name hg hne
      rw [hm]
      refine foldGet_none fun e he heq => ?_
      rcases List.mem_append.1 he with he | he
      · exact hs1 e he (heq ▸ hg)
      · rcases List.mem_cons.1 he with rfl | he
        · exact hne (heq.symm.trans hk)
        · exact hs2 e he (heq ▸ hg)
    have hyes : foldGet fChainID (entrySettings env [] false (pre ++ (k, .str a) :: post)) =
        some (.str (if env (text "HORCRUX_CHAINID") ≠ [] then env (text "HORCRUX_CHAINID") else a)) := by
      rw [hm]
      unfold foldGet
      rw [List.find?_append, List.find?_eq_none.2, Option.none_or, List.find?_cons_of_pos]
      · rfl
      · rw [hk]; decide
      · intro e he
        have := hs1 e he
        simp only [decide_eq_true_eq]
        intro heq
        exact this (heq ▸ (by decide))
    unfold viperDecode weakField
    simp only [hno fHomeDir (by decide) (by decide), hno fPrivValKeyFile (by decide) (by decide), hyes,
      hno fCosignerConfig (by decide) (by decide), hno fChainNodes (by decide) (by decide)]
    rfl
  have hy : keyGet tChainID (pre ++ (k, .str a) :: post) = none := by
    unfold keyGet
    rw [List.find?_eq_none.2]
    · rfl
    · intro e he
      simp only [decide_eq_true_eq]
      rcases List.mem_append.1 he with he | he
      · exact h3 e (by simp [he])
      · rcases List.mem_cons.1 he with rfl | he
        · intro heq
          have : k = tChainID := heq
          rw [this] at hk
          exact absurd hk (by decide)
        · exact h3 e (by simp [he])
  simp only [YVal.text, hv] at h ⊢
  simp only [ne_eq, not_true_eq_false, if_false, hne, not_false_eq_true, if_true] at h ⊢
  unfold yamlDecode at h ⊢
  have hc : ∀ c : Str, yamlField yamlStr c tChainID (pre ++ (k, .str a) :: post) = some c := by
    intro c; unfold yamlField; rw [hy]
  simp only [hc, Config.zero] at h ⊢
  revert h
  generalize yamlField yamlStr [] tHomeDir (pre ++ (k, .str a) :: post) = x1
  generalize yamlField yamlStr [] tKeyFile (pre ++ (k, .str a) :: post) = x2
  generalize yamlField (yamlCosigner none) none tCosigner (pre ++ (k, .str a) :: post) = x3
  generalize yamlField (yamlSeq yamlNode) [] tChainNodes (pre ++ (k, .str a) :: post) = x4
  cases x1 <;> cases x2 <;> cases x3 <;> cases x4 <;> simp
  rintro rfl
  simp

/-- Concretely: such a file, with the variable and without. -/
example : foldKey (text "chainID") = text "chainid" ∧
    (YVal.map [(text "home-dir", .str (text "/h")), (text "chainID", .str (text "a"))]).text parseInt (fun _ => []) =
      .config ⟨text "/h", [], text "a", none, []⟩ ∧
    (YVal.map [(text "home-dir", .str (text "/h")), (text "chainID", .str (text "a"))]).text parseInt
      (fun n => if n = text "HORCRUX_CHAINID" then text "b" else []) = .config ⟨text "/h", [], text "b", none, []⟩ := by
  decide +kernel

/-- Concretely for `C117_sequence`: two commands in two environments. -/
example : (match [((fun _ => text "x" : Env), CfgCmd.nodesAdd (text "tcp://10.1.0.2:1234")), (fun _ => [], .setShares (text "4"))].foldl
      (fun file p => editDoc (goLib fun _ => true) parseInt p.1 p.2 file) envConfig.doc |>.text parseInt (fun _ => []) with
    | .config c => (c.chainNodes.length, c.cosigner.map (·.shares))
    | _ => (0, none)) = (2, some 4) := by
  decide +kernel

end Horcrux
