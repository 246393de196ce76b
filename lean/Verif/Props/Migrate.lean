import Verif.Model.Migrate
import Verif.Props.Init
import Verif.Props.Lives
import Verif.Props.Node
import Verif.Props.PrivFile
import Verif.Props.StateText
import Verif.Props.Url
/-
Property C115: a validator that is moved to horcrux as `docs/migrating.md` says.
-/
namespace Horcrux
open Spec

/-! ### Nothing at or below what the state file says -/

/-- What holds of a node that was started from a file without sign bytes. -/
structure StartedAt (f : PFile) (s : DState) : Prop where
  file : s.file = f ∨ f.hrs ≺ s.file.hrs
  lss : (s.mem.lss.hrs = f.hrs ∧ s.mem.lss.signBytes = none) ∨ f.hrs ≺ s.mem.lss.hrs
  jobs : s.jobs ≠ [] → f.hrs ≺ s.mem.lss.hrs
  texts : ∀ (i : Nat) (g : PFile), s.jobs[i]? = some (.marshalled g) → f.hrs ≺ g.hrs

theorem startedAt_boot {f : PFile} (hf : f.signBytes = none) {g : PFile} (hg : g = f ∨ f.hrs ≺ g.hrs) :
    StartedAt f (DState.boot g) := by
  refine ⟨hg, ?_, fun h => absurd rfl h, fun i x h => by simp [DState.boot] at h⟩
  rcases hg with rfl | hg
  · exact .inl ⟨rfl, hf⟩
  · exact .inr hg

theorem startedAt_step {C : Crypto} {cfg : CosignerCfg} {f : PFile} (hf : f.signBytes = none) {s : DState}
    (h : StartedAt f s) (e : DEv) : StartedAt f (s.step C cfg e).2 := by
  cases e with
  | op o =>
    rcases dstep_op (C := C) (cfg := cfg) s o with ⟨_, hs⟩ | ⟨_, _, hs⟩ | ⟨_, _, hs⟩ <;> rw [hs]
    · exact h
    · exact ⟨h.file, h.lss, fun h => absurd rfl h, fun i x h => by simp at h⟩
    · obtain ⟨h1, h2⟩ := step_lss' (C := C) (cfg := cfg) s.mem o
      have up : f.hrs ≺ s.mem.lss.hrs → f.hrs ≺ (s.mem.step C cfg o).2.lss.hrs := fun h => HRS.lt_of_lt_of_le h h1
      refine ⟨h.file, ?_, ?_, ?_⟩
      · rcases h.lss with ⟨h3, h4⟩ | h3
        · rcases h1 with h5 | h5
          · exact .inl ⟨h5.symm.trans h3, by rw [(h2 h5.symm).1]; exact h4⟩
          · exact .inr (by rw [← h3]; exact h5)
        · exact .inr (up h3)
      · intro hj
        show f.hrs ≺ (s.mem.step C cfg o).2.lss.hrs
        by_cases he : (s.mem.step C cfg o).2.lss.hrs = s.mem.lss.hrs
        · simp only [spawn, he, if_true] at hj
          rw [he]; exact h.jobs hj
        · rcases h1 with h5 | h5
          · exact absurd h5.symm he
          · rcases h.lss with ⟨h3, _⟩ | h3
            · rw [← h3]; exact h5
            · exact up h3
      · intro i g hg
        simp only [spawn] at hg
        split at hg
        · exact h.texts i g hg
        · rw [List.getElem?_append] at hg
          split at hg
          · exact h.texts i g hg
          · rcases Nat.eq_zero_or_pos (i - s.jobs.length) with hz | hz
            · rw [hz] at hg; simp at hg
            · rw [List.getElem?_eq_none (by simp; omega)] at hg; cases hg
  | marshal i =>
    simp only [DState.step]
    split
    · next hi =>
      have hne : s.jobs ≠ [] := by intro hn; rw [hn] at hi; simp at hi
      refine ⟨h.file, h.lss, fun _ => h.jobs hne, ?_⟩
      intro j g hg
      simp only at hg
      rw [List.getElem?_set] at hg
      split at hg
      · split at hg
        · simp only [Option.some.injEq, Job.marshalled.injEq] at hg
          rw [← hg]; exact h.jobs hne
        · cases hg
      · exact h.texts j g hg
    · exact h
  | write i =>
    simp only [DState.step]
    split
    · next g hi =>
      have hne : s.jobs ≠ [] := by intro hn; rw [hn] at hi; simp at hi
      refine ⟨.inr (h.texts i g hi), h.lss, fun _ => h.jobs hne, ?_⟩
      intro j g' hg
      simp only at hg
      rw [List.getElem?_eraseIdx] at hg
      split at hg
      · exact h.texts _ _ hg
      · exact h.texts _ _ hg
    · exact h
  | restart => exact startedAt_boot hf h.file

/-- Whatever happens to a node started from a file without sign bytes, with any deaths and restarts, all share signatures
it releases are for blocks above the file. -/
theorem released_above {C : Crypto} {cfg : CosignerCfg} {ok : DState → DEv → Prop} {f : PFile} (hf : f.signBytes = none)
    {tr : List (DEv × Option (Out CosResp))} {s : DState} (h : DRun C cfg ok (DState.boot f) tr s) :
    StartedAt f s ∧ ∀ bs r, DReleased tr bs r → ∃ k, unpackHRST bs = .ok k ∧ f.hrs ≺ k.hrs := by
  induction h with
  | nil => exact ⟨startedAt_boot hf (.inl rfl), fun bs r h => by simp [DReleased] at h⟩
  | @snoc tr s h e he ih =>
    refine ⟨startedAt_step hf ih.1 e, fun bs r hr => ?_⟩
    rcases dreleased_snoc hr with hr | ⟨rfl, hr⟩
    · exact ih.2 bs r hr
    · rcases dstep_op (C := C) (cfg := cfg) s (.sign bs) with ⟨_, hs⟩ | ⟨_, _, hs⟩ | ⟨_, _, hs⟩ <;> rw [hs] at hr
      · cases hr
      · cases hr
      · have hstep : s.mem.step C cfg (.sign bs) = (.ok (.signed r), (s.mem.step C cfg (.sign bs)).2) := by
          rw [← Option.some.inj hr]
        obtain ⟨k, hu, hc⟩ := sign_ok C cfg (step_sign hstep)
        refine ⟨k, hu, ?_⟩
        rcases hc with ⟨h1, h2, _⟩ | ⟨h1, _⟩ | ⟨h1, ⟨b0, h2, _⟩, _⟩
        · rcases ih.1.lss with ⟨_, h4⟩ | h4
          · rw [h4] at h2; cases h2
          · rw [← h1]; exact h4
        · rcases ih.1.lss with ⟨h3, _⟩ | h3
          · rw [← h3]; exact h1
          · exact HRS.lt_trans h3 h1
        · rcases ih.1.lss with ⟨_, h4⟩ | h4
          · rw [h4] at h2; cases h2
          · rw [← h1]; exact h4

/-- A full signature has a share of a cosigner that is not faulty if fewer than `t` are. -/
theorem full_honest {C : Crypto} {n t : Nat} {faulty : Finset Nat} (hf : faulty.card < t) {tr : List LivesEv}
    {pub bs sig : Bytes} (hfull : FullSignatureEver C n t faulty tr pub bs sig) :
    ∃ i r, DReleased (ofNode i tr) bs r := by
  obtain ⟨eph, shares, hl, hrel, has⟩ := hfull
  obtain ⟨hnd, hids⟩ := collectSigs_ids shares 0
  have hcard : t ≤ (collectSigs 0 shares).1.toFinset.card := by
    rw [List.toFinset_card_of_nodup hnd]
    unfold assemble at has
    simp only at has
    split at has
    · cases has
    · next hlt => exact_mod_cast Int.not_lt.1 hlt
  obtain ⟨i, hi, hni⟩ := Finset.exists_mem_notMem_of_card_lt_card (lt_of_lt_of_le hf hcard)
  obtain ⟨h1, x, h2, h3⟩ := hids i (List.mem_toFinset.1 hi)
  rw [Nat.sub_zero] at h2
  obtain ⟨r, hr, _⟩ := hrel (i - 1) x h2 h3 (by rwa [Nat.sub_add_cancel h1])
  rw [Nat.sub_add_cancel h1] at hr
  exact ⟨i, r, List.mem_map.2 ⟨_, List.mem_filter.2 ⟨hr, by simp⟩, rfl⟩⟩

/-! ### The steps of the guide -/

namespace Spec

/-- Flags of `config init` for cosigner `p` of a `t`-of-`n` cluster, as in step 2 of the guide: the chain, the threshold, and
all others as peers. -/
structure GuideFlags (lib : Lib) (n t p : Nat) (chainID : Bytes) (a : InitArgs) : Prop where
  chain : a.chainID = chainID
  threshold : a.threshold = t
  peers : ∃ peers, CosignerFlags lib a peers ∧
    (peers.map (·.shareID)).Perm (((List.range' 1 n).filter (· ≠ p)).map fun i : Nat => (i : Int))

end Spec

section
variable {P : Type} [DecidableEq P] {Lay : Layout P} {lib : Lib}

theorem set_same (fs : FS P) (p : P) (x : Option FileC) : (fs.set p x).files p = x := by simp [FS.set]

theorem set_other (fs : FS P) {p q : P} (h : q ≠ p) (x : Option FileC) : (fs.set p x).files q = fs.files q := by
  simp [FS.set, h]

/-- The files after `config init` and the replacement of the state files. -/
theorem putStates_files (fs : FS P) (home c : Str) (pv share : Bytes) :
    (fs.putStates Lay home c pv share).files (Lay.config home) = fs.files (Lay.config home) ∧
    (fs.putStates Lay home c pv share).files (Lay.state home c .pv) = some (.ofText pv) ∧
    (fs.putStates Lay home c pv share).files (Lay.state home c .share) = some (.ofText share) := by
  unfold FS.putStates
  refine ⟨?_, ?_, set_same _ _ _⟩
  · rw [set_other _ (Lay.cfgState _ _ _ _), set_other _ (Lay.cfgState _ _ _ _)]
  · rw [set_other _ (Lay.kinds _ _ _ _), set_same]

theorem ofText_state {f : PFile} {bs : Bytes} (h : StateText f bs) : FileC.ofText bs = .state f := by
  unfold FileC.ofText
  rw [readState_iff.2 h]

/-- A node with flags as in the guide runs after `cosigner start`, with the states the texts say. -/
theorem migrate_runs {n t p : Nat} {chainID : Bytes} {a : InitArgs} (ha : GuideFlags lib n t p chainID a) (fs : FS P)
    (home : Str) (hnew : fs.files (Lay.config home) = none) (hw : ∀ q, fs.writable q = true) :
    ∃ conf, ClusterConfig lib n t p conf ∧ ∀ (key : CosignerKey) (cc : CosignerCfg) (f g : PFile) (pv share : Bytes),
      startCfg lib conf key = some cc → StateText f pv → StateText g share →
      (migrate Lay lib fs home a (some key) pv share).1 = .running f.load g.load cc := by
  obtain ⟨hch, hth, peers, hfl, hperm⟩ := ha
  have hcfg : initConfig lib home a = .ok (askedConfig home a (some (askedSection a peers))) :=
    (C62_cosigner lib home a hfl.1 _).2 ⟨peers, hfl, rfl⟩
  have hval := (C62_starts lib home a _ hcfg).1 hfl.1
  refine ⟨_, ⟨hval, _, rfl, hth, hperm⟩, ?_⟩
  intro key cc f g pv share hcc hf hg
  have hns : initNodes lib a = .ok (namedNodes a) := by rw [initNodes_eq, if_pos hfl.2.2.2.2.2.2.2.2.2.2]
  have hok : (configInit Lay lib fs home a true).1 = true := C56_completes Lay lib fs home a _ _ hns hcfg (.inl hnew) hw
  obtain ⟨cfg, h1, h2, _⟩ := C56_success Lay lib fs home a true hok
  rw [hcfg] at h1
  cases h1
  unfold migrate
  generalize configInit Lay lib fs home a true = x at hok h2
  obtain ⟨b, fs1⟩ := x
  simp only at hok h2
  subst hok
  simp only
  obtain ⟨e1, e2, e3⟩ := putStates_files (Lay := Lay) fs1 home a.chainID pv share
  generalize fs1.putStates Lay home a.chainID pv share = fs2 at e1 e2 e3
  rw [h2] at e1
  rw [ofText_state hf] at e2
  rw [ofText_state hg] at e3
  unfold startCosigner FS.readConfig
  rw [e1]
  simp only
  unfold startCosignerWith
  rw [hval]
  simp only
  have r1 : fs2.readState (Lay.state home a.chainID .pv) = some f := by unfold FS.readState; rw [e2]
  have r2 : fs2.readState (Lay.state home a.chainID .share) = some g := by unfold FS.readState; rw [e3]
  show (match fs2.loadOrCreate (Lay.state home a.chainID .pv) with | (.ok pv, fs1) => _ | (_, fs1) => _ : StartRes × FS P).1 = _
  unfold FS.loadOrCreate
  rw [r1]
  show (match fs2.readState (Lay.state home a.chainID .share) with | none => _ | some f => _ : StartRes × FS P).1 = _
  rw [r2]
  simp only [hcc]

/-- C115: move a validator to horcrux as the guide says. On each of `n ≥ 2` nodes run `config init` with flags as in step 2;
split the key file of the validator with `create-shares` and give each node its share; replace both state files by texts
that say height, round and step of the last signature of the validator, and no sign bytes; start the cosigners. Then
* all of them run, with that state;
* whatever chain nodes ask for in order, above that state, is signed for the public key in the file, as in C73;
* whatever happens, with any deaths and restarts of the nodes, no signature is made for that state or below, as long as
  fewer than `t` cosigners are faulty. -/
theorem C115_migrates (R : RSACodec) (E : SplitEnv) {F G : Type} [Field F] [AddCommGroup G] [Module F G]
    (L : Lawful E.C F G) (pair : Bytes → Bytes → Prop) (hR : R.Lawful pair) (hrsa : LawfulRSA E.C pair)
    (hgen : GenOk pair E.gen) (d : Dir) (file ts ns : Str) (t n : Nat)
    (ht : parseInt ts = some (t : Int)) (hn : parseInt ns = some (n : Int)) (h1t : 1 ≤ t) (htn : t ≤ n)
    (h2n : 2 ≤ n) (hn' : n ≤ 255) (addr pub priv content : Bytes) (hfile : d.files file = some content)
    (hkey : ValidatorKeyFile "tendermint/PubKeyEd25519" "tendermint/PrivKeyEd25519" addr pub priv content)
    (hlen : priv.length = 64) (hpub : pub.length = 32) (hexp : (E.expand (priv.take 32)).length = 32)
    (hmatch : pub = L.pt (L.val (E.expand (priv.take 32)) • L.B))
    (hwr : ∀ i : Nat, 1 ≤ i → i ≤ n → d.writable (keyFileName i) = true)
    (Lay : Layout P) (lib : Lib) (chainID : Bytes) (fs : Nat → FS P) (home : Nat → Str) (a : Nat → InitArgs)
    (hfs : ∀ p, 1 ≤ p → p ≤ n → (fs p).files (Lay.config (home p)) = none ∧ ∀ q, (fs p).writable q = true)
    (ha : ∀ p, 1 ≤ p → p ≤ n → GuideFlags lib n t p chainID (a p))
    (f : PFile) (hfb : f.signBytes = none) (pv share : Nat → Bytes)
    (htext : ∀ p, StateText f (pv p) ∧ StateText f (share p)) :
    ∃ d' cfg, createSharesCmd R E readPrivFile d [file, ts, ns] = (.done, d') ∧
      (∀ p, 1 ≤ p → p ≤ n →
        (migrate Lay lib (fs p) (home p) (a p) (shareOn R d' p) (pv p) (share p)).1 = .running f.load f.load (cfg p)) ∧
      ((∀ pk m sig, E.C.verify pk m sig = true → sig.length = 64) → Sent chainID → ∀ (text : Err → Bytes) (ds : List Doing),
        DoneInOrder chainID n t f.hrs ds →
        List.Forall₂ (fun (q : PMsg × Bytes × (Bytes → PMsg) × Bytes) r => ∃ sig,
          r = some ([.read q.1, .write (writeMsg (q.2.2.1 sig))], .live (some q.2.2.2)) ∧
          E.C.verify pub q.2.1 sig = true)
        (asked ds) ((Sys.start (fun _ => f.load) (fun _ => f.load)).runNode text E.C ⟨t, pub⟩ cfg n chainID
          (ds.map Doing.ev)).1) ∧
      ∀ (ok : Nat → DState → DEv → Prop) (tr : List LivesEv) (c : Nat → DState),
        Lives E.C cfg ok (fun _ => DState.boot f) tr c → ∀ (faulty : Finset Nat), faulty.card < t → ∀ pk bs sig,
        FullSignatureEver E.C n t faulty tr pk bs sig → ∃ k, unpackHRST bs = .ok k ∧ f.hrs ≺ k.hrs := by
  choose conf hconf hrun using fun p (h : 1 ≤ p ∧ p ≤ n) =>
    migrate_runs (Lay := Lay) (ha p h.1 h.2) (fs p) (home p) (hfs p h.1 h.2).1 (hfs p h.1 h.2).2
  obtain ⟨d', cfg, kc, rsaPub, h1, h2, hS⟩ := cluster_setup R E L pair hR hrsa hgen readPrivFile d file ts ns t n ht hn h1t
    htn hn' content hfile ⟨some priv, .ed25519 pub⟩ (C77_reads addr pub priv content hkey) priv rfl (by omega) hpub hexp
    hmatch hwr lib (fun p => if h : 1 ≤ p ∧ p ≤ n then conf p h else ⟨[], [], [], none, []⟩)
    (fun p hp1 hp2 => by simp only [dif_pos (And.intro hp1 hp2)]; exact hconf p ⟨hp1, hp2⟩)
  refine ⟨d', cfg, h1, ?_, ?_, ?_⟩
  · intro p hp1 hp2
    obtain ⟨bs, k, e1, e2, e3⟩ := h2 p hp1 hp2
    simp only [dif_pos (And.intro hp1 hp2)] at e3
    have : shareOn R d' p = some k.toKey := by simp only [shareOn, e1, e2]
    rw [this]
    exact hrun p ⟨hp1, hp2⟩ _ _ f f _ _ e3 (htext p).1 (htext p).2
  · intro h64 hc text ds hd
    have := C73_answers hS h2n h64 text chainID hc f.hrs (fun _ => f.load) (fun _ => f.load) (fun _ => HRS.le_refl _)
      (fun _ => HRS.le_refl _) ds hd
    rw [hmatch]
    exact this.imp fun q r ⟨sig, g1, g2, _⟩ => ⟨sig, g1, g2⟩
  · intro ok tr c hl faulty hfa pk bs sig hfull
    obtain ⟨i, r, hr⟩ := full_honest hfa hfull
    exact (released_above hfb (lives_proj hl i)).2 bs r hr

/-! ### A state file that is copied as it is -/

/-- A text whose round is a number without quotes, as chain nodes write it, is no sign state file. -/
theorem plain_round {l : JObj} {bs raw : Bytes} (h : JsonText (.obj l) bs) (hr : lastNamed l "round" = some (.num raw)) :
    ¬ ∃ f, StateText f bs := by
  rintro ⟨f, hf⟩
  cases hf with
  | null h' =>
    have := parseJson_iff.2 h
    rw [parseJson_iff.2 h'] at this
    cases this
  | @obj _ l' _ h' _ hr' =>
    have := parseJson_iff.2 h
    rw [parseJson_iff.2 h'] at this
    cases this
    rw [hr] at hr'
    generalize f.round = m at hr'
    cases hr' with
    | absent h => rcases h with h | h <;> cases h

theorem loadOrCreate_writable (fs : FS P) (p : P) : (fs.loadOrCreate p).2.writable = fs.writable := by
  unfold FS.loadOrCreate
  split
  · rfl
  · split <;> rfl

theorem configInit_writable (fs : FS P) (home : Str) (a : InitArgs) (b : Bool) :
    (configInit Lay lib fs home a b).2.writable = fs.writable := by
  unfold configInit
  split
  · rfl
  split
  · rfl
  split
  · rfl
  split
  · rfl
  split
  · rfl
  next cfg _ _ _ =>
  have h1 := loadOrCreate_writable (fs.set (Lay.config home) (some (.config cfg))) (Lay.state home a.chainID .pv)
  simp only
  generalize (fs.set (Lay.config home) (some (.config cfg))).loadOrCreate (Lay.state home a.chainID .pv) = x at h1
  obtain ⟨o, fs2⟩ := x
  have h2 := loadOrCreate_writable fs2 (Lay.state home a.chainID .share)
  simp only at h1
  cases o with
  | ok l =>
    simp only
    split
    · generalize fs2.loadOrCreate (Lay.state home a.chainID .share) = y at h2 ⊢
      obtain ⟨o', fs3⟩ := y
      cases o' <;> exact h2.trans h1
    · exact h1
  | err e => exact h1
  | panic => exact h1

/-- C115: if the state file of the validator is copied as it is, with its round not in quotes, the cosigner refuses to
start; the file with the state of the validator is then lost, and the empty state is in its place. -/
theorem C115_unmodified (Lay : Layout P) (lib : Lib) (n t p : Nat) (chainID : Bytes) (a : InitArgs)
    (ha : GuideFlags lib n t p chainID a) (fs : FS P) (home : Str) (hnew : fs.files (Lay.config home) = none)
    (hw : ∀ q, fs.writable q = true) (key : CosignerKey) (l : JObj) (bs raw : Bytes) (h : JsonText (.obj l) bs)
    (hr : lastNamed l "round" = some (.num raw)) :
    (migrate Lay lib fs home a (some key) bs bs).1 = .refused ∧
    (migrate Lay lib fs home a (some key) bs bs).2.files (Lay.state home chainID .pv) =
      some (.state ⟨0, 0, 0, none, none, none⟩) := by
  obtain ⟨hch, hth, peers, hfl, hperm⟩ := ha
  have hcfg : initConfig lib home a = .ok (askedConfig home a (some (askedSection a peers))) :=
    (C62_cosigner lib home a hfl.1 _).2 ⟨peers, hfl, rfl⟩
  have hval := (C62_starts lib home a _ hcfg).1 hfl.1
  have hns : initNodes lib a = .ok (namedNodes a) := by rw [initNodes_eq, if_pos hfl.2.2.2.2.2.2.2.2.2.2]
  have hok : (configInit Lay lib fs home a true).1 = true := C56_completes Lay lib fs home a _ _ hns hcfg (.inl hnew) hw
  obtain ⟨cfg, h1, h2, _⟩ := C56_success Lay lib fs home a true hok
  rw [hcfg] at h1
  cases h1
  have hwr := configInit_writable (Lay := Lay) (lib := lib) fs home a true
  unfold migrate
  generalize configInit Lay lib fs home a true = x at hok h2 hwr
  obtain ⟨b, fs1⟩ := x
  simp only at hok h2 hwr
  subst hok
  simp only
  obtain ⟨e1, e2, e3⟩ := putStates_files (Lay := Lay) fs1 home a.chainID bs bs
  have e4 : (fs1.putStates Lay home a.chainID bs bs).writable = fs1.writable := rfl
  generalize fs1.putStates Lay home a.chainID bs bs = fs2 at e1 e2 e3 e4
  have hg : FileC.ofText bs = .garbage := by
    unfold FileC.ofText
    cases hs : readState bs with
    | none => rfl
    | some f => exact absurd ⟨f, readState_iff.1 hs⟩ (plain_round h hr)
  rw [hg] at e2 e3
  have hload : fs2.loadOrCreate (Lay.state home a.chainID .pv) =
      (.ok .empty, fs2.set (Lay.state home a.chainID .pv) (some (.state SignState.empty.persist))) := by
    unfold FS.loadOrCreate FS.readState
    rw [e2]
    simp only [e4, hwr, hw, if_true]
  have hread : (fs2.set (Lay.state home a.chainID .pv) (some (.state SignState.empty.persist))).readState
      (Lay.state home a.chainID .share) = none := by
    unfold FS.readState
    rw [set_other _ (fun e => Lay.kinds _ _ _ _ e.symm), e3]
  unfold startCosigner FS.readConfig
  rw [e1, h2]
  simp only
  unfold startCosignerWith
  rw [hval]
  simp only
  rw [show (askedConfig home a (some (askedSection a peers))).homeDir = home from rfl,
    show (askedConfig home a (some (askedSection a peers))).chainID = a.chainID from rfl, hload]
  simp only
  rw [hread]
  refine ⟨rfl, ?_⟩
  rw [← hch]
  exact set_same _ _ _

end

/-! ### The example of the guide -/

/-- The flags of step 2 on the three nodes, for the chain `juno-1`. -/
def guideArgs (p : Nat) : InitArgs :=
  { chainID := text "juno-1", chainNodes := some (text "tcp://10.168.0.1:1234"), cosigner := true,
    peers := text (if p = 1 then "tcp://10.168.1.2:2222|2,tcp://10.168.1.3:2222|3"
      else if p = 2 then "tcp://10.168.1.1:2222|1,tcp://10.168.1.3:2222|3"
      else "tcp://10.168.1.1:2222|1,tcp://10.168.1.2:2222|2"),
    threshold := 2, listen := text "tcp://10.168.1.1:2222", keyFile := [], timeout := text "1500ms", overwrite := false }

/-- Their IDs and addresses. -/
def guidePeers (p : Nat) : List CosignerPeer :=
  if p = 1 then [⟨2, text "tcp://10.168.1.2:2222"⟩, ⟨3, text "tcp://10.168.1.3:2222"⟩]
  else if p = 2 then [⟨1, text "tcp://10.168.1.1:2222"⟩, ⟨3, text "tcp://10.168.1.3:2222"⟩]
  else [⟨1, text "tcp://10.168.1.1:2222"⟩, ⟨2, text "tcp://10.168.1.2:2222"⟩]

/-- They are as `GuideFlags` says. -/
theorem guideArgs_ok (p : Nat) (h1 : 1 ≤ p) (h3 : p ≤ 3) :
    GuideFlags (goLib fun _ => true) 3 2 p (text "juno-1") (guideArgs p) := by
  have key : ∀ q ∈ [1, 2, 3], initConfig (goLib fun _ => true) [104] (guideArgs q) =
      .ok (askedConfig [104] (guideArgs q) (some (askedSection (guideArgs q) (guidePeers q)))) := by decide +kernel
  obtain ⟨peers, hfl, he⟩ := (C62_cosigner (goLib fun _ => true) [104] (guideArgs p) rfl _).1
    (key p (by simp; omega))
  have hp : peers = guidePeers p := by
    simp only [askedConfig, askedSection, Config.mk.injEq, Option.some.injEq, CosignerConfig.mk.injEq] at he
    exact he.2.2.2.1.2.2.2.1.symm
  subst hp
  refine ⟨rfl, rfl, _, hfl, ?_⟩
  have : p = 1 ∨ p = 2 ∨ p = 3 := by omega
  rcases this with rfl | rfl | rfl <;> decide

/-- The text of step 4. -/
def guideText : Bytes := text "{\n  \"height\": \"361402\",\n  \"round\": \"0\",\n  \"step\": 3\n}\n"

theorem guideText_says : StateText ⟨361402, 0, 3, none, none, none⟩ guideText :=
  readState_iff.1 (by decide +kernel)

/-- A machine on which nothing is. -/
def freshNode : FS DemoPath := ⟨fun _ => none, fun _ => true⟩

/-- Concretely: the commands and texts of the guide, for the key 42. All three nodes run at the height 361402, and no
signature for that height, round and step or below is ever made, even if one cosigner is faulty. -/
example : ∃ d' cfg, createSharesCmd toyCodec toySplit readPrivFile
      (keyDir (indentedKeyFile [1, 2] (fsc 42) (fsc 42 ++ fsc 42))) [[107], [50], [51]] = (.done, d') ∧
    (∀ p, 1 ≤ p → p ≤ 3 → ∃ s, s.height = 361402 ∧ (migrate demoLayout (goLib fun _ => true) freshNode [104] (guideArgs p)
      (shareOn toyCodec d' p) guideText guideText).1 = .running s s (cfg p)) ∧
    ∀ (tr : List LivesEv) (c : Nat → DState), Lives ftoy cfg (fun _ _ _ => True)
      (fun _ => DState.boot ⟨361402, 0, 3, none, none, none⟩) tr c → ∀ pk bs sig,
      FullSignatureEver ftoy 3 2 {1} tr pk bs sig → ∃ k, unpackHRST bs = .ok k ∧ (⟨361402, 0, 3⟩ : HRS) ≺ k.hrs := by
  obtain ⟨d', cfg, h1, h2, _, h3⟩ := C115_migrates toyCodec toySplit ftoyLawful _ toyCodec_lawful ftoyRSA toySplit_gen
    (keyDir (indentedKeyFile [1, 2] (fsc 42) (fsc 42 ++ fsc 42))) [107] [50] [51] 2 3 (by decide) (by decide) (by decide)
    (by decide) (by decide) (by decide) [1, 2] (fsc 42) (fsc 42 ++ fsc 42) _ rfl (indented_valid _ _ _)
    (by rw [List.length_append, fsc_length]) (fsc_length _) (by rw [toy_take, fsc_length])
    (by
      rw [toy_take]
      show fsc 42 = fsc (fval (fsc 42) • (1 : ZMod 257))
      rw [fval_fsc', smul_eq_mul, mul_one])
    (fun _ _ _ => rfl) demoLayout (goLib fun _ => true) (text "juno-1") (fun _ => freshNode) (fun _ => [104]) guideArgs
    (fun _ _ _ => ⟨rfl, fun _ => rfl⟩) guideArgs_ok ⟨361402, 0, 3, none, none, none⟩ rfl (fun _ => guideText)
    (fun _ => guideText) (fun _ => ⟨guideText_says, guideText_says⟩)
  exact ⟨d', cfg, h1, fun p hp1 hp2 => ⟨_, rfl, h2 p hp1 hp2⟩, fun tr c hl pk bs sig hfull =>
    h3 _ tr c hl {1} (by decide) pk bs sig hfull⟩

/-- The beginning of the validator's own file in step 4: the round is not in quotes. -/
def validatorText : Bytes := text "{\n  \"height\": \"361402\",\n  \"round\": 0,\n  \"step\": 3\n}"

/-- Its members. -/
def validatorObj : JObj :=
  .cons fHeight (.str (text "361402") false) (.cons fRound (.num (decInt 0)) (.cons fStep (.num (decInt 3)) .nil))

theorem validatorText_parses : parseJson validatorText = some (.obj validatorObj.clean) := by
  have h : validatorText = 123 :: (validatorObj.indent true ++ [10, 125]) := by decide +kernel
  rw [h]
  exact parseJson_indent validatorObj ⟨trivial, decInt_numOk 0, decInt_numOk 3, trivial⟩ (by simp [validatorObj])
    (by decide +kernel)

theorem validatorText_round : lastNamed validatorObj.clean "round" = some (.num (decInt 0)) := by
  have h1 : sanitize fHeight ≠ text "round" := by decide +kernel
  have h2 : sanitize fRound = text "round" := by decide +kernel
  have h3 : sanitize fStep ≠ text "round" := by decide +kernel
  simp [validatorObj, JObj.clean, JVal.clean, lastNamed, membersOf, h1, h2, h3]

/-- Copied as it is, it keeps node 1 of the guide from starting. -/
example (key : CosignerKey) : (migrate demoLayout (goLib fun _ => true) freshNode [104] (guideArgs 1) (some key)
    validatorText validatorText).1 = .refused :=
  (C115_unmodified demoLayout (goLib fun _ => true) 3 2 1 _ _ (guideArgs_ok 1 (by decide) (by decide)) freshNode [104] rfl
    (fun _ => rfl) key validatorObj.clean validatorText _ (parseJson_iff.1 validatorText_parses)
    validatorText_round).1

end Horcrux
