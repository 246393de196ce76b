import Verif.Lemmas.Sequence
import Verif.Props.Private
/-
Property C84.
-/
namespace Horcrux
open Spec

section
variable {C : Crypto} {vcfg : ValidatorCfg} {cfg : Nat → CosignerCfg} {n : Nat}

/-- Every signature that a validator remembers is in `K`. -/
def Remembers (K : HRS → Bytes → Prop) (s : Sys) : Prop := ∀ p h sig, InFile h sig (s.vs p).lss → K h sig

theorem lss_from {v : VState} {r : SSC} {h : HRS} {sig : Bytes} (hi : InFile h sig (v.step C vcfg (.lss r)).2.lss) :
    InFile h sig v.lss ∨ (r.hrs = h ∧ r.signature = some sig) := by
  obtain ⟨r', h1, h2⟩ := hi
  rcases save_cache_from (l := v.lss) (r := r) h1 with h3 | ⟨h3, h4⟩
  · exact .inl ⟨r', h3, h2⟩
  · subst h4; exact .inr ⟨h3.symm, h2⟩

/-- One event: what a validator remembers afterwards was remembered, brought by the event, or has just been given as an
answer. -/
theorem step_remembers {t : Nat} (hV : vcfg.threshold = t) {K : HRS → Bytes → Prop} {s : Sys} (hs : Remembers K s)
    (e : SysEv) (ho : OwnBytes e) :
    Remembers (fun h sig => K h sig ∨ BroughtBy h sig e ∨ ∃ a, (s.step C vcfg cfg n e).1 = some a ∧ Gives h sig a)
      (s.step C vcfg cfg n e).2 := by
  intro p h sig hi
  cases e with
  | sign q =>
    have hq := signBlock_signed (C := C) (cfg := cfg) (n := n) hV s q ho
    simp only [Sys.step] at hi ⊢
    generalize s.signBlock C vcfg cfg n q = x at hi hq
    cases hq with
    | idle o s' hcs hl ho => rw [hl p] at hi; exact .inl (hs p h sig hi)
    | failed o s' hcs hl ho => rw [hl p] at hi; exact .inl (hs p h sig hi)
    | made sg s' S hS ht hcs hsg hl =>
      rcases hl p h sig hi with h1 | ⟨rfl, rfl⟩
      · exact .inl (hs p h sig h1)
      · exact .inr (.inr ⟨_, rfl, rfl, _, _, _, rfl⟩)
  | deliver j r =>
    simp only [Sys.step] at hi
    split at hi
    · rcases lss_from hi with h1 | h1
      · exact .inl (hs j h sig h1)
      · exact .inr (.inl h1)
    · exact .inl (hs p h sig hi)
  | other j op => exact .inl (hs p h sig hi)
  | restart j lv lc =>
    simp only [Sys.step] at hi
    split at hi
    · exact .inr (.inl hi)
    · exact .inl (hs p h sig hi)

/-- Everything that a validator remembers has been seen. -/
theorem run_remembers {t : Nat} (hV : vcfg.threshold = t) : ∀ (evs : List SysEv) (K : HRS → Bytes → Prop) (s : Sys),
    Remembers K s → (∀ e ∈ evs, OwnBytes e) →
    Remembers (fun h sig => K h sig ∨ (∃ e ∈ evs, BroughtBy h sig e) ∨ ∃ a ∈ (s.run C vcfg cfg n evs).1, Gives h sig a)
      (s.run C vcfg cfg n evs).2
  | [], K, s, hs, _ => fun p h sig hi => .inl (hs p h sig hi)
  | e :: evs, K, s, hs, ho => by
    have h1 := step_remembers (C := C) (cfg := cfg) (n := n) hV hs e (ho e (by simp))
    have h2 := run_remembers hV evs _ _ h1 (fun e' he => ho e' (by simp [he]))
    intro p h sig hi
    rcases h2 p h sig hi with (h3 | h3 | ⟨a, ha, h3⟩) | ⟨e', he, h3⟩ | ⟨a, ha, h3⟩
    · exact .inl h3
    · exact .inr (.inl ⟨e, by simp, h3⟩)
    · exact .inr (.inr ⟨a, by simp [Sys.run, ha], h3⟩)
    · exact .inr (.inl ⟨e', by simp [he], h3⟩)
    · exact .inr (.inr ⟨a, by simp [Sys.run, ha], h3⟩)

/-- The watermark of a cosigner stays at or above `w`. -/
theorem step_keeps {t : Nat} (hV : vcfg.threshold = t) {faulty : Finset Nat} {w : HRS} {s : Sys} {e : SysEv}
    (ho : OwnBytes e) (hf : ∀ p lv lc, e = .restart p lv lc → p ∉ faulty → w ≼ (s.cs p).lss.hrs → w ≼ lc.hrs) {p : Nat}
    (hp : p ∉ faulty) (hw : w ≼ (s.cs p).lss.hrs) : w ≼ ((s.step C vcfg cfg n e).2.cs p).lss.hrs := by
  cases e with
  | sign q =>
    have hq := signBlock_signed (C := C) (cfg := cfg) (n := n) hV s q ho
    simp only [Sys.step]
    generalize s.signBlock C vcfg cfg n q = x at hq
    cases hq with
    | idle o s' hcs hl ho => simp only; rw [hcs]; exact hw
    | failed o s' hcs hl ho => exact HRS.le_trans hw (hcs p)
    | made sg s' S hS ht hcs hsg hl => exact HRS.le_trans hw (hcs p)
  | deliver j r =>
    simp only [Sys.step]
    split
    · next h =>
      subst h
      exact HRS.le_trans hw (step_lss (C := C) (cfg := cfg p) (s := s.cs p) (op := .saveLSS r) (out := _) rfl).1
    · exact hw
  | other j op =>
    simp only [Sys.step]
    split
    · next h => subst h; exact HRS.le_trans hw (step_lss (C := C) (cfg := cfg p) (s := s.cs p) (op := op) (out := _) rfl).1
    · exact hw
  | restart j lv lc =>
    simp only [Sys.step]
    split
    · next h => subst h; exact hf p lv lc rfl hp hw
    · exact hw

/-- A threshold of cosigners is at `w` or above, and what the validators remember for blocks below `w` is in `K`. -/
structure Passed (n t : Nat) (faulty S : Finset Nat) (w : HRS) (K : HRS → Bytes → Prop) (s : Sys) : Prop where
  ids : S ⊆ Finset.Icc 1 n
  many : t ≤ S.card
  at' : ∀ p ∈ S, p ∉ faulty → w ≼ (s.cs p).lss.hrs
  mem : ∀ p h sig, h ≺ w → InFile h sig (s.vs p).lss → K h sig

/-- Then no signature for a lower block is made any more. -/
theorem Passed.answer {t f : Nat} (hnt : n + f < 2 * t) (hV : vcfg.threshold = t) {faulty S : Finset Nat} (hf : faulty.card ≤ f)
    {w : HRS} {K : HRS → Bytes → Prop} {s : Sys} (h : Passed n t faulty S w K s) {q : Req} (ho : OwnBytes (.sign q))
    (hlow : q.block.hrs ≺ w) {sig : Bytes} (hg : Gives q.block.hrs sig (q, (s.signBlock C vcfg cfg n q).1)) :
    K q.block.hrs sig := by
  have hq := signBlock_signed (C := C) (cfg := cfg) (n := n) hV s q ho
  obtain ⟨_, id, b, stamp, hg⟩ := hg
  generalize s.signBlock C vcfg cfg n q = x at hq hg
  cases hq with
  | idle o s' hcs hl ho => exact h.mem _ _ _ hlow (ho _ _ _ _ hg)
  | failed o s' hcs hl ho => exact absurd hg (ho _ _ _ _)
  | made sg s' S' hS' ht hcs hsg hl =>
    obtain ⟨i, h1, h2, h3⟩ := quorum_intersect n t f hnt S S' faulty h.ids hS' hf h.many ht
    have h4 := HRS.le_trans (h.at' i h1 h3) (hsg i h2).1
    exact absurd (HRS.lt_of_le_of_lt h4 hlow) (HRS.lt_irrefl _)

theorem Passed.step {t f : Nat} (hnt : n + f < 2 * t) (hV : vcfg.threshold = t) {faulty S : Finset Nat} (hf : faulty.card ≤ f)
    {w : HRS} {K : HRS → Bytes → Prop} {s : Sys} (h : Passed n t faulty S w K s) {e : SysEv} (ho : OwnBytes e)
    (hk : ∀ p lv lc, e = .restart p lv lc → p ∉ faulty → w ≼ (s.cs p).lss.hrs → w ≼ lc.hrs) :
    Passed n t faulty S w (fun a sig => K a sig ∨ BroughtBy a sig e) (s.step C vcfg cfg n e).2 := by
  refine ⟨h.ids, h.many, fun p hp hpf => step_keeps hV ho hk hpf (h.at' p hp hpf), ?_⟩
  intro p a sig ha hi
  have h1 := step_remembers (C := C) (cfg := cfg) (n := n) hV (K := fun a sig => a ≺ w → K a sig)
    (fun p a sig hi ha => h.mem p a sig ha hi) e ho p a sig hi
  rcases h1 with h1 | h1 | ⟨x, hx, hg⟩
  · exact .inl (h1 ha)
  · exact .inr h1
  · cases e with
    | sign q =>
      simp only [Sys.step, Option.some.injEq] at hx
      subst hx
      have e1 : q.block.hrs = a := hg.1
      rw [← e1] at ha hg ⊢
      exact .inl (h.answer hnt hV hf ho ha hg)
    | deliver j r => cases hx
    | other j op => cases hx
    | restart j lv lc => cases hx

theorem Passed.run {t f : Nat} (hnt : n + f < 2 * t) (hV : vcfg.threshold = t) {faulty S : Finset Nat} (hf : faulty.card ≤ f)
    {w : HRS} : ∀ (evs : List SysEv) (K : HRS → Bytes → Prop) (s : Sys), Passed n t faulty S w K s →
    (∀ e ∈ evs, OwnBytes e) → FilesKeep C vcfg cfg n faulty w s evs →
    Passed n t faulty S w (fun a sig => K a sig ∨ ∃ e ∈ evs, BroughtBy a sig e) (s.run C vcfg cfg n evs).2
  | [], K, s, h, _, _ => ⟨h.ids, h.many, h.at', fun p a sig ha hi => .inl (h.mem p a sig ha hi)⟩
  | e :: evs, K, s, h, ho, hk => by
    have h1 := (h.step hnt hV hf (ho e (by simp)) hk.1).run hnt hV hf evs _ _ (fun e' he => ho e' (by simp [he])) hk.2
    refine ⟨h1.ids, h1.many, h1.at', fun p a sig ha hi => ?_⟩
    rcases h1.mem p a sig ha hi with (h2 | h2) | ⟨e', he, h2⟩
    · exact .inl h2
    · exact .inr ⟨e, by simp, h2⟩
    · exact .inr ⟨e', by simp [he], h2⟩

end

/-- C84: a cluster makes signatures in order. After the events `evs1` a request for `q1` gives a signature that has not
been seen before; then come the events `evs2`. If afterwards a request for a lower block gives a signature, then this one
had been seen before the first one was made, or it came in from outside since. -/
theorem C84_order (C : Crypto) (vcfg : ValidatorCfg) (cfg : Nat → CosignerCfg) (n t f : Nat) (hnt : n + f < 2 * t)
    (hV : vcfg.threshold = t) (faulty : Finset Nat) (hf : faulty.card ≤ f) (lv lc : Nat → SignState)
    (evs1 evs2 : List SysEv) (q1 q2 : Req) (ho : ∀ e ∈ evs1 ++ .sign q1 :: evs2 ++ [.sign q2], OwnBytes e)
    (sig1 sig2 : Bytes) :
    let r1 := (Sys.start lv lc).run C vcfg cfg n evs1
    let a1 := r1.2.signBlock C vcfg cfg n q1
    let r2 := a1.2.run C vcfg cfg n evs2
    FilesKeep C vcfg cfg n faulty q1.block.hrs a1.2 evs2 →
    Gives q1.block.hrs sig1 (q1, a1.1) → ¬ Seen lv evs1 r1.1 q1.block.hrs sig1 →
    Gives q2.block.hrs sig2 (q2, (r2.2.signBlock C vcfg cfg n q2).1) → q2.block.hrs ≺ q1.block.hrs →
    Seen lv evs1 r1.1 q2.block.hrs sig2 ∨ ∃ e ∈ evs2, BroughtBy q2.block.hrs sig2 e := by
  intro r1 a1 r2 hk hg1 hnew hg2 hlow
  have ho1 : ∀ e ∈ evs1, OwnBytes e := fun e he => ho e (by simp [he])
  have ho2 : ∀ e ∈ evs2, OwnBytes e := fun e he => ho e (by simp [he])
  have hoq1 : OwnBytes (.sign q1) := ho _ (by simp)
  have hoq2 : OwnBytes (.sign q2) := ho _ (by simp)
  -- what the validators remember before `q1`
  have hrem : Remembers (Seen lv evs1 r1.1) r1.2 :=
    run_remembers (C := C) (cfg := cfg) (n := n) hV evs1 (fun h sig => ∃ p, InFile h sig (lv p)) (Sys.start lv lc)
      (fun p h sig hi => ⟨p, hi⟩) ho1
  -- the signature for `q1` is made in a round
  have hq := signBlock_signed (C := C) (cfg := cfg) (n := n) hV r1.2 q1 hoq1
  have hp : ∃ S, Passed n t faulty S q1.block.hrs (Seen lv evs1 r1.1) a1.2 := by
    obtain ⟨_, id, b, stamp, hg1⟩ := hg1
    change Signed C t n r1.2 q1 a1 at hq
    generalize a1 = x at hq hg1
    cases hq with
    | idle o s' hcs hl ho => exact absurd (hrem _ _ _ (ho _ _ _ _ hg1)) hnew
    | failed o s' hcs hl ho => exact absurd hg1 (ho _ _ _ _)
    | made sg s' S hS ht hcs hsg hl =>
      refine ⟨S, hS, ht, fun p hp _ => .inl (hsg p hp).2.symm, fun p h sig ha hi => ?_⟩
      rcases hl p h sig hi with h1 | ⟨h1, _⟩
      · exact hrem p h sig h1
      · rw [h1] at ha; exact absurd ha (HRS.lt_irrefl _)
  obtain ⟨S, hp⟩ := hp
  exact (hp.run hnt hV hf evs2 _ _ ho2 hk).answer hnt hV hf hoq2 hlow hg2

/-- Concretely, in a cluster of three with threshold 2: cosigners 3 and 1 sign the precommit of height 7 and then that of
height 8. After 2 has started again, the one of height 7 is requested again: the leader 3 gives the signature that it made
first, and the leader 2, which does not have it, gives none. -/
example :
    let r := ((Sys.start (fun _ => .empty) (fun _ => .empty)).run ftoy ⟨2, fsc (42 • 1)⟩ fcfg 3
      [.sign (freq 0 blk1 3 [3, 1]), .sign (freq 1 blk3 3 [3, 1]), .restart 2 .empty .empty,
       .sign (freq 2 blk1 3 [3, 1]), .sign (freq 3 blk1 2 [2, 1])]).1.map (fun a => a.2.result.map fun r => (r.1, r.2.2))
    (r.map fun a => a.map fun b => (b.1.isSome, b.2)) = [some (true, none), some (true, none), some (true, none),
      some (false, some .notEnoughCosigners)] ∧ r[0]? = r[2]? := by
  decide +kernel

section
variable {C : Crypto} {F G : Type} [Field F] [AddCommGroup G] [Module F G] {L : Lawful C F G}
  {pair : Bytes → Bytes → Prop} {n t : Nat} {cfg : Nat → CosignerCfg} {x : F} {kc : List F} {rsaPub : Nat → Bytes}

/-- A request of a chain node for a block `k` above all that was signed, on any way. -/
theorem serve_passed (hS : Setup C L pair n t cfg x kc rsaPub) (hn : 2 ≤ n)
    (h64 : ∀ pk m sig, C.verify pk m sig = true → sig.length = 64) (text : Err → Bytes) {chainID : Bytes}
    (hcid : Sent chainID) {w : HRS} {s : Sys} (hs : SysBelow w s)
    (hm : ∀ p h sig, InFile h sig (s.vs p).lss → h ≼ w) {m : PMsg} {k : HRS} {bs : Bytes} {reply : Bytes → PMsg}
    (h : Asks chainID m k bs reply) (hw : w ≺ k) (hl : (encPMsg m).length ≤ maxRemoteSignerMsgSize) {way : Way}
    (ho : OpenWay n t way) (rest : Bytes) (faulty : Finset Nat) :
    ∃ sig s', s.serve text C ⟨t, L.pt (x • L.B)⟩ cfg n chainID (writeMsg m ++ rest) way =
        (some ([.read m, .write (writeMsg (reply sig))], .live (some rest)), s') ∧
      C.verify (L.pt (x • L.B)) bs sig = true ∧ SysBelow k s' ∧
      Passed n t faulty way.ps.toFinset k (fun h _ => h ≼ w) s' := by
  obtain ⟨hwf, b, g1, g2, g3, g4, g5, g6, g7⟩ := asks_block h
  obtain ⟨r1, r2, r3⟩ := atLeader_key way.hops b
  have hsv : Servable n t { way.req b with block := atLeader way.hops b } := atLeader_servable way.hops (ho.servable g5)
  obtain ⟨sig, s', e1, e2, e3, e4, _, _⟩ := signBlock_ok hS hn hs hsv (by
    show w ≺ (atLeader way.hops b).hrs; rw [r3, g2]; exact hw)
  simp only [r2, r3, g2, g3] at e2 e3 e4
  obtain ⟨id, e5⟩ := signVia_signed (q := way.req b) (chainID := chainID) (hops := way.hops) hs.idle hcid g4 ho.calls
    (h64 _ _ _ e2) e1
  refine ⟨sig, s', serve_signed text hwf hl g1 g6 e5 rest, e2, e3, ?_, ?_, ?_, ?_⟩
  · intro i hi
    exact Finset.mem_Icc.2 (ho.ids i (List.mem_toFinset.1 hi))
  · rw [List.toFinset_card_of_nodup ho.nodup]; exact ho.quorum
  · intro p hp _
    exact .inl (e4 p (List.mem_toFinset.1 hp)).symm
  · intro p a sg ha hi
    have hq := signBlock_signed (C := C) (cfg := cfg) (n := n) (vcfg := ⟨t, L.pt (x • L.B)⟩) rfl s _ hsv.bytes
    rw [e1] at hq
    cases hq with
    | idle o s' hcs hl ho => rw [hl p] at hi; exact hm p a sg hi
    | failed o s' hcs hl ho => exact absurd rfl (ho _ _ _ _)
    | made sg' s' S hS ht hcs hsg hl =>
      rcases hl p a sg hi with h1 | ⟨h1, _⟩
      · exact hm p a sg h1
      · rw [h1] at ha
        change (atLeader way.hops b).hrs ≺ k at ha
        rw [r3, g2] at ha
        exact absurd ha (HRS.lt_irrefl _)

/-- C85 (full statement) is false: a chain node asks a cluster, in which everything is at `w` or below, for a vote or
proposal for any block `k` above, for example at the height 2^63 - 1. It gets its signature. From then on, whatever
happens, whichever nodes lead and take part, no request for a block between `w` and `k` gets a signature any more. -/
theorem C85_fails (hS : Setup C L pair n t cfg x kc rsaPub) (hn : 2 ≤ n)
    (h64 : ∀ pk m sig, C.verify pk m sig = true → sig.length = 64) (text : Err → Bytes) (chainID : Bytes)
    (hcid : Sent chainID) (f : Nat) (hnt : n + f < 2 * t) (faulty : Finset Nat) (hf : faulty.card ≤ f) (w : HRS)
    (lv lc : Nat → SignState) (hv : ∀ p, (lv p).hrs ≼ w) (hc : ∀ p, (lc p).hrs ≼ w)
    (hm : ∀ p h sig, InFile h sig (lv p) → h ≼ w) (m : PMsg) (k : HRS) (bs : Bytes) (reply : Bytes → PMsg)
    (h : Asks chainID m k bs reply) (hw : w ≺ k) (hl : (encPMsg m).length ≤ maxRemoteSignerMsgSize) (way : Way)
    (ho : OpenWay n t way) (rest : Bytes) :
    ∃ sig s', (Sys.start lv lc).serve text C ⟨t, L.pt (x • L.B)⟩ cfg n chainID (writeMsg m ++ rest) way =
        (some ([.read m, .write (writeMsg (reply sig))], .live (some rest)), s') ∧
      C.verify (L.pt (x • L.B)) bs sig = true ∧
      ∀ evs q, (∀ e ∈ evs ++ [.sign q], OwnBytes e) → FilesKeep C ⟨t, L.pt (x • L.B)⟩ cfg n faulty k s' evs →
        w ≺ q.block.hrs → q.block.hrs ≺ k → (∀ e ∈ evs, ∀ sig, ¬ BroughtBy q.block.hrs sig e) →
        ∀ sig, ¬ Gives q.block.hrs sig
          (q, ((s'.run C ⟨t, L.pt (x • L.B)⟩ cfg n evs).2.signBlock C ⟨t, L.pt (x • L.B)⟩ cfg n q).1) := by
  obtain ⟨sig, s', e1, e2, _, e3⟩ := serve_passed hS hn h64 text hcid (SysBelow.start hv hc)
    (fun p h sig hi => hm p h sig hi) h hw hl ho rest faulty
  refine ⟨sig, s', e1, e2, fun evs q hob hk hq1 hq2 hno sg hg => ?_⟩
  have hp := e3.run hnt rfl hf evs _ _ (fun e he => hob e (by simp [he])) hk
  rcases hp.answer hnt rfl hf (hob _ (by simp)) hq2 hg with h1 | ⟨e, he, h1⟩
  · exact HRS.lt_irrefl _ (HRS.lt_of_le_of_lt h1 hq1)
  · exact hno e he sg h1

/-- C85, partial: the next request after the one for `k`, for another block above `w`, gets a signature exactly if it is for
a block above `k`. Missing: those below `k`. -/
theorem C85_partial (hS : Setup C L pair n t cfg x kc rsaPub) (hn : 2 ≤ n)
    (h64 : ∀ pk m sig, C.verify pk m sig = true → sig.length = 64) (text : Err → Bytes) (chainID : Bytes)
    (hcid : Sent chainID) (hnt : n < 2 * t) (w : HRS)
    (lv lc : Nat → SignState) (hv : ∀ p, (lv p).hrs ≼ w) (hc : ∀ p, (lc p).hrs ≼ w)
    (hm : ∀ p h sig, InFile h sig (lv p) → h ≼ w) (m : PMsg) (k : HRS) (bs : Bytes) (reply : Bytes → PMsg)
    (h : Asks chainID m k bs reply) (hw : w ≺ k) (hl : (encPMsg m).length ≤ maxRemoteSignerMsgSize) (way : Way)
    (ho : OpenWay n t way) (rest : Bytes) (q : Req) (hq : Servable n t q) (hqw : w ≺ q.block.hrs) (hqk : q.block.hrs ≠ k) :
    let s' := ((Sys.start lv lc).serve text C ⟨t, L.pt (x • L.B)⟩ cfg n chainID (writeMsg m ++ rest) way).2
    (∃ sig, Gives q.block.hrs sig (q, (s'.signBlock C ⟨t, L.pt (x • L.B)⟩ cfg n q).1) ∧
      C.verify (L.pt (x • L.B)) q.block.signBytes sig = true) ↔ k ≺ q.block.hrs := by
  obtain ⟨sig, s', e1, e2, e4, e3⟩ := serve_passed hS hn h64 text hcid (SysBelow.start hv hc)
    (fun p h sig hi => hm p h sig hi) h hw hl ho rest ∅
  simp only [e1]
  constructor
  · rintro ⟨sg, hg, _⟩
    rcases HRS.lt_tri q.block.hrs k with h1 | h1 | h1
    · have := e3.answer (f := 0) (by omega) rfl (by simp) hq.bytes h1 hg
      exact absurd (HRS.lt_of_le_of_lt this hqw) (HRS.lt_irrefl _)
    · exact absurd h1 hqk
    · exact h1
  · intro hk
    obtain ⟨sg, s2, f1, f2, _⟩ := signBlock_ok hS hn e4 hq hk
    exact ⟨sg, ⟨rfl, _, _, _, by rw [f1]⟩, f2⟩

end

/-- A precommit for the highest height there is. -/
def vote1h : Vote := { vote1 with height := 2 ^ 63 - 1 }

def b1h : Bytes := bytesOf (voteSignBytes [97] vote1h)

theorem asks_vote1h : Asks [97] (.signVoteRequest (some vote1h) [97]) ⟨2 ^ 63 - 1, 1, 3⟩ b1h
    (fun sig => .signedVoteResponse { vote1h with signature := some sig } none) :=
  .vote vote1h [97] b1h ⟨by decide, by decide, by decide, by decide, by decide⟩
      ⟨by decide, by decide, by decide, by decide, by decide, by decide, by decide, by decide⟩ (by decide) (.inr rfl)
      (by simp [Vote.MistakenForProposal, vote1h, vote1, sampleVote]) (by decide +kernel) (by decide +kernel) (by decide +kernel)

/-- Concretely: a chain node sends node 2 a precommit for the height 2^63 - 1, which is signed by 3 and 1. After that
nothing above height 0 and below it is signed any more. -/
example : ∃ sig s', (Sys.start (fun _ => .empty) (fun _ => .empty)).serve (fun _ => []) ftoy ⟨2, fsc (42 • 1)⟩ fcfg 3 [97]
      (writeMsg (.signVoteRequest (some vote1h) [97]) ++ []) (fway [(2, 5)] 0 3 [3, 1]) =
        (some ([.read (.signVoteRequest (some vote1h) [97]),
          .write (writeMsg (.signedVoteResponse { vote1h with signature := some sig } none))], .live (some [])), s') ∧
      ∀ id b leader ps, unpackHRST b.signBytes = .ok b.key → 0 < b.height → b.height < 2 ^ 63 - 1 →
        ∀ sig, ¬ Gives b.hrs sig (freq id b leader ps, (s'.signBlock ftoy ⟨2, fsc (42 • 1)⟩ fcfg 3 (freq id b leader ps)).1) := by
  obtain ⟨sig, s', h1, _, h2⟩ := C85_fails fsetup (by decide) ftoy64 (fun _ => []) [97] ⟨by decide, ['a'], by decide⟩ 0 (by decide) ∅ (by decide)
    ⟨0, 0, 0⟩ (fun _ => .empty) (fun _ => .empty) (fun _ => .inl rfl) (fun _ => .inl rfl)
    (by rintro p h sig ⟨r, hr, _⟩; cases hr) _ _ _ _ asks_vote1h (by decide) (by decide +kernel) (fway [(2, 5)] 0 3 [3, 1])
    (fway_open _ _ _ _ (by decide) (by decide) (by decide) (by decide) (by decide)) []
  refine ⟨sig, s', h1, fun id b leader ps hb h3 h4 sg => ?_⟩
  refine h2 [] (freq id b leader ps) ?_ trivial (.inl h3) (.inl h4) (by simp) sg
  intro e he
  simp only [List.nil_append, List.mem_singleton] at he
  subst he
  exact hb

/-- And a block above it, if there is one, is still signed: here `k` is the precommit of height 7. -/
example : ∃ sig, Gives ⟨8, 1, 3⟩ sig (freq 1 blk3 2 [2, 1],
    ((((Sys.start (fun _ => .empty) (fun _ => .empty)).serve (fun _ => []) ftoy ⟨2, fsc (42 • 1)⟩ fcfg 3 [97]
      (writeMsg (.signVoteRequest (some vote1) [97]) ++ []) (fway [(2, 5)] 0 3 [3, 1])).2).signBlock ftoy ⟨2, fsc (42 • 1)⟩ fcfg 3
        (freq 1 blk3 2 [2, 1])).1) := by
  obtain ⟨sig, h, _⟩ := (C85_partial fsetup (by decide) ftoy64 (fun _ => []) [97] ⟨by decide, ['a'], by decide⟩ (by decide) ⟨0, 0, 0⟩
    (fun _ => .empty) (fun _ => .empty) (fun _ => .inl rfl) (fun _ => .inl rfl) (by rintro p h sig ⟨r, hr, _⟩; cases hr)
    (.signVoteRequest (some vote1) [97]) ⟨7, 1, 3⟩ b1 _
    (.vote vote1 [97] b1 sampleVote_wf
      ⟨by decide, by decide, by decide, by decide, by decide, by decide, by decide, by decide⟩ (by decide) (.inr rfl)
      (by simp [Vote.MistakenForProposal, vote1, sampleVote]) rfl (by decide +kernel) (by decide +kernel))
    (by decide) (by decide +kernel) (fway [(2, 5)] 0 3 [3, 1])
    (fway_open _ _ _ _ (by decide) (by decide) (by decide) (by decide) (by decide)) [] (freq 1 blk3 2 [2, 1])
    (fservable _ _ _ _ (by decide +kernel) (by decide) (by decide) (by decide) (by decide)) (by decide) (by decide)).2 (by decide)
  exact ⟨sig, h⟩

end Horcrux
