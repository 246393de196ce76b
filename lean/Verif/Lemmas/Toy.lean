import Verif.Lemmas.CosignerMore
/-
A small executable instance of the cryptographic interface, and an executor for runs, used only to exhibit concrete
runs (non-vacuity examples and counterexamples).
-/
namespace Horcrux

/-- Bytewise sum of 32-byte strings. -/
def toySum (l : List Bytes) : Bytes := l.foldl (List.zipWith (· + ·)) (List.replicate 32 0)

/-- Toy crypto: bytewise addition, constant dealings, "signatures" that show all their inputs, RSA where the public
and private key are the same and prefix the message. -/
def toy : Crypto where
  addScalars := toySum
  addElements := toySum
  scalarMultiplyBase := fun s => s
  dealShares := fun secret _ _ n => List.replicate n secret
  scMinimal := fun _ => true
  signWithShare := fun m x r p R => r ++ R ++ x ++ p ++ m
  combineShares := fun _ _ shares => shares.flatten
  verify := fun _ _ _ => true
  rsaEncrypt := fun pub _ m => some (pub ++ m)
  rsaDecrypt := fun priv c => if c.take priv.length = priv then some (c.drop priv.length) else none
  rsaSign := fun priv _ d => some (priv ++ d.ephemeralPublic.bytes ++ d.encrypted.bytes)
  rsaVerify := fun pub d sig => decide (sig = pub ++ d.ephemeralPublic.bytes ++ d.encrypted.bytes)

/-- Cosigner 1 of 2. -/
def toyCfg : CosignerCfg :=
  { id := 1, shareKey := [9], pubKeyBytes := [8], rsaKey := [1], total := 2, threshold := 2,
    peers := fun i => if i = 1 then some [1] else if i = 2 then some [2] else none }

/-- Run a list of operations. -/
def exec (C : Crypto) (cfg : CosignerCfg) (s : CState) : List CosOp → List (CosOp × Out CosResp) × CState
  | [] => ([], s)
  | op :: ops =>
    let r := s.step C cfg op
    let rest := exec C cfg r.2 ops
    ((op, r.1) :: rest.1, rest.2)

theorem exec_run (C : Crypto) (cfg : CosignerCfg) (s : CState) (ops : List CosOp)
    (h : ∀ x ∈ (exec C cfg s ops).1, x.2 ≠ .panic) : Run C cfg s (exec C cfg s ops).1 (exec C cfg s ops).2 := by
  induction ops generalizing s with
  | nil => exact .nil _
  | cons op ops ih =>
    simp only [exec] at h ⊢
    refine .cons rfl (h _ (List.mem_cons_self ..)) (ih _ ?_)
    intro x hx
    exact h x (List.mem_cons_of_mem _ hx)

/-- Randomness whose nonce secret is 32 times `b`. -/
def toyRnd (b : UInt8) : Rand := ⟨some (List.replicate 32 b), [], [], []⟩

/-- The release at position `i` of a trace. -/
def relAt (tr : List (CosOp × Out CosResp)) (i : Nat) : Option (Bytes × SignRes) :=
  match tr[i]? with
  | some (.sign bs, .ok (.signed r)) => some (bs, r)
  | _ => none

theorem relAt_mem {tr : List (CosOp × Out CosResp)} {i : Nat} {bs : Bytes} {r : SignRes}
    (h : relAt tr i = some (bs, r)) : (CosOp.sign bs, Out.ok (CosResp.signed r)) ∈ tr := by
  unfold relAt at h
  split at h
  · next bs' r' heq =>
    simp only [Option.some.injEq, Prod.mk.injEq] at h
    obtain ⟨rfl, rfl⟩ := h
    exact List.mem_of_getElem? heq
  · cases h

/-- A check on the release at position `i`, in a form that can be evaluated. -/
def relCheck (tr : List (CosOp × Out CosResp)) (i : Nat) (bs : Bytes) (q : SignRes → Bool) : Bool :=
  match relAt tr i with
  | some (b, r) => decide (b = bs) && q r
  | none => false

theorem relCheck_spec {tr : List (CosOp × Out CosResp)} {i : Nat} {bs : Bytes} {q : SignRes → Bool}
    (h : relCheck tr i bs q = true) : ∃ r, (CosOp.sign bs, Out.ok (CosResp.signed r)) ∈ tr ∧ q r = true := by
  unfold relCheck at h
  split at h
  · next b r heq =>
    simp only [Bool.and_eq_true, decide_eq_true_eq] at h
    obtain ⟨rfl, hq⟩ := h
    exact ⟨r, relAt_mem heq, hq⟩
  · cases h

/-- A check on the part handed out at position `i`, in a form that can be evaluated. -/
def partCheck (tr : List (CosOp × Out CosResp)) (i : Nat) (req : GetPartReq) (rnd : Rand) (q : SecretPart → Bool) :
    Bool :=
  match tr[i]? with
  | some (.getPart req' rnd', .ok (.part p)) => decide (req' = req ∧ rnd' = rnd) && q p
  | _ => false

theorem partCheck_spec {tr : List (CosOp × Out CosResp)} {i : Nat} {req : GetPartReq} {rnd : Rand}
    {q : SecretPart → Bool} (h : partCheck tr i req rnd q = true) :
    ∃ p, (CosOp.getPart req rnd, Out.ok (CosResp.part p)) ∈ tr ∧ q p = true := by
  unfold partCheck at h
  split at h
  · next heq =>
    simp only [Bool.and_eq_true, decide_eq_true_eq] at h
    obtain ⟨⟨rfl, rfl⟩, hq⟩ := h
    exact ⟨_, List.mem_of_getElem? heq, hq⟩
  · cases h

/-- Evaluable form of `PartsAfterGet`; `seen` are the keys of the successful get-part calls so far. -/
def partsAfterGetB : List HRST → List (CosOp × Out CosResp) → Bool
  | _, [] => true
  | seen, (.getPart req _, .ok (.part _)) :: tr => partsAfterGetB (req.key :: seen) tr
  | seen, (.setPart req _, out) :: tr =>
    (decide (out ≠ .ok .unit ∧ out ≠ .err .decryptFailed) || seen.contains req.key) && partsAfterGetB seen tr
  | seen, _ :: tr => partsAfterGetB seen tr

theorem partsAfterGetB_aux (tr : List (CosOp × Out CosResp)) : ∀ (pre : List (CosOp × Out CosResp)) (seen : List HRST),
    (∀ k ∈ seen, ∃ req' rnd' p, (CosOp.getPart req' rnd', Out.ok (CosResp.part p)) ∈ pre ∧ req'.key = k) →
    partsAfterGetB seen tr = true →
    ∀ l1 l2 req rnd out, tr = l1 ++ (CosOp.setPart req rnd, out) :: l2 →
      (out = .ok .unit ∨ out = .err .decryptFailed) →
      ∃ req' rnd' p, (CosOp.getPart req' rnd', Out.ok (CosResp.part p)) ∈ pre ++ l1 ∧ req'.key = req.key := by
  induction tr with
  | nil => intro pre seen _ _ l1 l2 req rnd out he; simp at he
  | cons x tr ih =>
    intro pre seen hseen hb l1 l2 req rnd out he ho
    cases l1 with
    | nil =>
      simp only [List.nil_append, List.cons.injEq] at he
      obtain ⟨rfl, rfl⟩ := he
      rw [partsAfterGetB, Bool.and_eq_true, Bool.or_eq_true] at hb
      rcases hb.1 with h | h
      · simp only [decide_eq_true_eq] at h
        rcases ho with ho | ho
        · exact absurd ho h.1
        · exact absurd ho h.2
      · rw [List.contains_iff_mem] at h
        simpa using hseen _ h
    | cons y l1 =>
      simp only [List.cons_append, List.cons.injEq] at he
      obtain ⟨rfl, he⟩ := he
      have key : ∀ seen', (∀ k ∈ seen', ∃ req' rnd' p, (CosOp.getPart req' rnd', Out.ok (CosResp.part p)) ∈ pre ++ [x] ∧
          req'.key = k) → partsAfterGetB seen' tr = true →
          ∃ req' rnd' p, (CosOp.getPart req' rnd', Out.ok (CosResp.part p)) ∈ pre ++ x :: l1 ∧ req'.key = req.key := by
        intro seen' h1 h2
        have := ih (pre ++ [x]) seen' h1 h2 l1 l2 req rnd out he ho
        simpa using this
      have hsame : ∀ k ∈ seen, ∃ req' rnd' p, (CosOp.getPart req' rnd', Out.ok (CosResp.part p)) ∈ pre ++ [x] ∧
          req'.key = k := by
        intro k hk
        obtain ⟨a, b, c, d, e⟩ := hseen k hk
        exact ⟨a, b, c, List.mem_append_left _ d, e⟩
      unfold partsAfterGetB at hb
      split at hb
      · next h => simp at h
      · next h =>
        cases h
        refine key _ ?_ hb
        intro k hk
        rcases List.mem_cons.1 hk with rfl | hk
        · exact ⟨_, _, _, List.mem_append_right _ (List.mem_singleton.2 rfl), rfl⟩
        · exact hsame k hk
      · next h =>
        cases h
        rw [Bool.and_eq_true] at hb
        exact key _ hsame hb.2
      · next h =>
        cases h
        exact key _ hsame hb

theorem partsAfterGetB_spec {tr : List (CosOp × Out CosResp)} (h : partsAfterGetB [] tr = true) : PartsAfterGet tr := by
  intro l1 l2 req rnd out he ho
  simpa using partsAfterGetB_aux tr [] [] (by intro k hk; cases hk) h l1 l2 req rnd out he ho

end Horcrux
