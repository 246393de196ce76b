import Verif.Lemmas.UrlText
import Verif.Props.Url
/-
C89-C91 for all strings: with the grammar of `Spec/UrlText`, exactly what each part of the program makes of an address.
-/
namespace Horcrux
open Spec

/-- The grammar is unambiguous: a URL has one host. -/
theorem C89_unambiguous (u h h' : Str) (a : UrlText u h) (b : UrlText u h') : h = h' := by
  rw [← urlHost_iff] at a b
  rw [a] at b
  exact Option.some.inj b

/-- An address with everything that a URL can have. -/
example : UrlText (text "tcp://me:p%40ss@[fe80::1%25eth0]:2222/x?y#z") (text "[fe80::1%eth0]:2222") ∧
    Endpoint (text "[fe80::1%eth0]:2222") (text "fe80::1%eth0") (text "2222") :=
  ⟨urlHost_iff.1 (by decide +kernel), by decide +kernel, by decide +kernel, by decide +kernel, by decide +kernel,
    by decide +kernel, .inr (by decide +kernel)⟩

/-- Strings that are no URLs: an IP address and a port, a bad port, a bad escape, a space in the host. -/
example : ∀ u ∈ ["10.0.0.1:1234", "tcp://node-1:12a", "tcp://node%zz:12", "tcp://node 1:12", "tcp://[::1:12"],
    ∀ h, ¬ UrlText (text u) h := by
  have : ∀ u ∈ ["10.0.0.1:1234", "tcp://node-1:12a", "tcp://node%zz:12", "tcp://node 1:12", "tcp://[::1:12"],
      urlHost (text u) = none := by decide +kernel
  intro u hu h hh
  rw [← urlHost_iff, this u hu] at hh
  cases hh

theorem endpoint_iff {s host port : Str} : splitHostPort s = some (host, port) ↔ Endpoint s host port := by
  rw [splitHostPort_iff]
  unfold Endpoint
  simp

/-- C89: the place that signing rounds and raft use for an address is the host of the URL, or the address itself if it is
no URL. -/
theorem C89_target_exact (u a : Str) :
    (cosignerTarget u = a ↔ UrlText u a ∨ ((∀ h, ¬ UrlText u h) ∧ a = u)) ∧
    (raftAddr urlHost u = a ↔ UrlText u a ∨ ((∀ h, ¬ UrlText u h) ∧ a = u)) := by
  rw [← C89_same, and_self_iff]
  unfold cosignerTarget
  simp only [← urlHost_iff]
  cases urlHost u with
  | none => simp [eq_comm]
  | some h => simp

/-- C89: `horcrux elect` uses an address exactly if it is a URL whose host is host and port, and dials these, without
brackets. -/
theorem C89_elect_exact (u a : Str) :
    electAddr u = some a ↔ ∃ h host port, UrlText u h ∧ Endpoint h host port ∧ a = host ++ [58] ++ port := by
  unfold electAddr
  simp only [← urlHost_iff, ← endpoint_iff]
  cases hu : urlHost u with
  | none => simp
  | some h =>
    simp only [Option.some.injEq]
    constructor
    · intro e
      split at e
      · cases e
      · next host port hs => cases e; exact ⟨h, host, port, rfl, hs, by simp⟩
    · rintro ⟨_, host, port, rfl, hs, rfl⟩
      simp [hs]

example : electAddr (text "grpc://[::1]:2222/x?y#z") = some (text "::1:2222") := by decide +kernel

/-- C89: a cosigner listens on the port that its listen address has, be it a URL or host and port; without one it does not
start. -/
theorem C89_listen_exact (u port : Str) :
    listenPort u = some port ↔
      ∃ a host, (UrlText u a ∨ ((∀ h, ¬ UrlText u h) ∧ a = u)) ∧ Endpoint a host port := by
  unfold listenPort
  simp only [← (C89_target_exact u _).2, ← endpoint_iff, Option.map_eq_some_iff, Prod.exists, exists_eq_right]
  simp

example : listenPort (text "10.0.0.1:1234") = some (text "1234") ∧ listenPort (text "node-1:1234") = none := by decide +kernel

/-- C90: the exact condition under which `config init` takes a listen address, everything else being acceptable. -/
theorem C90_exact (d : Str → Bool) (home : Str) (a : InitArgs) (cfg : Config) (ha : a.cosigner = true)
    (h : initConfig (goLib d) home a = .ok cfg) (u : Str) :
    (∃ cfg', initConfig (goLib d) home { a with listen := u } = .ok cfg') ↔
      u ≠ [] ∧ ∃ x host port, UrlText u x ∧ Endpoint x host port ∧ host ≠ unspecified := by
  have hl : (∃ host, (goLib d).hostOf u = some host ∧ host ≠ unspecified) ↔
      ∃ x host port, UrlText u x ∧ Endpoint x host port ∧ host ≠ unspecified := by
    simp only [goLib, ← urlHost_iff, ← endpoint_iff, Option.bind_eq_some_iff, Option.map_eq_some_iff]
    constructor
    · rintro ⟨_, ⟨x, h1, ⟨host, port⟩, h2, rfl⟩, h3⟩; exact ⟨x, host, port, h1, h2, h3⟩
    · rintro ⟨x, host, port, h1, h2, h3⟩; exact ⟨host, ⟨x, h1, ⟨host, port⟩, h2, rfl⟩, h3⟩
  rw [← hl]
  obtain ⟨peers, ⟨_, h1, h2, h3, h4, h5, _, _, _, h6, h7⟩, rfl⟩ := (C62_cosigner _ _ _ ha _).1 h
  constructor
  · rintro ⟨cfg', h'⟩
    obtain ⟨peers', ⟨_, _, _, _, _, _, k1, _, k2, _, _⟩, _⟩ := (C62_cosigner _ _ { a with listen := u } ha _).1 h'
    exact ⟨by simpa using k1, k2⟩
  · rintro ⟨k1, k2⟩
    refine ⟨_, (C62_cosigner _ _ { a with listen := u } ha _).2 ⟨peers, ⟨ha, h1, h2, h3, h4, h5, ?_, ?_, k2, h6, h7⟩, rfl⟩⟩
    · exact k1
    · obtain ⟨x, host, port, e, _⟩ := hl.1 k2
      simp [goLib, urlHost_iff.2 e]

example : ∃ cfg, initConfig (goLib fun _ => true) [104] (listenArgs (text "tcp://me@node-1:/x#%20")) = .ok cfg := ⟨_, rfl⟩

/-- C91: a list of chain nodes is accepted exactly if the last of them is a URL (or there is none). -/
theorem C91_accepted_exact (d : Str → Bool) (nodes : List Str) :
    validateChainNodes (goLib d) nodes = .ok () ↔ ∀ u ∈ nodes.getLast?, ∃ h, UrlText u h := by
  rw [validateChainNodes_iff]
  refine forall_congr' fun u => imp_congr_right fun _ => ?_
  simp only [goLib, Option.isSome_iff_exists, urlHost_iff]

theorem text_sep : text "://" = [58, 47, 47] := by decide +kernel

theorem takeSep {s : Bytes} : s.take 3 = [58, 47, 47] ↔ text "://" <+: s := by
  rw [text_sep, List.prefix_iff_eq_take]
  exact eq_comm

theorem cutScheme_none_iff {s : Bytes} : cutScheme s = none ↔ ¬ text "://" <:+: s := by
  induction s with
  | nil => simp [cutScheme, text_sep]
  | cons b s ih =>
    rw [List.infix_cons_iff, ← takeSep]
    simp only [cutScheme]
    split
    · next h => simp [h]
    · next h =>
      rw [Option.map_eq_none_iff, ih]
      simp only [h, false_or]

theorem cutScheme_some {s a z : Bytes} : cutScheme s = some (a, z) ↔ s = a ++ (text "://" ++ z) ∧ ¬ text "://" <:+: a := by
  induction s generalizing a z with
  | nil => simp [cutScheme, text_sep]
  | cons b s ih =>
    simp only [cutScheme]
    split
    · next h =>
      obtain ⟨y, hy⟩ := takeSep.1 h
      rw [text_sep] at hy
      obtain ⟨rfl, hs⟩ := List.cons.inj hy
      constructor
      · intro e; cases e
        rw [← hs]
        exact ⟨by simp [text_sep], by simp [text_sep]⟩
      · rintro ⟨e, hn⟩
        have : a = [] := by
          rw [text_sep] at e hn
          rcases a with _ | ⟨x1, _ | ⟨x2, _ | ⟨x3, a⟩⟩⟩
          · rfl
          · rw [e] at h; simp at h
          · rw [e] at h; simp at h
          · rw [e] at h
            simp at h
            obtain ⟨rfl, rfl, rfl⟩ := h
            exact absurd ⟨[], a, rfl⟩ hn
        subst this
        rw [text_sep] at e
        simp at e
        simp [e]
    · next h =>
      simp only [Option.map_eq_some_iff, Prod.mk.injEq, Prod.exists]
      constructor
      · rintro ⟨a', z', h1, rfl, rfl⟩
        obtain ⟨h3, h4⟩ := ih.1 h1
        refine ⟨by rw [h3]; rfl, ?_⟩
        rw [List.infix_cons_iff]
        rintro (h5 | h5)
        · apply h
          rw [takeSep, h3]
          exact h5.trans (List.prefix_append (b :: a') (text "://" ++ z'))
        · exact h4 h5
      · rintro ⟨h3, h4⟩
        cases a with
        | nil =>
          exfalso; apply h
          rw [takeSep, h3]
          exact List.prefix_append _ _
        | cons x a =>
          obtain ⟨rfl, h6⟩ := List.cons.inj h3
          exact ⟨a, z, ih.2 ⟨h6, fun h5 => h4 (List.infix_cons_iff.2 (.inr h5))⟩, rfl, rfl⟩

/-- C91: what is dialled for a chain node, whatever its address. -/
theorem C91_dialled_exact (u net a : Str) : nodeTarget u = (net, a) ↔ NetworkAddress u net a := by
  have tcp : text "tcp" = [116, 99, 112] := by decide +kernel
  unfold nodeTarget NetworkAddress
  rw [tcp]
  cases hc : cutScheme u with
  | none =>
    have hn := cutScheme_none_iff.1 hc
    simp only [Prod.mk.injEq]
    constructor
    · rintro ⟨rfl, rfl⟩; exact .inr ⟨hn, rfl, rfl⟩
    · rintro (⟨rfl, _⟩ | ⟨_, rfl, rfl⟩)
      · exact absurd ⟨net, a, rfl⟩ hn
      · exact ⟨rfl, rfl⟩
  | some q =>
    obtain ⟨x, y⟩ := q
    obtain ⟨e, hn⟩ := cutScheme_some.1 hc
    simp only [Prod.mk.injEq]
    constructor
    · rintro ⟨rfl, rfl⟩; exact .inl ⟨by rw [e]; simp, hn⟩
    · rintro (⟨e2, hn2⟩ | ⟨h1, _⟩)
      · have := (cutScheme_some (s := u) (a := net) (z := a)).2 ⟨by rw [e2]; simp, hn2⟩
        rw [hc] at this
        cases this
        exact ⟨rfl, rfl⟩
      · exact absurd ⟨x, y, by rw [e]; simp⟩ h1

example : nodeTarget (text "tcp://node-1:1234/a://b") = (text "tcp", text "node-1:1234/a://b") ∧
    nodeTarget (text "node-1:1234") = (text "tcp", text "node-1:1234") := by decide +kernel

end Horcrux
