import Verif.Model.Config
import Verif.Spec.StateCmd
/-
What C89-C91 say about addresses, by the syntax of the documentation, `tcp://{addr}:{port}`. Nothing of the model of the
library is used.
-/
namespace Horcrux.Spec

/-- Letters and digits of ASCII. -/
abbrev Letter (c : UInt8) : Prop := (97 ≤ c ∧ c ≤ 122) ∨ (65 ≤ c ∧ c ≤ 90)
abbrev Digit (c : UInt8) : Prop := 48 ≤ c ∧ c ≤ 57

/-- A URL scheme (RFC 3986): a letter, then letters, digits, `+`, `-`, `.`. -/
def SchemeWord (s : Str) : Prop :=
  ∃ c t, s = c :: t ∧ Letter c ∧ ∀ d ∈ t, Letter d ∨ Digit d ∨ d = 43 ∨ d = 45 ∨ d = 46

/-- The name of a host, or an IPv4 address: letters, digits, `-`, `.`, `_`, `~`. -/
def HostName (h : Str) : Prop := h ≠ [] ∧ ∀ d ∈ h, Letter d ∨ Digit d ∨ d = 45 ∨ d = 46 ∨ d = 95 ∨ d = 126

/-- The inside of an IPv6 address: letters, digits, colons, dots. -/
def V6Name (h : Str) : Prop := h ≠ [] ∧ ∀ d ∈ h, Letter d ∨ Digit d ∨ d = 58 ∨ d = 46

/-- A port number. -/
def PortNo (p : Str) : Prop := p ≠ [] ∧ ∀ d ∈ p, Digit d

/-- `u` is `scheme://host:port`. -/
def Names (u host port : Str) : Prop :=
  ∃ scheme, SchemeWord scheme ∧ HostName host ∧ PortNo port ∧ u = scheme ++ [58, 47, 47] ++ host ++ [58] ++ port

/-- `u` is `scheme://[host]:port` with an IPv6 address. -/
def NamesV6 (u host port : Str) : Prop :=
  ∃ scheme, SchemeWord scheme ∧ V6Name host ∧ PortNo port ∧
    u = scheme ++ [58, 47, 47] ++ [91] ++ host ++ [93, 58] ++ port

/-- What can be dialled: a network, a host and a port. -/
def Dialable (t : Str × Str) : Prop :=
  t.1 = text "tcp" ∧ ∃ host port, PortNo port ∧ ((HostName host ∧ t.2 = host ++ [58] ++ port) ∨
    (V6Name host ∧ t.2 = [91] ++ host ++ [93, 58] ++ port))

end Horcrux.Spec
