import Verif.Spec.Url
import Verif.Spec.JsonText
/-
The syntax of the URLs that Go's `url.Parse` accepts, as a grammar (RFC 3986 with the deviations of the package), and the
host each of them has. Nothing of the model of the library is used.
-/
namespace Horcrux.Spec

/-- `s` stands for `t`: bytes that may be plain for themselves, `%` and two hexadecimal digits for a byte that may be
escaped. -/
inductive Decodes (plain escaped : UInt8 → Prop) : Bytes → Bytes → Prop where
  | nil : Decodes plain escaped [] []
  | plain {c : UInt8} {s t : Bytes} : c ≠ 37 → plain c → Decodes plain escaped s t → Decodes plain escaped (c :: s) (c :: t)
  | pct {a b : UInt8} {x y : Nat} {s t : Bytes} : HexDigit a x → HexDigit b y → escaped (UInt8.ofNat (x * 16 + y)) →
      Decodes plain escaped s t → Decodes plain escaped (37 :: a :: b :: s) (UInt8.ofNat (x * 16 + y) :: t)

/-- The bytes of a host: letters, digits and some punctuation. -/
def HostByte (c : UInt8) : Prop := Letter c ∨ Digit c ∨ c ∈ text "-_.~!$&'()*+,;=:[]<>\""

/-- In a host other bytes than ASCII are plain or escaped, and of ASCII only `%` is escaped. -/
def HostDecodes : Bytes → Bytes → Prop := Decodes (fun c => 128 ≤ c ∨ HostByte c) (fun c => 128 ≤ c ∨ c = 37)

/-- In the zone of an IPv6 address a space and bytes of a host may be escaped too, but others than ASCII may not. -/
def ZoneDecodes : Bytes → Bytes → Prop := Decodes (fun c => 128 ≤ c ∨ HostByte c) (fun c => c = 37 ∨ c = 32 ∨ HostByte c)

/-- Every `%` is followed by two hexadecimal digits. -/
def WellEscaped (s : Bytes) : Prop := ∃ t, Decodes (fun _ => True) (fun _ => True) s t

/-- Nothing, or a colon and digits (perhaps none). -/
def OptionalPort (s : Bytes) : Prop := s = [] ∨ ∃ p, s = 58 :: p ∧ ∀ d ∈ p, Digit d

/-- `s` is a host, with or without a port, and stands for `h`: a name, an address in brackets, or an address with a zone in
brackets. -/
inductive HostText : Bytes → Bytes → Prop where
  | name {n p h : Bytes} : (n ++ p).head? ≠ some 91 → 58 ∉ n ∧ p = [] ∨ (∃ q, p = 58 :: q ∧ ∀ d ∈ q, Digit d) →
      HostDecodes (n ++ p) h → HostText (n ++ p) h
  | literal {a p h : Bytes} : OptionalPort p → ¬ text "%25" <:+: a →
      HostDecodes (91 :: (a ++ 93 :: p)) h → HostText (91 :: (a ++ 93 :: p)) h
  | zone {a z p x y w : Bytes} : OptionalPort p → ¬ text "%25" <:+: a → HostDecodes (91 :: a) x →
      ZoneDecodes (text "%25" ++ z) y → HostDecodes (93 :: p) w →
      HostText (91 :: (a ++ (text "%25" ++ z) ++ 93 :: p)) (x ++ y ++ w)

/-- The bytes of a user name and password. -/
def UserByte (c : UInt8) : Prop := Letter c ∨ Digit c ∨ c ∈ text "-._:~!$&'()*+,;=%@"

/-- `s` is a host, perhaps after a user name, a password and `@`. -/
inductive AuthorityText : Bytes → Bytes → Prop where
  | host {s h : Bytes} : 64 ∉ s → HostText s h → AuthorityText s h
  | user {u s h : Bytes} : 64 ∉ s → (∀ c ∈ u, UserByte c) → WellEscaped u → HostText s h → AuthorityText (u ++ 64 :: s) h

/-- What follows the scheme (if there is one), up to the query, and its host. -/
inductive HierText : (scheme : Bool) → Bytes → Bytes → Prop where
  | bare {s : Bytes} : s.head? ≠ some 47 → HierText true s []
  | relative {s : Bytes} : s.head? ≠ some 47 → (∀ a b, s = a ++ 58 :: b → 47 ∈ a) → WellEscaped s → HierText false s []
  | authority {b : Bool} {a p h : Bytes} : 47 ∉ a → p = [] ∨ p.head? = some 47 → b = true ∨ a ≠ [] ∨ p = [] →
      AuthorityText a h → WellEscaped p → HierText b (47 :: 47 :: (a ++ p)) h
  | rooted {b : Bool} {s : Bytes} : s.head? ≠ some 47 → WellEscaped s → HierText b (47 :: s) []
  | slashes {s : Bytes} : WellEscaped s → HierText false (47 :: 47 :: 47 :: s) []

/-- `v` is scheme (perhaps none), rest and query (perhaps none). -/
inductive NoFragment : Bytes → Bytes → Prop where
  | scheme {s r q h : Bytes} : SchemeWord s → 63 ∉ r → q = [] ∨ q.head? = some 63 → HierText true r h →
      NoFragment (s ++ 58 :: (r ++ q)) h
  | noScheme {r q h : Bytes} : 63 ∉ r → q = [] ∨ q.head? = some 63 →
      (∀ s b, r ++ q = s ++ 58 :: b → s ≠ [] ∧ ¬ SchemeWord s) → HierText false r h → NoFragment (r ++ q) h

/-- `u` is a URL with host `h`. -/
def UrlText (u h : Bytes) : Prop :=
  ∃ v f, u = v ++ f ∧ 35 ∉ v ∧ (∀ c ∈ v, 32 ≤ c ∧ c ≠ 127) ∧ NoFragment v h ∧
    (f = [] ∨ ∃ g, f = 35 :: g ∧ WellEscaped g)

/-- `s` is host and port, with brackets around the host if it has colons. -/
def Endpoint (s host port : Str) : Prop :=
  58 ∉ port ∧ 91 ∉ port ∧ 93 ∉ port ∧ 91 ∉ host ∧ 93 ∉ host ∧
    ((58 ∉ host ∧ s = host ++ [58] ++ port) ∨ s = [91] ++ host ++ [93, 58] ++ port)

/-- `u` is network, `://` and address (at the first `://`), or an address without any, for which the network is `tcp`. -/
def NetworkAddress (u net a : Str) : Prop :=
  (u = net ++ text "://" ++ a ∧ ¬ text "://" <:+: net) ∨ (¬ text "://" <:+: u ∧ net = text "tcp" ∧ a = u)

end Horcrux.Spec
