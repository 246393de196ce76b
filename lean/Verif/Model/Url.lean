import Verif.Model.Membership
/-
The addresses in a configuration and what they become: `net/url.Parse`, `net.SplitHostPort` (standard library, from
knowledge of Go 1.17) and the places that use them: `signer/remote_cosigner.go:49-57`, `signer/raft_store.go:87-96, 129-135`,
`cmd/horcrux/cmd/leader_election.go:51-74`, `cmd/horcrux/cmd/config.go:98-108, 213, 629-634`, and for chain nodes
`signer/remote_signer.go:75-76`.

Of a parsed URL only the host is kept; the other parts matter for whether there is an error. Resolving names, listening and
dialling are not modelled: the result is the string handed to the network library.
-/
namespace Horcrux

/-- Letters of ASCII. -/
def isAlpha (c : UInt8) : Bool := (decide (97 ≤ c) && decide (c ≤ 122)) || (decide (65 ≤ c) && decide (c ≤ 90))

/-- What is before and after the first `c` (`strings.Cut`). -/
def cutFirst (c : UInt8) : Bytes → Option (Bytes × Bytes)
  | [] => none
  | b :: s => if b = c then some ([], s) else (cutFirst c s).map fun p => (b :: p.1, p.2)

/-- What is before and after the last `c` (`strings.LastIndex`). -/
def cutLast (c : UInt8) : Bytes → Option (Bytes × Bytes)
  | [] => none
  | b :: s =>
    match cutLast c s with
    | some p => some (b :: p.1, p.2)
    | none => if b = c then some ([], s) else none

/-- What is before the first `%25`, and the rest from there on. -/
def cutZone : Bytes → Option (Bytes × Bytes)
  | [] => none
  | b :: s => if (b :: s).take 3 = [37, 50, 53] then some ([], b :: s) else (cutZone s).map fun p => (b :: p.1, p.2)

/-- `net/url` `encoding`. -/
inductive Esc where
  | host | zone | other
  deriving DecidableEq, Repr

/-- `net/url` `shouldEscape(c, encodeHost)` (and `encodeZone`) is false: letters, digits, `-_.~`, `!$&'()*+,;=:[]<>"`. -/
def hostByte (c : UInt8) : Bool :=
  isAlpha c || isDigit c || [45, 95, 46, 126, 33, 36, 38, 39, 40, 41, 42, 43, 44, 59, 61, 58, 91, 93, 60, 62, 34].contains c

/-- Whether `%ab` may stand for a byte: in a host for bytes that are not ASCII and for `%` only, in a zone for space and
bytes of a host as well. -/
def pctOk (m : Esc) (a b : UInt8) (x y : Nat) : Bool :=
  match m with
  | .host => decide (8 ≤ x) || decide ((a, b) = (50, 53))
  | .zone => decide ((a, b) = (50, 53)) || decide (x * 16 + y = 32) || hostByte (UInt8.ofNat (x * 16 + y))
  | .other => true

/-- Whether a byte may stand for itself. -/
def plainOk (m : Esc) (c : UInt8) : Bool :=
  match m with
  | .other => true
  | _ => decide (128 ≤ c) || hostByte c

/-- `net/url` `unescape`. -/
def urlUnescape (m : Esc) : Bytes → Option Bytes
  | [] => some []
  | [c] => if c = 37 then none else if plainOk m c then some [c] else none
  | [c, a] =>
    if c = 37 then none
    else if plainOk m c then (urlUnescape m [a]).map (c :: ·)
    else none
  | c :: a :: b :: s =>
    if c = 37 then
      match hexVal a, hexVal b with
      | some x, some y => if pctOk m a b x y then (urlUnescape m s).map (UInt8.ofNat (x * 16 + y) :: ·) else none
      | _, _ => none
    else if plainOk m c then (urlUnescape m (a :: b :: s)).map (c :: ·)
    else none

/-- `net/url` `getScheme`: scheme and rest, `none` for an error; `i` is the number of bytes before. -/
def getScheme (whole : Bytes) : Bytes → Bytes → Option (Bytes × Bytes)
  | _, [] => some ([], whole)
  | pre, c :: s =>
    if isAlpha c then getScheme whole (pre ++ [c]) s
    else if isDigit c || c == 43 || c == 45 || c == 46 then
      if pre = [] then some ([], whole) else getScheme whole (pre ++ [c]) s
    else if c = 58 then if pre = [] then none else some (pre, s)
    else some ([], whole)

/-- `net/url` `validOptionalPort`. -/
def validOptionalPort : Bytes → Bool
  | [] => true
  | c :: s => c == 58 && s.all isDigit

/-- `net/url` `parseHost`. -/
def parseHost (h : Bytes) : Option Bytes :=
  if h.head? = some 91 then
    match cutLast 93 h with
    | none => none
    | some (pre, post) =>
      if validOptionalPort post = false then none
      else
        match cutZone pre with
        | some (a, z) =>
          match urlUnescape .host a, urlUnescape .zone z, urlUnescape .host (93 :: post) with
          | some x, some y, some w => some (x ++ y ++ w)
          | _, _, _ => none
        | none => urlUnescape .host h
  else
    match cutLast 58 h with
    | some (_, port) => if validOptionalPort (58 :: port) = false then none else urlUnescape .host h
    | none => urlUnescape .host h

/-- `net/url` `validUserinfo`. -/
def validUserinfo (s : Bytes) : Bool :=
  s.all fun c => isAlpha c || isDigit c ||
    [45, 46, 95, 58, 126, 33, 36, 38, 39, 40, 41, 42, 43, 44, 59, 61, 37, 64].contains c

/-- `net/url` `parseAuthority`: the host. The name and the password are unescaped one by one; no escape sequence spans the
colon between them. -/
def parseAuthority (a : Bytes) : Option Bytes :=
  match cutLast 64 a with
  | none => parseHost a
  | some (user, host) =>
    match parseHost host with
    | none => none
    | some h => if validUserinfo user && (urlUnescape .other user).isSome then some h else none

/-- `net/url` `parse` of what is before `#`: the host, `none` for an error. -/
def parseUrl (u : Bytes) : Option Bytes :=
  if u.any (fun c => decide (c < 32) || c == 127) then none
  else if u = [42] then some []
  else
    match getScheme u [] u with
    | none => none
    | some (scheme, rest) =>
      let r : Bytes := match cutFirst 63 rest with
        | some p => p.1
        | none => rest
      let path := fun (host p : Bytes) => if (urlUnescape .other p).isSome then some host else none
      if r.head? ≠ some 47 ∧ scheme ≠ [] then some []
      else if r.head? ≠ some 47 ∧ (match cutFirst 47 r with | some p => p.1 | none => r).contains 58 then none
      else if r.take 2 = [47, 47] ∧ (scheme ≠ [] ∨ r.take 3 ≠ [47, 47, 47]) then
        match cutFirst 47 (r.drop 2) with
        | some (auth, p) => (parseAuthority auth).bind fun h => path h (47 :: p)
        | none => (parseAuthority (r.drop 2)).bind fun h => path h []
      else path [] r

/-- `url.Parse(u)`: the field `Host`, `none` for an error. -/
def urlHost (u : Str) : Option Str :=
  match cutFirst 35 u with
  | none => parseUrl u
  | some (v, frag) => (parseUrl v).bind fun h => if (urlUnescape .other frag).isSome then some h else none

/-- `net.SplitHostPort`. -/
def splitHostPort (s : Str) : Option (Str × Str) :=
  match cutLast 58 s with
  | none => none
  | some (pre, port) =>
    if s.head? = some 91 then
      match cutFirst 93 (s.drop 1) with
      | none => none
      | some (host, rest) =>
        if rest = 58 :: port then
          if host.contains 91 || rest.contains 91 || rest.contains 93 then none else some (host, port)
        else none
    else if pre.contains 58 || s.contains 91 || s.contains 93 then none
    else some (pre, port)

/-- `remote_cosigner.go:49-57` `getGRPCClient`: where the requests of a signing round are sent. -/
def cosignerTarget (u : Str) : Str :=
  match urlHost u with
  | none => u
  | some h => h

/-- `raft_store.go:87-93`: the port on which a node listens; `none`: an error, with which `OnStart` (121-124) panics. -/
def listenPort (u : Str) : Option Str := (splitHostPort (raftAddr urlHost u)).map (·.2)

/-- `leader_election.go:52-60, 63-71`: what `horcrux elect` makes of an address; `none`: it is left out. -/
def electAddr (u : Str) : Option Str :=
  match urlHost u with
  | none => none
  | some h =>
    match splitHostPort h with
    | none => none
    | some (host, port) => some (host ++ 58 :: port)

/-- `strings.Join(l, ",")`. -/
def joinComma : List Str → Str
  | [] => []
  | [a] => a
  | a :: b :: l => a ++ 44 :: joinComma (b :: l)

/-- `leader_election.go:51-74`: the address `horcrux elect` dials. -/
def electTarget (c : CosignerConfig) : Str :=
  [109, 117, 108, 116, 105, 58, 47, 47, 47] ++
    joinComma ((c.p2pListen :: c.peers.map (·.p2pAddr)).filterMap electAddr)

/-- The library as `config.go` uses it. -/
def goLib (durationOk : Str → Bool) : Lib where
  urlOk u := (urlHost u).isSome
  durationOk := durationOk
  hostOf u := (urlHost u).bind fun h => (splitHostPort h).map (·.1)

/-- What is before and after the first `://` (`strings.SplitN(s, "://", 2)`). -/
def cutScheme : Bytes → Option (Bytes × Bytes)
  | [] => none
  | b :: s => if (b :: s).take 3 = [58, 47, 47] then some ([], s.drop 2) else (cutScheme s).map fun p => (b :: p.1, p.2)

/-- `remote_signer.go:75-76` with `tmNet.ProtocolAndAddress`: network and address dialled for a chain node. -/
def nodeTarget (u : Str) : Str × Str :=
  match cutScheme u with
  | some p => p
  | none => ([116, 99, 112], u)

end Horcrux
