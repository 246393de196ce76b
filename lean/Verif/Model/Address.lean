import Verif.Model.KeyFile
/-
The command `horcrux cosigner address [prefix]`: `cmd/horcrux/cmd/cosigner.go:33-104`, with `signer/Config.go:43-72`
(`PubKey`).

Library code modelled from knowledge of it: `cosmos-sdk/types/bech32` and `cosmos/btcutil/bech32` (`ConvertBits`,
`Encode`), the amino encoding of an ed25519 key, the JSON that `ProtoCodec.MarshalInterfaceJSON` gives for it. A
parameter: the hash of `ed25519.PubKey.Address` (the first 20 bytes of SHA-256). Simplified: a key of another kind is an
error (`Config.go:59-62` registers ed25519 only, and line 67 fails for anything else).
-/
namespace Horcrux

/-! ### Bech32 -/

/-- `bech32.gen` -/
def bech32Gen : List Nat := [0x3b6a57b2, 0x26508e6d, 0x1ea119fa, 0x3d4233dd, 0x2a1462b3]

/-- The inner loop of `bech32Polymod`: the bits of `b` say which constants are added. -/
def addGens (b : Nat) : Nat → List Nat → Nat → Nat
  | _, [], c => c
  | i, g :: gs, c => addGens b (i + 1) gs (if (b >>> i) &&& 1 = 1 then c ^^^ g else c)

/-- One step of `bech32Polymod`. -/
def polymodStep (chk v : Nat) : Nat := addGens (chk >>> 25) 0 bech32Gen (((chk &&& 0x1ffffff) <<< 5) ^^^ v)

/-- `bech32Polymod` -/
def polymod (vs : List Nat) : Nat := vs.foldl polymodStep 1

/-- `bech32HrpExpand` -/
def hrpExpand (hrp : Bytes) : List Nat := hrp.map (fun c => c.toNat >>> 5) ++ 0 :: hrp.map (fun c => c.toNat &&& 31)

/-- `bech32Checksum` -/
def bech32Checksum (hrp : Bytes) (data : List Nat) : List Nat :=
  let p := polymod (hrpExpand hrp ++ (data ++ [0, 0, 0, 0, 0, 0])) ^^^ 1
  [0, 1, 2, 3, 4, 5].map fun i => (p >>> (5 * (5 - i))) &&& 31

/-- `ConvertBits(data, 8, 5, true)`: `k` bits are left over, with value `acc`. The loop over the bits of one byte is
unrolled: it completes one or two groups. -/
def toGroups (acc k : Nat) : Bytes → List Nat
  | [] => if k = 0 then [] else [acc <<< (5 - k)]
  | b :: bs =>
    let v := acc * 256 + b.toNat
    if k < 2 then (v >>> (k + 3)) :: toGroups (v % 2 ^ (k + 3)) (k + 3) bs
    else (v >>> (k + 3)) :: ((v >>> (k - 2)) % 32) :: toGroups (v % 2 ^ (k - 2)) (k - 2) bs

/-- `qpzry9x8gf2tvdw0s3jn54khce6mua7l` -/
def bech32Chars : Bytes :=
  [113, 112, 122, 114, 121, 57, 120, 56, 103, 102, 50, 116, 118, 100, 119, 48, 115, 51, 106, 110, 53, 52, 107,
   104, 99, 101, 54, 109, 117, 97, 55, 108]

/-- `bech32.ConvertAndEncode`: no check of the human-readable part. (`toChars` refuses values from 32 on, which there
are not; 0 here.) -/
def bech32 (hrp data : Bytes) : Bytes :=
  let groups := toGroups 0 0 data
  hrp ++ 49 :: (groups ++ bech32Checksum hrp groups).map fun v => bech32Chars.getD v 0

/-! ### The command -/

/-- `@type` -/
def nAtType : Bytes :=
  [64, 116, 121, 112, 101]
/-- `key` -/
def nJsonKey : Bytes :=
  [107, 101, 121]
/-- `/cosmos.crypto.ed25519.PubKey` -/
def edTypeUrl : Bytes :=
  [47, 99, 111, 115, 109, 111, 115, 46, 99, 114, 121, 112, 116, 111, 46, 101, 100, 50, 53, 53, 49, 57, 46, 80,
   117, 98, 75, 101, 121]
/-- `HexAddress` -/
def nHexAddress : Bytes :=
  [72, 101, 120, 65, 100, 100, 114, 101, 115, 115]
/-- `PubKey` -/
def nOutPubKey : Bytes :=
  [80, 117, 98, 75, 101, 121]
/-- `ValConsAddress` -/
def nValCons : Bytes :=
  [86, 97, 108, 67, 111, 110, 115, 65, 100, 100, 114, 101, 115, 115]
/-- `ValConsPubAddress` -/
def nValConsPub : Bytes :=
  [86, 97, 108, 67, 111, 110, 115, 80, 117, 98, 65, 100, 100, 114, 101, 115, 115]
/-- `valcons` -/
def valconsSuffix : Bytes :=
  [118, 97, 108, 99, 111, 110, 115]
/-- `valconspub` -/
def valconspubSuffix : Bytes :=
  [118, 97, 108, 99, 111, 110, 115, 112, 117, 98]
/-- `Pass bech32 base prefix as argument to generate (e.g. cosmos)` -/
def bech32Hint : Bytes :=
  [80, 97, 115, 115, 32, 98, 101, 99, 104, 51, 50, 32, 98, 97, 115, 101, 32, 112, 114, 101, 102, 105, 120, 32,
   97, 115, 32, 97, 114, 103, 117, 109, 101, 110, 116, 32, 116, 111, 32, 103, 101, 110, 101, 114, 97, 116, 101,
   32, 40, 101, 46, 103, 46, 32, 99, 111, 115, 109, 111, 115, 41]

/-- `legacy.Cdc.Amino.MustMarshalBinaryBare` of an ed25519 key of 32 bytes. -/
def aminoKey (pk : Bytes) : Bytes := [0x16, 0x24, 0xDE, 0x64, 0x20] ++ pk

/-- `Config.go:43-72` `PubKey(base, key)` for an ed25519 key. -/
def pubKeyText (base : Str) (pk : Bytes) : Bytes :=
  if base ≠ [] then bech32 (base ++ valconspubSuffix) (aminoKey pk)
  else (JVal.obj (.cons nAtType (.str edTypeUrl false) (.cons nJsonKey (.str (b64Enc pk) false) .nil))).print

/-- `cosigner.go:62-91`: the output for a key with the given address. -/
def addressJson (addr pk : Bytes) (args : List Str) : JVal :=
  let out (valcons valconspub : Bytes) : JVal :=
    .obj (.cons nHexAddress (.str (hexEnc addr) false) (.cons nOutPubKey (.str (pubKeyText [] pk) false)
      (.cons nValCons (.str valcons false) (.cons nValConsPub (.str valconspub false) .nil))))
  match args with
  | [base] => out (bech32 (base ++ valconsSuffix) addr) (pubKeyText base pk)
  | _ => out bech32Hint bech32Hint

/-- What the command does. -/
inductive AddrRes where
  | printed (bs : Bytes)
  | failed
  | panic
  deriving DecidableEq, Repr

/-- `cosigner.go:33-104` `AddressCmd`; `shareFile home` is `path.Join(home, "share.json")`. A key whose length is not 32
makes `Address` panic. -/
def addressCmd (hash : Bytes → Bytes) (R : RSACodec) (lib : Lib) (shareFile : Str → Str) (files : Str → Option Bytes)
    (cfg : Config) (args : List Str) : AddrRes :=
  if 1 < args.length then .failed
  else
    match validateCosignerConfig lib cfg with
    | .error _ => .failed
    | .ok () =>
      match files (if cfg.privValKeyFile = [] then shareFile cfg.homeDir else cfg.privValKeyFile) with
      | none => .failed
      | some content =>
        match loadKey R content with
        | .error => .failed
        | .crash => .panic
        | .ok k =>
          match k.pubKey with
          | .ed25519 pk =>
            if pk.length = 32 then .printed ((addressJson (hash pk) pk args).print ++ [10]) else .panic
          | _ => .failed

end Horcrux
