import Verif.CEnc
import Verif.Community
import Verif.Onion

/-!
# Public keys in base64 and base32z

`community::pubkey_b64`, `pubkey_b32z`, `set_pubkey` (src/config/community.cpp), `decode_pubkey` (src/config/internal.cpp),
`parse_pubkey`, `snode_address`, `from_hex` and `from_bytes` (src/onionreq/key_types.cpp).  The encoders and decoders are those
of the oxen-encoding library, written down here from its documentation.
-/

namespace Verif

/-! ### base64 -/

/-- The value of a base64 digit -/
def b64Dig (c : UInt8) : Option Nat :=
  if 65 ≤ c ∧ c ≤ 90 then some (c.toNat - 65) else if 97 ≤ c ∧ c ≤ 122 then some (c.toNat - 71)
  else if 48 ≤ c ∧ c ≤ 57 then some (c.toNat + 4) else if c = 43 then some 62 else if c = 47 then some 63 else none

/-- The bytes of base64 digits; left-over bits are ignored -/
def b64Bytes : List Nat → Bytes
  | a :: b :: c :: d :: t => UInt8.ofNat (a * 4 + b / 16) :: UInt8.ofNat (b % 16 * 16 + c / 4) :: UInt8.ofNat (c % 4 * 64 + d) :: b64Bytes t
  | [a, b, c] => [UInt8.ofNat (a * 4 + b / 16), UInt8.ofNat (b % 16 * 16 + c / 4)]
  | [a, b] => [UInt8.ofNat (a * 4 + b / 16)]
  | _ => []

/-- Without the padding: at most two `=` at the end, and only if the length is a multiple of four -/
def b64Strip (s : Bytes) : Bytes :=
  if s.length % 4 = 0 then
    if s.drop (s.length - 2) = [61, 61] then s.take (s.length - 2)
    else if s.drop (s.length - 1) = [61] then s.take (s.length - 1) else s
  else s

/-- `oxenc::is_base64` and `oxenc::from_base64` -/
def fromB64 (s : Bytes) : Option Bytes :=
  if (b64Strip s).length % 4 = 1 then none else ((b64Strip s).mapM b64Dig).map b64Bytes

/-! ### base32z -/

/-- The alphabet: ybndrfg8ejkmcpqxot1uwisza345h769 -/
def b32zAlphabet : Bytes := asc "ybndrfg8ejkmcpqxot1uwisza345h769".toList

/-- The character of five bits -/
def b32zChar (n : Nat) : UInt8 := b32zAlphabet.getD n 0

/-- `oxenc::to_base32z` -/
def toB32z : Bytes → Bytes
  | [] => []
  | [a] => [b32zChar (a.toNat / 8), b32zChar (a.toNat % 8 * 4)]
  | [a, b] => [b32zChar (a.toNat / 8), b32zChar (a.toNat % 8 * 4 + b.toNat / 64), b32zChar (b.toNat / 2 % 32), b32zChar (b.toNat % 2 * 16)]
  | [a, b, c] => [b32zChar (a.toNat / 8), b32zChar (a.toNat % 8 * 4 + b.toNat / 64), b32zChar (b.toNat / 2 % 32),
      b32zChar (b.toNat % 2 * 16 + c.toNat / 16), b32zChar (c.toNat % 16 * 2)]
  | [a, b, c, d] => [b32zChar (a.toNat / 8), b32zChar (a.toNat % 8 * 4 + b.toNat / 64), b32zChar (b.toNat / 2 % 32),
      b32zChar (b.toNat % 2 * 16 + c.toNat / 16), b32zChar (c.toNat % 16 * 2 + d.toNat / 128), b32zChar (d.toNat / 4 % 32),
      b32zChar (d.toNat % 4 * 8)]
  | a :: b :: c :: d :: e :: t => b32zChar (a.toNat / 8) :: b32zChar (a.toNat % 8 * 4 + b.toNat / 64) :: b32zChar (b.toNat / 2 % 32) ::
      b32zChar (b.toNat % 2 * 16 + c.toNat / 16) :: b32zChar (c.toNat % 16 * 2 + d.toNat / 128) :: b32zChar (d.toNat / 4 % 32) ::
      b32zChar (d.toNat % 4 * 8 + e.toNat / 32) :: b32zChar (e.toNat % 32) :: toB32z t

/-- The value of a base32z digit; capitals count as their small letters -/
def b32zVal (c : UInt8) : Option Nat := match b32zAlphabet.findIdx? (· == lowerC c) with
  | some i => some i
  | none => none

/-- The bytes of base32z digits; left-over bits are ignored -/
def b32zBytes : List Nat → Bytes
  | a :: b :: c :: d :: e :: f :: g :: h :: t => UInt8.ofNat (a * 8 + b / 4) :: UInt8.ofNat (b % 4 * 64 + c * 2 + d / 16) ::
      UInt8.ofNat (d % 16 * 16 + e / 2) :: UInt8.ofNat (e % 2 * 128 + f * 4 + g / 8) :: UInt8.ofNat (g % 8 * 32 + h) :: b32zBytes t
  | [a, b, c, d, e, f, g] => [UInt8.ofNat (a * 8 + b / 4), UInt8.ofNat (b % 4 * 64 + c * 2 + d / 16),
      UInt8.ofNat (d % 16 * 16 + e / 2), UInt8.ofNat (e % 2 * 128 + f * 4 + g / 8)]
  | [a, b, c, d, e] => [UInt8.ofNat (a * 8 + b / 4), UInt8.ofNat (b % 4 * 64 + c * 2 + d / 16), UInt8.ofNat (d % 16 * 16 + e / 2)]
  | [a, b, c, d] => [UInt8.ofNat (a * 8 + b / 4), UInt8.ofNat (b % 4 * 64 + c * 2 + d / 16)]
  | [a, b] => [UInt8.ofNat (a * 8 + b / 4)]
  | _ => []

/-- `oxenc::is_base32z` and `oxenc::from_base32z` -/
def fromB32z (s : Bytes) : Option Bytes :=
  if s.length % 8 = 1 ∨ s.length % 8 = 3 ∨ s.length % 8 = 6 then none else (s.mapM b32zVal).map b32zBytes

/-- The decoders of the library -/
def oxenc : Codecs := ⟨fromB64, fromB32z⟩

/-! ### Keys of the onion request code -/

/-- `key_base::from_hex` (include/session/onionreq/key_types.hpp:37-42, src/onionreq/key_types.cpp:15-23) of a key of `n` bytes -/
def keyFromHex (n : Nat) (s : Bytes) : Out Bytes :=
  if isHex s = false then .err .foreign else if s.length ≠ 2 * n then .err .foreign else .ok (fromHex s)

/-- `key_base::from_bytes` (include/session/onionreq/key_types.hpp:51-56, src/onionreq/key_types.cpp:25-31) -/
def keyFromBytes (n : Nat) (s : Bytes) : Out Bytes := if s.length ≠ n then .err .foreign else .ok s

/-- `ed25519_pubkey::snode_address` (src/onionreq/key_types.cpp:35-39) -/
def snodeAddress (pk : Bytes) : Bytes := toB32z pk ++ asc ['.', 's', 'n', 'o', 'd', 'e']

end Verif
