import Verif.Hex
import Verif.Bt

/-!
# Community URLs

Models src/config/community.cpp (URL and room normalisation, full URLs and their parsing) and
`decode_pubkey` (src/config/internal.cpp:42-54).  `std::tolower` is taken in the "C" locale.
Base64 and base32z decoding (oxenc, an external library) are parameters.
-/

namespace Verif

/-- `"http"` -/
def sHttp : Bytes := [104, 116, 116, 112]
/-- `"https"` -/
def sHttps : Bytes := [104, 116, 116, 112, 115]
/-- `"://"` -/
def sSep : Bytes := [58, 47, 47]
/-- `qs_pubkey`: `"?public_key="` (src/config/community.cpp:77) -/
def sQuery : Bytes := [63, 112, 117, 98, 108, 105, 99, 95, 107, 101, 121, 61]
/-- `"/r/"` -/
def sR : Bytes := [47, 114, 47]

/-- `BASE_URL_MAX_LENGTH` (include/session/config/community.hpp:19) -/
def baseUrlMax : Nat := 267
/-- `ROOM_MAX_LENGTH` (include/session/config/community.hpp:20) -/
def roomMax : Nat := 64

/-- `s.find(p)`: what precedes and what follows the first occurrence of `p` (not empty) -/
def findSub (p : Bytes) : Bytes → Option (Bytes × Bytes)
  | [] => none
  | c :: t =>
    if p.isPrefixOf (c :: t) then some ([], (c :: t).drop p.length)
    else (findSub p t).map fun r => (c :: r.1, r.2)

/-- `s.rfind(p)`: what precedes and what follows the last occurrence of `p` (not empty) -/
def rfindSub (p : Bytes) : Bytes → Option (Bytes × Bytes)
  | [] => none
  | c :: t =>
    match rfindSub p t with
    | some r => some (c :: r.1, r.2)
    | none => if p.isPrefixOf (c :: t) then some ([], (c :: t).drop p.length) else none

/-- A host name character that is kept as it is (src/config/community.cpp:115) -/
def isHostC (c : UInt8) : Bool :=
  (48 ≤ c && c ≤ 57) || (97 ≤ c && c ≤ 122) || c == 45

/-- The host name loop of `parse_url` (src/config/community.cpp:111-128): the normalised host and
the rest of the URL.  The flag is `next_allow_dot`. -/
def scanHost : Bool → Bytes → Bytes × Bytes
  | _, [] => ([], [])
  | dot, c :: t =>
    if isHostC c then (c :: (scanHost true t).1, (scanHost true t).2)
    else if 65 ≤ c ∧ c ≤ 90 then ((c + 32) :: (scanHost true t).1, (scanHost true t).2)
    else if dot = true ∧ c = 46 then (46 :: (scanHost false t).1, (scanHost false t).2)
    else ([], c :: t)

/-- The port of `parse_url` (src/config/community.cpp:132-139): `std::from_chars` into a `uint16_t` -/
def scanPort : Bytes → Out (Nat × Bytes)
  | 58 :: d :: t =>
    if isDigit d then
      if (scanNat 0 (d :: t)).1 ≤ 65535 then .ok (scanNat 0 (d :: t)) else .err .foreign
    else .err .foreign
  | [58] => .err .foreign
  | r => .ok (0, r)

/-- Protocol part of `parse_url` (src/config/community.cpp:99-109): protocol name and the rest -/
def scanProto (u : Bytes) : Out (Bytes × Bytes) :=
  match findSub sSep u with
  | some (p, r) =>
    if lower p = sHttp then .ok (sHttp, r)
    else if lower p = sHttps then .ok (sHttps, r)
    else .err .foreign
  | none => .err .foreign

/-- Is this the default port of the protocol? (src/config/community.cpp:140) -/
def defaultPort (proto : Bytes) (n : Nat) : Bool :=
  (n == 80 && proto == sHttp) || (n == 443 && proto == sHttps)

/-- `if (!url.empty() && url.front() == '/') url.remove_prefix(1)` (src/config/community.cpp:144-145) -/
def dropSlash : Bytes → Bytes
  | 47 :: t => t
  | r => r

/-- `parse_url` (src/config/community.cpp:96-152): protocol, host, port (0: none or default) -/
def parseUrl (u : Bytes) : Out (Bytes × Bytes × Nat) :=
  scanProto u >>= fun pr =>
  let hr := scanHost false pr.2
  if hr.1.length < 4 ∨ ¬ (46 ∈ hr.1) ∨ hr.1.getLast? = some 46 then .err .foreign
  else scanPort hr.2 >>= fun nr =>
    if dropSlash nr.2 ≠ [] then .err .foreign
    else .ok (pr.1, hr.1, if defaultPort pr.1 nr.1 then 0 else nr.1)

/-- `canonical_url` (src/config/community.cpp:173-185) -/
def canonUrl (u : Bytes) : Out Bytes :=
  parseUrl u >>= fun x =>
  let r := x.1 ++ sSep ++ x.2.1 ++ (if x.2.2 = 0 then [] else 58 :: natDigits x.2.2)
  if r.length > baseUrlMax then .err .foreign else .ok r

/-- A character allowed in a room token (src/config/community.cpp:168) -/
def isRoomC (c : UInt8) : Bool :=
  c == 45 || (48 ≤ c && c ≤ 57) || c == 95 || (97 ≤ c && c ≤ 122)

/-- `canonical_room` / `canonicalize_room` (src/config/community.cpp:159-171, 187-191) -/
def canonRoom (r : Bytes) : Out Bytes :=
  if (lower r).length > roomMax then .err .foreign
  else if lower r = [] then .err .foreign
  else if (lower r).all isRoomC then .ok (lower r) else .err .foreign

/-- base64 and base32z decoding; `none`: not valid -/
structure Codecs where
  /-- `oxenc::is_base64`, `oxenc::from_base64` -/
  b64 : Bytes → Option Bytes
  /-- `oxenc::is_base32z`, `oxenc::from_base32z` -/
  b32z : Bytes → Option Bytes

/-- `decode_pubkey` (src/config/internal.cpp:42-54) -/
def Codecs.decodePubkey (K : Codecs) (pk : Bytes) : Out Bytes :=
  if pk.length = 64 ∧ isHex pk = true then .ok (fromHex pk)
  else if (pk.length = 43 ∨ (pk.length = 44 ∧ pk.getLast? = some 61)) ∧ (K.b64 pk).isSome then
    .ok ((K.b64 pk).getD [])
  else if pk.length = 52 ∧ (K.b32z pk).isSome then .ok ((K.b32z pk).getD [])
  else .err .foreign

/-- `community::full_url` (src/config/community.cpp:83-91) -/
def fullUrl (base room pk : Bytes) : Bytes := base ++ 47 :: room ++ sQuery ++ toHex pk

/-- The public key part of `parse_partial_url` (src/config/community.cpp:198-203): the rest of the
URL and the key -/
def Codecs.splitPubkey (K : Codecs) (u : Bytes) : Out (Bytes × Option Bytes) :=
  match rfindSub sQuery u with
  | some (a, pk) => K.decodePubkey pk >>= fun k => .ok (a, some k)
  | none => .ok (u, none)

/-- The room part of `parse_partial_url` (src/config/community.cpp:205-212): base and room -/
def splitRoom (u : Bytes) : Bytes × Bytes :=
  match rfindSub sR u with
  | some r => r
  | none => match rfindSub [47] u with
    | some r => r
    | none => (u, [])

/-- `community::parse_partial_url` (src/config/community.cpp:193-217) -/
def Codecs.parsePartial (K : Codecs) (u : Bytes) : Out (Bytes × Bytes × Option Bytes) :=
  K.splitPubkey u >>= fun x =>
  canonUrl (splitRoom x.1).1 >>= fun b => .ok (b, (splitRoom x.1).2, x.2)

/-- `community::parse_full_url` (src/config/community.cpp:219-225) -/
def Codecs.parseFull (K : Codecs) (u : Bytes) : Out (Bytes × Bytes × Bytes) :=
  K.parsePartial u >>= fun x => match x.2.2 with
  | some pk => .ok (x.1, x.2.1, pk)
  | none => .err .foreign

/-- `community_parse_full_url` (src/config/community.cpp:237-252) as compiled with `NDEBUG`: the
results are copied (the texts with their terminating NUL) into buffers of `BASE_URL_MAX_LENGTH + 1`,
`ROOM_MAX_LENGTH + 1` and 32 bytes; a copy beyond the buffer is undefined behaviour.  `pk` is what is
written to the key buffer: if it is shorter than 32 bytes, the rest of the buffer is not written.  Exceptions
become the return value false. -/
def Codecs.cParseFull (K : Codecs) (u : Bytes) : Out (Option (Bytes × Bytes × Bytes)) :=
  match K.parseFull u with
  | .ok (b, r, pk) =>
    if b.length ≤ baseUrlMax ∧ r.length ≤ roomMax ∧ pk.length ≤ 32 then .ok (some (b, r, pk)) else .ub
  | .err _ => .ok none
  | .hang => .hang
  | .ub => .ub

/-- `community_make_full_url` (src/config/community.cpp:276-283): the buffer has
`COMMUNITY_FULL_URL_MAX_LENGTH` bytes (lines 232-234), which include the terminating NUL. -/
def cFullUrl (base room pk : Bytes) : Out Bytes :=
  if (fullUrl base room pk).length + 1 ≤ baseUrlMax + 3 + roomMax + sQuery.length + 64 + 1 then
    .ok (fullUrl base room pk)
  else .ub

end Verif
