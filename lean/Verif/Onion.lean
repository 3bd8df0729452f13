import Verif.Multi
import Verif.Curve
import Verif.Hex

/-!
# Onion requests

Models src/onionreq/{hop_encryption,builder,parser,response_parser,key_types}.cpp and their headers.
X25519, HMAC-SHA256, BLAKE2b, AES256-GCM, XChaCha20-Poly1305, the JSON library and the base64 and base32z
decoders are parameters; random bytes are arguments.
-/

namespace Verif

/-- A value in a JSON object: the ones this code writes are strings and (for the port) numbers. -/
inductive JVal where
  | str (s : Bytes)
  | num (n : Nat)
  | other
deriving DecidableEq, Repr

/-- A JSON object; `find` is `List.lookup`. -/
abbrev JObj := List (Bytes × JVal)

/-- The primitives of the onion request code: those of src/multi_encrypt.cpp and -/
structure OPrims extends MPrims where
  /-- `crypto_auth_hmacsha256`: key, message -/
  hmac : Bytes → Bytes → Bytes
  /-- AES256-GCM (nettle), the digest appended to the ciphertext: key, IV, message -/
  gcm : Bytes → Bytes → Bytes → Bytes
  /-- AES256-GCM decryption with comparison of the digest -/
  gcmOpen : Bytes → Bytes → Bytes → Option Bytes
  /-- `nlohmann::json::dump` of an object (throws for strings that are not UTF-8) -/
  dump : JObj → Option Bytes
  /-- `nlohmann::json::parse`; a value that is no object has no members (`find` returns `end()`) -/
  parse : Bytes → Option JObj
  /-- `oxenc::is_base64` and `from_base64` -/
  b64 : Bytes → Option Bytes
  /-- `oxenc::is_base32z` and `from_base32z` -/
  b32z : Bytes → Option Bytes

/-- All bytes ASCII -/
def asciiOnly (s : Bytes) : Bool := s.all (· < 128)

/-- `asciiOnly` for a value of a JSON object -/
def JVal.ascii : JVal → Bool
  | .str s => asciiOnly s
  | _ => true

/-- The functional properties of the primitives. -/
structure OPrims.Good (P : OPrims) : Prop where
  base : P.toMPrims.Good
  gcmLen : ∀ k n m, (P.gcm k n m).length = m.length + 16
  gcmOpenSeal : ∀ k n m, P.gcmOpen k n (P.gcm k n m) = some m
  gcmSealOpen : ∀ k n c m, P.gcmOpen k n c = some m → c = P.gcm k n m
  /-- parsing what was dumped gives an object with the same members -/
  parseDump : ∀ o b, P.dump o = some b → ∃ o', P.parse b = some o' ∧ ∀ k, o'.lookup k = o.lookup k
  /-- ASCII strings can be dumped -/
  dumpAscii : ∀ o : JObj, (∀ kv ∈ o, asciiOnly kv.1 = true ∧ kv.2.ascii = true) → (∀ k n, (k, JVal.num n) ∈ o → n < 2 ^ 16) →
    ∃ b, P.dump o = some b
  /-- the all-zero public key is refused by X25519 -/
  dhZero : ∀ a, P.dh a (List.replicate 32 0) = none

/-- `EncryptType` (include/session/onionreq/builder.hpp:10-13) -/
inductive EncType where
  | aesGcm
  | xchacha20
deriving DecidableEq, Repr

/-- `to_string(EncryptType)` (include/session/onionreq/builder.hpp:19-25) -/
def EncType.name : EncType → Bytes
  | .xchacha20 => asc ['x', 'c', 'h', 'a', 'c', 'h', 'a', '2', '0']
  | .aesGcm => asc ['a', 'e', 's', '-', 'g', 'c', 'm']

/-- `parse_enc_type` (src/onionreq/builder.cpp:37-43) -/
def parseEncType (s : Bytes) : Out EncType :=
  if s = asc ['x', 'c', 'h', 'a', 'c', 'h', 'a', '2', '0'] ∨
      s = asc ['x', 'c', 'h', 'a', 'c', 'h', 'a', '2', '0', '-', 'p', 'o', 'l', 'y', '1', '3', '0', '5'] then .ok .xchacha20
  else if s = asc ['a', 'e', 's', '-', 'g', 'c', 'm'] ∨ s = asc ['g', 'c', 'm'] then .ok .aesGcm
  else .err .foreign

section
variable (P : OPrims)

/-- `calculate_shared_secret` (src/onionreq/hop_encryption.cpp:30-36) -/
def sharedSecret (sec pub : Bytes) : Out Bytes := match P.dh sec pub with
  | some s => .ok s
  | none => .err .foreign

/-- `derive_symmetric_key` (src/onionreq/hop_encryption.cpp:40-53) -/
def deriveSym (sec pub : Bytes) : Out Bytes := do
  let key ← sharedSecret P sec pub
  .ok (P.hmac (asc ['L', 'O', 'K', 'I']) key)

/-- `xchacha20_shared_key` (src/onionreq/hop_encryption.cpp:58-80) -/
def xchachaShared (localPub localSec remotePub : Bytes) (localFirst : Bool) : Out Bytes := do
  let key ← sharedSecret P localSec remotePub
  .ok (P.hash [] (key ++ (if localFirst then localPub else remotePub) ++ (if localFirst then remotePub else localPub)))

/-- `HopEncryption` (include/session/onionreq/hop_encryption.hpp:11-43) -/
structure Hop where
  sec : Bytes
  pub : Bytes
  server : Bool
deriving DecidableEq, Repr

/-- `encrypt_aesgcm` (src/onionreq/hop_encryption.cpp:102-131); `rnd`: the random bytes drawn for the IV
(the first 12 are used) -/
def Hop.encryptGcm (h : Hop) (rnd m pk : Bytes) : Out Bytes := do
  let key ← deriveSym P h.sec pk
  .ok (rnd.take 12 ++ P.gcm key (rnd.take 12) m)

/-- `decrypt_aesgcm` (src/onionreq/hop_encryption.cpp:133-165) -/
def Hop.decryptGcm (h : Hop) (c pk : Bytes) : Out Bytes :=
  if c.length < 12 + 16 then .err .foreign
  else do
    let key ← deriveSym P h.sec pk
    match P.gcmOpen key (c.take 12) (c.drop 12) with
    | some m => .ok m
    | none => .err .foreign

/-- `encrypt_xchacha20` (src/onionreq/hop_encryption.cpp:167-195) -/
def Hop.encryptX (h : Hop) (rnd m pk : Bytes) : Out Bytes := do
  let key ← xchachaShared P h.pub h.sec pk (!h.server)
  .ok (rnd.take 24 ++ P.aead key (rnd.take 24) m)

/-- `decrypt_xchacha20` (src/onionreq/hop_encryption.cpp:197-224) -/
def Hop.decryptX (h : Hop) (c pk : Bytes) : Out Bytes :=
  if (c.drop 24).length < 16 then .err .foreign
  else do
    let key ← xchachaShared P h.pub h.sec pk (!h.server)
    match P.aeadOpen key (c.take 24) (c.drop 24) with
    | some m => .ok m
    | none => .err .foreign

/-- `HopEncryption::encrypt` (src/onionreq/hop_encryption.cpp:84-91) -/
def Hop.encrypt (h : Hop) (t : EncType) (rnd m pk : Bytes) : Out Bytes := match t with
  | .xchacha20 => h.encryptX P rnd m pk
  | .aesGcm => h.encryptGcm P rnd m pk

/-- `HopEncryption::decrypt` (src/onionreq/hop_encryption.cpp:93-100) -/
def Hop.decrypt (h : Hop) (t : EncType) (c pk : Bytes) : Out Bytes := match t with
  | .xchacha20 => h.decryptX P c pk
  | .aesGcm => h.decryptGcm P c pk

/-- Decoding into an array of 32 zeros -/
def into32 (b : Bytes) : Bytes := (b ++ List.replicate 32 0).take 32

/-- `parse_pubkey` (src/onionreq/key_types.cpp:56-74) -/
def parsePubkey (s : Bytes) : Bytes :=
  let zero := List.replicate 32 0
  if s.length = 32 then s
  else if s.length = 64 ∧ isHex s = true then fromHex s
  else if s.length = 43 ∨ (s.length = 44 ∧ s.getLast? = some 61) then ((P.b64 s).map into32).getD zero
  else if s.length = 52 then ((P.b32z s).map into32).getD zero
  else zero

/-! ### The builder -/

/-- `Builder` (include/session/onionreq/builder.hpp:28-80).  The key pair of the final hop is (public,
secret). -/
structure Builder where
  encType : EncType
  dest : Option Bytes
  finalPair : Option (Bytes × Bytes)
  hops : List (Bytes × Bytes)
  ed : Option Bytes
  host : Option Bytes
  target : Option Bytes
  protocol : Option Bytes
  port : Option Nat
deriving DecidableEq, Repr

/-- `Builder::Builder` (include/session/onionreq/builder.hpp:34) -/
def Builder.new (t : EncType := .xchacha20) : Builder := ⟨t, none, none, [], none, none, none, none, none⟩

/-- `set_enc_type` (include/session/onionreq/builder.hpp:36) -/
def Builder.setEncType (b : Builder) (t : EncType) : Builder := { b with encType := t }

/-- `set_snode_destination` (include/session/onionreq/builder.hpp:38-43) -/
def Builder.setSnode (b : Builder) (ed x : Bytes) : Builder := { b with dest := some x, ed := some ed }

/-- `set_server_destination` (include/session/onionreq/builder.hpp:45-62) -/
def Builder.setServer (b : Builder) (host target protocol : Bytes) (port : Option Nat) (x : Bytes) : Builder :=
  { b with host := some host, target := some target, protocol := some protocol,
           port := match port with
            | some p => some p
            | none => b.port,
           dest := some x }

/-- `add_hop` (include/session/onionreq/builder.hpp:64) -/
def Builder.addHop (b : Builder) (ed x : Bytes) : Builder := { b with hops := b.hops ++ [(ed, x)] }

/-- A string up to its first NUL: what the constructor of a string from a pointer copies -/
def upToNul (s : Bytes) : Bytes := s.takeWhile (· ≠ 0)

/-- The keys of the routing objects -/
def kDest : Bytes := asc ['d', 'e', 's', 't', 'i', 'n', 'a', 't', 'i', 'o', 'n']
/-- (src/onionreq/builder.cpp:99-116) -/
def kEph : Bytes := asc ['e', 'p', 'h', 'e', 'm', 'e', 'r', 'a', 'l', '_', 'k', 'e', 'y']
/-- (src/onionreq/builder.cpp:99-116) -/
def kEnc : Bytes := asc ['e', 'n', 'c', '_', 't', 'y', 'p', 'e']
/-- (src/onionreq/builder.cpp:99-116) -/
def kHost : Bytes := asc ['h', 'o', 's', 't']
/-- (src/onionreq/builder.cpp:99-116) -/
def kTarget : Bytes := asc ['t', 'a', 'r', 'g', 'e', 't']
/-- (src/onionreq/builder.cpp:99-116) -/
def kMethod : Bytes := asc ['m', 'e', 't', 'h', 'o', 'd']
/-- (src/onionreq/builder.cpp:99-116) -/
def kProtocol : Bytes := asc ['p', 'r', 'o', 't', 'o', 'c', 'o', 'l']
/-- (src/onionreq/builder.cpp:99-116) -/
def kPort : Bytes := asc ['p', 'o', 'r', 't']
/-- (src/onionreq/builder.cpp:99-116) -/
def kHeaders : Bytes := asc ['h', 'e', 'a', 'd', 'e', 'r', 's']
/-- (src/onionreq/builder.cpp:99-116) -/
def sPost : Bytes := asc ['P', 'O', 'S', 'T']
/-- (src/onionreq/builder.cpp:99-116) -/
def kHttps : Bytes := asc ['h', 't', 't', 'p', 's']

/-- The routing object naming the next service node (src/onionreq/builder.cpp:112-117, 140-145) -/
def routeTo (ed A : Bytes) (t : EncType) : JObj :=
  [(kDest, .str (toHex ed)), (kEph, .str (toHex A)), (kEnc, .str t.name)]

/-- The routing object for a server (src/onionreq/builder.cpp:97-106) -/
def routeServer (host target protocol : Bytes) (port : Option Nat) (A : Bytes) (t : EncType) : JObj :=
  [(kHost, .str host), (kTarget, .str target), (kMethod, .str sPost), (kProtocol, .str protocol),
   (kPort, .num (port.getD (if protocol = kHttps then 443 else 80))), (kEph, .str (toHex A)), (kEnc, .str t.name)]

/-- `dump`, throwing -/
def dumpJ (o : JObj) : Out Bytes := match P.dump o with
  | some b => .ok b
  | none => .err .foreign

/-- A length-prefixed blob followed by JSON: `encode_size` (src/onionreq/builder.cpp:29-34; the size is
truncated to 32 bits) and the concatenations in src/onionreq/builder.cpp:119-121, 148-150, 160-163 -/
def frame (blob js : Bytes) : Bytes := leBytes 4 blob.length ++ blob ++ js

/-- The loop over the hops, last first (src/onionreq/builder.cpp:132-156): hops still to wrap, number of
key pairs drawn, current blob, ephemeral public key, and the routing object for the next hop wrapped.
`rnd i` is the i-th drawn secret key with the random bytes for its nonce. -/
def wrapHops (t : EncType) (rnd : Nat → Bytes × Bytes) : List (Bytes × Bytes) → Nat → Bytes → Bytes → JObj →
    Out (Bytes × Bytes)
  | [], _, blob, A, _ => .ok (blob, A)
  | (ed, x) :: more, i, blob, _, route => do
    let js ← dumpJ P route
    let A := P.pubOf (rnd i).1
    let blob' ← (Hop.mk (rnd i).1 A false).encrypt P t (rnd i).2 (frame blob js) x
    wrapHops t rnd more (i + 1) blob' A (routeTo ed A t)

/-- The innermost layer (src/onionreq/builder.cpp:85-125): the routing object for the last hop and the
blob -/
def Builder.core (b : Builder) (rnd : Nat → Bytes × Bytes) (payload : Bytes) : Out (JObj × Bytes) :=
  let A := P.pubOf (rnd 0).1
  let e := Hop.mk (rnd 0).1 A false
  match b.host, b.target, b.protocol, b.dest, b.ed with
  | some host, some target, some protocol, some x, _ => do
    let blob ← e.encrypt P b.encType (rnd 0).2 (upToNul payload) x
    .ok (routeServer host target protocol b.port A b.encType, blob)
  | _, _, _, some x, some ed => do
    let js ← dumpJ P [(kHeaders, .str [])]
    let blob ← e.encrypt P b.encType (rnd 0).2 (frame payload js) x
    .ok (routeTo ed A b.encType, blob)
  | _, _, _, _, _ => .err .foreign

/-- `Builder::build` (src/onionreq/builder.cpp:45-166): the builder afterwards (its final key pair is
replaced even if a later layer throws) and the request -/
def Builder.build (b : Builder) (rnd : Nat → Bytes × Bytes) (payload : Bytes) : Builder × Out Bytes :=
  match b.core P rnd payload with
  | .ok (route, blob) =>
    let A := P.pubOf (rnd 0).1
    ({ b with finalPair := some (A, (rnd 0).1) }, do
      let (blob', A') ← wrapHops P b.encType rnd b.hops.reverse 1 blob A route
      let js ← dumpJ P [(kEph, .str (toHex A')), (kEnc, .str b.encType.name)]
      .ok (frame blob' js))
  | .err e => (b, .err e)
  | .hang => (b, .hang)
  | .ub => (b, .ub)

/-! ### The node's side -/

/-- `OnionReqParser` (include/session/onionreq/parser.hpp:11-44) -/
structure OnionParser where
  enc : Hop
  encType : EncType
  remote : Bytes
  payload : Bytes
deriving DecidableEq, Repr

/-- `json::get<std::string>` -/
def JVal.getStr : JVal → Out Bytes
  | .str s => .ok s
  | _ => .err .foreign

/-- The encryption type of a request: AES-GCM unless given (src/onionreq/parser.cpp:30-32) -/
def metaEnc (o : JObj) : Out EncType := match o.lookup kEnc with
  | some v => do parseEncType (← v.getStr)
  | none => .ok .aesGcm

/-- The ephemeral key of a request (src/onionreq/parser.cpp:34-37) -/
def metaEph (o : JObj) : Out Bytes := match o.lookup kEph with
  | some v => do .ok (parsePubkey P (← v.getStr))
  | none => .err .foreign

/-- `OnionReqParser::OnionReqParser` (src/onionreq/parser.cpp:11-41) -/
def onionParse (pk sk req : Bytes) (maxSize : Nat) : Out OnionParser :=
  if pk.length ≠ 32 ∨ sk.length ≠ 32 then .err .foreign
  else if req.length < 4 then .err .foreign
  else if req.length > maxSize then .err .foreign
  else
    let size := leNat (req.take 4)
    let rest := req.drop 4
    if rest.length < size then .err .foreign
    else match P.parse (rest.drop size) with
      | none => .err .foreign
      | some o => do
        let t ← metaEnc o
        let remote ← metaEph P o
        let payload ← (Hop.mk sk pk true).decrypt P t (rest.take size) remote
        .ok ⟨⟨sk, pk, true⟩, t, remote, payload⟩

/-- `encrypt_reply` (src/onionreq/parser.cpp:43-45) -/
def OnionParser.encryptReply (p : OnionParser) (rnd reply : Bytes) : Out Bytes :=
  p.enc.encrypt P p.encType rnd reply p.remote

/-! ### The response -/

/-- `ResponseParser` (include/session/onionreq/response_parser.hpp:10-29); the key pair is (public, secret) -/
structure RespParser where
  dest : Bytes
  pair : Bytes × Bytes
  encType : EncType
deriving DecidableEq, Repr

/-- `ResponseParser::ResponseParser(Builder)` (src/onionreq/response_parser.cpp:15-24) -/
def RespParser.ofBuilder (b : Builder) : Out RespParser := match b.dest, b.finalPair with
  | some d, some p => .ok ⟨d, p, b.encType⟩
  | _, _ => .err .foreign

/-- `ResponseParser::decrypt` (src/onionreq/response_parser.cpp:26-43); `onion_request_decrypt`
(src/onionreq/response_parser.cpp:51-111) does the same -/
def RespParser.decrypt (r : RespParser) (c : Bytes) : Out Bytes :=
  let d := Hop.mk r.pair.2 r.pair.1 false
  match d.decrypt P r.encType c r.dest with
  | .ok m => .ok m
  | .err e => match r.encType with
    | .xchacha20 => d.decrypt P .aesGcm c r.dest
    | .aesGcm => .err e
  | .hang => .hang
  | .ub => .ub

end
end Verif
