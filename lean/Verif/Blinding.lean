import Verif.CurveLemmas

/-!
# XEd25519 signatures and blinded ids

Models src/xed25519.cpp:34-145 and src/blinding.cpp:23-450 over the abstract curve.  BLAKE2b is a parameter.
The debug assertions on lengths (src/xed25519.cpp:83, 124-125) are not modelled.
-/

namespace Verif

/-- The curve with BLAKE2b. -/
structure SCurve (G : Type) [AddCommGroup G] extends Curve G where
  /-- `crypto_generichash_blake2b`: output length, key (empty: none), message -/
  blake : Nat → Bytes → Bytes → Bytes
  /-- the same with 64 bytes of output and a personalisation string: personalisation, message -/
  blakeP : Bytes → Bytes → Bytes

/-- What is known about them. -/
structure SCurve.Good {G : Type} [AddCommGroup G] (C : SCurve G) : Prop where
  c : C.toCurve.Good
  shaLen : ∀ m, (C.sha512 m).length = 64
  blakeLen : ∀ n k m, (C.blake n k m).length = n

variable {G : Type} [AddCommGroup G] [DecidableEq G] (C : SCurve G)

/-! ### Ed25519 keys -/

/-- The private scalar: `crypto_sign_ed25519_sk_to_curve25519` of a secret key or seed (the first 32 bytes
are used) -/
def Curve.edScalar {G : Type} [AddCommGroup G] (C : Curve G) (sk : Bytes) : Bytes :=
  clampSc ((C.sha512 (sk.take 32)).take 32)

/-- The public point of a seed -/
def Curve.pub {G : Type} [AddCommGroup G] (C : Curve G) (seed : Bytes) : G := leNat (C.edScalar seed) • C.B

/-- `crypto_sign_ed25519_seed_keypair`: the secret key is the seed with the public key. -/
def Curve.edSk {G : Type} [AddCommGroup G] (C : Curve G) (seed : Bytes) : Bytes := seed ++ C.baseMul (C.edScalar seed)

/-- The beginning of all functions that take a secret key or a seed (for example src/blinding.cpp:216-224) -/
def Curve.fullSk {G : Type} [AddCommGroup G] (C : Curve G) (sk : Bytes) : Out Bytes :=
  if sk.length = 32 then .ok (C.edSk sk) else if sk.length = 64 then .ok sk else .err .foreign

/-- `crypto_sign_ed25519_detached`: the nonce -/
def Curve.edNonce {G : Type} [AddCommGroup G] (C : Curve G) (sk msg : Bytes) : Bytes :=
  C.scReduce (C.sha512 ((C.sha512 (sk.take 32)).drop 32 ++ msg))

/-- `crypto_sign_ed25519_detached` -/
def Curve.edSign {G : Type} [AddCommGroup G] (C : Curve G) (sk msg : Bytes) : Bytes :=
  C.schnorr (C.edNonce sk msg) (C.edScalar sk) (sk.drop 32) msg

/-! ### XEd25519 -/

/-- The ed25519 public key behind an x25519 private key (src/xed25519.cpp:85-92); its sign is cleared
afterwards. -/
def SCurve.xedA (x : Bytes) : Bytes := C.baseMul (clampSc x)

/-- The private scalar (src/xed25519.cpp:93-96) -/
def SCurve.xedScalar (x : Bytes) : Bytes := if sgnBit (C.xedA x) then C.scNeg x else x

/-- `xed25519_compute_r` (src/xed25519.cpp:41-60), for the random bytes `z` -/
def SCurve.xedNonce (x msg z : Bytes) : Bytes :=
  C.scReduce (C.blakeP (asc ['x', 'e', 'd', '2', '5', '5', '1', '9', 's', 'i', 'g', 'n', 'a', 't', 'u', 'r'])
    (C.xedScalar x ++ msg ++ z))

/-- `xed25519::sign` (src/xed25519.cpp:81-115), for the random bytes `z` -/
def SCurve.xedSign (x msg z : Bytes) : Bytes :=
  C.schnorr (C.xedNonce x msg z) (C.xedScalar x) (clearTop (C.xedA x)) msg

/-- `xed25519::verify` (src/xed25519.cpp:122-129) -/
def SCurve.xedVerify (sig X msg : Bytes) : Bool := C.edVerify (C.xToEd X) msg sig

/-! ### Blinded ids -/

/-- `blind15_factor` (src/blinding.cpp:23-36) -/
def SCurve.factor15 (server : Bytes) : Bytes := C.scReduce (C.blake 64 [] server)

/-- `blind25_factor` (src/blinding.cpp:38-56) -/
def SCurve.factor25 (sid server : Bytes) : Bytes :=
  C.scReduce (C.blake 64 [] ((if sid.length = 32 then 5 :: sid else sid) ++ server))

/-- `crypto_scalarmult_ed25519_noclamp(out + 1, k, pk)` with the exception if it fails, then the prefix -/
def SCurve.blindPoint (prefix_ : UInt8) (k pk : Bytes) : Out Bytes := match C.pointMul k pk with
  | some b => .ok (prefix_ :: b)
  | none => .err .foreign

/-- The session id without its prefix -/
def stripSid (sid : Bytes) : Bytes := if sid.length = 33 then sid.drop 1 else sid

/-- `blind15_id_impl` (src/blinding.cpp:60-68) -/
def SCurve.blind15Impl (sid server : Bytes) : Out Bytes :=
  C.blindPoint 0x15 (C.factor15 server) (C.xToEd (stripSid sid))

/-- `blind25_id_impl` (src/blinding.cpp:70-78) -/
def SCurve.blind25Impl (sid server : Bytes) : Out Bytes :=
  C.blindPoint 0x25 (C.factor25 sid server) (C.xToEd (stripSid sid))

/-- The checks of the arguments (src/blinding.cpp:83-91, 122-129): 33 bytes beginning with 5, or 32 bytes;
32 bytes. -/
def rawArgs (sid server : Bytes) : Bool :=
  ((sid.length == 33 && sid.head? == some 5) || sid.length == 32) && server.length == 32

/-- `blind15_id` on bytes (src/blinding.cpp:82-97) -/
def SCurve.blind15Raw (sid server : Bytes) : Out Bytes :=
  if rawArgs sid server then C.blind15Impl (stripSid sid) server else .err .foreign

/-- `blind25_id` on bytes (src/blinding.cpp:121-135) -/
def SCurve.blind25Raw (sid server : Bytes) : Out Bytes :=
  if rawArgs sid server then C.blind25Impl sid server else .err .foreign

/-- The checks of the arguments of the functions on hex strings (src/blinding.cpp:100-105, 138-143) -/
def hexArgs (sid server : Bytes) : Bool :=
  checkId sid (asc ['0', '5']) && (server.length == 64 && isHex server)

/-- `blind15_id` on hex strings (src/blinding.cpp:99-119): both candidates -/
def SCurve.blind15Hex (sid server : Bytes) : Out (Bytes × Bytes) :=
  if hexArgs sid server then
    (C.blind15Impl (fromHex sid) (fromHex server)).bind fun id => .ok (toHex id, toHex (flipTop 32 id))
  else .err .foreign

/-- `blind25_id` on hex strings (src/blinding.cpp:137-153) -/
def SCurve.blind25Hex (sid server : Bytes) : Out Bytes :=
  if hexArgs sid server then
    (C.blind25Impl (fromHex sid) (fromHex server)).bind fun id => .ok (toHex id)
  else .err .foreign

/-- `blinded15_id_from_ed` (src/blinding.cpp:155-180), without the pointer to a session id: `withSid` is
whether the session id is computed, too. -/
def SCurve.blind15FromEd (pk server : Bytes) (withSid : Bool) : Out Bytes :=
  if pk.length ≠ 32 ∨ server.length ≠ 32 then .err .foreign
  else if withSid ∧ C.edToX pk = none then .err .foreign
  else C.blindPoint 0x15 (C.factor15 server) pk

/-- `blinded25_id_from_ed` (src/blinding.cpp:182-216) without a given session id -/
def SCurve.blind25FromEd (pk server : Bytes) : Out Bytes :=
  if pk.length ≠ 32 ∨ server.length ≠ 32 then .err .foreign
  else match C.edToX pk with
    | none => .err .foreign
    | some x => C.blindPoint 0x25 (C.factor25 (5 :: x) server) (clearTop pk)

/-- `blind15_key_pair` (src/blinding.cpp:218-253): public key, private scalar, factor -/
def SCurve.keyPair15 (sk server : Bytes) : Out (Bytes × Bytes × Bytes) :=
  (C.fullSk sk).bind fun sk =>
    if server.length ≠ 32 then .err .foreign
    else
      let k := C.factor15 server
      let a := C.scMul k (C.edScalar sk)
      .ok (C.baseMul a, a, k)

/-- The factor used in `blind25_key_pair` (src/blinding.cpp:279-284) -/
def SCurve.factor25Signed (pk x server : Bytes) : Bytes :=
  if sgnBit pk then C.scNeg (C.factor25 x server) else C.factor25 x server

/-- `blind25_key_pair` (src/blinding.cpp:255-303): public key, private scalar, factor -/
def SCurve.keyPair25 (sk server : Bytes) : Out (Bytes × Bytes × Bytes) :=
  (C.fullSk sk).bind fun sk =>
    if server.length ≠ 32 then .err .foreign
    else match C.edToX (sk.drop 32) with
      | none => .err .foreign
      | some x =>
        let k := C.factor25Signed (sk.drop 32) x server
        let a := C.scMul k (C.edScalar sk)
        .ok (C.baseMul a, a, k)

/-- The server key of the signing functions (src/blinding.cpp:317-323): 32 bytes or 64 hex digits -/
def serverArg (s : Bytes) : Out Bytes :=
  if s.length = 32 then .ok s else if s.length = 64 ∧ isHex s then .ok (fromHex s) else .err .foreign

/-- The nonce of `blind25_sign` (src/blinding.cpp:327-346) -/
def SCurve.nonce25 (sk A msg : Bytes) : Bytes :=
  C.scReduce (C.blake 64 (asc ['S', 'e', 's', 's', 'C', 'o', 'm', 'm', 'B', 'l', 'i', 'n', 'd', '2', '5', '_', 's', 'i', 'g'])
    (C.blake 32 (asc ['S', 'e', 's', 's', 'C', 'o', 'm', 'm', 'B', 'l', 'i', 'n', 'd', '2', '5', '_', 's', 'e', 'e', 'd'])
      (sk.take 32) ++ A ++ msg))

/-- `blind25_sign` (src/blinding.cpp:308-368) -/
def SCurve.sign25 (sk server msg : Bytes) : Out Bytes :=
  (C.fullSk sk).bind fun sk => (serverArg server).bind fun server =>
    (C.keyPair25 sk server).bind fun (A, a, _) => .ok (C.schnorr (C.nonce25 sk A msg) a A msg)

/-- The nonce of `blind15_sign` (src/blinding.cpp:392-408) -/
def SCurve.nonce15 (sk A msg : Bytes) : Bytes :=
  C.scReduce (C.sha512 ((C.sha512 sk).drop 32 ++ A ++ msg))

/-- `blind15_sign` (src/blinding.cpp:370-432) -/
def SCurve.sign15 (sk server msg : Bytes) : Out Bytes :=
  (C.fullSk sk).bind fun sk => (serverArg server).bind fun server =>
    (C.keyPair15 sk server).bind fun (A, a, _) => .ok (C.schnorr (C.nonce15 sk A msg) a A msg)

/-- `session_id_matches_blinded_id` (src/blinding.cpp:434-466).  The first two characters of the blinded id
are read without a check of its length.  The test of the prefix (444-446) throws if the second is not `5`
(the rest of the condition is always true). -/
def SCurve.sidMatches (sid bid server : Bytes) : Out Bool :=
  if !checkId sid (asc ['0', '5']) then .err .foreign
  else match bid with
    | b0 :: b1 :: _ =>
      if b1 ≠ 53 then .err .foreign
      else if !(server.length == 64 && isHex server) then .err .foreign
      else if b0 = 49 then (C.blind15Hex sid server).bind fun (i, j) => .ok (bid == i || bid == j)
      else if b0 = 50 then (C.blind25Hex sid server).bind fun i => .ok (bid == i)
      else .err .foreign
    | _ => .ub

end Verif
