import Verif.BlindingLemmas

/-!
# Encryption of messages to session ids and blinded ids

Models src/session_encrypt.cpp:30-582 over the abstract curve.  Random bytes (the ephemeral key of
`crypto_box_seal`, the nonce) are arguments.  Reading 32 bytes from a shorter key is undefined behaviour.
-/

namespace Verif

/-- The curve with the ciphers. -/
structure ECurve (G : Type) [AddCommGroup G] extends SCurve G where
  /-- `crypto_box_beforenm` (X25519 and HSalsa20): private key, public key; `none` if the shared secret is 0 -/
  x25519 : Bytes → Bytes → Option Bytes
  /-- `crypto_secretbox_easy`: key, nonce, message -/
  box : Bytes → Bytes → Bytes → Bytes
  /-- `crypto_secretbox_open_easy` -/
  boxOpen : Bytes → Bytes → Bytes → Option Bytes
  /-- `crypto_aead_xchacha20poly1305_ietf_encrypt`: key, nonce, message -/
  aead : Bytes → Bytes → Bytes → Bytes
  /-- `crypto_aead_xchacha20poly1305_ietf_decrypt` -/
  aeadOpen : Bytes → Bytes → Bytes → Option Bytes

/-- What is known about them: Diffie-Hellman on multiples of the base point; the ciphers decrypt exactly what
was encrypted with the same key and nonce. -/
structure ECurve.Good {G : Type} [AddCommGroup G] (C : ECurve G) : Prop where
  s : C.toSCurve.Good
  dh : ∀ a b, a.length = 32 → b.length = 32 → C.x25519 a (C.xBase b) = C.x25519 b (C.xBase a)
  dhOk : ∀ a b, a.length = 32 → b.length = 32 → leNat (clampSc a) • C.B ≠ 0 → leNat (clampSc b) • C.B ≠ 0 →
    C.x25519 a (C.xBase b) ≠ none
  boxLen : ∀ k n m, (C.box k n m).length = m.length + 16
  openBox : ∀ k n m, C.boxOpen k n (C.box k n m) = some m
  boxOpen : ∀ k n c m, C.boxOpen k n c = some m → c = C.box k n m
  aeadLen : ∀ k n m, (C.aead k n m).length = m.length + 16
  openSeal : ∀ k n m, C.aeadOpen k n (C.aead k n m) = some m
  sealOpen : ∀ k n c m, C.aeadOpen k n c = some m → c = C.aead k n m

variable {G : Type} [AddCommGroup G] [DecidableEq G] (C : ECurve G)

/-! ### To a session id -/

/-- The recipient's key without prefix (src/session_encrypt.cpp:41-48) -/
def recipientKey (r : Bytes) : Out Bytes :=
  if r.length = 33 ∧ r.head? = some 5 then .ok (r.drop 1) else if r.length = 32 then .ok r else .err .foreign

/-- `sign_for_recipient` (src/session_encrypt.cpp:30-66): M ‖ A ‖ SIG, where SIG signs M ‖ A ‖ Y -/
def ECurve.signFor (sk r msg : Bytes) : Out Bytes :=
  (C.fullSk sk).bind fun sk => (recipientKey r).bind fun y =>
    .ok (msg ++ sk.drop 32 ++ C.edSign sk (msg ++ sk.drop 32 ++ y))

/-- The nonce of a sealed box: a hash of both public keys (src/session_encrypt.cpp:109-117) -/
def ECurve.sealNonce (epk y : Bytes) : Bytes := C.blake 24 [] (epk ++ y)

/-- `crypto_box_seal` with the ephemeral private key `esk`; `none` if it reports failure. -/
def ECurve.boxSeal (esk y msg : Bytes) : Option Bytes := match C.x25519 esk y with
  | none => none
  | some k => some (C.xBase esk ++ C.box k (C.sealNonce (C.xBase esk) y) msg)

/-- `crypto_box_seal_open`: public key, private key, ciphertext -/
def ECurve.sealOpenBox (y x ct : Bytes) : Option Bytes :=
  if ct.length < 48 then none
  else match C.x25519 x (ct.take 32) with
    | none => none
    | some k => C.boxOpen k (C.sealNonce (ct.take 32) y) (ct.drop 32)

/-- Sealing with the exception -/
def ECurve.sealTo (esk y msg : Bytes) : Out Bytes := match C.boxSeal esk y msg with
  | some c => .ok c
  | none => .err .foreign

/-- `encrypt_for_recipient` (src/session_encrypt.cpp:70-86), for the ephemeral private key `esk` -/
def ECurve.encryptFor (sk r msg esk : Bytes) : Out Bytes :=
  (C.signFor sk r msg).bind fun signed => (recipientKey r).bind fun y => C.sealTo esk y signed

/-- The ephemeral private key of the deterministic version (src/session_encrypt.cpp:96-107):
`crypto_box_seed_keypair` of a keyed hash -/
def ECurve.detKey (sk y msg : Bytes) : Bytes :=
  (C.sha512 (C.blake 32 (asc ['S', 'e', 's', 's', 'i', 'o', 'n', 'B', 'o', 'x', 'E', 'p', 'h', 'e', 'm', 'e', 'r', 'a', 'l',
    'H', 'a', 's', 'h', 'K', 'e', 'y']) (sk.take 32 ++ y ++ msg))).take 32

/-- `encrypt_for_recipient_deterministic` (src/session_encrypt.cpp:88-137) -/
def ECurve.encryptForDet (sk r msg : Bytes) : Out Bytes :=
  (C.signFor sk r msg).bind fun signed => (recipientKey r).bind fun y => C.sealTo (C.detKey sk y msg) y signed

/-- `decrypt_incoming` with an x25519 key pair (src/session_encrypt.cpp:368-402): message, sender's ed25519 key -/
def ECurve.decryptIncomingX (y x ct : Bytes) : Out (Bytes × Bytes) :=
  if y.length < 32 ∨ x.length < 32 then .ub
  else if ct.length < 48 + 32 + 64 then .err .foreign
  else match C.sealOpenBox (y.take 32) (x.take 32) ct with
    | none => .err .foreign
    | some buf =>
      let n := ct.length - 48 - 32 - 64
      let A := (buf.drop n).take 32
      if C.edVerify A (buf.take (n + 32) ++ y.take 32) ((buf.drop (n + 32)).take 64) then .ok (buf.take n, A)
      else .err .foreign

/-- `decrypt_incoming` (src/session_encrypt.cpp:348-366) -/
def ECurve.decryptIncoming (sk ct : Bytes) : Out (Bytes × Bytes) :=
  (C.fullSk sk).bind fun sk => C.decryptIncomingX (C.xBase (C.edScalar sk)) (C.edScalar sk) ct

/-- The end of `decrypt_incoming_session_id` (src/session_encrypt.cpp:303-319, 327-345) -/
def ECurve.withSid (r : Bytes × Bytes) : Out (Bytes × Bytes) := match C.edToX r.2 with
  | none => .err .foreign
  | some x => .ok (r.1, asc ['0', '5'] ++ toHex x)

/-- `decrypt_incoming_session_id` (src/session_encrypt.cpp:300-320) -/
def ECurve.decryptIncomingSid (sk ct : Bytes) : Out (Bytes × Bytes) := (C.decryptIncoming sk ct).bind C.withSid

/-- `decrypt_incoming_session_id` with an x25519 key pair (src/session_encrypt.cpp:322-346) -/
def ECurve.decryptIncomingXSid (y x ct : Bytes) : Out (Bytes × Bytes) := (C.decryptIncomingX y x ct).bind C.withSid

/-! ### To a blinded id -/

/-- The scalar used for the shared secret (src/session_encrypt.cpp:186-208): `a` for 15-blinding, `k a` for 25 -/
def ECurve.blindScalar (seed kA jB server : Bytes) : Out Bytes :=
  if kA.head? = some 0x15 ∧ jB.head? = some 0x15 then
    (C.keyPair15 seed server).bind fun _ => .ok (C.edScalar seed)
  else if kA.head? = some 0x25 ∧ jB.head? = some 0x25 then
    (C.keyPair25 seed server).bind fun r => .ok (C.scMul (C.edScalar seed) r.2.2)
  else .err .foreign

/-- `blinded_shared_secret` (src/session_encrypt.cpp:164-225) -/
def ECurve.blindedSecret (seed kA jB server : Bytes) (sending : Bool) : Out Bytes :=
  if (seed.length ≠ 64 ∧ seed.length ≠ 32) ∨ server.length ≠ 32 ∨ kA.length ≠ 33 ∨ jB.length ≠ 33 then .err .foreign
  else
    (C.blindScalar seed kA jB server).bind fun ka =>
      match C.pointMul ka (jB.drop 1) with
      | none => .err .foreign
      | some shared =>
        .ok (C.blake 32 [] (shared ++ (if sending then kA else jB).drop 1 ++ (if sending then jB else kA).drop 1))

/-- The sender's own blinded public key (src/session_encrypt.cpp:241-252) -/
def ECurve.ownBlinded (sk server rid : Bytes) : Out Bytes :=
  if rid.head? = some 0x15 then (C.keyPair15 sk server).bind fun r => .ok (0x15 :: r.1)
  else if rid.head? = some 0x25 then (C.keyPair25 sk server).bind fun r => .ok (0x25 :: r.1)
  else .err .foreign

/-- `encrypt_for_blinded_recipient` (src/session_encrypt.cpp:227-298), for the random nonce `nonce` -/
def ECurve.encryptBlinded (sk server rid msg nonce : Bytes) : Out Bytes :=
  if (sk.length ≠ 64 ∧ sk.length ≠ 32) ∨ server.length ≠ 32 ∨ rid.length ≠ 33 then .err .foreign
  else (C.ownBlinded sk server rid).bind fun bid =>
    (C.blindedSecret sk bid rid server true).bind fun key =>
      (C.fullSk sk).bind fun full => .ok (0 :: (C.aead key nonce (msg ++ full.drop 32) ++ nonce))

/-- `recipient_id[0] == 0x25 ? blinded25_id_from_ed : blinded15_id_from_ed` (src/session_encrypt.cpp:425-427,
475-478) -/
def ECurve.fromEd (rid pk server : Bytes) (withSid : Bool) : Out Bytes :=
  if rid.head? = some 0x25 then C.blind25FromEd pk server else C.blind15FromEd pk server withSid

/-- The comparison of the sender (src/session_encrypt.cpp:480-487): for 15-blinding, byte 31 of the 33 is
changed, not the last. -/
def senderMatches (sid extracted : Bytes) : Bool :=
  sid == extracted || (extracted.head? == some 0x15 && sid == flipTop 31 extracted)

/-- The part of `decrypt_from_blinded_recipient` after the key is known (src/session_encrypt.cpp:434-497) -/
def ECurve.readBlinded (key server sid rid ct : Bytes) : Out (Bytes × Bytes) :=
  if ct.head? ≠ some 0 then .err .foreign
  else if ct.length - 41 < 32 then .err .foreign
  else match C.aeadOpen key (ct.drop (ct.length - 24)) ((ct.drop 1).take (ct.length - 25)) with
    | none => .err .foreign
    | some buf =>
      let pk := buf.drop (buf.length - 32)
      match C.edToX pk with
      | none => .err .foreign
      | some x => (C.fromEd rid pk server true).bind fun extracted =>
        if senderMatches sid extracted then .ok (buf.take (buf.length - 32), asc ['0', '5'] ++ toHex x) else .err .foreign

/-- The key (src/session_encrypt.cpp:429-432): as sender, if the sender id is one's own, else as recipient -/
def ECurve.blindedKey (sk server sid rid own : Bytes) : Out Bytes :=
  if sid = own then C.blindedSecret sk sid rid server true else C.blindedSecret sk rid sid server false

/-- `decrypt_from_blinded_recipient` (src/session_encrypt.cpp:404-498): message, sender's session id.
`recipient_id[0]` is read without a check of the length. -/
def ECurve.decryptBlinded (sk server sid rid ct : Bytes) : Out (Bytes × Bytes) :=
  (C.fullSk sk).bind fun sk =>
    if ct.length < 41 then .err .foreign
    else if rid = [] then .ub
    else (C.fromEd rid (sk.drop 32) server false).bind fun own =>
      (C.blindedKey sk server sid rid own).bind fun key => C.readBlinded key server sid rid ct

/-! ### Other -/

/-- `decrypt_ons_response` (src/session_encrypt.cpp:500-545): the session id in hex -/
def ECurve.decryptOns (name ct nonce : Bytes) : Out Bytes :=
  if ct.length < 16 ∨ nonce.length ≠ 24 then .err .foreign
  else match C.aeadOpen (C.blake 32 (C.blake 32 [] name) name) nonce ct with
    | none => .err .foreign
    | some buf => if buf.length ≠ 33 then .err .foreign else .ok (toHex buf)

/-- Removal of NUL bytes at the end, unless there are only such (src/session_encrypt.cpp:577-579) -/
def stripEnd (b : Bytes) : Bytes := match b.reverse.dropWhile (· == 0) with
  | [] => b
  | r => r.reverse

/-- `decrypt_push_notification` (src/session_encrypt.cpp:547-582) -/
def ECurve.decryptPush (payload key : Bytes) : Out Bytes :=
  if payload.length < 40 then .err .foreign
  else if key.length ≠ 32 then .err .foreign
  else match C.aeadOpen key (payload.take 24) (payload.drop 24) with
    | none => .err .foreign
    | some buf => .ok (stripEnd buf)

end Verif
