import Verif.KeyApi
import Verif.SessionEncrypt
import Verif.Subaccount
import Verif.GroupMsg

/-!
# The C functions for encrypted messages and subaccounts

src/session_encrypt.cpp:597-754, src/config/groups/keys.cpp:1544-1737.  Output parameters are a buffer for a session id, a
pointer to a new allocation with its length, and buffers of documented sizes.  `malloc` is taken to succeed; input pointers
are taken to have the documented length.
-/

namespace Verif

/-- What the output parameters of a decryption function point to: the buffer for the session id, the allocation (none: whatever
pointer was there before), the length -/
structure CBufs where
  sid : Bytes
  out : Option Bytes
  len : Nat
deriving DecidableEq, Repr

/-- The frame of the decryption functions, e.g. `session_decrypt_incoming` (src/session_encrypt.cpp:644-664): the session id with its
NUL is copied, the message goes to a new allocation of its length; `catch (...)` returns false -/
def cDecrypt (st : CBufs) (r : Out (Bytes × Bytes)) : Out (Bool × CBufs) := match r with
  | .ok (plain, sid) => (copyOut st.sid (sid ++ [0])).bind fun b =>
    (copyOut (List.replicate plain.length 0) plain).bind fun o => .ok (true, ⟨b, some o, plain.length⟩)
  | .err _ => .ok (false, st)
  | .hang => .hang
  | .ub => .ub

/-- The frame of the functions whose only result is an allocation, e.g. `session_encrypt_for_recipient_deterministic`
(src/session_encrypt.cpp:597-617) -/
def cAlloc (st : CBufs) (r : Out Bytes) : Out (Bool × CBufs) := match r with
  | .ok x => (copyOut (List.replicate x.length 0) x).bind fun o => .ok (true, { st with out := some o, len := x.length })
  | .err _ => .ok (false, st)
  | .hang => .hang
  | .ub => .ub

/-- As `cAlloc`, but on failure the pointer is null and the length 0: `groups_keys_encrypt_message`
(src/config/groups/keys.cpp:1544-1562) -/
def cAllocNull (st : CBufs) (r : Out Bytes) : Out CBufs := match r with
  | .ok x => (copyOut (List.replicate x.length 0) x).bind fun o => .ok { st with out := some o, len := x.length }
  | .err _ => .ok { st with out := none, len := 0 }
  | .hang => .hang
  | .ub => .ub

section
variable {G : Type} [AddCommGroup G] [DecidableEq G] (C : ECurve G)

/-- `session_encrypt_for_recipient_deterministic` (src/session_encrypt.cpp:597-617) -/
def ECurve.cEncryptDet (st : CBufs) (sk r msg : Bytes) : Out (Bool × CBufs) := cAlloc st (C.encryptForDet sk r msg)

/-- `session_encrypt_for_blinded_recipient` (src/session_encrypt.cpp:619-642), with the random nonce -/
def ECurve.cEncryptBlinded (st : CBufs) (sk server rid msg nonce : Bytes) : Out (Bool × CBufs) :=
  cAlloc st (C.encryptBlinded sk server rid msg nonce)

/-- `session_decrypt_incoming` (src/session_encrypt.cpp:644-664) -/
def ECurve.cDecryptIncoming (st : CBufs) (sk ct : Bytes) : Out (Bool × CBufs) := cDecrypt st (C.decryptIncomingSid sk ct)

/-- `session_decrypt_incoming_legacy_group` (src/session_encrypt.cpp:666-690) -/
def ECurve.cDecryptLegacy (st : CBufs) (y x ct : Bytes) : Out (Bool × CBufs) := cDecrypt st (C.decryptIncomingXSid y x ct)

/-- `session_decrypt_for_blinded_recipient` (src/session_encrypt.cpp:692-720) -/
def ECurve.cDecryptBlinded (st : CBufs) (sk server sid rid ct : Bytes) : Out (Bool × CBufs) :=
  cDecrypt st (C.decryptBlinded sk server sid rid ct)

/-- `session_decrypt_ons_response` (src/session_encrypt.cpp:722-741) -/
def ECurve.cDecryptOns (buf name ct nonce : Bytes) : Out (Bool × Bytes) :=
  cOut1 buf ((C.decryptOns name ct nonce).bind fun s => .ok (s ++ [0]))

/-- `session_decrypt_push_notification` (src/session_encrypt.cpp:739-757) -/
def ECurve.cDecryptPush (st : CBufs) (payload key : Bytes) : Out (Bool × CBufs) := cAlloc st (C.decryptPush payload key)

end

/-- `groups_keys_decrypt_message` (src/config/groups/keys.cpp:1564-1588); the C++ function gives session id and message -/
def GKeys.cDecrypt (P : UPrims) (s : GKeys) (st : CBufs) (ct : Bytes) : Out (Bool × CBufs) :=
  Verif.cDecrypt st ((s.decryptMessage P ct).bind fun r => .ok (r.2, r.1))

/-- `groups_keys_encrypt_message` (src/config/groups/keys.cpp:1544-1562), with the defaults `compress = true`, `padding = 256`
(include/session/config/groups/keys.hpp) -/
def GKeys.cEncrypt (P : UPrims) (e : GEnv) (s : GKeys) (st : CBufs) (msg nonce : Bytes) : Out CBufs :=
  cAllocNull st (s.encryptMessage P e msg true 256 nonce)

/-! ### Subaccounts -/

/-- The alphabet of base64 -/
def b64Char (n : Nat) : UInt8 :=
  if n < 26 then UInt8.ofNat (65 + n) else if n < 52 then UInt8.ofNat (71 + n) else if n < 62 then UInt8.ofNat (n - 4)
  else if n = 62 then 43 else 47

/-- `oxenc::to_base64`: with padding -/
def toB64 : Bytes → Bytes
  | [] => []
  | [a] => [b64Char (a.toNat / 4), b64Char (a.toNat % 4 * 16), 61, 61]
  | [a, b] => [b64Char (a.toNat / 4), b64Char (a.toNat % 4 * 16 + b.toNat / 16), b64Char (b.toNat % 16 * 4), 61]
  | a :: b :: c :: t => b64Char (a.toNat / 4) :: b64Char (a.toNat % 4 * 16 + b.toNat / 16) ::
      b64Char (b.toNat % 16 * 4 + c.toNat / 64) :: b64Char (c.toNat % 64) :: toB64 t

/-- The frame of functions with three outputs -/
def cOut3 (b1 b2 b3 : Bytes) (r : Out (Bytes × Bytes × Bytes)) : Out (Bool × Bytes × Bytes × Bytes) := match r with
  | .ok (x, y, z) => (copyOut b1 x).bind fun o1 => (copyOut b2 y).bind fun o2 => (copyOut b3 z).bind fun o3 => .ok (true, o1, o2, o3)
  | .err _ => .ok (false, b1, b2, b3)
  | .hang => .hang
  | .ub => .ub

section
variable {G : Type} [AddCommGroup G] [DecidableEq G] (C : SCurve G)

/-- `groups_keys_swarm_make_subaccount_flags` (src/config/groups/keys.cpp:1614-1629) -/
def SCurve.cMakeSubaccount (groupSk : Option Bytes) (groupPk sid : Bytes) (write del : Bool) (out : Bytes) : Out (Bool × Bytes) :=
  cOut1 out (C.makeSubaccount groupSk groupPk sid write del)

/-- `groups_keys_swarm_subaccount_token_flags` (src/config/groups/keys.cpp:1717-1731) -/
def SCurve.cSubToken (groupSk : Option Bytes) (groupPk sid : Bytes) (write del : Bool) (out : Bytes) : Out (Bool × Bytes) :=
  cOut1 out (C.subToken groupSk groupPk sid write del)

/-- `groups_keys_swarm_subaccount_sign` (src/config/groups/keys.cpp:1665-1689): base64, NUL-terminated -/
def SCurve.cSubSign (userSk msg val b1 b2 b3 : Bytes) : Out (Bool × Bytes × Bytes × Bytes) :=
  cOut3 b1 b2 b3 ((C.subSign userSk msg val).bind fun r => .ok (toB64 r.1 ++ [0], toB64 r.2.1 ++ [0], toB64 r.2.2 ++ [0]))

/-- `groups_keys_swarm_subaccount_sign_binary` (src/config/groups/keys.cpp:1691-1715) -/
def SCurve.cSubSignBin (userSk msg val b1 b2 b3 : Bytes) : Out (Bool × Bytes × Bytes × Bytes) :=
  cOut3 b1 b2 b3 ((C.subSign userSk msg val).bind fun r => .ok (r.1.take 36, r.2.1.take 64, r.2.2.take 64))

/-- `groups_keys_swarm_verify_subaccount_flags` (src/config/groups/keys.cpp:1637-1653) -/
def SCurve.cVerifySubFlags (groupId userSk val : Bytes) (write del : Bool) : Out Bool :=
  match C.verifySub groupId userSk val write del with
  | .err _ => .ok false
  | r => r

/-- `groups_keys_swarm_verify_subaccount` (src/config/groups/keys.cpp:1655-1663): no `catch`; the defaults of
`swarm_verify_subaccount` are `write = false`, `del = false` (include/session/config/groups/keys.hpp:416-421) -/
def SCurve.cVerifySub (groupId userSk val : Bytes) : Out Bool := C.verifySub groupId userSk val false false

end
end Verif
