import Verif.Multi
import Verif.GroupKeys
import Verif.Contacts

/-!
# Multi-recipient encryption with Ed25519 keys, and its C functions

src/multi_encrypt.cpp:88-101, 213-238 and 244-387.  The C functions return a new allocation or a null pointer.
-/

namespace Verif

variable (P : GPrims)

/-- `detail::x_keys` (src/multi_encrypt.cpp:88-101): the X25519 key pair of an Ed25519 secret key -/
def xKeys (sk : Bytes) : Out (Bytes × Bytes) :=
  if sk.length ≠ 64 then .err .foreign
  else match P.xpk (P.edPub sk) with
    | none => .err .foreign
    | some x => .ok (P.xsk sk, x)

/-- `decrypt_for_multiple_simple` with an Ed25519 secret key and the sender's X25519 key (src/multi_encrypt.cpp:213-223) -/
def decryptSimpleEdX (encoded sk sender domain : Bytes) : Out (Option Bytes) :=
  (xKeys P sk).bind fun k => .ok (decryptSimple P.toMPrims encoded k.1 k.2 sender domain)

/-- `decrypt_for_multiple_simple_ed25519` (src/multi_encrypt.cpp:225-238) -/
def decryptSimpleEd (encoded sk sender domain : Bytes) : Out (Option Bytes) :=
  if sender.length ≠ 32 then .err .foreign
  else match P.xpk sender with
    | none => .err .foreign
    | some x => decryptSimpleEdX P encoded sk x domain

/-- A returned pointer (none: null) and what `*out_len` is then -/
structure CBuf where
  ptr : Option Bytes
  len : Nat
deriving DecidableEq, Repr

/-- `to_c_buffer` (src/multi_encrypt.cpp:244-249).  `m0`: whether `malloc(0)` returns a pointer, which C leaves to the implementation;
other allocations are taken to succeed. -/
def toCBuf (m0 : Bool) (x : Bytes) : CBuf := ⟨if x = [] ∧ m0 = false then none else some x, x.length⟩

/-- The frame of the decryption functions: null on failure or exception, `*out_len` as before
(src/multi_encrypt.cpp:321-343) -/
def cMultiOpt (m0 : Bool) (len : Nat) (r : Out (Option Bytes)) : Out CBuf := match r with
  | .ok (some x) => .ok (toCBuf m0 x)
  | .ok none => .ok ⟨none, len⟩
  | .err _ => .ok ⟨none, len⟩
  | .hang => .hang
  | .ub => .ub

/-- `session_encrypt_for_multiple_simple` (src/multi_encrypt.cpp:251-288); the domain is a C string. -/
def cEncryptMulti (m0 : Bool) (len : Nat) (messages recipients : List Bytes) (priv pub domain : Bytes) (nonce : Option Bytes) (pad : Int)
    (rnd : Bytes) (junk : Nat → Bytes) : Out CBuf :=
  cMultiOpt m0 len ((encryptSimple P.toMPrims messages recipients priv pub (cStr domain) nonce pad rnd junk).bind fun e => .ok (some e))

/-- `session_encrypt_for_multiple_simple_ed25519` (src/multi_encrypt.cpp:290-319) -/
def cEncryptMultiEd (m0 : Bool) (len : Nat) (messages recipients : List Bytes) (sk domain : Bytes) (nonce : Option Bytes) (pad : Int)
    (rnd : Bytes) (junk : Nat → Bytes) : Out CBuf := match xKeys P sk with
  | .ok k => cEncryptMulti P m0 len messages recipients k.1 k.2 domain nonce pad rnd junk
  | .err _ => .ok ⟨none, len⟩
  | .hang => .hang
  | .ub => .ub

/-- `session_decrypt_for_multiple_simple` (src/multi_encrypt.cpp:321-343) -/
def cDecryptMulti (m0 : Bool) (len : Nat) (encoded priv pub sender domain : Bytes) : Out CBuf :=
  cMultiOpt m0 len (.ok (decryptSimple P.toMPrims encoded priv pub sender (cStr domain)))

/-- `session_decrypt_for_multiple_simple_ed25519_from_x25519` (src/multi_encrypt.cpp:345-365) -/
def cDecryptMultiEdX (m0 : Bool) (len : Nat) (encoded sk sender domain : Bytes) : Out CBuf :=
  cMultiOpt m0 len (decryptSimpleEdX P encoded sk sender (cStr domain))

/-- `session_decrypt_for_multiple_simple_ed25519` (src/multi_encrypt.cpp:367-387) -/
def cDecryptMultiEd (m0 : Bool) (len : Nat) (encoded sk sender domain : Bytes) : Out CBuf :=
  cMultiOpt m0 len (decryptSimpleEd P encoded sk sender (cStr domain))

end Verif
