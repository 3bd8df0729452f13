import Verif.Consume

/-!
# Messages encrypted separately for several recipients

Models src/multi_encrypt.cpp:14-240 and include/session/multi_encrypt.hpp:32-230.  X25519, keyed
BLAKE2b and XChaCha20-Poly1305 are parameters; random bytes are arguments.
-/

namespace Verif

/-- The primitives used by src/multi_encrypt.cpp. -/
structure MPrims where
  /-- `crypto_scalarmult_curve25519`: secret, public; `none` if it reports failure -/
  dh : Bytes → Bytes → Option Bytes
  /-- the X25519 public key of a secret key -/
  pubOf : Bytes → Bytes
  /-- `crypto_generichash_blake2b` with 32 bytes of output: key, message -/
  hash : Bytes → Bytes → Bytes
  /-- `crypto_aead_xchacha20poly1305_ietf_encrypt`: key, nonce, message -/
  aead : Bytes → Bytes → Bytes → Bytes
  /-- `crypto_aead_xchacha20poly1305_ietf_decrypt`: key, nonce, ciphertext -/
  aeadOpen : Bytes → Bytes → Bytes → Option Bytes

/-- Their functional properties: both sides of a key exchange compute the same value, public keys are
32 bytes, the cipher adds a 16-byte tag, and decryption accepts exactly the encryptions. -/
structure MPrims.Good (P : MPrims) : Prop where
  dhComm : ∀ a b, P.dh a (P.pubOf b) = P.dh b (P.pubOf a)
  dhOk : ∀ a b, P.dh a (P.pubOf b) ≠ none
  pubLen : ∀ a, (P.pubOf a).length = 32
  aeadLen : ∀ k n m, (P.aead k n m).length = m.length + 16
  openSeal : ∀ k n m, P.aeadOpen k n (P.aead k n m) = some m
  sealOpen : ∀ k n c m, P.aeadOpen k n c = some m → c = P.aead k n m

variable (P : MPrims)

/-- `detail::encrypt_multi_key` (src/multi_encrypt.cpp:19-51): own secret and public key, the other's
public key, whether we are the sender.  `none`: `std::invalid_argument`. -/
def multiKey (a A B : Bytes) (encrypting : Bool) (domain : Bytes) : Option Bytes :=
  match P.dh a B with
  | none => none
  | some buf =>
    let S := if encrypting then A else B
    let R := if encrypting then B else A
    some (P.hash (domain.take 64) (buf ++ S ++ R))

/-- `detail::encrypt_multi_impl` (src/multi_encrypt.cpp:53-63); libsodium's encryption does not
fail. -/
def multiSeal (key nonce msg : Bytes) : Bytes := P.aead key (nonce.take 24) msg

/-- `detail::decrypt_multi_impl` (src/multi_encrypt.cpp:65-85) -/
def multiOpen (key nonce ct : Bytes) : Option Bytes :=
  if ct.length < 16 then none else P.aeadOpen key (nonce.take 24) ct

/-- `detail::validate_multi_fields` (include/session/multi_encrypt.hpp:55-63) -/
def multiFieldsOk (nonce priv pub : Bytes) : Bool :=
  decide (24 ≤ nonce.length ∧ priv.length = 32 ∧ pub.length = 32)

/-- The loop of `encrypt_for_multiple` (include/session/multi_encrypt.hpp:130-146): the ciphertexts
passed to the callback before it ended or threw.  The message list here has one message per
recipient. -/
def multiLoop (nonce priv pub domain : Bytes) (ignoreInvalid : Bool) :
    List (Bytes × Bytes) → Out (List Bytes)
  | [] => .ok []
  | (m, r) :: t => match multiKey P priv pub r true domain with
    | none => if ignoreInvalid then multiLoop nonce priv pub domain ignoreInvalid t else .err .foreign
    | some key => multiLoop nonce priv pub domain ignoreInvalid t >>= fun cs =>
        .ok (multiSeal P key nonce m :: cs)

/-- The message for each recipient: `msg_it` advances only if there is more than one message
(include/session/multi_encrypt.hpp:131-135). -/
def perRecipient (messages recipients : List Bytes) : List (Bytes × Bytes) :=
  if messages.length = 1 then recipients.map fun r => (messages.headD [], r)
  else messages.zip recipients

/-- `encrypt_for_multiple` (include/session/multi_encrypt.hpp:103-147). -/
def encryptForMultiple (messages recipients : List Bytes) (nonce priv pub domain : Bytes)
    (ignoreInvalid : Bool) : Out (List Bytes) :=
  if multiFieldsOk nonce priv pub = false then .err .foreign
  else if recipients.any (fun r => r.length != 32) then .err .foreign
  else if messages.length ≠ 1 ∧ messages.length ≠ recipients.length then .err .foreign
  else multiLoop P nonce priv pub domain ignoreInvalid (perRecipient messages recipients)

/-- The loop of `decrypt_for_multiple` (include/session/multi_encrypt.hpp:213-219). -/
def firstOpen (key nonce : Bytes) : List Bytes → Option Bytes
  | [] => none
  | c :: t => match multiOpen P key nonce c with
    | some m => some m
    | none => firstOpen key nonce t

/-- `decrypt_for_multiple` on a vector (src/multi_encrypt.cpp:106-127 and
include/session/multi_encrypt.hpp:194-220). -/
def decryptForMultiple (cts : List Bytes) (nonce priv pub sender domain : Bytes) : Out (Option Bytes) :=
  if multiFieldsOk nonce priv pub = false then .err .foreign
  else if sender.length ≠ 32 then .err .foreign
  else match multiKey P priv pub sender false domain with
    | none => .err .foreign
    | some key => .ok (firstOpen P key nonce cts)

/-- Number of junk entries needed to reach a multiple of `pad` (src/multi_encrypt.cpp:163-168). -/
def junkCount (pad n : Nat) : Nat := (pad - n % pad) % pad

/-- `encrypt_for_multiple_simple` with X25519 keys (src/multi_encrypt.cpp:129-173).  `rnd` is the
random nonce, `junk i` the random bytes drawn for the `i`-th filler entry, cut to the size asked for.
The first message is taken to be shorter than 2^31 bytes, so that its size fits `int`. -/
def encryptSimple (messages recipients : List Bytes) (priv pub domain : Bytes) (nonce : Option Bytes)
    (pad : Int) (rnd : Bytes) (junk : Nat → Bytes) : Out Bytes :=
  let n := nonce.getD rnd
  if nonce.isSome ∧ n.length ≠ 24 then .err .foreign
  else encryptForMultiple P messages recipients n priv pub domain false >>= fun cs =>
    let padSize := if 1 < pad then (messages.headD []).length else 0
    let extra := if padSize = 0 then [] else
      (List.range (junkCount pad.toNat cs.length)).map fun i => (junk i).take padSize
    .ok (encV (.dict [([35], .str n), ([101], .list ((cs ++ extra).map .str))]))

/-- The Ed25519 overload (src/multi_encrypt.cpp:175-187): the keys are converted, and the nonce is
passed on as given (include/session/multi_encrypt.hpp:319-325 makes it empty by default). -/
def encryptSimpleEd (xKeys : Bytes → Out (Bytes × Bytes)) (messages recipients : List Bytes)
    (edSecret domain : Bytes) (nonce : Bytes) (pad : Int) (rnd : Bytes) (junk : Nat → Bytes) : Out Bytes :=
  xKeys edSecret >>= fun k => encryptSimple P messages recipients k.1 k.2 domain (some nonce) pad rnd junk

/-- The loop over the list of entries as read from the wire: anything but a string raises an
exception, when it is reached. -/
def firstOpenBt (key nonce : Bytes) : List Bt → Option Bytes
  | .str c :: t => match multiOpen P key nonce c with
    | some m => some m
    | none => firstOpenBt key nonce t
  | _ => none

/-- `decrypt_for_multiple_simple` with X25519 keys (src/multi_encrypt.cpp:189-219): every exception
becomes `none`. -/
def decryptSimple (encoded priv pub sender domain : Bytes) : Option Bytes := do
  let r0 ← openDict encoded
  let r1 ← requireKey [35] r0
  let (nonce, r2) ← takeStr r1
  if nonce.length ≠ 24 then none
  else do
    let r3 ← requireKey [101] r2
    let (l, _) ← takeList r3
    if multiFieldsOk nonce priv pub = false ∨ sender.length ≠ 32 then none
    else do
      let key ← multiKey P priv pub sender false domain
      firstOpenBt P key nonce l

end Verif
