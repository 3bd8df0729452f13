import Verif.Props.GroupAuth

/-!
# Group messages

Models `Keys::encrypt_message`, `Keys::decrypt_message` (src/config/groups/keys.cpp:1187-1367),
`Keys::load_admin_key` (211-233) and `zstd_compress`/`zstd_decompress` (src/config/internal.cpp:186-229).
The nonce is an argument; failure to allocate memory is not modelled.
-/

namespace Verif

/-- The primitives, with zstd and key generation. -/
structure UPrims extends GPrims where
  /-- `ZSTD_compress` at level 1 -/
  zip : Bytes → Bytes
  /-- what successive calls of `ZSTD_decompressStream` put out until the input is used up; `false` if the
  last call reports an error -/
  inflate : Bytes → List Bytes × Bool
  /-- `crypto_sign_ed25519_seed_keypair`: the secret key of a seed -/
  keypair : Bytes → Bytes

/-- Their functional properties. -/
structure UPrims.Good (P : UPrims) : Prop where
  g : P.toGPrims.Good
  edLen : ∀ s, (P.edPub s).length = 32
  inflateZip : ∀ x, (P.inflate (P.zip x)).2 = true ∧ (P.inflate (P.zip x)).1.flatten = x
  zipNe : ∀ x, P.zip x ≠ []

/-- The loop of `zstd_decompress` (src/config/internal.cpp:217-228): what was put out so far, what is
put out next.  A maximum of 0 means none. -/
def inflateLoop (max : Nat) : Bytes → List Bytes → Bool → Option Bytes
  | acc, [], ok => if ok then some acc else none
  | acc, c :: t, ok =>
    if 0 < max ∧ max < acc.length + c.length then none else inflateLoop max (acc ++ c) t ok

/-- `zstd_decompress` (src/config/internal.cpp:207-229) -/
def unzipMax (P : UPrims) (data : Bytes) (max : Nat) : Option Bytes :=
  inflateLoop max [] (P.inflate data).1 (P.inflate data).2

/-- `MAX_PLAINTEXT_MESSAGE_SIZE` (include/session/config/groups/keys.hpp:154) -/
def maxGroupMsg : Nat := 1000000

variable (P : UPrims)

/-- What is signed and sent: the compressed message if it was to be compressed and that makes it shorter
(src/config/groups/keys.cpp:1198-1208); whether it is compressed. -/
def groupPayload (plaintext : Bytes) (compress : Bool) : Bytes × Bool :=
  if compress ∧ (P.zip plaintext).length < plaintext.length then (P.zip plaintext, true) else (plaintext, false)

/-- The dict (src/config/groups/keys.cpp:1210-1226) -/
def groupDict (userSk payload : Bytes) (zipped : Bool) : BtDict :=
  [([], .int 1), ([97], .str (P.edPub userSk))] ++
    (if zipped then [([115], .str (P.sign userSk payload)), ([122], .str payload)]
     else [([100], .str payload), ([115], .str (P.sign userSk payload))])

/-- Number of zero bytes appended (src/config/groups/keys.cpp:1234-1238) -/
def groupPad (len padding : Nat) : Nat :=
  if 1 < padding ∧ (40 + len) % padding ≠ 0 then padding - (40 + len) % padding else 0

/-- `encrypt_message` (src/config/groups/keys.cpp:1195-1255) with the random nonce given. -/
def GKeys.encryptMessage (e : GEnv) (s : GKeys) (plaintext : Bytes) (compress : Bool) (padding : Nat)
    (nonce : Bytes) : Out Bytes :=
  if maxGroupMsg < plaintext.length then .err .foreign
  else
    let pl := groupPayload P plaintext compress
    let enc := encV (.dict (groupDict P e.userSk pl.1 pl.2))
    s.groupEncKey >>= fun key =>
      .ok (nonce ++ P.aead key nonce (enc ++ List.replicate (groupPad enc.length padding) 0))

/-- The keys tried for decryption, in order (src/config/groups/keys.cpp:1270-1281): the pending key, then
oldest to newest. -/
def GKeys.tryKeys (s : GKeys) : List Bytes :=
  (if s.pendingConfig ≠ [] then [s.pendingKey] else []) ++ s.keys.map (·.key)

/-- The first key that opens the ciphertext -/
def openWithAny (nonce ct : Bytes) : List Bytes → Option Bytes
  | [] => none
  | k :: t => match P.aeadOpen k nonce ct with
    | some m => some m
    | none => openWithAny nonce ct t

/-- Removing zero bytes from the end, unless there is nothing else (src/config/groups/keys.cpp:1289-1290) -/
def stripNul (plain : Bytes) : Bytes := match plain.reverse.dropWhile (· == 0) with
  | [] => plain
  | r => r.reverse

/-- An optional non-empty string (src/config/groups/keys.cpp:1325-1330, 1340-1348); empty if there is none. -/
def optData (k r : Bytes) : Option (Bytes × Bytes) := match seekKey r.length k r with
  | none => none
  | some (false, r') => some ([], r')
  | some (true, r') => match takeStr r' with
    | some (x :: t, r'') => some (x :: t, r'')
    | _ => none

/-- The parts of a decrypted message: author, signature, payload, whether it is compressed. -/
structure GroupMsg where
  author : Bytes
  sig : Bytes
  payload : Bytes
  zipped : Bool
deriving DecidableEq

/-- Exactly one of d and z (src/config/groups/keys.cpp:1338-1350) -/
def pickPayload (author sig d z : Bytes) : Option GroupMsg :=
  match d, z with
  | [], [] => none
  | [], x :: t => some ⟨author, sig, x :: t, true⟩
  | x :: t, [] => some ⟨author, sig, x :: t, false⟩
  | _ :: _, _ :: _ => none

/-- Reading the dict (src/config/groups/keys.cpp:1295-1350); `none` is an exception.  (The conversion of
the author's key, which may fail too, comes earlier in the code.) -/
def readGroupMsg (plain : Bytes) : Option GroupMsg :=
  if plain.head? ≠ some 100 ∨ plain.getLast? ≠ some 101 then none
  else match openDict plain with
    | none => none
    | some r0 => match requireKey [] r0 with
      | none => none
      | some r1 => match takeInt r1 with
        | none => none
        | some (v, r2) => if v ≠ 1 then none else match requireKey [97] r2 with
          | none => none
          | some r3 => match takeStr r3 with
            | none => none
            | some (a, r4) => if a.length ≠ 32 then none else match optData [100] r4 with
              | none => none
              | some (d, r5) => match requireKey [115] r5 with
                | none => none
                | some r6 => match takeStr r6 with
                  | none => none
                  | some (sig, r7) => if sig.length ≠ 64 then none else match optData [122] r7 with
                    | none => none
                    | some (z, _) => pickPayload a sig d z

/-- `decrypt_message` (src/config/groups/keys.cpp:1257-1367): session id (hex) of the author, message. -/
def GKeys.decryptMessage (s : GKeys) (ct : Bytes) : Out (Bytes × Bytes) :=
  if ct.length < 40 then .err .foreign
  else match openWithAny P (ct.take 24) (ct.drop 24) s.tryKeys with
    | none => .err .foreign
    | some plain => match readGroupMsg (stripNul plain) with
      | none => .err .foreign
      | some m => match P.xpk m.author with
        | none => .err .foreign
        | some x =>
          if P.verify m.author m.payload m.sig = false then .err .foreign
          else if m.zipped then
            match unzipMax P m.payload maxGroupMsg with
            | some data => .ok (asc ['0', '5'] ++ toHex x, data)
            | none => .err .foreign
          else .ok (asc ['0', '5'] ++ toHex x, m.payload)

/-- `load_admin_key` (src/config/groups/keys.cpp:211-233): the object's keys afterwards. -/
def GEnv.loadAdminKey (e : GEnv) (secret : Bytes) : Out GEnv :=
  if e.admin then .ok e
  else if secret.length ≠ 64 ∧ secret.length ≠ 32 then .err .foreign
  else
    let sk := P.keypair (secret.take 32)
    if e.groupPk ≠ P.edPub sk then .err .foreign
    else .ok { e with groupSk := some sk }

end Verif
