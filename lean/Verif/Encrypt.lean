import Verif.Basic
import Mathlib.Tactic.Linarith

/-!
# Config message encryption and padding

Models src/config/encrypt.cpp:29-146 and include/session/config/encrypt.hpp:90-94.  BLAKE2b and
XChaCha20-Poly1305 are parameters.
-/

namespace Verif

/-- The primitives used by src/config/encrypt.cpp. -/
structure Prims where
  /-- unkeyed `crypto_generichash_blake2b` with 32 bytes of output -/
  kdf : Bytes → Bytes
  /-- keyed `crypto_generichash_blake2b` with 24 bytes of output: key, message -/
  nonceOf : Bytes → Bytes → Bytes
  /-- `crypto_aead_xchacha20poly1305_ietf_encrypt`: key, nonce, message -/
  aead : Bytes → Bytes → Bytes → Bytes
  /-- `crypto_aead_xchacha20poly1305_ietf_decrypt`: key, nonce, ciphertext -/
  aeadOpen : Bytes → Bytes → Bytes → Option Bytes

/-- The functional properties of the primitives: fixed nonce length, 16 bytes of tag, and decryption
accepts exactly the encryptions. -/
structure Prims.Good (P : Prims) : Prop where
  nonceLen : ∀ k m, (P.nonceOf k m).length = 24
  aeadLen : ∀ k n m, (P.aead k n m).length = m.length + 16
  openSeal : ∀ k n m, P.aeadOpen k n (P.aead k n m) = some m
  sealOpen : ∀ k n c m, P.aeadOpen k n c = some m → c = P.aead k n m

/-- Eight bytes, most significant first (`oxenc::host_to_big_inplace` of a `uint64_t`,
src/config/encrypt.cpp:49-51); values are taken modulo 2^64. -/
def be64 (n : Nat) : Bytes :=
  [56, 48, 40, 32, 24, 16, 8, 0].map fun s => UInt8.ofNat (n / 2 ^ s % 256)

/-- `NONCE_KEY_PREFIX` (src/config/encrypt.cpp:30): "libsessionutil-config-encrypted-". -/
def nonceKeyPrefix : Bytes :=
  [108, 105, 98, 115, 101, 115, 115, 105, 111, 110, 117, 116, 105, 108, 45, 99, 111, 110, 102, 105,
   103, 45, 101, 110, 99, 114, 121, 112, 116, 101, 100, 45]

/-- `make_encrypt_key` (src/config/encrypt.cpp:33-55); raises `std::invalid_argument`. -/
def makeEncryptKey (P : Prims) (keyBase : Bytes) (size : Nat) (domain : Bytes) : Out Bytes :=
  if keyBase.length ≠ 32 then .err .foreign
  else if domain.length < 1 ∨ domain.length > 24 then .err .foreign
  else .ok (P.kdf (keyBase ++ be64 size ++ domain))

/-- `encrypt` / `encrypt_inplace` (src/config/encrypt.cpp:57-97). -/
def encrypt (P : Prims) (message keyBase domain : Bytes) : Out Bytes :=
  makeEncryptKey P keyBase message.length domain >>= fun key =>
    let nonce := P.nonceOf (nonceKeyPrefix ++ domain) message
    .ok (P.aead key nonce message ++ nonce)

/-- Result of `decrypt`: the message, a `decrypt_error`, or another exception. -/
inductive DecRes where
  | ok (m : Bytes)
  | decryptError
  | invalidArgument
deriving DecidableEq

/-- `decrypt` / `decrypt_inplace` (src/config/encrypt.cpp:103-135).  The length check is done on
`size_t`, where `size - 40` wraps around exactly if `size < 40`. -/
def decrypt (P : Prims) (ciphertext keyBase domain : Bytes) : DecRes :=
  if ciphertext.length < 40 then .decryptError
  else
    let nonce := ciphertext.drop (ciphertext.length - 24)
    match makeEncryptKey P keyBase (ciphertext.length - 40) domain with
    | .ok key =>
      match P.aeadOpen key nonce (ciphertext.take (ciphertext.length - 24)) with
      | some m => .ok m
      | none => .decryptError
    | _ => .invalidArgument

/-- `ENCRYPT_DATA_OVERHEAD` (include/session/config/encrypt.hpp) -/
def encOverhead : Nat := 40

/-- `padded_size` (include/session/config/encrypt.hpp:90-94), as long as nothing overflows
`size_t`. -/
def paddedSize (s overhead : Nat) : Nat :=
  let s2 := s + overhead
  let chunk := if s2 < 5120 then 256 else if s2 < 20480 then 1024 else if s2 < 40960 then 2048 else 5120
  (s2 + chunk - 1) / chunk * chunk - overhead

/-- `pad_message` (src/config/encrypt.cpp:137-141). -/
def padMessage (data : Bytes) (overhead : Nat) : Bytes :=
  List.replicate (paddedSize data.length overhead - data.length) 0 ++ data

/-- Removing the prefix padding (src/config/base.cpp:149-153): only if there is a byte that is not
NUL. -/
def unpad (plain : Bytes) : Bytes :=
  match plain.dropWhile (· == 0) with
  | [] => plain
  | r => r

/-! ### Properties -/

variable {P : Prims}

theorem encrypt_ok {m k d : Bytes} (hk : k.length = 32) (hd : 1 ≤ d.length ∧ d.length ≤ 24) :
    encrypt P m k d = .ok (P.aead (P.kdf (k ++ be64 m.length ++ d))
      (P.nonceOf (nonceKeyPrefix ++ d) m) m ++ P.nonceOf (nonceKeyPrefix ++ d) m) := by
  unfold encrypt makeEncryptKey
  rw [if_neg (by omega), if_neg (by omega)]
  rfl

/-- C27.  `decrypt` of `encrypt` with the same key and domain is the identity, for all messages
(including the empty one), keys of 32 bytes and domains of 1 to 24 bytes; the ciphertext is 40 bytes
longer. -/
theorem decrypt_encrypt (hP : P.Good) (m k d : Bytes) (hk : k.length = 32)
    (hd : 1 ≤ d.length ∧ d.length ≤ 24) :
    ∃ c, encrypt P m k d = .ok c ∧ c.length = m.length + 40 ∧ decrypt P c k d = .ok m := by
  refine ⟨_, encrypt_ok hk hd, ?_, ?_⟩
  · simp [hP.aeadLen, hP.nonceLen]
  · unfold decrypt
    have hl : (P.aead (P.kdf (k ++ be64 m.length ++ d)) (P.nonceOf (nonceKeyPrefix ++ d) m) m ++
        P.nonceOf (nonceKeyPrefix ++ d) m).length = m.length + 40 := by
      simp [hP.aeadLen, hP.nonceLen]
    have e1 : m.length + 40 - 24 =
        (P.aead (P.kdf (k ++ be64 m.length ++ d)) (P.nonceOf (nonceKeyPrefix ++ d) m) m).length := by
      rw [hP.aeadLen]; omega
    rw [if_neg (by omega)]
    simp only [hl, Nat.add_sub_cancel]
    rw [e1, List.drop_left, List.take_left]
    unfold makeEncryptKey
    rw [if_neg (by omega), if_neg (by omega)]
    simp only [hP.openSeal]

/-- C27.  The only byte strings `decrypt` accepts are the encryptions of the message it returns, under
the key derived from the given key, domain and the message's length, with the nonce at the end. -/
theorem decrypt_sound (hP : P.Good) {c k d m : Bytes} (h : decrypt P c k d = .ok m) :
    k.length = 32 ∧ 1 ≤ d.length ∧ d.length ≤ 24 ∧
      ∃ nonce, nonce.length = 24 ∧
        c = P.aead (P.kdf (k ++ be64 m.length ++ d)) nonce m ++ nonce := by
  unfold decrypt at h
  split at h
  · cases h
  · rename_i hlen
    unfold makeEncryptKey at h
    by_cases hk : k.length ≠ 32
    · simp [hk] at h
    · rw [if_neg hk] at h
      by_cases hd : d.length < 1 ∨ d.length > 24
      · rw [if_pos hd] at h; cases h
      · rw [if_neg hd] at h
        dsimp only at h
        split at h
        · rename_i m' hm
          cases h
          have hc := hP.sealOpen _ _ _ _ hm
          have hml : c.length - 40 = m.length := by
            have := congrArg List.length hc
            rw [hP.aeadLen, List.length_take] at this
            omega
          refine ⟨by omega, by omega, by omega, c.drop (c.length - 24), by simp; omega, ?_⟩
          rw [← hml, ← hc, List.take_append_drop]
        · cases h

/-- C27.  Anything shorter than the overhead is refused with a decryption error. -/
theorem decrypt_short {c k d : Bytes} (h : c.length < 40) : decrypt P c k d = .decryptError := by
  unfold decrypt; rw [if_pos h]

/-- C27.  With a valid key and domain `decrypt` either returns or raises `decrypt_error`. -/
theorem decrypt_errors {c k d : Bytes} (hk : k.length = 32) (hd : 1 ≤ d.length ∧ d.length ≤ 24) :
    decrypt P c k d ≠ .invalidArgument := by
  unfold decrypt makeEncryptKey
  rw [if_neg (show ¬ k.length ≠ 32 by omega), if_neg (show ¬(d.length < 1 ∨ d.length > 24) by omega)]
  split
  · intro h; cases h
  · dsimp only; split <;> intro h <;> cases h

/-- C27.  A key or domain of another length is refused by `encrypt`. -/
theorem encrypt_refuses {m k d : Bytes} (h : k.length ≠ 32 ∨ d.length < 1 ∨ 24 < d.length) :
    encrypt P m k d = .err .foreign := by
  unfold encrypt makeEncryptKey
  by_cases hk : k.length ≠ 32
  · rw [if_pos hk]; rfl
  · rw [if_neg hk, if_pos (by omega)]; rfl

/-! ### Padding -/

/-- The bucket size for a padded total. -/
theorem padded_total (s : Nat) : ∃ chunk, (chunk = 256 ∨ chunk = 1024 ∨ chunk = 2048 ∨ chunk = 5120) ∧
    (chunk = if s + 40 < 5120 then 256 else if s + 40 < 20480 then 1024 else
      if s + 40 < 40960 then 2048 else 5120) ∧
    chunk ∣ paddedSize s 40 + 40 ∧ s ≤ paddedSize s 40 ∧ paddedSize s 40 < s + chunk := by
  unfold paddedSize
  dsimp only
  split_ifs
  · exact ⟨256, by simp, rfl, by omega, by omega, by omega⟩
  · exact ⟨1024, by simp, rfl, by omega, by omega, by omega⟩
  · exact ⟨2048, by simp, rfl, by omega, by omega, by omega⟩
  · exact ⟨5120, by simp, rfl, by omega, by omega, by omega⟩

/-- C28.  The padded length depends on the size bucket only: it is at least the length, at most
`chunk - 1` more, and the encrypted total is a multiple of 256 (of 1024 from 5 kB on). -/
theorem pad_buckets (data : Bytes) :
    data.length ≤ (padMessage data 40).length ∧ 256 ∣ (padMessage data 40).length + 40 ∧
      (5120 ≤ data.length + 40 → 1024 ∣ (padMessage data 40).length + 40) ∧
      (padMessage data 40).length < data.length + 5120 := by
  obtain ⟨chunk, hc, he, hdvd, hle, hlt⟩ := padded_total data.length
  have hl : (padMessage data 40).length = paddedSize data.length 40 := by
    simp [padMessage]; omega
  rw [hl]
  refine ⟨hle, ?_, fun h5 => ?_, ?_⟩
  · refine dvd_trans ?_ hdvd
    rcases hc with rfl | rfl | rfl | rfl <;> decide
  · refine dvd_trans ?_ hdvd
    rw [he, if_neg (by omega)]
    split
    · decide
    · split <;> decide
  · rcases hc with rfl | rfl | rfl | rfl <;> omega

/-- C28.  Padded lengths reveal nothing but the bucket: padding is monotone and padding a padded
message changes nothing, so the possible padded lengths partition the lengths into intervals. -/
theorem paddedSize_mono {s t : Nat} (h : s ≤ t) : paddedSize s 40 ≤ paddedSize t 40 := by
  unfold paddedSize
  dsimp only
  split_ifs <;> omega

theorem ceil_fix {T c : Nat} (hc : 0 < c) (h : c ∣ T) : (T + c - 1) / c * c = T := by
  obtain ⟨k, rfl⟩ := h
  have : (c * k + c - 1) / c = k := by
    rw [Nat.div_eq_iff hc]
    constructor <;> rw [Nat.mul_comm] <;> omega
  rw [this, Nat.mul_comm]

theorem paddedSize_idem (s : Nat) : paddedSize (paddedSize s 40) 40 = paddedSize s 40 := by
  obtain ⟨chunk, hc, he, hdvd, hle, hlt⟩ := padded_total s
  set T := paddedSize s 40 with hT
  have key : ∀ c : Nat, 0 < c → c ∣ T + 40 → (T + 40 + c - 1) / c * c - 40 = T := by
    intro c h0 h; rw [ceil_fix h0 h]; omega
  unfold paddedSize
  dsimp only
  split_ifs at he ⊢ <;> subst he <;> apply key <;> omega

theorem dropWhile_replicate_zero (n : Nat) (l : Bytes) :
    (List.replicate n (0 : UInt8) ++ l).dropWhile (· == 0) = l.dropWhile (· == 0) := by
  induction n with
  | zero => rfl
  | succ n ih => simp [List.replicate_succ, ih]

/-- C28.  Padding is removed again on receipt, for every message that does not itself start with a
NUL byte. -/
theorem unpad_pad (b : UInt8) (t : Bytes) (overhead : Nat) (hb : b ≠ 0) :
    unpad (padMessage (b :: t) overhead) = b :: t := by
  unfold unpad padMessage
  rw [dropWhile_replicate_zero]
  have : (b :: t).dropWhile (· == 0) = b :: t := by simp [hb]
  rw [this]

/-- Stripping NULs without any padding on it leaves such messages alone. -/
theorem unpad_id (b : UInt8) (t : Bytes) (hb : b ≠ 0) : unpad (b :: t) = b :: t := by
  unfold unpad
  have : (b :: t).dropWhile (· == 0) = b :: t := by simp [hb]
  rw [this]

/-! ### The hypotheses are satisfiable -/

/-- A toy instance: the "cipher" appends a 16-byte tag. -/
def toyPrims : Prims where
  kdf := fun _ => List.replicate 32 0
  nonceOf := fun _ _ => List.replicate 24 7
  aead := fun _ _ m => m ++ List.replicate 16 9
  aeadOpen := fun _ _ c =>
    if c.drop (c.length - 16) = List.replicate 16 9 ∧ 16 ≤ c.length then some (c.take (c.length - 16))
    else none

theorem toyPrims_good : toyPrims.Good where
  nonceLen := fun _ _ => by simp [toyPrims]
  aeadLen := fun _ _ _ => by simp [toyPrims]
  openSeal := fun _ _ m => by
    simp only [toyPrims, List.length_append, List.length_replicate, Nat.add_sub_cancel,
      List.drop_left, List.take_left]
    simp
  sealOpen := fun _ _ c m h => by
    simp only [toyPrims] at h ⊢
    split at h
    · rename_i hc
      cases h
      rw [← hc.1, List.take_append_drop]
    · cases h

example : decrypt toyPrims ([100, 101] ++ List.replicate 16 9 ++ List.replicate 24 7)
    (List.replicate 32 1) [85] = .ok [100, 101] := by decide +kernel
example : decrypt toyPrims ([100, 101] ++ List.replicate 15 9 ++ List.replicate 25 7)
    (List.replicate 32 1) [85] = .decryptError := by decide +kernel
example : unpad (padMessage [100, 0, 0] 40) = [100, 0, 0] ∧ (padMessage [100, 0, 0] 40).length = 216 := by
  decide +kernel

end Verif
