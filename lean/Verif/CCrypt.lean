import Verif.CMulti
import Verif.Encrypt

/-!
# C functions for config encryption, padding and random bytes

src/config/encrypt.cpp:148-191, src/random.cpp.
-/

namespace Verif

/-- Reading `n` bytes through a pointer to a buffer: beyond its end is undefined behaviour -/
def readN (buf : Bytes) (n : Nat) : Out Bytes := if n ≤ buf.length then .ok (buf.take n) else .ub

/-- `config_encrypt` (src/config/encrypt.cpp:152-170): `buf` and `key` are the buffers at `plaintext` and `key_base`, `size` what
`*ciphertext_size` is before.  `domain` is a C string. -/
def cConfigEncrypt (P : Prims) (m0 : Bool) (size : Nat) (buf : Bytes) (len : Nat) (key domain : Bytes) : Out CBuf :=
  (readN buf len).bind fun m => (readN key 32).bind fun k => match encrypt P m k (cStr domain) with
    | .ok c => .ok (toCBuf m0 c)
    | .err _ => .ok ⟨none, size⟩
    | .hang => .hang
    | .ub => .ub

/-- `config_decrypt` (src/config/encrypt.cpp:172-190) -/
def cConfigDecrypt (P : Prims) (m0 : Bool) (size : Nat) (buf : Bytes) (len : Nat) (key domain : Bytes) : Out CBuf :=
  (readN buf len).bind fun c => (readN key 32).bind fun k => match decrypt P c k (cStr domain) with
    | .ok m => .ok (toCBuf m0 m)
    | .decryptError => .ok ⟨none, size⟩
    | .invalidArgument => .ok ⟨none, size⟩

/-- `config_padded_size` (src/config/encrypt.cpp:192-194) and `padded_size` (include/session/config/encrypt.hpp:90-94) with
the arithmetic of a 64-bit `size_t`: all of it is modulo 2^64. -/
def cPaddedSize (s overhead : Nat) : Nat :=
  let s2 := (s + overhead) % 2 ^ 64
  let chunk := if s2 < 5120 then 256 else if s2 < 20480 then 1024 else if s2 < 40960 then 2048 else 5120
  ((s2 + chunk - 1) % 2 ^ 64 / chunk * chunk + (2 ^ 64 - overhead)) % 2 ^ 64

/-- `session_random` (src/random.cpp:10-29): `rnd` is what `randombytes_buf` writes, of the length asked for. -/
def cRandom (m0 : Bool) (rnd : Nat → Bytes) (size : Nat) : CBuf := toCBuf m0 (rnd size)

end Verif
