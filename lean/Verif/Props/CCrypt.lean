import Verif.CCrypt
import Verif.Props.Client

/-!
# Config encryption through the C interface (C126)
-/

namespace Verif

variable {P : Prims}

theorem cStr_no_nul : ∀ s : Bytes, (0 : UInt8) ∉ cStr s
  | [] => by simp [cStr]
  | x :: t => by
    have ih := cStr_no_nul t
    unfold cStr at ih ⊢
    by_cases hx : x = 0
    · simp [hx]
    · rw [List.takeWhile_cons_of_pos (by simpa using hx)]
      simp only [List.mem_cons, not_or]
      exact ⟨fun e => hx e.symm, ih⟩

theorem readN_append (a b : Bytes) : readN (a ++ b) a.length = .ok a := by
  unfold readN
  rw [if_pos (by simp), List.take_left]

theorem readN_exact {b : Bytes} {n : Nat} (h : n ≤ b.length) : readN b n = .ok (b.take n) := if_pos h

/-- **C126.** What a C program encrypts it can decrypt, with the same 32 bytes of key and the same domain (up to its NUL; 1 to 24
characters): for every message, also one with NULs and one that is only the first part of a larger buffer.  The size is that of the
message and 40, and nothing outside the buffers is read.  An empty message comes back as a buffer of length 0, which is a null
pointer — like a failure — where `malloc(0)` returns null. -/
theorem c_config_roundtrip (hP : P.Good) (m0 : Bool) (size size' : Nat) (buf key rest domain : Bytes) (len : Nat) (hl : len ≤ buf.length)
    (hk : 32 ≤ key.length) (hd : 1 ≤ (cStr domain).length ∧ (cStr domain).length ≤ 24) :
    ∃ c, cConfigEncrypt P m0 size buf len key domain = .ok ⟨some c, len + 40⟩ ∧ c.length = len + 40 ∧
      encrypt P (buf.take len) (key.take 32) (cStr domain) = .ok c ∧
      cConfigDecrypt P m0 size' (c ++ rest) (len + 40) key domain = .ok ⟨if len = 0 ∧ m0 = false then none else some (buf.take len), len⟩ := by
  have hlen : (buf.take len).length = len := by rw [List.length_take]; omega
  obtain ⟨c, h1, h2, h3⟩ := decrypt_encrypt hP (buf.take len) (key.take 32) (cStr domain) (by rw [List.length_take]; omega) hd
  rw [hlen] at h2
  refine ⟨c, ?_, h2, h1, ?_⟩
  · unfold cConfigEncrypt
    rw [readN_exact hl, readN_exact hk]
    show (match encrypt P (buf.take len) (key.take 32) (cStr domain) with
      | .ok c => Out.ok (toCBuf m0 c)
      | .err _ => .ok ⟨none, size⟩
      | .hang => .hang
      | .ub => .ub) = _
    rw [h1]
    dsimp only
    unfold toCBuf
    rw [if_neg (by rintro ⟨h, _⟩; rw [h] at h2; simp at h2), h2]
  · unfold cConfigDecrypt
    rw [← h2, readN_append, readN_exact hk]
    show (match decrypt P c (key.take 32) (cStr domain) with
      | .ok m => Out.ok (toCBuf m0 m)
      | .decryptError => .ok ⟨none, size'⟩
      | .invalidArgument => .ok ⟨none, size'⟩) = _
    rw [h3]
    dsimp only
    unfold toCBuf
    have : buf.take len = [] ↔ len = 0 := by rw [← List.length_eq_zero_iff, hlen]
    simp only [this, hlen]

/-- **C126.** Whatever the ciphertext, key and domain, in buffers as long as said: the C decryption function never has undefined
behaviour; when it returns a pointer, `*plaintext_size` is the size of the message there, and the ciphertext is an encryption of it
under that key and domain; otherwise `*plaintext_size` is unchanged, or was set to 0 for an empty message. -/
theorem c_config_decrypt_sound (hP : P.Good) (m0 : Bool) (size : Nat) (buf key domain : Bytes) (len : Nat) (hl : len ≤ buf.length)
    (hk : 32 ≤ key.length) :
    ∃ r, cConfigDecrypt P m0 size buf len key domain = .ok r ∧
      (∀ m, r.ptr = some m → r.len = m.length ∧ len = m.length + 40 ∧ ∃ nonce, nonce.length = 24 ∧
        buf.take len = P.aead (P.kdf (key.take 32 ++ be64 m.length ++ cStr domain)) nonce m ++ nonce) ∧
      (r.ptr = none → r.len = size ∨ (r.len = 0 ∧ m0 = false ∧ decrypt P (buf.take len) (key.take 32) (cStr domain) = .ok [])) := by
  unfold cConfigDecrypt
  rw [readN_exact hl, readN_exact hk]
  show ∃ r, (match decrypt P (buf.take len) (key.take 32) (cStr domain) with
      | .ok m => Out.ok (toCBuf m0 m)
      | .decryptError => .ok ⟨none, size⟩
      | .invalidArgument => .ok ⟨none, size⟩) = .ok r ∧ _
  cases hd : decrypt P (buf.take len) (key.take 32) (cStr domain) with
  | ok m =>
    obtain ⟨_, _, _, nonce, hn, hc⟩ := decrypt_sound hP hd
    refine ⟨_, rfl, fun m' hm => ?_, fun hm => ?_⟩
    · unfold toCBuf at hm ⊢
      dsimp only at hm ⊢
      split at hm
      · cases hm
      · cases hm
        refine ⟨rfl, ?_, nonce, hn, hc⟩
        have := congrArg List.length hc
        rw [List.length_take, List.length_append, hP.aeadLen, hn] at this
        omega
    · unfold toCBuf at hm ⊢
      dsimp only at hm ⊢
      split at hm
      · rename_i hh
        exact .inr ⟨by rw [hh.1]; rfl, hh.2, by rw [hh.1]⟩
      · cases hm
  | decryptError => exact ⟨_, rfl, (fun m h => by cases h), fun _ => .inl rfl⟩
  | invalidArgument => exact ⟨_, rfl, (fun m h => by cases h), fun _ => .inl rfl⟩

/-- **C126.** The C encryption function fails exactly for a domain that is empty or longer than 24 characters, and then leaves
`*ciphertext_size` as it was. -/
theorem c_config_encrypt_fails (P : Prims) (m0 : Bool) (size : Nat) (buf key domain : Bytes) (len : Nat) (hl : len ≤ buf.length)
    (hk : 32 ≤ key.length) :
    ((cStr domain).length = 0 ∨ 24 < (cStr domain).length → cConfigEncrypt P m0 size buf len key domain = .ok ⟨none, size⟩) ∧
    (cConfigEncrypt P m0 size buf len key domain ≠ .ok ⟨none, size⟩ → 1 ≤ (cStr domain).length ∧ (cStr domain).length ≤ 24) := by
  have h1 : (cStr domain).length = 0 ∨ 24 < (cStr domain).length → cConfigEncrypt P m0 size buf len key domain = .ok ⟨none, size⟩ := by
    intro hd
    unfold cConfigEncrypt
    rw [readN_exact hl, readN_exact hk]
    show (match encrypt P (buf.take len) (key.take 32) (cStr domain) with
      | .ok c => Out.ok (toCBuf m0 c)
      | .err _ => .ok ⟨none, size⟩
      | .hang => .hang
      | .ub => .ub) = _
    unfold encrypt makeEncryptKey
    rw [if_neg (by rw [List.length_take]; omega), if_pos (by omega)]
    rfl
  refine ⟨h1, fun hne => ?_⟩
  by_contra hd
  exact hne (h1 (by omega))

/-- **C126.** `config_padded_size`, for all sizes and overheads whose sum is more than 5119 below 2^64: not below the size, less than
one step (256, 1024, 2048, 5120) above it, and with the overhead a multiple of the step; and a message padded to it needs no more
padding. -/
theorem c_padded_size (s o : Nat) (h : s + o + 5119 < 2 ^ 64) :
    cPaddedSize s o = paddedSize s o ∧ s ≤ cPaddedSize s o ∧
    (let step := if s + o < 5120 then 256 else if s + o < 20480 then 1024 else if s + o < 40960 then 2048 else 5120
     step ∣ cPaddedSize s o + o ∧ cPaddedSize s o < s + step) ∧
    (cPaddedSize s o + o + 5119 < 2 ^ 64 → cPaddedSize (cPaddedSize s o) o = cPaddedSize s o) := by
  have key : ∀ s, s + o + 5119 < 2 ^ 64 → cPaddedSize s o = paddedSize s o ∧ s ≤ paddedSize s o := by
    intro s h
    have hs : (s + o) % 2 ^ 64 = s + o := Nat.mod_eq_of_lt (by omega)
    unfold cPaddedSize paddedSize
    dsimp only
    rw [hs]
    generalize hc : (if s + o < 5120 then 256 else if s + o < 20480 then 1024 else if s + o < 40960 then 2048 else 5120) = ch
    have hch : 256 ≤ ch ∧ ch ≤ 5120 := by rw [← hc]; repeat' split
                                          all_goals omega
    rw [Nat.mod_eq_of_lt (show s + o + ch - 1 < 2 ^ 64 by omega)]
    have h1 := Nat.div_add_mod (s + o + ch - 1) ch
    have h2 := Nat.mod_lt (s + o + ch - 1) (show 0 < ch by omega)
    rw [Nat.mul_comm] at h1
    generalize (s + o + ch - 1) / ch * ch = q at *
    have h3 : s + o ≤ q := by omega
    have h4 : q < 2 ^ 64 := by omega
    refine ⟨?_, by omega⟩
    rw [show q + (2 ^ 64 - o) = (q - o) + 2 ^ 64 by omega, Nat.add_mod_right, Nat.mod_eq_of_lt (by omega)]
  obtain ⟨k1, k2⟩ := key s h
  have hstep : (let step := if s + o < 5120 then 256 else if s + o < 20480 then 1024 else if s + o < 40960 then 2048 else 5120
     step ∣ paddedSize s o + o ∧ paddedSize s o < s + step) := by
    unfold paddedSize
    dsimp only
    generalize hc : (if s + o < 5120 then 256 else if s + o < 20480 then 1024 else if s + o < 40960 then 2048 else 5120) = ch
    have hch : 256 ≤ ch ∧ ch ≤ 5120 := by rw [← hc]; repeat' split
                                          all_goals omega
    have h1 := Nat.div_add_mod (s + o + ch - 1) ch
    have h2 := Nat.mod_lt (s + o + ch - 1) (show 0 < ch by omega)
    rw [Nat.mul_comm] at h1
    have hd : ch ∣ (s + o + ch - 1) / ch * ch := Dvd.intro_left _ rfl
    generalize (s + o + ch - 1) / ch * ch = q at *
    refine ⟨?_, by omega⟩
    rw [Nat.sub_add_cancel (by omega)]; exact hd
  refine ⟨k1, by rw [k1]; exact k2, by rw [k1]; exact hstep, fun h' => ?_⟩
  rw [k1] at h' ⊢
  obtain ⟨k3, _⟩ := key _ h'
  rw [k3]
  dsimp only at hstep
  generalize hT : paddedSize s o = T at *
  unfold paddedSize
  dsimp only
  have hgen : ∀ ch, 0 < ch → ch ∣ T + o → (T + o + ch - 1) / ch * ch - o = T := by
    rintro ch hp ⟨q, hq⟩
    rw [hq, show ch * q + ch - 1 = (ch - 1) + ch * q by omega, Nat.add_mul_div_left _ _ hp, Nat.div_eq_of_lt (by omega),
      Nat.zero_add, Nat.mul_comm, ← hq]
    omega
  obtain ⟨hd, hlt⟩ := hstep
  split_ifs at hd hlt ⊢ <;> apply hgen <;> omega

/-- C126 does not hold near the top of `size_t`: the result is then smaller than the message.  Nor is it, as documented, always at
least the size and the overhead together. -/
theorem c_padded_size_limits : (∃ s < 2 ^ 64, cPaddedSize s 40 < s) ∧ (∃ s, cPaddedSize s 40 < s + 40) :=
  ⟨⟨2 ^ 64 - 1, by decide, by decide +kernel⟩, ⟨216, by decide +kernel⟩⟩

/-- **C126.** `session_random`: for every size a buffer with that many of the generator's bytes -/
theorem c_random (m0 : Bool) (rnd : Nat → Bytes) (hr : ∀ n, (rnd n).length = n) (n : Nat) :
    (cRandom m0 rnd n).len = n ∧ (0 < n → (cRandom m0 rnd n).ptr = some (rnd n)) := by
  refine ⟨hr n, fun h => if_neg ?_⟩
  rintro ⟨h1, _⟩
  have := hr n
  rw [h1] at this
  simp at this
  omega

/-! ### Instances -/

example : cConfigEncrypt toyPrims true 7 [1, 0, 2, 9] 3 (List.replicate 32 5) [100, 0, 3] = (cConfigEncrypt toyPrims true 7 [1, 0, 2] 3 (List.replicate 32 5 ++ [8]) [100]) ∧
    (∃ c, cConfigEncrypt toyPrims true 7 [1, 0, 2, 9] 3 (List.replicate 32 5) [100, 0, 3] = .ok ⟨some c, 43⟩ ∧
      cConfigDecrypt toyPrims true 7 c 43 (List.replicate 32 5) [100] = .ok ⟨some [1, 0, 2], 3⟩ ∧
      cConfigDecrypt toyPrims true 7 (c.set 5 1) 43 (List.replicate 32 5) [100] = .ok ⟨none, 7⟩) ∧
    cConfigEncrypt toyPrims true 7 [1] 1 (List.replicate 32 5) [0] = .ok ⟨none, 7⟩ ∧ cPaddedSize 1000 40 = 1240 ∧ cPaddedSize 6000 40 = 6104 := by
  refine ⟨by decide +kernel, ⟨_, rfl, by decide +kernel, by decide +kernel⟩, by decide +kernel, by decide +kernel, by decide +kernel⟩

end Verif
