import Verif.Basic
import Mathlib.Data.ZMod.Basic
import Mathlib.Algebra.Field.ZMod
import Mathlib.Tactic.FieldSimp
import Mathlib.Tactic.LinearCombination

/-!
# Ed25519 as an abstract curve

The libsodium functions used by src/xed25519.cpp, src/blinding.cpp, src/session_encrypt.cpp and the
subaccounts of src/config/groups/keys.cpp.  Scalars are 32 bytes, little-endian, and computed with
concretely; field elements are numbers modulo a prime.  The group of points (the subgroup of prime order)
is a parameter, with the coordinates its encoding consists of.
-/

namespace Verif

/-! ### Little-endian numbers -/

/-- The number given by bytes, least significant first. -/
def leNat : Bytes → Nat
  | [] => 0
  | b :: t => b.toNat + 256 * leNat t

/-- The `n` least significant bytes of a number. -/
def leBytes : Nat → Nat → Bytes
  | 0, _ => []
  | n + 1, x => UInt8.ofNat x :: leBytes n (x / 256)

@[simp] theorem leBytes_length : ∀ (n x : Nat), (leBytes n x).length = n
  | 0, _ => rfl
  | n + 1, x => by simp [leBytes, leBytes_length n]

theorem leNat_leBytes : ∀ (n x : Nat), leNat (leBytes n x) = x % 256 ^ n
  | 0, x => by simp [leNat, leBytes, Nat.mod_one]
  | n + 1, x => by
    rw [leBytes, leNat, leNat_leBytes n, UInt8.toNat_ofNat']
    show x % 256 + 256 * (x / 256 % 256 ^ n) = x % 256 ^ (n + 1)
    rw [Nat.pow_succ, Nat.mul_comm (256 ^ n) 256, Nat.mod_mul]

theorem leNat_leBytes_of_lt {n x : Nat} (h : x < 256 ^ n) : leNat (leBytes n x) = x := by
  rw [leNat_leBytes, Nat.mod_eq_of_lt h]

theorem leNat_lt : ∀ b : Bytes, leNat b < 256 ^ b.length
  | [] => by simp [leNat]
  | b :: t => by
    have := leNat_lt t
    have hb := b.toNat_lt
    rw [leNat, List.length_cons, Nat.pow_succ]
    omega

theorem leBytes_leNat : ∀ b : Bytes, leBytes b.length (leNat b) = b
  | [] => rfl
  | b :: t => by
    have hb := b.toNat_lt
    rw [List.length_cons, leBytes, leNat]
    rw [show (b.toNat + 256 * leNat t) / 256 = leNat t by omega, leBytes_leNat t]
    congr 1
    apply UInt8.toNat_inj.1
    rw [UInt8.toNat_ofNat']
    omega

theorem leBytes_succ : ∀ (n x : Nat), leBytes (n + 1) x = leBytes n x ++ [UInt8.ofNat (x / 256 ^ n)]
  | 0, x => by simp [leBytes]
  | n + 1, x => by
    rw [leBytes, leBytes_succ n, leBytes, List.cons_append, Nat.div_div_eq_div_mul, ← Nat.pow_succ']

theorem leBytes_congr : ∀ {n x y : Nat}, x % 256 ^ n = y % 256 ^ n → leBytes n x = leBytes n y := by
  intro n x y h
  have h1 := leBytes_leNat (leBytes n x)
  have h2 := leBytes_leNat (leBytes n y)
  rw [leBytes_length, leNat_leBytes] at h1 h2
  rw [← h1, ← h2, h]

/-! ### The sign bit -/

/-- `b[31] & 0x80` -/
def sgnBit (b : Bytes) : Bool := decide (128 ≤ b.getD 31 0)

/-- `b[31] &= 0x7f` -/
def clearTop (b : Bytes) : Bytes := b.set 31 (b.getD 31 0 &&& 127)

/-- `b[i] ^= 0x80` -/
def flipTop (i : Nat) (b : Bytes) : Bytes := b.set i (b.getD i 0 ^^^ 128)

theorem leBytes_getD31 (v : Nat) : (leBytes 32 v).getD 31 0 = UInt8.ofNat (v / 256 ^ 31) := by
  rw [leBytes_succ, List.getD_eq_getElem?_getD, List.getElem?_append_right (by simp)]
  simp

theorem leBytes_set31 (v : Nat) (x : UInt8) : (leBytes 32 v).set 31 x = leBytes 31 v ++ [x] := by
  rw [leBytes_succ, List.set_append_right _ _ (by simp)]
  simp

theorem leBytes_join {v w : Nat} {x : UInt8} (h : w % 256 ^ 31 = v % 256 ^ 31) (hx : x = UInt8.ofNat (w / 256 ^ 31)) :
    leBytes 31 v ++ [x] = leBytes 32 w := by
  rw [leBytes_succ 31 w, hx, leBytes_congr h]

theorem sgnBit_leBytes {v : Nat} (h : v < 2 ^ 256) : sgnBit (leBytes 32 v) = decide (2 ^ 255 ≤ v) := by
  unfold sgnBit
  rw [leBytes_getD31]
  have hb : v / 256 ^ 31 < 256 := by
    rw [Nat.div_lt_iff_lt_mul (by positivity)]
    calc v < 2 ^ 256 := h
      _ = 256 * 256 ^ 31 := by norm_num
  congr 1
  rw [UInt8.le_iff_toNat_le, UInt8.toNat_ofNat', Nat.mod_eq_of_lt hb]
  show (128 ≤ v / 256 ^ 31) = (2 ^ 255 ≤ v)
  rw [Nat.le_div_iff_mul_le (by positivity)]
  norm_num

theorem clearTop_leBytes (v : Nat) : clearTop (leBytes 32 v) = leBytes 32 (v % 2 ^ 255) := by
  unfold clearTop
  rw [leBytes_set31, leBytes_getD31]
  refine leBytes_join ?_ ?_
  · rw [show (2 : Nat) ^ 255 = 256 ^ 31 * 128 by norm_num, Nat.mod_mul_right_mod]
  · have hq : v % 2 ^ 255 / 256 ^ 31 = v / 256 ^ 31 % 128 := by
      rw [show (2 : Nat) ^ 255 = 256 ^ 31 * 128 by norm_num, Nat.mod_mul_right_div_self]
    rw [hq]
    apply UInt8.toNat_inj.1
    rw [UInt8.toNat_and, UInt8.toNat_ofNat', UInt8.toNat_ofNat']
    show v / 256 ^ 31 % 2 ^ 8 &&& (2 ^ 7 - 1) = _
    rw [Nat.and_two_pow_sub_one_eq_mod]
    omega

theorem flipTop_leBytes {v : Nat} (h : v < 2 ^ 255) : flipTop 31 (leBytes 32 v) = leBytes 32 (v + 2 ^ 255) ∧
    flipTop 31 (leBytes 32 (v + 2 ^ 255)) = leBytes 32 v := by
  have hx : ∀ b : UInt8, (b ^^^ 128) ^^^ 128 = b := by
    intro b
    rw [UInt8.xor_assoc, UInt8.xor_self, UInt8.xor_zero]
  have hq : v / 256 ^ 31 < 128 := by
    rw [Nat.div_lt_iff_lt_mul (by positivity)]
    calc v < 2 ^ 255 := h
      _ = 128 * 256 ^ 31 := by norm_num
  have hd : (v + 2 ^ 255) / 256 ^ 31 = v / 256 ^ 31 + 128 := by
    rw [show (2 : Nat) ^ 255 = 128 * 256 ^ 31 by norm_num, Nat.add_mul_div_right _ _ (by positivity)]
  have h1 : flipTop 31 (leBytes 32 v) = leBytes 32 (v + 2 ^ 255) := by
    unfold flipTop
    rw [leBytes_set31, leBytes_getD31]
    refine leBytes_join ?_ ?_
    · rw [show (2 : Nat) ^ 255 = 256 ^ 31 * 128 by norm_num, Nat.add_mul_mod_self_left]
    · rw [hd]
      apply UInt8.toNat_inj.1
      rw [UInt8.toNat_xor, UInt8.toNat_ofNat', UInt8.toNat_ofNat', Nat.mod_eq_of_lt (by omega), Nat.mod_eq_of_lt (by omega)]
      show v / 256 ^ 31 ^^^ 128 = v / 256 ^ 31 + 128
      generalize v / 256 ^ 31 = q at hq
      have : ∀ q : Fin 128, q.val ^^^ 128 = q.val + 128 := by decide
      exact this ⟨q, hq⟩
  refine ⟨h1, ?_⟩
  rw [← h1]
  unfold flipTop
  rw [leBytes_set31, List.set_append_right _ _ (by simp), leBytes_getD31]
  have : ((leBytes 31 v ++ [UInt8.ofNat (v / 256 ^ 31) ^^^ 128]).getD 31 0) = UInt8.ofNat (v / 256 ^ 31) ^^^ 128 := by
    rw [List.getD_eq_getElem?_getD, List.getElem?_append_right (by simp)]
    simp
  rw [this, hx]
  simp only [leBytes_length, Nat.sub_self, List.set_cons_zero]
  rw [← leBytes_succ]

/-! ### The curve -/

/-- The group of points of prime order with its coordinates and encoding. -/
structure Curve (G : Type) [AddCommGroup G] where
  /-- the prime of the field, 2²⁵⁵ − 19 -/
  p : Nat
  /-- the order of the group -/
  L : Nat
  /-- the base point -/
  B : G
  /-- the y-coordinate of a point -/
  y : G → ZMod p
  /-- the sign (lowest bit) of the x-coordinate -/
  sgn : G → Bool
  /-- decoding of a point other than the neutral one: `ge25519_frombytes` with the checks for canonical
  encoding, small order and main subgroup -/
  dec : Bytes → Option G
  /-- `crypto_hash_sha512` -/
  sha512 : Bytes → Bytes

variable {G : Type} [AddCommGroup G]

/-- `ge25519_p3_tobytes` -/
def Curve.enc (C : Curve G) (P : G) : Bytes := leBytes 32 ((C.y P).val + if C.sgn P then 2 ^ 255 else 0)

/-- What is known about it. -/
structure Curve.Good (C : Curve G) : Prop where
  pPrime : C.p.Prime
  pOdd : C.p ≠ 2
  pLt : C.p < 2 ^ 255
  LPrime : C.L.Prime
  LLt : C.L < 2 ^ 253
  order : ∀ P : G, C.L • P = 0
  B0 : C.B ≠ 0
  yNeg : ∀ P, C.y (-P) = C.y P
  y0 : ∀ P, C.y P = 1 ↔ P = 0
  sgn0 : C.sgn 0 = false
  sgnNeg : ∀ P, P ≠ 0 → C.sgn (-P) = !C.sgn P
  ySgn : ∀ P Q, C.y P = C.y Q → C.sgn P = C.sgn Q → P = Q
  decEnc : ∀ b P, C.dec b = some P ↔ P ≠ 0 ∧ b = C.enc P

variable (C : Curve G)

/-- `crypto_core_ed25519_scalar_reduce` -/
def Curve.scReduce (b : Bytes) : Bytes := leBytes 32 (leNat b % C.L)

/-- `crypto_core_ed25519_scalar_mul` -/
def Curve.scMul (a b : Bytes) : Bytes := leBytes 32 (leNat a * leNat b % C.L)

/-- `crypto_core_ed25519_scalar_add`: adds modulo 2²⁵⁶ before it reduces. -/
def Curve.scAdd (a b : Bytes) : Bytes := leBytes 32 ((leNat a + leNat b) % 2 ^ 256 % C.L)

/-- `crypto_core_ed25519_scalar_negate`: L·2²⁵⁶ − a, reduced -/
def Curve.scNeg (a : Bytes) : Bytes := leBytes 32 ((C.L * 2 ^ 256 - leNat a) % C.L)

/-- `_crypto_scalarmult_ed25519_clamp` -/
def clampSc (b : Bytes) : Bytes :=
  (b.set 0 (b.getD 0 0 &&& 248)).set 31 ((b.getD 31 0 &&& 127) ||| 64)

/-- `crypto_scalarmult_ed25519_base_noclamp`; its result is also used when it reports failure. -/
def Curve.baseMul (n : Bytes) : Bytes := C.enc ((leNat n % 2 ^ 255) • C.B)

/-- `crypto_scalarmult_ed25519_noclamp`; `none` if it reports failure. -/
def Curve.pointMul [DecidableEq G] (n pt : Bytes) : Option Bytes := match C.dec pt with
  | none => none
  | some P =>
    if (leNat n % 2 ^ 255) • P = 0 then none else some (C.enc ((leNat n % 2 ^ 255) • P))

/-- `fe25519_frombytes` -/
def Curve.fe (b : Bytes) : ZMod C.p := ((leNat b % 2 ^ 255 : Nat) : ZMod C.p)

/-- `fe25519_tobytes` -/
def Curve.feBytes (f : ZMod C.p) : Bytes := leBytes 32 f.val

/-- From the Edwards y-coordinate to the Montgomery u-coordinate: (1 + y) / (1 − y). -/
def montU {p : Nat} (y : ZMod p) : ZMod p := (1 + y) * (1 - y)⁻¹

/-- The inverse (src/xed25519.cpp:24-32, `fe25519_montx_to_edy`): (u − 1) / (u + 1). -/
def edY {p : Nat} (u : ZMod p) : ZMod p := (u - 1) * (u + 1)⁻¹

/-- `crypto_sign_ed25519_pk_to_curve25519` -/
def Curve.edToX (pk : Bytes) : Option Bytes := match C.dec pk with
  | some _ => some (C.feBytes (montU (C.fe pk)))
  | none => none

/-- `xed25519::pubkey` (src/xed25519.cpp:135-144) -/
def Curve.xToEd (x : Bytes) : Bytes := C.feBytes (edY (C.fe x))

/-- `crypto_scalarmult_curve25519_base` -/
def Curve.xBase (a : Bytes) : Bytes := C.feBytes (montU (C.y ((leNat (clampSc a) % 2 ^ 255) • C.B)))

/-- `crypto_sign_ed25519_verify_detached`.  (libsodium also accepts some public keys outside the subgroup
of prime order, which are rejected here.) -/
def Curve.edVerify [DecidableEq G] (pk msg sig : Bytes) : Bool :=
  let R := sig.take 32
  let S := sig.drop 32
  decide (sig.length = 64) && decide (leNat S < C.L) && match C.dec pk, C.dec R with
    | some A, some _ => decide (C.enc (leNat S • C.B - (leNat (C.sha512 (R ++ pk ++ msg)) % C.L) • A) = R)
    | _, _ => false

/-- The construction of a signature from a nonce and a private scalar, which occurs four times
(src/xed25519.cpp:106-112, src/blinding.cpp:330-347, 391-411, src/config/groups/keys.cpp:756-772):
R = rB, S = r + H(R ‖ A ‖ M) a. -/
def Curve.schnorr (r a A msg : Bytes) : Bytes :=
  let R := C.baseMul r
  R ++ C.scAdd (C.scMul (C.scReduce (C.sha512 (R ++ A ++ msg))) a) r

/-- |P|: the one of P and −P with sign 0 -/
def Curve.abs (P : G) : G := if C.sgn P then -P else P

end Verif
