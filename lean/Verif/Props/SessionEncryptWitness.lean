import Verif.Props.SessionEncrypt
import Mathlib.NumberTheory.LucasPrimality

/-!
# A sender id that is not the sender's (C81)

The small group with coordinates in a large field, so that two points have encodings which differ only in the
bit that `decrypt_from_blinded_recipient` changes.
-/

namespace Verif

/-- A prime of 253 bits -/
def bigP : Nat := 2 ^ 235 * 3 ^ 11 + 1

/-- Repeated squaring -/
def sqIter (p : Nat) : Nat → Nat → Nat
  | 0, x => x
  | k + 1, x => sqIter p k (x * x % p)

theorem sqIter_eq (p : Nat) : ∀ k x, ((sqIter p k x : Nat) : ZMod p) = (x : ZMod p) ^ 2 ^ k
  | 0, x => by simp [sqIter]
  | k + 1, x => by
    rw [sqIter, sqIter_eq p k, ZMod.natCast_mod, Nat.cast_mul, ← pow_two, ← pow_mul, pow_succ']

theorem bigP_pow (n k : Nat) : ((5 : Nat) : ZMod bigP) ^ (2 ^ k * 3 ^ n) = ((sqIter bigP k (5 ^ 3 ^ n % bigP) : Nat) : ZMod bigP) := by
  rw [sqIter_eq, ZMod.natCast_mod, Nat.cast_pow, ← pow_mul, Nat.mul_comm]

theorem bigP_prime : bigP.Prime := by
  have hp : bigP - 1 = 2 ^ 235 * 3 ^ 11 := rfl
  refine lucas_primality bigP ((5 : Nat) : ZMod bigP) ?_ ?_
  · rw [hp, bigP_pow, show sqIter bigP 235 (5 ^ 3 ^ 11 % bigP) = 1 by decide +kernel, Nat.cast_one]
  · intro q hq hd
    rw [hp] at hd ⊢
    have ne : ∀ {v : Nat}, v < bigP → v ≠ 1 → (v : ZMod bigP) ≠ 1 := by
      intro v hv h1 e
      rw [← Nat.cast_one, ZMod.natCast_eq_natCast_iff', Nat.mod_eq_of_lt hv, Nat.mod_eq_of_lt (by decide +kernel)] at e
      exact h1 e
    rcases (Nat.Prime.dvd_mul hq).1 hd with h | h
    · have := (Nat.prime_dvd_prime_iff_eq hq Nat.prime_two).1 (hq.dvd_of_dvd_pow h)
      subst this
      rw [show 2 ^ 235 * 3 ^ 11 / 2 = 2 ^ 234 * 3 ^ 11 by decide +kernel, bigP_pow]
      exact ne (by decide +kernel) (by decide +kernel)
    · have := (Nat.prime_dvd_prime_iff_eq hq Nat.prime_three).1 (hq.dvd_of_dvd_pow h)
      subst this
      rw [show 2 ^ 235 * 3 ^ 11 / 3 = 2 ^ 235 * 3 ^ 10 by decide +kernel, bigP_pow]
      exact ne (by decide +kernel) (by decide +kernel)

/-- Coordinates which differ in one bit -/
def bigY (P : Five) : ZMod bigP := if P = 0 then 1 else if P = 1 ∨ P = 4 then 2 else ((2 + 2 ^ 247 : Nat) : ZMod bigP)

/-- The group of five points over the large field -/
def bigCurve0 : Curve Five where
  p := bigP
  L := 5
  B := 1
  y := bigY
  sgn P := decide (P = 3 ∨ P = 4)
  dec b := [1, 2, 3, 4].find? fun P => leBytes 32 ((bigY P).val + if decide (P = 3 ∨ P = 4) then 2 ^ 255 else 0) == b
  sha512 := toyCurve0.sha512

def bigCurve : SCurve Five where
  toCurve := bigCurve0
  blake := toyCurve.blake
  blakeP := toyCurve.blakeP

theorem bigCurve0_good : bigCurve0.Good where
  pPrime := bigP_prime
  pOdd := by show bigP ≠ 2; decide +kernel
  pLt := by show bigP < 2 ^ 255; decide +kernel
  LPrime := by show Nat.Prime 5; exact Nat.prime_five
  LLt := by show 5 < 2 ^ 253; norm_num
  order := toyCurve0_good.order
  B0 := toyCurve0_good.B0
  yNeg := by decide +kernel
  y0 := by decide +kernel
  sgn0 := by decide
  sgnNeg := by decide
  ySgn := by decide +kernel
  decEnc := by
    have key : ∀ P Q : Five, bigCurve0.enc P = bigCurve0.enc Q → P = Q := by decide +kernel
    intro b P
    show [1, 2, 3, 4].find? (fun P => bigCurve0.enc P == b) = some P ↔ _
    constructor
    · intro e
      have h1 := List.find?_some e
      have h2 := List.mem_of_find?_eq_some e
      refine ⟨?_, ((by simpa using h1 : bigCurve0.enc P = b)).symm⟩
      rintro rfl
      revert h2
      decide
    · rintro ⟨h0, rfl⟩
      have : ∀ P : Five, P ≠ 0 → [1, 2, 3, 4].find? (fun Q => bigCurve0.enc Q == bigCurve0.enc P) = some P := by
        decide +kernel
      exact this P h0


theorem bigCurve_good : bigCurve.Good where
  c := bigCurve0_good
  shaLen := toyCurve_good.shaLen
  blakeLen := toyCurve_good.blakeLen

/-- With the ciphers of `toyE`; the x25519 exchange is not used. -/
def bigE : ECurve Five where
  toSCurve := bigCurve
  x25519 _ _ := some []
  box := toyM.aead
  boxOpen := toyM.aeadOpen
  aead := toyM.aead
  aeadOpen := toyM.aeadOpen

theorem bigE_good : bigE.Good where
  s := bigCurve_good
  dh := fun _ _ _ _ => rfl
  dhOk := fun _ _ _ _ _ _ => by simp [bigE]
  boxLen := toyM_good.aeadLen
  openBox := toyM_good.openSeal
  boxOpen := toyM_good.sealOpen
  aeadLen := toyM_good.aeadLen
  openSeal := toyM_good.openSeal
  sealOpen := toyM_good.sealOpen

/-- The 15-blinded id of an account -/
def bigId15 (seed : Bytes) : Bytes := 0x15 :: bigE.enc (leNat (bigE.factor15 toyServer) • bigE.pub seed)

/-- A recipient -/
def bigRecipient : Bytes := leBytes 32 10

/-- What the account `toySeed` encrypts to the recipient if it gives the public key of `toySeed2` as its own:
it does so with its own key, and knows nothing secret of `toySeed2`. -/
def bigForged : Bytes := match bigE.blindedSecret toySeed (bigId15 toySeed) (bigId15 bigRecipient) toyServer true with
  | .ok key => 0 :: (bigE.aead key toyNonce24 ([1, 2, 3] ++ bigE.enc (bigE.pub toySeed2)) ++ toyNonce24)
  | _ => []

/-- C81 fails for 15-blinded senders: a message from one account's blinded id is accepted and reported as sent
by the session id of another account, whose blinded id it is not, and which `session_id_matches_blinded_id`
rejects. -/
theorem blinded15_forged : ∃ X, bigE.edToX (bigE.enc (bigE.pub toySeed2)) = some X ∧
    bigE.blind15FromEd (bigE.enc (bigE.pub toySeed)) toyServer false = .ok (bigId15 toySeed) ∧
    bigE.blind15FromEd (bigE.enc (bigE.pub bigRecipient)) toyServer false = .ok (bigId15 bigRecipient) ∧
    bigE.decryptBlinded bigRecipient toyServer (bigId15 toySeed) (bigId15 bigRecipient) bigForged =
      .ok ([1, 2, 3], asc ['0', '5'] ++ toHex X) ∧
    bigE.sidMatches (asc ['0', '5'] ++ toHex X) (toHex (bigId15 toySeed)) (toHex toyServer) = .ok false :=
  ⟨bigE.feBytes (montU (bigE.y (bigE.pub toySeed2))), by decide +kernel, by decide +kernel, by decide +kernel, by decide +kernel,
    by decide +kernel⟩

end Verif
