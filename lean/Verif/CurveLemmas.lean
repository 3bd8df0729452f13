import Verif.Curve
import Verif.Hex
import Mathlib.Tactic.Ring
import Mathlib.Tactic.Abel

/-!
# Lemmas about the abstract curve
-/

namespace Verif

variable {G : Type} [AddCommGroup G] {C : Curve G}

theorem Curve.Good.smul_mod (h : C.Good) (n : Nat) (P : G) : (n % C.L) • P = n • P := by
  conv_rhs => rw [← Nat.mod_add_div n C.L, add_nsmul, mul_nsmul, h.order, nsmul_zero, add_zero]

theorem Curve.Good.smul_congr (h : C.Good) {n m : Nat} (e : n % C.L = m % C.L) (P : G) : n • P = m • P := by
  rw [← h.smul_mod n, e, h.smul_mod m]

theorem Curve.Good.smul_eq_zero (h : C.Good) {n : Nat} {P : G} (h0 : n • P = 0) : n % C.L = 0 ∨ P = 0 := by
  by_cases hn : n % C.L = 0
  · exact .inl hn
  right
  have hc : Nat.Coprime n C.L := by
    rw [Nat.coprime_comm, h.LPrime.coprime_iff_not_dvd, Nat.dvd_iff_mod_eq_zero]
    exact hn
  obtain ⟨m, hm⟩ := Nat.exists_mul_mod_eq_one_of_coprime hc h.LPrime.one_lt
  have : (n * m) • P = 1 • P := h.smul_congr (by rw [hm.2, Nat.mod_eq_of_lt h.LPrime.one_lt]) P
  rw [mul_nsmul, h0, nsmul_zero, one_nsmul] at this
  exact this.symm

theorem Curve.Good.yval (h : C.Good) (P : G) : (C.y P).val < C.p := by
  have : NeZero C.p := ⟨h.pPrime.pos.ne'⟩
  exact ZMod.val_lt _

@[simp] theorem Curve.enc_length (P : G) : (C.enc P).length = 32 := leBytes_length _ _

theorem Curve.Good.clearTop_enc (h : C.Good) (P : G) : clearTop (C.enc P) = leBytes 32 (C.y P).val := by
  have hv := lt_trans (h.yval P) h.pLt
  unfold Curve.enc
  rw [clearTop_leBytes]
  cases C.sgn P
  · simp only [Bool.false_eq_true, if_false, Nat.add_zero, Nat.mod_eq_of_lt hv]
  · simp only [if_true, Nat.add_mod_right, Nat.mod_eq_of_lt hv]

theorem Curve.Good.sgnBit_enc (h : C.Good) (P : G) : sgnBit (C.enc P) = C.sgn P := by
  have hv := lt_trans (h.yval P) h.pLt
  unfold Curve.enc
  cases C.sgn P
  · rw [sgnBit_leBytes (by simp only [Bool.false_eq_true, if_false]; omega)]
    simpa using hv
  · rw [sgnBit_leBytes (by simp only [if_true]; omega)]
    simp

theorem Curve.Good.enc_inj (h : C.Good) {P Q : G} (e : C.enc P = C.enc Q) : P = Q := by
  have : NeZero C.p := ⟨h.pPrime.pos.ne'⟩
  have hs : C.sgn P = C.sgn Q := by rw [← h.sgnBit_enc, e, h.sgnBit_enc]
  have hy : leBytes 32 (C.y P).val = leBytes 32 (C.y Q).val := by
    rw [← h.clearTop_enc, e, h.clearTop_enc]
  have hP : (C.y P).val < 256 ^ 32 := lt_trans (lt_trans (h.yval P) h.pLt) (by norm_num)
  have hQ : (C.y Q).val < 256 ^ 32 := lt_trans (lt_trans (h.yval Q) h.pLt) (by norm_num)
  have hn := congrArg leNat hy
  rw [leNat_leBytes_of_lt hP, leNat_leBytes_of_lt hQ] at hn
  exact h.ySgn P Q (ZMod.val_injective _ hn) hs

theorem Curve.Good.dec_enc (h : C.Good) {P : G} (h0 : P ≠ 0) : C.dec (C.enc P) = some P :=
  (h.decEnc _ _).2 ⟨h0, rfl⟩

theorem Curve.Good.enc_neg (h : C.Good) {P : G} (h0 : P ≠ 0) : C.enc (-P) = flipTop 31 (C.enc P) := by
  have hv := lt_trans (h.yval P) h.pLt
  have hf := flipTop_leBytes hv
  unfold Curve.enc
  rw [h.yNeg, h.sgnNeg P h0]
  cases C.sgn P
  · simpa using hf.1.symm
  · simpa using hf.2.symm

theorem Curve.Good.sgn_abs (h : C.Good) (P : G) : C.sgn (C.abs P) = false := by
  unfold Curve.abs
  by_cases hs : C.sgn P
  · have h0 : P ≠ 0 := fun e => by rw [e, h.sgn0] at hs; cases hs
    rw [if_pos hs, h.sgnNeg P h0, hs]; rfl
  · rw [if_neg hs]; simpa using hs

theorem Curve.Good.y_abs (h : C.Good) (P : G) : C.y (C.abs P) = C.y P := by
  unfold Curve.abs
  split
  · exact h.yNeg P
  · rfl

theorem Curve.abs_ne {P : G} (h0 : P ≠ 0) : C.abs P ≠ 0 := by
  unfold Curve.abs
  split
  · simpa using h0
  · exact h0

theorem Curve.Good.abs_eq_or (_h : C.Good) (P : G) : C.abs P = P ∨ C.abs P = -P := by
  unfold Curve.abs
  split
  · exact .inr rfl
  · exact .inl rfl

theorem Curve.Good.enc_abs (h : C.Good) (P : G) : C.enc (C.abs P) = clearTop (C.enc P) := by
  rw [h.clearTop_enc]
  unfold Curve.enc
  rw [h.sgn_abs, h.y_abs]
  simp

theorem Curve.Good.fe_feBytes (h : C.Good) (f : ZMod C.p) : C.fe (C.feBytes f) = f := by
  have : NeZero C.p := ⟨h.pPrime.pos.ne'⟩
  have hv := ZMod.val_lt f
  have hp := h.pLt
  unfold Curve.fe Curve.feBytes
  rw [leNat_leBytes_of_lt (lt_trans (lt_trans hv hp) (by norm_num)), Nat.mod_eq_of_lt (lt_trans hv hp),
    ZMod.natCast_val, ZMod.cast_id]

theorem Curve.Good.fe_enc (h : C.Good) (P : G) : C.fe (C.enc P) = C.y P := by
  have : NeZero C.p := ⟨h.pPrime.pos.ne'⟩
  have hv := lt_trans (h.yval P) h.pLt
  unfold Curve.fe Curve.enc
  have e : ((C.y P).val + if C.sgn P then 2 ^ 255 else 0) % 2 ^ 255 = (C.y P).val := by
    cases C.sgn P
    · simp only [Bool.false_eq_true, if_false, Nat.add_zero, Nat.mod_eq_of_lt hv]
    · simp only [if_true, Nat.add_mod_right, Nat.mod_eq_of_lt hv]
  have hl : ((C.y P).val + if C.sgn P then 2 ^ 255 else 0) < 256 ^ 32 := by
    have : (256 : Nat) ^ 32 = 2 ^ 255 + 2 ^ 255 := by norm_num
    split <;> omega
  rw [leNat_leBytes_of_lt hl, e, ZMod.natCast_val, ZMod.cast_id]

theorem edY_montU {p : Nat} (hp : p.Prime) (h2 : p ≠ 2) {y : ZMod p} (hy : y ≠ 1) : edY (montU y) = y := by
  have : Fact p.Prime := ⟨hp⟩
  have h1 : (1 - y : ZMod p) ≠ 0 := fun e => hy (by linear_combination -e)
  have h20 : (2 : ZMod p) ≠ 0 := by
    intro e
    have : ((2 : Nat) : ZMod p) = 0 := by exact_mod_cast e
    rw [ZMod.natCast_eq_zero_iff] at this
    exact h2 ((Nat.prime_dvd_prime_iff_eq hp Nat.prime_two).1 this)
  unfold edY montU
  have e1 : (1 + y) * (1 - y)⁻¹ + 1 = 2 * (1 - y)⁻¹ := by field_simp; ring
  have e2 : (1 + y) * (1 - y)⁻¹ - 1 = 2 * y * (1 - y)⁻¹ := by field_simp; ring
  rw [e1, e2]
  field_simp

/-- The x25519 key of a point gives back its absolute value. -/
theorem Curve.Good.xToEd_montU (h : C.Good) {P : G} (h0 : P ≠ 0) :
    C.xToEd (C.feBytes (montU (C.y P))) = C.enc (C.abs P) := by
  have hy : C.y P ≠ 1 := fun e => h0 ((h.y0 P).1 e)
  unfold Curve.xToEd
  rw [h.fe_feBytes, edY_montU h.pPrime h.pOdd hy, h.enc_abs, h.clearTop_enc]
  rfl

theorem Curve.Good.edToX_enc (h : C.Good) {P : G} (h0 : P ≠ 0) :
    C.edToX (C.enc P) = some (C.feBytes (montU (C.y P))) := by
  unfold Curve.edToX
  rw [h.dec_enc h0, h.fe_enc]

theorem Curve.Good.dec_some (h : C.Good) {b : Bytes} {P : G} (e : C.dec b = some P) : P ≠ 0 ∧ b = C.enc P :=
  (h.decEnc _ _).1 e

theorem Curve.Good.edToX_some (h : C.Good) {b x : Bytes} (e : C.edToX b = some x) :
    ∃ P, P ≠ 0 ∧ b = C.enc P ∧ x = C.feBytes (montU (C.y P)) := by
  unfold Curve.edToX at e
  split at e
  · rename_i P hP
    obtain ⟨h0, hb⟩ := h.dec_some hP
    rw [hb, h.fe_enc] at e
    exact ⟨P, h0, hb, (Option.some.inj e).symm⟩
  · cases e

/-! ### Scalars -/

theorem Curve.Good.lt256 (h : C.Good) (n : Nat) : n % C.L < 256 ^ 32 :=
  lt_trans (lt_trans (Nat.mod_lt _ h.LPrime.pos) h.LLt) (by norm_num)

theorem Curve.Good.leNat_scReduce (h : C.Good) (b : Bytes) : leNat (C.scReduce b) = leNat b % C.L :=
  leNat_leBytes_of_lt (h.lt256 _)

theorem Curve.Good.leNat_scMul (h : C.Good) (a b : Bytes) : leNat (C.scMul a b) = leNat a * leNat b % C.L :=
  leNat_leBytes_of_lt (h.lt256 _)

theorem Curve.Good.leNat_scNeg (h : C.Good) (a : Bytes) : leNat (C.scNeg a) = (C.L * 2 ^ 256 - leNat a) % C.L :=
  leNat_leBytes_of_lt (h.lt256 _)

theorem Curve.Good.leNat_scAdd (h : C.Good) {a b : Bytes} (ha : leNat a < C.L) (hb : leNat b < C.L) :
    leNat (C.scAdd a b) = (leNat a + leNat b) % C.L := by
  have hL := h.LLt
  unfold Curve.scAdd
  rw [leNat_leBytes_of_lt (h.lt256 _), Nat.mod_eq_of_lt (a := leNat a + leNat b)]
  have : (2 : Nat) ^ 256 = 2 ^ 253 * 8 := by norm_num
  omega

theorem Curve.Good.small (h : C.Good) {n : Nat} (hn : n < C.L) : n % 2 ^ 255 = n :=
  Nat.mod_eq_of_lt (lt_trans (lt_trans hn h.LLt) (by norm_num))

theorem Curve.Good.baseMul_small (h : C.Good) {n : Bytes} (hn : leNat n < C.L) : C.baseMul n = C.enc (leNat n • C.B) := by
  unfold Curve.baseMul
  rw [h.small hn]

theorem Curve.Good.scNeg_smul (h : C.Good) {a : Bytes} (ha : a.length = 32) (P : G) :
    leNat (C.scNeg a) • P = -(leNat a • P) := by
  have hlt : leNat a < 2 ^ 256 := by
    have := leNat_lt a
    rw [ha] at this
    exact lt_of_lt_of_eq this (by norm_num)
  have hle : leNat a ≤ C.L * 2 ^ 256 := le_trans hlt.le (Nat.le_mul_of_pos_left _ h.LPrime.pos)
  rw [h.leNat_scNeg, h.smul_mod]
  apply eq_neg_of_add_eq_zero_left
  rw [← add_nsmul, Nat.sub_add_cancel hle, mul_nsmul, h.order, nsmul_zero]

/-- A clamped scalar lies between 2²⁵⁴ and 2²⁵⁵ and is a multiple of eight, so that — the order of the real
group being larger than 2²⁵² — no clamped multiple of the base point is neutral. -/
theorem clamp_form {b : Bytes} (hb : b.length = 32) :
    leNat (clampSc b) < 2 ^ 255 ∧ 2 ^ 254 ≤ leNat (clampSc b) ∧ leNat (clampSc b) % 8 = 0 := by
  obtain ⟨m, z, t, hz, rfl⟩ : ∃ (m : Bytes) (z t : UInt8), m.length = 30 ∧ b = z :: m ++ [t] := by
    match b, hb with
    | z :: r, hb =>
      have hr : r ≠ [] := by intro e; rw [e] at hb; simp at hb
      refine ⟨r.dropLast, z, r.getLast hr, by simp at hb ⊢; omega, ?_⟩
      rw [List.cons_append, List.dropLast_append_getLast hr]
  have hc : clampSc (z :: m ++ [t]) = (z &&& 248) :: m ++ [(t &&& 127) ||| 64] := by
    unfold clampSc
    have h31 : (z :: m ++ [t]).getD 31 0 = t := by
      rw [List.getD_eq_getElem?_getD, List.getElem?_append_right (by simp [hz])]
      simp [hz]
    rw [h31]
    show ((z &&& 248) :: (m ++ [t])).set 31 _ = _
    rw [List.set_cons_succ, List.set_append_right _ _ (by simp [hz])]
    simp [hz]
  have hm := leNat_lt m
  rw [hz] at hm
  have hap : ∀ (l : Bytes) (x : UInt8), leNat (l ++ [x]) = leNat l + 256 ^ l.length * x.toNat := by
    intro l x
    induction l with
    | nil => simp [leNat]
    | cons a l ih => simp only [List.cons_append, leNat, ih, List.length_cons, Nat.pow_succ]; ring
  have ht : ((t &&& 127) ||| 64).toNat < 128 ∧ 64 ≤ ((t &&& 127) ||| 64).toNat :=
    forall_uint8 (P := fun t => ((t &&& 127) ||| 64).toNat < 128 ∧ 64 ≤ ((t &&& 127) ||| 64).toNat) (by decide +kernel) t
  have hz8 : (z &&& 248).toNat % 8 = 0 ∧ (z &&& 248).toNat < 256 :=
    ⟨forall_uint8 (P := fun z => (z &&& 248).toNat % 8 = 0) (by decide +kernel) z, UInt8.toNat_lt _⟩
  rw [hc, List.cons_append, leNat, hap, hz]
  generalize ((t &&& 127) ||| 64).toNat = T at ht
  generalize (z &&& 248).toNat = Z at hz8
  generalize leNat m = M at hm
  norm_num at hm ⊢
  omega

/-- A clamped multiple of the base point is not neutral when the order is that of the real group. -/
theorem Curve.Good.clamped_ne (h : C.Good) (hL : 2 ^ 252 < C.L) {b : Bytes} (hb : b.length = 32) :
    leNat (clampSc b) • C.B ≠ 0 := by
  intro e
  obtain ⟨h1, h2, h3⟩ := clamp_form hb
  rcases h.smul_eq_zero e with h0 | h0
  · have hd : C.L ∣ leNat (clampSc b) := Nat.dvd_of_mod_eq_zero h0
    have he : leNat (clampSc b) = 8 * (leNat (clampSc b) / 8) := by omega
    rw [he] at hd
    have h8 : Nat.Coprime C.L 8 := by
      rw [h.LPrime.coprime_iff_not_dvd]
      intro hd8
      have := Nat.le_of_dvd (by norm_num) hd8
      omega
    have hd' := h8.dvd_of_dvd_mul_left hd
    have := Nat.le_of_dvd (by omega) hd'
    omega
  · exact h.B0 h0

/-! ### Signatures -/

theorem Curve.schnorr_length (r a A msg : Bytes) : (C.schnorr r a A msg).length = 64 := by
  simp [Curve.schnorr, Curve.baseMul, Curve.scAdd]

/-- A signature with a nonce and a private scalar that are both not zero verifies under its public point. -/
theorem Curve.Good.schnorr_verifies [DecidableEq G] (h : C.Good) {r a msg : Bytes} {P : G} (hr : leNat r < C.L)
    (hr0 : leNat r ≠ 0) (hP : P ≠ 0) (ha : leNat a • C.B = P) :
    C.edVerify (C.enc P) msg (C.schnorr r a (C.enc P) msg) = true := by
  have hrB : leNat r • C.B ≠ 0 := by
    intro e
    rcases h.smul_eq_zero e with h0 | h0
    · rw [Nat.mod_eq_of_lt hr] at h0; exact hr0 h0
    · exact h.B0 h0
  have hL := h.LPrime.pos
  unfold Curve.edVerify
  have hlen := Curve.schnorr_length (C := C) r a (C.enc P) msg
  have hbl : (C.baseMul r).length = 32 := by simp [Curve.baseMul]
  have htake : (C.schnorr r a (C.enc P) msg).take 32 = C.baseMul r := by
    unfold Curve.schnorr
    rw [List.take_append_of_le_length (by rw [hbl])]
    exact List.take_of_length_le (by rw [hbl])
  have hdrop : (C.schnorr r a (C.enc P) msg).drop 32 =
      C.scAdd (C.scMul (C.scReduce (C.sha512 (C.baseMul r ++ C.enc P ++ msg))) a) r := by
    unfold Curve.schnorr
    exact List.drop_left' hbl
  dsimp only
  rw [htake, hdrop, hlen, h.leNat_scAdd (by rw [h.leNat_scMul]; exact Nat.mod_lt _ hL) hr, h.leNat_scMul,
    h.leNat_scReduce, h.baseMul_small hr, h.dec_enc hP, h.dec_enc hrB]
  simp only [decide_true, Bool.true_and, Bool.and_eq_true, decide_eq_true_eq]
  refine ⟨Nat.mod_lt _ hL, ?_⟩
  congr 1
  rw [h.smul_mod, add_nsmul, h.smul_mod, Nat.mul_comm, mul_nsmul, ha]
  abel

end Verif
