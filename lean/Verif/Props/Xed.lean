import Verif.BlindingLemmas

/-!
# XEd25519 signatures (C76)
-/

namespace Verif

variable {G : Type} [AddCommGroup G] [DecidableEq G] {C : SCurve G}

theorem SCurve.Good.xedA_eq (h : C.Good) {x : Bytes} (hx : x.length = 32) :
    C.xedA x = C.enc (leNat (clampSc x) • C.B) := by
  unfold SCurve.xedA Curve.baseMul
  rw [Nat.mod_eq_of_lt (clamp_form hx).1]

theorem SCurve.Good.xBase_eq (_h : C.Good) {x : Bytes} (hx : x.length = 32) :
    C.xBase x = C.feBytes (montU (C.y (leNat (clampSc x) • C.B))) := by
  unfold Curve.xBase
  rw [Nat.mod_eq_of_lt (clamp_form hx).1]

theorem SCurve.Good.xToEd_xBase (h : C.Good) {x : Bytes} (hx : x.length = 32) (hA : leNat (clampSc x) • C.B ≠ 0) :
    C.xToEd (C.xBase x) = clearTop (C.xedA x) := by
  rw [h.xBase_eq hx, h.c.xToEd_montU hA, h.xedA_eq hx, h.c.enc_abs]

theorem SCurve.Good.xedNonce_lt (h : C.Good) (x msg z : Bytes) : leNat (C.xedNonce x msg z) < C.L := by
  unfold SCurve.xedNonce
  rw [h.c.leNat_scReduce]
  exact Nat.mod_lt _ h.c.LPrime.pos

/-- The scalar the signature is made with is that of the public key with sign 0, provided the private key
and its clamped form are the same modulo the order. -/
theorem SCurve.Good.xedScalar_smul (h : C.Good) {x : Bytes} (hx : x.length = 32)
    (hcl : leNat x % C.L = leNat (clampSc x) % C.L) : leNat (C.xedScalar x) • C.B = C.abs (leNat (clampSc x) • C.B) := by
  unfold SCurve.xedScalar Curve.abs
  rw [h.xedA_eq hx, h.c.sgnBit_enc]
  split
  · rw [h.c.scNeg_smul hx, h.c.smul_congr hcl]
  · rw [h.c.smul_congr hcl]

/-- C76.  For every x25519 private key that is clamped, message and random bytes: `xed25519::verify` accepts
what `xed25519::sign` returns under the x25519 public key of the private key (unless the nonce comes out
as 0; then the signature is `R` = neutral element, which libsodium rejects). -/
theorem xed_roundtrip (h : C.Good) {x msg z : Bytes} (hx : x.length = 32) (hcl : clampSc x = x)
    (hA : leNat x • C.B ≠ 0) (hr : leNat (C.xedNonce x msg z) ≠ 0) :
    C.xedVerify (C.xedSign x msg z) (C.xBase x) msg = true := by
  have hA' : leNat (clampSc x) • C.B ≠ 0 := by rw [hcl]; exact hA
  unfold SCurve.xedVerify SCurve.xedSign
  rw [h.xToEd_xBase hx hA', h.xedA_eq hx, ← h.c.enc_abs]
  exact h.c.schnorr_verifies (h.xedNonce_lt x msg z) hr (Curve.abs_ne hA') (h.xedScalar_smul hx (by rw [hcl]))

/-- C76.  In particular the private key of an account (derived from its ed25519 seed) signs, and the account's
session id verifies. -/
theorem xed_account (h : C.Good) {seed sk X msg z : Bytes} (hk : C.IsKey seed sk) (hX : C.edToX (C.enc (C.pub seed)) = some X)
    (hr : leNat (C.xedNonce (C.edScalar sk) msg z) ≠ 0) :
    C.xedVerify (C.xedSign (C.edScalar sk) msg z) X msg = true := by
  obtain ⟨hs, hk⟩ := hk
  have he : C.edScalar sk = C.edScalar seed := by
    rcases hk with rfl | rfl
    · rfl
    · exact h.edScalar_edSk hs
  rw [he] at hr ⊢
  obtain ⟨P, h0, e1, e2⟩ := h.c.edToX_some hX
  have e1 := h.c.enc_inj e1
  subst e1
  have hx := h.edScalar_length seed
  have : C.xBase (C.edScalar seed) = X := by
    rw [h.xBase_eq hx, h.edScalar_clamped, e2]
    rfl
  rw [← this]
  exact xed_roundtrip h hx (h.edScalar_clamped seed) h0 hr

/-- C76.  `xed25519::pubkey` of the x25519 form of an ed25519 public key is the ed25519 public key with the
sign cleared, and has the same x25519 form. -/
theorem xed_pubkey (h : C.Good) {pk X : Bytes} (hX : C.edToX pk = some X) :
    C.xToEd X = clearTop pk ∧ C.edToX (C.xToEd X) = some X := by
  obtain ⟨P, h0, rfl, rfl⟩ := h.c.edToX_some hX
  rw [h.c.xToEd_montU h0]
  refine ⟨h.c.enc_abs P, ?_⟩
  rw [h.c.edToX_enc (Curve.abs_ne h0), h.c.y_abs]

/-- Verification of a signature made with another scalar than that of the public key. -/
theorem Curve.Good.schnorr_rejected {C : Curve G} (h : C.Good) {r a msg : Bytes} {P : G} (hr : leNat r < C.L)
    (ha : leNat a • C.B ≠ P)
    (hh : leNat (C.sha512 (C.baseMul r ++ C.enc P ++ msg)) % C.L ≠ 0) :
    C.edVerify (C.enc P) msg (C.schnorr r a (C.enc P) msg) = false := by
  have hL := h.LPrime.pos
  rw [Bool.eq_false_iff]
  intro hv
  unfold Curve.edVerify at hv
  have hbl : (C.baseMul r).length = 32 := by simp [Curve.baseMul]
  have htake : (C.schnorr r a (C.enc P) msg).take 32 = C.baseMul r := by
    unfold Curve.schnorr
    rw [List.take_append_of_le_length (by rw [hbl])]
    exact List.take_of_length_le (by rw [hbl])
  have hdrop : (C.schnorr r a (C.enc P) msg).drop 32 =
      C.scAdd (C.scMul (C.scReduce (C.sha512 (C.baseMul r ++ C.enc P ++ msg))) a) r := by
    unfold Curve.schnorr
    exact List.drop_left' hbl
  dsimp only at hv
  rw [htake, hdrop, h.leNat_scAdd (by rw [h.leNat_scMul]; exact Nat.mod_lt _ hL) hr, h.leNat_scMul,
    h.leNat_scReduce] at hv
  simp only [Bool.and_eq_true] at hv
  obtain ⟨_, hv⟩ := hv
  split at hv
  · rename_i A R hA hR
    obtain ⟨_, hA⟩ := h.dec_some hA
    have hA := h.enc_inj hA
    subst hA
    rw [decide_eq_true_eq, h.baseMul_small hr] at hv
    have hv := h.enc_inj hv
    rw [h.smul_mod, add_nsmul, h.smul_mod, Nat.mul_comm, mul_nsmul] at hv
    rw [h.baseMul_small hr] at hh
    generalize hm : leNat (C.sha512 (C.enc (leNat r • C.B) ++ C.enc P ++ msg)) % C.L = m at hv hh
    have he : m • (leNat a • C.B - P) = 0 := by
      rw [nsmul_sub]
      have : m • (leNat a • C.B) + leNat r • C.B - m • P - leNat r • C.B = 0 := by rw [hv, sub_self]
      rw [← this]
      abel
    rcases h.smul_eq_zero he with h0 | h0
    · rw [← hm, Nat.mod_mod, hm] at h0
      exact hh h0
    · exact ha (sub_eq_zero.1 h0)
  · cases hv

/-- C76 (a case where the expected behaviour fails).  `sign` computes the public key from the clamped private
key but signs with the private key as it is given: for a private key that is not congruent to its clamped form
(every key of `crypto_box_keypair` that happens not to be clamped, which x25519 itself accepts) `verify` rejects
the signature, whatever the message and the random bytes (unless the hash of the signature is 0 modulo the
order). -/
theorem xed_unclamped_fails (h : C.Good) {x msg z : Bytes} (hx : x.length = 32)
    (hcl : leNat x % C.L ≠ leNat (clampSc x) % C.L) (hA : leNat (clampSc x) • C.B ≠ 0)
    (hh : leNat (C.sha512 ((C.xedSign x msg z).take 32 ++ C.xToEd (C.xBase x) ++ msg)) % C.L ≠ 0) :
    C.xedVerify (C.xedSign x msg z) (C.xBase x) msg = false := by
  unfold SCurve.xedVerify
  have hbl : (C.baseMul (C.xedNonce x msg z)).length = 32 := by simp [Curve.baseMul]
  have ht : (C.xedSign x msg z).take 32 = C.baseMul (C.xedNonce x msg z) := by
    unfold SCurve.xedSign Curve.schnorr
    rw [List.take_append_of_le_length (by rw [hbl])]
    exact List.take_of_length_le (by rw [hbl])
  rw [ht, h.xToEd_xBase hx hA, h.xedA_eq hx, ← h.c.enc_abs] at hh
  unfold SCurve.xedSign
  rw [h.xToEd_xBase hx hA, h.xedA_eq hx, ← h.c.enc_abs]
  refine h.c.schnorr_rejected (h.xedNonce_lt x msg z) ?_ hh
  intro e
  apply hcl
  have hne : ∀ n m : Nat, n • C.B = m • C.B → n % C.L = m % C.L := by
    intro n m hnm
    by_contra hc
    have key : ∀ {u v : Nat}, u ≤ v → u • C.B = v • C.B → u % C.L = v % C.L := by
      intro u v huv he
      have h0 : (v - u) • C.B = 0 := by
        have : (v - u) • C.B + u • C.B = v • C.B := by rw [← add_nsmul, Nat.sub_add_cancel huv]
        rw [← he] at this
        exact left_eq_add.1 (by rw [add_comm]; exact this.symm)
      rcases h.c.smul_eq_zero h0 with hz | hz
      · exact (Nat.modEq_iff_dvd' huv).2 (Nat.dvd_of_mod_eq_zero hz)
      · exact absurd hz h.c.B0
    rcases Nat.le_total n m with hle | hle
    · exact hc (key hle hnm)
    · exact hc (key hle hnm.symm).symm
  unfold SCurve.xedScalar Curve.abs at e
  rw [h.xedA_eq hx, h.c.sgnBit_enc] at e
  split at e
  · rw [h.c.scNeg_smul hx, neg_inj] at e
    exact hne _ _ e
  · exact hne _ _ e

/-! ### Examples -/

/-- A clamped private key -/
def toyX : Bytes := clampSc (leBytes 32 40)

/-- One that is not clamped -/
def toyXu : Bytes := leBytes 32 42

/-- A seed -/
def toySeed : Bytes := leBytes 32 1

example : toyCurve.xedVerify (toyCurve.xedSign toyX [1, 2] [3]) (toyCurve.xBase toyX) [1, 2] = true :=
  xed_roundtrip toyCurve_good (by decide) (by decide +kernel) (by decide +kernel) (by decide +kernel)

example : toyCurve.xedVerify (toyCurve.xedSign toyXu [1, 2] [3]) (toyCurve.xBase toyXu) [1, 2] = false :=
  xed_unclamped_fails toyCurve_good (by decide) (by decide +kernel) (by decide +kernel) (by
    rw [toyCurve_good.xToEd_xBase (by decide) (by decide +kernel)]
    decide +kernel)

example : ∃ X, toyCurve.edToX (toyCurve.enc (toyCurve.pub toySeed)) = some X :=
  ⟨_, toyCurve0_good.edToX_enc (by decide +kernel)⟩

example : ∃ X, toyCurve.xedVerify (toyCurve.xedSign (toyCurve.edScalar toySeed) [9] [3]) X [9] = true :=
  ⟨_, xed_account toyCurve_good ⟨by decide, .inl rfl⟩ (toyCurve0_good.edToX_enc (by decide +kernel)) (by decide +kernel)⟩

end Verif
