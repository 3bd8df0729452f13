import Verif.Subaccount
import Verif.Props.Blinding

/-!
# Group subaccounts (C79)
-/

namespace Verif

variable {G : Type} [AddCommGroup G] [DecidableEq G] {C : SCurve G}

theorem sidPk_of {X pre : Bytes} {c : UInt8} (hX : X.length = 32) (hp : toHex [c] = pre) : sidPk (toHex (c :: X)) pre = .ok X := by
  have e : toHex (c :: X) = pre ++ toHex X := by rw [← hp]; rfl
  have hl : pre.length = 2 := by rw [← hp]; rfl
  unfold sidPk checkId
  rw [e, List.length_append, toHex_length, hX, hl, ← e, toHex_isHex, e, List.take_append_of_le_length (by rw [hl]),
    List.take_of_length_le (by rw [hl]), List.drop_left' hl, fromHex_toHex]
  simp

theorem Out.ok_bind {α β : Type} (a : α) (f : α → Out β) : (Out.ok a).bind f = f a := rfl

theorem sidPk05 {X : Bytes} (hX : X.length = 32) : sidPk (toHex (5 :: X)) (asc ['0', '5']) = .ok X := sidPk_of hX rfl

theorem sidPk03 {X : Bytes} (hX : X.length = 32) : sidPk (toHex (3 :: X)) (asc ['0', '3']) = .ok X := sidPk_of hX rfl

theorem SCurve.Good.subFactor_lt (h : C.Good) (sk pk X : Bytes) : leNat (C.subFactor sk pk X) < C.L := by
  unfold SCurve.subFactor
  rw [h.c.leNat_scReduce]
  exact Nat.mod_lt _ h.c.LPrime.pos

theorem SCurve.subFactor_length (sk pk X : Bytes) : (C.subFactor sk pk X).length = 32 := leBytes_length _ _

theorem Curve.edSign_length {C : Curve G} (sk msg : Bytes) : (C.edSign sk msg).length = 64 := Curve.schnorr_length _ _ _ _

/-- An ordinary signature verifies. -/
theorem SCurve.Good.edSign_verifies (h : C.Good) {seed msg : Bytes} (hs : seed.length = 32) (h0 : C.pub seed ≠ 0)
    (hr : leNat (C.edNonce (C.edSk seed) msg) ≠ 0) : C.edVerify (C.enc (C.pub seed)) msg (C.edSign (C.edSk seed) msg) = true := by
  unfold Curve.edSign
  rw [h.edSk_drop hs]
  refine h.c.schnorr_verifies ?_ hr h0 (h.keyScalar hs)
  unfold Curve.edNonce
  rw [h.c.leNat_scReduce]
  exact Nat.mod_lt _ h.c.LPrime.pos

/-- The point of the member's token: k|S| -/
theorem SCurve.Good.subPoint (h : C.Good) {seed X k : Bytes} (hs : seed.length = 32) (hX : C.edToX (C.enc (C.pub seed)) = some X)
    (hk : leNat k < C.L) (hk0 : leNat k ≠ 0) :
    C.pointMul k (C.xToEd X) = some (C.enc (leNat k • C.abs (C.pub seed))) ∧
      C.pointMul k (clearTop ((C.edSk seed).drop 32)) = some (C.enc (leNat k • C.abs (C.pub seed))) := by
  obtain ⟨P, h0, e, rfl⟩ := h.c.edToX_some hX
  have e := h.c.enc_inj e
  subst e
  have hm := h.pointMul_enc hk hk0 (Curve.abs_ne (C := C.toCurve) h0)
  rw [h.c.xToEd_montU h0, h.edSk_drop hs, ← h.c.enc_abs]
  exact ⟨hm, hm⟩

theorem SCurve.Good.subScalar_smul (h : C.Good) {seed k : Bytes} (hs : seed.length = 32) :
    leNat (C.subScalar (C.edSk seed) k) • C.B = leNat k • C.abs (C.pub seed) := by
  unfold SCurve.subScalar Curve.abs
  rw [h.edSk_drop hs, h.c.sgnBit_enc, h.scMul_smul]
  split
  · rw [h.c.scNeg_smul (h.edScalar_length _), h.keyScalar hs]
  · rw [h.keyScalar hs]

/-- The parts of the value an admin gives to a member. -/
theorem subVal_parts {f : UInt8} {k sig : Bytes} (hk : k.length = 32) (hs : sig.length = 64) :
    ([3, f, 0, 0] ++ k ++ sig).length = 100 ∧ ([3, f, 0, 0] ++ k ++ sig).take 4 = [3, f, 0, 0] ∧
      (([3, f, 0, 0] ++ k ++ sig).drop 4).take 32 = k ∧ ([3, f, 0, 0] ++ k ++ sig).drop 36 = sig ∧
      ([3, f, 0, 0] ++ k ++ sig).getD 0 0 = 3 ∧ ([3, f, 0, 0] ++ k ++ sig).getD 1 0 = f := by
  refine ⟨by simp [hk, hs], by simp, ?_, ?_, rfl, rfl⟩
  · show (k ++ sig).take 32 = k
    rw [List.take_append_of_le_length (by rw [hk]), List.take_of_length_le (by rw [hk])]
  · rw [show (36 : Nat) = ([3, f, 0, 0] ++ k).length by simp [hk]]
    exact List.drop_left' rfl

/-- C79.  For every group key, member account and permissions: what `swarm_make_subaccount` returns for the
member's session id passes `swarm_verify_subaccount` of that member exactly for the permissions it was made
with; `swarm_subaccount_sign` of the member, for every message, returns the token `swarm_subaccount_token`
gives the admin, a signature of the group on the token, and a signature of the message that verifies under
the key in the token — which is what a storage server checks. -/
theorem subaccount_roundtrip (h : C.Good) {gseed seed X : Bytes} (write del : Bool) (hg : gseed.length = 32) (hs : seed.length = 32)
    (hg0 : C.pub gseed ≠ 0) (hX : C.edToX (C.enc (C.pub seed)) = some X)
    (hk0 : leNat (C.subFactor (C.edSk gseed) (C.enc (C.pub gseed)) X) ≠ 0)
    (hr : ∀ token, C.subToken (some (C.edSk gseed)) (C.enc (C.pub gseed)) (toHex (5 :: X)) write del = .ok token →
      leNat (C.edNonce (C.edSk gseed) token) ≠ 0) :
    ∃ val token, C.makeSubaccount (some (C.edSk gseed)) (C.enc (C.pub gseed)) (toHex (5 :: X)) write del = .ok val ∧
      C.subToken (some (C.edSk gseed)) (C.enc (C.pub gseed)) (toHex (5 :: X)) write del = .ok token ∧
      token.length = 36 ∧ token.take 4 = [3, subFlags write del, 0, 0] ∧
      (∀ w d, C.verifySub (toHex (3 :: C.enc (C.pub gseed))) (C.edSk seed) val w d =
        .ok ((!w || write) && (!d || del))) ∧
      ∀ msg, leNat (C.subNonce (C.edSk seed) (token.drop 4) msg) ≠ 0 →
        ∃ sub sig, C.subSign (C.edSk seed) msg val = .ok (token, sub, sig) ∧
          C.edVerify (C.enc (C.pub gseed)) token sub = true ∧ C.edVerify (token.drop 4) msg sig = true := by
  set gsk := C.edSk gseed with hgsk
  set gpk := C.enc (C.pub gseed) with hgpk
  set k := C.subFactor gsk gpk X with hkd
  have hXl := Curve.edToX_length hX
  obtain ⟨hp1, hp2⟩ := h.subPoint hs hX (h.subFactor_lt gsk gpk X) hk0
  rw [← hkd] at hp1 hp2
  set kT := C.enc (leNat k • C.abs (C.pub seed)) with hkT
  have hkl : k.length = 32 := SCurve.subFactor_length _ _ _
  have hkTl : kT.length = 32 := by rw [hkT]; simp
  have hsl := Curve.edSign_length (C := C.toCurve) gsk ([3, subFlags write del, 0, 0] ++ kT)
  obtain ⟨v1, v2, v3, v4, v5, v6⟩ := subVal_parts (f := subFlags write del) hkl hsl
  have htok : C.subToken (some gsk) gpk (toHex (5 :: X)) write del = .ok ([3, subFlags write del, 0, 0] ++ kT) := by
    unfold SCurve.subToken
    dsimp only
    rw [sidPk05 hXl]
    show (match C.pointMul k (C.xToEd X) with | none => _ | some kT => _) = _
    rw [hp1]
  have hgv : C.edVerify gpk ([3, subFlags write del, 0, 0] ++ kT) (C.edSign gsk ([3, subFlags write del, 0, 0] ++ kT)) = true :=
    h.edSign_verifies hg hg0 (hr _ htok)
  refine ⟨[3, subFlags write del, 0, 0] ++ k ++ C.edSign gsk ([3, subFlags write del, 0, 0] ++ kT),
    [3, subFlags write del, 0, 0] ++ kT, ?_, ?_, by simp [hkTl], by simp, ?_, ?_⟩
  · unfold SCurve.makeSubaccount
    dsimp only
    rw [sidPk05 hXl]
    show (match C.pointMul k (C.xToEd X) with | none => _ | some kT => _) = _
    rw [hp1]
  · exact htok
  · intro w d
    unfold SCurve.verifySub
    rw [sidPk03 (by rw [hgpk]; simp)]
    rw [Out.ok_bind, if_neg (by rw [v1]; simp), v5, v6, v3, hp2]
    dsimp only
    rw [v2, v4, hgv]
    cases w <;> cases d <;> cases write <;> cases del <;> rfl
  · intro msg hrm
    rw [show ([3, subFlags write del, 0, 0] ++ kT).drop 4 = kT from rfl] at hrm ⊢
    refine ⟨_, C.schnorr (C.subNonce (C.edSk seed) kT msg) (C.subScalar (C.edSk seed) k) kT msg, ?_, hgv, ?_⟩
    · unfold SCurve.subSign
      rw [if_neg (by rw [v1]; simp), v3]
      dsimp only
      rw [hp2, v2, v4]
    · obtain ⟨P, h0, e, -⟩ := h.c.edToX_some hX
      have e := h.c.enc_inj e
      rw [← e] at h0
      refine h.c.schnorr_verifies ?_ hrm (h.smul_ne (h.subFactor_lt gsk gpk X) hk0 (Curve.abs_ne (C := C.toCurve) h0))
        (h.subScalar_smul hs)
      unfold SCurve.subNonce
      rw [h.c.leNat_scReduce]
      exact Nat.mod_lt _ h.c.LPrime.pos

/-- C79.  Nothing but the group's signature gives permissions: if `swarm_verify_subaccount` accepts a value,
`swarm_subaccount_sign` computes from it a token that the group's key signed and whose flags contain the
permissions asked for, whatever the value. -/
theorem subaccount_sound {gpk userSk val : Bytes} {w d : Bool} (hg : gpk.length = 32)
    (hv : C.verifySub (toHex (3 :: gpk)) userSk val w d = .ok true) (msg : Bytes) :
    ∃ token sig, C.subSign userSk msg val = .ok (token, val.drop 36, sig) ∧ C.edVerify gpk token (val.drop 36) = true ∧
      token.length = 36 ∧ token.getD 1 0 &&& 1 ≠ 0 ∧ (w = true → token.getD 1 0 &&& 2 ≠ 0) ∧ (d = true → token.getD 1 0 &&& 4 ≠ 0) ∧
      (token.getD 0 0 = 3 ∨ token.getD 1 0 &&& 8 ≠ 0) := by
  unfold SCurve.verifySub at hv
  rw [sidPk03 hg] at hv
  change (if val.length ≠ 100 then _ else _) = _ at hv
  by_cases hl : val.length ≠ 100
  · rw [if_pos hl] at hv; cases hv
  rw [if_neg hl] at hv
  split at hv
  · cases hv
  rename_i h1
  split at hv
  · cases hv
  rename_i h2
  split at hv
  · cases hv
  rename_i h3
  split at hv
  · cases hv
  rename_i h4
  split at hv
  · cases hv
  · rename_i kT hkT
    have hv := Out.ok.inj hv
    have hkl : kT.length = 32 := by
      unfold Curve.pointMul at hkT
      split at hkT
      · cases hkT
      · split at hkT
        · cases hkT
        · rw [← Option.some.inj hkT]; simp
    have hvl : val.length = 100 := by omega
    have hg : ∀ i, i < 4 → (val.take 4 ++ kT).getD i 0 = val.getD i 0 := by
      intro i hi
      rw [List.getD_eq_getElem?_getD, List.getElem?_append_left (by rw [List.length_take]; omega),
        List.getElem?_take_of_lt hi, ← List.getD_eq_getElem?_getD]
    refine ⟨val.take 4 ++ kT, C.schnorr (C.subNonce userSk kT msg) (C.subScalar userSk ((val.drop 4).take 32)) kT msg, ?_, hv,
      by rw [List.length_append, List.length_take, hkl, hvl]; rfl, ?_⟩
    · unfold SCurve.subSign
      rw [if_neg hl]
      dsimp only
      rw [hkT]
    · rw [hg 0 (by omega), hg 1 (by omega)]
      refine ⟨h2, fun hw hz => h3 ⟨hw, hz⟩, fun hd hz => h4 ⟨hd, hz⟩, ?_⟩
      by_contra hc
      rw [not_or, not_not] at hc
      exact h1 hc

/-- C79 (a case where the expected behaviour fails).  The factor in the value is not covered by the signature
and its top bit is ignored when the token is computed but not when the message is signed: if that bit of a
value with a reduced factor is flipped, `swarm_verify_subaccount` and the token are unchanged, but the
signatures of `swarm_subaccount_sign` do not verify any more (unless the hash of the signature is 0). -/
theorem subaccount_topbit (h : C.Good) (hL2 : C.L ≠ 2) {gid seed head sig msg : Bytes} {k : Nat} (hs : seed.length = 32)
    (h0 : C.pub seed ≠ 0) (hh : head.length = 4) (hsig : sig.length = 64) (hk : k < C.L) (hk0 : k ≠ 0) :
    (∀ w d, C.verifySub gid (C.edSk seed) (head ++ leBytes 32 (k + 2 ^ 255) ++ sig) w d =
      C.verifySub gid (C.edSk seed) (head ++ leBytes 32 k ++ sig) w d) ∧
    ∃ token s s', C.subSign (C.edSk seed) msg (head ++ leBytes 32 k ++ sig) = .ok (token, sig, s) ∧
      C.subSign (C.edSk seed) msg (head ++ leBytes 32 (k + 2 ^ 255) ++ sig) = .ok (token, sig, s') ∧
      (leNat (C.sha512 (s'.take 32 ++ token.drop 4 ++ msg)) % C.L ≠ 0 → C.edVerify (token.drop 4) msg s' = false) := by
  have hk255 : k < 2 ^ 255 := lt_trans (lt_trans hk h.c.LLt) (by norm_num)
  have e256 : (256 : Nat) ^ 32 = 2 ^ 255 + 2 ^ 255 := by norm_num
  have n1 : leNat (leBytes 32 k) = k := leNat_leBytes_of_lt (by omega)
  have n2 : leNat (leBytes 32 (k + 2 ^ 255)) = k + 2 ^ 255 := leNat_leBytes_of_lt (by omega)
  have parts : ∀ b : Bytes, b.length = 32 → (head ++ b ++ sig).length = 100 ∧ ((head ++ b ++ sig).drop 4).take 32 = b ∧
      (head ++ b ++ sig).take 4 = head ∧ (head ++ b ++ sig).drop 36 = sig ∧
      (∀ i, i < 4 → (head ++ b ++ sig).getD i 0 = head.getD i 0) := by
    intro b hb
    refine ⟨by simp [hb, hh, hsig], ?_, ?_, ?_, ?_⟩
    · rw [List.append_assoc, List.drop_left' hh, List.take_append_of_le_length (by rw [hb]), List.take_of_length_le (by rw [hb])]
    · rw [List.append_assoc, List.take_append_of_le_length (by rw [hh]), List.take_of_length_le (by rw [hh])]
    · exact List.drop_left' (by simp [hh, hb])
    · intro i hi
      rw [List.append_assoc, List.getD_eq_getElem?_getD, List.getElem?_append_left (by rw [hh]; exact hi), ← List.getD_eq_getElem?_getD]
  obtain ⟨a1, a2, a3, a4, a5⟩ := parts (leBytes 32 k) (leBytes_length _ _)
  obtain ⟨b1, b2, b3, b4, b5⟩ := parts (leBytes 32 (k + 2 ^ 255)) (leBytes_length _ _)
  have hpm : ∀ pk, C.pointMul (leBytes 32 (k + 2 ^ 255)) pk = C.pointMul (leBytes 32 k) pk := by
    intro pk
    unfold Curve.pointMul
    rw [n1, n2, Nat.add_mod_right]
  constructor
  · intro w d
    unfold SCurve.verifySub
    rw [a1, a2, a3, a4, a5 0 (by omega), a5 1 (by omega), b1, b2, b3, b4, b5 0 (by omega), b5 1 (by omega), hpm]
  · have hp : C.pointMul (leBytes 32 k) (clearTop ((C.edSk seed).drop 32)) = some (C.enc (k • C.abs (C.pub seed))) := by
      rw [h.edSk_drop hs, ← h.c.enc_abs, h.pointMul_enc (by rw [n1]; exact hk) (by rw [n1]; exact hk0)
        (Curve.abs_ne (C := C.toCurve) h0), n1]
    set kT := C.enc (k • C.abs (C.pub seed)) with hkT
    refine ⟨head ++ kT, C.schnorr (C.subNonce (C.edSk seed) kT msg) (C.subScalar (C.edSk seed) (leBytes 32 k)) kT msg,
      C.schnorr (C.subNonce (C.edSk seed) kT msg) (C.subScalar (C.edSk seed) (leBytes 32 (k + 2 ^ 255))) kT msg, ?_, ?_, ?_⟩
    · unfold SCurve.subSign
      rw [if_neg (by rw [a1]; simp), a2]
      dsimp only
      rw [hp, a3, a4]
    · unfold SCurve.subSign
      rw [if_neg (by rw [b1]; simp), b2]
      dsimp only
      rw [hpm, hp, b3, b4]
    · rw [List.drop_left' hh]
      intro hne
      have ht : (C.schnorr (C.subNonce (C.edSk seed) kT msg) (C.subScalar (C.edSk seed) (leBytes 32 (k + 2 ^ 255))) kT msg).take 32 =
          C.baseMul (C.subNonce (C.edSk seed) kT msg) := by
        unfold Curve.schnorr
        rw [List.take_append_of_le_length (by simp [Curve.baseMul]), List.take_of_length_le (by simp [Curve.baseMul])]
      rw [ht] at hne
      refine h.c.schnorr_rejected ?_ ?_ hne
      · unfold SCurve.subNonce
        rw [h.c.leNat_scReduce]; exact Nat.mod_lt _ h.c.LPrime.pos
      · rw [h.subScalar_smul hs, n2, add_nsmul]
        intro e
        have e0 : (2 ^ 255 : Nat) • C.abs (C.pub seed) = 0 := left_eq_add.1 e.symm
        rcases h.c.smul_eq_zero e0 with hz | hz
        · have := (Nat.prime_dvd_prime_iff_eq h.c.LPrime Nat.prime_two).1
            (h.c.LPrime.dvd_of_dvd_pow (Nat.dvd_of_mod_eq_zero hz))
          exact hL2 this
        · exact Curve.abs_ne (C := C.toCurve) h0 hz

/-! ### Examples -/

/-- A group's seed -/
def toyGroup : Bytes := leBytes 32 10

example : ∃ val token, toyCurve.makeSubaccount (some (toyCurve.edSk toyGroup)) (toyCurve.enc (toyCurve.pub toyGroup))
      (toHex (5 :: toyPubX toySeed)) true false = .ok val ∧
    toyCurve.verifySub (toHex (3 :: toyCurve.enc (toyCurve.pub toyGroup))) (toyCurve.edSk toySeed) val true false = .ok true ∧
    toyCurve.verifySub (toHex (3 :: toyCurve.enc (toyCurve.pub toyGroup))) (toyCurve.edSk toySeed) val true true = .ok false ∧
    ∃ sub sig, toyCurve.subSign (toyCurve.edSk toySeed) [104, 105] val = .ok (token, sub, sig) ∧
      toyCurve.edVerify (token.drop 4) [104, 105] sig = true := by
  have ht : toyCurve.subToken (some (toyCurve.edSk toyGroup)) (toyCurve.enc (toyCurve.pub toyGroup))
      (toHex (5 :: toyPubX toySeed)) true false = .ok ([3, 3, 0, 0] ++ leBytes 32 (2 + 2 ^ 255)) := by decide +kernel
  obtain ⟨val, token, h1, h2, -, -, h3, h4⟩ := subaccount_roundtrip toyCurve_good true false (gseed := toyGroup) (seed := toySeed)
    (by decide) (by decide) (by decide +kernel) toyPubX_eq.1 (by decide +kernel) (by
      intro token e
      rw [ht] at e
      rw [← Out.ok.inj e]
      decide +kernel)
  rw [ht] at h2
  have h2 := Out.ok.inj h2
  subst h2
  obtain ⟨sub, sig, h5, -, h6⟩ := h4 [104, 105] (by decide +kernel)
  exact ⟨val, _, h1, h3 true false, h3 true true, sub, sig, h5, h6⟩

example : ∃ token s', toyCurve.subSign (toyCurve.edSk toySeed) [104, 105] ([3, 1, 0, 0] ++ leBytes 32 (2 + 2 ^ 255) ++ leBytes 64 9) =
      .ok (token, leBytes 64 9, s') ∧ toyCurve.edVerify (token.drop 4) [104, 105] s' = false := by
  obtain ⟨-, token, s, s', -, h2, h3⟩ := subaccount_topbit toyCurve_good (by decide) (gid := []) (seed := toySeed) (head := [3, 1, 0, 0])
    (sig := leBytes 64 9) (msg := [104, 105]) (k := 2) (by decide) (by decide +kernel) rfl (by decide) (by decide) (by decide)
  refine ⟨token, s', h2, h3 ?_⟩
  have h2' : toyCurve.subSign (toyCurve.edSk toySeed) [104, 105] ([3, 1, 0, 0] ++ leBytes 32 (2 + 2 ^ 255) ++ leBytes 64 9) =
    .ok ([3, 1, 0, 0] ++ leBytes 32 3, leBytes 64 9, leBytes 32 2 ++ leBytes 32 1) := by decide +kernel
  rw [h2'] at h2
  have h2 := Prod.mk.inj (Out.ok.inj h2)
  rw [← h2.1, ← (Prod.mk.inj h2.2).2]
  decide +kernel

end Verif
