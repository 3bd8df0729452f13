import Verif.KeyApi
import Verif.Props.SessionEncrypt

/-!
# Keys, signatures and hashes
-/

namespace Verif

variable {G : Type} [AddCommGroup G] [DecidableEq G] {C : SCurve G}

/-- **C106.** For every seed (of a key that is not degenerate): the key pair's secret key gives back the seed; seed and
secret key sign alike, and the signature verifies under the public key; the converted keys are an X25519 key pair. -/
theorem ed_api (h : C.Good) {seed msg : Bytes} (hs : seed.length = 32) (h0 : C.pub seed ≠ 0)
    (hr : leNat (C.edNonce (C.edSk seed) msg) ≠ 0) :
    ∃ pk sk sig x X, C.edKeyPair seed = .ok (pk, sk) ∧ pk.length = 32 ∧ sk.length = 64 ∧ seedFor sk = .ok seed ∧
      seedFor seed = .ok seed ∧ C.edSignApi sk msg = .ok sig ∧ C.edSignApi seed msg = .ok sig ∧
      C.edVerifyApi sig pk msg = .ok true ∧ C.toCurveSk sk = .ok x ∧ C.toCurvePk pk = .ok X ∧ C.xBase x = X := by
  have hpk : C.baseMul (C.edScalar seed) = C.enc (C.pub seed) := by
    have := h.edSk_eq seed
    unfold Curve.edSk at this
    exact List.append_cancel_left this
  have hl : (C.edSk seed).length = 64 := Curve.edSk_length hs
  have hX := h.c.edToX_enc h0
  refine ⟨_, _, C.edSign (C.edSk seed) msg, C.edScalar seed, C.feBytes (montU (C.y (C.pub seed))), if_neg (by simp [hs]),
    by rw [hpk]; simp, hl, ?_, ?_, ?_, ?_, ?_, ?_, ?_, ?_⟩
  · unfold seedFor
    rw [if_pos (.inr hl), h.edSk_eq, List.take_left' hs]
  · unfold seedFor
    rw [if_pos (.inl hs), List.take_of_length_le (by omega)]
  · have : C.fullSk (C.edSk seed) = .ok (C.edSk seed) := by unfold Curve.fullSk; rw [if_neg (by omega), if_pos hl]
    simp only [SCurve.edSignApi, this]
  · have : C.fullSk seed = .ok (C.edSk seed) := by unfold Curve.fullSk; rw [if_pos hs]
    simp only [SCurve.edSignApi, this]
  · unfold SCurve.edVerifyApi
    rw [if_neg (by simp [Curve.edSign_length]), hpk, if_neg (by simp), h.edSign_verifies hs h0 hr]
  · unfold SCurve.toCurveSk
    rw [if_neg (by simp [hl]), h.edScalar_edSk hs]
  · unfold SCurve.toCurvePk
    rw [hpk, if_neg (by simp), hX]
  · rw [h.xBase_eq (h.edScalar_length seed), h.edScalar_clamped]
    rfl

/-- Keys, signatures and hashes of the wrong length are refused. -/
theorem key_api_lengths (C : SCurve G) {b : Bytes} :
    (b.length ≠ 32 → C.edKeyPair b = .err .foreign ∧ C.toCurvePk b = .err .foreign ∧
      ∀ sig msg, C.edVerifyApi sig b msg = .err .foreign) ∧
    (b.length ≠ 64 → C.toCurveSk b = .err .foreign ∧ ∀ pk msg, C.edVerifyApi b pk msg = .err .foreign) ∧
    (b.length ≠ 32 → b.length ≠ 64 → seedFor b = .err .foreign ∧ ∀ msg, C.edSignApi b msg = .err .foreign) ∧
    (∀ n msg key, n < 16 ∨ 64 < n → C.hashApi n msg key = .err .foreign) ∧
    (64 < b.length → ∀ n msg, C.hashApi n msg (some b) = .err .foreign) := by
  refine ⟨fun h => ⟨if_pos h, if_pos h, fun sig msg => ?_⟩, fun h => ⟨if_pos h, fun pk msg => if_pos h⟩, fun h1 h2 => ⟨?_, fun msg => ?_⟩,
    fun n msg key h => if_pos h, fun h n msg => ?_⟩
  · unfold SCurve.edVerifyApi
    split <;> first | rfl | rw [if_pos h]
  · unfold seedFor
    rw [if_neg (by rintro (h | h) <;> contradiction)]
  · have : C.fullSk b = .err .foreign := by unfold Curve.fullSk; rw [if_neg h1, if_neg h2]
    simp only [SCurve.edSignApi, this]
  · unfold SCurve.hashApi
    split
    · rfl
    · simp only [if_pos h]

/-- A hash has the requested size; an empty key is no key. -/
theorem hash_api (h : C.Good) {n : Nat} {msg : Bytes} {key : Option Bytes} (h1 : 16 ≤ n) (h2 : n ≤ 64)
    (hk : ∀ k, key = some k → k.length ≤ 64) :
    ∃ b, C.hashApi n msg key = .ok b ∧ b.length = n ∧ C.hashApi n msg (some []) = C.hashApi n msg none := by
  have hn : ¬ (n < 16 ∨ 64 < n) := by omega
  unfold SCurve.hashApi
  cases key with
  | none => exact ⟨C.blake n [] msg, by rw [if_neg hn], h.blakeLen _ _ _, by simp⟩
  | some k =>
    have := hk k rfl
    exact ⟨C.blake n k msg, by rw [if_neg hn]; simp only [if_neg (show ¬ 64 < k.length by omega)], h.blakeLen _ _ _, by simp⟩

/-! ### Output buffers -/

/-- A call with one output buffer of `n` bytes is defined and leaves a buffer of `n` bytes: the result if it reports
success, what was there before if it reports failure. -/
def Fits1 (n : Nat) (r : Out Bytes) (f : Bytes → Out (Bool × Bytes)) : Prop :=
  ∀ buf, buf.length = n → (∃ b, r = .ok b ∧ b.length = n ∧ f buf = .ok (true, b)) ∨ (∃ e, r = .err e) ∧ f buf = .ok (false, buf)

/-- The same for two -/
def Fits2 (n m : Nat) (r : Out (Bytes × Bytes)) (f : Bytes → Bytes → Out (Bool × Bytes × Bytes)) : Prop :=
  ∀ b1 b2, b1.length = n → b2.length = m →
    (∃ x y, r = .ok (x, y) ∧ x.length = n ∧ y.length = m ∧ f b1 b2 = .ok (true, x, y)) ∨ (∃ e, r = .err e) ∧ f b1 b2 = .ok (false, b1, b2)

theorem copyOut_exact {buf b : Bytes} (h : b.length = buf.length) : copyOut buf b = .ok b := by
  unfold copyOut
  rw [if_pos (by omega), List.drop_of_length_le (by omega), List.append_nil]

theorem fits1 {n : Nat} {r : Out Bytes} (h : (∃ b, r = .ok b ∧ b.length = n) ∨ ∃ e, r = .err e) : Fits1 n r fun buf => cOut1 buf r := by
  intro buf hb
  rcases h with ⟨b, rfl, hl⟩ | ⟨e, rfl⟩
  · exact .inl ⟨b, rfl, hl, by show (copyOut buf b).bind _ = _; rw [copyOut_exact (by omega)]; rfl⟩
  · exact .inr ⟨⟨e, rfl⟩, rfl⟩

theorem fits2 {n m : Nat} {r : Out (Bytes × Bytes)} (h : (∃ x y, r = .ok (x, y) ∧ x.length = n ∧ y.length = m) ∨ ∃ e, r = .err e) :
    Fits2 n m r fun b1 b2 => cOut2 b1 b2 r := by
  intro b1 b2 h1 h2
  rcases h with ⟨x, y, rfl, hx, hy⟩ | ⟨e, rfl⟩
  · refine .inl ⟨x, y, rfl, hx, hy, ?_⟩
    show (copyOut b1 x).bind _ = _
    rw [copyOut_exact (by omega)]
    show (copyOut b2 y).bind _ = _
    rw [copyOut_exact (by omega)]
    rfl
  · exact .inr ⟨⟨e, rfl⟩, rfl⟩

theorem fullSk_cases (sk : Bytes) : (∃ s, C.fullSk sk = .ok s) ∨ ∃ e, C.fullSk sk = .err e := by
  unfold Curve.fullSk
  split
  · exact .inl ⟨_, rfl⟩
  · split
    · exact .inl ⟨_, rfl⟩
    · exact .inr ⟨_, rfl⟩

theorem keyPair15_cases (sk server : Bytes) :
    (∃ A a k, C.keyPair15 sk server = .ok (A, a, k) ∧ A.length = 32 ∧ a.length = 32) ∨ ∃ e, C.keyPair15 sk server = .err e := by
  unfold SCurve.keyPair15
  rcases fullSk_cases (C := C) sk with ⟨s, hs⟩ | ⟨e, he⟩
  · rw [hs]
    show (∃ A a k, (if server.length ≠ 32 then _ else _) = _ ∧ _) ∨ _
    by_cases hl : server.length ≠ 32
    · exact .inr ⟨_, if_pos hl⟩
    · exact .inl ⟨_, _, _, if_neg hl, by simp [Curve.baseMul], by simp [Curve.scMul]⟩
  · rw [he]; exact .inr ⟨_, rfl⟩

theorem keyPair25_cases (sk server : Bytes) :
    (∃ A a k, C.keyPair25 sk server = .ok (A, a, k) ∧ A.length = 32 ∧ a.length = 32) ∨ ∃ e, C.keyPair25 sk server = .err e := by
  unfold SCurve.keyPair25
  rcases fullSk_cases (C := C) sk with ⟨s, hs⟩ | ⟨e, he⟩
  · rw [hs]
    show (∃ A a k, (if server.length ≠ 32 then _ else _) = _ ∧ _) ∨ _
    by_cases hl : server.length ≠ 32
    · exact .inr ⟨_, if_pos hl⟩
    · cases hx : C.edToX (s.drop 32) with
      | none => exact .inr ⟨.foreign, by simp only [Out.bind, if_neg hl, hx]⟩
      | some x => exact .inl ⟨_, _, _, by simp only [Out.bind, if_neg hl, hx]; rfl, by simp [Curve.baseMul], by simp [Curve.scMul]⟩
  · rw [he]; exact .inr ⟨_, rfl⟩

theorem serverArg_cases (s : Bytes) : (∃ b, serverArg s = .ok b) ∨ ∃ e, serverArg s = .err e := by
  unfold serverArg
  split
  · exact .inl ⟨_, rfl⟩
  · split
    · exact .inl ⟨_, rfl⟩
    · exact .inr ⟨_, rfl⟩

/-- **C107** (partial).  The C functions for keys, signatures and hashes, given output buffers of the documented size,
fill exactly those buffers with the result of the C++ function, or report its exception and write nothing.
`session_curve25519_key_pair` is missing: see `curve25519_key_pair_overflows`. -/
theorem c_crypto_in_bounds_partial (h : C.Good) (sk seed pk msg key server x z : Bytes) (n : Nat) :
    Fits2 32 64 (C.edKeyPair seed) (C.cEdKeyPair seed) ∧
    Fits1 32 (seedFor sk) (cSeedFor sk) ∧
    Fits1 64 (C.edSignApi sk msg) (C.cEdSign sk msg) ∧
    Fits1 32 (C.toCurvePk pk) (C.cToCurvePk pk) ∧
    Fits1 32 (C.toCurveSk sk) (C.cToCurveSk sk) ∧
    Fits1 n (C.hashApi n msg (if key = [] then none else some key)) (C.cHash n msg key) ∧
    Fits1 64 (.ok (C.xedSign x msg z)) (C.cXedSign x msg z) ∧
    Fits1 32 (.ok (C.xToEd x)) (C.cXedPubkey x) ∧
    Fits2 32 32 (pairOf (C.keyPair15 sk server)) (C.cBlind15KeyPair sk server) ∧
    Fits2 32 32 (pairOf (C.keyPair25 sk server)) (C.cBlind25KeyPair sk server) ∧
    Fits1 64 (C.sign15 sk server msg) (C.cBlind15Sign sk server msg) ∧
    Fits1 64 (C.sign25 sk server msg) (C.cBlind25Sign sk server msg) := by
  refine ⟨fits2 ?_, fits1 ?_, fits1 ?_, fits1 ?_, fits1 ?_, fits1 ?_, fits1 ?_, fits1 ?_, fits2 ?_, fits2 ?_, fits1 ?_, fits1 ?_⟩
  · unfold SCurve.edKeyPair
    by_cases hl : seed.length ≠ 32
    · exact .inr ⟨_, if_pos hl⟩
    · exact .inl ⟨_, _, if_neg hl, by simp [Curve.baseMul], Curve.edSk_length (by simpa using hl)⟩
  · unfold seedFor
    by_cases hl : sk.length = 32 ∨ sk.length = 64
    · exact .inl ⟨_, if_pos hl, by rw [List.length_take]; omega⟩
    · exact .inr ⟨_, if_neg hl⟩
  · unfold SCurve.edSignApi
    rcases fullSk_cases (C := C) sk with ⟨s, hs⟩ | ⟨e, he⟩
    · exact .inl ⟨C.edSign s msg, by rw [hs], Curve.edSign_length _ _⟩
    · exact .inr ⟨e, by rw [he]⟩
  · unfold SCurve.toCurvePk
    by_cases hl : pk.length ≠ 32
    · exact .inr ⟨_, if_pos hl⟩
    · cases hx : C.edToX pk with
      | none => exact .inr ⟨.foreign, by simp only [Out.bind, if_neg hl, hx]⟩
      | some x => exact .inl ⟨x, by rw [if_neg hl], Curve.edToX_length hx⟩
  · unfold SCurve.toCurveSk
    by_cases hl : sk.length ≠ 64
    · exact .inr ⟨_, if_pos hl⟩
    · exact .inl ⟨_, if_neg hl, h.edScalar_length _⟩
  · unfold SCurve.hashApi
    by_cases hn : n < 16 ∨ 64 < n
    · exact .inr ⟨_, if_pos hn⟩
    · rw [if_neg hn]
      split
      · split
        · exact .inr ⟨_, rfl⟩
        · exact .inl ⟨_, rfl, h.blakeLen _ _ _⟩
      · exact .inl ⟨_, rfl, h.blakeLen _ _ _⟩
  · exact .inl ⟨_, rfl, by unfold SCurve.xedSign; exact Curve.schnorr_length _ _ _ _⟩
  · exact .inl ⟨_, rfl, by simp [Curve.xToEd, Curve.feBytes]⟩
  · rcases keyPair15_cases (C := C) sk server with ⟨A, a, k, e, h1, h2⟩ | ⟨e, he⟩
    · exact .inl ⟨A, a, by rw [e]; rfl, h1, h2⟩
    · exact .inr ⟨e, by rw [he]; rfl⟩
  · rcases keyPair25_cases (C := C) sk server with ⟨A, a, k, e, h1, h2⟩ | ⟨e, he⟩
    · exact .inl ⟨A, a, by rw [e]; rfl, h1, h2⟩
    · exact .inr ⟨e, by rw [he]; rfl⟩
  · unfold SCurve.sign15
    rcases fullSk_cases (C := C) sk with ⟨s, hs⟩ | ⟨e, he⟩
    · rw [hs]
      rcases serverArg_cases server with ⟨v, hv⟩ | ⟨e, he⟩
      · rcases keyPair15_cases (C := C) s v with ⟨A, a, k, e, h1, h2⟩ | ⟨e, he⟩
        · exact .inl ⟨C.schnorr (C.nonce15 s A msg) a A msg, by
            show (serverArg server).bind _ = _
            rw [hv]
            show (C.keyPair15 s v).bind _ = _
            rw [e]; rfl, Curve.schnorr_length _ _ _ _⟩
        · exact .inr ⟨e, by
            show (serverArg server).bind _ = _
            rw [hv]
            show (C.keyPair15 s v).bind _ = _
            rw [he]; rfl⟩
      · exact .inr ⟨e, by
          show (serverArg server).bind _ = _
          rw [he]; rfl⟩
    · exact .inr ⟨e, by rw [he]; rfl⟩
  · unfold SCurve.sign25
    rcases fullSk_cases (C := C) sk with ⟨s, hs⟩ | ⟨e, he⟩
    · rw [hs]
      rcases serverArg_cases server with ⟨v, hv⟩ | ⟨e, he⟩
      · rcases keyPair25_cases (C := C) s v with ⟨A, a, k, e, h1, h2⟩ | ⟨e, he⟩
        · exact .inl ⟨C.schnorr (C.nonce25 s A msg) a A msg, by
            show (serverArg server).bind _ = _
            rw [hv]
            show (C.keyPair25 s v).bind _ = _
            rw [e]; rfl, Curve.schnorr_length _ _ _ _⟩
        · exact .inr ⟨e, by
            show (serverArg server).bind _ = _
            rw [hv]
            show (C.keyPair25 s v).bind _ = _
            rw [he]; rfl⟩
      · exact .inr ⟨e, by
          show (serverArg server).bind _ = _
          rw [he]; rfl⟩
    · exact .inr ⟨e, by rw [he]; rfl⟩

/-- **C107, what fails.** `session_curve25519_key_pair`, given the documented buffers of 32 bytes, always writes beyond the
second: it copies 64 bytes, of which the last 32 were never initialised. -/
theorem curve25519_key_pair_overflows (C : SCurve G) {rnd junk pkOut skOut : Bytes} (hr : rnd.length = 32) (hj : junk.length = 32)
    (h1 : pkOut.length = 32) (h2 : skOut.length = 32) : C.cCurveKeyPair rnd junk pkOut skOut = .ub := by
  show (copyOut pkOut (C.xBase rnd)).bind _ = _
  rw [copyOut_exact (by rw [Curve.xBase_length, h1])]
  show (copyOut skOut (rnd ++ junk)).bind _ = _
  unfold copyOut
  rw [if_neg (by rw [List.length_append]; omega)]
  rfl

/-! ### Instances -/

example : toySeed.length = 32 ∧ toyCurve.pub toySeed ≠ 0 ∧ leNat (toyCurve.edNonce (toyCurve.edSk toySeed) [1, 2]) ≠ 0 := by
  decide +kernel

/-- Keys of other lengths exist. -/
example : ([1] : Bytes).length ≠ 32 ∧ (toySeed ++ toySeed).length = 64 ∧ (toySeed ++ toySeed ++ [1]).length > 64 := by
  refine ⟨by decide, by decide +kernel, by decide +kernel⟩

/-- C106.  A Curve25519 key pair: the private key is in the first 32 bytes of the 64-byte array (the rest is whatever was in
memory), the public key is the one of that private key, and any two pairs agree on a shared secret. -/
theorem curve_pair {G : Type} [AddCommGroup G] {C : ECurve G} (h : C.Good) {r1 j1 r2 j2 p1 s1 p2 s2 : Bytes}
    (l1 : r1.length = 32) (l2 : r2.length = 32) (h1 : C.curveKeyPair r1 j1 = (p1, s1)) (h2 : C.curveKeyPair r2 j2 = (p2, s2)) :
    p1 = C.xBase (s1.take 32) ∧ s1.take 32 = r1 ∧ s1.drop 32 = j1 ∧
      C.x25519 (s1.take 32) p2 = C.x25519 (s2.take 32) p1 := by
  obtain ⟨rfl, rfl⟩ := Prod.mk.inj h1
  obtain ⟨rfl, rfl⟩ := Prod.mk.inj h2
  have t : ∀ {a b : Bytes}, a.length = 32 → (a ++ b).take 32 = a ∧ (a ++ b).drop 32 = b := by
    intro a b ha
    rw [List.take_append_of_le_length (by omega), List.take_of_length_le (by omega), List.drop_append_of_le_length (by omega),
      List.drop_of_length_le (by omega)]
    exact ⟨rfl, rfl⟩
  rw [(t l1).1, (t l1).2, (t l2).1]
  exact ⟨rfl, rfl, rfl, h.dh _ _ l1 l2⟩

end Verif
