import Verif.Props.Xed

/-!
# Blinded ids and signatures (C77, C78)
-/

namespace Verif

variable {G : Type} [AddCommGroup G] [DecidableEq G] {C : SCurve G}

theorem Curve.edToX_length {C : Curve G} {pk X : Bytes} (hX : C.edToX pk = some X) : X.length = 32 := by
  unfold Curve.edToX at hX
  split at hX
  · rw [← Option.some.inj hX]; simp [Curve.feBytes]
  · cases hX

theorem rawArgs_of {X server : Bytes} (hX : X.length = 32) (hs : server.length = 32) :
    rawArgs X server = true ∧ rawArgs (5 :: X) server = true := by
  constructor <;> simp [rawArgs, hX, hs]

theorem stripSid_of {X : Bytes} (hX : X.length = 32) : stripSid X = X ∧ stripSid (5 :: X) = X := by
  unfold stripSid
  rw [if_neg (by omega), if_pos (by simp [hX])]
  exact ⟨rfl, rfl⟩

theorem checkId_sid {X : Bytes} (hX : X.length = 32) : checkId (toHex (5 :: X)) (asc ['0', '5']) = true := by
  unfold checkId
  rw [toHex_length, toHex_isHex]
  simp only [List.length_cons, hX]
  rfl

theorem hexArgs_of {X server : Bytes} (hX : X.length = 32) (hs : server.length = 32) :
    hexArgs (toHex (5 :: X)) (toHex server) = true := by
  unfold hexArgs
  rw [checkId_sid hX, toHex_isHex, toHex_length, hs]
  rfl

theorem SCurve.Good.abs_smul_cases (h : C.Good) (k : Nat) (P : G) :
    k • C.abs P = k • P ∨ k • C.abs P = -(k • P) := by
  rcases h.c.abs_eq_or P with e | e
  · rw [e]; exact .inl rfl
  · rw [e, neg_nsmul]; exact .inr rfl

/-- C77.  `blind15_id` of the account's session id, with or without the 05 prefix, as bytes or hex, and
`blinded15_id_from_ed` of its ed25519 key agree up to the sign bit — the two candidates of the hex version —
for every server whose blinding factor is not 0. -/
theorem blind15_ids (h : C.Good) {pk X server : Bytes} (hX : C.edToX pk = some X) (hs : server.length = 32)
    (hk : leNat (C.factor15 server) ≠ 0) :
    ∃ id, id.length = 33 ∧ id.head? = some 0x15 ∧ C.blind15Raw X server = .ok id ∧ C.blind15Raw (5 :: X) server = .ok id ∧
      C.blind15Hex (toHex (5 :: X)) (toHex server) = .ok (toHex id, toHex (flipTop 32 id)) ∧
      ∀ w, C.blind15FromEd pk server w = .ok id ∨ C.blind15FromEd pk server w = .ok (flipTop 32 id) := by
  have hXl := Curve.edToX_length hX
  obtain ⟨P, h0, rfl, rfl⟩ := h.c.edToX_some hX
  set X := C.feBytes (montU (C.y P)) with hXd
  have hm := h.pointMul_enc (h.factor15_lt server) hk (Curve.abs_ne (C := C.toCurve) h0)
  have hm' := h.pointMul_enc (h.factor15_lt server) hk h0
  have himpl : ∀ sid, stripSid sid = X → C.blind15Impl sid server =
      .ok (0x15 :: C.enc (leNat (C.factor15 server) • C.abs P)) := by
    intro sid e
    unfold SCurve.blind15Impl SCurve.blindPoint
    rw [e, h.c.xToEd_montU h0, hm]
  refine ⟨0x15 :: C.enc (leNat (C.factor15 server) • C.abs P), by simp, rfl, ?_, ?_, ?_, ?_⟩
  · unfold SCurve.blind15Raw
    rw [if_pos (rawArgs_of hXl hs).1, (stripSid_of hXl).1]
    exact himpl X (stripSid_of hXl).1
  · unfold SCurve.blind15Raw
    rw [if_pos (rawArgs_of hXl hs).2, (stripSid_of hXl).2]
    exact himpl X (stripSid_of hXl).1
  · unfold SCurve.blind15Hex
    rw [if_pos (hexArgs_of hXl hs), fromHex_toHex, fromHex_toHex, himpl _ (stripSid_of hXl).2]
    rfl
  · intro w
    have hf : C.blind15FromEd (C.enc P) server w = .ok (0x15 :: C.enc (leNat (C.factor15 server) • P)) := by
      unfold SCurve.blind15FromEd SCurve.blindPoint
      rw [if_neg (by simp [hs]), if_neg (by rw [hX]; simp), hm']
    rw [hf]
    have hkP := h.smul_ne (h.factor15_lt server) hk h0
    rcases h.abs_smul_cases (leNat (C.factor15 server)) P with e | e
    · rw [e]; exact .inl rfl
    · rw [e, flipTop_cons, ← h.c.enc_neg (neg_ne_zero.2 hkP), neg_neg]
      exact .inr rfl

/-- The scalar of a key -/
theorem SCurve.Good.keyScalar (h : C.Good) {seed : Bytes} (hs : seed.length = 32) :
    leNat (C.edScalar (C.edSk seed)) • C.B = C.pub seed := by
  rw [h.edScalar_edSk hs]; rfl

theorem SCurve.Good.keyPair15_eq (h : C.Good) {seed sk server : Bytes} (hk : C.IsKey seed sk) (hs : server.length = 32) :
    C.keyPair15 sk server = .ok (C.enc (leNat (C.factor15 server) • C.pub seed),
      C.scMul (C.factor15 server) (C.edScalar (C.edSk seed)), C.factor15 server) := by
  unfold SCurve.keyPair15
  rw [hk.fullSk]
  show (if server.length ≠ 32 then _ else _) = _
  rw [if_neg (by omega), h.baseMul_scMul, h.keyScalar hk.1]

/-- C77.  `blind15_key_pair` of the seed or secret key returns the public key of the 15-blinded id
(`blinded15_id_from_ed`) and a private scalar for it. -/
theorem blind15_keypair (h : C.Good) {seed sk server : Bytes} (hk : C.IsKey seed sk) (hs : server.length = 32)
    (hA : C.pub seed ≠ 0) (hf : leNat (C.factor15 server) ≠ 0) :
    ∃ B b, C.keyPair15 sk server = .ok (B, b, C.factor15 server) ∧
      C.blind15FromEd (C.enc (C.pub seed)) server true = .ok (0x15 :: B) ∧ C.baseMul b = B := by
  refine ⟨_, _, h.keyPair15_eq hk hs, ?_, ?_⟩
  · unfold SCurve.blind15FromEd SCurve.blindPoint
    rw [if_neg (by simp [hs]), if_neg (by rw [h.c.edToX_enc hA]; simp), h.pointMul_enc (h.factor15_lt server) hf hA]
  · rw [h.baseMul_scMul, h.keyScalar hk.1]

/-- C77.  `blind15_sign` makes a signature that verifies under the key of the 15-blinded id. -/
theorem blind15_signs (h : C.Good) {seed sk server msg B b k : Bytes} (hk : C.IsKey seed sk) (hs : server.length = 32)
    (hA : C.pub seed ≠ 0) (hf : leNat (C.factor15 server) ≠ 0) (hB : C.keyPair15 sk server = .ok (B, b, k))
    (hr : leNat (C.nonce15 (C.edSk seed) B msg) ≠ 0) :
    ∃ sig, C.sign15 sk server msg = .ok sig ∧ C.sign15 sk (toHex server) msg = .ok sig ∧ C.edVerify B msg sig = true := by
  have hkp := h.keyPair15_eq hk hs
  rw [hkp] at hB
  have hB := Out.ok.inj hB
  obtain ⟨h1, h2⟩ := Prod.mk.inj hB
  obtain ⟨h2, h3⟩ := Prod.mk.inj h2
  have hkp' := h.keyPair15_eq (sk := C.edSk seed) ⟨hk.1, .inr rfl⟩ hs
  have hsv : serverArg server = .ok server := by unfold serverArg; rw [if_pos hs]
  have hsv' : serverArg (toHex server) = .ok server := by
    unfold serverArg
    rw [if_neg (by rw [toHex_length]; omega), if_pos ⟨by rw [toHex_length]; omega, toHex_isHex _⟩, fromHex_toHex]
  refine ⟨C.schnorr (C.nonce15 (C.edSk seed) B msg) b B msg, ?_, ?_, ?_⟩
  · unfold SCurve.sign15
    rw [hk.fullSk]
    show (serverArg server).bind _ = _
    rw [hsv]
    show (C.keyPair15 (C.edSk seed) server).bind _ = _
    rw [hkp', ← h1, ← h2]
    rfl
  · unfold SCurve.sign15
    rw [hk.fullSk]
    show (serverArg (toHex server)).bind _ = _
    rw [hsv']
    show (C.keyPair15 (C.edSk seed) server).bind _ = _
    rw [hkp', ← h1, ← h2]
    rfl
  · have hlt : leNat (C.nonce15 (C.edSk seed) B msg) < C.L := by
      unfold SCurve.nonce15
      rw [h.c.leNat_scReduce]; exact Nat.mod_lt _ h.c.LPrime.pos
    subst h1; subst h2
    exact h.c.schnorr_verifies hlt hr (h.smul_ne (h.factor15_lt server) hf hA) (by rw [h.scMul_smul, h.keyScalar hk.1])

/-! ### 25 -/

theorem SCurve.factor25_prefix {X : Bytes} (hX : X.length = 32) (server : Bytes) :
    C.factor25 (5 :: X) server = C.factor25 X server := by
  unfold SCurve.factor25
  rw [if_pos hX, if_neg (by simp [hX])]

/-- The public key of the 25-blinded id: k|A| -/
theorem SCurve.Good.fromEd25_eq (h : C.Good) {P : G} {X server : Bytes} (h0 : P ≠ 0) (hX : C.edToX (C.enc P) = some X)
    (hs : server.length = 32) (hf : leNat (C.factor25 X server) ≠ 0) :
    C.blind25FromEd (C.enc P) server = .ok (0x25 :: C.enc (leNat (C.factor25 X server) • C.abs P)) := by
  unfold SCurve.blind25FromEd SCurve.blindPoint
  rw [if_neg (by simp [hs]), hX]
  dsimp only
  rw [SCurve.factor25_prefix (Curve.edToX_length hX), ← h.c.enc_abs,
    h.pointMul_enc (h.factor25_lt X server) hf (Curve.abs_ne (C := C.toCurve) h0)]

theorem SCurve.Good.impl25_eq (h : C.Good) {P : G} {X server : Bytes} (h0 : P ≠ 0) (hX : C.edToX (C.enc P) = some X)
    (hf : leNat (C.factor25 X server) ≠ 0) {sid : Bytes} (hsid : sid = X ∨ sid = 5 :: X) :
    C.blind25Impl sid server = .ok (0x25 :: C.enc (leNat (C.factor25 X server) • C.abs P)) := by
  have hXl := Curve.edToX_length hX
  have e : stripSid sid = X := by
    rcases hsid with rfl | rfl
    · exact (stripSid_of hXl).1
    · exact (stripSid_of hXl).2
  have e' : C.factor25 sid server = C.factor25 X server := by
    rcases hsid with rfl | rfl
    · rfl
    · exact SCurve.factor25_prefix hXl server
  rw [h.c.edToX_enc h0] at hX
  have hX := Option.some.inj hX
  unfold SCurve.blind25Impl SCurve.blindPoint
  rw [e, e', ← hX, h.c.xToEd_montU h0, hX,
    h.pointMul_enc (h.factor25_lt X server) hf (Curve.abs_ne (C := C.toCurve) h0)]

/-- C78.  `blind25_id` of the account's session id, with or without prefix, as bytes or hex, and
`blinded25_id_from_ed` of its ed25519 key are all the same. -/
theorem blind25_ids (h : C.Good) {pk X server : Bytes} (hX : C.edToX pk = some X) (hs : server.length = 32)
    (hf : leNat (C.factor25 X server) ≠ 0) :
    ∃ id, id.length = 33 ∧ id.head? = some 0x25 ∧ C.blind25Raw X server = .ok id ∧ C.blind25Raw (5 :: X) server = .ok id ∧
      C.blind25Hex (toHex (5 :: X)) (toHex server) = .ok (toHex id) ∧ C.blind25FromEd pk server = .ok id := by
  have hXl := Curve.edToX_length hX
  obtain ⟨P, h0, rfl, -⟩ := h.c.edToX_some hX
  refine ⟨0x25 :: C.enc (leNat (C.factor25 X server) • C.abs P), by simp, rfl, ?_, ?_, ?_, ?_⟩
  · unfold SCurve.blind25Raw
    rw [if_pos (rawArgs_of hXl hs).1, h.impl25_eq h0 hX hf (.inl rfl)]
  · unfold SCurve.blind25Raw
    rw [if_pos (rawArgs_of hXl hs).2, h.impl25_eq h0 hX hf (.inr rfl)]
  · unfold SCurve.blind25Hex
    rw [if_pos (hexArgs_of hXl hs), fromHex_toHex, fromHex_toHex, h.impl25_eq h0 hX hf (.inr rfl)]
    rfl
  · exact h.fromEd25_eq h0 hX hs hf

theorem SCurve.Good.signed25 (h : C.Good) (P : G) (X server : Bytes) :
    leNat (C.factor25Signed (C.enc P) X server) • P = leNat (C.factor25 X server) • C.abs P := by
  unfold SCurve.factor25Signed Curve.abs
  rw [h.c.sgnBit_enc]
  split
  · rw [h.c.scNeg_smul (by unfold SCurve.factor25; exact leBytes_length _ _), neg_nsmul]
  · rfl

theorem SCurve.Good.keyPair25_eq (h : C.Good) {seed sk X server : Bytes} (hk : C.IsKey seed sk) (hs : server.length = 32)
    (hX : C.edToX (C.enc (C.pub seed)) = some X) :
    C.keyPair25 sk server = .ok (C.enc (leNat (C.factor25 X server) • C.abs (C.pub seed)),
      C.scMul (C.factor25Signed (C.enc (C.pub seed)) X server) (C.edScalar (C.edSk seed)),
      C.factor25Signed (C.enc (C.pub seed)) X server) := by
  unfold SCurve.keyPair25
  rw [hk.fullSk]
  show (if server.length ≠ 32 then _ else _) = _
  rw [if_neg (by omega), h.edSk_drop hk.1, hX]
  dsimp only
  rw [h.baseMul_scMul, h.keyScalar hk.1, h.signed25]

/-- C78.  `blind25_key_pair` of the seed or secret key returns the public key of the 25-blinded id and a
private scalar for it. -/
theorem blind25_keypair (h : C.Good) {seed sk X server : Bytes} (hk : C.IsKey seed sk) (hs : server.length = 32)
    (hX : C.edToX (C.enc (C.pub seed)) = some X) (hf : leNat (C.factor25 X server) ≠ 0) :
    ∃ B b k, C.keyPair25 sk server = .ok (B, b, k) ∧
      C.blind25FromEd (C.enc (C.pub seed)) server = .ok (0x25 :: B) ∧ C.baseMul b = B := by
  obtain ⟨P, h0, e, -⟩ := h.c.edToX_some hX
  have e := h.c.enc_inj e
  subst e
  refine ⟨_, _, _, h.keyPair25_eq hk hs hX, h.fromEd25_eq h0 hX hs hf, ?_⟩
  rw [h.baseMul_scMul, h.keyScalar hk.1, h.signed25]

/-- C78.  `blind25_sign` makes a signature that verifies under the key of the 25-blinded id. -/
theorem blind25_signs (h : C.Good) {seed sk X server msg B b k : Bytes} (hk : C.IsKey seed sk) (hs : server.length = 32)
    (hX : C.edToX (C.enc (C.pub seed)) = some X) (hf : leNat (C.factor25 X server) ≠ 0)
    (hB : C.keyPair25 sk server = .ok (B, b, k)) (hr : leNat (C.nonce25 (C.edSk seed) B msg) ≠ 0) :
    ∃ sig, C.sign25 sk server msg = .ok sig ∧ C.sign25 sk (toHex server) msg = .ok sig ∧ C.edVerify B msg sig = true := by
  obtain ⟨P, h0, e, -⟩ := h.c.edToX_some hX
  have e := h.c.enc_inj e
  subst e
  have hkp := h.keyPair25_eq hk hs hX
  rw [hkp] at hB
  have hB := Out.ok.inj hB
  obtain ⟨h1, h2⟩ := Prod.mk.inj hB
  obtain ⟨h2, h3⟩ := Prod.mk.inj h2
  have hkp' := h.keyPair25_eq (sk := C.edSk seed) ⟨hk.1, .inr rfl⟩ hs hX
  have hsv : serverArg server = .ok server := by unfold serverArg; rw [if_pos hs]
  have hsv' : serverArg (toHex server) = .ok server := by
    unfold serverArg
    rw [if_neg (by rw [toHex_length]; omega), if_pos ⟨by rw [toHex_length]; omega, toHex_isHex _⟩, fromHex_toHex]
  refine ⟨C.schnorr (C.nonce25 (C.edSk seed) B msg) b B msg, ?_, ?_, ?_⟩
  · unfold SCurve.sign25
    rw [hk.fullSk]
    show (serverArg server).bind _ = _
    rw [hsv]
    show (C.keyPair25 (C.edSk seed) server).bind _ = _
    rw [hkp', ← h1, ← h2]
    rfl
  · unfold SCurve.sign25
    rw [hk.fullSk]
    show (serverArg (toHex server)).bind _ = _
    rw [hsv']
    show (C.keyPair25 (C.edSk seed) server).bind _ = _
    rw [hkp', ← h1, ← h2]
    rfl
  · have hlt : leNat (C.nonce25 (C.edSk seed) B msg) < C.L := by
      unfold SCurve.nonce25
      rw [h.c.leNat_scReduce]; exact Nat.mod_lt _ h.c.LPrime.pos
    subst h1; subst h2
    exact h.c.schnorr_verifies hlt hr (h.smul_ne (h.factor25_lt X server) hf (Curve.abs_ne (C := C.toCurve) h0))
      (by rw [h.scMul_smul, h.keyScalar hk.1, h.signed25])

/-! ### Recognising a blinded id -/

theorem SCurve.sidMatches15 {sid server : Bytes} {id i j : Bytes} (hc : checkId sid (asc ['0', '5']) = true)
    (hv : (server.length == 64 && isHex server) = true) (hid : id.head? = some 0x15)
    (hb : C.blind15Hex sid server = .ok (i, j)) : C.sidMatches sid (toHex id) server = .ok (toHex id == i || toHex id == j) := by
  match id, hid with
  | _ :: t, hid =>
    have := Option.some.inj hid
    subst this
    unfold SCurve.sidMatches
    rw [hc, hv]
    show (if (true = false) then Out.err .foreign else (C.blind15Hex sid server).bind _) = _
    rw [if_neg (by decide), hb]
    rfl

theorem SCurve.sidMatches25 {sid server : Bytes} {id i : Bytes} (hc : checkId sid (asc ['0', '5']) = true)
    (hv : (server.length == 64 && isHex server) = true) (hid : id.head? = some 0x25)
    (hb : C.blind25Hex sid server = .ok i) : C.sidMatches sid (toHex id) server = .ok (toHex id == i) := by
  match id, hid with
  | _ :: t, hid =>
    have := Option.some.inj hid
    subst this
    unfold SCurve.sidMatches
    rw [hc, hv]
    show (if (true = false) then Out.err .foreign else (C.blind25Hex sid server).bind _) = _
    rw [if_neg (by decide), hb]
    rfl

theorem serverHex {server : Bytes} (hs : server.length = 32) :
    ((toHex server).length == 64 && isHex (toHex server)) = true := by
  rw [toHex_length, toHex_isHex, hs]; rfl

/-- C77.  `session_id_matches_blinded_id` recognises the 15-blinded id of the account — computed from the
account's key — as that of its session id, -/
theorem matches15_own (h : C.Good) {pk X server id : Bytes} (hX : C.edToX pk = some X) (hs : server.length = 32)
    (hf : leNat (C.factor15 server) ≠ 0) (hid : C.blind15FromEd pk server true = .ok id) :
    C.sidMatches (toHex (5 :: X)) (toHex id) (toHex server) = .ok true := by
  obtain ⟨i, hil, hih, -, -, hhex, hor⟩ := blind15_ids h hX hs hf
  have hhead : id.head? = some 0x15 := by
    match i, hih with
    | _ :: t, hih =>
      have := Option.some.inj hih
      subst this
      rcases hor true with e | e
      · rw [e] at hid; rw [← Out.ok.inj hid]; rfl
      · rw [e, flipTop_cons] at hid; rw [← Out.ok.inj hid]; rfl
  rw [SCurve.sidMatches15 (checkId_sid (Curve.edToX_length hX)) (serverHex hs) hhead hhex]
  rcases hor true with e | e <;> rw [e] at hid <;> rw [← Out.ok.inj hid] <;> simp

theorem toHex_inj {a b : Bytes} (h : toHex a = toHex b) : a = b := by
  rw [← fromHex_toHex a, h, fromHex_toHex]

/-- C77.  and of no other session id: if the 15-blinded id of one account matches the session id of another,
the session ids are the same. -/
theorem matches15_sound (h : C.Good) {pk X pk' X' server id : Bytes} (hX : C.edToX pk = some X) (hX' : C.edToX pk' = some X')
    (hs : server.length = 32) (hf : leNat (C.factor15 server) ≠ 0) (hid : C.blind15FromEd pk server true = .ok id)
    (hm : C.sidMatches (toHex (5 :: X')) (toHex id) (toHex server) = .ok true) : X' = X := by
  have hX0 := hX
  have hX0' := hX'
  obtain ⟨P, h0, rfl, rfl⟩ := h.c.edToX_some hX
  obtain ⟨Q, h0', rfl, rfl⟩ := h.c.edToX_some hX'
  have hfe : ∀ {R : G}, R ≠ 0 → C.blind15FromEd (C.enc R) server true =
      .ok (0x15 :: C.enc (leNat (C.factor15 server) • R)) := by
    intro R hR
    unfold SCurve.blind15FromEd SCurve.blindPoint
    rw [if_neg (by simp [hs]), if_neg (by rw [h.c.edToX_enc hR]; simp), h.pointMul_enc (h.factor15_lt server) hf hR]
  rw [hfe h0] at hid
  have hid := Out.ok.inj hid
  subst hid
  obtain ⟨i, hil, hih, -, -, hhex, hor⟩ := blind15_ids h hX0' hs hf
  rw [SCurve.sidMatches15 (checkId_sid (Curve.edToX_length hX0')) (serverHex hs) rfl hhex] at hm
  have hm := Out.ok.inj hm
  rw [Bool.or_eq_true, beq_iff_eq, beq_iff_eq] at hm
  have hkey : leNat (C.factor15 server) • P = leNat (C.factor15 server) • Q ∨
      leNat (C.factor15 server) • P = -(leNat (C.factor15 server) • Q) := by
    have hq := h.smul_ne (h.factor15_lt server) hf h0'
    have hff : ∀ b : Bytes, b.length = 33 → flipTop 32 (flipTop 32 b) = b := by
      intro b hb
      unfold flipTop
      have : (b.set 32 (b.getD 32 0 ^^^ 128)).getD 32 0 = b.getD 32 0 ^^^ 128 := by
        rw [List.getD_eq_getElem?_getD, List.getElem?_set]; simp [hb]
      rw [this, UInt8.xor_assoc, UInt8.xor_self, UInt8.xor_zero, List.set_set]
      apply List.ext_getElem (by simp)
      intro n h1 h2
      rw [List.getElem_set]
      split
      · rename_i e; subst e; rw [List.getD_eq_getElem?_getD, List.getElem?_eq_getElem h2]; rfl
      · rfl
    have hcase : (0x15 :: C.enc (leNat (C.factor15 server) • P)) = 0x15 :: C.enc (leNat (C.factor15 server) • Q) ∨
        (0x15 :: C.enc (leNat (C.factor15 server) • P)) = flipTop 32 (0x15 :: C.enc (leNat (C.factor15 server) • Q)) := by
      rcases hor true with e | e <;> rw [hfe h0'] at e <;> have e := Out.ok.inj e
      · rw [← e] at hm
        rcases hm with hm | hm
        · exact .inl (toHex_inj hm)
        · exact .inr (toHex_inj hm)
      · rcases hm with hm | hm
        · right; rw [e, hff i hil]; exact toHex_inj hm
        · left; rw [e]; exact toHex_inj hm
    rcases hcase with e | e
    · exact .inl (h.c.enc_inj (List.cons.inj e).2)
    · rw [flipTop_cons, ← h.c.enc_neg hq] at e
      exact .inr (h.c.enc_inj (List.cons.inj e).2)
  have hPQ : P = Q ∨ P = -Q := by
    rcases hkey with e | e
    · left
      have : leNat (C.factor15 server) • (P - Q) = 0 := by rw [nsmul_sub, e, sub_self]
      by_contra hne
      exact h.smul_ne (h.factor15_lt server) hf (sub_ne_zero.2 hne) this
    · right
      have : leNat (C.factor15 server) • (P + Q) = 0 := by rw [nsmul_add, e, neg_add_cancel]
      by_contra hne
      exact h.smul_ne (h.factor15_lt server) hf (fun h1 => hne (eq_neg_of_add_eq_zero_left h1)) this
  rcases hPQ with rfl | rfl
  · rfl
  · rw [h.c.yNeg]

/-- C78.  The same for 25-blinded ids: the account's own id is recognised, -/
theorem matches25_own (h : C.Good) {pk X server id : Bytes} (hX : C.edToX pk = some X) (hs : server.length = 32)
    (hf : leNat (C.factor25 X server) ≠ 0) (hid : C.blind25FromEd pk server = .ok id) :
    C.sidMatches (toHex (5 :: X)) (toHex id) (toHex server) = .ok true := by
  obtain ⟨i, hil, hih, -, -, hhex, hor⟩ := blind25_ids h hX hs hf
  rw [hor] at hid
  have hid := Out.ok.inj hid
  subst hid
  rw [SCurve.sidMatches25 (checkId_sid (Curve.edToX_length hX)) (serverHex hs) hih hhex]
  simp

/-- C78.  and a string that is not the lower-case hex form of the session id's blinded id is not. -/
theorem matches_sound (_h : C.Good) {sid bid server : Bytes} (hm : C.sidMatches sid bid server = .ok true) :
    (∃ i j, C.blind15Hex sid server = .ok (i, j) ∧ (bid = i ∨ bid = j)) ∨ C.blind25Hex sid server = .ok bid := by
  unfold SCurve.sidMatches at hm
  split at hm
  · cases hm
  · split at hm
    · split at hm
      · cases hm
      · split at hm
        · cases hm
        · split at hm
          · obtain ⟨⟨i, j⟩, e, hm⟩ := Out.bind_eq_ok.1 hm
            have := Out.ok.inj hm
            rw [Bool.or_eq_true, beq_iff_eq, beq_iff_eq] at this
            exact .inl ⟨i, j, e, this⟩
          · split at hm
            · obtain ⟨i, e, hm⟩ := Out.bind_eq_ok.1 hm
              have := Out.ok.inj hm
              rw [beq_iff_eq] at this
              rw [this]; exact .inr e
            · cases hm
    · cases hm

theorem toHex_noUpper : ∀ (b : Bytes), ∀ c ∈ toHex b, ¬(65 ≤ c ∧ c ≤ 90)
  | [], _, hc => by cases hc
  | x :: t, c, hc => by
    have key : ∀ x : UInt8, ¬(65 ≤ hexDigit (x / 16) ∧ hexDigit (x / 16) ≤ 90) ∧
        ¬(65 ≤ hexDigit (x % 16) ∧ hexDigit (x % 16) ≤ 90) :=
      forall_uint8 (P := fun x => ¬(65 ≤ hexDigit (x / 16) ∧ hexDigit (x / 16) ≤ 90) ∧
        ¬(65 ≤ hexDigit (x % 16) ∧ hexDigit (x % 16) ≤ 90)) (by decide +kernel)
    simp only [toHex, List.mem_cons] at hc
    rcases hc with rfl | rfl | hc
    · exact (key x).1
    · exact (key x).2
    · exact toHex_noUpper t c hc

/-- C78 (a case where the expected behaviour fails).  A blinded id written with an upper-case digit is never
recognised, although the session id and the server's key may be written in either case; -/
theorem matches_uppercase_fails (h : C.Good) {sid bid server : Bytes} {c : UInt8} (hc : c ∈ bid) (hu : 65 ≤ c ∧ c ≤ 90) :
    C.sidMatches sid bid server ≠ .ok true := by
  intro hm
  rcases matches_sound h hm with ⟨i, j, e, hb⟩ | e
  · unfold SCurve.blind15Hex at e
    split at e
    · obtain ⟨id, -, e⟩ := Out.bind_eq_ok.1 e
      have e := Prod.mk.inj (Out.ok.inj e)
      rcases hb with rfl | rfl
      · rw [← e.1] at hc; exact toHex_noUpper _ c hc hu
      · rw [← e.2] at hc; exact toHex_noUpper _ c hc hu
    · cases e
  · unfold SCurve.blind25Hex at e
    split at e
    · obtain ⟨id, -, e⟩ := Out.bind_eq_ok.1 e
      have e := Out.ok.inj e
      rw [← e] at hc; exact toHex_noUpper _ c hc hu
    · cases e

/-- C78 (a case where the expected behaviour fails).  and a blinded id of fewer than two characters is read
beyond its end. -/
theorem matches_short_ub {X bid server : Bytes} (hX : X.length = 32) (hb : bid.length < 2) :
    C.sidMatches (toHex (5 :: X)) bid server = .ub := by
  unfold SCurve.sidMatches
  rw [checkId_sid hX]
  match bid, hb with
  | [], _ => rfl
  | [_], _ => rfl

/-! ### Examples -/

/-- A server's key -/
def toyServer : Bytes := leBytes 32 1

/-- Another seed -/
def toySeed2 : Bytes := leBytes 32 3

/-- The first public key has sign 1, the second sign 0. -/
theorem toyPub : toyCurve.pub toySeed = 4 ∧ toyCurve.pub toySeed2 = 2 := by decide +kernel

/-- The x25519 key of the seed -/
def toyPubX (seed : Bytes) : Bytes := toyCurve.feBytes (montU (toyCurve.y (toyCurve.pub seed)))

theorem toyPubX_eq : toyCurve.edToX (toyCurve.enc (toyCurve.pub toySeed)) = some (toyPubX toySeed) ∧
    toyCurve.edToX (toyCurve.enc (toyCurve.pub toySeed2)) = some (toyPubX toySeed2) :=
  ⟨toyCurve0_good.edToX_enc (by decide +kernel), toyCurve0_good.edToX_enc (by decide +kernel)⟩

theorem toyKey (b : Bool) : toyCurve.IsKey toySeed (if b then toySeed else toyCurve.edSk toySeed) :=
  ⟨by decide, by cases b <;> simp⟩

theorem toyFactors : leNat (toyCurve.factor15 toyServer) ≠ 0 ∧ leNat (toyCurve.factor25 (toyPubX toySeed) toyServer) ≠ 0 ∧
    leNat (toyCurve.factor25 (toyPubX toySeed2) toyServer) ≠ 0 := by decide +kernel

example : ∃ id, toyCurve.blind15Raw (toyPubX toySeed) toyServer = .ok id ∧
    toyCurve.blind15FromEd (toyCurve.enc (toyCurve.pub toySeed)) toyServer true = .ok (flipTop 32 id) :=
  ⟨0x15 :: leBytes 32 3, by decide +kernel, by decide +kernel⟩

example : ∃ id, toyCurve.blind15Raw (toyPubX toySeed) toyServer = .ok id := by
  obtain ⟨id, -, -, h, -⟩ := blind15_ids toyCurve_good toyPubX_eq.1 (by decide) toyFactors.1
  exact ⟨id, h⟩

example : ∃ sig B, (∃ b k, toyCurve.keyPair15 toySeed toyServer = .ok (B, b, k)) ∧
    toyCurve.sign15 toySeed toyServer [7, 8] = .ok sig ∧ toyCurve.edVerify B [7, 8] sig = true := by
  obtain ⟨B, b, hb, -⟩ := blind15_keypair toyCurve_good (toyKey true) (by decide : toyServer.length = 32) (by decide +kernel)
    toyFactors.1
  obtain ⟨sig, h1, -, h3⟩ := blind15_signs toyCurve_good (msg := [7, 8]) (toyKey true) (by decide) (by decide +kernel)
    toyFactors.1 hb (by
      rw [toyCurve_good.keyPair15_eq (toyKey true) (by decide)] at hb
      rw [← (Prod.mk.inj (Out.ok.inj hb)).1]
      decide +kernel)
  exact ⟨sig, B, ⟨b, _, hb⟩, h1, h3⟩

example : ∃ sig B, (∃ b k, toyCurve.keyPair25 toySeed toyServer = .ok (B, b, k)) ∧
    toyCurve.sign25 toySeed toyServer [7, 9] = .ok sig ∧ toyCurve.edVerify B [7, 9] sig = true := by
  obtain ⟨B, b, k, hb, -⟩ := blind25_keypair toyCurve_good (toyKey true) (by decide : toyServer.length = 32) toyPubX_eq.1
    toyFactors.2.1
  obtain ⟨sig, h1, -, h3⟩ := blind25_signs toyCurve_good (msg := [7, 9]) (toyKey true) (by decide) toyPubX_eq.1
    toyFactors.2.1 hb (by
      rw [toyCurve_good.keyPair25_eq (toyKey true) (by decide) toyPubX_eq.1] at hb
      rw [← (Prod.mk.inj (Out.ok.inj hb)).1]
      decide +kernel)
  exact ⟨sig, B, ⟨b, k, hb⟩, h1, h3⟩

example : ∃ id, toyCurve.blind15FromEd (toyCurve.enc (toyCurve.pub toySeed)) toyServer true = .ok id ∧
    toyCurve.sidMatches (toHex (5 :: toyPubX toySeed)) (toHex id) (toHex toyServer) = .ok true ∧
    toyCurve.sidMatches (toHex (5 :: toyPubX toySeed2)) (toHex id) (toHex toyServer) = .ok false :=
  ⟨flipTop 32 (0x15 :: leBytes 32 3), by decide +kernel, matches15_own toyCurve_good toyPubX_eq.1 (by decide) toyFactors.1 (by decide +kernel),
    by decide +kernel⟩

example : ∃ id, toyCurve.blind25FromEd (toyCurve.enc (toyCurve.pub toySeed)) toyServer = .ok id ∧
    toyCurve.sidMatches (toHex (5 :: toyPubX toySeed)) (toHex id) (toHex toyServer) = .ok true := by
  obtain ⟨id, -, -, -, -, -, e⟩ := blind25_ids toyCurve_good toyPubX_eq.1 (by decide : toyServer.length = 32) toyFactors.2.1
  exact ⟨id, e, matches25_own toyCurve_good toyPubX_eq.1 (by decide) toyFactors.2.1 e⟩

end Verif
