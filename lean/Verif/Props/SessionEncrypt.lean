import Verif.SessionEncrypt
import Verif.Props.Multi
import Verif.Props.Subaccount

/-!
# Messages to session ids (C80) and blinded ids (C81)
-/

namespace Verif

variable {G : Type} [AddCommGroup G] [DecidableEq G] {C : ECurve G}

/-! ### To a session id -/

theorem recipientKey_of {X r : Bytes} (hX : X.length = 32) (hr : r = X ∨ r = 5 :: X) : recipientKey r = .ok X := by
  unfold recipientKey
  rcases hr with rfl | rfl
  · rw [if_neg (by omega), if_pos hX]
  · rw [if_pos ⟨by simp [hX], rfl⟩]; rfl

theorem ECurve.Good.xBase_scalar (h : C.Good) {seed X : Bytes} (hX : C.edToX (C.enc (C.pub seed)) = some X) :
    C.xBase (C.edScalar seed) = X := by
  obtain ⟨P, h0, e, rfl⟩ := h.s.c.edToX_some hX
  have e := h.s.c.enc_inj e
  subst e
  rw [h.s.xBase_eq (h.s.edScalar_length seed), h.s.edScalar_clamped]
  rfl

theorem Curve.xBase_length {C : Curve G} (a : Bytes) : (C.xBase a).length = 32 := leBytes_length _ _

theorem ECurve.Good.signFor_eq (h : C.Good) {seed sk X r msg : Bytes} (hk : C.IsKey seed sk) (hX : X.length = 32)
    (hr : r = X ∨ r = 5 :: X) :
    C.signFor sk r msg = .ok (msg ++ C.enc (C.pub seed) ++ C.edSign (C.edSk seed) (msg ++ C.enc (C.pub seed) ++ X)) := by
  unfold ECurve.signFor
  rw [hk.fullSk, Out.ok_bind, recipientKey_of hX hr, Out.ok_bind, h.s.edSk_drop hk.1]

/-- Opening a sealed box with the right keys -/
theorem ECurve.Good.seal_open (h : C.Good) {esk x : Bytes} (msg : Bytes) (he : esk.length = 32) (hx : x.length = 32)
    (he0 : leNat (clampSc esk) • C.B ≠ 0) (hx0 : leNat (clampSc x) • C.B ≠ 0) :
    ∃ c, C.sealTo esk (C.xBase x) msg = .ok c ∧ c.length = msg.length + 48 ∧ C.sealOpenBox (C.xBase x) x c = some msg := by
  obtain ⟨k, hk⟩ := Option.ne_none_iff_exists'.1 (h.dhOk esk x he hx he0 hx0)
  have hk' : C.x25519 x (C.xBase esk) = some k := by rw [h.dh x esk hx he]; exact hk
  have hl := Curve.xBase_length (C := C.toCurve) esk
  refine ⟨C.xBase esk ++ C.box k (C.sealNonce (C.xBase esk) (C.xBase x)) msg, ?_, ?_, ?_⟩
  · unfold ECurve.sealTo ECurve.boxSeal
    rw [hk]
  · rw [List.length_append, hl, h.boxLen]; omega
  · unfold ECurve.sealOpenBox
    have ht : (C.xBase esk ++ C.box k (C.sealNonce (C.xBase esk) (C.xBase x)) msg).take 32 = C.xBase esk := by
      rw [List.take_append_of_le_length (by rw [hl]), List.take_of_length_le (by rw [hl])]
    rw [if_neg (by rw [List.length_append, hl, h.boxLen]; omega), ht, hk', List.drop_left' hl]
    exact h.openBox _ _ _

/-- Reading what was signed and sealed -/
theorem ECurve.Good.incoming_of_open (_h : C.Good) {x ct msg A sig : Bytes} (hx : x.length = 32) (hA : A.length = 32) (hs : sig.length = 64)
    (hl : ct.length = (msg ++ A ++ sig).length + 48) (ho : C.sealOpenBox (C.xBase x) x ct = some (msg ++ A ++ sig))
    (hv : C.edVerify A (msg ++ A ++ C.xBase x) sig = true) : C.decryptIncomingX (C.xBase x) x ct = .ok (msg, A) := by
  have hbl := Curve.xBase_length (C := C.toCurve) x
  have hn : ct.length - 48 - 32 - 64 = msg.length := by
    rw [hl, List.length_append, List.length_append, hA, hs]; omega
  unfold ECurve.decryptIncomingX
  rw [if_neg (by omega), if_neg (by rw [hl, List.length_append, List.length_append, hA, hs]; omega),
    List.take_of_length_le (by rw [hbl]), List.take_of_length_le (by rw [hx]), ho]
  dsimp only
  have e1 : ((msg ++ A ++ sig).drop msg.length).take 32 = A := by
    rw [List.append_assoc, List.drop_left' rfl, List.take_append_of_le_length (by rw [hA]), List.take_of_length_le (by rw [hA])]
  have e2 : (msg ++ A ++ sig).take (msg.length + 32) = msg ++ A := by
    rw [List.take_append_of_le_length (by simp [hA]), List.take_of_length_le (by simp [hA])]
  have e3 : ((msg ++ A ++ sig).drop (msg.length + 32)).take 64 = sig := by
    rw [List.drop_left' (by simp [hA]), List.take_of_length_le (by rw [hs])]
  have e4 : (msg ++ A ++ sig).take msg.length = msg := by
    rw [List.append_assoc, List.take_append_of_le_length (le_refl _), List.take_of_length_le (le_refl _)]
  rw [hn, e1, e2, e3, e4, if_pos hv]

/-- The signature in the message -/
def ECurve.recipientNonce (C : ECurve G) (seed X msg : Bytes) : Bytes :=
  C.edNonce (C.edSk seed) (msg ++ C.enc (C.pub seed) ++ X)

theorem ECurve.Good.sealed_roundtrip (h : C.Good) {sseed rseed rsk X Xs msg esk : Bytes} (hss : sseed.length = 32) (hrk : C.IsKey rseed rsk)
    (hX : C.edToX (C.enc (C.pub rseed)) = some X) (hXs : C.edToX (C.enc (C.pub sseed)) = some Xs) (he : esk.length = 32)
    (he0 : leNat (clampSc esk) • C.B ≠ 0) (hn : leNat (C.recipientNonce sseed X msg) ≠ 0) :
    ∃ c, C.sealTo esk X (msg ++ C.enc (C.pub sseed) ++ C.edSign (C.edSk sseed) (msg ++ C.enc (C.pub sseed) ++ X)) = .ok c ∧
      c.length = msg.length + 144 ∧ C.decryptIncoming rsk c = .ok (msg, C.enc (C.pub sseed)) ∧
      C.decryptIncomingSid rsk c = .ok (msg, asc ['0', '5'] ++ toHex Xs) := by
  have hxb := h.xBase_scalar hX
  have hxl := h.s.edScalar_length rseed
  obtain ⟨P, hr0, e, -⟩ := h.s.c.edToX_some hX
  rw [← h.s.c.enc_inj e] at hr0
  obtain ⟨Q, hs0, e, -⟩ := h.s.c.edToX_some hXs
  rw [← h.s.c.enc_inj e] at hs0
  set signed := msg ++ C.enc (C.pub sseed) ++ C.edSign (C.edSk sseed) (msg ++ C.enc (C.pub sseed) ++ X) with hsg
  have hsl := Curve.edSign_length (C := C.toCurve) (C.edSk sseed) (msg ++ C.enc (C.pub sseed) ++ X)
  obtain ⟨c, hc1, hc2, hc3⟩ := h.seal_open (esk := esk) (x := C.edScalar rseed) signed he hxl he0
    (by rw [h.s.edScalar_clamped]; exact hr0)
  have hdec : C.decryptIncoming rsk c = .ok (msg, C.enc (C.pub sseed)) := by
    unfold ECurve.decryptIncoming
    rw [hrk.fullSk, Out.ok_bind, h.s.edScalar_edSk hrk.1]
    refine h.incoming_of_open hxl (by simp) hsl (by rw [hc2]) hc3 ?_
    rw [hxb]
    exact h.s.edSign_verifies hss hs0 hn
  refine ⟨c, by rw [← hxb]; exact hc1, ?_, hdec, ?_⟩
  · rw [hc2, hsg, List.length_append, List.length_append, hsl, Curve.enc_length]
  · unfold ECurve.decryptIncomingSid
    rw [hdec, Out.ok_bind]
    unfold ECurve.withSid
    dsimp only
    rw [hXs]

/-- C80.  What `encrypt_for_recipient` returns, for every sender, recipient, message and ephemeral key,
`decrypt_incoming` of the recipient decrypts to the message and the sender's ed25519 key, and
`decrypt_incoming_session_id` to the message and the sender's session id; it is 144 bytes longer than the
message.  Sender and recipient may each give the seed or the secret key, and the recipient's session id may be
given with or without prefix. -/
theorem recipient_roundtrip (h : C.Good) {sseed ssk rseed rsk X Xs r msg esk : Bytes} (hsk : C.IsKey sseed ssk)
    (hrk : C.IsKey rseed rsk) (hX : C.edToX (C.enc (C.pub rseed)) = some X) (hXs : C.edToX (C.enc (C.pub sseed)) = some Xs)
    (hr : r = X ∨ r = 5 :: X) (he : esk.length = 32) (he0 : leNat (clampSc esk) • C.B ≠ 0)
    (hn : leNat (C.recipientNonce sseed X msg) ≠ 0) :
    ∃ c, C.encryptFor ssk r msg esk = .ok c ∧ c.length = msg.length + 144 ∧
      C.decryptIncoming rsk c = .ok (msg, C.enc (C.pub sseed)) ∧
      C.decryptIncomingSid rsk c = .ok (msg, asc ['0', '5'] ++ toHex Xs) := by
  obtain ⟨c, h1, h2⟩ := h.sealed_roundtrip hsk.1 hrk hX hXs he he0 hn
  refine ⟨c, ?_, h2⟩
  unfold ECurve.encryptFor
  rw [h.signFor_eq hsk (Curve.edToX_length hX) hr, Out.ok_bind, recipientKey_of (Curve.edToX_length hX) hr]
  exact h1

/-- C80.  The same for `encrypt_for_recipient_deterministic`, whose result depends only on the sender's
account, the recipient and the message: not on whether the seed or the secret key is given, nor on the prefix. -/
theorem recipient_deterministic (h : C.Good) {sseed rseed rsk X Xs msg : Bytes} (hss : sseed.length = 32)
    (hrk : C.IsKey rseed rsk) (hX : C.edToX (C.enc (C.pub rseed)) = some X) (hXs : C.edToX (C.enc (C.pub sseed)) = some Xs)
    (he0 : leNat (clampSc (C.detKey sseed X msg)) • C.B ≠ 0) (hn : leNat (C.recipientNonce sseed X msg) ≠ 0) :
    ∃ c, (∀ ssk r, C.IsKey sseed ssk → r = X ∨ r = 5 :: X → C.encryptForDet ssk r msg = .ok c) ∧
      c.length = msg.length + 144 ∧ C.decryptIncoming rsk c = .ok (msg, C.enc (C.pub sseed)) ∧
      C.decryptIncomingSid rsk c = .ok (msg, asc ['0', '5'] ++ toHex Xs) := by
  have hdl : (C.detKey sseed X msg).length = 32 := h.s.shaTake _
  obtain ⟨c, h1, h2⟩ := h.sealed_roundtrip hss hrk hX hXs hdl he0 hn
  refine ⟨c, ?_, h2⟩
  intro ssk r hsk hr
  have hd : C.detKey ssk X msg = C.detKey sseed X msg := by
    unfold ECurve.detKey
    rcases hsk.2 with rfl | rfl
    · rfl
    · rw [Curve.edSk_take (C := C.toSCurve) hss, List.take_of_length_le (l := sseed) (by rw [hss])]
  unfold ECurve.encryptForDet
  rw [h.signFor_eq hsk (Curve.edToX_length hX) hr, Out.ok_bind, recipientKey_of (Curve.edToX_length hX) hr, Out.ok_bind, hd]
  exact h1

theorem SCurve.Good.edVerify_pkLen {C : SCurve G} (h : C.Good) {pk msg sig : Bytes} (hv : C.edVerify pk msg sig = true) :
    pk.length = 32 := by
  unfold Curve.edVerify at hv
  simp only [Bool.and_eq_true] at hv
  obtain ⟨_, hv⟩ := hv
  split at hv
  · rename_i A R hA hR
    rw [(h.c.dec_some hA).2]; simp
  · cases hv

/-- C80.  Whatever `decrypt_incoming` returns, for arbitrary input: the sender's key signed the message
together with that key and with the recipient's own public key. -/
theorem incoming_signed (h : C.Good) {y x ct m A : Bytes} (hd : C.decryptIncomingX y x ct = .ok (m, A)) :
    A.length = 32 ∧ ∃ sig, C.edVerify A (m ++ A ++ y.take 32) sig = true := by
  unfold ECurve.decryptIncomingX at hd
  split at hd
  · cases hd
  split at hd
  · cases hd
  split at hd
  · cases hd
  rename_i buf hb
  dsimp only at hd
  split at hd
  · rename_i hv
    obtain ⟨h1, h2⟩ := Prod.mk.inj (Out.ok.inj hd)
    subst h1; subst h2
    have hAl : ((buf.drop (ct.length - 48 - 32 - 64)).take 32).length = 32 := by
      exact h.s.edVerify_pkLen hv
    refine ⟨hAl, (buf.drop (ct.length - 48 - 32 - 64 + 32)).take 64, ?_⟩
    have : buf.take (ct.length - 48 - 32 - 64) ++ (buf.drop (ct.length - 48 - 32 - 64)).take 32 =
        buf.take (ct.length - 48 - 32 - 64 + 32) := by
      rw [List.take_add]
    rw [this]
    exact hv
  · cases hd

/-- C80.  So a message is accepted only from the account that signed it, and only by the recipient it was
signed for: if signatures under the sender's key can only be obtained from that account sending messages —
`Sent` being the messages it sent with their recipients — then what is returned was sent by it to this
recipient. -/
theorem incoming_authentic (h : C.Good) {y x ct m A : Bytes} (hy : y.length = 32) (Sent : Bytes → Bytes → Prop)
    (hu : ∀ t sig, C.edVerify A t sig = true → ∃ m' r', Sent m' r' ∧ r'.length = 32 ∧ t = m' ++ A ++ r')
    (hd : C.decryptIncomingX y x ct = .ok (m, A)) : Sent m y := by
  obtain ⟨hA, sig, hv⟩ := incoming_signed h hd
  rw [List.take_of_length_le (by rw [hy])] at hv
  obtain ⟨m', r', hs, hr, e⟩ := hu _ _ hv
  obtain ⟨e1, e2⟩ := List.append_inj' e (by rw [hy, hr])
  obtain ⟨e3, -⟩ := List.append_inj' e1 rfl
  rw [e3, e2]
  exact hs

/-! ### To a blinded id -/

theorem ECurve.Good.pointMul_enc' (h : C.Good) {n : Bytes} {Q : G} (hn : leNat n < 2 ^ 255) (hQ : Q ≠ 0) (hne : leNat n • Q ≠ 0) :
    C.pointMul n (C.enc Q) = some (C.enc (leNat n • Q)) := by
  unfold Curve.pointMul
  rw [h.s.c.dec_enc hQ]
  dsimp only
  rw [Nat.mod_eq_of_lt hn, if_neg hne]

theorem Curve.IsKey.length {C : Curve G} {seed sk : Bytes} (hk : C.IsKey seed sk) : sk.length = 64 ∨ sk.length = 32 := by
  rcases hk with ⟨hs, rfl | rfl⟩
  · exact .inr hs
  · left; simp [Curve.edSk, Curve.baseMul, hs]

theorem ECurve.Good.blindedSecret_eq (h : C.Good) {seed sk server ka : Bytes} {t : UInt8} {P Q : G} (hk : C.IsKey seed sk)
    (hs : server.length = 32) (hsc : C.blindScalar sk (t :: C.enc P) (t :: C.enc Q) server = .ok ka) (hka : leNat ka < 2 ^ 255)
    (hQ : Q ≠ 0) (hne : leNat ka • Q ≠ 0) (s : Bool) :
    C.blindedSecret sk (t :: C.enc P) (t :: C.enc Q) server s =
      .ok (C.blake 32 [] (C.enc (leNat ka • Q) ++ (if s then C.enc P else C.enc Q) ++ (if s then C.enc Q else C.enc P))) := by
  unfold ECurve.blindedSecret
  rw [if_neg, hsc, Out.ok_bind]
  case hnc =>
    rcases hk.length with e | e <;> simp [e, hs]
  show (match C.pointMul ka (C.enc Q) with | none => _ | some shared => _) = _
  rw [h.pointMul_enc' hka hQ hne]
  cases s <;> rfl

/-- A message between two accounts with blinded keys `P`, `Q` -/
theorem ECurve.Good.blinded_core (h : C.Good) {aseed ask bseed bsk server X ka kb nonce : Bytes} (msg : Bytes) {t : UInt8} {P Q : G}
    (hak : C.IsKey aseed ask) (hbk : C.IsKey bseed bsk) (hs : server.length = 32) (hn : nonce.length = 24)
    (hX : C.edToX (C.enc (C.pub aseed)) = some X)
    (hown : C.ownBlinded ask server (t :: C.enc Q) = .ok (t :: C.enc P))
    (hfa : ∀ r w, r.head? = some t → C.fromEd r (C.enc (C.pub aseed)) server w = .ok (t :: C.enc P))
    (hfb : ∀ r w, r.head? = some t → C.fromEd r (C.enc (C.pub bseed)) server w = .ok (t :: C.enc Q))
    (hsa : ∀ sk R S, C.IsKey aseed sk → C.blindScalar sk (t :: C.enc R) (t :: C.enc S) server = .ok ka)
    (hsb : ∀ sk R S, C.IsKey bseed sk → C.blindScalar sk (t :: C.enc R) (t :: C.enc S) server = .ok kb)
    (hka : leNat ka < 2 ^ 255) (hkb : leNat kb < 2 ^ 255) (hP : P ≠ 0) (hQ : Q ≠ 0) (hne : leNat ka • Q ≠ 0)
    (hsym : leNat ka • Q = leNat kb • P) :
    ∃ c, C.encryptBlinded ask server (t :: C.enc Q) msg nonce = .ok c ∧ c.length = msg.length + 73 ∧
      C.decryptBlinded bsk server (t :: C.enc P) (t :: C.enc Q) c = .ok (msg, asc ['0', '5'] ++ toHex X) ∧
      C.decryptBlinded ask server (t :: C.enc P) (t :: C.enc Q) c = .ok (msg, asc ['0', '5'] ++ toHex X) := by
  set key := C.blake 32 [] (C.enc (leNat ka • Q) ++ C.enc P ++ C.enc Q) with hkey
  set body := C.aead key nonce (msg ++ C.enc (C.pub aseed)) with hbody
  have hbl : body.length = msg.length + 48 := by
    rw [hbody, h.aeadLen, List.length_append, Curve.enc_length]
  have hcl : (0 :: (body ++ nonce)).length = msg.length + 73 := by
    rw [List.length_cons, List.length_append, hbl, hn]
  have hfull : ∀ {seed : Bytes}, seed.length = 32 → C.IsKey seed (C.edSk seed) := fun h => ⟨h, .inr rfl⟩
  have hread : C.readBlinded key server (t :: C.enc P) (t :: C.enc Q) (0 :: (body ++ nonce)) =
      .ok (msg, asc ['0', '5'] ++ toHex X) := by
    unfold ECurve.readBlinded
    rw [if_neg (by simp), if_neg (by omega), hcl]
    have e1 : (0 :: (body ++ nonce)).drop (msg.length + 73 - 24) = nonce := by
      rw [show msg.length + 73 - 24 = body.length + 1 by omega]
      show (body ++ nonce).drop body.length = nonce
      exact List.drop_left' rfl
    have e2 : ((0 :: (body ++ nonce)).drop 1).take (msg.length + 73 - 25) = body := by
      show (body ++ nonce).take _ = body
      rw [show msg.length + 73 - 25 = body.length by omega, List.take_append_of_le_length (le_refl _),
        List.take_of_length_le (le_refl _)]
    rw [e1, e2, hbody, h.openSeal]
    dsimp only
    have e3 : (msg ++ C.enc (C.pub aseed)).length - 32 = msg.length := by
      rw [List.length_append, Curve.enc_length]; omega
    rw [e3, List.drop_left' rfl, hX]
    dsimp only
    rw [hfa _ _ rfl, Out.ok_bind, if_pos (by simp [senderMatches]), List.take_append_of_le_length (le_refl _),
      List.take_of_length_le (le_refl _)]
  refine ⟨0 :: (body ++ nonce), ?_, hcl, ?_, ?_⟩
  · unfold ECurve.encryptBlinded
    rw [if_neg, hown, Out.ok_bind, h.blindedSecret_eq hak hs (hsa _ _ _ hak) hka hQ hne, Out.ok_bind, hak.fullSk, Out.ok_bind,
      h.s.edSk_drop hak.1]
    · rfl
    case hnc =>
      rcases hak.length with e | e <;> simp [e, hs]
  · unfold ECurve.decryptBlinded
    rw [hbk.fullSk, Out.ok_bind, if_neg (by omega), if_neg (by simp), h.s.edSk_drop hbk.1, hfb _ _ rfl, Out.ok_bind]
    have hkk : C.blindedKey (C.edSk bseed) server (t :: C.enc P) (t :: C.enc Q) (t :: C.enc Q) = .ok key := by
      unfold ECurve.blindedKey
      split
      · rename_i e
        have e := h.s.c.enc_inj (List.cons.inj e).2
        subst e
        rw [h.blindedSecret_eq (hfull hbk.1) hs (hsb _ _ _ (hfull hbk.1)) hkb hP (by rw [← hsym]; exact hne), ← hsym]
        rfl
      · rw [h.blindedSecret_eq (hfull hbk.1) hs (hsb _ _ _ (hfull hbk.1)) hkb hP (by rw [← hsym]; exact hne), ← hsym]
        rfl
    rw [hkk, Out.ok_bind, hread]
  · unfold ECurve.decryptBlinded
    rw [hak.fullSk, Out.ok_bind, if_neg (by omega), if_neg (by simp), h.s.edSk_drop hak.1, hfa _ _ rfl, Out.ok_bind]
    have hkk : C.blindedKey (C.edSk aseed) server (t :: C.enc P) (t :: C.enc Q) (t :: C.enc P) = .ok key := by
      unfold ECurve.blindedKey
      rw [if_pos rfl, h.blindedSecret_eq (hfull hak.1) hs (hsa _ _ _ (hfull hak.1)) hka hQ hne]
      rfl
    rw [hkk, Out.ok_bind, hread]

theorem SCurve.Good.edScalar_isKey {C : SCurve G} (h : C.Good) {seed sk : Bytes} (hk : C.IsKey seed sk) :
    C.edScalar sk = C.edScalar seed := by
  rcases hk.2 with rfl | rfl
  · rfl
  · exact h.edScalar_edSk hk.1

theorem SCurve.Good.fromEd15_eq {C : SCurve G} (h : C.Good) {R : G} {server : Bytes} (hs : server.length = 32) (hR : R ≠ 0)
    (hf : leNat (C.factor15 server) ≠ 0) (w : Bool) :
    C.blind15FromEd (C.enc R) server w = .ok (0x15 :: C.enc (leNat (C.factor15 server) • R)) := by
  unfold SCurve.blind15FromEd SCurve.blindPoint
  rw [if_neg (by simp [hs]), if_neg (by rw [h.c.edToX_enc hR]; simp), h.pointMul_enc (h.factor15_lt server) hf hR]

theorem SCurve.Good.factor15_ne {C : SCurve G} (h : C.Good) {pk server id : Bytes} {w : Bool} (hid : C.blind15FromEd pk server w = .ok id) :
    leNat (C.factor15 server) ≠ 0 ∧ server.length = 32 := by
  unfold SCurve.blind15FromEd SCurve.blindPoint at hid
  split at hid
  · cases hid
  rename_i hl
  split at hid
  · cases hid
  split at hid
  · rename_i b hb
    refine ⟨?_, by omega⟩
    intro h0
    unfold Curve.pointMul at hb
    split at hb
    · cases hb
    · rw [h0, Nat.zero_mod, zero_nsmul, if_pos rfl] at hb; cases hb
  · cases hid

/-- C81.  15-blinded messages: what `encrypt_for_blinded_recipient` returns for the recipient's 15-blinded id,
for every two accounts, server, message and nonce, `decrypt_from_blinded_recipient` decrypts — for the recipient
and for the sender — to the message and the sender's session id. -/
theorem blinded15_roundtrip (h : C.Good) {aseed ask bseed bsk server X idA idB nonce : Bytes} (msg : Bytes)
    (hak : C.IsKey aseed ask) (hbk : C.IsKey bseed bsk) (hX : C.edToX (C.enc (C.pub aseed)) = some X) (hb0 : C.pub bseed ≠ 0)
    (hA : C.blind15FromEd (C.enc (C.pub aseed)) server false = .ok idA) (hB : C.blind15FromEd (C.enc (C.pub bseed)) server false = .ok idB)
    (hn : nonce.length = 24) :
    ∃ c, C.encryptBlinded ask server idB msg nonce = .ok c ∧ c.length = msg.length + 73 ∧
      C.decryptBlinded bsk server idA idB c = .ok (msg, asc ['0', '5'] ++ toHex X) ∧
      C.decryptBlinded ask server idA idB c = .ok (msg, asc ['0', '5'] ++ toHex X) := by
  obtain ⟨hf, hs⟩ := h.s.factor15_ne hA
  obtain ⟨P, ha0, e, -⟩ := h.s.c.edToX_some hX
  rw [← h.s.c.enc_inj e] at ha0
  rw [h.s.fromEd15_eq hs ha0 hf] at hA
  rw [h.s.fromEd15_eq hs hb0 hf] at hB
  have hA := Out.ok.inj hA
  have hB := Out.ok.inj hB
  subst hA; subst hB
  have hkP := h.s.smul_ne (h.s.factor15_lt server) hf ha0
  have hkQ := h.s.smul_ne (h.s.factor15_lt server) hf hb0
  have hsym : leNat (C.edScalar aseed) • (leNat (C.factor15 server) • C.pub bseed) =
      leNat (C.edScalar bseed) • (leNat (C.factor15 server) • C.pub aseed) := by
    unfold Curve.pub
    generalize leNat (C.edScalar aseed) = a
    generalize leNat (C.edScalar bseed) = b
    generalize leNat (C.factor15 server) = k
    rw [← mul_nsmul, ← mul_nsmul, ← mul_nsmul, ← mul_nsmul]
    exact congrArg (· • C.B) (by ring)
  have hne : leNat (C.edScalar aseed) • (leNat (C.factor15 server) • C.pub bseed) ≠ 0 := by
    intro e
    rcases h.s.c.smul_eq_zero e with hz | hz
    · apply ha0
      unfold Curve.pub
      rw [← h.s.c.smul_mod, hz, zero_nsmul]
    · exact hkQ hz
  refine h.blinded_core msg hak hbk hs hn hX ?_ ?_ ?_ ?_ ?_ (h.s.edScalar_lt aseed) (h.s.edScalar_lt bseed) hkP hkQ hne hsym
  · unfold ECurve.ownBlinded
    rw [if_pos (by simp), h.s.keyPair15_eq hak hs]
    rfl
  · intro r w hr
    unfold ECurve.fromEd
    rw [hr, if_neg (by decide)]
    exact h.s.fromEd15_eq hs ha0 hf w
  · intro r w hr
    unfold ECurve.fromEd
    rw [hr, if_neg (by decide)]
    exact h.s.fromEd15_eq hs hb0 hf w
  · intro sk R S hk
    unfold ECurve.blindScalar
    rw [if_pos ⟨rfl, rfl⟩, h.s.keyPair15_eq hk hs, Out.ok_bind, h.s.edScalar_isKey hk]
  · intro sk R S hk
    unfold ECurve.blindScalar
    rw [if_pos ⟨rfl, rfl⟩, h.s.keyPair15_eq hk hs, Out.ok_bind, h.s.edScalar_isKey hk]

theorem SCurve.Good.factor25_ne {C : SCurve G} (h : C.Good) {pk X server id : Bytes} (hX : C.edToX pk = some X)
    (hid : C.blind25FromEd pk server = .ok id) : leNat (C.factor25 X server) ≠ 0 ∧ server.length = 32 := by
  unfold SCurve.blind25FromEd SCurve.blindPoint at hid
  split at hid
  · cases hid
  rename_i hl
  rw [hX] at hid
  dsimp only at hid
  rw [SCurve.factor25_prefix (Curve.edToX_length hX)] at hid
  split at hid
  · rename_i b hb
    refine ⟨?_, by omega⟩
    intro h0
    unfold Curve.pointMul at hb
    split at hb
    · cases hb
    · rw [h0, Nat.zero_mod, zero_nsmul, if_pos rfl] at hb; cases hb
  · cases hid

/-- C81.  The same for 25-blinded messages. -/
theorem blinded25_roundtrip (h : C.Good) {aseed ask bseed bsk server X XB idA idB nonce : Bytes} (msg : Bytes)
    (hak : C.IsKey aseed ask) (hbk : C.IsKey bseed bsk) (hX : C.edToX (C.enc (C.pub aseed)) = some X)
    (hXB : C.edToX (C.enc (C.pub bseed)) = some XB)
    (hA : C.blind25FromEd (C.enc (C.pub aseed)) server = .ok idA) (hB : C.blind25FromEd (C.enc (C.pub bseed)) server = .ok idB)
    (hn : nonce.length = 24) :
    ∃ c, C.encryptBlinded ask server idB msg nonce = .ok c ∧ c.length = msg.length + 73 ∧
      C.decryptBlinded bsk server idA idB c = .ok (msg, asc ['0', '5'] ++ toHex X) ∧
      C.decryptBlinded ask server idA idB c = .ok (msg, asc ['0', '5'] ++ toHex X) := by
  obtain ⟨hf, hs⟩ := h.s.factor25_ne hX hA
  obtain ⟨hf', -⟩ := h.s.factor25_ne hXB hB
  obtain ⟨P, ha0, e, -⟩ := h.s.c.edToX_some hX
  rw [← h.s.c.enc_inj e] at ha0
  obtain ⟨P', hb0, e, -⟩ := h.s.c.edToX_some hXB
  rw [← h.s.c.enc_inj e] at hb0
  rw [h.s.fromEd25_eq ha0 hX hs hf] at hA
  rw [h.s.fromEd25_eq hb0 hXB hs hf'] at hB
  have hA := Out.ok.inj hA
  have hB := Out.ok.inj hB
  subst hA; subst hB
  have hkP := h.s.smul_ne (h.s.factor25_lt X server) hf (Curve.abs_ne (C := C.toCurve) ha0)
  have hkQ := h.s.smul_ne (h.s.factor25_lt XB server) hf' (Curve.abs_ne (C := C.toCurve) hb0)
  set ka := C.scMul (C.edScalar aseed) (C.factor25Signed (C.enc (C.pub aseed)) X server) with hka
  set kb := C.scMul (C.edScalar bseed) (C.factor25Signed (C.enc (C.pub bseed)) XB server) with hkb
  have hL : ∀ a b, leNat (C.scMul a b) < C.L := fun a b => by
    rw [h.s.c.leNat_scMul]; exact Nat.mod_lt _ h.s.c.LPrime.pos
  have h255 : ∀ a b, leNat (C.scMul a b) < 2 ^ 255 := fun a b =>
    lt_trans (lt_trans (hL a b) h.s.c.LLt) (by norm_num)
  have eP : leNat ka • C.B = leNat (C.factor25 X server) • C.abs (C.pub aseed) := by
    rw [hka, h.s.c.leNat_scMul, h.s.c.smul_mod, ← h.s.signed25, mul_nsmul]
    rfl
  have eQ : leNat kb • C.B = leNat (C.factor25 XB server) • C.abs (C.pub bseed) := by
    rw [hkb, h.s.c.leNat_scMul, h.s.c.smul_mod, ← h.s.signed25, mul_nsmul]
    rfl
  have hsym : leNat ka • (leNat (C.factor25 XB server) • C.abs (C.pub bseed)) =
      leNat kb • (leNat (C.factor25 X server) • C.abs (C.pub aseed)) := by
    rw [← eP, ← eQ, ← mul_nsmul, ← mul_nsmul, Nat.mul_comm]
  have hne : leNat ka • (leNat (C.factor25 XB server) • C.abs (C.pub bseed)) ≠ 0 := by
    intro e
    rcases h.s.c.smul_eq_zero e with hz | hz
    · apply hkP
      rw [← eP, ← h.s.c.smul_mod, hz, zero_nsmul]
    · exact hkQ hz
  refine h.blinded_core msg hak hbk hs hn hX ?_ ?_ ?_ ?_ ?_ (h255 _ _) (h255 _ _) hkP hkQ hne hsym
  · unfold ECurve.ownBlinded
    rw [if_neg (by simp), if_pos (by simp), h.s.keyPair25_eq hak hs hX, Out.ok_bind, ← eP]
  · intro r w hr
    unfold ECurve.fromEd
    rw [hr, if_pos rfl]
    exact h.s.fromEd25_eq ha0 hX hs hf
  · intro r w hr
    unfold ECurve.fromEd
    rw [hr, if_pos rfl]
    exact h.s.fromEd25_eq hb0 hXB hs hf'
  · intro sk R S hk
    unfold ECurve.blindScalar
    rw [if_neg (by simp), if_pos ⟨rfl, rfl⟩, h.s.keyPair25_eq hk hs hX, Out.ok_bind, h.s.edScalar_isKey hk]
  · intro sk R S hk
    unfold ECurve.blindScalar
    rw [if_neg (by simp), if_pos ⟨rfl, rfl⟩, h.s.keyPair25_eq hk hs hXB, Out.ok_bind, h.s.edScalar_isKey hk]


theorem ECurve.Good.readBlinded_ok (h : C.Good) {key server sid rid ct m s : Bytes}
    (hd : C.readBlinded key server sid rid ct = .ok (m, s)) :
    ∃ pk X nonce, pk.length = 32 ∧ nonce.length = 24 ∧ C.edToX pk = some X ∧ s = asc ['0', '5'] ++ toHex X ∧
      ct = 0 :: (C.aead key nonce (m ++ pk) ++ nonce) ∧
      ∃ id, C.fromEd rid pk server true = .ok id ∧ senderMatches sid id = true := by
  unfold ECurve.readBlinded at hd
  split at hd
  · cases hd
  rename_i h0
  split at hd
  · cases hd
  rename_i hl
  split at hd
  · cases hd
  rename_i buf hb
  dsimp only at hd
  split at hd
  · cases hd
  rename_i X hX
  obtain ⟨id, hid, hd⟩ := Out.bind_eq_ok.1 hd
  split at hd
  · rename_i hm
    obtain ⟨e1, e2⟩ := Prod.mk.inj (Out.ok.inj hd)
    have hc := h.sealOpen _ _ _ _ hb
    match ct, h0 with
    | b :: t, h0 =>
      have : b = 0 := by simpa using h0
      subst this
      rw [List.length_cons] at hl
      have ht : ((0 :: t).drop 1).take ((0 :: t).length - 25) = t.take (t.length - 24) := by
        show t.take _ = _
        rw [List.length_cons]; congr 1
      have hn : (0 :: t).drop ((0 :: t).length - 24) = t.drop (t.length - 24) := by
        rw [List.length_cons, show t.length + 1 - 24 = (t.length - 24) + 1 by omega]; rfl
      rw [ht, hn] at hc
      have hbl : buf.length + 16 = t.length - 24 := by
        have := congrArg List.length hc
        rw [List.length_take, h.aeadLen] at this
        omega
      refine ⟨buf.drop (buf.length - 32), X, t.drop (t.length - 24), ?_, ?_, hX, e2.symm, ?_, id, hid, hm⟩
      · rw [List.length_drop]; omega
      · rw [List.length_drop]; omega
      · rw [← e1, List.take_append_drop, ← hc, List.take_append_drop]
    | [], h0 => simp at h0
  · cases hd

/-- C81.  Whatever `decrypt_from_blinded_recipient` returns for a 25-blinded recipient, for arbitrary input: the
session id is that of an account whose 25-blinded id is the given sender id, as `session_id_matches_blinded_id`
confirms, and the ciphertext is the encryption of the message with that account's key appended. -/
theorem blinded25_sender (h : C.Good) {sk server sid rid ct m s : Bytes} (hr : rid.head? = some 0x25)
    (hd : C.decryptBlinded sk server sid rid ct = .ok (m, s)) :
    (∃ pk X, C.edToX pk = some X ∧ s = asc ['0', '5'] ++ toHex X ∧ C.blind25FromEd pk server = .ok sid ∧
      ∃ key nonce, nonce.length = 24 ∧ ct = 0 :: (C.aead key nonce (m ++ pk) ++ nonce)) ∧
    C.sidMatches s (toHex sid) (toHex server) = .ok true := by
  unfold ECurve.decryptBlinded at hd
  obtain ⟨sk', -, hd⟩ := Out.bind_eq_ok.1 hd
  split at hd
  · cases hd
  split at hd
  · cases hd
  obtain ⟨own, -, hd⟩ := Out.bind_eq_ok.1 hd
  obtain ⟨key, -, hd⟩ := Out.bind_eq_ok.1 hd
  obtain ⟨pk, X, nonce, -, hn, hX, hs, hct, id, hid, hm⟩ := h.readBlinded_ok hd
  unfold ECurve.fromEd at hid
  rw [if_pos hr] at hid
  have hhead : id.head? = some 0x25 := by
    unfold SCurve.blind25FromEd at hid
    split at hid
    · cases hid
    rw [hX] at hid
    dsimp only at hid
    unfold SCurve.blindPoint at hid
    split at hid
    · rw [← Out.ok.inj hid]; rfl
    · cases hid
  have hsid : sid = id := by
    unfold senderMatches at hm
    rw [hhead] at hm
    simpa using hm
  subst hsid
  obtain ⟨hf, hsl⟩ := h.s.factor25_ne hX hid
  refine ⟨⟨pk, X, hX, hs, hid, key, nonce, hn, hct⟩, ?_⟩
  rw [hs]
  exact matches25_own h.s hX hsl hf hid

/-- C81.  For a 15-blinded recipient only a weaker property holds: the sender id is the account's 15-blinded id,
or differs from it in the highest bit of the second-last byte.  (The comment in the code says the sign was
meant, which is in the last byte.) -/
theorem blinded15_sender (h : C.Good) {sk server sid rid ct m s : Bytes} (hr : rid.head? = some 0x15)
    (hd : C.decryptBlinded sk server sid rid ct = .ok (m, s)) :
    ∃ pk X id, C.edToX pk = some X ∧ s = asc ['0', '5'] ++ toHex X ∧ C.blind15FromEd pk server true = .ok id ∧
      (∃ key nonce, nonce.length = 24 ∧ ct = 0 :: (C.aead key nonce (m ++ pk) ++ nonce)) ∧
      (sid = id ∧ C.sidMatches s (toHex sid) (toHex server) = .ok true ∨ sid = flipTop 31 id) := by
  unfold ECurve.decryptBlinded at hd
  obtain ⟨sk', -, hd⟩ := Out.bind_eq_ok.1 hd
  split at hd
  · cases hd
  split at hd
  · cases hd
  obtain ⟨own, -, hd⟩ := Out.bind_eq_ok.1 hd
  obtain ⟨key, -, hd⟩ := Out.bind_eq_ok.1 hd
  obtain ⟨pk, X, nonce, -, hn, hX, hs, hct, id, hid, hm⟩ := h.readBlinded_ok hd
  unfold ECurve.fromEd at hid
  rw [if_neg (by rw [hr]; decide)] at hid
  obtain ⟨hf, hsl⟩ := h.s.factor15_ne hid
  refine ⟨pk, X, id, hX, hs, hid, ⟨key, nonce, hn, hct⟩, ?_⟩
  unfold senderMatches at hm
  simp only [Bool.or_eq_true, beq_iff_eq, Bool.and_eq_true] at hm
  rcases hm with e | ⟨-, e⟩
  · subst e
    rw [hs]
    exact .inl ⟨rfl, matches15_own h.s hX hsl hf hid⟩
  · exact .inr e

/-- C81.  An empty recipient id is undefined behaviour in `decrypt_from_blinded_recipient` (not in
`encrypt_for_blinded_recipient`, which checks it). -/
theorem blinded_empty_recipient_ub {seed sk server sid ct : Bytes} (hk : C.IsKey seed sk) (hc : 41 ≤ ct.length) :
    C.decryptBlinded sk server sid [] ct = .ub ∧ ∀ msg nonce, C.encryptBlinded sk server [] msg nonce = .err .foreign := by
  refine ⟨?_, fun msg nonce => ?_⟩
  · unfold ECurve.decryptBlinded
    rw [hk.fullSk, Out.ok_bind, if_neg (by omega), if_pos rfl]
  · unfold ECurve.encryptBlinded
    rw [if_pos (by simp)]

theorem ECurve.Good.flip_enc (h : C.Good) {P : G} (hP : P ≠ 0) : flipTop 32 (0x15 :: C.enc P) = 0x15 :: C.enc (-P) := by
  rw [flipTop_cons, h.s.c.enc_neg hP]

theorem Curve.Good.neg_ne {C : Curve G} (h : C.Good) {P : G} (hP : P ≠ 0) : -P ≠ P := by
  intro e
  have := h.sgnNeg P hP
  rw [e] at this
  cases hs : C.sgn P <;> rw [hs] at this <;> cases this

/-- C81 fails for the other 15-blinded id.  `blind15_id` returns two candidates for every session id, of which
either may be the recipient's; a message encrypted to the one that is not computed from the account's key
cannot be read by the recipient, whichever of the two ids are given for sender and recipient: the key is then
derived from different bytes. -/
theorem blinded15_alternative_unreadable (h : C.Good) {aseed ask bseed bsk server idA idB nonce : Bytes} (msg : Bytes)
    (hak : C.IsKey aseed ask) (hbk : C.IsKey bseed bsk) (ha0 : C.pub aseed ≠ 0) (hb0 : C.pub bseed ≠ 0) (hab : idA ≠ idB)
    (hA : C.blind15FromEd (C.enc (C.pub aseed)) server false = .ok idA) (hB : C.blind15FromEd (C.enc (C.pub bseed)) server false = .ok idB)
    (hn : nonce.length = 24) {sid rid : Bytes} (hsid : sid = idA ∨ sid = flipTop 32 idA) (hrid : rid = idB ∨ rid = flipTop 32 idB) :
    ∃ t t', t ≠ t' ∧ C.encryptBlinded ask server (flipTop 32 idB) msg nonce =
        .ok (0 :: (C.aead (C.blake 32 [] t) nonce (msg ++ C.enc (C.pub aseed)) ++ nonce)) ∧
      (C.aeadOpen (C.blake 32 [] t') nonce (C.aead (C.blake 32 [] t) nonce (msg ++ C.enc (C.pub aseed))) = none →
        C.decryptBlinded bsk server sid rid (0 :: (C.aead (C.blake 32 [] t) nonce (msg ++ C.enc (C.pub aseed)) ++ nonce)) =
          .err .foreign) := by
  obtain ⟨hf, hs⟩ := h.s.factor15_ne hA
  rw [h.s.fromEd15_eq hs ha0 hf] at hA
  rw [h.s.fromEd15_eq hs hb0 hf] at hB
  have hA := Out.ok.inj hA
  have hB := Out.ok.inj hB
  subst hA; subst hB
  have hkP := h.s.smul_ne (h.s.factor15_lt server) hf ha0
  have hkQ := h.s.smul_ne (h.s.factor15_lt server) hf hb0
  have hsym : leNat (C.edScalar aseed) • (leNat (C.factor15 server) • C.pub bseed) =
      leNat (C.edScalar bseed) • (leNat (C.factor15 server) • C.pub aseed) := by
    unfold Curve.pub
    generalize leNat (C.edScalar aseed) = a
    generalize leNat (C.edScalar bseed) = b
    generalize leNat (C.factor15 server) = k
    rw [← mul_nsmul, ← mul_nsmul, ← mul_nsmul, ← mul_nsmul]
    exact congrArg (· • C.B) (by ring)
  generalize hPe : leNat (C.factor15 server) • C.pub aseed = P at *
  generalize hQe : leNat (C.factor15 server) • C.pub bseed = Q at *
  have scalar_ne : ∀ {seed : Bytes} {R : G}, C.pub seed ≠ 0 → R ≠ 0 → leNat (C.edScalar seed) • R ≠ 0 := by
    intro seed R hz hR e
    rcases h.s.c.smul_eq_zero e with hz' | hz'
    · apply hz
      unfold Curve.pub
      rw [← h.s.c.smul_mod, hz', zero_nsmul]
    · exact hR hz'
  have hfull : ∀ {seed : Bytes}, seed.length = 32 → C.IsKey seed (C.edSk seed) := fun h => ⟨h, .inr rfl⟩
  have hsc : ∀ {seed sk : Bytes} (R S : G), C.IsKey seed sk →
      C.blindScalar sk (0x15 :: C.enc R) (0x15 :: C.enc S) server = .ok (C.edScalar seed) := by
    intro seed sk R S hk
    unfold ECurve.blindScalar
    rw [if_pos ⟨rfl, rfl⟩, h.s.keyPair15_eq hk hs, Out.ok_bind, h.s.edScalar_isKey hk]
  have hsec : ∀ {seed sk : Bytes} {R S : G} (b : Bool), C.IsKey seed sk → C.pub seed ≠ 0 → S ≠ 0 →
      C.blindedSecret sk (0x15 :: C.enc R) (0x15 :: C.enc S) server b =
        .ok (C.blake 32 [] (C.enc (leNat (C.edScalar seed) • S) ++ (if b then C.enc R else C.enc S) ++ (if b then C.enc S else C.enc R))) := by
    intro seed sk R S b hk hz hS
    exact h.blindedSecret_eq hk hs (hsc R S hk) (h.s.edScalar_lt seed) hS (scalar_ne hz hS) b
  have hQn : -Q ≠ 0 := neg_ne_zero.2 hkQ
  have hPn : -P ≠ 0 := neg_ne_zero.2 hkP
  -- the sender's and the recipient's points, as the recipient is given them
  obtain ⟨S, hS0, hSid, hS⟩ : ∃ S : G, S ≠ 0 ∧ sid = 0x15 :: C.enc S ∧ (S = P ∨ S = -P) := by
    rcases hsid with e | e
    · exact ⟨P, hkP, e, .inl rfl⟩
    · exact ⟨-P, hPn, by rw [e, h.flip_enc hkP], .inr rfl⟩
  obtain ⟨R, hR0, hRid, hR⟩ : ∃ R : G, R ≠ 0 ∧ rid = 0x15 :: C.enc R ∧ (R = Q ∨ R = -Q) := by
    rcases hrid with e | e
    · exact ⟨Q, hkQ, e, .inl rfl⟩
    · exact ⟨-Q, hQn, by rw [e, h.flip_enc hkQ], .inr rfl⟩
  subst hSid; subst hRid
  have hPQ : P ≠ Q := fun e => hab (by rw [e])
  set t := C.enc (leNat (C.edScalar aseed) • -Q) ++ C.enc P ++ C.enc (-Q) with ht
  have henc : C.encryptBlinded ask server (flipTop 32 (0x15 :: C.enc Q)) msg nonce =
      .ok (0 :: (C.aead (C.blake 32 [] t) nonce (msg ++ C.enc (C.pub aseed)) ++ nonce)) := by
    rw [h.flip_enc hkQ]
    have hown : C.ownBlinded ask server (0x15 :: C.enc (-Q)) = .ok (0x15 :: C.enc P) := by
      unfold ECurve.ownBlinded
      rw [if_pos (by simp), h.s.keyPair15_eq hak hs, ← hPe]
      rfl
    unfold ECurve.encryptBlinded
    rw [if_neg, hown, Out.ok_bind, hsec true hak ha0 hQn, Out.ok_bind, hak.fullSk, Out.ok_bind, h.s.edSk_drop hak.1]
    · rfl
    case hnc => rcases hak.length with e | e <;> simp [e, hs]
  -- the key the recipient derives
  have hkey : ∃ t', t ≠ t' ∧ C.blindedKey (C.edSk bseed) server (0x15 :: C.enc S) (0x15 :: C.enc R) (0x15 :: C.enc Q) =
      .ok (C.blake 32 [] t') := by
    unfold ECurve.blindedKey
    split
    · rename_i e
      have e := h.s.c.enc_inj (List.cons.inj e).2
      refine ⟨_, ?_, hsec true (hfull hbk.1) hb0 hR0⟩
      intro e'
      obtain ⟨e1, -⟩ := List.append_inj e' (by simp)
      obtain ⟨-, e2⟩ := List.append_inj e1 (by simp)
      rw [if_pos rfl] at e2
      exact hPQ ((h.s.c.enc_inj e2).trans e)
    · refine ⟨_, ?_, hsec false (hfull hbk.1) hb0 hS0⟩
      intro e'
      obtain ⟨e1, e3⟩ := List.append_inj e' (by simp)
      obtain ⟨e4, e2⟩ := List.append_inj e1 (by simp)
      have e2 := h.s.c.enc_inj (by simpa using e2 : C.enc P = C.enc S)
      have e4 := h.s.c.enc_inj e4
      rw [← e2, ← hsym, neg_nsmul] at e4
      exact h.s.c.neg_ne (scalar_ne ha0 hkQ) e4
  obtain ⟨t', hne, hkey⟩ := hkey
  refine ⟨t, t', hne, henc, ?_⟩
  intro hno
  set body := C.aead (C.blake 32 [] t) nonce (msg ++ C.enc (C.pub aseed)) with hbody
  have hbl : body.length = msg.length + 48 := by
    rw [hbody, h.aeadLen, List.length_append, Curve.enc_length]
  have hcl : (0 :: (body ++ nonce)).length = msg.length + 73 := by
    rw [List.length_cons, List.length_append, hbl, hn]
  unfold ECurve.decryptBlinded
  have hfb : C.fromEd (0x15 :: C.enc R) (C.enc (C.pub bseed)) server false = .ok (0x15 :: C.enc Q) := by
    unfold ECurve.fromEd
    rw [if_neg (by simp), h.s.fromEd15_eq hs hb0 hf, hQe]
  rw [hbk.fullSk, Out.ok_bind, if_neg (by omega), if_neg (by simp), h.s.edSk_drop hbk.1, hfb, Out.ok_bind, hkey, Out.ok_bind]
  unfold ECurve.readBlinded
  rw [if_neg (by simp), if_neg (by omega), hcl]
  have e1 : (0 :: (body ++ nonce)).drop (msg.length + 73 - 24) = nonce := by
    rw [show msg.length + 73 - 24 = body.length + 1 by omega]
    show (body ++ nonce).drop body.length = nonce
    exact List.drop_left' rfl
  have e2 : ((0 :: (body ++ nonce)).drop 1).take (msg.length + 73 - 25) = body := by
    show (body ++ nonce).take _ = body
    rw [show msg.length + 73 - 25 = body.length by omega, List.take_append_of_le_length (le_refl _),
      List.take_of_length_le (le_refl _)]
  rw [e1, e2, hno]

/-! ### Names and push notifications -/

/-- The key for a name -/
def ECurve.onsKey (C : ECurve G) (name : Bytes) : Bytes := C.blake 32 (C.blake 32 [] name) name

/-- C82.  `decrypt_ons_response` returns a session id exactly if the ciphertext is the encryption of 33 bytes
with the key of the name, and then these bytes in hex. -/
theorem ons_response (h : C.Good) (name ct nonce s : Bytes) :
    C.decryptOns name ct nonce = .ok s ↔
      nonce.length = 24 ∧ ∃ id, id.length = 33 ∧ ct = C.aead (C.onsKey name) nonce id ∧ s = toHex id := by
  unfold ECurve.decryptOns
  constructor
  · intro hd
    split at hd
    · cases hd
    rename_i hl
    split at hd
    · cases hd
    rename_i buf hb
    split at hd
    · cases hd
    rename_i hbl
    exact ⟨by omega, buf, by omega, h.sealOpen _ _ _ _ hb, (Out.ok.inj hd).symm⟩
  · rintro ⟨hn, id, hid, rfl, rfl⟩
    rw [if_neg (by rw [h.aeadLen]; omega)]
    show (match C.aeadOpen (C.onsKey name) nonce (C.aead (C.onsKey name) nonce id) with | none => _ | some buf => _) = _
    rw [h.openSeal]
    dsimp only
    rw [if_neg (by omega)]

theorem stripEnd_append {m : Bytes} (n : Nat) (hm : m ≠ []) (hl : m.getLast? ≠ some 0) :
    stripEnd (m ++ List.replicate n 0) = m := by
  unfold stripEnd
  have : ∀ n, (List.replicate n (0 : UInt8) ++ m.reverse).dropWhile (· == 0) = m.reverse := by
    intro n
    induction n with
    | zero =>
      match hr : m.reverse with
      | [] => rfl
      | b :: t =>
        have : m.getLast? = some b := by rw [List.getLast?_eq_head?_reverse, hr]; rfl
        have hb : b ≠ 0 := fun e => hl (by rw [this, e])
        show List.dropWhile _ (b :: t) = _
        rw [List.dropWhile_cons_of_neg (by simpa using hb)]
    | succ n ih =>
      rw [List.replicate_succ, List.cons_append, List.dropWhile_cons_of_pos (by simp), ih]
  rw [List.reverse_append, List.reverse_replicate, this]
  match hr : m.reverse with
  | [] => exact absurd (List.reverse_eq_nil_iff.1 hr) hm
  | b :: t =>
    dsimp only
    rw [← hr, List.reverse_reverse]

theorem stripEnd_zeros (n : Nat) : stripEnd (List.replicate n 0) = List.replicate n 0 := by
  unfold stripEnd
  have : (List.replicate n (0 : UInt8)).dropWhile (· == 0) = [] := by
    induction n with
    | zero => rfl
    | succ n ih => rw [List.replicate_succ, List.dropWhile_cons_of_pos (by simp), ih]
  rw [List.reverse_replicate, this]

/-- Every byte string is a string not ending in NUL followed by NULs. -/
theorem exists_zero_padding (b : Bytes) : ∃ m n, b = m ++ List.replicate n 0 ∧ m.getLast? ≠ some 0 := by
  induction b using List.reverseRecOn with
  | nil => exact ⟨[], 0, rfl, by simp⟩
  | append_singleton t x ih =>
    by_cases hx : x = 0
    · obtain ⟨m, n, e, hm⟩ := ih
      refine ⟨m, n + 1, ?_, hm⟩
      rw [hx, e, List.replicate_succ', List.append_assoc]
    · exact ⟨t ++ [x], 0, by simp, by simpa using hx⟩

/-- C82.  `decrypt_push_notification` returns exactly the message that was encrypted, without the NUL bytes it
was padded with: for every message not ending in NUL and any padding.  Conversely whatever it returns is
obtained that way, or consists of NUL bytes only. -/
theorem push_notification (h : C.Good) {key nonce m : Bytes} (n : Nat) (hk : key.length = 32) (hn : nonce.length = 24)
    (hm : m ≠ []) (hl : m.getLast? ≠ some 0) :
    C.decryptPush (nonce ++ C.aead key nonce (m ++ List.replicate n 0)) key = .ok m := by
  unfold ECurve.decryptPush
  rw [if_neg (by rw [List.length_append, h.aeadLen, hn]; omega), if_neg (by omega),
    List.take_append_of_le_length (by omega), List.take_of_length_le (by omega), List.drop_left' hn, h.openSeal]
  dsimp only
  rw [stripEnd_append n hm hl]

theorem push_notification_sound (h : C.Good) {payload key m : Bytes} (hd : C.decryptPush payload key = .ok m) :
    key.length = 32 ∧ ∃ nonce n, nonce.length = 24 ∧ payload = nonce ++ C.aead key nonce (m ++ List.replicate n 0) ∧
      (m.getLast? ≠ some 0 ∨ m = List.replicate m.length 0 ∧ n = 0) := by
  unfold ECurve.decryptPush at hd
  split at hd
  · cases hd
  rename_i hp
  split at hd
  · cases hd
  rename_i hk
  split at hd
  · cases hd
  rename_i buf hb
  have hc := h.sealOpen _ _ _ _ hb
  have hm := Out.ok.inj hd
  obtain ⟨m', n, e, hl⟩ := exists_zero_padding buf
  refine ⟨by omega, payload.take 24, ?_⟩
  have h24 : (payload.take 24).length = 24 := by rw [List.length_take]; omega
  by_cases hm' : m' = []
  · subst hm'
    rw [List.nil_append] at e
    rw [e, stripEnd_zeros] at hm
    refine ⟨0, h24, ?_, .inr ⟨?_, rfl⟩⟩
    · rw [List.replicate_zero, List.append_nil, ← hm, ← e, ← hc, List.take_append_drop]
    · rw [← hm, List.length_replicate]
  · rw [e, stripEnd_append n hm' hl] at hm
    subst hm
    exact ⟨n, h24, by rw [← e, ← hc, List.take_append_drop], .inl hl⟩

/-- C82.  An empty message that was padded is returned as its padding. -/
theorem push_notification_empty (h : C.Good) {key nonce : Bytes} (n : Nat) (hk : key.length = 32) (hn : nonce.length = 24) :
    C.decryptPush (nonce ++ C.aead key nonce (List.replicate n 0)) key = .ok (List.replicate n 0) := by
  unfold ECurve.decryptPush
  rw [if_neg (by rw [List.length_append, h.aeadLen, hn]; omega), if_neg (by omega),
    List.take_append_of_le_length (by omega), List.take_of_length_le (by omega), List.drop_left' hn, h.openSeal]
  dsimp only
  rw [stripEnd_zeros]

/-! ### Examples -/

/-- The point of a multiple of an x25519 key -/
def toyX25519 (a X : Bytes) : Option Bytes := match toyCurve.dec (toyCurve.xToEd X) with
  | none => none
  | some P =>
    if leNat (clampSc a) • P = 0 then none else some (toyCurve.feBytes (montU (toyCurve.y (leNat (clampSc a) • P))))

/-- The small curve with ciphers which append a tag made of key and nonce -/
def toyE : ECurve Five where
  toSCurve := toyCurve
  x25519 := toyX25519
  box := toyM.aead
  boxOpen := toyM.aeadOpen
  aead := toyM.aead
  aeadOpen := toyM.aeadOpen


/-- The same, for scalars modulo five -/
def toyDh (m n : Nat) : Option Bytes := match toyCurve.dec (toyCurve.xToEd (toyCurve.feBytes (montU (toyCurve.y (fiveMul n 1))))) with
  | none => none
  | some P => if fiveMul m P = 0 then none else some (toyCurve.feBytes (montU (toyCurve.y (fiveMul m P))))

theorem fiveMul_mod (n : Nat) (P : Five) : fiveMul n P = fiveMul (n % 5) P := by
  apply Fin.ext
  show n * P.val % 5 = n % 5 * P.val % 5
  exact ((Nat.mod_modEq n 5).symm).mul_right _

theorem toyX25519_eq (a : Bytes) {b : Bytes} (hb : b.length = 32) :
    toyX25519 a (toyCurve.xBase b) = toyDh (leNat (clampSc a) % 5) (leNat (clampSc b) % 5) := by
  rw [toyCurve_good.xBase_eq hb]
  have e1 : ∀ (n : Nat) (P : Five), n • P = fiveMul (n % 5) P := fun n P => fiveMul_mod n P
  have e2 : toyCurve.B = 1 := rfl
  unfold toyX25519 toyDh
  rw [e2, e1]
  simp only [e1]

theorem toyE_good : toyE.Good where
  s := toyCurve_good
  dh := fun a b ha hb => by
    have key : ∀ m n : Fin 5, toyDh m.val n.val = toyDh n.val m.val := by decide +kernel
    show toyX25519 a (toyCurve.xBase b) = toyX25519 b (toyCurve.xBase a)
    rw [toyX25519_eq a hb, toyX25519_eq b ha]
    exact key ⟨_, Nat.mod_lt _ (by decide)⟩ ⟨_, Nat.mod_lt _ (by decide)⟩
  dhOk := fun a b ha hb ha0 hb0 => by
    have key : ∀ m n : Fin 5, fiveMul m.val 1 ≠ 0 → fiveMul n.val 1 ≠ 0 → toyDh m.val n.val ≠ none := by decide +kernel
    show toyX25519 a (toyCurve.xBase b) ≠ none
    rw [toyX25519_eq a hb]
    refine key ⟨_, Nat.mod_lt _ (by decide)⟩ ⟨_, Nat.mod_lt _ (by decide)⟩ ?_ ?_
    · rw [← fiveMul_mod]; exact ha0
    · rw [← fiveMul_mod]; exact hb0
  boxLen := toyM_good.aeadLen
  openBox := toyM_good.openSeal
  boxOpen := toyM_good.sealOpen
  aeadLen := toyM_good.aeadLen
  openSeal := toyM_good.openSeal
  sealOpen := toyM_good.sealOpen

theorem toyKey2 (b : Bool) : toyCurve.IsKey toySeed2 (if b then toySeed2 else toyCurve.edSk toySeed2) :=
  ⟨by decide, by cases b <;> simp⟩

def toyEsk : Bytes := leBytes 32 107
def toyNonce24 : Bytes := leBytes 24 77

example : ∃ c, toyE.encryptFor toySeed (5 :: toyPubX toySeed2) [104, 105] toyEsk = .ok c ∧
    toyE.decryptIncoming (toyE.edSk toySeed2) c = .ok ([104, 105], toyE.enc (toyE.pub toySeed)) := by
  obtain ⟨c, h1, -, h2, -⟩ := recipient_roundtrip toyE_good (msg := [104, 105]) (esk := toyEsk) (toyKey true) (toyKey2 false) toyPubX_eq.2 toyPubX_eq.1
    (.inr rfl) (by decide) (by decide +kernel) (by decide +kernel)
  exact ⟨c, h1, h2⟩

example : ∃ c, toyE.encryptForDet toySeed (toyPubX toySeed2) [104, 105] = .ok c ∧
    toyE.decryptIncoming toySeed2 c = .ok ([104, 105], toyE.enc (toyE.pub toySeed)) := by
  obtain ⟨c, h1, -, h2, -⟩ := recipient_deterministic toyE_good (msg := [104, 105]) (by decide : toySeed.length = 32) (toyKey2 true) toyPubX_eq.2
    toyPubX_eq.1 (by decide +kernel) (by decide +kernel)
  exact ⟨c, h1 _ _ (toyKey true) (.inl rfl), h2⟩

/-- A message accepted by `decrypt_incoming`; the recipient of another one does not accept it. -/
example : ∃ c m A, toyE.decryptIncomingX (toyE.xBase (toyE.edScalar toySeed2)) (toyE.edScalar toySeed2) c = .ok (m, A) ∧
    m = [104, 105] ∧ ∀ m' A', toyE.decryptIncoming toySeed c ≠ .ok (m', A') := by
  refine ⟨(toyE.encryptFor toySeed (5 :: toyPubX toySeed2) [104, 105] toyEsk).casesOn (fun x => x) (fun _ => []) [] [], [104, 105],
    toyE.enc (toyE.pub toySeed), by decide +kernel, rfl, ?_⟩
  intro m' A' e
  have : ∃ e, toyE.decryptIncoming toySeed ((toyE.encryptFor toySeed (5 :: toyPubX toySeed2) [104, 105] toyEsk).casesOn (fun x => x) (fun _ => []) [] []) =
      .err e := ⟨.foreign, by decide +kernel⟩
  obtain ⟨_, h⟩ := this
  rw [h] at e
  cases e

def toyId15 (seed : Bytes) : Bytes := 0x15 :: toyCurve.enc (leNat (toyCurve.factor15 toyServer) • toyCurve.pub seed)

theorem toyId15_eq : toyCurve.blind15FromEd (toyCurve.enc (toyCurve.pub toySeed)) toyServer false = .ok (toyId15 toySeed) ∧
    toyCurve.blind15FromEd (toyCurve.enc (toyCurve.pub toySeed2)) toyServer false = .ok (toyId15 toySeed2) ∧
    toyId15 toySeed ≠ toyId15 toySeed2 := by decide +kernel

example : ∃ c, toyE.encryptBlinded toySeed toyServer (toyId15 toySeed2) [1, 2, 3] toyNonce24 = .ok c ∧
    toyE.decryptBlinded toySeed2 toyServer (toyId15 toySeed) (toyId15 toySeed2) c = .ok ([1, 2, 3], asc ['0', '5'] ++ toHex (toyPubX toySeed)) := by
  obtain ⟨c, h1, -, h2, -⟩ := blinded15_roundtrip toyE_good (nonce := toyNonce24) [1, 2, 3] (toyKey true) (toyKey2 true) toyPubX_eq.1 (by decide +kernel)
    toyId15_eq.1 toyId15_eq.2.1 (by decide)
  exact ⟨c, h1, h2⟩

/-- A message to the other candidate for the recipient's id, which the recipient cannot read -/
example : ∃ c, toyE.encryptBlinded toySeed toyServer (flipTop 32 (toyId15 toySeed2)) [1, 2, 3] toyNonce24 = .ok c ∧
    toyE.decryptBlinded toySeed2 toyServer (toyId15 toySeed) (flipTop 32 (toyId15 toySeed2)) c = .err .foreign ∧
    toyE.decryptBlinded toySeed2 toyServer (toyId15 toySeed) (toyId15 toySeed2) c = .err .foreign :=
  ⟨(toyE.encryptBlinded toySeed toyServer (flipTop 32 (toyId15 toySeed2)) [1, 2, 3] toyNonce24).casesOn (fun x => x) (fun _ => []) [] [],
    by decide +kernel, by decide +kernel, by decide +kernel⟩

def toyId25 (seed : Bytes) : Bytes := (toyCurve.blind25FromEd (toyCurve.enc (toyCurve.pub seed)) toyServer).casesOn (fun x => x) (fun _ => []) [] []

example : ∃ c, toyE.encryptBlinded toySeed toyServer (toyId25 toySeed2) [1, 2, 3] toyNonce24 = .ok c ∧
    toyE.decryptBlinded toySeed2 toyServer (toyId25 toySeed) (toyId25 toySeed2) c = .ok ([1, 2, 3], asc ['0', '5'] ++ toHex (toyPubX toySeed)) ∧
    toyE.sidMatches (asc ['0', '5'] ++ toHex (toyPubX toySeed)) (toHex (toyId25 toySeed)) (toHex toyServer) = .ok true := by
  obtain ⟨c, h1, -, h2, -⟩ := blinded25_roundtrip toyE_good (nonce := toyNonce24) (idA := toyId25 toySeed) (idB := toyId25 toySeed2) [1, 2, 3]
    (toyKey true) (toyKey2 true) toyPubX_eq.1 toyPubX_eq.2 (server := toyServer) (by decide +kernel) (by decide +kernel) (by decide)
  exact ⟨c, h1, h2, (blinded25_sender toyE_good (by decide +kernel) h2).2⟩

example : toyE.decryptOns [110] (toyE.aead (toyE.onsKey [110]) toyNonce24 (List.replicate 33 5)) toyNonce24 = .ok (toHex (List.replicate 33 5)) :=
  (ons_response toyE_good _ _ _ _).2 ⟨by decide, List.replicate 33 5, by decide, rfl, rfl⟩

example : toyE.decryptPush (toyNonce24 ++ toyE.aead toyServer toyNonce24 ([0, 7] ++ List.replicate 5 0)) toyServer = .ok [0, 7] :=
  push_notification toyE_good 5 (by decide) (by decide) (by decide) (by decide)

end Verif
