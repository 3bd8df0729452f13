import Verif.CEnc
import Verif.Props.KeyApi
import Verif.Props.Blinding
import Verif.Props.Subaccount
import Verif.Props.GroupMsg
import Verif.Props.SessionEncrypt

/-!
# The C functions for encrypted messages and subaccounts
-/

namespace Verif

/-- Neither undefined behaviour nor an endless loop -/
def Out.Tot {α : Type} : Out α → Prop
  | .ok _ => True
  | .err _ => True
  | _ => False

theorem Out.Tot.bind {α β : Type} {x : Out α} {f : α → Out β} (hx : x.Tot) (hf : ∀ a, x = .ok a → (f a).Tot) : (x.bind f).Tot := by
  cases x with
  | ok a => exact hf a rfl
  | err e => trivial
  | hang => exact hx.elim
  | ub => exact hx.elim

theorem Out.Tot.ite {α : Type} {p : Prop} [Decidable p] {x y : Out α} (hx : p → x.Tot) (hy : ¬ p → y.Tot) : (if p then x else y).Tot := by
  split <;> rename_i h
  · exact hx h
  · exact hy h

/-! ### Decryption -/

/-- A C decryption function against the C++ function: with a buffer of 67 bytes for the session id it reports success exactly if
that returns; then the buffer holds the session id, NUL-terminated, and there is a new allocation holding the message, with its
length; otherwise nothing is written. -/
def Delivers (r : Out (Bytes × Bytes)) (f : CBufs → Out (Bool × CBufs)) : Prop :=
  ∀ st, st.sid.length = 67 →
    (∃ plain sid, r = .ok (plain, sid) ∧ sid.length = 66 ∧ f st = .ok (true, ⟨sid ++ [0], some plain, plain.length⟩)) ∨
    ((∃ e, r = .err e) ∧ f st = .ok (false, st))

/-- The same for functions whose result is one allocation -/
def Allocates (r : Out Bytes) (f : CBufs → Out (Bool × CBufs)) : Prop :=
  ∀ st, (∃ x, r = .ok x ∧ f st = .ok (true, { st with out := some x, len := x.length })) ∨ ((∃ e, r = .err e) ∧ f st = .ok (false, st))

theorem delivers_of {r : Out (Bytes × Bytes)} (ht : r.Tot) (hl : ∀ p s, r = .ok (p, s) → s.length = 66) :
    Delivers r fun st => cDecrypt st r := by
  intro st hst
  cases r with
  | ok x =>
    obtain ⟨p, s⟩ := x
    have h66 := hl p s rfl
    refine .inl ⟨p, s, rfl, h66, ?_⟩
    show (copyOut st.sid (s ++ [0])).bind _ = _
    rw [copyOut_exact (by simp [h66, hst])]
    show (copyOut (List.replicate p.length 0) p).bind _ = _
    rw [copyOut_exact (by simp)]
    rfl
  | err e => exact .inr ⟨⟨e, rfl⟩, rfl⟩
  | hang => exact ht.elim
  | ub => exact ht.elim

theorem allocates_of {r : Out Bytes} (ht : r.Tot) : Allocates r fun st => cAlloc st r := by
  intro st
  cases r with
  | ok x =>
    refine .inl ⟨x, rfl, ?_⟩
    show (copyOut (List.replicate x.length 0) x).bind _ = _
    rw [copyOut_exact (by simp)]
    rfl
  | err e => exact .inr ⟨⟨e, rfl⟩, rfl⟩
  | hang => exact ht.elim
  | ub => exact ht.elim

set_option linter.unusedSectionVars false

section
variable {G : Type} [AddCommGroup G] [DecidableEq G] {C : ECurve G}

theorem fullSk_tot (sk : Bytes) : (C.fullSk sk).Tot := by
  unfold Curve.fullSk
  exact .ite (fun _ => trivial) fun _ => .ite (fun _ => trivial) fun _ => trivial

theorem recipientKey_tot (r : Bytes) : (recipientKey r).Tot := by
  unfold recipientKey
  exact .ite (fun _ => trivial) fun _ => .ite (fun _ => trivial) fun _ => trivial

theorem encryptForDet_tot (sk r msg : Bytes) : (C.encryptForDet sk r msg).Tot := by
  unfold ECurve.encryptForDet ECurve.signFor
  refine .bind (.bind (fullSk_tot _) fun _ _ => .bind (recipientKey_tot _) fun _ _ => trivial) fun _ _ =>
    .bind (recipientKey_tot _) fun y _ => ?_
  unfold ECurve.sealTo
  split <;> trivial

theorem keyPair15_tot (sk server : Bytes) : (C.keyPair15 sk server).Tot := by
  rcases keyPair15_cases (C := C.toSCurve) sk server with ⟨_, _, _, h, _⟩ | ⟨e, h⟩ <;> rw [h] <;> trivial

theorem keyPair25_tot (sk server : Bytes) : (C.keyPair25 sk server).Tot := by
  rcases keyPair25_cases (C := C.toSCurve) sk server with ⟨_, _, _, h, _⟩ | ⟨e, h⟩ <;> rw [h] <;> trivial

theorem blindedSecret_tot (sk a b server : Bytes) (sending : Bool) : (C.blindedSecret sk a b server sending).Tot := by
  unfold ECurve.blindedSecret
  refine .ite (fun _ => trivial) fun _ => .bind ?_ fun ka _ => ?_
  · unfold ECurve.blindScalar
    exact .ite (fun _ => .bind (keyPair15_tot _ _) fun _ _ => trivial) fun _ =>
      .ite (fun _ => .bind (keyPair25_tot _ _) fun _ _ => trivial) fun _ => trivial
  · split <;> trivial

theorem encryptBlinded_tot (sk server rid msg nonce : Bytes) : (C.encryptBlinded sk server rid msg nonce).Tot := by
  unfold ECurve.encryptBlinded
  refine .ite (fun _ => trivial) fun _ => .bind ?_ fun _ _ => .bind (blindedSecret_tot _ _ _ _ _) fun _ _ =>
    .bind (fullSk_tot _) fun _ _ => trivial
  unfold ECurve.ownBlinded
  exact .ite (fun _ => .bind (keyPair15_tot _ _) fun _ _ => trivial) fun _ =>
      .ite (fun _ => .bind (keyPair25_tot _ _) fun _ _ => trivial) fun _ => trivial

theorem fromEd_tot (rid pk server : Bytes) (b : Bool) : (C.fromEd rid pk server b).Tot := by
  have hp : ∀ x k p, (C.blindPoint x k p).Tot := by
    intro x k p
    unfold SCurve.blindPoint
    split <;> trivial
  unfold ECurve.fromEd SCurve.blind25FromEd SCurve.blind15FromEd
  refine .ite (fun _ => .ite (fun _ => trivial) fun _ => ?_) fun _ => .ite (fun _ => trivial) fun _ => .ite (fun _ => trivial) fun _ => hp _ _ _
  split
  · trivial
  · exact hp _ _ _

theorem sid_length {pk x : Bytes} (h : C.edToX pk = some x) : (asc ['0', '5'] ++ toHex x).length = 66 := by
  rw [List.length_append, toHex_length, Curve.edToX_length h]; rfl

theorem decryptX_tot {y x : Bytes} (hy : y.length = 32) (hx : x.length = 32) (ct : Bytes) : (C.decryptIncomingX y x ct).Tot := by
  unfold ECurve.decryptIncomingX
  refine .ite (fun h => by omega) fun _ => .ite (fun _ => trivial) fun _ => ?_
  split
  · trivial
  · exact .ite (fun _ => trivial) fun _ => trivial

theorem withSid_tot (r : Bytes × Bytes) : (C.withSid r).Tot := by
  unfold ECurve.withSid
  split <;> trivial

theorem withSid_length {x : Out (Bytes × Bytes)} {p s : Bytes} (h : x.bind C.withSid = .ok (p, s)) : s.length = 66 := by
  cases x with
  | ok r =>
    change C.withSid r = _ at h
    unfold ECurve.withSid at h
    cases hx : C.edToX r.2 with
    | none => rw [hx] at h; cases h
    | some x => rw [hx] at h; cases h; exact sid_length hx
  | err e => cases h
  | hang => cases h
  | ub => cases h

theorem readBlinded_length {key server sid rid ct p s : Bytes} (h : C.readBlinded key server sid rid ct = .ok (p, s)) : s.length = 66 := by
  unfold ECurve.readBlinded at h
  split at h
  · cases h
  split at h
  · cases h
  split at h
  · cases h
  dsimp only at h
  split at h
  · cases h
  rename_i x hx
  cases hf : C.fromEd rid _ server true with
  | ok e =>
    rw [hf] at h
    simp only [Out.bind] at h
    split at h
    · cases h; exact sid_length hx
    · cases h
  | err e => rw [hf] at h; cases h
  | hang => rw [hf] at h; cases h
  | ub => rw [hf] at h; cases h

theorem readBlinded_tot (key server sid rid ct : Bytes) : (C.readBlinded key server sid rid ct).Tot := by
  unfold ECurve.readBlinded
  refine .ite (fun _ => trivial) fun _ => .ite (fun _ => trivial) fun _ => ?_
  split
  · trivial
  dsimp only
  split
  · trivial
  · exact .bind (fromEd_tot _ _ _ _) fun _ _ => .ite (fun _ => trivial) fun _ => trivial

theorem bind_ok_of {α β : Type} {x : Out α} {f : α → Out β} {b : β} (h : x.bind f = .ok b) : ∃ a, x = .ok a ∧ f a = .ok b := by
  cases x with
  | ok a => exact ⟨a, rfl, h⟩
  | err e => cases h
  | hang => cases h
  | ub => cases h

/-- **C114.** The C functions for encrypted messages, for every key, id, server key and ciphertext of the documented lengths:
decryption delivers exactly what the C++ function returns, with the session id in its buffer of 67 bytes, and writes nothing if
that throws; encryption and push notifications likewise. -/
theorem c_encryption (h : C.Good) (sk ct msg server sid rid nonce name payload key y x : Bytes) (hy : y.length = 32) (hx : x.length = 32)
    (hr : rid.length = 33) :
    Allocates (C.encryptForDet sk y msg) (fun st => C.cEncryptDet st sk y msg) ∧
    Allocates (C.encryptBlinded sk server rid msg nonce) (fun st => C.cEncryptBlinded st sk server rid msg nonce) ∧
    Allocates (C.decryptPush payload key) (fun st => C.cDecryptPush st payload key) ∧
    Delivers (C.decryptIncomingSid sk ct) (fun st => C.cDecryptIncoming st sk ct) ∧
    Delivers (C.decryptIncomingXSid y x ct) (fun st => C.cDecryptLegacy st y x ct) ∧
    Delivers (C.decryptBlinded sk server sid rid ct) (fun st => C.cDecryptBlinded st sk server sid rid ct) ∧
    (∀ buf, buf.length = 67 →
      (∃ id, C.decryptOns name ct nonce = .ok id ∧ id.length = 66 ∧ C.cDecryptOns buf name ct nonce = .ok (true, id ++ [0])) ∨
      ((∃ e, C.decryptOns name ct nonce = .err e) ∧ C.cDecryptOns buf name ct nonce = .ok (false, buf))) := by
  refine ⟨allocates_of (encryptForDet_tot _ _ _), allocates_of (encryptBlinded_tot _ _ _ _ _), allocates_of ?_,
    delivers_of ?_ fun p s => withSid_length, delivers_of ?_ fun p s => withSid_length, delivers_of ?_ fun p s hd => ?_, fun buf hb => ?_⟩
  · unfold ECurve.decryptPush
    refine .ite (fun _ => trivial) fun _ => .ite (fun _ => trivial) fun _ => ?_
    split <;> trivial
  · unfold ECurve.decryptIncomingSid ECurve.decryptIncoming
    exact .bind (.bind (fullSk_tot _) fun _ _ => decryptX_tot (by simp [Curve.xBase, Curve.feBytes]) (h.s.edScalar_length _) _) fun _ _ => withSid_tot _
  · unfold ECurve.decryptIncomingXSid
    exact .bind (decryptX_tot hy hx _) fun _ _ => withSid_tot _
  · unfold ECurve.decryptBlinded
    refine .bind (fullSk_tot _) fun _ _ => .ite (fun _ => trivial) fun _ => .ite (fun e => by rw [e] at hr; cases hr) fun _ =>
      .bind (fromEd_tot _ _ _ _) fun _ _ => .bind ?_ fun _ _ => readBlinded_tot _ _ _ _ _
    unfold ECurve.blindedKey
    exact .ite (fun _ => blindedSecret_tot _ _ _ _ _) fun _ => blindedSecret_tot _ _ _ _ _
  · unfold ECurve.decryptBlinded at hd
    obtain ⟨s1, _, hd⟩ := bind_ok_of hd
    split at hd
    · cases hd
    split at hd
    · cases hd
    obtain ⟨_, _, hd⟩ := bind_ok_of hd
    obtain ⟨_, _, hd⟩ := bind_ok_of hd
    exact readBlinded_length hd
  · unfold ECurve.cDecryptOns ECurve.decryptOns
    split
    · exact .inr ⟨⟨_, rfl⟩, rfl⟩
    split
    · exact .inr ⟨⟨_, rfl⟩, rfl⟩
    split
    · exact .inr ⟨⟨_, rfl⟩, rfl⟩
    rename_i b _ hl
    have h66 : (toHex b).length = 66 := by rw [toHex_length]; omega
    refine .inl ⟨_, rfl, h66, ?_⟩
    show (copyOut buf (toHex b ++ [0])).bind _ = _
    rw [copyOut_exact (by simp [h66, hb])]
    rfl

end

/-- C114, group messages: the same, and encryption gives a null pointer and length 0 on failure. -/
theorem c_group_messages {P : UPrims} (hx : ∀ b x, P.xpk b = some x → x.length = 32) (s : GKeys) (e : GEnv) (ct msg nonce : Bytes) (st : CBufs) :
    Delivers ((s.decryptMessage P ct).bind fun r => .ok (r.2, r.1)) (fun st => s.cDecrypt P st ct) ∧
    ((∃ m, s.encryptMessage P e msg true 256 nonce = .ok m ∧ s.cEncrypt P e st msg nonce = .ok { st with out := some m, len := m.length }) ∨
     (∃ er, s.encryptMessage P e msg true 256 nonce = .err er) ∧ s.cEncrypt P e st msg nonce = .ok { st with out := none, len := 0 }) := by
  refine ⟨delivers_of ?_ fun p sid hd => ?_, ?_⟩
  · refine .bind ?_ fun _ _ => trivial
    unfold GKeys.decryptMessage
    refine .ite (fun _ => trivial) fun _ => ?_
    repeat' split
    all_goals trivial
  · obtain ⟨⟨a, b⟩, hd, he⟩ := bind_ok_of hd
    cases he
    unfold GKeys.decryptMessage at hd
    split at hd
    · cases hd
    repeat' split at hd
    all_goals cases hd
    all_goals
      show (asc ['0', '5'] ++ toHex _).length = 66
      have hh := hx _ _ ‹P.xpk _ = some _›
      rw [List.length_append, toHex_length, hh]; rfl
  · have ht : (s.encryptMessage P e msg true 256 nonce).Tot := by
      unfold GKeys.encryptMessage
      refine .ite (fun _ => trivial) fun _ => .bind ?_ fun _ _ => trivial
      unfold GKeys.groupEncKey
      refine .ite (fun _ => trivial) fun _ => ?_
      split <;> trivial
    unfold GKeys.cEncrypt
    cases hr : s.encryptMessage P e msg true 256 nonce with
    | ok x =>
      refine .inl ⟨x, rfl, ?_⟩
      show (copyOut (List.replicate x.length 0) x).bind _ = _
      rw [copyOut_exact (by simp)]
      rfl
    | err er => exact .inr ⟨⟨er, rfl⟩, rfl⟩
    | hang => rw [hr] at ht; exact ht.elim
    | ub => rw [hr] at ht; exact ht.elim

/-! ### Subaccounts -/

/-- The value of a base64 character -/
def b64Val (c : UInt8) : Nat :=
  if 65 ≤ c ∧ c ≤ 90 then c.toNat - 65 else if 97 ≤ c ∧ c ≤ 122 then c.toNat - 71 else if 48 ≤ c ∧ c ≤ 57 then c.toNat + 4
  else if c = 43 then 62 else 63

/-- A reader of base64 with padding -/
def readB64 : Bytes → Bytes
  | a :: b :: c :: d :: t =>
    let n := b64Val a * 262144 + b64Val b * 4096
    if c = 61 then [UInt8.ofNat (n / 65536)]
    else
      let n := n + b64Val c * 64
      if d = 61 then [UInt8.ofNat (n / 65536), UInt8.ofNat (n / 256)]
      else
        let n := n + b64Val d
        UInt8.ofNat (n / 65536) :: UInt8.ofNat (n / 256) :: UInt8.ofNat n :: readB64 t
  | _ => []

theorem b64_char : ∀ n < 64, b64Val (b64Char n) = n ∧ b64Char n ≠ 61 ∧ b64Char n ≠ 0 := by decide

theorem toB64_length : ∀ b : Bytes, (toB64 b).length = (b.length + 2) / 3 * 4
  | [] => rfl
  | [_] => by simp [toB64]
  | [_, _] => by simp [toB64]
  | _ :: _ :: _ :: t => by
    show (toB64 t).length + 4 = (t.length + 3 + 2) / 3 * 4
    rw [toB64_length t]; omega

theorem ofNat_eq {a : UInt8} {n : Nat} (h : n % 256 = a.toNat) : UInt8.ofNat n = a := by
  apply UInt8.toNat.inj
  rw [UInt8.toNat_ofNat']; exact h

theorem readB64_toB64 : ∀ b : Bytes, readB64 (toB64 b) = b
  | [] => rfl
  | [a] => by
    have ha := a.toNat_lt
    show readB64 [_, _, 61, 61] = _
    simp only [readB64, if_true]
    rw [(b64_char _ (by omega)).1, (b64_char _ (by omega)).1, ofNat_eq (a := a) (by omega)]
  | [a, b] => by
    have ha := a.toNat_lt
    have hb := b.toNat_lt
    show readB64 [_, _, _, 61] = _
    simp only [readB64, if_true]
    rw [(b64_char _ (by omega)).1, (b64_char _ (by omega)).1, (b64_char _ (by omega)).1, if_neg (b64_char _ (by omega)).2.1,
      ofNat_eq (a := a) (by omega), ofNat_eq (a := b) (by omega)]
  | a :: b :: c :: t => by
    have ha := a.toNat_lt
    have hb := b.toNat_lt
    have hc := c.toNat_lt
    show readB64 (_ :: _ :: _ :: _ :: toB64 t) = _
    simp only [readB64]
    rw [(b64_char _ (by omega)).1, (b64_char _ (by omega)).1, (b64_char _ (by omega)).1, (b64_char _ (by omega)).1,
      if_neg (b64_char _ (by omega)).2.1, if_neg (b64_char _ (by omega)).2.1,
      ofNat_eq (a := a) (by omega), ofNat_eq (a := b) (by omega), ofNat_eq (a := c) (by omega), readB64_toB64 t]

theorem toB64_no_nul : ∀ b : Bytes, (0 : UInt8) ∉ toB64 b
  | [] => by simp [toB64]
  | [a] => by
    have ha := a.toNat_lt
    have h1 := (b64_char (a.toNat / 4) (by omega)).2.2
    have h2 := (b64_char (a.toNat % 4 * 16) (by omega)).2.2
    simp [toB64, h1.symm, h2.symm]
  | [a, b] => by
    have ha := a.toNat_lt
    have hb := b.toNat_lt
    have h1 := (b64_char (a.toNat / 4) (by omega)).2.2
    have h2 := (b64_char (a.toNat % 4 * 16 + b.toNat / 16) (by omega)).2.2
    have h3 := (b64_char (b.toNat % 16 * 4) (by omega)).2.2
    simp [toB64, h1.symm, h2.symm, h3.symm]
  | a :: b :: c :: t => by
    have ha := a.toNat_lt
    have hb := b.toNat_lt
    have hc := c.toNat_lt
    have h1 := (b64_char (a.toNat / 4) (by omega)).2.2
    have h2 := (b64_char (a.toNat % 4 * 16 + b.toNat / 16) (by omega)).2.2
    have h3 := (b64_char (b.toNat % 16 * 4 + c.toNat / 64) (by omega)).2.2
    have h4 := (b64_char (c.toNat % 64) (by omega)).2.2
    simp [toB64, h1.symm, h2.symm, h3.symm, h4.symm, toB64_no_nul t]

example : toB64 [77, 97, 110, 77, 97] = asc ['T', 'W', 'F', 'u', 'T', 'W', 'E', '='] := by decide +kernel

section
variable {G : Type} [AddCommGroup G] [DecidableEq G] {C : SCurve G}

theorem pointMul_length {n p b : Bytes} (h : C.pointMul n p = some b) : b.length = 32 := by
  unfold Curve.pointMul at h
  split at h
  · cases h
  split at h <;> cases h
  exact Curve.enc_length _

theorem makeSub_cases (sk : Option Bytes) (pk sid : Bytes) (w d : Bool) :
    (∃ v, C.makeSubaccount sk pk sid w d = .ok v ∧ v.length = 100) ∨ ∃ e, C.makeSubaccount sk pk sid w d = .err e := by
  unfold SCurve.makeSubaccount sidPk
  split
  · exact .inr ⟨_, rfl⟩
  split
  · simp only [Out.bind]
    split
    · exact .inr ⟨_, rfl⟩
    · exact .inl ⟨_, rfl, by
        rw [List.length_append, List.length_append, SCurve.subFactor_length, Curve.edSign_length]; rfl⟩
  · exact .inr ⟨_, rfl⟩

theorem subToken_cases (sk : Option Bytes) (pk sid : Bytes) (w d : Bool) :
    (∃ v, C.subToken sk pk sid w d = .ok v ∧ v.length = 36) ∨ ∃ e, C.subToken sk pk sid w d = .err e := by
  unfold SCurve.subToken sidPk
  split
  · exact .inr ⟨_, rfl⟩
  split
  · simp only [Out.bind]
    split
    · exact .inr ⟨_, rfl⟩
    · rename_i kT hk
      exact .inl ⟨_, rfl, by rw [List.length_append, pointMul_length hk]; rfl⟩
  · exact .inr ⟨_, rfl⟩

theorem subSign_cases (sk msg val : Bytes) :
    (∃ a b c, C.subSign sk msg val = .ok (a, b, c) ∧ a.length = 36 ∧ b.length = 64 ∧ c.length = 64) ∨ ∃ e, C.subSign sk msg val = .err e := by
  unfold SCurve.subSign
  split
  · exact .inr ⟨_, rfl⟩
  rename_i hl
  dsimp only
  split
  · exact .inr ⟨_, rfl⟩
  · rename_i kT hk
    exact .inl ⟨_, _, _, rfl, by rw [List.length_append, pointMul_length hk, List.length_take]; omega,
      by rw [List.length_drop]; omega, Curve.schnorr_length _ _ _ _⟩

/-- **C115.** The C functions for subaccounts, for every key, id, message and signing value: making a signing value fills exactly the
caller's 100 bytes with it, a token 36 bytes; signing fills buffers of 36, 64 and 64 bytes with the three values, or buffers of 49,
89 and 89 characters with NUL-terminated base64 of exactly these values; if the C++ function throws they report failure and leave the
buffers as they were; verification with given permissions returns false then. -/
theorem c_subaccounts (sk : Option Bytes) (pk sid userSk msg val gid : Bytes) (w d : Bool) :
    Fits1 100 (C.makeSubaccount sk pk sid w d) (C.cMakeSubaccount sk pk sid w d) ∧
    Fits1 36 (C.subToken sk pk sid w d) (C.cSubToken sk pk sid w d) ∧
    (∀ b1 b2 b3, b1.length = 36 → b2.length = 64 → b3.length = 64 →
      (∃ x y z, C.subSign userSk msg val = .ok (x, y, z) ∧ C.cSubSignBin userSk msg val b1 b2 b3 = .ok (true, x, y, z)) ∨
      ((∃ e, C.subSign userSk msg val = .err e) ∧ C.cSubSignBin userSk msg val b1 b2 b3 = .ok (false, b1, b2, b3))) ∧
    (∀ b1 b2 b3, b1.length = 49 → b2.length = 89 → b3.length = 89 →
      (∃ x y z s1 s2 s3, C.subSign userSk msg val = .ok (x, y, z) ∧
        C.cSubSign userSk msg val b1 b2 b3 = .ok (true, s1 ++ [0], s2 ++ [0], s3 ++ [0]) ∧
        (∀ s ∈ [s1, s2, s3], 0 ∉ s) ∧ s1.length = 48 ∧ s2.length = 88 ∧ s3.length = 88 ∧
        readB64 s1 = x ∧ readB64 s2 = y ∧ readB64 s3 = z) ∨
      ((∃ e, C.subSign userSk msg val = .err e) ∧ C.cSubSign userSk msg val b1 b2 b3 = .ok (false, b1, b2, b3))) ∧
    ((∃ b, C.verifySub gid userSk val w d = .ok b ∧ C.cVerifySubFlags gid userSk val w d = .ok b) ∨
      (∃ e, C.verifySub gid userSk val w d = .err e) ∧ C.cVerifySubFlags gid userSk val w d = .ok false) := by
  refine ⟨fits1 (makeSub_cases _ _ _ _ _), fits1 (subToken_cases _ _ _ _ _), fun b1 b2 b3 h1 h2 h3 => ?_, fun b1 b2 b3 h1 h2 h3 => ?_, ?_⟩
  · rcases subSign_cases (C := C) userSk msg val with ⟨x, y, z, e, hx, hy, hz⟩ | ⟨er, e⟩
    · refine .inl ⟨x, y, z, e, ?_⟩
      unfold SCurve.cSubSignBin
      rw [e]
      show (copyOut b1 (x.take 36)).bind _ = _
      rw [List.take_of_length_le (by omega), copyOut_exact (by omega)]
      show (copyOut b2 (y.take 64)).bind _ = _
      rw [List.take_of_length_le (by omega), copyOut_exact (by omega)]
      show (copyOut b3 (z.take 64)).bind _ = _
      rw [List.take_of_length_le (by omega), copyOut_exact (by omega)]
      rfl
    · refine .inr ⟨⟨er, e⟩, ?_⟩
      unfold SCurve.cSubSignBin
      rw [e]; rfl
  · rcases subSign_cases (C := C) userSk msg val with ⟨x, y, z, e, hx, hy, hz⟩ | ⟨er, e⟩
    · refine .inl ⟨x, y, z, toB64 x, toB64 y, toB64 z, e, ?_, ?_, by rw [toB64_length, hx], by rw [toB64_length, hy], by rw [toB64_length, hz],
        readB64_toB64 _, readB64_toB64 _, readB64_toB64 _⟩
      · unfold SCurve.cSubSign
        rw [e]
        show (copyOut b1 (toB64 x ++ [0])).bind _ = _
        rw [copyOut_exact (by rw [List.length_append, toB64_length, hx, h1]; rfl)]
        show (copyOut b2 (toB64 y ++ [0])).bind _ = _
        rw [copyOut_exact (by rw [List.length_append, toB64_length, hy, h2]; rfl)]
        show (copyOut b3 (toB64 z ++ [0])).bind _ = _
        rw [copyOut_exact (by rw [List.length_append, toB64_length, hz, h3]; rfl)]
        rfl
      · intro s hs
        simp only [List.mem_cons, List.not_mem_nil, or_false] at hs
        rcases hs with rfl | rfl | rfl <;> exact toB64_no_nul _
    · refine .inr ⟨⟨er, e⟩, ?_⟩
      unfold SCurve.cSubSign
      rw [e]; rfl
  · have ht : (C.verifySub gid userSk val w d).Tot := by
      unfold SCurve.verifySub sidPk
      refine .bind (.ite (fun _ => trivial) fun _ => trivial) fun _ _ => .ite (fun _ => trivial) fun _ => .ite (fun _ => trivial) fun _ =>
        .ite (fun _ => trivial) fun _ => .ite (fun _ => trivial) fun _ => .ite (fun _ => trivial) fun _ => ?_
      split <;> trivial
    unfold SCurve.cVerifySubFlags
    cases hv : C.verifySub gid userSk val w d with
    | err e => exact .inr ⟨⟨e, rfl⟩, rfl⟩
    | ok b => exact .inl ⟨b, rfl, rfl⟩
    | hang => rw [hv] at ht; exact ht.elim
    | ub => rw [hv] at ht; exact ht.elim

/-- C116, false of the code.  `groups_keys_swarm_verify_subaccount` is documented to require read and write permission, and to return
`false` if the value does not validate.  It accepts every value an admin makes with read permission only; and for an id that is not
a group's the exception of the C++ function leaves the C function. -/
theorem c_verify_subaccount_wrong (h : C.Good) {gseed seed X : Bytes} (hg : gseed.length = 32) (hs : seed.length = 32)
    (hg0 : C.pub gseed ≠ 0) (hX : C.edToX (C.enc (C.pub seed)) = some X)
    (hk0 : leNat (C.subFactor (C.edSk gseed) (C.enc (C.pub gseed)) X) ≠ 0)
    (hr : ∀ token, C.subToken (some (C.edSk gseed)) (C.enc (C.pub gseed)) (toHex (5 :: X)) false false = .ok token →
      leNat (C.edNonce (C.edSk gseed) token) ≠ 0) :
    (∃ val, C.makeSubaccount (some (C.edSk gseed)) (C.enc (C.pub gseed)) (toHex (5 :: X)) false false = .ok val ∧
      C.cVerifySub (toHex (3 :: C.enc (C.pub gseed))) (C.edSk seed) val = .ok true ∧
      C.cVerifySubFlags (toHex (3 :: C.enc (C.pub gseed))) (C.edSk seed) val true false = .ok false) ∧
    ∀ gid sk val, checkId gid (asc ['0', '3']) = false → C.cVerifySub gid sk val = .err .foreign ∧ C.cVerifySubFlags gid sk val true false = .ok false := by
  refine ⟨?_, fun gid sk val hg => ?_⟩
  · obtain ⟨val, token, h1, -, -, -, hv, -⟩ := subaccount_roundtrip h false false hg hs hg0 hX hk0 hr
    refine ⟨val, h1, hv false false, ?_⟩
    unfold SCurve.cVerifySubFlags
    rw [hv true false]
    rfl
  · have e : ∀ w d, C.verifySub gid sk val w d = .err .foreign := by
      intro w d
      unfold SCurve.verifySub sidPk
      rw [hg]; rfl
    refine ⟨e _ _, ?_⟩
    unfold SCurve.cVerifySubFlags
    rw [e]

/-- C116, what holds: it accepts exactly the values that the function with flags accepts when neither permission is required — valid,
signed by an admin, with read permission. -/
theorem c_verify_subaccount_partial (gid sk val : Bytes) :
    C.cVerifySub gid sk val = .ok true ↔ C.cVerifySubFlags gid sk val false false = .ok true := by
  unfold SCurve.cVerifySub SCurve.cVerifySubFlags
  cases C.verifySub gid sk val false false with
  | err e => simp
  | ok b => exact Iff.rfl
  | hang => exact Iff.rfl
  | ub => exact Iff.rfl

end

/-! ### The hypotheses can be met -/

example : ∃ val, toyCurve.makeSubaccount (some (toyCurve.edSk toyGroup)) (toyCurve.enc (toyCurve.pub toyGroup))
      (toHex (5 :: toyPubX toySeed)) false false = .ok val ∧
    toyCurve.cVerifySub (toHex (3 :: toyCurve.enc (toyCurve.pub toyGroup))) (toyCurve.edSk toySeed) val = .ok true ∧
    toyCurve.cVerifySubFlags (toHex (3 :: toyCurve.enc (toyCurve.pub toyGroup))) (toyCurve.edSk toySeed) val true false = .ok false := by
  have ht : toyCurve.subToken (some (toyCurve.edSk toyGroup)) (toyCurve.enc (toyCurve.pub toyGroup))
      (toHex (5 :: toyPubX toySeed)) false false = .ok ([3, 1, 0, 0] ++ leBytes 32 (2 + 2 ^ 255)) := by decide +kernel
  exact (c_verify_subaccount_wrong toyCurve_good (gseed := toyGroup) (seed := toySeed)
    (by decide) (by decide) (by decide +kernel) toyPubX_eq.1 (by decide +kernel) (by
      intro token e
      rw [ht] at e
      rw [← Out.ok.inj e]
      decide +kernel)).1

/-- A signature in base64 -/
example : (toyCurve.cSubSign (toyCurve.edSk toySeed) [104, 105] ([3, 1, 0, 0] ++ leBytes 32 2 ++ leBytes 64 9)
      (List.replicate 49 7) (List.replicate 89 7) (List.replicate 89 7)).toOption.map (fun r => (r.1, r.2.1.take 6, r.2.1.getD 48 1)) =
    some (true, asc ['A', 'w', 'E', 'A', 'A', 'A'], 0) := by decide +kernel

/-- A message is delivered through the C functions; a changed one leaves the buffers alone. -/
example : ((toyE.cEncryptDet ⟨[], none, 0⟩ toySeed (toyPubX toySeed2) [104, 105]).toOption.bind fun r =>
      r.2.out.bind fun ct => (toyE.cDecryptIncoming ⟨List.replicate 67 7, none, 0⟩ toySeed2 ct).toOption) =
    some (true, ⟨asc ['0', '5'] ++ toHex (toyPubX toySeed) ++ [0], some [104, 105], 2⟩) ∧
    toyE.cDecryptIncoming ⟨List.replicate 67 7, none, 0⟩ toySeed2 [1, 2, 3] = .ok (false, ⟨List.replicate 67 7, none, 0⟩) := by
  decide +kernel

end Verif
