import Verif.CMulti
import Verif.Props.GroupWitness

/-!
# Multi-recipient encryption with any of its functions (C117)
-/

namespace Verif

variable {P : GPrims}

theorem xKeys_ok (hP : P.Good) {sk : Bytes} (h : sk.length = 64) : xKeys P sk = .ok (P.xsk sk, P.pubOf (P.xsk sk)) := by
  unfold xKeys
  rw [if_neg (by omega), hP.xpkPub]

/-- What the caller gets for a message: a new buffer holding it, and its length -/
def HasMsg (r : Out CBuf) (m : Bytes) : Prop := r = .ok ⟨some m, m.length⟩

/-- **C117.** For Ed25519 accounts `sk` and `bs`, messages, domain, nonce (24 bytes, or null) and `pad`, all arbitrary: the C function with
the sender's Ed25519 key and the one with its X25519 keys produce the same buffer, which holds exactly what the C++ function returns;
and each recipient gets exactly the message meant for it from each of the three C decryption functions and of the C++ functions —
with the hypotheses of C61 on the keys, and if the message is not empty or `malloc(0)` returns a pointer. -/
theorem multi_any_api (hP : P.Good) (m0 : Bool) (messages bs : List Bytes) (sk d rnd : Bytes) (nonce : Option Bytes) (pad : Int)
    (junk : Nat → Bytes) (len : Nat) (hsk : sk.length = 64) (hpk : (P.edPub sk).length = 32)
    (hn : (nonce.getD rnd).length = 24) (hm : messages.length = 1 ∨ messages.length = bs.length) :
    ∃ enc, encryptSimple P.toMPrims messages (bs.map fun b => P.pubOf (P.xsk b)) (P.xsk sk) (P.pubOf (P.xsk sk)) (cStr d) nonce pad rnd junk =
        .ok enc ∧
      HasMsg (cEncryptMultiEd P m0 len messages (bs.map fun b => P.pubOf (P.xsk b)) sk d nonce pad rnd junk) enc ∧
      HasMsg (cEncryptMulti P m0 len messages (bs.map fun b => P.pubOf (P.xsk b)) (P.xsk sk) (P.pubOf (P.xsk sk)) d nonce pad rnd junk) enc ∧
      ∀ (i : Nat) (b m k : Bytes), bs[i]? = some b → b.length = 64 → messageFor messages i = some m →
        SharedKey P.toMPrims (P.xsk sk) (P.xsk b) (cStr d) k →
        (∀ j b' m' k', j < i → bs[j]? = some b' → messageFor messages j = some m' →
          SharedKey P.toMPrims (P.xsk sk) (P.xsk b') (cStr d) k' →
          P.aeadOpen k (nonce.getD rnd) (P.aead k' (nonce.getD rnd) m') = none) →
        decryptSimpleEdX P enc b (P.pubOf (P.xsk sk)) (cStr d) = .ok (some m) ∧
        decryptSimpleEd P enc b (P.edPub sk) (cStr d) = .ok (some m) ∧
        (m ≠ [] ∨ m0 = true →
          HasMsg (cDecryptMulti P m0 len enc (P.xsk b) (P.pubOf (P.xsk b)) (P.pubOf (P.xsk sk)) d) m ∧
          HasMsg (cDecryptMultiEdX P m0 len enc b (P.pubOf (P.xsk sk)) d) m ∧
          HasMsg (cDecryptMultiEd P m0 len enc b (P.edPub sk) d) m) := by
  obtain ⟨cs, ex, h0, -, -, -⟩ := encryptSimple_ok hP.m messages (bs.map P.xsk) (P.xsk sk) (cStr d) rnd nonce pad junk (hP.xskLen _) hn
    (by rw [List.length_map]; exact hm)
  obtain ⟨enc, h1, h2⟩ := multi_roundtrip hP.m messages (bs.map P.xsk) (P.xsk sk) (cStr d) rnd nonce pad junk (hP.xskLen _) hn
    (by rw [List.length_map]; exact hm)
  rw [List.map_map] at h0 h1
  have hne : enc ≠ [] := by
    rw [h0] at h1; cases h1; simp [encV]
  have hbuf : ∀ x : Bytes, x ≠ [] ∨ m0 = true → toCBuf m0 x = ⟨some x, x.length⟩ := by
    intro x hx
    unfold toCBuf
    rw [if_neg (by rintro ⟨a, b⟩; rcases hx with h | h <;> simp_all)]
  have hc : HasMsg (cEncryptMulti P m0 len messages (bs.map fun b => P.pubOf (P.xsk b)) (P.xsk sk) (P.pubOf (P.xsk sk)) d nonce pad rnd junk) enc := by
    unfold HasMsg cEncryptMulti
    rw [show (fun b => P.pubOf (P.xsk b)) = (P.pubOf ∘ P.xsk) from rfl, h1]
    show Out.ok (toCBuf m0 enc) = _
    rw [hbuf _ (.inl hne)]
  refine ⟨enc, h1, ?_, hc, ?_⟩
  · unfold cEncryptMultiEd
    rw [xKeys_ok hP hsk]
    exact hc
  · intro i b m k hb hbl hmi hk hclash
    have hd := h2 i (P.xsk b) m k (by rw [List.getElem?_map, hb]; rfl) (hP.xskLen _) hmi hk (by
      intro j b' m' k' hj hb' hm' hk'
      rw [List.getElem?_map] at hb'
      obtain ⟨b0, hb0, rfl⟩ := Option.map_eq_some_iff.1 hb'
      exact hclash j b0 m' k' hj hb0 hm' hk')
    have hx : decryptSimpleEdX P enc b (P.pubOf (P.xsk sk)) (cStr d) = .ok (some m) := by
      unfold decryptSimpleEdX
      rw [xKeys_ok hP hbl]
      show Out.ok (decryptSimple _ _ _ _ _ _) = _
      rw [hd]
    have he : decryptSimpleEd P enc b (P.edPub sk) (cStr d) = .ok (some m) := by
      unfold decryptSimpleEd
      rw [if_neg (by omega), hP.xpkPub]
      exact hx
    refine ⟨hx, he, fun hne => ⟨?_, ?_, ?_⟩⟩
    · unfold HasMsg cDecryptMulti
      rw [hd]
      show Out.ok (toCBuf m0 m) = _
      rw [hbuf _ hne]
    · unfold HasMsg cDecryptMultiEdX
      rw [hx]
      show Out.ok (toCBuf m0 m) = _
      rw [hbuf _ hne]
    · unfold HasMsg cDecryptMultiEd
      rw [he]
      show Out.ok (toCBuf m0 m) = _
      rw [hbuf _ hne]

/-- **C117.** The C++ function that takes the sender's Ed25519 key: with any nonce it does what the one with X25519 keys does with the
keys of the same account, and refuses a key that is not 64 bytes. -/
theorem multi_ed_form (hP : P.Good) (messages recipients : List Bytes) (sk d nonce rnd : Bytes) (pad : Int) (junk : Nat → Bytes) :
    (sk.length = 64 →
      encryptSimpleEd P.toMPrims (xKeys P) messages recipients sk d nonce pad rnd junk =
        encryptSimple P.toMPrims messages recipients (P.xsk sk) (P.pubOf (P.xsk sk)) d (some nonce) pad rnd junk) ∧
    (sk.length ≠ 64 → encryptSimpleEd P.toMPrims (xKeys P) messages recipients sk d nonce pad rnd junk = .err .foreign) := by
  constructor <;> intro h
  · unfold encryptSimpleEd
    rw [xKeys_ok hP h]
    rfl
  · unfold encryptSimpleEd xKeys
    rw [if_pos h]
    rfl

/-- C117, failure: the C functions return, a null pointer with `*out_len` unchanged if and only if the C++ function throws or finds
nothing — or the message is empty and `malloc(0)` returns null, which the caller cannot tell from failure. -/
theorem multi_c_failure (m0 : Bool) (len : Nat) (enc sk priv pub sender d : Bytes) :
    (∃ r, cDecryptMulti P m0 len enc priv pub sender d = .ok r ∧ (r.ptr = none ↔
      decryptSimple P.toMPrims enc priv pub sender (cStr d) = none ∨
      (m0 = false ∧ decryptSimple P.toMPrims enc priv pub sender (cStr d) = some [])) ∧
      (decryptSimple P.toMPrims enc priv pub sender (cStr d) = none → r.len = len)) ∧
    (∃ r, cDecryptMultiEdX P m0 len enc sk sender d = .ok r ∧ (r.ptr = none ↔
      (∀ m, decryptSimpleEdX P enc sk sender (cStr d) ≠ .ok (some m)) ∨
      (m0 = false ∧ decryptSimpleEdX P enc sk sender (cStr d) = .ok (some []))) ∧
      ((∀ m, decryptSimpleEdX P enc sk sender (cStr d) ≠ .ok (some m)) → r.len = len)) ∧
    (∃ r, cDecryptMultiEd P m0 len enc sk sender d = .ok r ∧ (r.ptr = none ↔
      (∀ m, decryptSimpleEd P enc sk sender (cStr d) ≠ .ok (some m)) ∨
      (m0 = false ∧ decryptSimpleEd P enc sk sender (cStr d) = .ok (some []))) ∧
      ((∀ m, decryptSimpleEd P enc sk sender (cStr d) ≠ .ok (some m)) → r.len = len)) := by
  have gen : ∀ r : Out (Option Bytes), (∃ x, r = .ok x) ∨ (∃ e, r = .err e) → ∃ b, cMultiOpt m0 len r = .ok b ∧
      (b.ptr = none ↔ (∀ m, r ≠ .ok (some m)) ∨ (m0 = false ∧ r = .ok (some []))) ∧ ((∀ m, r ≠ .ok (some m)) → b.len = len) := by
    rintro r (⟨x, rfl⟩ | ⟨e, rfl⟩)
    · cases x with
      | none => exact ⟨_, rfl, ⟨fun _ => .inl (by simp), fun _ => rfl⟩, fun _ => rfl⟩
      | some x =>
        refine ⟨_, rfl, ⟨fun h => ?_, ?_⟩, fun h => absurd rfl (h x)⟩
        · unfold toCBuf at h
          split at h
          · rename_i hh; rw [hh.1]; exact .inr ⟨hh.2, rfl⟩
          · cases h
        · rintro (h | ⟨h, e⟩)
          · exact absurd rfl (h x)
          · cases e; unfold toCBuf; rw [if_pos ⟨rfl, h⟩]
    · exact ⟨_, rfl, ⟨fun _ => .inl (by simp), fun _ => rfl⟩, fun _ => rfl⟩
  have hk : ∀ s, (∃ x, xKeys P s = .ok x) ∨ ∃ e, xKeys P s = .err e := by
    intro s
    unfold xKeys
    split
    · exact .inr ⟨_, rfl⟩
    · split
      · exact .inr ⟨_, rfl⟩
      · exact .inl ⟨_, rfl⟩
  have hx : ∀ s, (∃ x, decryptSimpleEdX P enc sk s (cStr d) = .ok x) ∨ ∃ e, decryptSimpleEdX P enc sk s (cStr d) = .err e := by
    intro s
    unfold decryptSimpleEdX
    rcases hk sk with ⟨x, e⟩ | ⟨x, e⟩ <;> rw [e]
    · exact .inl ⟨_, rfl⟩
    · exact .inr ⟨_, rfl⟩
  refine ⟨?_, gen _ (hx sender), gen _ ?_⟩
  · obtain ⟨b, h1, h2, h3⟩ := gen (.ok (decryptSimple P.toMPrims enc priv pub sender (cStr d))) (.inl ⟨_, rfl⟩)
    refine ⟨b, h1, h2.trans ?_, fun h => h3 (by rw [h]; simp)⟩
    cases decryptSimple P.toMPrims enc priv pub sender (cStr d) <;> simp
  · unfold decryptSimpleEd
    split
    · exact .inr ⟨_, rfl⟩
    · split
      · exact .inr ⟨_, rfl⟩
      · exact hx _

/-- Two recipients, two messages; the second recipient's Ed25519 key -/
example : ((cEncryptMultiEd toyG true 0 [[1, 2], [3]] [toyG.pubOf (toyG.xsk (gU1 ++ gU1)), toyG.pubOf (toyG.xsk (gU2 ++ gU2))] (gSk ++ gSk)
      (asc ['d']) none 0 (List.replicate 24 8) fun _ => []).toOption.bind fun r => r.ptr.bind fun enc =>
        (cDecryptMultiEd toyG true 0 enc (gU2 ++ gU2) (toyG.edPub (gSk ++ gSk)) (asc ['d'])).toOption) = some ⟨some [3], 1⟩ ∧
    cDecryptMultiEd toyG true 9 [1] (gU2 ++ gU2) (toyG.edPub (gSk ++ gSk)) (asc ['d']) = .ok ⟨none, 9⟩ := by decide +kernel

end Verif
