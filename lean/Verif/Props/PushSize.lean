import Verif.Props.Kinds

/-!
# C144: exactly which configs can be pushed

The storage server takes messages of at most 76800 bytes.  Sizes are rounded up when the message is padded, and the
protobuf envelope of the user's own configs comes on top, so the usable sizes are 76760 bytes for group configs and
71640 for user configs: the serialised config or, if shorter, its compressed form with one byte in front.
-/

namespace Verif

variable {G : Type} [AddCommGroup G] [DecidableEq G]

/-! ### Specification -/

/-- The size of a serialised config after compression, if that makes it shorter. -/
def packedSize (S : Sys) (msg : Bytes) : Nat := min msg.length (1 + (S.zip msg).length)

/-- The size of a message with `n` bytes of content and 40 bytes of nonce and tag: the next multiple of 256, 1024, 2048 or
5120 bytes, depending on the size. -/
def sentSize (n : Nat) : Nat :=
  if n + 40 < 5120 then (n + 40 + 255) / 256 * 256
  else if n + 40 < 20480 then (n + 40 + 1023) / 1024 * 1024
  else if n + 40 < 40960 then (n + 40 + 2047) / 2048 * 2048
  else (n + 40 + 5119) / 5120 * 5120

/-- The largest packed size that can be pushed. -/
def CfgKind.limit : CfgKind → Nat
  | .info => 76760
  | .members => 76760
  | _ => 71640

/-! ### Sizes -/

theorem padMessage_sent (data : Bytes) : (padMessage data 40).length + 40 = sentSize data.length := by
  have hl : (padMessage data 40).length = (paddedSize data.length 40 - data.length) + data.length := by
    simp [padMessage]
  obtain ⟨_, _, _, _, h2, _⟩ := padded_total data.length
  have : paddedSize data.length 40 + 40 = sentSize data.length := by
    unfold paddedSize sentSize
    dsimp only
    split_ifs <;> omega
  omega

theorem compress_length (S : Sys) (msg : Bytes) : (compress S msg).length = packedSize S msg := by
  unfold compress packedSize
  dsimp only
  split
  · rename_i h
    simp only [List.length_cons] at h ⊢; omega
  · rename_i h
    simp only [List.length_cons] at h; omega

theorem sent_limit (n : Nat) : (sentSize n ≤ 76800 ↔ n ≤ 76760) ∧ (sentSize n ≤ 71680 ↔ n ≤ 71640) ∧
    (71680 < sentSize n → 76800 ≤ sentSize n) := by
  unfold sentSize
  split_ifs <;> omega

/-- The bytes before wrapping: always made, of the size to which the packed size is rounded. -/
theorem sealed_size {S : Sys} (hS : S.Good) {k : Bytes} (hk : k.length = 32) (msg : Bytes) :
    ∃ e, encrypt S.P (padMessage (compress S msg) 40) k S.domain = .ok e ∧ e.length = sentSize (packedSize S msg) := by
  obtain ⟨e, h1, h2, _⟩ := decrypt_encrypt hS.prims (padMessage (compress S msg) 40) k S.domain hk hS.dom
  exact ⟨e, h1, by rw [h2, padMessage_sent, compress_length]⟩

theorem push_ok_iff {S : Sys} {c : Client} {k : Bytes} {ks : List Bytes} (hk : c.keys = k :: ks) :
    (∃ s m o, (c.push S).2 = .ok (s, m, o)) ↔ ∃ m, envelope S k c.seqno (c.plain S) = .ok m ∧ m.length ≤ 76800 := by
  constructor
  · rintro ⟨s, m, o, h⟩
    obtain ⟨_, ⟨k', ks', h1, h2, h3⟩, _⟩ := push_eq h
    rw [hk] at h1
    obtain ⟨rfl, rfl⟩ := List.cons.inj h1
    exact ⟨m, h2, h3⟩
  · rintro ⟨m, h1, h2⟩
    unfold Client.push
    rw [hk]
    have h1' : envelope S k c.conf.m.seqno (c.conf.ser S.env true) = .ok m := h1
    simp only [h1']
    rw [if_neg (by unfold maxMessageSize; omega)]
    exact ⟨_, _, _, rfl⟩

/-- C144.  Configs that are not wrapped: they can be pushed exactly if there is a key and the packed size is at most
76760 bytes; the message has the rounded size. -/
theorem push_plain_iff {S : Sys} (hS : S.Good) (hp : S.proto = none) {c : Client} (hr : Reach S c) :
    ((∃ s m o, (c.push S).2 = .ok (s, m, o)) ↔ c.keys ≠ [] ∧ packedSize S (c.plain S) ≤ 76760) ∧
    ∀ s m o, (c.push S).2 = .ok (s, m, o) → m.length = sentSize (packedSize S (c.plain S)) := by
  cases hk : c.keys with
  | nil =>
    have h : (c.push S).2 = .err .foreign := by unfold Client.push; rw [hk]
    rw [h]
    exact ⟨⟨fun ⟨_, _, _, e⟩ => (by cases e), fun e => absurd rfl e.1⟩, fun _ _ _ e => (by cases e)⟩
  | cons k ks =>
    have hkl : k.length = 32 := (hr.inv hS).keyLen k (by rw [hk]; simp)
    obtain ⟨e, he, hl⟩ := sealed_size hS hkl (c.plain S)
    have hen : envelope S k c.seqno (c.plain S) = .ok e := by
      unfold envelope
      rw [he, Out.bind_ok, hp]
    refine ⟨?_, fun s m o h => ?_⟩
    · rw [push_ok_iff hk, hen]
      have := (sent_limit (packedSize S (c.plain S))).1
      constructor
      · rintro ⟨m, e1, e2⟩
        rw [← Out.ok.inj e1, hl] at e2
        exact ⟨by simp, this.1 e2⟩
      · rintro ⟨_, h⟩
        exact ⟨e, rfl, by rw [hl]; exact this.2 h⟩
    · obtain ⟨_, ⟨k', ks', h1, h2, _⟩, _⟩ := push_eq h
      rw [hk] at h1
      obtain ⟨rfl, rfl⟩ := List.cons.inj h1
      rw [hen] at h2
      rw [← Out.ok.inj h2, hl]

/-- C144.  Configs that are wrapped, the wrapper adding between 1 and 400 bytes to this message: the limit is 71640. -/
theorem push_wrapped_iff {S : Sys} (hS : S.Good) {w : Bytes → Bytes → Int → Out Bytes} {u : Bytes → Bytes → Option Bytes}
    (hp : S.proto = some (w, u)) {c : Client} (hr : Reach S c)
    (hw : ∀ k e, c.keys.head? = some k → encrypt S.P (padMessage (compress S (c.plain S)) 40) k S.domain = .ok e →
      ∃ m, w k e c.seqno = .ok m ∧ e.length < m.length ∧ m.length ≤ e.length + 400) :
    ((∃ s m o, (c.push S).2 = .ok (s, m, o)) ↔ c.keys ≠ [] ∧ packedSize S (c.plain S) ≤ 71640) ∧
    ∀ s m o, (c.push S).2 = .ok (s, m, o) → sentSize (packedSize S (c.plain S)) < m.length ∧
      m.length ≤ sentSize (packedSize S (c.plain S)) + 400 := by
  cases hk : c.keys with
  | nil =>
    have h : (c.push S).2 = .err .foreign := by unfold Client.push; rw [hk]
    rw [h]
    exact ⟨⟨fun ⟨_, _, _, e⟩ => (by cases e), fun e => absurd rfl e.1⟩, fun _ _ _ e => (by cases e)⟩
  | cons k ks =>
    have hkl : k.length = 32 := (hr.inv hS).keyLen k (by rw [hk]; simp)
    obtain ⟨e, he, hl⟩ := sealed_size hS hkl (c.plain S)
    obtain ⟨m0, hm1, hm2, hm3⟩ := hw k e (by rw [hk]; rfl) he
    have hen : envelope S k c.seqno (c.plain S) = .ok m0 := by
      unfold envelope
      rw [he, Out.bind_ok, hp]
      exact hm1
    rw [hl] at hm2 hm3
    refine ⟨?_, fun s m o h => ?_⟩
    · rw [push_ok_iff hk, hen]
      obtain ⟨_, h2, h3⟩ := sent_limit (packedSize S (c.plain S))
      constructor
      · rintro ⟨m, e1, e2⟩
        rw [← Out.ok.inj e1] at e2
        refine ⟨by simp, h2.1 ?_⟩
        by_contra h
        have := h3 (by omega)
        omega
      · rintro ⟨_, h⟩
        have := h2.2 h
        exact ⟨m0, rfl, by omega⟩
    · obtain ⟨_, ⟨k', ks', h1, h2, _⟩, _⟩ := push_eq h
      rw [hk] at h1
      obtain ⟨rfl, rfl⟩ := List.cons.inj h1
      rw [hen] at h2
      rw [← Out.ok.inj h2]
      exact ⟨hm2, hm3⟩

theorem wrap_grows {C : ECurve G} (h : C.Good) {seed sk X data : Bytes} {seqno ns : Int} {kind : Nat}
    (hk : C.IsKey seed sk) (hX : C.edToX (C.enc (C.pub seed)) = some X) (hns : nsKind ns = some kind)
    (hl : data.length < 2 ^ 30)
    (he0 : leNat (clampSc (C.detKey seed X (putContent kind seqno data ++ [128]))) • C.B ≠ 0)
    (hn : leNat (C.recipientNonce seed X (putContent kind seqno data ++ [128])) ≠ 0) :
    ∃ w, C.wrapConfig sk data seqno ns = .ok w ∧ data.length < w.length ∧ w.length ≤ data.length + 400 := by
  obtain ⟨w, hw, hle⟩ := wrap_ok h hk hX hns hl he0 hn
  refine ⟨w, hw, ?_, hle⟩
  obtain ⟨c, h1, h2, -, -⟩ := recipient_deterministic h (rsk := seed) hk.1 ⟨hk.1, .inl rfl⟩ hX hX he0 hn
  have he : C.wrapConfig sk data seqno ns = .ok (putEnvelope c) := by
    unfold ECurve.wrapConfig
    rw [hk.fullSk, Out.ok_bind, h.s.edSk_drop hk.1, hX]
    dsimp only
    rw [hns]
    dsimp only
    rw [if_pos hl, h1 _ _ ⟨hk.1, .inr rfl⟩ (.inl rfl), Out.ok_bind]
  rw [he] at hw
  rw [← Out.ok.inj hw]
  have hlen : ∀ (n : Nat) (b : Bytes), b.length < (fLen n b).length := fun n b => by
    simp only [fLen, List.length_cons, List.length_append]; omega
  have a := hlen 3 data
  have b := hlen 11 (fInt 1 kind ++ fInt 2 (int64Bits seqno) ++ fLen 3 data)
  have d := hlen 8 c
  have e := hlen 3 (fInt 1 6 ++ fInt 5 1 ++ fLen 8 c)
  have f := hlen 2 (fLen 1 [] ++ fLen 2 [] ++ fLen 3 (fInt 1 6 ++ fInt 5 1 ++ fLen 8 c) ++ fInt 4 0)
  unfold putEnvelope
  unfold putContent at h2
  simp only [List.length_append, List.length_singleton] at *
  omega

/-- C144.  The six kinds of configs: an object can push exactly if it has a key and its packed size is within the limit
of its kind.  (For the user's own kinds: the key in front is an account key, and the envelope made for this message
has no zero nonce or ephemeral key.) -/
theorem push_limit_iff {W : Shared G} (hW : W.Good) (A : CfgKind) {c : Client} (hr : Reach (A.sys W) c)
    (hw : A.protobuf = true → ∀ k e, c.keys.head? = some k →
      encrypt W.P (padMessage (compress (A.sys W) (c.plain (A.sys W))) 40) k A.domain = .ok e →
      ∃ X, W.C.edToX (W.C.enc (W.C.pub k)) = some X ∧ ∀ kind, nsKind A.ns = some kind →
        leNat (clampSc (W.C.detKey k X (putContent kind c.seqno e ++ [128]))) • W.C.B ≠ 0)
    (hsize : packedSize (A.sys W) (c.plain (A.sys W)) < 2 ^ 29) :
    (∃ s m o, (c.push (A.sys W)).2 = .ok (s, m, o)) ↔
      c.keys ≠ [] ∧ packedSize (A.sys W) (c.plain (A.sys W)) ≤ A.limit := by
  have hS := kind_good hW A
  cases hA : A.protobuf with
  | false =>
    have hp : (A.sys W).proto = none := by
      show (if A.protobuf then some (W.C.protoFor W.other A.ns) else none) = none
      rw [hA]; rfl
    have hl : A.limit = 76760 := by cases A <;> first | rfl | cases hA
    rw [hl]
    exact (push_plain_iff hS hp hr).1
  | true =>
    have hp : (A.sys W).proto = some (W.C.protoFor W.other A.ns) := by
      show (if A.protobuf then some (W.C.protoFor W.other A.ns) else none) = _
      rw [hA]; rfl
    have hl : A.limit = 71640 := by cases A <;> first | rfl | cases hA
    obtain ⟨kind, hkind⟩ : ∃ kind, nsKind A.ns = some kind := by
      cases A
      · exact ⟨_, rfl⟩
      · exact ⟨_, rfl⟩
      · exact ⟨_, rfl⟩
      · exact ⟨_, rfl⟩
      · cases hA
      · cases hA
    rw [hl]
    refine (push_wrapped_iff hS (w := (W.C.protoFor W.other A.ns).1) (u := (W.C.protoFor W.other A.ns).2) hp hr ?_).1
    intro k e hk he
    obtain ⟨X, hX, h0⟩ := hw hA k e hk he
    have hkl : k.length = 32 := (hr.inv hS).keyLen k (List.mem_of_mem_head? hk)
    obtain ⟨e', he', hel⟩ := sealed_size hS hkl (c.plain (A.sys W))
    have : e' = e := Out.ok.inj (he'.symm.trans he)
    subst this
    refine wrap_grows hW.curve ⟨hkl, .inl rfl⟩ hX hkind ?_ (h0 kind hkind) (hW.nonce _ _ _)
    rw [hel]
    unfold sentSize
    split_ifs <;> omega

/-- C144.  A push that fails changes nothing an application can see: the content, what is to be pushed and stored. -/
theorem push_failed {S : Sys} (hS : S.Good) {c : Client} (hr : Reach S c) {e : Err} (h : (c.push S).2 = .err e) :
    (c.push S).1.content = c.content ∧ (c.push S).1.seqno = c.seqno ∧ (c.push S).1.needsPush = c.needsPush ∧
      (c.push S).1.needsDump = c.needsDump ∧ (c.push S).1.currentHashes = c.currentHashes ∧
      (c.push S).1.old = c.old ∧ (c.push S).1.keys = c.keys ∧ (c.push S).1.st = c.st := by
  have : (c.push S).1 = c ∨ (c.push S).1 = c.touched := by
    unfold Client.push at h ⊢
    cases hk : c.keys with
    | nil => exact .inl rfl
    | cons k ks =>
      rw [hk] at h
      dsimp only at h ⊢
      cases he : envelope S k c.conf.m.seqno (c.conf.ser S.env true) with
      | err e => exact .inr rfl
      | hang => exact .inl rfl
      | ub => exact .inl rfl
      | ok m =>
        rw [he] at h
        dsimp only at h ⊢
        by_cases hl : m.length > maxMessageSize
        · rw [if_pos hl]; exact .inr rfl
        · rw [if_neg hl] at h; cases h
  rcases this with h | h <;> rw [h]
  · exact ⟨rfl, rfl, rfl, rfl, rfl, rfl, rfl, rfl⟩
  · refine ⟨?_, ?_, rfl, rfl, rfl, rfl, rfl, rfl⟩
    · have ht := (hr.inv hS).wf.data
      show pruneD c.conf.refresh.m.data = pruneD c.conf.m.data
      revert ht
      obtain ⟨m, o⟩ := c.conf
      intro ht
      cases o with
      | none => rfl
      | some o => exact pruneD_of_wf (pruneD_wf ht)
    · show c.conf.refresh.m.seqno = c.conf.m.seqno
      obtain ⟨m, o⟩ := c.conf
      cases o <;> rfl

/-! ### Examples -/

example : sentSize 71640 = 71680 ∧ sentSize 71641 = 76800 ∧ sentSize 76760 = 76800 ∧ sentSize 76761 = 81920 := by decide

/-- A reachable object that can push and one that cannot. -/
example : exSys.proto = none ∧ exC1.keys ≠ [] ∧ packedSize exSys (exC1.plain exSys) ≤ 76760 ∧
    ({ exC1 with keys := [] } : Client).keys = [] := by decide +kernel

def exSealed (A : CfgKind) : Bytes := (encrypt exShared.P (exKPlain A) exKey A.domain).casesOn id (fun _ => []) [] []

private theorem exSealed_is (A : CfgKind) : encrypt exShared.P (exKPlain A) exKey A.domain = .ok (exSealed A) := by
  cases A <;> decide +kernel

private theorem exOf_keys (A : CfgKind) : (exOf A).keys = [exKey] := by cases A <;> decide +kernel

private theorem exOf_curve : ∃ X, toyEK.edToX (toyEK.enc (toyEK.pub exKey)) = some X ∧
    ∀ kind, nsKind CfgKind.contacts.ns = some kind → leNat (clampSc (toyEK.detKey exKey X
      (putContent kind (exOf .contacts).seqno (exSealed .contacts) ++ [128]))) • toyEK.B ≠ 0 := by
  refine ⟨(toyEK.edToX (toyEK.enc (toyEK.pub exKey))).getD [], by decide +kernel, fun kind h => ?_⟩
  have : kind = 2 := (Option.some.inj h).symm
  subst this
  decide +kernel

/-- The hypotheses of `push_limit_iff` hold for a contacts object with some content: it can push. -/
example : ∃ s m o, ((exOf .contacts).push (CfgKind.sys exShared .contacts)).2 = .ok (s, m, o) := by
  refine (push_limit_iff exShared_good .contacts (exOf_reach .contacts) ?_ (by decide +kernel)).2
    ⟨by rw [exOf_keys]; simp, by decide +kernel⟩
  intro _ k e hk he
  rw [exOf_keys] at hk
  have hk := Option.some.inj hk
  subst hk
  have : exSealed .contacts = e := Out.ok.inj ((exSealed_is .contacts).symm.trans he)
  subst this
  exact exOf_curve

end Verif
