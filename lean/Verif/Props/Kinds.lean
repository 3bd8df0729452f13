import Verif.Kinds
import Verif.Props.ClientHash
import Verif.Props.ClientKeys
import Verif.Props.ClientDump
import Verif.Props.ClientNet
import Verif.Onion

/-!
# C140: the kinds of configuration are kept apart
-/

namespace Verif

variable {G : Type} [AddCommGroup G] [DecidableEq G]

/-! ### Numbers and names -/

/-- C140.  No two kinds share a namespace or an encryption domain; the namespaces are those the C interface returns;
the domains have 1 to 24 bytes, none of them NUL, so the C interface returns them whole. -/
theorem kinds_differ (A B : CfgKind) :
    (A.ns = B.ns → A = B) ∧ (A.domain = B.domain → A = B) ∧
      (1 ≤ A.domain.length ∧ A.domain.length ≤ 24) ∧
      cStorageNamespace A = A.ns ∧ (∀ m, upToNul (cEncryptionDomain A ++ m) = A.domain) := by
  refine ⟨by cases A <;> cases B <;> decide, by cases A <;> cases B <;> decide, by cases A <;> decide,
    by cases A <;> decide, fun m => by cases A <;> rfl⟩

theorem byte_eq {a b : Nat} (h : UInt8.ofNat (a % 256) = UInt8.ofNat (b % 256)) : a % 256 = b % 256 := by
  have := congrArg UInt8.toNat h
  simpa using this

/-- Eight bytes hold every 64-bit size. -/
theorem be64_inj {a b : Nat} (ha : a < 2 ^ 64) (hb : b < 2 ^ 64) (h : be64 a = be64 b) : a = b := by
  unfold be64 at h
  simp only [List.map_cons, List.map_nil, List.cons.injEq, and_true] at h
  obtain ⟨h1, h2, h3, h4, h5, h6, h7, h8⟩ := h
  have h1 := byte_eq h1
  have h2 := byte_eq h2
  have h3 := byte_eq h3
  have h4 := byte_eq h4
  have h5 := byte_eq h5
  have h6 := byte_eq h6
  have h7 := byte_eq h7
  have h8 := byte_eq h8
  norm_num at ha hb h1 h2 h3 h4 h5 h6 h7 h8
  omega

/-- C140.  What the encryption key of a message is derived from - the 32-byte key, the size and the domain of the kind -
determines all three: two messages have the same derivation input only if they are of the same kind, of the same
size and under the same key. -/
theorem derivation_unique {k k' : Bytes} (hk : k.length = 32) (hk' : k'.length = 32) {n n' : Nat} (hn : n < 2 ^ 64)
    (hn' : n' < 2 ^ 64) {A B : CfgKind} (h : k ++ be64 n ++ A.domain = k' ++ be64 n' ++ B.domain) :
    k = k' ∧ n = n' ∧ A = B := by
  rw [List.append_assoc, List.append_assoc] at h
  obtain ⟨h1, h2⟩ := List.append_inj h (by rw [hk, hk'])
  obtain ⟨h3, h4⟩ := List.append_inj h2 rfl
  exact ⟨h1, be64_inj hn hn' h3, (kinds_differ A B).2.1 h4⟩

/-! ### Every kind meets the conditions of the other theorems -/

/-- The primitives work: what is compressed decompresses, what is signed verifies, the curve is a group with the usual
encodings and has no zero nonce. -/
structure Shared.Good (W : Shared G) : Prop where
  hash : ∀ b, (W.H b).length = 32
  sigLen : ∀ f, W.signer = some f → ∀ b, (f b).length = 64
  prims : W.P.Good
  zip : ∀ b, W.unzip (W.zip b) = some b
  sig : ∀ v f, W.verifier = some v → W.signer = some f → ∀ b, v b (f b) = true
  curve : W.C.Good
  nonce : ∀ seed X m, leNat (W.C.recipientNonce seed X m) ≠ 0

/-- C140.  Objects of all six kinds meet the conditions under which the properties of config objects were proved. -/
theorem kind_good {W : Shared G} (hW : W.Good) (A : CfgKind) : (A.sys W).Good where
  sane := ⟨hW.hash, hW.sigLen⟩
  lag1 := by show (1 : Int) ≤ 5; decide
  lagU := by show (5 : Int) ≤ 2 ^ 62; decide
  prims := hW.prims
  dom := (kinds_differ A A).2.2.1
  zip := hW.zip
  sig := hW.sig
  proto := by
    intro w u hwu
    unfold CfgKind.sys at hwu
    dsimp only at hwu
    split at hwu
    · exact proto_good hW.curve W.other A.ns hW.nonce w u hwu
    · cases hwu

/-! ### Messages -/

/-- The cryptographic assumptions for one message: kind `A` encrypted `plain` under `k`, giving `raw`; an object of kind
`B` holds the keys `ks`.  Nothing is assumed of other messages or keys. -/
structure Apart (W : Shared G) (A B : CfgKind) (k plain raw : Bytes) (ks : List Bytes) : Prop where
  /-- the hash does not map the receiver's derivation inputs to the sender's -/
  kdf : ∀ k' ∈ ks, W.P.kdf (k' ++ be64 plain.length ++ B.domain) = W.P.kdf (k ++ be64 plain.length ++ A.domain) →
    k' ++ be64 plain.length ++ B.domain = k ++ be64 plain.length ++ A.domain
  /-- this ciphertext does not open under one of the receiver's derived keys other than its own -/
  aead : ∀ k' ∈ ks, ∀ x, W.P.aeadOpen (W.P.kdf (k' ++ be64 plain.length ++ B.domain))
      (W.P.nonceOf (nonceKeyPrefix ++ A.domain) plain)
      (W.P.aead (W.P.kdf (k ++ be64 plain.length ++ A.domain)) (W.P.nonceOf (nonceKeyPrefix ++ A.domain) plain) plain) =
        some x →
    W.P.kdf (k' ++ be64 plain.length ++ B.domain) = W.P.kdf (k ++ be64 plain.length ++ A.domain)
  /-- the protobuf envelope, if there is one, is not by accident the encryption of something else -/
  sealed : A.protobuf = true → ∀ k' ∈ ks, ∀ x, decrypt W.P raw k' B.domain ≠ .ok x
  /-- what is not an envelope made for the receiver's account does not unwrap -/
  unwrap : B.protobuf = true → (A.protobuf = false ∨ ks.head? ≠ some k) → ∀ k0, ks.head? = some k0 →
    ∀ x, W.C.unwrapConfig W.other k0 raw B.ns ≠ .ok x

theorem openWith_none {S : Sys} {c : Bytes} : ∀ {ks : List Bytes},
    (∀ k ∈ ks, ∀ x, decrypt S.P c k S.domain ≠ .ok x) → openWith S ks c = none
  | [], _ => rfl
  | k :: ks, h => by
    rw [openWith]
    split
    · rename_i m hm
      exact absurd hm (h k (by simp) m)
    · exact openWith_none fun k' hk' => h k' (by simp [hk'])

theorem wrap_has_x {C : ECurve G} (h : C.Good) {k e b : Bytes} {s ns : Int} (hk : k.length = 32)
    (hw : C.wrapConfig k e s ns = .ok b) : ∃ X, C.edToX (C.enc (C.pub k)) = some X := by
  unfold ECurve.wrapConfig at hw
  rw [Curve.IsKey.fullSk (seed := k) ⟨hk, .inl rfl⟩, Out.ok_bind, h.s.edSk_drop hk] at hw
  cases hX : C.edToX (C.enc (C.pub k)) with
  | none => rw [hX] at hw; cases hw
  | some X => exact ⟨X, rfl⟩

/-- An object of another kind makes nothing of the envelope. -/
theorem other_kind_raw {W : Shared G} (hW : W.Good) {A B : CfgKind} (hAB : A ≠ B) {k msg raw : Bytes} {seqno : Int}
    (hk : k.length = 32) (he : envelope (A.sys W) k seqno msg = .ok raw) {ks : List Bytes}
    (hks : ∀ k' ∈ ks, k'.length = 32) (hl : raw.length < 2 ^ 64)
    (ha : Apart W A B k (padMessage (compress (A.sys W) msg) 40) raw ks) :
    receive (B.sys W) ks raw = none := by
  generalize hp : padMessage (compress (A.sys W) msg) 40 = plain at *
  have hdA := (kinds_differ A A).2.2.1
  have hdB := (kinds_differ B B).2.2.1
  -- nothing unwraps
  have hun : unwrapOne (B.sys W) ks raw = raw := by
    cases ks with
    | nil =>
      unfold unwrapOne
      split
      · rename_i h; cases h
      · rfl
    | cons k0 ks =>
      by_cases hB : B.protobuf = true
      · have hpr : (B.sys W).proto = some (W.C.protoFor W.other B.ns) := by
          show (if B.protobuf then _ else _) = _
          rw [if_pos hB]
        have key : ∀ x, W.C.unwrapConfig W.other k0 raw B.ns ≠ .ok x := by
          by_cases hc : A.protobuf = false ∨ (k0 :: ks).head? ≠ some k
          · exact ha.unwrap hB hc k0 rfl
          · rw [not_or, not_not] at hc
            have h0 : k0 = k := Option.some.inj hc.2
            subst h0
            have hA : A.protobuf = true := by simpa using hc.1
            have hw : ∃ e, W.C.wrapConfig k0 e seqno A.ns = .ok raw := by
              unfold envelope at he
              rw [encrypt_ok (d := (A.sys W).domain) hk hdA] at he
              have hpa : (A.sys W).proto = some (W.C.protoFor W.other A.ns) := by
                show (if A.protobuf then _ else _) = _
                rw [if_pos hA]
              rw [hpa] at he
              exact ⟨_, he⟩
            obtain ⟨e, hw⟩ := hw
            obtain ⟨X, hX⟩ := wrap_has_x hW.curve hk hw
            intro x hx
            rw [unwrap_other_namespace hW.curve W.other (seed := k0) ⟨hk, .inl rfl⟩ ⟨hk, .inl rfl⟩ hX
              (fun _ _ => hW.nonce _ _ _) hw (fun hh => hAB ((kinds_differ A B).1 hh.symm))] at hx
            cases hx
        unfold unwrapOne
        rw [hpr]
        show ((W.C.unwrapConfig W.other k0 raw B.ns).casesOn some (fun _ => none) none none : Option Bytes).getD raw = raw
        cases hu : W.C.unwrapConfig W.other k0 raw B.ns with
        | ok x => exact absurd hu (key x)
        | err _ => rfl
        | hang => rfl
        | ub => rfl
      · have hpr : (B.sys W).proto = none := by
          show (if B.protobuf then _ else _) = _
          rw [if_neg hB]
        unfold unwrapOne
        rw [hpr]
  unfold receive
  rw [hun]
  rw [openWith_none, Option.bind_none]
  intro k' hk' x hx
  have hx : decrypt W.P raw k' B.domain = .ok x := hx
  by_cases hA : A.protobuf = true
  · exact ha.sealed hA k' hk' x hx
  · -- a bare ciphertext
    have hpa : (A.sys W).proto = none := by
      show (if A.protobuf then _ else _) = _
      rw [if_neg hA]
    unfold envelope at he
    rw [hp, encrypt_ok (d := (A.sys W).domain) hk hdA, hpa] at he
    have hraw : W.P.aead (W.P.kdf (k ++ be64 plain.length ++ A.domain)) (W.P.nonceOf (nonceKeyPrefix ++ A.domain) plain) plain ++
        W.P.nonceOf (nonceKeyPrefix ++ A.domain) plain = raw := Out.ok.inj he
    have hlen : raw.length = plain.length + 40 := by
      rw [← hraw, List.length_append, hW.prims.aeadLen, hW.prims.nonceLen]
    unfold decrypt at hx
    rw [if_neg (by omega)] at hx
    unfold makeEncryptKey at hx
    rw [if_neg (by rw [hks k' hk']; simp), if_neg (by omega)] at hx
    dsimp only at hx
    have e40 : raw.length - 40 = plain.length := by omega
    have e24 : raw.length - 24 =
        (W.P.aead (W.P.kdf (k ++ be64 plain.length ++ A.domain)) (W.P.nonceOf (nonceKeyPrefix ++ A.domain) plain) plain).length := by
      rw [hW.prims.aeadLen]; omega
    rw [e40, e24, ← hraw, List.drop_left, List.take_left] at hx
    split at hx
    · rename_i m hm
      have hin := ha.kdf k' hk' (ha.aead k' hk' m hm)
      exact hAB (derivation_unique (hks k' hk') hk (by omega) (by omega) hin).2.2.symm
    · cases hx

/-- C140.  A message pushed by an object of one kind is not taken up by an object of another kind - not even if both hold
the same keys, as the objects of one account and those of one group do: merging a batch that contains it does exactly
what merging the batch without it does. -/
theorem other_kind_ignored {W : Shared G} (hW : W.Good) {A B : CfgKind} (hAB : A ≠ B)
    {c : Client} (hc : Reach (A.sys W) c) {s : Int} {raw : Bytes} {obs : List Bytes}
    (hp : (c.push (A.sys W)).2 = .ok (s, raw, obs)) {k : Bytes} (hk : c.keys.head? = some k)
    {d : Client} (hd : Reach (B.sys W) d)
    (ha : Apart W A B k (padMessage (compress (A.sys W) (c.plain (A.sys W))) 40) raw d.keys) :
    receive (B.sys W) d.keys raw = none ∧
      ∀ (hash : Bytes) (pre post : List (Bytes × Bytes)),
        d.merge (B.sys W) (pre ++ (hash, raw) :: post) = d.merge (B.sys W) (pre ++ post) := by
  obtain ⟨_, _, _, _, _, _, k', ks, hkc, hm, hmax⟩ := push_state hp
  rw [hkc] at hk
  cases hk
  have hk32 : k.length = 32 := (hc.inv (kind_good hW A)).keyLen k (by rw [hkc]; simp)
  have hr := other_kind_raw hW hAB hk32 hm (hd.inv (kind_good hW B)).keyLen
    (lt_of_le_of_lt hmax (by decide)) ha
  refine ⟨hr, fun hash pre post => ?_⟩
  rw [junk_ignored (B.sys W) d (pre ++ (hash, raw) :: post), junk_ignored (B.sys W) d (pre ++ post)]
  congr 1
  rw [List.filter_append, List.filter_append, List.filter_cons, if_neg]
  rw [hr]; simp

/-! ### Dumps -/

/-- C140.  Dumps, in contrast, do not say of which kind they are: every dump loads into an object of any kind exactly
as into one of its own. -/
theorem dumps_not_kept_apart (W : Shared G) (A B : CfgKind) (dump : Bytes) :
    Client.restore (A.sys W) dump = Client.restore (B.sys W) dump := rfl

/-! ### Non-vacuity: Info and Members of a group, contacts and profile of an account -/

/-- The last 16 bytes of the key -/
def kindTag (k : Bytes) : Bytes := (k.reverse ++ List.replicate 16 0).take 16

/-- A toy cipher in which keys matter: the derived key is the derivation input, the tag its last 16 bytes. -/
def kindPrims : Prims where
  kdf := fun x => x
  nonceOf := fun _ _ => List.replicate 24 7
  aead := fun k _ m => m ++ kindTag k
  aeadOpen := fun k _ c =>
    if c.drop (c.length - 16) = kindTag k ∧ 16 ≤ c.length then some (c.take (c.length - 16)) else none

theorem kindTag_length (k : Bytes) : (kindTag k).length = 16 := by
  unfold kindTag
  rw [List.length_take, List.length_append, List.length_replicate]; omega

theorem tag_open {t m c : Bytes} (h : (if c.drop (c.length - 16) = t ∧ 16 ≤ c.length then some (c.take (c.length - 16)) else none) = some m) :
    c = m ++ t := by
  by_cases hc : c.drop (c.length - 16) = t ∧ 16 ≤ c.length
  · rw [if_pos hc] at h
    cases h
    rw [← hc.1, List.take_append_drop]
  · rw [if_neg hc] at h; cases h

theorem tag_seal {t m : Bytes} (ht : t.length = 16) :
    (if (m ++ t).drop ((m ++ t).length - 16) = t ∧ 16 ≤ (m ++ t).length then some ((m ++ t).take ((m ++ t).length - 16)) else none) =
      some m := by
  have h : (m ++ t).length - 16 = m.length := by rw [List.length_append, ht]; omega
  rw [h, List.drop_left, List.take_left, if_pos ⟨rfl, by rw [List.length_append, ht]; omega⟩]

theorem kindPrims_good : kindPrims.Good where
  nonceLen := fun _ _ => List.length_replicate ..
  aeadLen := fun k _ m => by
    show (m ++ kindTag k).length = m.length + 16
    rw [List.length_append, kindTag_length]
  openSeal := fun k _ _ => tag_seal (kindTag_length k)
  sealOpen := fun _ _ _ _ h => tag_open h

/-- The toy primitives of the other examples, with this cipher -/
def exShared : Shared Five where
  H := exSys.env.H
  verifier := exSys.env.verifier
  signer := exSys.env.signer
  P := kindPrims
  zip := exSys.zip
  unzip := exSys.unzip
  C := toyEK
  other := fun _ _ => false

theorem exShared_good : exShared.Good where
  hash := exEnvH_sane.hash
  sigLen := exEnvH_sane.sig
  prims := kindPrims_good
  zip := exSys_good.zip
  sig := exSys_good.sig
  curve := toyEK_good
  nonce := toyEK_nonce

/-- A new object of the given kind with the key `exKey` and some content -/
def exOf (A : CfgKind) : Client :=
  (((Client.new (A.sys exShared)).addKey (A.sys exShared) exKey true false).1.edit (A.sys exShared) exData).1

def exRaw (A : CfgKind) : Bytes := ((exOf A).push (A.sys exShared)).2.casesOn (fun x => x.2.1) (fun _ => []) [] []
def exKPlain (A : CfgKind) : Bytes := padMessage (compress (A.sys exShared) ((exOf A).plain (A.sys exShared))) 40

theorem exOf_reach (A : CfgKind) : Reach (A.sys exShared) (exOf A) := by
  cases A <;>
  exact .step (.step .new (.addKey _ _ _ _ (by decide +kernel))) (.edit _ _ (by decide +kernel) (by decide +kernel))

private theorem exInfo_pushed : ((exOf .info).push (CfgKind.sys exShared .info)).2 = .ok (1, exRaw .info, []) := by
  decide +kernel

/-- What `Info` pushes, `Members` of the same group with the same key does not take up; another `Info` does. -/
example : receive (CfgKind.sys exShared .members) (exOf .members).keys (exRaw .info) = none ∧
    (receive (CfgKind.sys exShared .info) (exOf .members).keys (exRaw .info)).isSome = true := by
  decide +kernel

/-- The assumptions hold for that message. -/
theorem exApart : Apart exShared .info .members exKey (exKPlain .info) (exRaw .info) (exOf .members).keys where
  kdf := fun _ _ h => h
  aead := by
    intro k' hk' x hx
    have hkk : (exOf .members).keys = [exKey] := by decide +kernel
    rw [hkk, List.mem_singleton] at hk'
    subst hk'
    have : exShared.P.aeadOpen (exShared.P.kdf (exKey ++ be64 (exKPlain .info).length ++ CfgKind.members.domain))
      (exShared.P.nonceOf (nonceKeyPrefix ++ CfgKind.info.domain) (exKPlain .info))
      (exShared.P.aead (exShared.P.kdf (exKey ++ be64 (exKPlain .info).length ++ CfgKind.info.domain))
        (exShared.P.nonceOf (nonceKeyPrefix ++ CfgKind.info.domain) (exKPlain .info)) (exKPlain .info)) = none := by
      decide +kernel
    rw [this] at hx
    cases hx
  sealed := fun h => by cases h
  unwrap := fun h => by cases h

example : receive (CfgKind.sys exShared .members) (exOf .members).keys (exRaw .info) = none :=
  (other_kind_ignored exShared_good (by decide) (exOf_reach .info) exInfo_pushed (k := exKey) (by decide +kernel)
    (exOf_reach .members) exApart).1

/-- The same of contacts and profile of one account, whose messages are in protobuf envelopes. -/
theorem exApartUser : Apart exShared .contacts .profile exKey (exKPlain .contacts) (exRaw .contacts) (exOf .profile).keys where
  kdf := fun _ _ h => h
  aead := by
    intro k' hk' x hx
    have hkk : (exOf .profile).keys = [exKey] := by decide +kernel
    rw [hkk, List.mem_singleton] at hk'
    subst hk'
    have : exShared.P.aeadOpen (exShared.P.kdf (exKey ++ be64 (exKPlain .contacts).length ++ CfgKind.profile.domain))
      (exShared.P.nonceOf (nonceKeyPrefix ++ CfgKind.contacts.domain) (exKPlain .contacts))
      (exShared.P.aead (exShared.P.kdf (exKey ++ be64 (exKPlain .contacts).length ++ CfgKind.contacts.domain))
        (exShared.P.nonceOf (nonceKeyPrefix ++ CfgKind.contacts.domain) (exKPlain .contacts)) (exKPlain .contacts)) = none := by
      decide +kernel
    rw [this] at hx
    cases hx
  sealed := by
    intro _ k' hk' x hx
    have hkk : (exOf .profile).keys = [exKey] := by decide +kernel
    rw [hkk, List.mem_singleton] at hk'
    subst hk'
    have : decrypt exShared.P (exRaw .contacts) exKey CfgKind.profile.domain = .decryptError := by decide +kernel
    rw [this] at hx
    cases hx
  unwrap := by
    intro _ h
    have hkk : (exOf .profile).keys.head? = some exKey := by decide +kernel
    rcases h with h | h
    · cases h
    · exact absurd hkk h

example : ∃ s o, ((exOf .contacts).push (CfgKind.sys exShared .contacts)).2 = .ok (s, exRaw .contacts, o) ∧
    receive (CfgKind.sys exShared .profile) (exOf .profile).keys (exRaw .contacts) = none ∧
    (receive (CfgKind.sys exShared .contacts) (exOf .profile).keys (exRaw .contacts)).isSome = true := by
  have h : ((exOf .contacts).push (CfgKind.sys exShared .contacts)).2 = .ok (1, exRaw .contacts, []) := by decide +kernel
  exact ⟨1, [], h, (other_kind_ignored exShared_good (by decide) (exOf_reach .contacts) h (k := exKey) (by decide +kernel)
    (exOf_reach .profile) exApartUser).1, by decide +kernel⟩

/-- A dump of the contacts loads as a profile and then holds the contacts' data. -/
example : ∃ c, Client.restore (CfgKind.sys exShared .profile) ((exOf .contacts).dumpBytes (CfgKind.sys exShared .contacts) []) =
    .ok c ∧ c.conf.m.data = (exOf .contacts).conf.refresh.m.data ∧ c.conf.m.data ≠ [] := by
  rw [dumps_not_kept_apart exShared .profile .contacts]
  refine ⟨(Client.restore (CfgKind.sys exShared .contacts) ((exOf .contacts).dumpBytes (CfgKind.sys exShared .contacts) [])).casesOn
    (fun c => c) (fun _ => exOf .contacts) (exOf .contacts) (exOf .contacts), ?_, ?_, ?_⟩
  all_goals decide +kernel

end Verif
