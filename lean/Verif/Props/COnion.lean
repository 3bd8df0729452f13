import Verif.COnion
import Verif.Props.Onion
import Verif.Props.Encodings

/-!
# The C interface of the onion-request builder (C123)
-/

namespace Verif

/-! ### Specification -/

/-- The 64 characters at a pointer are the key in hex, letters of either case -/
def HexAt (buf key : Bytes) : Prop := ∃ s rest, buf = s ++ rest ∧ lower s = toHex key ∧ key.length = 32

/-- The NUL-terminated string at a pointer -/
def TextAt (buf s : Bytes) : Prop := ∃ rest, buf = s ++ 0 :: rest ∧ 0 ∉ s

/-- What a C call asks for -/
inductive CCall.Says : CCall → BCall → Prop
  | aes : Says (.encType 0) (.enc .aesGcm)
  | xchacha : Says (.encType 1) (.enc .xchacha20)
  | snode {ed x e k : Bytes} : HexAt ed e → HexAt x k → Says (.snode ed x) (.snode e k)
  | server {host target protocol h t p x k : Bytes} {port : Nat} : TextAt host h → TextAt target t → TextAt protocol p → HexAt x k →
      Says (.server host target protocol port x) (.server h t p (some port) k)
  | hop {ed x e k : Bytes} : HexAt ed e → HexAt x k → Says (.hop ed x) (.hop e k)

/-- The cipher last chosen (XChaCha20 from the start), as the number the C interface uses -/
def encNo (calls : List BCall) : Nat := match calls.reverse.find? (fun c => match c with | .enc _ => true | _ => false) with
  | some (.enc .aesGcm) => 0
  | _ => 1

/-! ### Arguments -/

theorem cHexKey_iff (buf key : Bytes) : cHexKey buf = .ok key ↔ HexAt buf key := by
  unfold cHexKey
  constructor
  · intro h
    by_cases hl : buf.length < 64
    · rw [if_pos hl] at h; cases h
    · rw [if_neg hl] at h
      obtain ⟨h1, h2⟩ := (onion_key_types 32 (buf.take 64) (List.replicate 32 0) rfl).2.1 key h
      exact ⟨buf.take 64, buf.drop 64, (List.take_append_drop ..).symm, h2.symm, h1⟩
  · rintro ⟨s, rest, rfl, h2, h3⟩
    have hl : s.length = 64 := by
      rw [← show (lower s).length = s.length from List.length_map _, h2, toHex_length, h3]
    have hx : isHex s = true := by rw [← isHex_lower, h2, toHex_isHex]
    rw [if_neg (by simp; omega), List.take_left' hl]
    unfold keyFromHex
    rw [if_neg (by rw [hx]; simp), if_neg (by omega), ← fromHex_lower s hx, h2, fromHex_toHex]

theorem cText_iff (buf s : Bytes) : cText buf = .ok s ↔ TextAt buf s := by
  unfold cText
  constructor
  · intro h
    by_cases h0 : 0 ∈ buf
    · rw [if_pos h0] at h
      have h := Out.ok.inj h
      subst h
      clear h
      unfold cStr
      induction buf with
      | nil => cases h0
      | cons c t ih =>
        by_cases hc : c = 0
        · subst hc; exact ⟨t, by simp⟩
        · obtain ⟨rest, h1, h2⟩ := ih (by
            rcases List.mem_cons.1 h0 with h | h
            · exact absurd h.symm hc
            · exact h)
          refine ⟨rest, ?_, ?_⟩
          · rw [List.takeWhile_cons_of_pos (by simpa using hc), List.cons_append, ← h1]
          · rw [List.takeWhile_cons_of_pos (by simpa using hc)]
            simp only [List.mem_cons, not_or]
            exact ⟨fun h => hc h.symm, h2⟩
    · rw [if_neg h0] at h; cases h
  · rintro ⟨rest, rfl, h2⟩
    rw [if_pos (by simp)]
    unfold cStr
    congr 1
    induction s with
    | nil => simp
    | cons c t ih =>
      simp only [List.mem_cons, not_or] at h2
      rw [List.cons_append, List.takeWhile_cons_of_pos (by simpa using fun h => h2.1 h.symm), ih h2.2]

/-- **C123.** A C call does what the C++ call it asks for does; a call that asks for nothing (an unknown cipher, characters that
are no key) does not go through. -/
theorem c_call_iff (b b' : Builder) (c : CCall) : c.run b = .ok b' ↔ ∃ call, c.Says call ∧ b' = b.call call := by
  cases c with
  | encType n =>
    simp only [CCall.run, cEncType]
    constructor
    · intro h
      by_cases h0 : n = 0
      · subst h0; rw [if_pos rfl] at h; exact ⟨_, .aes, (Out.ok.inj h).symm⟩
      · by_cases h1 : n = 1
        · subst h1; exact ⟨_, .xchacha, (Out.ok.inj h).symm⟩
        · rw [if_neg h0, if_neg h1] at h; cases h
    · rintro ⟨call, hs, rfl⟩
      cases hs <;> rfl
  | snode ed x =>
    simp only [CCall.run]
    constructor
    · intro h
      obtain ⟨e, he, h⟩ := Out.bind_eq_ok.1 h
      obtain ⟨k, hk, h⟩ := Out.bind_eq_ok.1 h
      exact ⟨_, .snode ((cHexKey_iff _ _).1 he) ((cHexKey_iff _ _).1 hk), (Out.ok.inj h).symm⟩
    · rintro ⟨call, hs, rfl⟩
      cases hs with
      | snode h1 h2 => rw [(cHexKey_iff _ _).2 h1, (cHexKey_iff _ _).2 h2]; rfl
  | hop ed x =>
    simp only [CCall.run]
    constructor
    · intro h
      obtain ⟨e, he, h⟩ := Out.bind_eq_ok.1 h
      obtain ⟨k, hk, h⟩ := Out.bind_eq_ok.1 h
      exact ⟨_, .hop ((cHexKey_iff _ _).1 he) ((cHexKey_iff _ _).1 hk), (Out.ok.inj h).symm⟩
    · rintro ⟨call, hs, rfl⟩
      cases hs with
      | hop h1 h2 => rw [(cHexKey_iff _ _).2 h1, (cHexKey_iff _ _).2 h2]; rfl
  | server host target protocol port x =>
    simp only [CCall.run]
    constructor
    · intro h
      obtain ⟨h', hh, h⟩ := Out.bind_eq_ok.1 h
      obtain ⟨t, ht, h⟩ := Out.bind_eq_ok.1 h
      obtain ⟨p, hp, h⟩ := Out.bind_eq_ok.1 h
      obtain ⟨k, hk, h⟩ := Out.bind_eq_ok.1 h
      exact ⟨_, .server ((cText_iff _ _).1 hh) ((cText_iff _ _).1 ht) ((cText_iff _ _).1 hp) ((cHexKey_iff _ _).1 hk),
        (Out.ok.inj h).symm⟩
    · rintro ⟨call, hs, rfl⟩
      cases hs with
      | server h1 h2 h3 h4 =>
        rw [(cText_iff _ _).2 h1, (cText_iff _ _).2 h2, (cText_iff _ _).2 h3, (cHexKey_iff _ _).2 h4]; rfl

/-- **C123.** A call reads outside the caller's buffers only if a key buffer has fewer than 64 characters or a text is not
NUL-terminated. -/
theorem c_call_in_bounds (b : Builder) (c : CCall) (h : match c with
    | .encType _ => True
    | .snode ed x => 64 ≤ ed.length ∧ 64 ≤ x.length
    | .server host target protocol _ x => 0 ∈ host ∧ 0 ∈ target ∧ 0 ∈ protocol ∧ 64 ≤ x.length
    | .hop ed x => 64 ≤ ed.length ∧ 64 ≤ x.length) : c.run b = .err .foreign ∨ ∃ b', c.run b = .ok b' := by
  have hk : ∀ x : Bytes, 64 ≤ x.length → cHexKey x = .err .foreign ∨ ∃ k, cHexKey x = .ok k := by
    intro x hx
    unfold cHexKey keyFromHex
    rw [if_neg (by omega)]
    split
    · exact .inl rfl
    · split
      · exact .inl rfl
      · exact .inr ⟨_, rfl⟩
  have ht : ∀ x : Bytes, 0 ∈ x → cText x = .ok (cStr x) := by
    intro x hx; unfold cText; rw [if_pos hx]
  cases c with
  | encType n =>
    simp only [CCall.run, cEncType]
    split
    · exact .inr ⟨_, rfl⟩
    · split
      · exact .inr ⟨_, rfl⟩
      · exact .inl rfl
  | snode ed x =>
    simp only [CCall.run]
    rcases hk ed h.1 with h1 | ⟨k1, h1⟩ <;> rcases hk x h.2 with h2 | ⟨k2, h2⟩ <;> rw [h1]
    · exact .inl rfl
    · exact .inl rfl
    · rw [Out.bind_ok, h2]; exact .inl rfl
    · rw [Out.bind_ok, h2]; exact .inr ⟨_, rfl⟩
  | hop ed x =>
    simp only [CCall.run]
    rcases hk ed h.1 with h1 | ⟨k1, h1⟩ <;> rcases hk x h.2 with h2 | ⟨k2, h2⟩ <;> rw [h1]
    · exact .inl rfl
    · exact .inl rfl
    · rw [Out.bind_ok, h2]; exact .inl rfl
    · rw [Out.bind_ok, h2]; exact .inr ⟨_, rfl⟩
  | server host target protocol port x =>
    simp only [CCall.run]
    rw [ht _ h.1, ht _ h.2.1, ht _ h.2.2.1]
    rcases hk x h.2.2.2 with h2 | ⟨k2, h2⟩ <;> rw [h2]
    · exact .inl rfl
    · exact .inr ⟨_, rfl⟩

/-- A builder after calls that ask for something is the C++ builder after the calls asked for. -/
theorem c_run_says {cs : List CCall} {calls : List BCall} (h : List.Forall₂ CCall.Says cs calls) : cRun cs = .ok (Builder.run calls) := by
  have key : ∀ (cs : List CCall) (calls : List BCall), List.Forall₂ CCall.Says cs calls → ∀ b : Builder,
      cs.foldlM CCall.run b = Out.ok (calls.foldl Builder.call b) := by
    intro cs calls h
    induction h with
    | nil => intro b; rfl
    | cons h1 _ ih =>
      intro b
      rw [List.foldlM_cons, (c_call_iff b _ _).2 ⟨_, h1, rfl⟩]
      exact ih _
  exact key cs calls h _

theorem run_encType (calls : List BCall) : cEncType (encNo calls) = .ok (Builder.run calls).encType := by
  induction calls using List.reverseRecOn with
  | nil => rfl
  | append_singleton l c ih =>
    rw [run_snoc]
    unfold encNo at ih ⊢
    rw [List.reverse_append]
    cases c with
    | enc t => cases t <;> rfl
    | snode => exact ih
    | server => exact ih
    | hop => exact ih

/-- **C123.** `onion_request_builder_build` gives what C++ `build` gives, with the key pair for the reply, or false if that throws;
the builder is not changed, so it can be used again. -/
theorem c_build_iff (P : OPrims) (b : Builder) (rnd : Nat → Bytes × Bytes) (payload : Bytes) :
    (cBuild P b rnd payload).1 = b ∧
    (∀ r pk sk, (cBuild P b rnd payload).2 = .ok (some (r, pk, sk)) ↔
      (b.build P rnd payload).2 = .ok r ∧ pk = P.pubOf (rnd 0).1 ∧ sk = (rnd 0).1) ∧
    ((cBuild P b rnd payload).2 = .ok none ↔ ∃ e, (b.build P rnd payload).2 = .err e) := by
  have hf : ∀ r, (b.build P rnd payload).2 = .ok r → (b.build P rnd payload).1.finalPair = some (P.pubOf (rnd 0).1, (rnd 0).1) := by
    intro r h
    unfold Builder.build at h ⊢
    cases hc : b.core P rnd payload with
    | ok x => obtain ⟨x1, x2⟩ := x; rfl
    | err e => rw [hc] at h; cases h
    | hang => rw [hc] at h; cases h
    | ub => rw [hc] at h; cases h
  refine ⟨rfl, ?_, ?_⟩
  · intro r pk sk
    show (match (b.build P rnd payload).2 with
      | .ok req => match (b.build P rnd payload).1.finalPair with
        | some (pk, sk) => Out.ok (some (req, pk, sk))
        | none => .ok none
      | .err _ => .ok none
      | .hang => .hang
      | .ub => .ub) = _ ↔ _
    cases hb : (b.build P rnd payload).2 with
    | ok r' =>
      rw [hf r' hb]
      simp only [Out.ok.injEq, Option.some.injEq, Prod.mk.injEq]
      constructor
      · rintro ⟨h1, h2, h3⟩; exact ⟨h1, h2.symm, h3.symm⟩
      · rintro ⟨h1, h2, h3⟩; exact ⟨h1, h2.symm, h3.symm⟩
    | err e => simp
    | hang => simp
    | ub => simp
  · show (match (b.build P rnd payload).2 with
      | .ok req => match (b.build P rnd payload).1.finalPair with
        | some (pk, sk) => Out.ok (some (req, pk, sk))
        | none => .ok none
      | .err _ => .ok none
      | .hang => .hang
      | .ub => .ub) = _ ↔ _
    cases hb : (b.build P rnd payload).2 with
    | ok r' => rw [hf r' hb]; simp
    | err e => simp
    | hang => simp
    | ub => simp

/-- **C123.** `onion_request_decrypt` reads exactly what the C++ response parser with those keys reads. -/
theorem c_decrypt_iff (P : OPrims) {t : EncType} {n : Nat} (hn : cEncType n = .ok t) {ct dest pk sk : Bytes} (h1 : dest.length = 32)
    (h2 : pk.length = 32) (h3 : sk.length = 32) (m : Bytes) :
    cOnionDecrypt P ct n dest pk sk = .ok (some m) ↔ (RespParser.mk dest (pk, sk) t).decrypt P ct = .ok m := by
  unfold cOnionDecrypt RespParser.decrypt
  rw [if_neg (by omega), hn, List.take_of_length_le (by omega : dest.length ≤ 32), List.take_of_length_le (by omega : pk.length ≤ 32),
    List.take_of_length_le (by omega : sk.length ≤ 32)]
  simp only
  cases hd : (Hop.mk sk pk false).decrypt P t ct dest with
  | ok m' => simp
  | hang => simp
  | ub => simp
  | err e =>
    cases t with
    | aesGcm => simp
    | xchacha20 =>
      simp only
      cases hd' : (Hop.mk sk pk false).decrypt P .aesGcm ct dest <;> simp

variable {P : OPrims}

theorem rp_of_build {b : Builder} {rnd : Nat → Bytes × Bytes} {payload r x : Bytes} {rp : RespParser}
    (h : (b.build P rnd payload).2 = .ok r) (h2 : RespParser.ofBuilder (b.build P rnd payload).1 = .ok rp) (hd : b.dest = some x) :
    rp = RespParser.mk x (P.pubOf (rnd 0).1, (rnd 0).1) b.encType := by
  unfold Builder.build at h h2
  cases hc : b.core P rnd payload with
  | ok y =>
    obtain ⟨x1, x2⟩ := y
    rw [hc] at h2
    simp only [RespParser.ofBuilder, hd, Out.ok.injEq] at h2
    exact h2.symm
  | err e => rw [hc] at h; cases h
  | hang => rw [hc] at h; cases h
  | ub => rw [hc] at h; cases h

/-- **C123.** A request to a service node made through the C interface passes through the hops in order and gives the
destination the payload; the destination's reply is read by `onion_request_decrypt` with the keys `onion_request_builder_build` wrote. -/
theorem c_onion_to_snode (hP : P.Good) {cs : List CCall} {calls : List BCall} {nodes : List ONode} {ed dest payload : Bytes}
    {rnd : Nat → Bytes × Bytes} (hr : ∀ i, 24 ≤ (rnd i).2.length) (hsk : (rnd 0).1.length = 32) (hdl : dest.length = 32)
    (hnl : ∀ n ∈ nodes, n.sec.length = 32) (hcs : List.Forall₂ CCall.Says cs calls)
    (hdest : lastDest calls = some (.snode ed (P.pubOf dest))) (hns : ∀ c ∈ calls, c.isServer = false)
    (hpath : pathOf calls = nodes.map fun n => (n.ed, P.pubOf n.sec)) :
    ∃ b r pk sk, cRun cs = .ok b ∧ cBuild P b rnd payload = (b, .ok (some (r, pk, sk))) ∧ ∀ max, r.length ≤ max → max < 2 ^ 32 →
      ∃ D, Relays P max (fun o => o.lookup kDest = some (.str (toHex ed))) dest nodes r D ∧
        (∃ o, unframe P D.payload = some (payload, o) ∧ o.lookup kHeaders = some (.str [])) ∧
        ∀ reply rnd', 24 ≤ rnd'.length → ∃ ct, D.encryptReply P rnd' reply = .ok ct ∧
          cOnionDecrypt P ct (encNo calls) (P.pubOf dest) pk sk = .ok (some reply) := by
  obtain ⟨r, hb, hrel⟩ := onion_to_snode hP (payload := payload) hr hdl hnl hdest hns hpath
  obtain ⟨e1, e2, _⟩ := c_build_iff P (Builder.run calls) rnd payload
  have e2 := (e2 r _ _).2 ⟨hb, rfl, rfl⟩
  refine ⟨Builder.run calls, r, P.pubOf (rnd 0).1, (rnd 0).1, c_run_says hcs, Prod.ext e1 e2, fun max hmax hm => ?_⟩
  obtain ⟨D, hD, hpay, hrep⟩ := hrel max hmax hm
  refine ⟨D, hD, hpay, fun reply rnd' hr' => ?_⟩
  obtain ⟨ct, rp, h1, h2, h3⟩ := hrep reply rnd' hr'
  refine ⟨ct, h1, (c_decrypt_iff P (run_encType calls) (hP.base.pubLen _) (hP.base.pubLen _) hsk reply).2 ?_⟩
  have : rp = RespParser.mk (P.pubOf dest) (P.pubOf (rnd 0).1, (rnd 0).1) (Builder.run calls).encType :=
    rp_of_build hb h2 (run_snodeDest calls hdest).1
  rw [← this]; exact h3

/-- **C123** (partial, as C101).  The same for a request to a server, whose last hop is told host, target, protocol and the port
given (0 included: the C interface has no way not to give one), for ASCII URLs and payloads without NUL. -/
theorem c_onion_to_server_partial (hP : P.Good) {cs : List CCall} {calls : List BCall} {nodes : List ONode}
    {host target protocol dest payload : Bytes} {port : Nat} {rnd : Nat → Bytes × Bytes} (hr : ∀ i, 24 ≤ (rnd i).2.length)
    (hsk : (rnd 0).1.length = 32) (hdl : dest.length = 32) (hnl : ∀ n ∈ nodes, n.sec.length = 32) (hport : port < 2 ^ 16)
    (hasc : asciiOnly host = true ∧ asciiOnly target = true ∧ asciiOnly protocol = true) (hcs : List.Forall₂ CCall.Says cs calls)
    (hdest : lastDest calls = some (.server host target protocol (some port) (P.pubOf dest)))
    (hpath : pathOf calls = nodes.map fun n => (n.ed, P.pubOf n.sec)) (hnul : 0 ∉ payload) :
    ∃ b r pk sk, cRun cs = .ok b ∧ cBuild P b rnd payload = (b, .ok (some (r, pk, sk))) ∧ ∀ max, r.length ≤ max → max < 2 ^ 32 →
      ∃ D, Relays P max (ServerRoute host target protocol port) dest nodes r D ∧ D.payload = payload ∧
        ∀ reply rnd', 24 ≤ rnd'.length → ∃ ct, D.encryptReply P rnd' reply = .ok ct ∧
          cOnionDecrypt P ct (encNo calls) (P.pubOf dest) pk sk = .ok (some reply) := by
  obtain ⟨r, hb, hrel⟩ := onion_to_server_partial hP (payload := payload) hr hdl hnl (fun p hp => by cases hp; exact hport) hasc hdest
    (fun h => by cases h) hpath hnul
  obtain ⟨e1, e2, _⟩ := c_build_iff P (Builder.run calls) rnd payload
  have e2 := (e2 r _ _).2 ⟨hb, rfl, rfl⟩
  refine ⟨Builder.run calls, r, P.pubOf (rnd 0).1, (rnd 0).1, c_run_says hcs, Prod.ext e1 e2, fun max hmax hm => ?_⟩
  obtain ⟨D, hD, hpay, hrep⟩ := hrel max hmax hm
  refine ⟨D, hD, hpay, fun reply rnd' hr' => ?_⟩
  obtain ⟨ct, rp, h1, h2, h3⟩ := hrep reply rnd' hr'
  refine ⟨ct, h1, (c_decrypt_iff P (run_encType calls) (hP.base.pubLen _) (hP.base.pubLen _) hsk reply).2 ?_⟩
  have : rp = RespParser.mk (P.pubOf dest) (P.pubOf (rnd 0).1, (rnd 0).1) (Builder.run calls).encType :=
    rp_of_build hb h2 (run_serverDest calls hdest).1
  rw [← this]; exact h3

/-- **C123.** Whatever is given to `onion_request_decrypt` (32 bytes per key), it returns; if it returns a plaintext then that was
sealed under the key shared between the given key pair and destination. -/
theorem c_decrypt_authentic (hP : P.Good) {ct dest pk sk : Bytes} {n : Nat} (h1 : dest.length = 32) (h2 : pk.length = 32)
    (h3 : sk.length = 32) :
    (∃ x, cOnionDecrypt P ct n dest pk sk = .ok x) ∧
    ∀ m, cOnionDecrypt P ct n dest pk sk = .ok (some m) → n < 2 ∧ ∃ t s key, (n = 0 → t = .aesGcm) ∧ P.dh sk dest = some s ∧
      LayerKey P t pk dest s key ∧ Sealed P t key m ct := by
  have hsafe : ∀ t, (∃ m, (Hop.mk sk pk false).decrypt P t ct dest = .ok m) ∨ ∃ e, (Hop.mk sk pk false).decrypt P t ct dest = .err e := by
    intro t
    have hss : ∀ a b, (∃ s, sharedSecret P a b = .ok s) ∨ ∃ e, sharedSecret P a b = .err e := by
      intro a b; unfold sharedSecret; split
      · exact .inl ⟨_, rfl⟩
      · exact .inr ⟨_, rfl⟩
    cases t with
    | aesGcm =>
      simp only [Hop.decrypt, Hop.decryptGcm, deriveSym]
      split
      · exact .inr ⟨_, rfl⟩
      · rcases hss sk dest with ⟨s, hs⟩ | ⟨e, hs⟩ <;> rw [hs]
        · simp only [Out.bind_ok]
          split
          · exact .inl ⟨_, rfl⟩
          · exact .inr ⟨_, rfl⟩
        · exact .inr ⟨_, rfl⟩
    | xchacha20 =>
      simp only [Hop.decrypt, Hop.decryptX, xchachaShared]
      split
      · exact .inr ⟨_, rfl⟩
      · rcases hss sk dest with ⟨s, hs⟩ | ⟨e, hs⟩ <;> rw [hs]
        · simp only [Out.bind_ok]
          split
          · exact .inl ⟨_, rfl⟩
          · exact .inr ⟨_, rfl⟩
        · exact .inr ⟨_, rfl⟩
  constructor
  · unfold cOnionDecrypt
    rw [if_neg (by omega), List.take_of_length_le (by omega : dest.length ≤ 32), List.take_of_length_le (by omega : pk.length ≤ 32),
      List.take_of_length_le (by omega : sk.length ≤ 32)]
    by_cases h0 : n = 0
    · subst h0
      have : cEncType 0 = .ok .aesGcm := rfl
      rw [this]
      rcases hsafe .aesGcm with ⟨m, hm⟩ | ⟨e, hm⟩ <;> simp only [hm]
      · exact ⟨_, rfl⟩
      · exact ⟨_, rfl⟩
    · by_cases h1 : n = 1
      · subst h1
        have : cEncType 1 = .ok .xchacha20 := rfl
        rw [this]
        rcases hsafe .xchacha20 with ⟨m, hm⟩ | ⟨e, hm⟩ <;> simp only [hm]
        · exact ⟨_, rfl⟩
        · rcases hsafe .aesGcm with ⟨m, hm⟩ | ⟨e, hm⟩ <;> simp only [hm]
          · exact ⟨_, rfl⟩
          · exact ⟨_, rfl⟩
      · have : cEncType n = .err .foreign := by unfold cEncType; rw [if_neg h0, if_neg h1]
        rw [this]; exact ⟨_, rfl⟩
  · intro m h
    cases hn : cEncType n with
    | ok t =>
      have h' := (c_decrypt_iff P hn h1 h2 h3 m).1 h
      obtain ⟨t', s, key, q1, q2, q3, q4⟩ := response_authentic hP h'
      unfold cEncType at hn
      refine ⟨?_, t', s, key, ?_, q2, q3, q4⟩
      · by_contra hh
        rw [if_neg (by omega), if_neg (by omega)] at hn; cases hn
      · intro h0
        rw [if_pos h0] at hn
        have := Out.ok.inj hn
        subst this
        rcases q1 with q1 | q1
        · exact q1
        · cases q1
    | err e => unfold cOnionDecrypt at h; rw [if_neg (by omega), hn] at h; cases h
    | hang => unfold cEncType at hn; repeat' split at hn
              all_goals cases hn
    | ub => unfold cEncType at hn; repeat' split at hn
            all_goals cases hn

/-- C123, what a C caller may not expect: a wrong key or cipher number is answered with a C++ exception (which ends a C program),
and a request for a builder without a destination with false. -/
theorem c_setters_throw : (CCall.hop (List.replicate 64 120) (List.replicate 64 97)).run Builder.new = .err .foreign ∧
    (CCall.encType 2).run Builder.new = .err .foreign ∧ (cBuild toyO Builder.new oRnd [1]).2 = .ok none := by
  decide +kernel

/-- The calls of a C client, and what they ask for -/
def exCCalls : List CCall := [.encType 0, .hop (toHex oN1.ed ++ [0]) (toHex (toyO.pubOf oN1.sec) ++ [0]),
  .server (oHost ++ [0]) (oTarget ++ [0, 7]) (kHttps ++ [0]) 443 (toHex (toyO.pubOf oSec))]

/-- The hypotheses of `c_onion_to_server_partial` -/
example : List.Forall₂ CCall.Says exCCalls [.enc .aesGcm, .hop oN1.ed (toyO.pubOf oN1.sec),
    .server oHost oTarget kHttps (some 443) (toyO.pubOf oSec)] ∧ encNo [.enc .aesGcm, .hop oN1.ed (toyO.pubOf oN1.sec),
    .server oHost oTarget kHttps (some 443) (toyO.pubOf oSec)] = 0 := by
  have hx : ∀ k rest : Bytes, k.length = 32 → HexAt (toHex k ++ rest) k := fun k rest h =>
    ⟨toHex k, rest, rfl, by rw [← toHex_fromHex _ (toHex_isHex k), fromHex_toHex], h⟩
  have hx' : HexAt (toHex (toyO.pubOf oSec)) (toyO.pubOf oSec) := by
    have := hx (toyO.pubOf oSec) [] (by decide +kernel)
    rwa [List.append_nil] at this
  exact ⟨.cons .aes (.cons (.hop (hx _ _ (by decide +kernel)) (hx _ _ (by decide +kernel))) (.cons (.server ⟨[], rfl, by decide +kernel⟩
    ⟨[7], rfl, by decide +kernel⟩ ⟨[], rfl, by decide +kernel⟩ hx') .nil)), by decide +kernel⟩

/-- The request is built, and parsed along the path. -/
example : (cRun exCCalls >>= fun b => (cBuild toyO b oRnd [1, 2]).2).toOption.any (fun x => x.any fun y =>
    decide ((traceReq toyO 10485760 oSec [oN1] y.1).map (·.2) = some [1, 2] ∧ y.2.1 = toyO.pubOf (oRnd 0).1 ∧ y.2.2 = (oRnd 0).1)) = true := by
  decide +kernel

end Verif
