import Verif.GroupMsg
import Verif.Props.GroupWitness

/-!
# Group messages (C73–C75)
-/

namespace Verif

variable {P : UPrims}

theorem optData_hit {k d rest : Bytes} (hd : d ≠ []) :
    optData k (encStr k ++ (encV (.str d) ++ rest)) = some (d, rest) := by
  unfold optData
  have h1 := encStr_length_pos k
  obtain ⟨n, hn⟩ : ∃ n, (encStr k ++ (encV (.str d) ++ rest)).length = n + 1 :=
    ⟨(encStr k ++ (encV (.str d) ++ rest)).length - 1, by rw [List.length_append]; omega⟩
  rw [hn, seekKey_hit]
  dsimp only
  rw [takeStr_enc]
  cases d with
  | nil => exact absurd rfl hd
  | cons x t => rfl

theorem optData_empty {k rest : Bytes} : optData k (encStr k ++ (encV (.str []) ++ rest)) = none := by
  unfold optData
  have h1 := encStr_length_pos k
  obtain ⟨n, hn⟩ : ∃ n, (encStr k ++ (encV (.str []) ++ rest)).length = n + 1 :=
    ⟨(encStr k ++ (encV (.str []) ++ rest)).length - 1, by rw [List.length_append]; omega⟩
  rw [hn, seekKey_hit]
  dsimp only
  rw [takeStr_enc]

theorem optData_pass {k k' rest : Bytes} (hk : k < k') :
    optData k (encStr k' ++ rest) = some ([], encStr k' ++ rest) := by
  unfold optData
  have h1 := encStr_length_pos k'
  obtain ⟨n, hn⟩ : ∃ n, (encStr k' ++ rest).length = n + 1 :=
    ⟨(encStr k' ++ rest).length - 1, by rw [List.length_append]; omega⟩
  rw [hn, seekKey_pass _ hk]

theorem optData_end (k : Bytes) : optData k [101] = some ([], [101]) := rfl

/-- Reading what `encrypt_message` wrote. -/
theorem readGroupMsg_enc (hP : P.Good) {sk payload : Bytes} (z : Bool) :
    readGroupMsg (encV (.dict (groupDict P sk payload z))) =
      if payload = [] then none else some ⟨P.edPub sk, P.sign sk payload, payload, z⟩ := by
  unfold readGroupMsg
  have hi : int64Ok 1 = true := by decide
  rw [if_neg]
  case hnc =>
    have e : encV (.dict (groupDict P sk payload z)) = 100 :: (encD (groupDict P sk payload z) ++ [101]) := by
      simp [encV]
    rw [e, ← List.cons_append, List.getLast?_concat]
    simp
  cases z with
  | false =>
    have e : encV (.dict (groupDict P sk payload false)) = 100 :: (encStr [] ++ (encV (.int 1) ++ (encStr [97] ++
        (encV (.str (P.edPub sk)) ++ (encStr [100] ++ (encV (.str payload) ++ (encStr [115] ++
        (encV (.str (P.sign sk payload)) ++ [101])))))))) := by
      simp [groupDict, encV, encD]
    rw [e, openDict_encStr]
    dsimp only
    rw [requireKey_hit]
    dsimp only
    rw [takeInt_enc _ hi]
    dsimp only
    rw [if_neg (by simp), requireKey_hit]
    dsimp only
    rw [takeStr_enc]
    dsimp only
    rw [if_neg (by simp [hP.edLen])]
    by_cases hp : payload = []
    · subst hp
      rw [optData_empty, if_pos rfl]
    · rw [optData_hit hp]
      dsimp only
      rw [requireKey_hit]
      dsimp only
      rw [takeStr_enc]
      dsimp only
      rw [if_neg (by simp [hP.g.signLen]), optData_end, if_neg hp]
      cases payload with
      | nil => exact absurd rfl hp
      | cons x t => rfl
  | true =>
    have e : encV (.dict (groupDict P sk payload true)) = 100 :: (encStr [] ++ (encV (.int 1) ++ (encStr [97] ++
        (encV (.str (P.edPub sk)) ++ (encStr [115] ++ (encV (.str (P.sign sk payload)) ++ (encStr [122] ++
        (encV (.str payload) ++ [101])))))))) := by
      simp [groupDict, encV, encD]
    rw [e, openDict_encStr]
    dsimp only
    rw [requireKey_hit]
    dsimp only
    rw [takeInt_enc _ hi]
    dsimp only
    rw [if_neg (by simp), requireKey_hit]
    dsimp only
    rw [takeStr_enc]
    dsimp only
    rw [if_neg (by simp [hP.edLen]), optData_pass (by decide)]
    dsimp only
    rw [requireKey_hit]
    dsimp only
    rw [takeStr_enc]
    dsimp only
    rw [if_neg (by simp [hP.g.signLen])]
    by_cases hp : payload = []
    · subst hp
      rw [optData_empty, if_pos rfl]
    · rw [optData_hit hp, if_neg hp]
      cases payload with
      | nil => exact absurd rfl hp
      | cons x t => rfl

theorem stripNul_append {a : Bytes} {b : UInt8} (hb : b ≠ 0) (n : Nat) :
    stripNul (a ++ [b] ++ List.replicate n 0) = a ++ [b] := by
  unfold stripNul
  have h : (a ++ [b] ++ List.replicate n 0).reverse.dropWhile (· == 0) = (a ++ [b]).reverse := by
    rw [List.reverse_append, List.reverse_replicate]
    rw [List.dropWhile_append_of_pos (by intro x hx; simp [List.eq_of_mem_replicate hx])]
    rw [List.reverse_append, List.reverse_singleton, List.singleton_append, List.dropWhile_cons_of_neg (by simpa using hb)]
  rw [h]
  split
  · rename_i h'; simp at h'
  · rename_i h'; simp

/-! ### zstd -/

/-- What `zstd_decompress` returns: everything that comes out, unless that is an error or too long. -/
theorem unzip_iff (x : Bytes) (max : Nat) (d : Bytes) : unzipMax P x max = some d ↔
    (P.inflate x).2 = true ∧ (P.inflate x).1.flatten = d ∧ (0 < max → d.length ≤ max) := by
  have main : ∀ (l : List Bytes) (ok : Bool) (acc : Bytes), (0 < max → acc.length ≤ max) →
      (inflateLoop max acc l ok = some d ↔ ok = true ∧ acc ++ l.flatten = d ∧ (0 < max → d.length ≤ max)) := by
    intro l ok
    induction l with
    | nil =>
      intro acc ha
      unfold inflateLoop
      cases ok with
      | false => simp
      | true =>
        simp only [if_true, Option.some.injEq, List.flatten_nil, List.append_nil, true_and]
        constructor
        · rintro rfl; exact ⟨rfl, ha⟩
        · exact fun h => h.1
    | cons c t ih =>
      intro acc ha
      unfold inflateLoop
      by_cases hc : 0 < max ∧ max < acc.length + c.length
      · rw [if_pos hc]
        constructor
        · intro h; cases h
        · rintro ⟨_, rfl, h⟩
          have := h hc.1
          simp only [List.length_append, List.flatten_cons] at this
          omega
      · rw [if_neg hc, ih (acc ++ c) (by intro h; rw [List.length_append]; omega)]
        simp
  rw [unzipMax, main _ _ [] (by simp)]
  simp

/-! ### C73: round trip -/

theorem openWithAny_of {nonce ct m k : Bytes} : ∀ {l : List Bytes}, k ∈ l → P.aeadOpen k nonce ct = some m →
    (∀ k' ∈ l, k' ≠ k → P.aeadOpen k' nonce ct = none) → openWithAny P nonce ct l = some m := by
  intro l
  induction l with
  | nil => intro h; cases h
  | cons x t ih =>
    intro hk ho ha
    unfold openWithAny
    by_cases hx : x = k
    · rw [hx, ho]
    · rw [ha x (List.mem_cons_self ..) hx]
      exact ih ((List.mem_cons.1 hk).resolve_left fun h => hx h.symm) ho
        fun k' hk' => ha k' (List.mem_cons_of_mem _ hk')

theorem openWithAny_mem {nonce ct m : Bytes} : ∀ {l : List Bytes}, openWithAny P nonce ct l = some m →
    ∃ k ∈ l, P.aeadOpen k nonce ct = some m := by
  intro l
  induction l with
  | nil => intro h; cases h
  | cons x t ih =>
    intro h
    unfold openWithAny at h
    cases hx : P.aeadOpen x nonce ct with
    | some m' => rw [hx] at h; cases h; exact ⟨x, List.mem_cons_self .., hx⟩
    | none =>
      rw [hx] at h
      obtain ⟨k, hk, ho⟩ := ih h
      exact ⟨k, List.mem_cons_of_mem _ hk, ho⟩

theorem tryKeys_mem {s : GKeys} {k : Bytes} : k ∈ s.tryKeys ↔ k ∈ s.groupKeys := by
  unfold GKeys.tryKeys GKeys.groupKeys
  simp only [List.mem_append, List.map_reverse, List.mem_reverse]

theorem groupDict_enc (sk payload : Bytes) (z : Bool) (n : Nat) :
    stripNul (encV (.dict (groupDict P sk payload z)) ++ List.replicate n 0) = encV (.dict (groupDict P sk payload z)) := by
  have e : encV (.dict (groupDict P sk payload z)) = (100 :: encD (groupDict P sk payload z)) ++ [101] := by
    simp [encV]
  rw [e]
  exact stripNul_append (by decide) n

theorem toHex05 (x : Bytes) : asc ['0', '5'] ++ toHex x = toHex (5 :: x) := rfl

/-- No key of the device but `k` opens the ciphertext. -/
def OnlyOpens (P : UPrims) (t : GKeys) (k ct : Bytes) : Prop :=
  ∀ k' ∈ t.groupKeys, k' ≠ k → P.aeadOpen k' (ct.take 24) (ct.drop 24) = none

theorem payload_ne (hP : P.Good) {m : Bytes} (hm : m ≠ []) (c : Bool) : (groupPayload P m c).1 ≠ [] := by
  unfold groupPayload
  split
  · exact hP.zipNe m
  · exact hm

/-- C73.  A message of 1 to 1 000 000 bytes encrypted by a device is decrypted, by every device that holds
the sender's current key, to the same bytes with the session id of the sender, however it was compressed
and padded. -/
theorem message_roundtrip (hP : P.Good) {e : GEnv} {s t : GKeys} {m k nonce : Bytes} (hm : m ≠ [])
    (hl : m.length ≤ 1000000) (hs : s.groupEncKey = .ok k) (hk : k ∈ t.groupKeys) (hn : nonce.length = 24)
    (compress : Bool) (padding : Nat) :
    ∃ ct, s.encryptMessage P e m compress padding nonce = .ok ct ∧
      (OnlyOpens P t k ct → t.decryptMessage P ct = .ok (toHex (5 :: P.pubOf (P.xsk e.userSk)), m)) := by
  unfold GKeys.encryptMessage
  rw [if_neg (by unfold maxGroupMsg; omega)]
  dsimp only
  rw [hs, Out.bind_ok]
  set enc := encV (.dict (groupDict P e.userSk (groupPayload P m compress).1 (groupPayload P m compress).2)) with henc
  refine ⟨_, rfl, ?_⟩
  set plain := enc ++ List.replicate (groupPad enc.length padding) 0 with hpl
  intro hc
  unfold OnlyOpens at hc
  rw [List.take_left' hn, List.drop_left' hn] at hc
  unfold GKeys.decryptMessage
  rw [if_neg (by rw [List.length_append, hP.g.m.aeadLen]; omega), List.take_left' hn, List.drop_left' hn]
  rw [openWithAny_of (tryKeys_mem.2 hk) (hP.g.m.openSeal k nonce plain) fun k' hk' => hc k' (tryKeys_mem.1 hk')]
  dsimp only
  rw [hpl, henc, groupDict_enc, readGroupMsg_enc hP, if_neg (payload_ne hP hm compress)]
  dsimp only
  rw [hP.g.xpkPub]
  dsimp only
  rw [if_neg (by simp [hP.g.signOk])]
  unfold groupPayload
  by_cases hz : compress = true ∧ (P.zip m).length < m.length
  · rw [if_pos hz]
    dsimp only
    obtain ⟨h1, h2⟩ := hP.inflateZip m
    rw [if_pos rfl, (unzip_iff (P.zip m) maxGroupMsg m).2 ⟨h1, h2, fun _ => hl⟩]
    rfl
  · rw [if_neg hz]
    rfl

/-- C73.  An empty message is accepted for encryption, but nobody can decrypt it. -/
theorem empty_message_lost (hP : P.Good) {e : GEnv} {s t : GKeys} {k nonce : Bytes} (hs : s.groupEncKey = .ok k)
    (hn : nonce.length = 24) (compress : Bool) (padding : Nat) :
    ∃ ct, s.encryptMessage P e [] compress padding nonce = .ok ct ∧
      (OnlyOpens P t k ct → ∃ er, t.decryptMessage P ct = .err er) := by
  unfold GKeys.encryptMessage
  rw [if_neg (by simp)]
  dsimp only
  rw [hs, Out.bind_ok]
  have hpay : groupPayload P [] compress = ([], false) := by unfold groupPayload; simp
  rw [hpay]
  set enc := encV (.dict (groupDict P e.userSk [] false)) with henc
  refine ⟨_, rfl, ?_⟩
  set plain := enc ++ List.replicate (groupPad enc.length padding) 0 with hpl
  intro hc
  unfold OnlyOpens at hc
  rw [List.take_left' hn, List.drop_left' hn] at hc
  unfold GKeys.decryptMessage
  split
  · exact ⟨_, rfl⟩
  · rw [List.take_left' hn, List.drop_left' hn]
    cases ho : openWithAny P nonce (P.aead k nonce plain) t.tryKeys with
    | none => exact ⟨_, rfl⟩
    | some p =>
      obtain ⟨k', hk', ho'⟩ := openWithAny_mem ho
      have : p = plain := by
        by_cases hkk : k' = k
        · rw [hkk, hP.g.m.openSeal] at ho'; exact (Option.some.inj ho').symm
        · rw [hc k' (tryKeys_mem.1 hk') hkk] at ho'; cases ho'
      dsimp only
      rw [this, hpl, henc, groupDict_enc, readGroupMsg_enc hP, if_pos rfl]
      exact ⟨_, rfl⟩

/-- C73.  Longer messages, and messages while there is no key, are refused. -/
theorem message_refused {e : GEnv} {s : GKeys} {m nonce : Bytes} (compress : Bool) (padding : Nat)
    (h : 1000000 < m.length ∨ s.groupKeys = []) : ∃ er, s.encryptMessage P e m compress padding nonce = .err er := by
  unfold GKeys.encryptMessage
  split
  · exact ⟨_, rfl⟩
  · rename_i hl
    have hg := h.resolve_left fun h' => hl h'
    unfold GKeys.groupKeys at hg
    have h1 : s.pendingConfig = [] := by by_contra hh; simp [hh] at hg
    have h2 : s.keys = [] := by simp [h1] at hg; exact hg
    unfold GKeys.groupEncKey
    simp only [h1, h2]
    exact ⟨_, rfl⟩

/-- C73.  With a padding above 1 the size of the encrypted message is a multiple of it, and padding adds
less than that many bytes. -/
theorem message_padded (hP : P.Good) {e : GEnv} {s : GKeys} {m nonce ct ct0 : Bytes} {compress : Bool} {padding : Nat}
    (hn : nonce.length = 24) (hp : 1 < padding) (h : s.encryptMessage P e m compress padding nonce = .ok ct)
    (h0 : s.encryptMessage P e m compress 0 nonce = .ok ct0) :
    padding ∣ ct.length ∧ ct0.length ≤ ct.length ∧ ct.length < ct0.length + padding := by
  unfold GKeys.encryptMessage at h h0
  split at h
  · cases h
  · rw [if_neg (by assumption)] at h0
    dsimp only at h h0
    obtain ⟨k, hk, h⟩ := Out.bind_eq_ok.1 h
    obtain ⟨k', hk', h0⟩ := Out.bind_eq_ok.1 h0
    set enc := encV (.dict (groupDict P e.userSk (groupPayload P m compress).1 (groupPayload P m compress).2))
    rw [← Out.ok.inj h, ← Out.ok.inj h0]
    simp only [List.length_append, hP.g.m.aeadLen, List.length_replicate, hn]
    have h00 : groupPad enc.length 0 = 0 := by simp [groupPad]
    rw [h00]
    unfold groupPad
    have hmod := Nat.mod_lt (40 + enc.length) (show 0 < padding by omega)
    have hle := Nat.mod_le (40 + enc.length) padding
    by_cases hz : (40 + enc.length) % padding = 0
    · rw [if_neg (by simp [hz])]
      refine ⟨?_, by omega, by omega⟩
      rw [show 24 + (enc.length + 0 + 16) = 40 + enc.length by omega]
      exact Nat.dvd_of_mod_eq_zero hz
    · rw [if_pos ⟨hp, hz⟩]
      refine ⟨?_, by omega, by omega⟩
      rw [show 24 + (enc.length + (padding - (40 + enc.length) % padding) + 16) =
        (40 + enc.length - (40 + enc.length) % padding) + padding by omega]
      exact Nat.dvd_add (Nat.dvd_sub_mod _) (dvd_refl _)

/-! ### C73: across devices -/

/-- C73.  Between devices: the receiver was given every key the sender was given (and keys arrive with one
timestamp).  Then it holds the key the sender encrypts with, unless it also knows of a generation later
than all of the sender's that is more than 60 days older than a key of that or a later generation. -/
theorem receiver_holds_key (hP : P.Good) {s t : GKeys} {log log' : List (Bytes × Found)}
    (h : KReach P.toGPrims s log) (h' : KReach P.toGPrims t log') (hone : SameTimes log)
    (hsub : ∀ k, Got log k → Got log' k) (hp : s.pendingConfig? = none) (hsome : ∃ k, Got log k)
    (hfresh : ¬∃ n m, Got log' n ∧ Got log' m ∧ (∀ k, Got log k → k.gen < n.gen) ∧ n.gen ≤ m.gen ∧
      n.ts + 60 * 24 * 3600 * 1000 < m.ts) : ∃ k, s.groupEncKey = .ok k ∧ k ∈ t.groupKeys := by
  obtain ⟨k0, hk0⟩ := hsome
  obtain ⟨m, he, hm, hmax⟩ := enc_key_newest hP.g h hone hp hk0
  refine ⟨m.key, he, ?_⟩
  rcases (keys_held hP.g h').2 m (hsub m hm) with ⟨k', hk', _, hkey⟩ | ⟨n, m', hn, hm', h1, h2, h3⟩
  · rw [← hkey, ← tryKeys_mem]
    unfold GKeys.tryKeys
    exact List.mem_append_right _ (List.mem_map_of_mem hk')
  · refine absurd ⟨n, m', hn, hm', ?_, h2, h3⟩ hfresh
    intro k hk
    have := hmax k hk
    unfold NotOlder at this
    omega

/-! ### C74: authenticity -/

theorem infix_of_takeStr {bs s r whole : Bytes} (h : takeStr bs = some (s, r)) (hb : bs <:+ whole) :
    s <:+: whole ∧ r <:+ whole := by
  obtain ⟨p, rfl⟩ := decStr_split h
  obtain ⟨q, rfl⟩ := hb
  refine ⟨⟨q ++ p, r, by simp⟩, ⟨q ++ (p ++ s), by simp⟩⟩

theorem optData_infix {k r d r' whole : Bytes} (h : optData k r = some (d, r')) (hr : r <:+ whole) :
    d <:+: whole ∧ r' <:+ whole := by
  unfold optData at h
  cases hs : seekKey r.length k r with
  | none => rw [hs] at h; cases h
  | some br =>
    obtain ⟨b, q⟩ := br
    rw [hs] at h
    have hq := (seekKey_suffix _ hs).trans hr
    cases b with
    | false => cases h; exact ⟨List.nil_infix, hq⟩
    | true =>
      dsimp only at h
      cases ht : takeStr q with
      | none => rw [ht] at h; cases h
      | some sr =>
        obtain ⟨s, w⟩ := sr
        rw [ht] at h
        cases s with
        | nil => cases h
        | cons x t => cases h; exact infix_of_takeStr ht hq

/-- What is read from a decrypted message occurs in it. -/
theorem readGroupMsg_sound {plain : Bytes} {m : GroupMsg} (h : readGroupMsg plain = some m) :
    m.author.length = 32 ∧ m.sig.length = 64 ∧ m.payload ≠ [] ∧ m.author <:+: plain ∧ m.sig <:+: plain ∧
      m.payload <:+: plain := by
  unfold readGroupMsg at h
  split at h
  · cases h
  split at h
  · cases h
  rename_i r0 h0
  split at h
  · cases h
  rename_i r1 h1
  split at h
  · cases h
  rename_i v r2 h2
  split at h
  · cases h
  split at h
  · cases h
  rename_i r3 h3
  split at h
  · cases h
  rename_i a r4 h4
  split at h
  · cases h
  rename_i ha
  split at h
  · cases h
  rename_i d r5 h5
  split at h
  · cases h
  rename_i r6 h6
  split at h
  · cases h
  rename_i sig r7 h7
  split at h
  · cases h
  rename_i hsig
  split at h
  · cases h
  rename_i z r8 h8
  have s3 := (requireKey_suffix h3).trans ((takeInt_suffix h2).trans ((requireKey_suffix h1).trans (openDict_suffix h0)))
  obtain ⟨i4, s4⟩ := infix_of_takeStr h4 s3
  obtain ⟨i5, s5⟩ := optData_infix h5 s4
  obtain ⟨i7, s7⟩ := infix_of_takeStr h7 ((requireKey_suffix h6).trans s5)
  obtain ⟨i8, _⟩ := optData_infix h8 s7
  have ha : a.length = 32 := not_not.1 ha
  have hsig : sig.length = 64 := not_not.1 hsig
  cases d with
  | nil =>
    cases z with
    | nil => cases h
    | cons x t => cases h; exact ⟨ha, hsig, by simp, i4, i7, i8⟩
  | cons x t =>
    cases z with
    | nil => cases h; exact ⟨ha, hsig, by simp, i4, i7, i5⟩
    | cons _ _ => cases h

theorem stripNul_infix (plain : Bytes) : stripNul plain <:+: plain := by
  unfold stripNul
  split
  · exact List.infix_refl _
  · have := List.dropWhile_suffix (l := plain.reverse) (· == 0)
    have h2 := List.reverse_prefix.2 this
    rw [List.reverse_reverse] at h2
    exact h2.isInfix

/-- C74.  Whatever `decrypt_message` returns, for arbitrary bytes: the input was encrypted with one of the
keys held; what was encrypted contains an Ed25519 public key, a non-empty payload and a valid signature of
the payload by that key; the session id is that of the key; and the message is the payload or its
decompression, in the latter case of at most 1 000 000 bytes. -/
theorem message_authentic (hP : P.Good) {t : GKeys} {ct sid data : Bytes}
    (h : t.decryptMessage P ct = .ok (sid, data)) :
    ∃ k ∈ t.groupKeys, ∃ nonce plain author payload sig x, nonce.length = 24 ∧
      ct = nonce ++ P.aead k nonce plain ∧ author.length = 32 ∧ author <:+: plain ∧ payload <:+: plain ∧
      payload ≠ [] ∧ sig <:+: plain ∧ sig.length = 64 ∧ P.verify author payload sig = true ∧ P.xpk author = some x ∧
      sid = toHex (5 :: x) ∧ (data = payload ∨ (P.inflate payload).2 = true ∧ (P.inflate payload).1.flatten = data ∧
        data.length ≤ 1000000) := by
  unfold GKeys.decryptMessage at h
  split at h
  · cases h
  rename_i hl
  split at h
  · cases h
  rename_i plain ho
  obtain ⟨k, hk, ho⟩ := openWithAny_mem ho
  split at h
  · cases h
  rename_i m hm
  obtain ⟨a1, a2, a3, a4, a5, a6⟩ := readGroupMsg_sound hm
  have hi := stripNul_infix plain
  split at h
  · cases h
  rename_i x hx
  split at h
  · cases h
  rename_i hv
  have hct : ct = ct.take 24 ++ P.aead k (ct.take 24) plain := by
    rw [← hP.g.m.sealOpen k (ct.take 24) (ct.drop 24) plain ho, List.take_append_drop]
  refine ⟨k, tryKeys_mem.1 hk, ct.take 24, plain, m.author, m.payload, m.sig, x, by rw [List.length_take]; omega, hct, a1,
    a4.trans hi, a6.trans hi, a3, a5.trans hi, a2, by simpa using hv, hx, ?_⟩
  split at h
  · split at h
    · rename_i dd hd
      cases h
      obtain ⟨b1, b2, b3⟩ := (unzip_iff _ _ _).1 hd
      exact ⟨rfl, .inr ⟨b1, b2, b3 (by decide)⟩⟩
    · cases h
  · cases h
    exact ⟨rfl, .inl rfl⟩

/-! ### C75: promotion to admin -/

/-- C75.  `load_admin_key` does nothing for an admin; for a member it succeeds exactly for the 32-byte seed
or the 64-byte secret key of the group, and then makes it an admin like any other, who can rekey. -/
theorem promotion (hP : P.Good) (e : GEnv) (secret : Bytes) :
    (e.admin = true → e.loadAdminKey P secret = .ok e) ∧
    (e.admin = false → ((∃ e', e.loadAdminKey P secret = .ok e') ↔
      (secret.length = 32 ∨ secret.length = 64) ∧ P.edPub (P.keypair (secret.take 32)) = e.groupPk) ∧
      ∀ e', e.loadAdminKey P secret = .ok e' → e'.admin = true ∧ e'.userSk = e.userSk ∧ e'.groupPk = e.groupPk ∧
        ∀ (s : GKeys) (ids : List Bytes), (∀ sid ∈ ids, ∃ b : Bytes, b.length = 32 ∧ sid = toHex (5 :: b)) →
          (∀ k ∈ s.keys, k.gen < 2 ^ 63 - 1) → ∃ s' msg, s.rekey P.toGPrims e' ids = .ok (s', msg)) := by
  refine ⟨fun ha => by unfold GEnv.loadAdminKey; rw [if_pos ha], fun ha => ⟨?_, ?_⟩⟩
  · unfold GEnv.loadAdminKey
    rw [if_neg (by simp [ha])]
    constructor
    · rintro ⟨e', h⟩
      split at h
      · cases h
      · dsimp only at h
        split at h
        · cases h
        · exact ⟨by omega, by rename_i hh; exact (not_not.1 hh).symm⟩
    · rintro ⟨h1, h2⟩
      rw [if_neg (by omega)]
      dsimp only
      rw [if_neg (by simp [h2])]
      exact ⟨_, rfl⟩
  · intro e' h
    unfold GEnv.loadAdminKey at h
    rw [if_neg (by simp [ha])] at h
    split at h
    · cases h
    · dsimp only at h
      split at h
      · cases h
      · rename_i hh
        cases h
        refine ⟨rfl, rfl, rfl, fun s ids hids hgen => ?_⟩
        exact rekey_succeeds hP.g (e := ⟨e.userSk, e.groupPk, some (P.keypair (secret.take 32))⟩)
          (sk := P.keypair (secret.take 32)) ⟨rfl, not_not.1 hh⟩ hids hgen

/-! ### Concrete cases -/

/-- Example primitives: a compression that shortens runs of one byte. -/
def toyU : UPrims where
  toGPrims := toyG
  zip := fun x => if x.all (· == 7) ∧ x.length < 256 then [1, UInt8.ofNat x.length] else 0 :: x
  inflate := fun c => match c with
    | 0 :: x => ([x], true)
    | [1, n] => ([List.replicate n.toNat 7], true)
    | _ => ([], false)
  keypair := fun s => s

theorem toyU_good : toyU.Good where
  g := toyG_good
  edLen := fun s => by simp [toyU, toyG]
  inflateZip := fun x => by
    simp only [toyU]
    by_cases h : x.all (· == 7) = true ∧ x.length < 256
    · rw [if_pos h]
      have h2 : x = List.replicate x.length 7 := by
        refine List.eq_replicate_iff.2 ⟨rfl, fun b hb => ?_⟩
        have := List.all_eq_true.1 h.1 b hb
        simpa using this
      refine ⟨rfl, ?_⟩
      show [List.replicate (UInt8.ofNat x.length).toNat 7].flatten = x
      rw [UInt8.toNat_ofNat', Nat.mod_eq_of_lt h.2]
      simp [← h2]
    · rw [if_neg h]
      exact ⟨rfl, by simp⟩
  zipNe := fun x => by simp only [toyU]; split <;> simp

/-- The device with the first order of keys of `gClash1` sends, the other reads. -/
def gNonce : Bytes := List.replicate 24 4

theorem gClash_only {ct : Bytes} : ∀ k' ∈ (afterKeys gClash2).groupKeys, k' ≠ gKeyA → k' = gKeyB := by
  decide +kernel

/-- C73 applied, for a message that gets compressed. -/
example : ∃ ct, (afterKeys gClash1).encryptMessage toyU gMem1 (List.replicate 50 7) true 256 gNonce = .ok ct ∧
    ct.length % 256 = 0 ∧ (afterKeys gClash2).decryptMessage toyU ct =
      .ok (toHex (5 :: toyU.pubOf (toyU.xsk gU1)), List.replicate 50 7) := by
  obtain ⟨k, hk, hh⟩ := receiver_holds_key toyU_good (P := toyU) gClash1_reach gClash2_reach gClash_times.1
    (fun k => (gClash_times.2.2 k).1) (by decide +kernel) ⟨⟨0, 10, gKeyA⟩, got_logOf.2 ⟨[1], by decide +kernel⟩⟩ (by
      rintro ⟨n, m, hn, _, hlt, _, _⟩
      have := hlt n ((gClash_times.2.2 n).2 hn)
      omega)
  have hkA : k = gKeyA := by
    have h' : (afterKeys gClash1).groupEncKey = .ok gKeyA := by decide +kernel
    rw [h'] at hk; cases hk; rfl
  subst hkA
  obtain ⟨ct, h1, h2⟩ := message_roundtrip toyU_good (e := gMem1) (m := List.replicate 50 7) (nonce := gNonce) (by decide)
    (by decide) hk hh (by decide) true 256
  obtain ⟨ct0, h3, _⟩ := message_roundtrip toyU_good (e := gMem1) (m := List.replicate 50 7) (nonce := gNonce) (by decide)
    (by decide) hk hh (by decide) true 0
  have hp := message_padded toyU_good (by decide) (by decide) h1 h3
  refine ⟨ct, h1, Nat.mod_eq_zero_of_dvd hp.1, h2 ?_⟩
  intro k' hk' hne
  rw [gClash_only (ct := ct) k' hk' hne]
  have hct : ((afterKeys gClash1).encryptMessage toyU gMem1 (List.replicate 50 7) true 256 gNonce).bind
      (fun ct => if toyU.aeadOpen gKeyB (ct.take 24) (ct.drop 24) = none then .ok () else .err .foreign) = .ok () := by
    decide +kernel
  rw [h1] at hct
  by_contra hx
  change (if toyU.aeadOpen gKeyB (ct.take 24) (ct.drop 24) = none then Out.ok () else Out.err Err.foreign) = .ok () at hct
  rw [if_neg hx] at hct
  cases hct

/-- C75 applied. -/
example : gMem1.loadAdminKey toyU gSk = .ok ⟨gU1, toyG.edPub gSk, some gSk⟩ ∧
    ∃ er, gMem1.loadAdminKey toyU gU2 = .err er := by
  refine ⟨by rfl, ?_⟩
  refine ⟨.foreign, ?_⟩
  unfold GEnv.loadAdminKey
  rw [if_neg (by decide), if_neg (by decide)]
  dsimp only
  rw [if_pos (by decide +kernel)]

end Verif
