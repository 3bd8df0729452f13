import Verif.Props.GroupKeys
import Verif.Props.Multi
import Mathlib.Data.List.Sort

/-!
# Distributing group keys (C70–C73)
-/

namespace Verif

variable {P : GPrims}

/-! ### Loading what `rekey` and `key_supplement` make -/

theorem openDict_encStr (k r : Bytes) : openDict (100 :: (encStr k ++ r)) = some (encStr k ++ r) := by
  obtain ⟨x, t, _, ht⟩ := encStr_head k
  rw [ht]; rfl

theorem seekAt_hit {f : Nat} {k : Bytes} (rest : Bytes) :
    seekAt (f + 1) k (encStr k ++ rest) = some (true, encStr k ++ rest) := by
  obtain ⟨d, t, hd, ht⟩ := encStr_head k
  have h0 := decStr_encStr k rest
  rw [ht] at h0 ⊢
  rw [List.cons_append] at h0 ⊢
  simp only [seekAt]
  rw [if_neg (digit_ne hd (by decide)), h0]
  simp

theorem checkSig_signed {e : GEnv} {pre sig : Bytes} (hs : sig.length = 64)
    (hv : P.verify e.groupPk pre sig = true) :
    checkSig P e (pre ++ (encStr [126] ++ (encStr sig ++ [101]))) (encStr [126] ++ (encStr sig ++ [101])) = .ok () := by
  obtain ⟨n, hn⟩ : ∃ n, (encStr [126] ++ (encStr sig ++ [101])).length = n + 1 :=
    ⟨_, (Nat.succ_pred_eq_of_pos (by rw [List.length_append]; have := encStr_length_pos [126]; omega)).symm⟩
  have hseek : seekAt (encStr [126] ++ (encStr sig ++ [101])).length [126] (encStr [126] ++ (encStr sig ++ [101])) =
      some (true, encStr [126] ++ (encStr sig ++ [101])) := by rw [hn, seekAt_hit]
  unfold checkSig
  simp only [hseek]
  rw [decStr_encStr]
  dsimp only
  rw [show takeStr (encStr sig ++ [101]) = some (sig, [101]) from decStr_encStr sig [101]]
  dsimp only
  have et : (pre ++ (encStr [126] ++ (encStr sig ++ [101]))).take
      ((pre ++ (encStr [126] ++ (encStr sig ++ [101]))).length - (encStr [126] ++ (encStr sig ++ [101])).length) = pre := by
    rw [List.length_append, Nat.add_sub_cancel, List.take_left]
  rw [et, hv, hs]
  simp

theorem signedDict_eq (sk : Bytes) (d : BtDict) : signedDict P sk d =
    (100 :: encD d) ++ (encStr [126] ++ (encStr (P.sign sk (100 :: encD d)) ++ [101])) := by
  simp [signedDict]

theorem parseKeyMsg_full (hP : P.Good) {u : GEnv} {sk gx nonce act : Bytes} {gen ts : Int} {cts : List Bytes}
    (hpk : u.groupPk = P.edPub sk) (hx : P.xpk u.groupPk = some gx) (hts : tsOk ts = true) (hg : 0 ≤ gen)
    (hg' : int64Ok gen = true) :
    parseKeyMsg P u (signedDict P sk [([35], .str nonce), ([71], .int gen), ([75], .str act),
      ([107], .list (cts.map .str))]) ts = loadFull P u gx nonce act cts >>= fun k => .ok (foundOf ts gen k) := by
  set tl : Bytes := encStr [126] ++ (encStr (P.sign sk (100 :: encD [([35], .str nonce), ([71], .int gen),
    ([75], .str act), ([107], .list (cts.map .str))])) ++ [101]) with htl
  set pre : Bytes := 100 :: encD [([35], .str nonce), ([71], .int gen), ([75], .str act),
    ([107], .list (cts.map .str))] with hpre
  have e : signedDict P sk [([35], .str nonce), ([71], .int gen), ([75], .str act),
      ([107], .list (cts.map .str))] = pre ++ tl := by rw [signedDict_eq]
  have e2 : pre ++ tl = 100 :: (encStr [35] ++ (encV (.str nonce) ++ (encStr [71] ++ (encV (.int gen) ++ (encStr [75] ++
      (encV (.str act) ++ (encStr [107] ++ (encV (.list (cts.map .str)) ++ tl)))))))) := by
    rw [hpre]; simp [encD]
  have hsig : checkSig P u (pre ++ tl) tl = .ok () := by
    rw [htl]
    exact checkSig_signed (hP.signLen _ _) (by rw [hpk]; exact hP.signOk _ _)
  rw [e]
  unfold parseKeyMsg
  rw [show openDict (pre ++ tl) = some (encStr [35] ++ (encV (.str nonce) ++ (encStr [71] ++ (encV (.int gen) ++ (encStr [75] ++
      (encV (.str act) ++ (encStr [107] ++ (encV (.list (cts.map .str)) ++ tl)))))))) by rw [e2, openDict_encStr]]
  dsimp only
  rw [hx]
  dsimp only
  rw [requireKey_hit]
  dsimp only
  rw [takeStr_enc]
  dsimp only
  set r2 : Bytes := encStr [71] ++ (encV (.int gen) ++ (encStr [75] ++
      (encV (.str act) ++ (encStr [107] ++ (encV (.list (cts.map .str)) ++ tl))))) with hr2
  obtain ⟨n, hn⟩ : ∃ n, r2.length = n + 1 :=
    ⟨_, (Nat.succ_pred_eq_of_pos (by rw [hr2, List.length_append]; have := encStr_length_pos [71]; omega)).symm⟩
  rw [hn, show seekKey (n + 1) [43] r2 = some (false, r2) by rw [hr2]; exact seekKey_pass _ (by decide)]
  dsimp only
  unfold parseFull
  rw [if_neg (by simp [hts]), hr2, requireKey_hit]
  dsimp only
  rw [takeInt_enc _ hg']
  dsimp only
  rw [if_neg (by omega), requireKey_hit]
  dsimp only
  rw [takeStr_enc]
  dsimp only
  rw [requireKey_hit]
  dsimp only
  rw [takeList_enc _ (okL_strs _)]
  dsimp only
  rw [allStrs_map]
  dsimp only
  cases loadFull P u gx nonce act cts with
  | ok k =>
    rw [Out.bind_ok, Out.bind_ok, Out.bind_ok]
    dsimp only
    rw [hsig, Out.bind_ok]
  | err _ => rfl
  | hang => rfl
  | ub => rfl

theorem parseKeyMsg_supp (hP : P.Good) {u : GEnv} {sk gx nonce : Bytes} {gen ts : Int} {cts : List Bytes}
    (hpk : u.groupPk = P.edPub sk) (hx : P.xpk u.groupPk = some gx) (hg' : int64Ok gen = true) :
    parseKeyMsg P u (signedDict P sk [([35], .str nonce), ([43], .list (cts.map .str)), ([71], .int gen)]) ts =
      loadSupp P u gx nonce cts >>= fun ks => .ok ⟨ks, some gen⟩ := by
  set tl : Bytes := encStr [126] ++ (encStr (P.sign sk (100 :: encD [([35], .str nonce),
    ([43], .list (cts.map .str)), ([71], .int gen)])) ++ [101]) with htl
  set pre : Bytes := 100 :: encD [([35], .str nonce), ([43], .list (cts.map .str)), ([71], .int gen)] with hpre
  have e : signedDict P sk [([35], .str nonce), ([43], .list (cts.map .str)), ([71], .int gen)] = pre ++ tl := by
    rw [signedDict_eq]
  have e2 : pre ++ tl = 100 :: (encStr [35] ++ (encV (.str nonce) ++ (encStr [43] ++ (encV (.list (cts.map .str)) ++
      (encStr [71] ++ (encV (.int gen) ++ tl)))))) := by
    rw [hpre]; simp [encD]
  have hsig : checkSig P u (pre ++ tl) tl = .ok () := by
    rw [htl]
    exact checkSig_signed (hP.signLen _ _) (by rw [hpk]; exact hP.signOk _ _)
  rw [e]
  unfold parseKeyMsg
  rw [show openDict (pre ++ tl) = some (encStr [35] ++ (encV (.str nonce) ++ (encStr [43] ++ (encV (.list (cts.map .str)) ++
      (encStr [71] ++ (encV (.int gen) ++ tl)))))) by rw [e2, openDict_encStr]]
  dsimp only
  rw [hx]
  dsimp only
  rw [requireKey_hit]
  dsimp only
  rw [takeStr_enc]
  dsimp only
  set r2 : Bytes := encStr [43] ++ (encV (.list (cts.map .str)) ++ (encStr [71] ++ (encV (.int gen) ++ tl))) with hr2
  obtain ⟨n, hn⟩ : ∃ n, r2.length = n + 1 :=
    ⟨_, (Nat.succ_pred_eq_of_pos (by rw [hr2, List.length_append]; have := encStr_length_pos [43]; omega)).symm⟩
  rw [hn, hr2, seekKey_hit]
  dsimp only
  unfold parseSupp
  rw [takeList_enc _ (okL_strs _)]
  dsimp only
  rw [allStrs_map]
  dsimp only
  cases loadSupp P u gx nonce cts with
  | ok k =>
    rw [Out.bind_ok, Out.bind_ok]
    rw [requireKey_hit]
    dsimp only
    rw [takeInt_enc _ hg']
    dsimp only
    rw [Out.bind_ok]
    dsimp only
    rw [hsig, Out.bind_ok]
  | err _ => rfl
  | hang => rfl
  | ub => rfl

/-- The entries made for the recipients whose public key is usable. -/
def entriesFor (P : MPrims) (nonce priv pub domain : Bytes) (l : List (Bytes × Bytes)) : List Bytes :=
  l.filterMap fun x => (multiKey P priv pub x.2 true domain).map fun k => multiSeal P k nonce x.1

theorem multiLoop_ignore (M : MPrims) (nonce priv pub domain : Bytes) : ∀ l : List (Bytes × Bytes),
    multiLoop M nonce priv pub domain true l = .ok (entriesFor M nonce priv pub domain l)
  | [] => rfl
  | (m, r) :: t => by
    unfold multiLoop
    have ih := multiLoop_ignore M nonce priv pub domain t
    cases h : multiKey M priv pub r true domain with
    | none => simp only [if_true, ih, entriesFor, List.filterMap_cons, h, Option.map_none]
    | some k => simp only [ih, Out.bind_ok, entriesFor, List.filterMap_cons, h, Option.map_some]

theorem sessionIdPk_len {sid pk : Bytes} (h : sessionIdPk sid = .ok pk) : pk.length = 32 := by
  unfold sessionIdPk at h
  obtain ⟨b, h1, h⟩ := Out.bind_eq_ok.1 h
  cases h
  have := idBytes_len (by decide) h1
  simp [this]

theorem sessionIdPks_mem : ∀ {ids pks : List Bytes}, sessionIdPks ids = .ok pks →
    (∀ p, p ∈ pks ↔ ∃ sid ∈ ids, sessionIdPk sid = .ok p) ∧ ∀ p ∈ pks, p.length = 32
  | [], pks, h => by cases h; simp
  | s :: t, pks, h => by
    simp only [sessionIdPks] at h
    obtain ⟨p, h1, h⟩ := Out.bind_eq_ok.1 h
    obtain ⟨ps, h2, h⟩ := Out.bind_eq_ok.1 h
    cases h
    obtain ⟨a, b⟩ := sessionIdPks_mem h2
    constructor
    · intro x
      simp only [List.mem_cons, a]
      constructor
      · rintro (rfl | ⟨sid, hs, hh⟩)
        · exact ⟨s, .inl rfl, h1⟩
        · exact ⟨sid, .inr hs, hh⟩
      · rintro ⟨sid, rfl | hs, hh⟩
        · rw [h1] at hh; cases hh; exact .inl rfl
        · exact .inr ⟨sid, hs, hh⟩
    · intro x hx
      rcases List.mem_cons.1 hx with rfl | hx
      · exact sessionIdPk_len h1
      · exact b x hx

/-! ### The message made by `rekey` -/

theorem chunks_spec (n : Nat) : ∀ (c : Nat) (bs : Bytes), bs.length = n * c →
    (chunks n c bs).length = c ∧ ∀ x ∈ chunks n c bs, x.length = n
  | 0, _, _ => ⟨rfl, fun x hx => by cases hx⟩
  | c + 1, bs, h => by
    have hl : (bs.drop n).length = n * c := by rw [List.length_drop, h, Nat.mul_succ]; omega
    obtain ⟨h1, h2⟩ := chunks_spec n c (bs.drop n) hl
    refine ⟨by simp [chunks, h1], fun x hx => ?_⟩
    rcases List.mem_cons.1 hx with rfl | hx
    · rw [List.length_take, h, Nat.mul_succ]; omega
    · exact h2 x hx

theorem rekeyJunk_spec (hP : P.Good) (sk h1 : Bytes) (n : Nat) :
    (n + (rekeyJunk P sk h1 n).length) % 75 = 0 ∧ ∀ x ∈ rekeyJunk P sk h1 n, x.length = 48 := by
  unfold rekeyJunk
  split
  · rename_i h; exact ⟨by simpa using h, fun x hx => by cases hx⟩
  · obtain ⟨a, b⟩ := chunks_spec 48 (75 - n % 75) (P.rng (P.hashN 32 kJunk (h1 ++ sk)) (48 * (75 - n % 75)))
      (hP.rngLen _ _)
    dsimp only
    refine ⟨?_, b⟩
    rw [a]
    omega

/-- What `rekey` makes, from the group's secret key, the members' keys and the generation. -/
def rekeyEntries (P : GPrims) (sk gx h1 : Bytes) (pks : List Bytes) : List Bytes :=
  entriesFor P.toMPrims (h1.drop 32) (P.xsk sk) gx kMember (pks.map fun r => (h1.take 32, r))

theorem rekey_msg {e : GEnv} {s s' : GKeys} {ids : List Bytes} {msg : Bytes}
    (h : s.rekey P e ids = .ok (s', msg)) : ∃ sk gx gen pks, e.groupSk = some sk ∧ P.xpk e.groupPk = some gx ∧
      s.nextGen = .ok gen ∧ sessionIdPks ids = .ok pks ∧
      s' = ⟨s.keys, s.active, (rekeyHash P sk ids gen).take 32, msg, gen, true⟩ ∧
      msg = signedDict P sk [([35], .str ((rekeyHash P sk ids gen).drop 32)), ([71], .int gen),
        ([75], .str (P.aead (seedHash P sk kAdmin) ((rekeyHash P sk ids gen).drop 32)
          ((rekeyHash P sk ids gen).take 32))),
        ([107], .list ((rekeyEntries P sk gx (rekeyHash P sk ids gen) pks ++
          rekeyJunk P sk (rekeyHash P sk ids gen)
            (rekeyEntries P sk gx (rekeyHash P sk ids gen) pks).length).map .str))] := by
  unfold GKeys.rekey at h
  split at h
  · cases h
  · rename_i sk hsk
    split at h
    · cases h
    · rename_i gx hgx
      obtain ⟨gen, h1, h⟩ := Out.bind_eq_ok.1 h
      obtain ⟨pks, h2, h⟩ := Out.bind_eq_ok.1 h
      obtain ⟨msg', h3, h⟩ := Out.bind_eq_ok.1 h
      cases h
      refine ⟨sk, gx, gen, pks, hsk, hgx, h1, h2, rfl, ?_⟩
      unfold rekeyMsg at h3
      dsimp only at h3
      obtain ⟨cs, h4, h3⟩ := Out.bind_eq_ok.1 h3
      cases h3
      unfold encryptForMultiple at h4
      split at h4
      · cases h4
      · split at h4
        · cases h4
        · split at h4
          · cases h4
          · rw [multiLoop_ignore] at h4
            cases h4
            rfl

theorem rekeyEntries_len (hP : P.Good) {sk gx h1 : Bytes} {pks : List Bytes} (hl : h1.length = 56) :
    ∀ c ∈ rekeyEntries P sk gx h1 pks, c.length = 48 := by
  intro c hc
  unfold rekeyEntries entriesFor at hc
  obtain ⟨x, hx, he⟩ := List.mem_filterMap.1 hc
  obtain ⟨r, _, rfl⟩ := List.mem_map.1 hx
  obtain ⟨k, _, rfl⟩ := Option.map_eq_some_iff.1 he
  simp [multiSeal, hP.m.aeadLen, hl]

theorem firstOpen_agree {M : MPrims} {key nonce m : Bytes} : ∀ {l : List Bytes} (l' : List Bytes) {c : Bytes}, c ∈ l →
    multiOpen M key nonce c = some m → (∀ c' ∈ l, ∀ m', multiOpen M key nonce c' = some m' → m' = m) →
    firstOpen M key nonce (l ++ l') = some m
  | [], _, _, hc, _, _ => by cases hc
  | x :: t, l', c, hc, ho, ha => by
    rw [List.cons_append]
    unfold firstOpen
    cases hx : multiOpen M key nonce x with
    | some m' =>
      have := ha x (List.mem_cons_self ..) m' hx
      rw [this]
    | none =>
      dsimp only
      rcases List.mem_cons.1 hc with rfl | hc
      · rw [hx] at ho; cases ho
      · exact firstOpen_agree l' hc ho fun c' hc' => ha c' (List.mem_cons_of_mem _ hc')

theorem sessionIdPk_toHex {pk : Bytes} (hl : pk.length = 32) : sessionIdPk (toHex (5 :: pk)) = .ok pk := by
  unfold sessionIdPk
  rw [idBytes_toHex05 (by simp [hl]) rfl]
  rfl

/-! ### C70: a rekey reaches everyone it should -/

/-- Knowing one member's message key, no entry made for another opens to something else (a property of
the cipher for these keys: entries for other members fail to authenticate). -/
def NoConfusion (P : GPrims) (K nonce key : Bytes) (ids : List Bytes) (gsk : Bytes) : Prop :=
  ∀ sid ∈ ids, ∀ pk K', sessionIdPk sid = .ok pk →
    multiKey P.toMPrims (P.xsk gsk) (P.pubOf (P.xsk gsk)) pk true kMember = some K' → K' ≠ K →
    P.aeadOpen K nonce (P.aead K' nonce key) = none

/-- The group's own key pair. -/
def OwnKey (P : GPrims) (e : GEnv) (sk : Bytes) : Prop := e.groupSk = some sk ∧ e.groupPk = P.edPub sk

theorem nextGen_ok {s : GKeys} (hk : ∀ k ∈ s.keys, 0 ≤ k.gen ∧ int64Ok k.gen = true) {gen : Int}
    (h : s.nextGen = .ok gen) : 0 ≤ gen ∧ int64Ok gen = true := by
  unfold GKeys.nextGen at h
  split at h
  · cases h; decide
  · rename_i k hl
    split at h
    · cases h
    · rename_i hne
      cases h
      obtain ⟨h1, h2⟩ := hk k (getLast_mem hl)
      simp only [int64Ok, Bool.and_eq_true, decide_eq_true_eq] at h2 ⊢
      omega

/-- C70.  After a rekey by an admin: any admin, and any member on the list, finds exactly the new key in
the message, with the new generation.  (Members are given by their session ids; negative generations,
which no rekey produces, are excluded.) -/
theorem rekey_reaches (hP : P.Good) {s s' : GKeys} {e : GEnv} {sk : Bytes} (he : OwnKey P e sk)
    {ids : List Bytes} {msg : Bytes} (h : s.rekey P e ids = .ok (s', msg))
    (hk : ∀ k ∈ s.keys, 0 ≤ k.gen ∧ int64Ok k.gen = true)
    {u : GEnv} (hu : u.groupPk = e.groupPk) {ts : Int} (hts : tsOk ts = true) :
    (u.groupSk = some sk → parseKeyMsg P u msg ts = .ok ⟨[⟨s'.pendingGen, ts, s'.pendingKey⟩], none⟩) ∧
    (u.groupSk = none → toHex (5 :: P.pubOf (P.xsk u.userSk)) ∈ ids →
      (∀ K nonce, SharedKey P.toMPrims (P.xsk sk) (P.xsk u.userSk) kMember K → nonce.length = 24 →
        NoConfusion P K nonce s'.pendingKey ids sk) →
      parseKeyMsg P u msg ts = .ok ⟨[⟨s'.pendingGen, ts, s'.pendingKey⟩], none⟩) := by
  obtain ⟨sk', gx, gen, pks, h1, h2, h3, h4, h5, h6⟩ := rekey_msg h
  obtain ⟨he1, he2⟩ := he
  rw [h1] at he1; cases he1
  have hgx : gx = P.pubOf (P.xsk sk) := by
    rw [he2, hP.xpkPub] at h2; exact (Option.some.inj h2).symm
  obtain ⟨hg0, hg1⟩ := nextGen_ok hk h3
  set H := rekeyHash P sk ids gen with hH
  have hHl : H.length = 56 := hP.hashLen _ _ _
  have hnl : (H.drop 32).length = 24 := by rw [List.length_drop, hHl]
  have hkl : (H.take 32).length = 32 := by rw [List.length_take, hHl]; rfl
  have htk : (H.drop 32).take 24 = H.drop 32 := List.take_of_length_le (by omega)
  have hsg : s'.pendingGen = gen := by rw [h5]
  have hsk : s'.pendingKey = H.take 32 := by rw [h5]
  rw [hsg, hsk]
  rw [h6]
  have hpk : u.groupPk = P.edPub sk := hu.trans he2
  have hxu : P.xpk u.groupPk = some gx := by rw [hu]; exact h2
  have hparse := parseKeyMsg_full hP (u := u) (sk := sk) (gx := gx) (nonce := H.drop 32)
    (act := P.aead (seedHash P sk kAdmin) (H.drop 32) (H.take 32)) (gen := gen) (ts := ts)
    (cts := rekeyEntries P sk gx H pks ++ rekeyJunk P sk H (rekeyEntries P sk gx H pks).length) hpk hxu hts hg0 hg1
  rw [hparse]
  obtain ⟨hj1, hj2⟩ := rekeyJunk_spec hP sk H (rekeyEntries P sk gx H pks).length
  have hload : loadFull P u gx (H.drop 32) (P.aead (seedHash P sk kAdmin) (H.drop 32) (H.take 32))
      (rekeyEntries P sk gx H pks ++ rekeyJunk P sk H (rekeyEntries P sk gx H pks).length) =
      match u.groupSk with
      | some sk' => match multiOpen P.toMPrims (seedHash P sk' kAdmin) (H.drop 32)
          (P.aead (seedHash P sk kAdmin) (H.drop 32) (H.take 32)) with
        | some k => .ok (some k)
        | none => .err .foreign
      | none => match memberKey P u gx with
        | none => .err .foreign
        | some key => .ok (firstOpen P.toMPrims key (H.drop 32)
            (rekeyEntries P sk gx H pks ++ rekeyJunk P sk H (rekeyEntries P sk gx H pks).length)) := by
    unfold loadFull
    rw [if_neg (by omega), if_neg (by rw [hP.m.aeadLen, hkl]; simp), if_neg ?h1, if_neg ?h2]
    · rfl
    case h2 => rw [List.length_append, hj1]; simp
    case h1 =>
      simp only [List.any_eq_true, not_exists, not_and]
      intro c hc
      rcases List.mem_append.1 hc with hc | hc
      · simp [rekeyEntries_len hP hHl c hc]
      · simp [hj2 c hc]
  rw [hload]
  constructor
  · intro hus
    rw [hus]
    dsimp only
    rw [multiOpen_eq hP.m, htk, hP.m.openSeal]
    rfl
  · intro hus hmem hconf
    rw [hus]
    dsimp only
    obtain ⟨K, hK⟩ := sharedKey_exists hP.m (P.xsk sk) (P.xsk u.userSk) kMember
    have hmk : memberKey P u gx = some K := by
      unfold memberKey
      rw [hP.xpkPub]
      dsimp only
      rw [hgx]
      exact multiKey_recv hP.m hK
    rw [hmk]
    dsimp only
    have hpl : (P.pubOf (P.xsk u.userSk)).length = 32 := hP.m.pubLen _
    have hin : P.pubOf (P.xsk u.userSk) ∈ pks :=
      ((sessionIdPks_mem h4).1 _).2 ⟨_, hmem, sessionIdPk_toHex hpl⟩
    have hopen : firstOpen P.toMPrims K (H.drop 32)
        (rekeyEntries P sk gx H pks ++ rekeyJunk P sk H (rekeyEntries P sk gx H pks).length) = some (H.take 32) := by
      refine firstOpen_agree _ (c := multiSeal P.toMPrims K (H.drop 32) (H.take 32)) ?_ ?_ ?_
      · unfold rekeyEntries entriesFor
        refine List.mem_filterMap.2 ⟨(H.take 32, P.pubOf (P.xsk u.userSk)), List.mem_map.2 ⟨_, hin, rfl⟩, ?_⟩
        rw [hgx]
        dsimp only
        rw [multiKey_send hK]
        rfl
      · unfold multiSeal
        rw [multiOpen_eq hP.m, htk, hP.m.openSeal]
      · intro c hc m' hm'
        unfold rekeyEntries entriesFor at hc
        obtain ⟨x, hx, hxe⟩ := List.mem_filterMap.1 hc
        obtain ⟨r, hr, rfl⟩ := List.mem_map.1 hx
        obtain ⟨K', hK', rfl⟩ := Option.map_eq_some_iff.1 hxe
        obtain ⟨sid, hsid, hsp⟩ := ((sessionIdPks_mem h4).1 r).1 hr
        rw [multiOpen_eq hP.m] at hm'
        unfold multiSeal at hm'
        rw [htk] at hm'
        by_cases hkk : K' = K
        · rw [hkk, hP.m.openSeal] at hm'
          exact (Option.some.inj hm').symm
        · have := hconf K (H.drop 32) hK hnl sid hsid r K' hsp (by rw [← hgx]; exact hK') hkk
          dsimp only at hm'
          rw [this] at hm'
          cases hm'
    rw [hopen]
    rfl

/-- C70.  A rekey is of a later generation than every key held, and from then on the admin encrypts with
the new key, which also comes first in the list of keys; the keys held stay. -/
theorem rekey_newer (hP : P.Good) {s s' : GKeys} {log : List (Bytes × Found)} (hr : KReach P s log) {e : GEnv}
    {ids : List Bytes} {msg : Bytes} (h : s.rekey P e ids = .ok (s', msg)) :
    (∀ k ∈ s.keys, k.gen < s'.pendingGen) ∧ (∀ k, Got log k → k.gen < s'.pendingGen) ∧
    s'.pendingConfig? = some msg ∧ s'.groupEncKey = .ok s'.pendingKey ∧
    s'.groupKeys = s'.pendingKey :: s.keys.reverse.map (·.key) ∧ s'.keys = s.keys ∧ s'.needsDump = true := by
  obtain ⟨sk, gx, gen, pks, h1, h2, h3, h4, h5, h6⟩ := rekey_msg h
  have hne : msg ≠ [] := by rw [h6, signedDict_eq]; simp
  have hall : ∀ k, Got log k → k.gen < gen := by
    intro k hk
    obtain ⟨m, hm, hle⟩ := got_le_top hP hr hk
    unfold GKeys.nextGen at h3
    rw [hm] at h3
    dsimp only at h3
    split at h3
    · cases h3
    · cases h3; omega
  subst h5
  refine ⟨fun k hk => hall k ((keys_held hP hr).1 k hk), hall, ?_, ?_, ?_, rfl, rfl⟩
  · simp [GKeys.pendingConfig?, hne]
  · simp [GKeys.groupEncKey, hne]
  · simp [GKeys.groupKeys, hne]

/-- C70.  Two admins whose latest generation is the same and who see the same members make the same
rekey: message and key are equal byte by byte, whatever else differs between their states. -/
theorem rekey_deterministic {s t s' t' : GKeys} {e u : GEnv} {ids : List Bytes} {m m' : Bytes}
    (hsk : e.groupSk = u.groupSk) (hpk : e.groupPk = u.groupPk)
    (hgen : s.keys.getLast?.map (·.gen) = t.keys.getLast?.map (·.gen))
    (h : s.rekey P e ids = .ok (s', m)) (h' : t.rekey P u ids = .ok (t', m')) :
    m = m' ∧ s'.pendingKey = t'.pendingKey ∧ s'.pendingGen = t'.pendingGen := by
  obtain ⟨sk, gx, gen, pks, h1, h2, h3, h4, h5, h6⟩ := rekey_msg h
  obtain ⟨sk', gx', gen', pks', h1', h2', h3', h4', h5', h6'⟩ := rekey_msg h'
  rw [hsk, h1'] at h1; cases h1
  rw [hpk, h2'] at h2; cases h2
  rw [h4'] at h4; cases h4
  have hg : gen = gen' := by
    unfold GKeys.nextGen at h3 h3'
    cases ha : s.keys.getLast? with
    | none =>
      rw [ha] at h3 hgen
      cases hb : t.keys.getLast? with
      | none => rw [hb] at h3'; cases h3; cases h3'; rfl
      | some b => rw [hb] at hgen; cases hgen
    | some a =>
      rw [ha] at h3 hgen
      cases hb : t.keys.getLast? with
      | none => rw [hb] at hgen; cases hgen
      | some b =>
        rw [hb] at h3' hgen
        have hab : a.gen = b.gen := Option.some.inj hgen
        dsimp only at h3 h3'
        rw [hab] at h3
        rw [h3] at h3'
        exact Out.ok.inj h3'
  subst hg
  rw [h6, h6', h5, h5']
  exact ⟨rfl, rfl, rfl⟩

theorem insertKey_pending (s : GKeys) (hash : Bytes) (k : KeyInfo) :
    (s.insertKey hash k).pendingConfig = s.pendingConfig ∧ (s.insertKey hash k).pendingKey = s.pendingKey ∧
      (s.insertKey hash k).pendingGen = s.pendingGen := by
  unfold GKeys.insertKey
  split
  · exact ⟨rfl, rfl, rfl⟩
  · split
    · exact ⟨rfl, rfl, rfl⟩
    · exact ⟨rfl, rfl, rfl⟩

/-- C70.  When a device loads a message that brings it one key of a later generation than all it was given
before, it encrypts with that key from then on: a member always, an admin also if its own pending rekey
is of an earlier generation or is this very key, and the pending rekey is then dropped. -/
theorem new_key_takes_over (hP : P.Good) {t t' : GKeys} {log : List (Bytes × Found)} (hr : KReach P t log)
    {u : GEnv} {hash data : Bytes} {ts : Int} {k : KeyInfo} {b : Bool} {mg : Option Int}
    (hp : parseKeyMsg P u data ts = .ok ⟨[k], mg⟩) (hl : t.load P u hash data ts = .ok (t', b))
    (hnew : ∀ x, Got log x → x.gen < k.gen)
    (hpend : t.pendingConfig? = none ∨ u.admin = true ∧ (t.pendingGen < k.gen ∨ t.pendingKey = k.key)) :
    b = true ∧ t'.pendingConfig? = none ∧ t'.groupEncKey = .ok k.key ∧ t'.isCurrentHash hash := by
  have hr' : KReach P t' (log ++ [(hash, ⟨[k], mg⟩)]) := .load hr hp hl
  have hgk : Got (log ++ [(hash, ⟨[k], mg⟩)]) k := ⟨hash, ⟨[k], mg⟩, by simp, by simp⟩
  have hgot : ∀ x, Got (log ++ [(hash, ⟨[k], mg⟩)]) x → Got log x ∨ x = k := by
    rintro x ⟨h, f, hf, hx⟩
    rcases List.mem_append.1 hf with hf | hf
    · exact .inl ⟨h, f, hf, hx⟩
    · cases List.mem_singleton.1 hf
      exact .inr (by simpa using hx)
  have happ : t' = (t.dropPending u.admin [k]).insertKey hash k ∧ b = true := by
    unfold GKeys.load at hl
    rw [hp, Out.bind_ok] at hl
    exact ⟨(congrArg Prod.fst (Out.ok.inj hl)).symm, (congrArg Prod.snd (Out.ok.inj hl)).symm⟩
  have hpc : t'.pendingConfig = [] := by
    rw [happ.1, (insertKey_pending _ _ _).1]
    unfold GKeys.dropPending
    dsimp only
    rcases hpend with h | ⟨ha, h⟩
    · have h' : t.pendingConfig = [] := by
        unfold GKeys.pendingConfig? at h; by_contra hh; simp [hh] at h
      rw [if_neg (by simp [h'])]; exact h'
    · by_cases h' : t.pendingConfig = []
      · rw [if_neg (by simp [h'])]; exact h'
      · rw [if_pos]
        refine ⟨ha, h', ?_⟩
        rcases h with h | h
        · exact .inl h
        · exact .inr h.symm
  obtain ⟨m, hm, hle⟩ := got_le_top hP hr' hgk
  have hmk : m = k := by
    rcases hgot m ((keys_held hP hr').1 m (getLast_mem hm)) with h | h
    · have := hnew m h; omega
    · exact h
  subst hmk
  refine ⟨happ.2, by simp [GKeys.pendingConfig?, hpc], groupEncKey_top hpc hm, ?_⟩
  obtain ⟨x, f, hx, hxf, hkf⟩ := (current_hashes_cover hP hr').2.1 m (getLast_mem hm)
  rcases List.mem_append.1 hxf with hxf | hxf
  · have := hnew m ⟨x, f, hxf, hkf⟩; omega
  · cases List.mem_singleton.1 hxf; exact hx

/-! ### C72: supplements -/

theorem readSupp_enc {l : List KeyInfo} (h : ∀ k ∈ l, k.ok = true) :
    readSupp (encV (.list (l.map encKeyInfo))) = .ok l := by
  have e : encV (.list (l.map encKeyInfo)) = 108 :: (encL (l.map encKeyInfo) ++ [101]) := by
    simp [encV]
  have hd := decL_encL (l.map encKeyInfo) (108 :: (encL (l.map encKeyInfo) ++ [101])).length []
    (okL_keys h) (by simp)
  rw [e]
  have er : ∀ X : Bytes, readSupp (108 :: X) = match decL (108 :: X).length X with
      | some (l, _) => decKeyInfos l
      | none => .err .foreign := fun _ => rfl
  rw [er, hd]
  exact decKeyInfos_enc h

theorem intDigits_pos (i : Int) : 1 ≤ (intDigits i).length := by
  have hn : ∀ n, 1 ≤ (natDigits n).length := by
    intro n
    exact natDigits_length_pos n
  unfold intDigits
  split
  · have := hn i.natAbs; simp; try omega
  · exact hn _

theorem suppLen {k : KeyInfo} {t : List KeyInfo} (hk : k.ok = true) :
    54 ≤ (encV (.list ((k :: t).map encKeyInfo))).length := by
  simp only [KeyInfo.ok, Bool.and_eq_true, beq_iff_eq] at hk
  have h1 := intDigits_pos k.gen
  have h2 := intDigits_pos k.ts
  have e1 : (encStr [103]).length = 3 := by decide +kernel
  have e2 : (encStr [107]).length = 3 := by decide +kernel
  have e3 : (encStr [116]).length = 3 := by decide +kernel
  have e4 : (encStr k.key).length = 35 := by
    have : (natDigits 32).length = 2 := by decide +kernel
    simp [encStr, hk.2, this]
  simp only [List.map_cons, encV, encL, encKeyInfo, encD, List.length_cons, List.length_append, e1, e2, e3, e4]
  omega

theorem supplement_msg {e : GEnv} {s : GKeys} {sids : List Bytes} {msg : Bytes}
    (h : s.supplement P e sids = .ok msg) : ∃ sk gx last pks nonce cs, e.groupSk = some sk ∧
      P.xpk e.groupPk = some gx ∧ s.keys.getLast? = some last ∧ sessionIdPks sids = .ok pks ∧
      nonce = P.hashN 24 kGen (sids.flatten ++ encV (.list (s.keys.map encKeyInfo)) ++ seedHash P sk kSeed) ∧
      cs = entriesFor P.toMPrims nonce (P.xsk sk) gx kMember
        (pks.map fun r => (encV (.list (s.keys.map encKeyInfo)), r)) ∧
      msg = signedDict P sk [([35], .str nonce), ([43], .list (cs.map .str)), ([71], .int last.gen)] := by
  unfold GKeys.supplement at h
  split at h
  · cases h
  · rename_i sk hsk
    split at h
    · cases h
    · rename_i last hlast
      split at h
      · cases h
      · rename_i gx hgx
        obtain ⟨pks, h2, h⟩ := Out.bind_eq_ok.1 h
        dsimp only at h
        obtain ⟨cs, h4, h⟩ := Out.bind_eq_ok.1 h
        refine ⟨sk, gx, last, pks, _, cs, hsk, hgx, hlast, h2, rfl, ?_, ?_⟩
        · unfold encryptForMultiple at h4
          split at h4
          · cases h4
          · split at h4
            · cases h4
            · split at h4
              · cases h4
              · rw [multiLoop_ignore] at h4
                cases h4
                rfl
        · split at h
          · cases h
          · cases h; rfl

/-- C72.  Any member to whom an admin sends a supplement finds exactly the keys the admin holds in it, with
their generations and timestamps; other admins find none. -/
theorem supplement_reaches (hP : P.Good) {s : GKeys} {log : List (Bytes × Found)} (hr : KReach P s log)
    {e : GEnv} {sk : Bytes} (he : OwnKey P e sk) {sids : List Bytes} {msg : Bytes}
    (h : s.supplement P e sids = .ok msg) {u : GEnv} (hu : u.groupPk = e.groupPk) (ts : Int) :
    ∃ g, (∃ k ∈ s.keys, k.gen = g) ∧
    (u.groupSk = some sk → parseKeyMsg P u msg ts = .ok ⟨[], some g⟩) ∧
    (u.groupSk = none → toHex (5 :: P.pubOf (P.xsk u.userSk)) ∈ sids →
      (∀ K nonce, SharedKey P.toMPrims (P.xsk sk) (P.xsk u.userSk) kMember K → nonce.length = 24 →
        NoConfusion P K nonce (encV (.list (s.keys.map encKeyInfo))) sids sk) →
      parseKeyMsg P u msg ts = .ok ⟨s.keys, some g⟩) := by
  obtain ⟨hi, hrv⟩ := hr.inv hP
  obtain ⟨sk', gx, last, pks, nonce, cs, h1, h2, h3, h4, h5, h6, h7⟩ := supplement_msg h
  obtain ⟨he1, he2⟩ := he
  rw [h1] at he1; cases he1
  have hgx : gx = P.pubOf (P.xsk sk) := by
    rw [he2, hP.xpkPub] at h2; exact (Option.some.inj h2).symm
  have hnl : nonce.length = 24 := by rw [h5]; exact hP.hashLen _ _ _
  have htk : nonce.take 24 = nonce := List.take_of_length_le (by omega)
  refine ⟨last.gen, ⟨last, getLast_mem h3, rfl⟩, ?_⟩
  have hpk : u.groupPk = P.edPub sk := hu.trans he2
  have hxu : P.xpk u.groupPk = some gx := by rw [hu]; exact h2
  have hparse := parseKeyMsg_supp hP (u := u) (sk := sk) (gx := gx) (nonce := nonce) (gen := last.gen) (ts := ts)
    (cts := cs) hpk hxu (KeyInfo.ok_gen (hrv.keys last (getLast_mem h3)))
  rw [h7, hparse]
  have hlen : ∀ c ∈ cs, 68 ≤ c.length := by
    intro c hc
    rw [h6] at hc
    obtain ⟨x, hx, hxe⟩ := List.mem_filterMap.1 hc
    obtain ⟨r, hr', rfl⟩ := List.mem_map.1 hx
    obtain ⟨K', hK', rfl⟩ := Option.map_eq_some_iff.1 hxe
    unfold multiSeal
    rw [hP.m.aeadLen]
    cases hks : s.keys with
    | nil => rw [hks] at h3; cases h3
    | cons k t =>
      have := suppLen (t := t) (hrv.keys k (by rw [hks]; exact List.mem_cons_self ..))
      dsimp only
      omega
  have hload : loadSupp P u gx nonce cs = if u.admin then .ok [] else match memberKey P u gx with
      | none => .err .foreign
      | some key => match firstOpen P.toMPrims key nonce cs with
        | none => .ok []
        | some plain => readSupp plain := by
    unfold loadSupp
    rw [if_neg (by omega), if_neg ?h1]
    case h1 =>
      simp only [List.any_eq_true, not_exists, not_and]
      intro c hc
      have := hlen c hc
      simp; omega
    rfl
  rw [hload]
  constructor
  · intro hus
    rw [if_pos (by simp [GEnv.admin, hus])]
    rfl
  · intro hus hmem hconf
    rw [if_neg (by simp [GEnv.admin, hus])]
    obtain ⟨K, hK⟩ := sharedKey_exists hP.m (P.xsk sk) (P.xsk u.userSk) kMember
    have hmk : memberKey P u gx = some K := by
      unfold memberKey
      rw [hP.xpkPub]
      dsimp only
      rw [hgx]
      exact multiKey_recv hP.m hK
    rw [hmk]
    dsimp only
    have hpl : (P.pubOf (P.xsk u.userSk)).length = 32 := hP.m.pubLen _
    have hin : P.pubOf (P.xsk u.userSk) ∈ pks :=
      ((sessionIdPks_mem h4).1 _).2 ⟨_, hmem, sessionIdPk_toHex hpl⟩
    have hopen : firstOpen P.toMPrims K nonce (cs ++ []) = some (encV (.list (s.keys.map encKeyInfo))) := by
      refine firstOpen_agree _ (c := multiSeal P.toMPrims K nonce (encV (.list (s.keys.map encKeyInfo)))) ?_ ?_ ?_
      · rw [h6]
        refine List.mem_filterMap.2 ⟨(encV (.list (s.keys.map encKeyInfo)), P.pubOf (P.xsk u.userSk)),
          List.mem_map.2 ⟨_, hin, rfl⟩, ?_⟩
        rw [hgx]
        dsimp only
        rw [multiKey_send hK]
        rfl
      · unfold multiSeal
        rw [multiOpen_eq hP.m, htk, hP.m.openSeal]
      · intro c hc m' hm'
        rw [h6] at hc
        obtain ⟨x, hx, hxe⟩ := List.mem_filterMap.1 hc
        obtain ⟨r, hr', rfl⟩ := List.mem_map.1 hx
        obtain ⟨K', hK', rfl⟩ := Option.map_eq_some_iff.1 hxe
        obtain ⟨sid, hsid, hsp⟩ := ((sessionIdPks_mem h4).1 r).1 hr'
        rw [multiOpen_eq hP.m] at hm'
        unfold multiSeal at hm'
        rw [htk] at hm'
        by_cases hkk : K' = K
        · rw [hkk, hP.m.openSeal] at hm'
          exact (Option.some.inj hm').symm
        · have := hconf K nonce hK hnl sid hsid r K' hsp (by rw [← hgx]; exact hK') hkk
          dsimp only at hm'
          rw [this] at hm'
          cases hm'
    rw [List.append_nil] at hopen
    rw [hopen]
    dsimp only
    rw [readSupp_enc hrv.keys]
    rfl

/-! #### A new member ends up with the admin's keys -/

/-- Nothing in the list is expired. -/
def Pruned (l : List KeyInfo) : Prop := pruneKeys (lastTs l) l = l

theorem pruneKeys_idem (T : Int) (l : List KeyInfo) : pruneKeys T (pruneKeys T l) = pruneKeys T l := by
  induction l using pruneKeys.induct (lastTs := T) with
  | case1 => simp [pruneKeys]
  | case2 k t h =>
    have : pruneKeys T (k :: t) = k :: t := by
      rw [pruneKeys]; split
      · rfl
      · rename_i n r h'; rw [h] at h'; cases h'
    rw [this, this]
  | case3 k t n r h hlt ih =>
    have : pruneKeys T (k :: t) = pruneKeys T (n :: r) := by
      rw [pruneKeys]; split
      · rename_i h'; rw [h] at h'; cases h'
      · rename_i n' r' h'; rw [h] at h'; cases h'; rw [if_pos hlt]
    rw [this]; exact ih
  | case4 k t n r h hlt =>
    have : pruneKeys T (k :: t) = k :: t := by
      rw [pruneKeys]; split
      · rfl
      · rename_i n' r' h'; rw [h] at h'; cases h'; rw [if_neg hlt]
    rw [this, this]

theorem lastTs_suffix {l l' : List KeyInfo} (h : l <:+ l') (hl : l ≠ []) : lastTs l = lastTs l' := by
  unfold lastTs; rw [suffix_getLast? h hl]

theorem pruned_short {l : List KeyInfo} (h : ¬2 ≤ l.length) : Pruned l := by
  cases l with
  | nil => simp [Pruned, pruneKeys]
  | cons a t =>
    cases t with
    | nil => simp [Pruned, pruneKeys]
    | cons b t => simp at h

theorem removeExpired_pruned (s : GKeys) : Pruned s.removeExpired.keys := by
  by_cases h2 : 2 ≤ s.keys.length
  · have e : s.removeExpired.keys = pruneKeys (lastTs s.keys) s.keys := by
      simp [GKeys.removeExpired, h2]
    rw [e]
    unfold Pruned
    have hne : s.keys ≠ [] := by intro hh; rw [hh] at h2; simp at h2
    rw [lastTs_suffix (pruneKeys_suffix _ _) (pruneKeys_ne_nil _ hne)]
    exact pruneKeys_idem _ _
  · have e : s.removeExpired.keys = s.keys := by
      simp [GKeys.removeExpired, h2]
    rw [e]
    exact pruned_short h2

theorem insertKey_pruned {s : GKeys} (h : Pruned s.keys) (hash : Bytes) (k : KeyInfo) :
    Pruned (s.insertKey hash k).keys := by
  unfold GKeys.insertKey
  split
  · exact h
  · split
    · exact h
    · exact removeExpired_pruned _

theorem KReach.pruned (hP : P.Good) {s : GKeys} {log : List (Bytes × Found)} (h : KReach P s log) :
    Pruned s.keys := by
  induction h with
  | init => exact pruned_short (by simp [GKeys.init])
  | @load s s' log e hash data ts f b hr hp hl ih =>
    unfold GKeys.load at hl
    rw [hp, Out.bind_ok] at hl
    have hs' : s' = (s.apply e.admin hash f).1 := (congrArg Prod.fst (Out.ok.inj hl)).symm
    subst hs'
    unfold GKeys.apply
    cases hk : f.newKeys with
    | nil =>
      cases hm : f.maxGen with
      | none => exact ih
      | some g => exact removeExpired_pruned _
    | cons k t =>
      dsimp only
      have key : ∀ (ks : List KeyInfo) (s : GKeys), Pruned s.keys →
          Pruned (ks.foldl (fun s k => s.insertKey hash k) s).keys := by
        intro ks
        induction ks with
        | nil => intro s hs; exact hs
        | cons x t ih' => intro s hs; exact ih' _ (insertKey_pruned hs hash x)
      refine key _ _ ?_
      unfold GKeys.dropPending
      dsimp only
      split <;> exact ih
  | rekey hr hk ih =>
    obtain ⟨sk, gen, _, _, rfl⟩ := rekey_state hk
    exact ih
  | dump hr ih => exact ih
  | restore hr hd ih =>
    obtain ⟨hi, hrv⟩ := hr.inv hP
    rw [loadDump_makeDump hrv hi.asc hi.ascA fun e he => (hi.hashes e he).2] at hd
    cases hd
    exact ih

theorem pruned_cons {k : KeyInfo} {t : List KeyInfo} {T : Int} : pruneKeys T (k :: t) = k :: t ↔
    ∀ n r, t.dropWhile (fun x => x.gen == k.gen) = n :: r → ¬n.ts + keyExpiry < T := by
  rw [pruneKeys]
  constructor
  · intro h n r hd hlt
    split at h
    · rename_i h'; rw [hd] at h'; cases h'
    · rename_i n' r' h'
      rw [hd] at h'; cases h'
      rw [if_pos hlt] at h
      have h1 := (pruneKeys_suffix T (n :: r)).length_le
      have h2 := (List.dropWhile_suffix (l := t) (fun x => x.gen == k.gen)).length_le
      rw [hd] at h2
      rw [h] at h1
      simp only [List.length_cons] at h1 h2
      omega
  · intro h
    split
    · rfl
    · rename_i n r hd
      rw [if_neg (h n r hd)]

theorem dropWhile_append_head {α : Type _} {p : α → Bool} {l l' : List α} {n : α} {r : List α}
    (h : l.dropWhile p = n :: r) : (l ++ l').dropWhile p = n :: (r ++ l') := by
  induction l with
  | nil => cases h
  | cons x t ih =>
    rw [List.cons_append, List.dropWhile_cons]
    rw [List.dropWhile_cons] at h
    split
    · rename_i hx; rw [if_pos hx] at h; exact ih h
    · rename_i hx; rw [if_neg hx] at h; cases h; rfl

theorem pruned_prefix {p q : List KeyInfo} {T T' : Int} (h : pruneKeys T (p ++ q) = p ++ q) (hT : T' ≤ T) :
    pruneKeys T' p = p := by
  cases p with
  | nil => simp [pruneKeys]
  | cons k t =>
    rw [List.cons_append] at h
    rw [pruned_cons] at h ⊢
    intro n r hd hlt
    exact h n (r ++ q) (dropWhile_append_head hd) (by omega)

theorem insKey_end {k : KeyInfo} : ∀ {l : List KeyInfo}, (∀ x ∈ l, x < k) → insKey k l = l ++ [k]
  | [], _ => rfl
  | y :: t, h => by
    simp only [insKey, if_pos (h y (List.mem_cons_self ..)), insKey_end fun x hx => h x (List.mem_cons_of_mem _ hx)]
    rfl

theorem foldl_rebuild {hash : Bytes} {l : List KeyInfo} (ha : Asc l)
    (huniq : ∀ x ∈ l, ∀ y ∈ l, x.gen = y.gen → x.key = y.key → x = y)
    (hmono : l.Pairwise fun a b => a.ts ≤ b.ts) (hpr : Pruned l) :
    ∀ (q p : List KeyInfo), l = p ++ q → ∀ s : GKeys, s.keys = p →
      (q.foldl (fun s k => s.insertKey hash k) s).keys = l
  | [], p, he, s, hs => by simpa [hs] using he.symm
  | k :: q, p, he, s, hs => by
    rw [List.foldl_cons]
    refine foldl_rebuild ha huniq hmono hpr q (p ++ [k]) (by rw [he]; simp) _ ?_
    have hlt : ∀ x ∈ p, x < k := by
      intro x hx
      rw [he] at ha
      exact (List.pairwise_append.1 ha).2.2 x hx k (List.mem_cons_self ..)
    have hkl : k ∈ l := by rw [he]; simp
    unfold GKeys.insertKey
    rw [if_neg, if_neg]
    · show (GKeys.removeExpired _).keys = p ++ [k]
      have hk1 : insKey k s.keys = p ++ [k] := by rw [hs]; exact insKey_end hlt
      have hprune : pruneKeys k.ts (p ++ [k]) = p ++ [k] := by
        refine pruned_prefix (q := q) (T := lastTs l) ?_ ?_
        · have e : p ++ [k] ++ q = l := by rw [he]; simp
          rw [e]; exact hpr
        · unfold lastTs
          cases hm : l.getLast? with
          | none => rw [List.getLast?_eq_none_iff] at hm; rw [hm] at hkl; cases hkl
          | some m =>
            dsimp only
            obtain ⟨w, hw⟩ := List.getLast?_eq_some_iff.1 hm
            rw [hw] at hkl hmono
            rcases List.mem_append.1 hkl with h1 | h1
            · exact (List.pairwise_append.1 hmono).2.2 k h1 m (by simp)
            · rw [List.mem_singleton.1 h1]
      have hlast : lastTs (p ++ [k]) = k.ts := by simp [lastTs]
      unfold GKeys.removeExpired
      dsimp only
      rw [hk1, hlast, hprune]
      simp
    · rw [Bool.not_eq_true]
      unfold GKeys.stale
      rw [hs]
      split
      · rename_i f g t
        have := KeyInfo.gen_le (hlt f (by simp)).le
        have hd : decide (k.gen < f.gen) = false := decide_eq_false (by omega)
        rw [hd, Bool.false_and]
      · rfl
    · rw [hs]
      simp only [List.any_eq_true, Bool.and_eq_true, beq_iff_eq, not_exists, not_and]
      intro x hx hg hkey
      have := huniq x (by rw [he]; exact List.mem_append_left _ hx) k hkl hg hkey
      exact absurd this (hlt x hx).ne

/-- C72.  A new member that loads a supplement encrypts with the key the admin last loaded; if the
admin's keys have nondecreasing timestamps, it holds exactly the keys the admin holds. -/
theorem supplement_fresh (hP : P.Good) {s : GKeys} {log : List (Bytes × Found)} (hr : KReach P s log)
    {u : GEnv} {hash msg : Bytes} {ts g : Int} {b : Bool} {t' : GKeys} (hne : s.keys ≠ [])
    (hp : parseKeyMsg P u msg ts = .ok ⟨s.keys, some g⟩)
    (hl : GKeys.init.load P u hash msg ts = .ok (t', b)) :
    (s.pendingConfig? = none → t'.groupEncKey = s.groupEncKey) ∧
    (s.keys.Pairwise (fun a b => a.ts ≤ b.ts) → t'.keys = s.keys) ∧ b = true ∧ t'.isCurrentHash hash := by
  obtain ⟨hi, hrv⟩ := hr.inv hP
  have hr' : KReach P t' ([] ++ [(hash, ⟨s.keys, some g⟩)]) := .load .init hp hl
  have hgot : ∀ x, Got ([] ++ [(hash, ⟨s.keys, some g⟩)]) x ↔ x ∈ s.keys := by
    intro x
    constructor
    · rintro ⟨h, f, hf, hx⟩
      cases List.mem_singleton.1 hf
      exact hx
    · intro hx
      exact ⟨hash, ⟨s.keys, some g⟩, by simp, hx⟩
  have hone : SameTimes ([] ++ [(hash, ⟨s.keys, some g⟩)]) := by
    intro k k' hk hk' h1 h2
    rw [hi.uniq k ((hgot k).1 hk) k' ((hgot k').1 hk') h1 h2]
  obtain ⟨f, t, hft⟩ : ∃ f t, s.keys = f :: t := by
    cases h : s.keys with
    | nil => exact absurd h hne
    | cons f t => exact ⟨f, t, rfl⟩
  have happ : t' = (s.keys.foldl (fun s k => s.insertKey hash k) GKeys.init) ∧ b = true := by
    unfold GKeys.load at hl
    rw [hp, Out.bind_ok] at hl
    have e : GKeys.init.apply u.admin hash ⟨s.keys, some g⟩ =
        (s.keys.foldl (fun s k => s.insertKey hash k) GKeys.init, true) := by
      unfold GKeys.apply
      rw [hft]
      dsimp only
      have : GKeys.init.dropPending u.admin (f :: t) = GKeys.init := by
        unfold GKeys.dropPending
        dsimp only
        rw [if_neg (by simp [GKeys.init])]
      rw [this]
    rw [e] at hl
    cases hl
    exact ⟨rfl, rfl⟩
  have hpc : t'.pendingConfig = [] := by
    rw [happ.1]
    have key : ∀ (ks : List KeyInfo) (s : GKeys), s.pendingConfig = [] →
        (ks.foldl (fun s k => s.insertKey hash k) s).pendingConfig = [] := by
      intro ks
      induction ks with
      | nil => intro s hs; exact hs
      | cons x t ih' => intro s hs; exact ih' _ (by rw [(insertKey_pending _ _ _).1]; exact hs)
    exact key _ _ rfl
  refine ⟨?_, ?_, happ.2, ?_⟩
  · intro hp'
    have hp'' : s.pendingConfig = [] := by
      unfold GKeys.pendingConfig? at hp'; by_contra hh; simp [hh] at hp'
    obtain ⟨last, hlast⟩ := ne_nil_getLast hne
    obtain ⟨m, hm, hgm, hmax⟩ := enc_key_newest hP hr' hone (by simp [GKeys.pendingConfig?, hpc])
      ((hgot last).2 (getLast_mem hlast))
    have h1 := notOlder_iff.1 (hmax last ((hgot last).2 (getLast_mem hlast)))
    have h2 := asc_getLast hi.asc hlast ((hgot m).1 hgm)
    rw [hm, groupEncKey_top hp'' hlast, le_antisymm h1 h2]
  · intro hmono
    rw [happ.1]
    exact foldl_rebuild hi.asc hi.uniq hmono (hr.pruned hP) s.keys [] rfl _ rfl
  · have hk' : t'.keys ≠ [] := by
      obtain ⟨m, hm, _⟩ := got_le_top hP hr' ((hgot f).2 (by rw [hft]; simp))
      intro hh; rw [hh] at hm; cases hm
    obtain ⟨m, hm⟩ := ne_nil_getLast hk'
    obtain ⟨x, f', hx, hxf, _⟩ := (current_hashes_cover hP hr').2.1 m (getLast_mem hm)
    cases List.mem_singleton.1 hxf
    exact hx

/-! ### C70: a rekey succeeds -/

/-- C70.  An admin can always rekey if the members' session ids are well-formed (and the generation
counter is not exhausted). -/
theorem rekey_succeeds (hP : P.Good) {s : GKeys} {e : GEnv} {sk : Bytes} (he : OwnKey P e sk) {ids : List Bytes}
    (hids : ∀ sid ∈ ids, ∃ b : Bytes, b.length = 32 ∧ sid = toHex (5 :: b))
    (hgen : ∀ k ∈ s.keys, k.gen < 2 ^ 63 - 1) : ∃ s' msg, s.rekey P e ids = .ok (s', msg) := by
  have hpks : ∀ ids : List Bytes, (∀ sid ∈ ids, ∃ b : Bytes, b.length = 32 ∧ sid = toHex (5 :: b)) →
      ∃ pks, sessionIdPks ids = .ok pks ∧ ∀ p ∈ pks, p.length = 32 := by
    intro ids
    induction ids with
    | nil => intro _; exact ⟨[], rfl, fun p hp => by cases hp⟩
    | cons x t ih =>
      intro h
      obtain ⟨b, hb, rfl⟩ := h x (List.mem_cons_self ..)
      obtain ⟨ps, h1, h2⟩ := ih fun y hy => h y (List.mem_cons_of_mem _ hy)
      refine ⟨b :: ps, ?_, ?_⟩
      · rw [sessionIdPks, sessionIdPk_toHex hb, Out.bind_ok, h1, Out.bind_ok]
      · intro p hp
        rcases List.mem_cons.1 hp with rfl | hp
        · exact hb
        · exact h2 p hp
  obtain ⟨pks, hp1, hp2⟩ := hpks ids hids
  obtain ⟨gen, hg⟩ : ∃ gen, s.nextGen = .ok gen := by
    unfold GKeys.nextGen
    split
    · exact ⟨_, rfl⟩
    · rename_i k hk
      have := hgen k (getLast_mem hk)
      rw [if_neg (by omega)]
      exact ⟨_, rfl⟩
  have henc : ∃ cs, encryptForMultiple P.toMPrims [(rekeyHash P sk ids gen).take 32] pks
      ((rekeyHash P sk ids gen).drop 32) (P.xsk sk) (P.pubOf (P.xsk sk)) kMember true = .ok cs := by
    unfold encryptForMultiple
    have hl : (rekeyHash P sk ids gen).length = 56 := hP.hashLen _ _ _
    rw [if_neg, if_neg, if_neg]
    · exact ⟨_, multiLoop_ignore _ _ _ _ _ _⟩
    · simp
    · simp only [List.any_eq_true, not_exists, not_and]
      intro r hr
      simp [hp2 r hr]
    · simp [multiFieldsOk, hP.xskLen, hP.m.pubLen, hl]
  obtain ⟨cs, hcs⟩ := henc
  unfold GKeys.rekey
  rw [he.1, he.2]
  dsimp only
  rw [hP.xpkPub]
  dsimp only
  rw [hg, Out.bind_ok, hp1, Out.bind_ok]
  unfold rekeyMsg
  dsimp only
  rw [hcs, Out.bind_ok, Out.bind_ok]
  exact ⟨_, _, rfl⟩

/-! ### C65: which keys are held, exactly -/

/-- Later generations do not have earlier timestamps. -/
def TimesInOrder (log : List (Bytes × Found)) : Prop :=
  ∀ k k', Got log k → Got log k' → k.gen < k'.gen → k.ts ≤ k'.ts

/-- C65.  With timestamps in the order of the generations, a key is held exactly if it was given and
no later generation is more than 60 days older than some key given: it does not depend on the order in
which the messages came. -/
theorem keys_held_exactly (hP : P.Good) {s : GKeys} {log : List (Bytes × Found)} (h : KReach P s log)
    (hone : SameTimes log) (hord : TimesInOrder log) (k : KeyInfo) :
    k ∈ s.keys ↔ Got log k ∧ ¬∃ n m, Got log n ∧ Got log m ∧ k.gen < n.gen ∧
      n.ts + 60 * 24 * 3600 * 1000 < m.ts := by
  obtain ⟨hheld, hkept⟩ := keys_held hP h
  obtain ⟨hi, _⟩ := h.inv hP
  have hin : ∀ x, Got log x → (∃ k' ∈ s.keys, k'.gen = x.gen ∧ k'.key = x.key) → x ∈ s.keys := by
    rintro x hx ⟨k', hk', h1, h2⟩
    have h3 := hone k' x (hheld k' hk') hx h1 h2
    have : k' = x := by cases k'; cases x; simp_all
    exact this ▸ hk'
  constructor
  · intro hk
    refine ⟨hheld k hk, ?_⟩
    rintro ⟨n, m, hn, hm, hkn, hts⟩
    classical
    -- the latest generation that is expired
    let L := (log.flatMap fun x => x.2.newKeys).filter fun n => decide (k.gen < n.gen ∧
      ∃ m, Got log m ∧ n.ts + 60 * 24 * 3600 * 1000 < m.ts)
    have hL : ∀ n, n ∈ L.toFinset ↔ Got log n ∧ k.gen < n.gen ∧ ∃ m, Got log m ∧ n.ts + 60 * 24 * 3600 * 1000 < m.ts := by
      intro n
      simp only [List.mem_toFinset, L, List.mem_filter, decide_eq_true_eq]
      refine and_congr ?_ Iff.rfl
      simp only [Got, Delivered, List.mem_flatMap, Prod.exists]
    obtain ⟨n, hnL, hmax⟩ := Finset.exists_max_image L.toFinset (fun n => n.gen)
      ⟨n, (hL n).2 ⟨hn, hkn, m, hm, hts⟩⟩
    obtain ⟨hn, hkn, m, hm, hts⟩ := (hL n).1 hnL
    have hns : n ∈ s.keys := by
      rcases hkept n hn with h' | ⟨n2, m2, hn2, hm2, hlt, _, hts2⟩
      · exact hin n hn h'
      · have := hmax n2 ((hL n2).2 ⟨hn2, by omega, m2, hm2, hts2⟩)
        omega
    obtain ⟨x, hx⟩ := hm
    obtain ⟨last, hlast, hle⟩ := hi.top (sameTimes_oneTime hone) x m hx
    have hml : m.ts ≤ last.ts := by
      rcases lt_or_eq_of_le hle with hlt | rfl
      · rw [KeyInfo.lt_def] at hlt
        rcases hlt with hg | ⟨_, hh⟩
        · exact hord m last ⟨x, hx⟩ (hheld last (getLast_mem hlast)) hg
        · rcases hh with hh | ⟨hh, _⟩ <;> omega
      · exact le_refl _
    have hpr := h.pruned hP
    cases hks : s.keys with
    | nil => rw [hks] at hk; cases hk
    | cons f t =>
      unfold Pruned at hpr
      rw [hks] at hpr
      rw [pruned_cons] at hpr
      have hasc := hi.asc
      rw [hks] at hasc
      have hfk : f.gen ≤ k.gen := by
        rw [hks] at hk
        rcases List.mem_cons.1 hk with rfl | hk
        · exact le_refl _
        · exact KeyInfo.gen_le ((List.pairwise_cons.1 hasc).1 k hk).le
      have hnt : n ∈ t := by
        rw [hks] at hns
        rcases List.mem_cons.1 hns with rfl | hns
        · omega
        · exact hns
      -- the first key of the second generation
      cases hd : t.dropWhile (fun x => x.gen == f.gen) with
      | nil =>
        have := List.dropWhile_eq_nil_iff.1 hd n hnt
        simp only [beq_iff_eq] at this
        omega
      | cons n' r =>
        have hsuf := List.dropWhile_suffix (l := t) (fun x => x.gen == f.gen)
        rw [hd] at hsuf
        have hn't : n' ∈ t := hsuf.subset (List.mem_cons_self ..)
        have hle' : n' ≤ n := by
          have hnd : n ∈ t.dropWhile (fun x => x.gen == f.gen) := by
            have e := List.takeWhile_append_dropWhile (p := fun x : KeyInfo => x.gen == f.gen) (l := t)
            rw [← e] at hnt
            rcases List.mem_append.1 hnt with h' | h'
            · have := List.mem_takeWhile_imp h'
              simp only [beq_iff_eq] at this
              omega
            · exact h'
          rw [hd] at hnd
          rcases List.mem_cons.1 hnd with rfl | hnd
          · exact le_refl _
          · have hA : Asc (n' :: r) := (List.pairwise_cons.1 hasc).2.sublist hsuf.sublist
            exact ((List.pairwise_cons.1 hA).1 n hnd).le
        have hts' : n'.ts ≤ n.ts := by
          rcases lt_or_eq_of_le hle' with hlt | rfl
          · rw [KeyInfo.lt_def] at hlt
            rcases hlt with hg | ⟨_, hh⟩
            · exact hord n' n (hheld n' (by rw [hks]; exact List.mem_cons_of_mem _ hn't)) hn hg
            · rcases hh with hh | ⟨hh, _⟩ <;> omega
          · exact le_refl _
        refine hpr n' r hd ?_
        have hlt : lastTs (f :: t) = last.ts := by
          rw [← hks]; simp [lastTs, hlast]
        rw [hlt]
        unfold keyExpiry
        omega
  · rintro ⟨hg, hno⟩
    rcases hkept k hg with h' | ⟨n, m, hn, hm, h1, _, h2⟩
    · exact hin k hg h'
    · exact absurd ⟨n, m, hn, hm, h1, h2⟩ hno

/-- C65.  Two devices given the same keys hold the same keys and list them in the same order. -/
theorem keys_held_agree (hP : P.Good) {s t : GKeys} {log log' : List (Bytes × Found)} (h : KReach P s log)
    (h' : KReach P t log') (hone : SameTimes log) (hord : TimesInOrder log) (hsame : ∀ k, Got log k ↔ Got log' k) :
    s.keys = t.keys := by
  have hone' : SameTimes log' := fun k k' a b => hone k k' ((hsame k).2 a) ((hsame k').2 b)
  have hord' : TimesInOrder log' := fun k k' a b => hord k k' ((hsame k).2 a) ((hsame k').2 b)
  obtain ⟨hi, _⟩ := h.inv hP
  obtain ⟨hi', _⟩ := h'.inv hP
  refine List.Pairwise.eq_of_mem_iff hi.asc hi'.asc ?_
  intro k
  rw [keys_held_exactly hP h hone hord, keys_held_exactly hP h' hone' hord']
  simp only [hsame]

end Verif
