import Verif.Props.GroupState
import Verif.Props.GroupMsg
import Verif.Props.Recovery
import Verif.Props.Combine

/-!
# A rekey shuts out everyone it does not list (C132)

`Members::erase` followed by `Keys::rekey` (include/session/config/groups/members.hpp:361-389, src/config/groups/keys.cpp:244-414),
`Keys::key_supplement` (416-510) and `Keys::load_key_message` (907-1114).
-/

namespace Verif

section
variable {P : GPrims}

/-! ### What is in the messages -/

/-- The ciphertexts of `text` made for the members `ids`: each is sealed with a key shared between the group and one of them, and nothing
else is. -/
def SealedFor (P : GPrims) (sk : Bytes) (ids : List Bytes) (nonce text : Bytes) (cts : List Bytes) : Prop :=
  ∀ c, c ∈ cts ↔ ∃ sid ∈ ids, ∃ pk K, sessionIdPk sid = .ok pk ∧
    multiKey P.toMPrims (P.xsk sk) (P.pubOf (P.xsk sk)) pk true kMember = some K ∧ c = P.aead K nonce text

theorem sealedFor_entries {sk nonce text : Bytes} (hn : nonce.length = 24) {ids pks : List Bytes}
    (hp : sessionIdPks ids = .ok pks) : SealedFor P sk ids nonce text
      (entriesFor P.toMPrims nonce (P.xsk sk) (P.pubOf (P.xsk sk)) kMember (pks.map fun r => (text, r))) := by
  have htk : nonce.take 24 = nonce := List.take_of_length_le (by omega)
  intro c
  unfold entriesFor
  constructor
  · intro hc
    obtain ⟨x, hx, hxe⟩ := List.mem_filterMap.1 hc
    obtain ⟨r, hr, rfl⟩ := List.mem_map.1 hx
    obtain ⟨K, hK, rfl⟩ := Option.map_eq_some_iff.1 hxe
    obtain ⟨sid, hsid, hsp⟩ := ((sessionIdPks_mem hp).1 r).1 hr
    refine ⟨sid, hsid, r, K, hsp, hK, ?_⟩
    unfold multiSeal
    rw [htk]
  · rintro ⟨sid, hsid, pk, K, hsp, hK, rfl⟩
    refine List.mem_filterMap.2 ⟨(text, pk), List.mem_map.2 ⟨pk, ((sessionIdPks_mem hp).1 pk).2 ⟨sid, hsid, hsp⟩, rfl⟩, ?_⟩
    dsimp only
    rw [hK]
    show some (multiSeal P.toMPrims K nonce text) = _
    unfold multiSeal
    rw [htk]

/-- A rekey message: a nonce, the generation, the key sealed for the admins, and a list of ciphertexts of 48 bytes, a multiple of 75
of them: the key sealed for the members listed, then fillers. -/
structure IsRekey (P : GPrims) (sk : Bytes) (ids : List Bytes) (key : Bytes) (gen : Int) (msg nonce : Bytes) (cts fill : List Bytes) :
    Prop where
  nlen : nonce.length = 24
  sealed : SealedFor P sk ids nonce key cts
  len : ∀ c ∈ cts ++ fill, c.length = 48
  count : (cts ++ fill).length % 75 = 0
  bytes : msg = signedDict P sk [([35], .str nonce), ([71], .int gen), ([75], .str (P.aead (seedHash P sk kAdmin) nonce key)),
    ([107], .list ((cts ++ fill).map .str))]

/-- A supplement: a nonce, the admin's keys sealed for the members listed, the generation. -/
structure IsSupplement (P : GPrims) (sk : Bytes) (ids : List Bytes) (text : Bytes) (gen : Int) (msg nonce : Bytes) (cts : List Bytes) :
    Prop where
  nlen : nonce.length = 24
  sealed : SealedFor P sk ids nonce text cts
  len : ∀ c ∈ cts, 68 ≤ c.length
  bytes : msg = signedDict P sk [([35], .str nonce), ([43], .list (cts.map .str)), ([71], .int gen)]

theorem rekey_is (hP : P.Good) {s s' : GKeys} {e : GEnv} {sk : Bytes} (he : OwnKey P e sk) {ids : List Bytes} {msg : Bytes}
    (h : s.rekey P e ids = .ok (s', msg)) :
    ∃ gen pks, s.nextGen = .ok gen ∧ sessionIdPks ids = .ok pks ∧ s'.pendingKey.length = 32 ∧
      IsRekey P sk ids s'.pendingKey s'.pendingGen msg ((rekeyHash P sk ids gen).drop 32)
        (rekeyEntries P sk (P.pubOf (P.xsk sk)) (rekeyHash P sk ids gen) pks)
        (rekeyJunk P sk (rekeyHash P sk ids gen)
          (rekeyEntries P sk (P.pubOf (P.xsk sk)) (rekeyHash P sk ids gen) pks).length) := by
  obtain ⟨sk', gx, gen, pks, h1, h2, h3, h4, h5, h6⟩ := rekey_msg h
  obtain ⟨he1, he2⟩ := he
  rw [h1] at he1; cases he1
  have hgx : gx = P.pubOf (P.xsk sk) := by
    rw [he2, hP.xpkPub] at h2; exact (Option.some.inj h2).symm
  have hHl : (rekeyHash P sk ids gen).length = 56 := hP.hashLen _ _ _
  subst h5
  subst hgx
  refine ⟨gen, pks, h3, h4, by simp [hHl], ?_, ?_, ?_, ?_, h6⟩
  · simp [hHl]
  · exact sealedFor_entries (by simp [hHl]) h4
  · intro c hc
    rcases List.mem_append.1 hc with hc | hc
    · exact rekeyEntries_len hP hHl c hc
    · exact (rekeyJunk_spec hP sk _ _).2 c hc
  · rw [List.length_append]
    exact (rekeyJunk_spec hP sk _ _).1

/-- C132.  What a rekey puts into the message: the new key for the admins and for the members listed, and for nobody else. -/
theorem rekey_contents (hP : P.Good) {s s' : GKeys} {e : GEnv} {sk : Bytes} (he : OwnKey P e sk) {ids : List Bytes} {msg : Bytes}
    (h : s.rekey P e ids = .ok (s', msg)) :
    s'.pendingKey.length = 32 ∧ ∃ nonce cts fill, IsRekey P sk ids s'.pendingKey s'.pendingGen msg nonce cts fill := by
  obtain ⟨_, _, _, _, h5, h6⟩ := rekey_is hP he h
  exact ⟨h5, _, _, _, h6⟩

/-- C132.  What a supplement contains: the keys held, for the members listed, and for nobody else. -/
theorem supplement_contents (hP : P.Good) {s : GKeys} {log : List (Bytes × Found)} (hr : KReach P s log) {e : GEnv} {sk : Bytes}
    (he : OwnKey P e sk) {ids : List Bytes} {msg : Bytes} (h : s.supplement P e ids = .ok msg) :
    ∃ gen nonce cts, (∃ k ∈ s.keys, k.gen = gen) ∧ int64Ok gen = true ∧
      IsSupplement P sk ids (encV (.list (s.keys.map encKeyInfo))) gen msg nonce cts := by
  obtain ⟨hi, hrv⟩ := hr.inv hP
  obtain ⟨sk', gx, last, pks, nonce, cs, h1, h2, h3, h4, h5, h6, h7⟩ := supplement_msg h
  obtain ⟨he1, he2⟩ := he
  rw [h1] at he1; cases he1
  have hgx : gx = P.pubOf (P.xsk sk) := by
    rw [he2, hP.xpkPub] at h2; exact (Option.some.inj h2).symm
  have hnl : nonce.length = 24 := by rw [h5]; exact hP.hashLen _ _ _
  have hsl : SealedFor P sk ids nonce (encV (.list (s.keys.map encKeyInfo))) cs := by
    rw [h6, hgx]
    exact sealedFor_entries hnl h4
  refine ⟨last.gen, nonce, cs, ⟨last, getLast_mem h3, rfl⟩, KeyInfo.ok_gen (hrv.keys last (getLast_mem h3)), hnl, hsl, ?_, h7⟩
  intro c hc
  obtain ⟨_, _, _, K, _, _, rfl⟩ := (hsl c).1 hc
  rw [hP.m.aeadLen]
  cases hks : s.keys with
  | nil => rw [hks] at h3; cases h3
  | cons k t =>
    have := suppLen (t := t) (hrv.keys k (by rw [hks]; exact List.mem_cons_self ..))
    omega

/-! ### Who cannot read them -/

/-- What the device of a member can do with ciphertexts not made for it, and with the fillers: nothing.  (`K` is the key that the
device shares with the group; that it opens nothing sealed with another key is what the cipher is for.) -/
def Shut (P : GPrims) (u : GEnv) (sk : Bytes) (ids : List Bytes) (nonce text : Bytes) (fill : List Bytes) : Prop :=
  ∀ K, SharedKey P.toMPrims (P.xsk sk) (P.xsk u.userSk) kMember K →
    (∀ sid ∈ ids, ∀ pk K', sessionIdPk sid = .ok pk → pk ≠ P.pubOf (P.xsk u.userSk) →
      multiKey P.toMPrims (P.xsk sk) (P.pubOf (P.xsk sk)) pk true kMember = some K' →
      P.aeadOpen K nonce (P.aead K' nonce text) = none) ∧
    ∀ c ∈ fill, P.aeadOpen K nonce c = none

theorem firstOpen_shut (hP : P.Good) {K nonce : Bytes} (hn : nonce.length = 24) :
    ∀ {l : List Bytes}, (∀ c ∈ l, P.aeadOpen K nonce c = none) → firstOpen P.toMPrims K nonce l = none
  | [], _ => rfl
  | c :: t, h => by
    unfold firstOpen
    rw [multiOpen_eq hP.m, List.take_of_length_le (by omega), h c (List.mem_cons_self ..)]
    exact firstOpen_shut hP hn fun x hx => h x (List.mem_cons_of_mem _ hx)

theorem shut_none {u : GEnv} {sk : Bytes} {ids : List Bytes} {nonce text : Bytes} {cts fill : List Bytes}
    (hsl : SealedFor P sk ids nonce text cts) (hnot : ∀ sid ∈ ids, sessionIdPk sid ≠ .ok (P.pubOf (P.xsk u.userSk)))
    (hb : Shut P u sk ids nonce text fill) {K : Bytes} (hK : SharedKey P.toMPrims (P.xsk sk) (P.xsk u.userSk) kMember K) :
    ∀ c ∈ cts ++ fill, P.aeadOpen K nonce c = none := by
  intro c hc
  obtain ⟨b1, b2⟩ := hb K hK
  rcases List.mem_append.1 hc with hc | hc
  · obtain ⟨sid, hsid, pk, K', hpk, hK', rfl⟩ := (hsl c).1 hc
    refine b1 sid hsid pk K' hpk ?_ hK'
    rintro rfl
    exact hnot sid hsid hpk
  · exact b2 c hc

theorem memberKey_shared (hP : P.Good) {u : GEnv} {sk K : Bytes}
    (hK : SharedKey P.toMPrims (P.xsk sk) (P.xsk u.userSk) kMember K) : memberKey P u (P.pubOf (P.xsk sk)) = some K := by
  unfold memberKey
  rw [hP.xpkPub]
  exact multiKey_recv hP.m hK

/-- C132.  A member whose session id is not among those a rekey was made for finds no key in the message: it learns the generation and
nothing else. -/
theorem rekey_excludes (hP : P.Good) {sk : Bytes} {ids : List Bytes} {key : Bytes} {gen : Int} {msg nonce : Bytes}
    {cts fill : List Bytes} (hm : IsRekey P sk ids key gen msg nonce cts fill) (hkey : key.length = 32) (hg0 : 0 ≤ gen)
    (hg1 : int64Ok gen = true) {u : GEnv} (hu : u.groupPk = P.edPub sk) (hmem : u.groupSk = none)
    (hnot : ∀ sid ∈ ids, sessionIdPk sid ≠ .ok (P.pubOf (P.xsk u.userSk))) (hb : Shut P u sk ids nonce key fill)
    {ts : Int} (hts : tsOk ts = true) : parseKeyMsg P u msg ts = .ok ⟨[], some gen⟩ := by
  have hx : P.xpk u.groupPk = some (P.pubOf (P.xsk sk)) := by rw [hu, hP.xpkPub]
  obtain ⟨K, hK⟩ := sharedKey_exists hP.m (P.xsk sk) (P.xsk u.userSk) kMember
  rw [hm.bytes, parseKeyMsg_full hP hu hx hts hg0 hg1]
  have hl : loadFull P u (P.pubOf (P.xsk sk)) nonce (P.aead (seedHash P sk kAdmin) nonce key) (cts ++ fill) = .ok none := by
    unfold loadFull
    rw [if_neg (by have := hm.nlen; omega), if_neg (by rw [hP.m.aeadLen, hkey]; simp), if_neg ?h1, if_neg (by have := hm.count; omega), hmem]
    · dsimp only
      rw [memberKey_shared hP hK]
      dsimp only
      rw [firstOpen_shut hP hm.nlen (shut_none hm.sealed hnot hb hK)]
    case h1 =>
      simp only [List.any_eq_true, not_exists, not_and]
      intro c hc
      simp [hm.len c hc]
  rw [hl]
  rfl

/-- C132.  Likewise a supplement: a member it was not made for finds no keys. -/
theorem supplement_excludes (hP : P.Good) {sk : Bytes} {ids : List Bytes} {text : Bytes} {gen : Int} {msg nonce : Bytes}
    {cts : List Bytes} (hm : IsSupplement P sk ids text gen msg nonce cts) (hg1 : int64Ok gen = true) {u : GEnv}
    (hu : u.groupPk = P.edPub sk) (hmem : u.groupSk = none)
    (hnot : ∀ sid ∈ ids, sessionIdPk sid ≠ .ok (P.pubOf (P.xsk u.userSk))) (hb : Shut P u sk ids nonce text []) (ts : Int) :
    parseKeyMsg P u msg ts = .ok ⟨[], some gen⟩ := by
  have hx : P.xpk u.groupPk = some (P.pubOf (P.xsk sk)) := by rw [hu, hP.xpkPub]
  obtain ⟨K, hK⟩ := sharedKey_exists hP.m (P.xsk sk) (P.xsk u.userSk) kMember
  rw [hm.bytes, parseKeyMsg_supp hP hu hx hg1]
  have hl : loadSupp P u (P.pubOf (P.xsk sk)) nonce cts = .ok [] := by
    unfold loadSupp
    rw [if_neg (by have := hm.nlen; omega), if_neg ?h1, if_neg (by simp [GEnv.admin, hmem]), memberKey_shared hP hK]
    · dsimp only
      rw [firstOpen_shut hP hm.nlen (fun c hc => shut_none hm.sealed hnot hb hK c (by simpa using hc))]
    case h1 =>
      simp only [List.any_eq_true, not_exists, not_and]
      intro c hc
      have := hm.len c hc
      simp; omega
  rw [hl]
  rfl

end

/-! ### Merging what one cannot read -/

/-- C132.  A merge of messages none of which can be read or unpacked returns no hashes, or throws, and the object is as it was. -/
theorem merge_unreadable {S : Sys} (hS : S.Good) {c : Client} (hc : Reach S c) {configs : List (Bytes × Bytes)}
    (hn : ∀ p ∈ configs, receive S c.keys p.2 = none) (hov : int64Ok (c.seqno + S.env.lag) = true) :
    ((c.merge S configs).2 = .ok [] ∨ ∃ e, (c.merge S configs).2 = .err e) ∧
    ((c.merge S configs).1.conf = c.conf ∨ (c.merge S configs).1.conf = c.conf.refresh) ∧
    (c.merge S configs).1.content = c.content ∧ (c.merge S configs).1.seqno = c.seqno ∧ (c.merge S configs).1.st = c.st ∧
    (c.merge S configs).1.keys = c.keys ∧ (c.merge S configs).1.curr = c.curr := by
  have hinv := hc.inv hS
  by_cases hmine : c.hasMine = true
  · by_cases hk : c.keys = []
    · have : c.merge S configs = (c, .err .foreign) := by unfold Client.merge; rw [if_pos hk]
      rw [this]
      exact ⟨.inr ⟨_, rfl⟩, .inl rfl, rfl, rfl, rfl, rfl, rfl⟩
    have hg : gather S c.keys configs = [] := by
      unfold gather
      rw [List.filterMap_eq_nil_iff]
      intro p hp
      rw [hn p hp]; rfl
    have hp := hinv.parse_own hS hmine
    have hval : validOf S.env ((c.allConfs S.env []).map (·.2)) = [c.ownMsg S] := by
      rw [hinv.valid_all hS, hmine]
      simp [validOf]
    have hall : ∀ x ∈ (c.allConfs S.env []).map (·.2), x = c.plain S := by
      intro x hx
      unfold Client.allConfs at hx
      rw [hmine] at hx
      simp only [if_true, List.append_nil, List.map_cons, List.map_nil, List.mem_cons, List.not_mem_nil, or_false] at hx
      exact hx
    have hncol : NoCollision S.env ((c.allConfs S.env []).map (·.2)) := fun a ha b hb _ => by
      rw [hall a ha, hall b hb]
    have hmem : ∀ x ∈ validOf S.env ((c.allConfs S.env []).map (·.2)), x = c.ownMsg S := by
      intro x hx
      rw [hval] at hx
      simpa using hx
    obtain ⟨top, ht, hmax, hcase⟩ := mergeParsed_cases hS.lag1 (by rw [hval]; simp) (goodBatch_of hncol) (fun x hx => by
      rw [hmem x hx, ownMsg_seqno]; exact hov)
    have htop := hmem top ht
    rcases hcase with ⟨_, i, hi, hres⟩ | ⟨⟨_, x, hx, hne⟩, _⟩
    · obtain ⟨bad, hR⟩ := mergeMsgs_ok_iff.2 ⟨fun x hx => .inl ⟨c.ownMsg S, by rw [hall x hx]; exact hp⟩, hres⟩
      have hmm : c.merge S configs = c.absorb S (c.allConfs S.env []) { top with unmerged := (i : Int) } bad := by
        unfold Client.merge
        rw [if_neg hk, hg]
        unfold Client.mergeCore
        dsimp only
        rw [hR]
      obtain ⟨a1, a2⟩ := absorb_cases hS hinv (inc := []) (by simp) hncol hR
      have hno : (c.absorb S (c.allConfs S.env []) { top with unmerged := (i : Int) } bad).1 =
          c.noted (c.allConfs S.env []) { top with unmerged := (i : Int) } bad := by
        rcases a2 with a | ⟨a, _⟩ | ⟨top', i', x, y, a, _, _, _, hown, _⟩
        · exact a
        · have : (i : Int) = -1 := a
          omega
        · exact absurd (hmem top' (List.mem_of_getElem? a)) (hown hmine)
      rw [hmm, hno]
      have hcf : (c.noted (c.allConfs S.env []) { top with unmerged := (i : Int) } bad).conf = c.conf.refresh := by
        unfold Client.noted
        dsimp only
        rw [if_pos hmine]
      refine ⟨.inl ?_, .inr hcf, ?_, ?_, rfl, rfl, rfl⟩
      · rw [a1, goodHashes_eq hR]; rfl
      · unfold Client.content
        rw [hcf, pruneD_of_wf (refresh_data_wf hinv.wf), refresh_data_eq hinv.wf]
      · unfold Client.seqno
        rw [hcf, refresh_seqno]
    · exact absurd ((hmem x hx.1).trans htop.symm) hne
  · have h0 : c.hasMine = false := by simpa using hmine
    rcases nothing_usable_throws h0 hn with e | e <;> rw [e] <;> exact ⟨.inr ⟨_, rfl⟩, .inl rfl, rfl, rfl, rfl, rfl, rfl⟩

/-! ### The group -/

theorem receive_shut {S : Sys} (hp : S.proto = none) {m : Bytes} : ∀ {keys : List Bytes},
    (∀ k ∈ keys, ∀ x, decrypt S.P m k S.domain ≠ .ok x) → receive S keys m = none := by
  intro keys h
  have ho : openWith S keys m = none := by
    induction keys with
    | nil => rfl
    | cons k t ih =>
      unfold openWith
      cases hd : decrypt S.P m k S.domain with
      | ok x => exact absurd hd (h k (List.mem_cons_self ..) x)
      | _ => exact ih fun k' hk' => h k' (List.mem_cons_of_mem _ hk')
  have hu : unwrapOne S keys m = m := by unfold unwrapOne; rw [hp]
  unfold receive
  rw [hu, ho]
  rfl

theorem openWithAny_shut {U : UPrims} {nonce ct : Bytes} : ∀ {l : List Bytes}, (∀ k ∈ l, U.aeadOpen k nonce ct = none) →
    openWithAny U nonce ct l = none
  | [], _ => rfl
  | k :: t, h => by
    unfold openWithAny
    rw [h k (List.mem_cons_self ..)]
    exact openWithAny_shut fun k' hk' => h k' (List.mem_cons_of_mem _ hk')

/-- C132.  A member erased from `Members` before a rekey - so that `Members::get` does not find it on the admin's device -: the message
is made for the others and for the admins, and if its device can do nothing with what was not made for it, loading the message brings
no key.  The keys it decrypts with, the key it encrypts with, and its `Info` and `Members` are as before. -/
theorem removed_member_shut_out {G D : GroupSys} (hG : G.Good) (hD : D.Good) {si sm : Option (Bytes → Bytes)}
    (hGD : SameGroup G D si sm) {sk : Bytes} (hown : OwnKey G.P G.e sk)
    {g g' : GState} {log : List (Bytes × Found)} (hg : GReach G g log) {msg : Bytes} (hr : g.rekey G = (g', .ok msg))
    (hgen : ∀ k, Got log k → 0 ≤ k.gen) {t : GState} {log' : List (Bytes × Found)} (ht : GReach D t log')
    (hmem : D.e.groupSk = none) (hgone : ∀ x, g.members.getMember (D.e.sessionId D.P) ≠ .ok (some x)) :
    ∃ ms, g.members.members = .ok ms ∧
      (∃ nonce cts fill, IsRekey G.P sk (ms.map GMember.id) g'.keys.pendingKey g'.keys.pendingGen msg nonce cts fill) ∧
      (∀ nonce cts fill, IsRekey G.P sk (ms.map GMember.id) g'.keys.pendingKey g'.keys.pendingGen msg nonce cts fill →
        Shut G.P D.e sk (ms.map GMember.id) nonce g'.keys.pendingKey fill → ∀ (hash : Bytes) (ts : Int), tsOk ts = true →
        ∃ t', t.load D hash msg ts = (t', .ok false) ∧ (∃ f, GReach D t' (log' ++ [(hash, f)])) ∧
          t'.keys.groupKeys = t.keys.groupKeys ∧ t'.keys.groupEncKey = t.keys.groupEncKey ∧
          t'.info = t.info ∧ t'.members = t.members) := by
  have hi := hg.inv hG
  have hti := ht.inv hD
  have hs : (g.rekey G).2.safe = true := by rw [hr]; rfl
  rcases hi.rekey_ok hG hs with ⟨_, x, hx⟩ | ⟨ms, k, msg', h1, h2, h3, h4, _⟩
  · rw [hr] at hx; cases hx
  rw [hr] at h3 h4
  cases h3
  have h4 : g'.keys = k := h4
  subst h4
  obtain ⟨hkl, hex⟩ := rekey_contents hG.p hown h2
  refine ⟨ms, h1, hex, fun nonce cts fill hm hb hash ts hts => ?_⟩
  have hkeys : ∀ k ∈ g.keys.keys, 0 ≤ k.gen ∧ int64Ok k.gen = true := by
    intro k hk
    exact ⟨hgen k ((keys_held hG.p hi.k).1 k hk), KeyInfo.ok_gen ((hi.k.inv hG.p).2.keys k hk)⟩
  have hgg : 0 ≤ g'.keys.pendingGen ∧ int64Ok g'.keys.pendingGen = true := by
    obtain ⟨_, _, gen, _, _, _, n3, _, n5, _⟩ := rekey_msg h2
    rw [n5]
    exact nextGen_ok hkeys n3
  have hnot : ∀ sid ∈ ms.map GMember.id, sessionIdPk sid ≠ .ok (G.P.pubOf (G.P.xsk D.e.userSk)) := by
    intro sid hsid hpk
    obtain ⟨x, hx, rfl⟩ := List.mem_map.1 hsid
    obtain ⟨i1, _⟩ := gmember_iter hG.m hi.m
    obtain ⟨i1, _⟩ := i1 ms h1
    obtain ⟨l1, l2⟩ := (i1 x).1 hx
    refine hgone x ?_
    have hid : D.e.sessionId D.P = x.id := by
      unfold sessionIdPk at hpk
      obtain ⟨b, hb, hb'⟩ := Out.bind_eq_ok.1 hpk
      have hh := idBytes_head05 hb
      have e5 : b = 5 :: G.P.pubOf (G.P.xsk D.e.userSk) := by
        cases b with
        | nil => cases hh
        | cons a t =>
          have h1 : a = 5 := by simpa using hh
          have h2 : t = G.P.pubOf (G.P.xsk D.e.userSk) := by simpa using Out.ok.inj hb'
          rw [h1, h2]
      obtain ⟨hf, hx1, _⟩ := idBytes_ok hb
      have := toHex_fromHex x.id hx1
      rw [l1, ← hf, e5] at this
      unfold GEnv.sessionId
      rw [hGD.p]
      exact this
    rw [hid]
    exact l2
  have hparse : parseKeyMsg D.P D.e msg ts = .ok ⟨[], some g'.keys.pendingGen⟩ := by
    rw [hGD.p]
    exact rekey_excludes hG.p hm hkl hgg.1 hgg.2 (hGD.pk.trans hown.2) hmem hnot hb hts
  have hl : ∃ k', t.keys.load D.P D.e hash msg ts = .ok (k', false) := by
    unfold GKeys.load
    rw [hparse]
    exact ⟨_, rfl⟩
  obtain ⟨k', hl⟩ := hl
  have hld : t.load D hash msg ts = ({ t with keys := k' }, .ok false) := by
    unfold GState.load
    rw [hl]
  obtain ⟨e1, e2⟩ := load_groupKeys hD.p hti.k hl
  refine ⟨{ t with keys := k' }, hld, ⟨⟨[], some g'.keys.pendingGen⟩, ?_⟩, e1, ?_, rfl, rfl⟩
  · have := GReach.load (hash := hash) ht hparse (by rw [hld]; rfl)
    rw [hld] at this
    exact this
  · cases ho : t.keys.groupEncKey with
    | ok x => rw [encKey_head] at ho ⊢; rw [e1]; exact ho
    | err x =>
      have hp : k'.pendingConfig = [] := member_no_pending hD hmem
        (g := { t with keys := k' }) (by
          have := GReach.load (hash := hash) ht hparse (by rw [hld]; rfl)
          rw [hld] at this
          exact this)
      unfold GKeys.groupEncKey at ho ⊢
      rw [if_neg (by simp [hp]), e2]
      rw [if_neg (by simp [member_no_pending hD hmem ht])] at ho
      exact ho
    | hang =>
      unfold GKeys.groupEncKey at ho
      split at ho
      · cases ho
      · split at ho <;> cases ho
    | ub =>
      unfold GKeys.groupEncKey at ho
      split at ho
      · cases ho
      · split at ho <;> cases ho

/-- C132.  And a device none of whose keys opens what is published afterwards sees nothing of it: the group's description and its members
are unchanged by a merge of that, and a message of the group is not decrypted. -/
theorem without_the_key {D : GroupSys} (hD : D.Good) {U : UPrims} {t : GState} {log : List (Bytes × Found)}
    (ht : GReach D t log) :
    (∀ h m, (∀ k ∈ t.keys.groupKeys, ∀ x, decrypt D.SI.P m k D.SI.domain ≠ .ok x) → int64Ok (t.info.seqno + D.SI.env.lag) = true →
      ((t.info.merge D.SI [(h, m)]).2 = .ok [] ∨ ∃ e, (t.info.merge D.SI [(h, m)]).2 = .err e) ∧
      (t.info.merge D.SI [(h, m)]).1.ginfo = t.info.ginfo ∧ (t.info.merge D.SI [(h, m)]).1.content = t.info.content) ∧
    (∀ h m, (∀ k ∈ t.keys.groupKeys, ∀ x, decrypt D.SM.P m k D.SM.domain ≠ .ok x) → int64Ok (t.members.seqno + D.SM.env.lag) = true →
      ((t.members.merge D.SM [(h, m)]).2 = .ok [] ∨ ∃ e, (t.members.merge D.SM [(h, m)]).2 = .err e) ∧
      (t.members.merge D.SM [(h, m)]).1.content = t.members.content) ∧
    (∀ ct, (∀ k ∈ t.keys.groupKeys, U.aeadOpen k (ct.take 24) (ct.drop 24) = none) → t.keys.decryptMessage U ct = .err .foreign) := by
  have hti := ht.inv hD
  obtain ⟨a1, _, _, a4, _⟩ := group_keys_in_step hD ht
  refine ⟨fun h m hk hov => ?_, fun h m hk hov => ?_, fun ct hk => ?_⟩
  · obtain ⟨r1, r2, r3, _⟩ := merge_unreadable hD.i hti.i (configs := [(h, m)]) (by
      intro p hp
      cases List.mem_singleton.1 hp
      exact receive_shut hD.protoI fun k hk' => hk k ((a4 k).1 hk')) hov
    refine ⟨r1, ?_, r3⟩
    rcases r2 with e | e
    · unfold Client.ginfo Client.infoName Client.infoDescr Client.infoPic Client.infoExpiry Client.infoCreated
        Client.infoDeleteBefore Client.infoDeleteAttach Client.infoDestroyed Client.getPic Client.strAt Client.intAt
        Client.get
      rw [e]
    · refine ginfo_of_pruned (hti.i.inv hD.i).wf.data ?_
      rw [e, refresh_data_eq (hti.i.inv hD.i).wf]
  · obtain ⟨r1, r2, r3, _⟩ := merge_unreadable hD.m hti.m (configs := [(h, m)]) (by
      intro p hp
      cases List.mem_singleton.1 hp
      refine receive_shut hD.protoM fun k hk' => hk k ((a4 k).1 ?_)
      rw [a1]; exact hk') hov
    exact ⟨r1, r3⟩
  · unfold GKeys.decryptMessage
    split
    · rfl
    · rw [openWithAny_shut fun k hk' => hk k (tryKeys_mem.1 hk')]

/-! ### A concrete case -/

/-- Example primitives whose tag depends on the key -/
def toyPrimsK : Prims where
  kdf := fun x => (x ++ List.replicate 32 0).take 32
  nonceOf := fun _ _ => List.replicate 24 7
  aead := fun k _ m => m ++ List.replicate 16 (k.headD 0)
  aeadOpen := fun k _ c =>
    if c.drop (c.length - 16) = List.replicate 16 (k.headD 0) ∧ 16 ≤ c.length then some (c.take (c.length - 16))
    else none

theorem toyPrimsK_good : toyPrimsK.Good where
  nonceLen := fun _ _ => by simp [toyPrimsK]
  aeadLen := fun _ _ _ => by simp [toyPrimsK]
  openSeal := fun _ _ m => by
    simp only [toyPrimsK, List.length_append, List.length_replicate, Nat.add_sub_cancel,
      List.drop_left, List.take_left]
    simp
  sealOpen := fun _ _ c m h => by
    simp only [toyPrimsK] at h ⊢
    split at h
    · rename_i hc
      cases h
      rw [← hc.1, List.take_append_drop]
    · cases h

def exSysP : Sys := { exSys with P := toyPrimsK }
def exSysPR : Sys := { exSysRO with P := toyPrimsK }

theorem exSysP_good : exSysP.Good :=
  ⟨exEnvH_sane, by decide, by decide, toyPrimsK_good, by decide, fun _ => rfl, exSys_good.sig, fun w u h => by cases h⟩
theorem exSysPR_good : exSysPR.Good :=
  ⟨exSysRO_good.sane, by decide, by decide, toyPrimsK_good, by decide, fun _ => rfl, exSysRO_good.sig, fun w u h => by cases h⟩

def gpG : GroupSys := ⟨toyG, gAdmin, exSysP, exSysP⟩
def gpD : GroupSys := ⟨toyG, gMem1, exSysPR, exSysPR⟩
theorem gpG_good : gpG.Good := ⟨toyG_good, exSysP_good, exSysP_good, rfl, rfl⟩
theorem gpD_good : gpD.Good := ⟨toyG_good, exSysPR_good, exSysPR_good, rfl, rfl⟩
theorem gpGD : SameGroup gpG gpD none none := ⟨rfl, rfl, rfl, rfl⟩

/-- The admin's device: two members, a rekey, then the first is erased, and another rekey -/
def gp1 : GState := { GState.new gpG with members := (((GState.new gpG).members.setMember exSysP gm1).1.setMember exSysP gm2).1 }
def gp2 : GState := (gp1.rekey gpG).1
def gpMsg : Bytes := match (gp1.rekey gpG).2 with | .ok m => m | _ => []
def gp3 : GState := (gp2.load gpG [1] gpMsg 1000).1
def gp4m : Client := (gp3.members.eraseGMember exSysP gm1.id).1
def gp4 : GState := { gp3 with members := gp4m }
def gp5 : GState := (gp4.rekey gpG).1
def gpMsg2 : Bytes := match (gp4.rekey gpG).2 with | .ok m => m | _ => []
/-- The device of the first member: it loads both -/
def gq1 : GState := ((GState.new gpD).load gpD [1] gpMsg 1000).1
def gq2 : GState := (gq1.load gpD [9] gpMsg2 2000).1

example : gp4.members.members = .ok [gm2] ∧ (gq1.load gpD [9] gpMsg2 2000).2 = .ok false ∧ gq2.keys.groupKeys = gq1.keys.groupKeys ∧
    gp5.keys.pendingGen = 1 ∧ gp5.keys.pendingKey ∉ gq2.keys.groupKeys ∧ gq2.keys.groupKeys.length = 1 := by decide +kernel

theorem gp1_reach : GReach gpG gp1 [] := by
  have h0 : GReach gpG (GState.new gpG) [] := .new
  have a1 : (GState.new gpG).members.setMember exSysP gm1 = (((GState.new gpG).members.setMember exSysP gm1).1, .ok ()) :=
    pair_ok (by decide +kernel)
  have a2 : ((GState.new gpG).members.setMember exSysP gm1).1.setMember exSysP gm2 = (gp1.members, .ok ()) :=
    pair_ok (by decide +kernel)
  have hm1 : Reach exSysP (GState.new gpG).members := .new
  have e1 := setRec_edits exSysP_good hm1 (fun _ => gmember_fields_wf (m := gm1) (by decide)) a1
  have hm2 := (gmember_set_get exSysP_good hm1 (m := gm1) (by decide) a1).1
  have e2 := setRec_edits exSysP_good hm2 (fun _ => gmember_fields_wf (m := gm2) (by decide)) a2
  exact h0.editMembers (e1.trans e2)

theorem gp2_reach : GReach gpG gp2 [] := .rekey gp1_reach (by decide +kernel)

theorem parse_ok_of {P : GPrims} {e : GEnv} {data : Bytes} {ts : Int} (h : (parseKeyMsg P e data ts).isOk = true) :
    ∃ f, parseKeyMsg P e data ts = .ok f := by
  cases hp : parseKeyMsg P e data ts with
  | ok f => exact ⟨f, rfl⟩
  | err _ => rw [hp] at h; cases h
  | hang => rw [hp] at h; cases h
  | ub => rw [hp] at h; cases h

theorem gp3_reach : ∃ f, GReach gpG gp3 [([1], f)] ∧ parseKeyMsg toyG gAdmin gpMsg 1000 = .ok f := by
  obtain ⟨f, hf⟩ := parse_ok_of (P := toyG) (e := gAdmin) (data := gpMsg) (ts := 1000) (by decide +kernel)
  exact ⟨f, .load gp2_reach hf (by decide +kernel), hf⟩

theorem pair_is {α β : Type} {p : α × β} {b : β} (h : p.2 = b) : p = (p.1, b) := by
  cases p; cases h; rfl

theorem eraseGMember_edits {S : Sys} (hS : S.Good) {c c' : Client} (hr : Reach S c) {id : Bytes} {b : Bool}
    (h : c.eraseGMember S id = (c', .ok b)) : Edits S c c' := by
  have h' : dropBool (c.eraseRec S [[109]] pre05 id) = (c', .ok ()) := by
    unfold Client.eraseGMember at h
    rw [show ([[109]] : List Bytes) = pathM from rfl, h]
    rfl
  obtain ⟨_, _, ho⟩ := eraseRec_op hS hr (by decide) h'
  exact ho.edits

theorem gp4_reach : ∃ f, GReach gpG gp4 [([1], f)] ∧ parseKeyMsg toyG gAdmin gpMsg 1000 = .ok f := by
  obtain ⟨f, h, hf⟩ := gp3_reach
  refine ⟨f, ?_, hf⟩
  have hm : Reach exSysP gp3.members := (h.inv gpG_good).m
  have he : gp3.members.eraseGMember exSysP gm1.id = (gp4m, .ok true) :=
    pair_is (by decide +kernel)
  exact h.editMembers (eraseGMember_edits exSysP_good hm he)

theorem gq1_reach : ∃ f, GReach gpD gq1 [([1], f)] := by
  obtain ⟨f, hf⟩ := parse_ok_of (P := toyG) (e := gMem1) (data := gpMsg) (ts := 1000) (by decide +kernel)
  exact ⟨f, .load .new hf (by decide +kernel)⟩

/-- The message key of the first member -/
def gpK : Bytes := match multiKey toyG.toMPrims (toyG.xsk gSk) (toyG.pubOf (toyG.xsk gSk)) (toyG.pubOf (toyG.xsk gU1)) true kMember with
  | some k => k
  | none => []

/-- The message key of the second member -/
def gpK2 : Bytes := match multiKey toyG.toMPrims (toyG.xsk gSk) (toyG.pubOf (toyG.xsk gSk)) (toyG.pubOf (toyG.xsk gU2)) true kMember with
  | some k => k
  | none => []

theorem gpK_eq {K : Bytes} (h : SharedKey toyG.toMPrims (toyG.xsk gSk) (toyG.xsk gU1) kMember K) : K = gpK := by
  unfold gpK
  rw [show multiKey toyG.toMPrims (toyG.xsk gSk) (toyG.pubOf (toyG.xsk gSk)) (toyG.pubOf (toyG.xsk gU1)) true kMember = some K from
    multiKey_send h]

/-- C132 where one member stays: what is to be checked of a concrete case. -/
theorem shut_out_one {G D : GroupSys} (hG : G.Good) (hD : D.Good) {si sm : Option (Bytes → Bytes)}
    (hGD : SameGroup G D si sm) {sk : Bytes} (hown : OwnKey G.P G.e sk)
    {g g' : GState} {hash0 : Bytes} {f : Found} (hg : GReach G g [(hash0, f)]) {msg : Bytes} (hr : g.rekey G = (g', .ok msg))
    (hfk : f.newKeys.all (fun k => decide (0 ≤ k.gen)) = true) {t : GState} {log' : List (Bytes × Found)} (ht : GReach D t log')
    (hmem : D.e.groupSk = none) {m2 : GMember} {pk K K' : Bytes} {gen : Int}
    (hn : g.members.getMember (D.e.sessionId D.P) = .ok none)
    (hms : g.members.members = .ok [m2]) (hgn : g.keys.nextGen = .ok gen) (hpk : sessionIdPk m2.id = .ok pk)
    (hK : ∀ K0, SharedKey G.P.toMPrims (G.P.xsk sk) (G.P.xsk D.e.userSk) kMember K0 → K0 = K)
    (hK' : multiKey G.P.toMPrims (G.P.xsk sk) (G.P.pubOf (G.P.xsk sk)) pk true kMember = some K')
    (h1 : G.P.aeadOpen K ((rekeyHash G.P sk [m2.id] gen).drop 32)
      (G.P.aead K' ((rekeyHash G.P sk [m2.id] gen).drop 32) g'.keys.pendingKey) = none)
    (h2 : (rekeyJunk G.P sk (rekeyHash G.P sk [m2.id] gen)
      (rekeyEntries G.P sk (G.P.pubOf (G.P.xsk sk)) (rekeyHash G.P sk [m2.id] gen) [pk]).length).all
        (fun c => (G.P.aeadOpen K ((rekeyHash G.P sk [m2.id] gen).drop 32) c).isNone) = true)
    (hash : Bytes) {ts : Int} (hts : tsOk ts = true) :
    ∃ t', t.load D hash msg ts = (t', .ok false) ∧ t'.keys.groupKeys = t.keys.groupKeys ∧ t'.members = t.members := by
  obtain ⟨ms, m1, _, m3⟩ := removed_member_shut_out hG hD hGD hown hg hr (by
    rintro k ⟨h, f1, h1, h2⟩
    cases List.mem_singleton.1 h1
    have := List.all_eq_true.1 hfk k h2
    simpa using this) ht hmem (by
    intro x hx
    rw [hn] at hx
    cases hx)
  rw [hms] at m1
  cases m1
  have hs : (g.rekey G).2.safe = true := by rw [hr]; rfl
  rcases (hg.inv hG).rekey_ok hG hs with ⟨_, x, hx⟩ | ⟨ms, k, msg', a1, a2, a3, a4, _⟩
  · rw [hr] at hx; cases hx
  rw [hms] at a1
  cases a1
  rw [hr] at a3 a4
  cases a3
  have a4 : g'.keys = k := a4
  subst a4
  obtain ⟨gen', pks, n1, n2, _, n4⟩ := rekey_is hG.p hown a2
  rw [hgn] at n1
  cases n1
  have n2' : sessionIdPks [m2.id] = .ok pks := n2
  unfold sessionIdPks sessionIdPks at n2'
  rw [hpk] at n2'
  cases n2'
  obtain ⟨t', t1, _, t3, _, _, t6⟩ := m3 _ _ _ n4 (by
    intro K0 hK0
    rw [hK K0 hK0]
    constructor
    · intro sid hsid pk' K1 b1 b2 b3
      cases List.mem_singleton.1 hsid
      rw [hpk] at b1
      cases b1
      rw [hK'] at b3
      cases b3
      exact h1
    · intro c hc
      exact Option.isNone_iff_eq_none.1 (List.all_eq_true.1 h2 c hc)) hash ts hts
  exact ⟨t', t1, t3, t6⟩

/-- C132 applied to it: the member is shut out. -/
example : ∃ t', gq1.load gpD [9] gpMsg2 2000 = (t', .ok false) ∧ t'.keys.groupKeys = gq1.keys.groupKeys ∧ t'.members = gq1.members := by
  obtain ⟨f, h4, hf⟩ := gp4_reach
  obtain ⟨f', hq⟩ := gq1_reach
  have hr : gp4.rekey gpG = (gp5, .ok gpMsg2) := pair_is (by decide +kernel)
  have hfk : (parseKeyMsg toyG gAdmin gpMsg 1000).toOption.map (fun f => f.newKeys.all fun k => decide (0 ≤ k.gen)) = some true := by
    decide +kernel
  rw [hf] at hfk
  have hk' : (multiKey toyG.toMPrims (toyG.xsk gSk) (toyG.pubOf (toyG.xsk gSk)) (toyG.pubOf (toyG.xsk gU2)) true kMember) = some gpK2 := by
    decide +kernel
  exact shut_out_one gpG_good gpD_good gpGD gAdmin_own h4 hr (Option.some.inj hfk) hq rfl
    (m2 := gm2) (pk := toyG.pubOf (toyG.xsk gU2)) (K := gpK) (K' := gpK2) (gen := 1)
    (by decide +kernel) (by decide +kernel) (by decide +kernel) (by decide +kernel) (fun K0 h => gpK_eq h) hk'
    (by decide +kernel) (by decide +kernel) [9] (by decide +kernel)

theorem gq2_reach : ∃ log, GReach gpD gq2 log := by
  obtain ⟨f, hq⟩ := gq1_reach
  obtain ⟨f', hf⟩ := parse_ok_of (P := toyG) (e := gMem1) (data := gpMsg2) (ts := 2000) (by decide +kernel)
  exact ⟨_, .load hq hf (by decide +kernel)⟩

/-- … and sees nothing of the list of members pushed afterwards, which those who hold the key read. -/
example : (gq2.members.merge exSysPR [([2], pushedBy exSysP gp5.members)]).1.content = gq2.members.content ∧
    (∃ x, decrypt toyPrimsK (pushedBy exSysP gp5.members) gp5.keys.pendingKey [85] = .ok x) := by
  obtain ⟨log, h⟩ := gq2_reach
  refine ⟨((without_the_key gpD_good (U := toyU) h).2.1 [2] (pushedBy exSysP gp5.members) ?_ (by decide +kernel)).2, ?_⟩
  · have : gq2.keys.groupKeys.all (fun k => match decrypt exSysPR.P (pushedBy exSysP gp5.members) k exSysPR.domain with
        | .ok _ => false | _ => true) = true := by decide +kernel
    intro k hk x hx
    have := List.all_eq_true.1 this k hk
    have hx' : decrypt exSysPR.P (pushedBy exSysP gp5.members) k exSysPR.domain = .ok x := hx
    rw [hx'] at this
    cases this
  · have : (match decrypt toyPrimsK (pushedBy exSysP gp5.members) gp5.keys.pendingKey [85] with | .ok _ => true | _ => false) = true := by
      decide +kernel
    cases hd : decrypt toyPrimsK (pushedBy exSysP gp5.members) gp5.keys.pendingKey [85] with
    | ok x => exact ⟨x, rfl⟩
    | decryptError => rw [hd] at this; cases this
    | invalidArgument => rw [hd] at this; cases this

end Verif
