import Verif.CommObj
import Verif.Props.CComm
import Verif.Props.Encodings

/-!
# `community` objects
-/

namespace Verif

/-- What is always true of a `community`: the URL and the room are canonical, and `room()` is a spelling of the room -/
structure CommObj.Ok (o : CommObj) : Prop where
  base : canonUrl o.base = .ok o.base
  room : canonRoom o.room = .ok o.room
  shown : canonRoom o.shown = .ok o.room

theorem b32zChar_lower : ∀ n, n < 32 → lowerC (b32zChar n) = b32zChar n := by decide +kernel

theorem parseFull_canon {K : Codecs} {u b r k : Bytes} (h : K.parseFull u = .ok (b, r, k)) : canonUrl b = .ok b := by
  unfold Codecs.parseFull at h
  obtain ⟨x, hx, h⟩ := Out.bind_eq_ok.1 h
  unfold Codecs.parsePartial at hx
  obtain ⟨y, hy, hx⟩ := Out.bind_eq_ok.1 hx
  obtain ⟨z, hz, hx⟩ := Out.bind_eq_ok.1 hx
  cases hx
  dsimp only at h
  split at h
  · cases h; exact canonical_url_idem _ _ hz
  · cases h

theorem setBaseUrl_ok {o : CommObj} (h : o.Ok) (u : Bytes) : (o.setBaseUrl u).1.Ok := by
  unfold CommObj.setBaseUrl
  cases hc : canonUrl u with
  | ok b => exact ⟨canonical_url_idem _ _ hc, h.room, h.shown⟩
  | _ => exact h

theorem setRoom_ok {o : CommObj} (hb : canonUrl o.base = .ok o.base) (h : o.Ok ∨ ∃ v, canonRoom r = .ok v) :
    (o.setRoom r).1.Ok := by
  unfold CommObj.setRoom
  cases hc : canonRoom r with
  | ok v => exact ⟨hb, (canonical_room_case _ _ hc).2, hc⟩
  | _ =>
    rcases h with h | ⟨v, h⟩
    · exact h
    · rw [hc] at h; cases h

theorem call_ok {K : Codecs} {o : CommObj} (h : o.Ok) (c : CommCall) : (c.apply K o).1.Ok := by
  cases c with
  | baseUrl u => exact setBaseUrl_ok h u
  | room r => exact setRoom_ok h.base (.inl h)
  | pubkey k =>
    show (o.setPubkey k).1.Ok
    unfold CommObj.setPubkey
    split <;> exact ⟨h.base, h.room, h.shown⟩
  | pubkeyText t =>
    show (o.setPubkeyText K t).1.Ok
    unfold CommObj.setPubkeyText
    split <;> exact ⟨h.base, h.room, h.shown⟩
  | fullUrl u =>
    show (o.setFullUrl K u).1.Ok
    unfold CommObj.setFullUrl
    cases hp : K.parseFull u with
    | ok x =>
      obtain ⟨b, r, k⟩ := x
      have hb := parseFull_canon hp
      have h1 : (CommObj.setRoom { o with base := b } r).1.Ok := setRoom_ok hb (.inl ⟨hb, h.room, h.shown⟩)
      dsimp only
      rcases hs : CommObj.setRoom { o with base := b } r with ⟨o', e⟩
      rw [hs] at h1
      cases e with
      | ok u => exact ⟨h1.base, h1.room, h1.shown⟩
      | _ => exact h1
    | _ => exact h

theorem make_ok {K : Codecs} {base room : Bytes} {key : Bytes ⊕ Bytes} {o : CommObj} (h : CommObj.make K base room key = .ok o) :
    ∃ b v, canonUrl base = .ok b ∧ canonRoom room = .ok v ∧ o.base = b ∧ o.room = v ∧ o.localized = some room ∧
      (∀ k, key = .inl k → k.length = 32 ∧ o.pubkey = k) ∧ (∀ t, key = .inr t → K.decodePubkey t = .ok o.pubkey) := by
  unfold CommObj.make at h
  obtain ⟨b, hb, h⟩ := Out.bind_eq_ok.1 h
  obtain ⟨v, hv, h⟩ := Out.bind_eq_ok.1 h
  refine ⟨b, v, hb, hv, ?_⟩
  cases key with
  | inl k =>
    dsimp only at h
    unfold CommObj.setPubkey at h
    by_cases hl : k.length ≠ 32
    · rw [if_pos hl] at h; cases h
    · rw [if_neg hl] at h; cases h
      exact ⟨rfl, rfl, rfl, (fun k' e => by cases e; exact ⟨not_not.1 hl, rfl⟩), fun t e => by cases e⟩
  | inr t =>
    dsimp only at h
    unfold CommObj.setPubkeyText at h
    cases hd : K.decodePubkey t <;> rw [hd] at h <;> cases h
    exact ⟨rfl, rfl, rfl, (fun k' e => by cases e), fun t e => by cases e; exact hd⟩

/-- **C125.** However an object is made and whatever setters are called on it, some of which may throw: its URL and room are
canonical, and `room()` is a spelling of the room. -/
theorem comm_obj_always {K : Codecs} {base room : Bytes} {key : Bytes ⊕ Bytes} {o : CommObj}
    (h : CommObj.make K base room key = .ok o) (l : List CommCall) : (o.run K l).Ok := by
  have h0 : o.Ok := by
    obtain ⟨b, v, hb, hv, e1, e2, e3, _⟩ := make_ok h
    refine ⟨by rw [e1]; exact canonical_url_idem _ _ hb, by rw [e2]; exact (canonical_room_case _ _ hv).2, ?_⟩
    unfold CommObj.shown
    rw [e3, e2]; exact hv
  unfold CommObj.run
  clear h
  induction l generalizing o with
  | nil => exact h0
  | cons c t ih => exact ih (call_ok h0 c)

theorem decodePubkey_err {K : Codecs} : ∀ t, (∀ k, K.decodePubkey t ≠ .ok k) → K.decodePubkey t = .err .foreign := by
  intro t ht
  unfold Codecs.decodePubkey at ht ⊢
  repeat' split
  all_goals first | rfl | skip
  · rename_i h; exact absurd (if_pos h) (ht _)
  · rename_i h1 h; exact absurd ((if_neg h1).trans (if_pos h)) (ht _)
  · rename_i h1 h2 h; exact absurd ((if_neg h1).trans ((if_neg h2).trans (if_pos h))) (ht _)

theorem parsePartial_err (K : Codecs) (u : Bytes) : K.parsePartial u = .err .foreign ∨ ∃ x, K.parsePartial u = .ok x := by
  unfold Codecs.parsePartial Codecs.splitPubkey
  have hz : ∀ (a : Bytes) (p : Option Bytes), (Out.ok (a, p) >>= fun x =>
      canonUrl (splitRoom x.1).1 >>= fun b => Out.ok (b, (splitRoom x.1).2, x.2)) = .err .foreign ∨ ∃ y, (Out.ok (a, p) >>= fun x =>
      canonUrl (splitRoom x.1).1 >>= fun b => Out.ok (b, (splitRoom x.1).2, x.2)) = .ok y := by
    intro a p
    simp only [Out.bind_ok]
    by_cases hc : ∃ b, canonUrl (splitRoom a).1 = .ok b
    · obtain ⟨b, hc⟩ := hc
      rw [hc]
      exact .inr ⟨_, rfl⟩
    · rw [canonUrl_err fun b hb => hc ⟨b, hb⟩]; exact .inl rfl
  cases hf : rfindSub sQuery u with
  | none => exact hz u none
  | some x =>
    obtain ⟨a, pk⟩ := x
    dsimp only
    by_cases hd : ∃ k, K.decodePubkey pk = .ok k
    · obtain ⟨k, hd⟩ := hd
      rw [hd]
      exact hz a (some k)
    · rw [decodePubkey_err pk fun k hk => hd ⟨k, hk⟩]; exact .inl rfl

/-- **C125.** Each setter either does what it says, changing nothing else, or throws; a setter that throws leaves the object
as it was — except `set_full_url`, see `set_full_url_half`. -/
theorem comm_setters (K : Codecs) (o : CommObj) :
    (∀ u, (∃ b, canonUrl u = .ok b ∧ o.setBaseUrl u = ({ o with base := b }, .ok ())) ∨
      ((∀ b, canonUrl u ≠ .ok b) ∧ o.setBaseUrl u = (o, .err .foreign))) ∧
    (∀ r, (∃ v, canonRoom r = .ok v ∧ o.setRoom r = ({ o with room := v, localized := some r }, .ok ())) ∨
      ((∀ v, canonRoom r ≠ .ok v) ∧ o.setRoom r = (o, .err .foreign))) ∧
    (∀ k : Bytes, (k.length = 32 → o.setPubkey k = ({ o with pubkey := k }, .ok ())) ∧
      (k.length ≠ 32 → o.setPubkey k = (o, .err .foreign))) ∧
    (∀ t k, K.decodePubkey t = .ok k → o.setPubkeyText K t = ({ o with pubkey := k }, .ok ())) ∧
    (∀ t, (∀ k, K.decodePubkey t ≠ .ok k) → o.setPubkeyText K t = (o, .err .foreign)) ∧
    (∀ u b r k v, K.parseFull u = .ok (b, r, k) → canonRoom r = .ok v →
      o.setFullUrl K u = (⟨b, v, some r, k⟩, .ok ())) ∧
    (∀ u, (∀ b r k v, K.parseFull u = .ok (b, r, k) → canonRoom r ≠ .ok v) → (o.setFullUrl K u).2 = .err .foreign ∧
      ((∀ x, K.parseFull u ≠ .ok x) → (o.setFullUrl K u).1 = o)) := by
  refine ⟨fun u => ?_, fun r => ?_, fun k => ?_, fun t k h => ?_, fun t h => ?_, fun u b r k v h hv => ?_, fun u h => ?_⟩
  · by_cases hu : ∃ b, canonUrl u = .ok b
    · obtain ⟨b, hu⟩ := hu
      exact .inl ⟨b, hu, by unfold CommObj.setBaseUrl; rw [hu]⟩
    · have hn : ∀ b, canonUrl u ≠ .ok b := fun b hb => hu ⟨b, hb⟩
      exact .inr ⟨hn, by unfold CommObj.setBaseUrl; rw [canonUrl_err hn]⟩
  · by_cases hr : ∃ v, canonRoom r = .ok v
    · obtain ⟨v, hr⟩ := hr
      exact .inl ⟨v, hr, by unfold CommObj.setRoom; rw [hr]⟩
    · have hn : ∀ v, canonRoom r ≠ .ok v := fun v hv => hr ⟨v, hv⟩
      exact .inr ⟨hn, by unfold CommObj.setRoom; rw [canonRoom_err hn]⟩
  · unfold CommObj.setPubkey
    exact ⟨fun h => if_neg (not_not.2 h), fun h => if_pos h⟩
  · unfold CommObj.setPubkeyText; rw [h]
  · unfold CommObj.setPubkeyText; rw [decodePubkey_err t h]
  · unfold CommObj.setFullUrl CommObj.setRoom; rw [h]; dsimp only; rw [hv]
  · have hpf : K.parseFull u = .err .foreign ∨ ∃ x, K.parseFull u = .ok x := by
      unfold Codecs.parseFull
      rcases parsePartial_err K u with hx | ⟨⟨b, r, k⟩, hx⟩ <;> rw [hx]
      · exact .inl rfl
      · cases k with
        | none => exact .inl rfl
        | some k => exact .inr ⟨_, rfl⟩
    unfold CommObj.setFullUrl
    rcases hpf with hp | ⟨⟨b, r, k⟩, hp⟩ <;> rw [hp]
    · exact ⟨rfl, fun _ => rfl⟩
    · have hr := canonRoom_err fun v => h b r k v hp
      dsimp only
      unfold CommObj.setRoom
      rw [hr]
      exact ⟨rfl, fun hh => absurd rfl (hh _)⟩

/-- **C125, what does not hold.** `set_full_url` with a URL whose room is not acceptable throws and leaves the object with the
new server and the old room and key: a later `set` joins that room on a server the user never named it for. -/
theorem set_full_url_half (K : Codecs) (o : CommObj) {u b r k : Bytes} (h : K.parseFull u = .ok (b, r, k))
    (hr : ∀ v, canonRoom r ≠ .ok v) : o.setFullUrl K u = ({ o with base := b }, .err .foreign) := by
  unfold CommObj.setFullUrl CommObj.setRoom
  rw [h]
  dsimp only
  rw [canonRoom_err hr]

/-- **C125.** The full URL of any object with a 32-byte key, given to `set_full_url` of any object, makes that one equal in
everything one can ask: server, room in both spellings, key; and the three texts of the key give the key back. -/
theorem comm_obj_url (o o' : CommObj) (h : o.Ok) (hk : o.pubkey.length = 32) :
    ∃ p, o'.setFullUrl oxenc o.url = (p, .ok ()) ∧ p.base = o.base ∧ p.room = o.room ∧ p.shown = o.shown ∧ p.pubkey = o.pubkey ∧
      p.url = o.url ∧
    (∀ t ∈ [o.hex, o.b32z, o.b64], o'.setPubkeyText oxenc t = ({ o' with pubkey := o.pubkey }, .ok ())) := by
  have hf := (full_url_roundtrip oxenc h.base h.shown hk).1
  obtain ⟨_, _, _, c4, _, c6, _⟩ := comm_setters oxenc o'
  refine ⟨_, c6 _ _ _ _ _ hf h.shown, rfl, rfl, rfl, rfl, rfl, fun t ht => c4 t _ (oxenc_decode hk ?_)⟩
  simp only [List.mem_cons, List.not_mem_nil, or_false] at ht
  rcases ht with rfl | rfl | rfl
  · exact .inl (by unfold CommObj.hex; rw [← toHex_fromHex _ (toHex_isHex _), fromHex_toHex])
  · refine .inr (.inr (.inr ?_))
    unfold CommObj.b32z lower
    rw [toB32z_digits, List.map_map]
    refine List.map_congr_left fun d hd => ?_
    exact b32zChar_lower d (b32zDigits_lt _ d hd)
  · exact .inr (.inl rfl)

/-- **C125.** What `set` makes of an object, however it came about: as long as its key has 32 bytes, exactly what `set` makes of
a record constructed from what the object shows — to which `ucomm_set_get` and `comm_set_get` apply. -/
theorem comm_obj_set (S : Sys) (c : Client) (o : CommObj) (h : o.Ok) (hk : o.pubkey.length = 32) (info : GroupBase) (now : Int)
    (x : Convo) :
    c.setUObj S o info = c.setUComm S ⟨o.base, o.shown, o.pubkey, info⟩ ∧
    c.setCObj S now o x = c.setComm S now o.base o.shown o.pubkey x := by
  unfold Client.setUObj Client.setUComm Client.setCObj Client.setComm
  dsimp only
  rw [h.base, h.shown]
  dsimp only
  rw [if_pos hk, if_pos hk]
  exact ⟨rfl, rfl⟩

/-- **C125.** Set through the object and read back under any spelling of the server and the room that mean the same. -/
theorem comm_obj_set_get {S : Sys} (hS : S.Good) {c c' : Client} (hc : Reach S c) {K : Codecs} {base room : Bytes} {key : Bytes ⊕ Bytes}
    {o : CommObj} (hm : CommObj.make K base room key = .ok o) (l : List CommCall) (hk : (o.run K l).pubkey.length = 32)
    {info : GroupBase} (hx : info.inRange = true) (h : c.setUObj S (o.run K l) info = (c', .ok ())) :
    Reach S c' ∧ ∀ b r, SameComm b r (o.run K l).base (o.run K l).shown →
      c'.getUComm b r = .ok (some ⟨(o.run K l).base, (o.run K l).shown, (o.run K l).pubkey, info.norm⟩) := by
  have ho := comm_obj_always hm l
  rw [(comm_obj_set S c _ ho hk info 0 ⟨0, false⟩).1] at h
  obtain ⟨h1, h2, _⟩ := ucomm_set_get hS hc hx h
  refine ⟨h1, fun b r hs => ?_⟩
  obtain ⟨b', hb', hg⟩ := h2 b r hs
  rw [ho.base] at hb'
  cases hb'
  exact hg

/-- **C125, what does not hold.** An object whose key has not 32 bytes — `set_pubkey` and `set_full_url` take a text of 31 bytes,
see `short_key_accepted` — can be set too, and then no room of that server, joined before or now, is iterated over any more, and
each has an empty key when looked up. -/
theorem comm_obj_short_key {S : Sys} (hS : S.Good) {c c' : Client} (hc : Reach S c) (hcn : c.CanonNames) {o : CommObj} (ho : o.Ok)
    (hk : o.pubkey.length ≠ 32) {info : GroupBase} (hx : info.inRange = true) (h : c.setUObj S o info = (c', .ok ())) :
    Reach S c' ∧ (∀ x ∈ c'.ucomms, x.base ≠ o.base) ∧
    (∀ base room, SameServer base o.base → ∀ x, c'.getUComm base room = .ok (some x) → x.pubkey = []) ∧
    (∃ x, c'.getUComm o.base o.room = .ok (some x) ∧ x.info = info.norm) := by
  have hpair : (Comm.writes o.base o.room ⟨o.base, o.shown, o.pubkey, info⟩).Pairwise fun a b => ¬ Nested a.1 b.1 := by
    unfold Comm.writes
    rw [List.pairwise_cons]
    refine ⟨fun w hm => ?_, entries_pairwise _ ?_⟩
    · obtain ⟨f, _, rfl⟩ := List.mem_map.1 hm
      exact key_not_room o.base o.base o.room [f.1]
    · simp only [GroupBase.fields, List.map_cons, List.map_nil, List.map_append]; decide
  obtain ⟨w1, w2, w3⟩ := writeAll_get hS _ hc (comm_writes_wf (x := ⟨o.base, o.shown, o.pubkey, info⟩) hx o.base o.room) hpair h
  have hkeyval : c'.get (pathO ++ [o.base, [35]]) = some (.scalar (.str o.pubkey)) :=
    w2 (pathO ++ [o.base, [35]], _) (by unfold Comm.writes; simp)
  have hkey : c'.serverKey o.base = [] := by
    unfold Client.serverKey
    rw [hkeyval]
    simp only [strOf]
    rw [if_neg hk]
  have hfield : ∀ f ∈ info.fields ++ [([110], some (.scalar (.str o.shown)))],
      c'.get (roomPath o.base o.room ++ [f.1]) = f.2 := fun f hf =>
    w2 (roomPath o.base o.room ++ [f.1], f.2) (by
      unfold Comm.writes
      exact List.mem_cons_of_mem _ (List.mem_map.2 ⟨f, hf, rfl⟩))
  obtain ⟨e, he, hn⟩ := get_dict (p := roomPath o.base o.room) (k := [110]) (by simp [roomPath])
    (hfield ([110], some (.scalar (.str o.shown))) (by simp))
  have hload : GroupBase.load e = info.norm := base_load hx fun f hf => by
    rw [← get_entry (by simp [roomPath]) he, hfield f (List.mem_append_left _ hf)]
  have hcn' : c'.CanonNames := by
    intro b r hne
    by_cases hbr : o.base = b ∧ o.room = r
    · obtain ⟨rfl, rfl⟩ := hbr; exact ⟨ho.base, ho.room⟩
    · refine hcn b r ?_
      rwa [w3 (roomPath b r) fun w hm hn => ?_] at hne
      unfold Comm.writes at hm
      rcases List.mem_cons.1 hm with rfl | hm
      · have := key_not_room o.base b r []
        rw [List.append_nil] at this
        exact this hn
      · obtain ⟨f, _, rfl⟩ := List.mem_map.1 hm
        exact hbr (room_inj (nested_trans_left (List.prefix_append _ _) hn))
  refine ⟨w1, fun x hm hb => ?_, ?_, ?_⟩
  · obtain ⟨b, r, rr, hb1, hr1, hk1, hk2, hl⟩ := (mem_ucomms hS w1 x).1 hm
    have hne : c'.get (roomPath b r) ≠ none := by
      intro hh; rw [hh] at hl; cases hl
    have := (hcn' b r hne).1
    rw [hb1, hb] at this
    cases this
    rw [hkey] at hk1
    rw [← hk1] at hk2
    cases hk2
  · rintro base room ⟨b, hb1, hb2⟩ x hx
    rw [ho.base] at hb2
    cases hb2
    unfold Client.getUComm at hx
    rw [hb1] at hx
    obtain ⟨_, hr, hx⟩ := Out.bind_eq_ok.1 hx
    cases hr
    obtain ⟨r, hr, hx⟩ := Out.bind_eq_ok.1 hx
    rw [hkey] at hx
    exact (loadComm_fields hr hx).2.1
  · refine ⟨⟨o.base, o.shown, [], info.norm⟩, ?_, rfl⟩
    rw [getUComm_eq ho.base ho.room, he, hkey]
    have hnm : maybeStr e [110] = some o.shown := maybeStr_of hn
    simp only [loadComm, loadRoom, hnm, ho.shown, Out.bind, hload]

/-- **C125** (C53 for partial URLs).  `community_parse_partial_url`: the same as `community_parse_full_url` when there is a key,
says so when there is none, and stays inside the buffers unless the room has more than 64 characters. -/
theorem c_parse_partial_url_partial (u : Bytes) :
    (∀ b r k, oxenc.parseFull u = .ok (b, r, k) ↔ oxenc.parsePartial u = .ok (b, r, some k)) ∧
    (∀ b r k, oxenc.cParseFull u = .ok (some (b, r, k)) ↔ oxenc.cParsePartial u = .ok (some (b, r, some k))) ∧
    (∀ b r k, oxenc.parsePartial u = .ok (b, r, k) → canonUrl b = .ok b ∧ b.length ≤ 267 ∧ ∀ k', k = some k' → k'.length ≤ 32) ∧
    (oxenc.cParsePartial u = .ub ↔ ∃ b r k, oxenc.parsePartial u = .ok (b, r, k) ∧ 64 < r.length) := by
  have hiff : ∀ b r k, oxenc.parseFull u = .ok (b, r, k) ↔ oxenc.parsePartial u = .ok (b, r, some k) := by
    intro b r k
    unfold Codecs.parseFull
    constructor
    · intro h
      obtain ⟨⟨b', r', k'⟩, hx, h⟩ := Out.bind_eq_ok.1 h
      cases k' with
      | none => cases h
      | some k' => cases h; exact hx
    · intro h; rw [h]; rfl
  have hlen : ∀ b r k, oxenc.parsePartial u = .ok (b, r, k) → canonUrl b = .ok b ∧ b.length ≤ 267 ∧ ∀ k', k = some k' → k'.length ≤ 32 := by
    intro b r k h
    have hb : canonUrl b = .ok b := by
      unfold Codecs.parsePartial at h
      obtain ⟨y, hy, h⟩ := Out.bind_eq_ok.1 h
      obtain ⟨z, hz, h⟩ := Out.bind_eq_ok.1 h
      cases h
      exact canonical_url_idem _ _ hz
    refine ⟨hb, ?_, fun k' hk => ?_⟩
    · obtain ⟨_, _, _, _, _, _, _, _, _, _, _, h⟩ := (canonical_url_iff _ _).1 hb; exact h
    · subst hk
      exact ((c_parse_oxenc_partial u).1 b r k' ((hiff b r k').2 h)).2.1
  have hub := parsePartial_err oxenc u
  refine ⟨hiff, fun b r k => ?_, hlen, ?_⟩
  · unfold Codecs.cParseFull Codecs.cParsePartial
    rcases hub with hx | ⟨⟨b', r', k'⟩, hx⟩
    · have hf : oxenc.parseFull u = .err .foreign := by unfold Codecs.parseFull; rw [hx]; rfl
      rw [hx, hf]
      simp
    · rw [hx]
      cases k' with
      | none =>
        have hf : oxenc.parseFull u = .err .foreign := by unfold Codecs.parseFull; rw [hx]; rfl
        rw [hf]
        dsimp only
        constructor
        · intro h; cases h
        · intro h; split at h <;> cases h
      | some k' =>
        rw [(hiff b' r' k').2 hx]
        dsimp only [Option.getD_some]
        by_cases hc : b'.length ≤ baseUrlMax ∧ r'.length ≤ roomMax ∧ k'.length ≤ 32
        · rw [if_pos hc, if_pos hc]
          simp
        · rw [if_neg hc, if_neg hc]
          simp
  · unfold Codecs.cParsePartial
    rcases hub with hx | ⟨⟨b', r', k'⟩, hx⟩
    · rw [hx]; simp
    · obtain ⟨_, h2, h3⟩ := hlen _ _ _ hx
      have h4 : (k'.getD []).length ≤ 32 := by
        cases k' with
        | none => simp
        | some k => exact h3 k rfl
      rw [hx]
      dsimp only
      constructor
      · intro h
        by_cases hr : 64 < r'.length
        · exact ⟨_, _, _, rfl, hr⟩
        · rw [if_pos ⟨h2, not_lt.1 hr, h4⟩] at h; cases h
      · rintro ⟨b, r, k, he, hr⟩
        cases he
        exact if_neg fun h => absurd h.2.1 (not_le.2 hr)

/-! ### Instances -/

/-- "AAA…A==", a text of 44 characters that stands for 31 bytes (see `short_key_accepted`) -/
def exShortKey : Bytes := List.replicate 42 65 ++ [61, 61]

/-- An object for room "Room" of "HTTP://AB.C:80/" with a key of 32 bytes -/
def exObj : CommObj := ⟨exServer, [114, 111, 111, 109], some [82, 111, 111, 109], List.replicate 32 3⟩

/-- Made, changed (the second call throws), set and read back -/
example :
    CommObj.make oxenc exServer2 [82, 111, 111, 109] (.inl (List.replicate 32 3)) = .ok exObj ∧
    exObj.run oxenc [.baseUrl (asc "https://x.org".toList), .room [33], .room [120]] =
      ⟨asc "https://x.org".toList, [120], some [120], List.replicate 32 3⟩ ∧
    (exC3.setUObj exSys exObj exUComm.info).2 = .ok () ∧
    (exC3.setUObj exSys exObj exUComm.info).1.getUComm exServer2 [114, 79, 111, 109] = .ok (some exUComm) := by
  decide +kernel

/-- `set_full_url` with a bad room, half done -/
example :
    exObj.setFullUrl oxenc (asc "https://x.org/a!b".toList ++ sQuery ++ toHex (List.replicate 32 7)) =
      ({ exObj with base := asc "https://x.org".toList }, .err .foreign) := by
  decide +kernel

/-- A room joined properly is listed; after another room of that server is set with a key of 31 bytes, neither is. -/
example :
    let a := (exC3.setUComm exSys exUComm).1
    let o := (exObj.run oxenc [.room [120], .pubkeyText exShortKey])
    let b := (a.setUObj exSys o {}).1
    a.ucomms = [exUComm] ∧ o.pubkey.length = 31 ∧ (a.setUObj exSys o {}).2 = .ok () ∧ b.ucomms = [] ∧
      b.getUComm exServer exUComm.room = .ok (some { exUComm with pubkey := [] }) := by
  decide +kernel

/-- A URL without a key, and one whose room is too long -/
example : oxenc.cParsePartial (asc "http://ab.c/r/Room".toList) = .ok (some (exServer, [82, 111, 111, 109], none)) ∧
    oxenc.cParsePartial (asc "http://ab.c/r/".toList ++ List.replicate 65 97) = .ub := by
  exact ⟨by rfl, by rfl⟩

end Verif
