import Verif.CComm
import Verif.Props.Iter
import Verif.Props.UserGroupsNet

/-!
# Communities and conversations through the C interface
-/

namespace Verif

/-! ### What the structs say -/

/-- A C caller reads this community out of the struct -/
def CConvoComm.Holds (s : CConvoComm) (x : CommConvo) : Prop :=
  cStr s.url = x.base ∧ cStr s.room = x.room ∧ s.pubkey = x.pubkey ∧ s.convo = x.convo

def CUComm.Holds (s : CUComm) (x : Comm) : Prop :=
  cStr s.url = x.base ∧ cStr s.room = x.room ∧ s.pubkey = x.pubkey ∧ s.info = x.info

/-- The id is in the struct with its NUL, and the conversation with it -/
def CConvoRec.Holds (s : CConvoRec) (id : Bytes) (x : Convo) : Prop := s.id = id ++ [0] ∧ s.id.length = 67 ∧ s.convo = x

/-- The struct of the right type was filled -/
def CConvoAny.Holds : CConvoAny → ConvoAny → Prop
  | .oneToOne s, .oneToOne id x => s.Holds id x
  | .group s, .group id x => s.Holds id x
  | .comm s, .comm x => s.Holds x
  | .legacy s, .legacy id x => s.Holds id x
  | _, _ => False

/-- The texts of the exceptions about a room, and about a URL -/
def roomTexts : List Bytes := [asc "Invalid community room: room token is too long".toList,
  asc "Invalid community room: room token cannot be empty".toList,
  asc "Invalid community URL: room token contains invalid characters".toList]
def urlTexts : List Bytes := [asc "Invalid community URL: invalid/missing protocol://".toList,
  asc "Invalid community URL: invalid hostname".toList, asc "Invalid community URL: invalid port".toList,
  asc "Invalid community URL: found unexpected trailing value".toList, asc "Invalid community URL: base URL is too long".toList]

theorem roomMsg_mem (r : Bytes) : roomMsg r ∈ roomTexts := by
  unfold roomMsg roomTexts
  split
  · simp
  · split <;> simp

theorem urlMsg_mem (u : Bytes) : urlMsg u ∈ urlTexts := by
  unfold urlMsg urlTexts
  repeat' split
  all_goals simp

theorem texts_short : (∀ m ∈ roomTexts, m.length < 256) ∧ (∀ m ∈ urlTexts, m.length < 256) := by decide +kernel

/-! ### Copying -/

theorem copyFrom_ok {n : Nat} {s : Bytes} (h : s.length = n) : copyFrom n s = .ok s := by
  unfold copyFrom; rw [if_neg (by omega), ← h, List.take_length]

theorem copyCStr_fits {n : Nat} {s : Bytes} (h : s.length < n) : copyCStr n s = .ok s := by
  unfold copyCStr; rw [if_pos h]

theorem intoRec_ok {id : Bytes} (h : id.length = 66) (x : Convo) : ∃ s, intoRec id x = .ok s ∧ s.Holds id x := by
  refine ⟨⟨id ++ [0], x⟩, ?_, rfl, by simp [h], rfl⟩
  unfold intoRec
  rw [copyFrom_ok (by simp [h])]; rfl

theorem commConvo_into {x : CommConvo} {r : Bytes} (hb : canonUrl x.base = .ok x.base) (hr : canonRoom x.room = .ok r)
    (hk : x.pubkey.length = 32) : ∃ s, x.into = .ok s ∧ s.Holds x := by
  obtain ⟨n1, n2⟩ := canon_no_nul hb
  obtain ⟨m1, m2⟩ := room_no_nul hr
  refine ⟨⟨x.base, x.room, x.pubkey, x.convo⟩, ?_, cStr_of_clean n1, cStr_of_clean m1, rfl, rfl⟩
  unfold CommConvo.into
  rw [copyCStr_fits (by omega), copyCStr_fits (by omega), copyFrom_ok hk]; rfl

theorem comm_into {x : Comm} {r : Bytes} (hb : canonUrl x.base = .ok x.base) (hr : canonRoom x.room = .ok r)
    (hk : x.pubkey.length = 32) : ∃ s, x.into = .ok s ∧ s.Holds x := by
  obtain ⟨n1, n2⟩ := canon_no_nul hb
  obtain ⟨m1, m2⟩ := room_no_nul hr
  refine ⟨⟨x.base, x.room, x.pubkey, x.info⟩, ?_, cStr_of_clean n1, cStr_of_clean m1, rfl, rfl⟩
  unfold Comm.into
  rw [copyCStr_fits (by omega), copyCStr_fits (by omega), copyFrom_ok hk]; rfl

theorem canonRoom_err {r : Bytes} (h : ∀ v, canonRoom r ≠ .ok v) : canonRoom r = .err .foreign := by
  unfold canonRoom at h ⊢
  repeat' split
  all_goals first | rfl | skip
  · rename_i h1 h2 h3; exact absurd (by rw [if_neg h1, if_neg h2, if_pos h3]) (h (lower r))

theorem canonUrl_err {u : Bytes} (h : ∀ v, canonUrl u ≠ .ok v) : canonUrl u = .err .foreign := by
  have hp : ∀ e, parseUrl u ≠ .ok e → parseUrl u = .err .foreign ∨ ∃ x, parseUrl u = .ok x := by
    intro e _
    unfold parseUrl scanProto
    cases findSub sSep u with
    | none => left; rfl
    | some pr =>
      obtain ⟨p, r⟩ := pr
      dsimp only
      have key : ∀ pr : Bytes × Bytes, (Out.ok pr >>= fun pr =>
          let hr := scanHost false pr.2
          if hr.1.length < 4 ∨ ¬ (46 ∈ hr.1) ∨ hr.1.getLast? = some 46 then .err .foreign
          else scanPort hr.2 >>= fun nr =>
            if dropSlash nr.2 ≠ [] then .err .foreign
            else .ok (pr.1, hr.1, if defaultPort pr.1 nr.1 then 0 else nr.1)) = (Out.err .foreign : Out (Bytes × Bytes × Nat)) ∨
          ∃ x, (Out.ok pr >>= fun pr =>
          let hr := scanHost false pr.2
          if hr.1.length < 4 ∨ ¬ (46 ∈ hr.1) ∨ hr.1.getLast? = some 46 then .err .foreign
          else scanPort hr.2 >>= fun nr =>
            if dropSlash nr.2 ≠ [] then .err .foreign
            else .ok (pr.1, hr.1, if defaultPort pr.1 nr.1 then 0 else nr.1)) = (Out.ok x : Out (Bytes × Bytes × Nat)) := by
        intro pr
        simp only [Out.bind_ok]
        split
        · left; rfl
        · have hs : scanPort (scanHost false pr.2).2 = .err .foreign ∨ ∃ x, scanPort (scanHost false pr.2).2 = .ok x := by
            unfold scanPort
            repeat' split
            all_goals first | exact .inl rfl | exact .inr ⟨_, rfl⟩
          rcases hs with hs | ⟨x, hs⟩ <;> rw [hs]
          · left; rfl
          · simp only [Out.bind_ok]
            split
            · left; rfl
            · right; exact ⟨_, rfl⟩
      by_cases h1 : lower p = sHttp
      · rw [if_pos h1]; exact key _
      · rw [if_neg h1]
        by_cases h2 : lower p = sHttps
        · rw [if_pos h2]; exact key _
        · rw [if_neg h2]; left; rfl
  have hp : parseUrl u = .err .foreign ∨ ∃ x, parseUrl u = .ok x := by
    by_cases hx : ∃ x, parseUrl u = .ok x
    · exact .inr hx
    · exact hp ([], [], 0) fun hh => hx ⟨_, hh⟩
  unfold canonUrl at h ⊢
  rcases hp with hp | ⟨x, hp⟩ <;> rw [hp] at h ⊢
  · rfl
  · simp only [Out.bind_ok] at h ⊢
    by_cases hl : (x.1 ++ sSep ++ x.2.1 ++ (if x.2.2 = 0 then [] else 58 :: natDigits x.2.2)).length > baseUrlMax
    · rw [if_pos hl]
    · exact absurd (if_neg hl) (h _)

/-! ### Reading -/

theorem serverKey_length (c : Client) (b : Bytes) : (c.serverKey b).length = 32 ∨ c.serverKey b = [] := by
  unfold Client.serverKey
  split
  · split
    · left; assumption
    · right; rfl
  · right; rfl

/-- What a caller of a C getter for a community may expect: a record, or none, without an error; or, when the record is stored
with a room name that is not acceptable, the text about that.  If the URL or the room asked for is not valid: the text about
the one that is wrong. -/
def CommReports {R T : Type} (base room : Bytes) (get : Out (Option R)) (Holds : T → R → Prop) (key : R → Bytes)
    (reply : Out (CReply T)) : Prop :=
  ((∃ b r, canonUrl base = .ok b ∧ canonRoom room = .ok r) →
    (get = .ok none ∧ reply = .ok ⟨none, none⟩) ∨
    (get = .err .foreign ∧ ∃ m ∈ roomTexts, reply = .ok ⟨none, some m⟩) ∨
    ∃ x, get = .ok (some x) ∧ ((key x).length = 32 → ∃ s, reply = .ok ⟨some s, none⟩ ∧ Holds s x)) ∧
  ((¬ ∃ b r, canonUrl base = .ok b ∧ canonRoom room = .ok r) → ∃ m, reply = .ok ⟨none, some m⟩ ∧
    ((∀ r, canonRoom room ≠ .ok r) → (∃ b, canonUrl base = .ok b) → m ∈ roomTexts) ∧
    ((∀ b, canonUrl base ≠ .ok b) → (∃ r, canonRoom room = .ok r) → m ∈ urlTexts) ∧ m ∈ roomTexts ++ urlTexts)

theorem commReports_of {R T : Type} {base room msg : Bytes} {get : Out (Option R)} {into : R → Out T}
    {Holds : T → R → Prop} {key : R → Bytes}
    (h1 : ∀ b r, canonUrl base = .ok b → canonRoom room = .ok r → (∃ o, get = .ok o) ∨ (get = .err .foreign ∧ msg ∈ roomTexts))
    (h2 : ∀ x, get = .ok (some x) → (key x).length = 32 → ∃ s, into x = .ok s ∧ Holds s x)
    (h3 : (¬ ∃ b r, canonUrl base = .ok b ∧ canonRoom room = .ok r) → get = .err .foreign)
    (m1 : (∀ r, canonRoom room ≠ .ok r) → (∃ b, canonUrl base = .ok b) → msg ∈ roomTexts)
    (m2 : (∀ b, canonUrl base ≠ .ok b) → (∃ r, canonRoom room = .ok r) → msg ∈ urlTexts)
    (m3 : msg ∈ roomTexts ++ urlTexts) : CommReports base room get Holds key (cGet msg into get) := by
  refine ⟨?_, fun hn => ⟨msg, ?_, m1, m2, m3⟩⟩
  · rintro ⟨b, r, hb, hr⟩
    rcases h1 b r hb hr with ⟨o, ho⟩ | ⟨he, hm⟩
    rotate_left
    · refine .inr (.inl ⟨he, msg, hm, ?_⟩)
      rw [he]
      show (copyCStr 256 msg).bind _ = _
      rw [copyCStr_fits (texts_short.1 _ hm)]; rfl
    cases o with
    | none => left; exact ⟨ho, by rw [ho]; rfl⟩
    | some x =>
      right; right
      refine ⟨x, ho, fun hk => ?_⟩
      obtain ⟨s, hs, hh⟩ := h2 x ho hk
      refine ⟨s, ?_, hh⟩
      rw [ho]
      show (into x).bind _ = _
      rw [hs]; rfl
  · rw [h3 hn]
    show (copyCStr 256 msg).bind _ = _
    have hl : msg.length < 256 := by
      rcases List.mem_append.1 m3 with h | h
      · exact texts_short.1 _ h
      · exact texts_short.2 _ h
    rw [copyCStr_fits hl]; rfl

theorem convoCommMsg_cases (base room : Bytes) :
    ((∀ r, canonRoom room ≠ .ok r) → (∃ b, canonUrl base = .ok b) → convoCommMsg base room ∈ roomTexts) ∧
    ((∀ b, canonUrl base ≠ .ok b) → (∃ r, canonRoom room = .ok r) → convoCommMsg base room ∈ urlTexts) ∧
    convoCommMsg base room ∈ roomTexts ++ urlTexts := by
  unfold convoCommMsg
  cases h : canonRoom room with
  | ok r => exact ⟨fun h _ => absurd rfl (h r), fun _ _ => urlMsg_mem _, List.mem_append_right _ (urlMsg_mem _)⟩
  | _ => exact ⟨fun _ _ => roomMsg_mem _, (fun _ hr => by obtain ⟨r, hr⟩ := hr; cases hr), List.mem_append_left _ (roomMsg_mem _)⟩

theorem ucommMsg_cases (c : Client) (base room : Bytes) :
    ((∀ r, canonRoom room ≠ .ok r) → (∃ b, canonUrl base = .ok b) → c.ucommMsg base room ∈ roomTexts) ∧
    ((∀ b, canonUrl base ≠ .ok b) → (∃ r, canonRoom room = .ok r) → c.ucommMsg base room ∈ urlTexts) ∧
    c.ucommMsg base room ∈ roomTexts ++ urlTexts ∧
    ((∃ b r, canonUrl base = .ok b ∧ canonRoom room = .ok r) → c.ucommMsg base room ∈ roomTexts) := by
  unfold Client.ucommMsg
  cases h : canonUrl base with
  | ok b =>
    cases h2 : canonRoom room with
    | ok r =>
      have hm : (match c.get (roomPath b r) with
          | some (.dict e) => roomMsg ((maybeStr e [110]).getD room)
          | _ => roomMsg room) ∈ roomTexts := by split <;> exact roomMsg_mem _
      exact ⟨fun _ _ => hm, fun h _ => absurd rfl (h b), List.mem_append_left _ hm, fun _ => hm⟩
    | _ => exact ⟨fun _ _ => roomMsg_mem _, fun h _ => absurd rfl (h b), List.mem_append_left _ (roomMsg_mem _), fun _ => roomMsg_mem _⟩
  | _ =>
    exact ⟨(fun _ hr => by obtain ⟨r, hr⟩ := hr; cases hr), fun _ _ => urlMsg_mem _, List.mem_append_right _ (urlMsg_mem _),
      (fun hr => by obtain ⟨b, r, hr, _⟩ := hr; cases hr)⟩

theorem getComm_fields {c : Client} {base room : Bytes} {x : CommConvo} (h : c.getComm base room = .ok (some x)) :
    canonUrl x.base = .ok x.base ∧ canonRoom x.room = .ok x.room ∧ x.pubkey = c.serverKey x.base := by
  unfold Client.getComm at h
  cases hr : canonRoom room <;> rw [hr] at h <;> try cases h
  rename_i r
  cases hb : canonUrl base <;> rw [hb] at h <;> try cases h
  rename_i b
  have h := Out.ok.inj h
  obtain ⟨y, hy, rfl⟩ := Option.map_eq_some_iff.1 h
  exact ⟨canonical_url_idem _ _ hb, (canonical_room_case _ _ hr).2, rfl⟩

theorem commConvo_fields {c : Client} {base room pk : Bytes} {x : CommConvo} (h : c.commConvo base room pk = .ok x) :
    canonUrl x.base = .ok x.base ∧ canonRoom x.room = .ok x.room ∧ x.pubkey = pk := by
  unfold Client.commConvo at h
  cases hr : canonRoom room <;> rw [hr] at h <;> try cases h
  rename_i r
  cases hb : canonUrl base <;> rw [hb] at h <;> try cases h
  rename_i b
  have h : (if pk.length = 32 then _ else _) = _ := h
  split at h
  · cases h; exact ⟨canonical_url_idem _ _ hb, (canonical_room_case _ _ hr).2, rfl⟩
  · cases h

/-- **C124.** Reading a conversation with a community through the C interface: a URL or room that is not valid gives no
record and a text saying which of the two is wrong; otherwise there is no error, and the record, if there is one, with the
canonical URL and room — provided the server is stored with a key of 32 bytes, see `c_comm_overread`. -/
theorem c_comm_get_partial (c : Client) (base room : Bytes) :
    CommReports base room (c.getComm base room) CConvoComm.Holds (·.pubkey) (c.cCommGet base room) ∧
    ∀ pk : Bytes, pk.length = 32 → CommReports base room ((c.commConvo base room pk).bind fun r => .ok (some r))
      CConvoComm.Holds (fun _ => pk) (c.cCommOr base room pk) := by
  obtain ⟨m1, m2, m3⟩ := convoCommMsg_cases base room
  refine ⟨commReports_of (fun b r hb hr => .inl ⟨_, getComm_eq hb hr⟩) (fun x hx hk => ?_) (fun hn => ?_) m1 m2 m3,
    fun pk hpk => commReports_of (fun b r hb hr => ?_) (fun x hx _ => ?_) (fun hn => ?_) m1 m2 m3⟩
  · obtain ⟨a, b, _⟩ := getComm_fields hx
    exact commConvo_into a b hk
  · unfold Client.getComm
    by_cases hr : ∃ r, canonRoom room = .ok r
    · obtain ⟨r, hr⟩ := hr
      rw [hr]
      show (canonUrl base).bind _ = _
      rw [canonUrl_err fun b hb => hn ⟨b, r, hb, hr⟩]; rfl
    · rw [canonRoom_err fun r h => hr ⟨r, h⟩]; rfl
  · refine .inl ⟨some ⟨b, r, pk, (loadConvo (c.get (roomPath b r))).getD {}⟩, ?_⟩
    unfold Client.commConvo
    rw [hb, hr]
    show (if pk.length = 32 then _ else _ : Out CommConvo).bind _ = _
    rw [if_pos hpk]; rfl
  · cases hc : c.commConvo base room pk <;> rw [hc] at hx <;> try cases hx
    obtain ⟨a, b, e⟩ := commConvo_fields hc
    exact commConvo_into a b (e ▸ hpk)
  · unfold Client.commConvo
    by_cases hr : ∃ r, canonRoom room = .ok r
    · obtain ⟨r, hr⟩ := hr
      rw [hr]
      show ((canonUrl base).bind _).bind _ = _
      rw [canonUrl_err fun b hb => hn ⟨b, r, hb, hr⟩]; rfl
    · rw [canonRoom_err fun r h => hr ⟨r, h⟩]; rfl

/-- **C124, what does not hold.** A room stored under a server without a key of 32 bytes — which another device may have sent —
makes the C getters read beyond the end of an empty string. -/
theorem c_comm_overread (c : Client) (base room : Bytes) :
    (∀ x, c.getComm base room = .ok (some x) → x.pubkey.length ≠ 32 → c.cCommGet base room = .ub) ∧
    (∀ x, c.getUComm base room = .ok (some x) → x.base.length ≤ 267 → x.room.length ≤ 64 → x.pubkey = [] →
      c.cUCommGet base room = .ub) := by
  refine ⟨fun x hx hk => ?_, fun x hx hb hr hk => ?_⟩
  · obtain ⟨a, b, e⟩ := getComm_fields hx
    have hk : x.pubkey = [] := by
      rcases serverKey_length c x.base with h | h
      · exact absurd (e ▸ h) hk
      · rw [e, h]
    unfold Client.cCommGet
    rw [hx]
    show x.into.bind _ = _
    unfold CommConvo.into
    rw [copyCStr_fits (by have := (canon_no_nul a).2; omega), copyCStr_fits (by have := (room_no_nul b).2; omega), hk]
    rfl
  · unfold Client.cUCommGet
    rw [hx]
    show x.into.bind _ = _
    unfold Comm.into
    rw [copyCStr_fits (by omega), copyCStr_fits (by omega), hk]
    rfl

theorem getUComm_fields {c : Client} {base room : Bytes} {x : Comm} (h : c.getUComm base room = .ok (some x)) :
    canonUrl x.base = .ok x.base ∧ (∃ r, canonRoom x.room = .ok r) ∧ x.pubkey = c.serverKey x.base := by
  unfold Client.getUComm at h
  cases hb : canonUrl base <;> rw [hb] at h <;> try cases h
  rename_i b
  cases hr : canonRoom room <;> rw [hr] at h <;> try cases h
  rename_i r
  have h : loadComm b room (c.serverKey b) (c.get (roomPath b r)) = .ok (some x) := h
  have key : x.base = b ∧ x.pubkey = c.serverKey b ∧ ∃ r, canonRoom x.room = .ok r := by
    unfold loadComm at h
    split at h
    · rename_i e _
      unfold loadRoom at h
      cases hn : maybeStr e [110] with
      | none =>
        rw [hn] at h
        have := Option.some.inj (Out.ok.inj h)
        subst this
        exact ⟨rfl, rfl, r, hr⟩
      | some n =>
        rw [hn] at h
        cases hc : canonRoom n <;> simp only [hc] at h <;> try cases h
        exact ⟨rfl, rfl, _, hc⟩
    · cases h
  obtain ⟨e1, e2, e3⟩ := key
  exact ⟨e1 ▸ canonical_url_idem _ _ hb, e3, e1 ▸ e2⟩

theorem loadComm_err {b room pk : Bytes} {v : Option Val} (h : ∀ o, loadComm b room pk v ≠ .ok o) :
    loadComm b room pk v = .err .foreign := by
  have key : ∀ e, loadRoom room e = .err .foreign ∨ ∃ n, loadRoom room e = .ok n := by
    intro e
    unfold loadRoom
    cases maybeStr e [110] with
    | none => exact .inr ⟨_, rfl⟩
    | some n =>
      by_cases hc : ∃ r, canonRoom n = .ok r
      · obtain ⟨r, hc⟩ := hc
        simp only [hc]; exact .inr ⟨_, rfl⟩
      · simp only [canonRoom_err fun r hr => hc ⟨r, hr⟩]; exact .inl rfl
  match v, h with
  | some (.dict e), h =>
    rcases key e with hk | ⟨n, hk⟩
    · show (loadRoom room e).bind _ = _
      rw [hk]; rfl
    · refine absurd ?_ (h (some ⟨b, n, pk, GroupBase.load e⟩))
      show (loadRoom room e).bind _ = _
      rw [hk]; rfl
  | none, h => exact absurd rfl (h none)
  | some (.scalar _), h => exact absurd rfl (h none)
  | some (.set _), h => exact absurd rfl (h none)

theorem loadComm_fields {b room pk r : Bytes} {v : Option Val} {x : Comm} (hr : canonRoom room = .ok r)
    (h : loadComm b room pk v = .ok (some x)) : x.base = b ∧ x.pubkey = pk ∧ ∃ r, canonRoom x.room = .ok r := by
  unfold loadComm at h
  split at h
  · rename_i e
    unfold loadRoom at h
    cases hn : maybeStr e [110] with
    | none =>
      rw [hn] at h
      have := Option.some.inj (Out.ok.inj h)
      subst this
      exact ⟨rfl, rfl, r, hr⟩
    | some n =>
      rw [hn] at h
      cases hc : canonRoom n <;> simp only [hc] at h <;> try cases h
      exact ⟨rfl, rfl, _, hc⟩
  · cases h

theorem ucommOr_fields {c : Client} {base room pk : Bytes} {x : Comm} (h : c.ucommOr base room pk = .ok x) :
    canonUrl x.base = .ok x.base ∧ (∃ r, canonRoom x.room = .ok r) ∧ x.pubkey = pk := by
  unfold Client.ucommOr at h
  cases hb : canonUrl base <;> rw [hb] at h <;> try cases h
  rename_i b
  cases hr : canonRoom room <;> rw [hr] at h <;> try cases h
  rename_i r
  have h : (if pk.length = 32 then (loadComm b room pk (c.get (roomPath b r))).bind fun x => Out.ok (x.getD ⟨b, room, pk, {}⟩)
    else .err .foreign) = _ := h
  split at h
  · obtain ⟨o, ho, h⟩ := Out.bind_eq_ok.1 h
    cases o with
    | none => cases h; exact ⟨canonical_url_idem _ _ hb, ⟨r, hr⟩, rfl⟩
    | some y =>
      cases h
      obtain ⟨e1, e2, e3⟩ := loadComm_fields hr ho
      exact ⟨by rw [show (Option.getD (some y) _ : Comm) = y from rfl, e1]; exact canonical_url_idem _ _ hb, e3, e2⟩
  · cases h

/-- **C124**, for the communities the user joined; the room comes as the user spelled it. -/
theorem c_ucomm_get_partial (c : Client) (base room : Bytes) :
    CommReports base room (c.getUComm base room) CUComm.Holds (·.pubkey) (c.cUCommGet base room) ∧
    ∀ pk : Bytes, pk.length = 32 → CommReports base room ((c.ucommOr base room pk).bind fun r => .ok (some r))
      CUComm.Holds (fun _ => pk) (c.cUCommOr base room pk) := by
  obtain ⟨m1, m2, m3, m4⟩ := ucommMsg_cases c base room
  refine ⟨commReports_of (fun b r hb hr => ?_) (fun x hx hk => ?_) (fun hn => ?_) m1 m2 m3,
    fun pk hpk => commReports_of (fun b r hb hr => ?_) (fun x hx _ => ?_) (fun hn => ?_) m1 m2 m3⟩
  · rw [getUComm_eq hb hr]
    by_cases ho : ∃ o, loadComm b room (c.serverKey b) (c.get (roomPath b r)) = .ok o
    · exact .inl ho
    · exact .inr ⟨loadComm_err fun o h => ho ⟨o, h⟩, m4 ⟨b, r, hb, hr⟩⟩
  · obtain ⟨a, ⟨r, b⟩, _⟩ := getUComm_fields hx
    exact comm_into a b hk
  · unfold Client.getUComm
    by_cases hb : ∃ b, canonUrl base = .ok b
    · obtain ⟨b, hb⟩ := hb
      rw [hb]
      show (canonRoom room).bind _ = _
      rw [canonRoom_err fun r hr => hn ⟨b, r, hb, hr⟩]; rfl
    · rw [canonUrl_err fun b h => hb ⟨b, h⟩]; rfl
  · have e : c.ucommOr base room pk = (loadComm b room pk (c.get (roomPath b r))).bind fun x =>
        Out.ok (x.getD ⟨b, room, pk, {}⟩) := by
      unfold Client.ucommOr
      rw [hb, hr]
      exact if_pos hpk
    rw [e]
    by_cases ho : ∃ o, loadComm b room pk (c.get (roomPath b r)) = .ok o
    · obtain ⟨o, ho⟩ := ho
      rw [ho]; exact .inl ⟨_, rfl⟩
    · rw [loadComm_err fun o h => ho ⟨o, h⟩]
      exact .inr ⟨rfl, m4 ⟨b, r, hb, hr⟩⟩
  · cases hc : c.ucommOr base room pk <;> rw [hc] at hx <;> try cases hx
    obtain ⟨a, ⟨r, b⟩, e⟩ := ucommOr_fields hc
    exact comm_into a b (e ▸ hpk)
  · unfold Client.ucommOr
    by_cases hb : ∃ b, canonUrl base = .ok b
    · obtain ⟨b, hb⟩ := hb
      rw [hb]
      show ((canonRoom room).bind _).bind _ = _
      rw [canonRoom_err fun r hr => hn ⟨b, r, hb, hr⟩]; rfl
    · rw [canonUrl_err fun b h => hb ⟨b, h⟩]; rfl

/-! ### Writing back -/

/-- **C124.** A struct filled from a record sets that record: reading, changing nothing and setting again through C is the same
as doing so in C++ (with the result of the getter, whose URL and room are canonical). -/
theorem c_convo_back (S : Sys) (now : Int) (c : Client) :
    (∀ s x, CConvoComm.Holds s x → c.cCommSet S now s = c.setComm S now x.base x.room x.pubkey x.convo) ∧
    (∀ s x, CUComm.Holds s x → c.cUCommSet S s = c.setUComm S x) ∧
    (∀ k s id x, CConvoRec.Holds s id x → c.cRecSet S now k s = c.setConvo S now k id x) := by
  refine ⟨?_, ?_, ?_⟩
  · rintro s x ⟨h1, h2, h3, h4⟩
    unfold Client.cCommSet; rw [h1, h2, h3, h4]
  · rintro s ⟨b, r, k, i⟩ ⟨h1, h2, h3, h4⟩
    unfold Client.cUCommSet; rw [h1, h2, h3, h4]
  · rintro k s id x ⟨h1, h2, h3⟩
    unfold Client.cRecSet
    have : id.length = 66 := by rw [h1] at h2; simpa using h2
    rw [h1, h3, ← this, List.take_left]

/-- **C124.** After a successful `..._set_community` of a struct, the C getter of `ConvoInfoVolatile` returns under every
spelling of the URL and room in the struct either nothing (a conversation with nothing to remember) or a struct with the
key and the conversation as `Convo.after` describes it; the one of `UserGroups` returns the settings, the key and the room as
spelled. -/
theorem c_comm_set_get {S : Sys} (hS : S.Good) {c c' : Client} (hc : Reach S c) :
    (∀ (now : Int) (s : CConvoComm), int64Ok s.convo.lastRead = true → 0 ≤ s.convo.lastRead → c.cCommSet S now s = (c', .ok ()) →
      ∀ base room, SameComm base room (cStr s.url) (cStr s.room) → ∃ b r old,
        canonUrl (cStr s.url) = .ok b ∧ canonRoom (cStr s.room) = .ok r ∧ c.commConvo base room s.pubkey = .ok old ∧
        (c'.cCommGet base room = .ok ⟨none, none⟩ ∨ ∃ t : CConvoComm, c'.cCommGet base room = .ok ⟨some t, none⟩ ∧
          cStr t.url = b ∧ cStr t.room = r ∧ t.pubkey = s.pubkey ∧ t.convo = old.convo.after now s.convo)) ∧
    (∀ s : CUComm, s.info.inRange = true → c.cUCommSet S s = (c', .ok ()) →
      ∀ base room, SameComm base room (cStr s.url) (cStr s.room) → ∃ b t, canonUrl (cStr s.url) = .ok b ∧
        c'.cUCommGet base room = .ok ⟨some t, none⟩ ∧
        cStr t.url = b ∧ cStr t.room = cStr s.room ∧ t.pubkey = s.pubkey ∧ t.info = s.info.norm) := by
  refine ⟨fun now s hx h0 h base room hsame => ?_, fun s hx h base room hsame => ?_⟩
  · obtain ⟨b, r, c1, hb, hr, hpk, _, _⟩ := setComm_ok h
    obtain ⟨_, h2, _⟩ := comm_set_get hS hc hx h0 h
    obtain ⟨old, e1, e2, e3⟩ := h2 base room hsame s.pubkey hpk
    refine ⟨b, r, old, hb, hr, e1, ?_⟩
    obtain ⟨b', r', f1, f2, f3, f4⟩ := hsame
    have q1 := f2.symm.trans hb; cases q1
    have q2 := f4.symm.trans hr; cases q2
    rcases (c_comm_get_partial c' base room).1.1 ⟨b, r, f1, f3⟩ with ⟨_, h⟩ | ⟨h, _⟩ | ⟨x, hx, h⟩
    · exact .inl h
    · rw [getComm_eq f1 f3] at h; cases h
    · right
      have hy := e3 x hx
      obtain ⟨t, ht, g1, g2, g3, g4⟩ := h (by rw [hy]; exact hpk)
      rw [getComm_eq f1 f3] at hx
      obtain ⟨z, hz, hx⟩ := Option.map_eq_some_iff.1 (Out.ok.inj hx)
      refine ⟨t, ht, ?_, ?_, ?_, ?_⟩
      · rw [g1, ← hx]
      · rw [g2, ← hx]
      · rw [g3, hy]
      · rw [g4, hy]
  · obtain ⟨b, r, hb, hr, hpk, _⟩ := setUComm_ok h
    obtain ⟨_, h2, _⟩ := ucomm_set_get hS hc (x := ⟨cStr s.url, cStr s.room, s.pubkey, s.info⟩) hx h
    obtain ⟨b', hb', hg⟩ := h2 base room hsame
    obtain ⟨b2, r2, f1, f2, f3, f4⟩ := hsame
    rcases (c_ucomm_get_partial c' base room).1.1 ⟨b2, r2, f1, f3⟩ with ⟨h, _⟩ | ⟨h, _⟩ | ⟨x, hx, h⟩
    · rw [hg] at h; cases h
    · rw [hg] at h; cases h
    · rw [hg] at hx
      cases hx
      obtain ⟨t, ht, g1, g2, g3, g4⟩ := h hpk
      exact ⟨b', t, hb', ht, g1, g2, g3, g4⟩

/-- **C124.** The C erasers never let an exception out; if one reports success the community is gone under every spelling, and
the other communities read as before. -/
theorem c_comm_erase {S : Sys} (hS : S.Good) {c c' : Client} (hc : Reach S c) {base room : Bytes} {o : Out Bool}
    (h : c.cCommErase S base room = (c', o)) : (∀ e, o ≠ .err e) ∧
    ((∀ b, canonUrl base ≠ .ok b) ∨ (∀ r, canonRoom room ≠ .ok r) → c' = c ∧ o = .ok false) ∧
    (o = .ok true → (∀ base' room', SameComm base' room' base room → c'.cCommGet base' room' = .ok ⟨none, none⟩) ∧
      ∀ base' room', ¬ SameComm base' room' base room → c'.cCommGet base' room' = c.cCommGet base' room') := by
  have hd : c.cCommErase S base room = cErase (c.eraseComm S base room) := rfl
  rw [hd] at h
  refine ⟨fun e he => ?_, fun hbad => ?_, fun ht => ?_⟩
  · rcases hr : c.eraseComm S base room with ⟨c1, r⟩
    rw [hr] at h
    cases r <;> cases h <;> cases he
  · have : c.eraseComm S base room = (c, .err .foreign) := by
      unfold Client.eraseComm
      rcases hbad with hb | hb
      · rw [canonUrl_err hb]
      · rw [canonRoom_err hb]; cases canonUrl base <;> rfl
    rw [this] at h
    cases h; exact ⟨rfl, rfl⟩
  · subst ht
    have he : c.eraseComm S base room = (c', .ok true) := by
      rcases hr : c.eraseComm S base room with ⟨c1, r⟩
      rw [hr] at h
      cases r <;> cases h <;> rfl
    obtain ⟨_, h2, h3, _⟩ := comm_erase hS hc he
    refine ⟨fun base' room' hs => ?_, fun base' room' hs => ?_⟩
    · unfold Client.cCommGet; rw [h2 base' room' hs]; rfl
    · unfold Client.cCommGet; rw [h3 base' room' hs]

/-! ### Loops -/

theorem loop_holds {I A B : Type} {stop : I → Bool} {deref : I → Out A} {next : I → Out I} {f : A → Out B} {R : B → A → Prop} :
    ∀ (fuel : Nat) (it : I) (l : List A), loopList stop deref next fuel it = .ok l → (∀ a ∈ l, ∃ b, f a = .ok b ∧ R b a) →
      ∃ L, loopList stop (fun it => (deref it).bind f) next fuel it = .ok L ∧ List.Forall₂ R L l
  | 0, _, _, h => by cases h
  | fuel + 1, it, l, h => by
    unfold loopList at h ⊢
    intro hall
    by_cases hs : stop it = true
    · rw [if_pos hs] at h ⊢
      cases h
      exact ⟨[], rfl, .nil⟩
    · rw [if_neg hs] at h ⊢
      obtain ⟨a, ha, h⟩ := Out.bind_eq_ok.1 h
      obtain ⟨it', hi, h⟩ := Out.bind_eq_ok.1 h
      obtain ⟨t, ht, h⟩ := Out.bind_eq_ok.1 h
      cases h
      obtain ⟨b, hb, hR⟩ := hall a List.mem_cons_self
      obtain ⟨L, hL, hF⟩ := loop_holds fuel it' t ht fun x hx => hall x (List.mem_cons_of_mem _ hx)
      refine ⟨b :: L, ?_, .cons hR hF⟩
      rw [ha, hi]
      show (f a).bind _ = _
      rw [hb]
      show (loopList stop _ next fuel it').bind _ = _
      rw [hL]; rfl

theorem convos_id_length {c : Client} {k : ConvoKind} {y : Bytes × Convo} (h : y ∈ c.convos k) : y.1.length = 66 := by
  obtain ⟨x, _, hx⟩ := List.mem_filterMap.1 h
  unfold convoEntry at hx
  split at hx
  · rename_i hl
    obtain ⟨v, _, rfl⟩ := Option.map_eq_some_iff.1 hx
    show (toHex x.1).length = 66
    rw [toHex_length, hl.1]
  · cases hx

theorem comms_fields {c : Client} {x : CommConvo} (h : x ∈ c.comms) :
    canonUrl x.base = .ok x.base ∧ canonRoom x.room = .ok x.room ∧ x.pubkey.length = 32 := by
  obtain ⟨s, _, hs⟩ := List.mem_flatMap.1 h
  unfold serverEntry at hs
  split at hs
  · split at hs
    · obtain ⟨r, _, hr⟩ := List.mem_filterMap.1 hs
      unfold roomEntry at hr
      split at hr
      · rename_i e1 e2
        split at hr
        · rename_i hk
          cases hr
          exact ⟨canonical_url_idem _ _ e1, (canonical_room_case _ _ e2).2, hk⟩
        · cases hr
      · cases hr
    · cases hs
  · cases hs

theorem convoAny_into {c : Client} {a : ConvoAny} (h : a ∈ c.convoList) : ∃ s, a.into = .ok s ∧ s.Holds a := by
  unfold Client.convoList at h
  simp only [List.mem_append, List.mem_map] at h
  rcases h with ((⟨y, hy, rfl⟩ | ⟨y, hy, rfl⟩) | ⟨x, hx, rfl⟩) | ⟨y, hy, rfl⟩
  · obtain ⟨s, hs, hh⟩ := intoRec_ok (convos_id_length hy) y.2
    exact ⟨.oneToOne s, by show Out.bind _ _ = _; rw [hs]; rfl, hh⟩
  · obtain ⟨s, hs, hh⟩ := intoRec_ok (convos_id_length hy) y.2
    exact ⟨.group s, by show Out.bind _ _ = _; rw [hs]; rfl, hh⟩
  · obtain ⟨a, b, e⟩ := comms_fields hx
    obtain ⟨s, hs, hh⟩ := commConvo_into a b e
    exact ⟨.comm s, by show Out.bind _ _ = _; rw [hs]; rfl, hh⟩
  · obtain ⟨s, hs, hh⟩ := intoRec_ok (convos_id_length hy) y.2
    exact ⟨.legacy s, by show Out.bind _ _ = _; rw [hs]; rfl, hh⟩

/-- **C124.** For every stored data, the documented C loop over the conversations ends without undefined behaviour and fills,
conversation by conversation, the struct of the right type with exactly what the C++ iteration shows. -/
theorem c_convo_loop (c : Client) {fuel : Nat} (hf : c.convoList.length < fuel) :
    ∃ L, loopList ConvoIter.done (fun it => (derefVal it.val).bind ConvoAny.into) ConvoIter.next fuel
        (c.convoIter true true true true) = .ok L ∧ List.Forall₂ CConvoAny.Holds L c.convoList := by
  exact loop_holds _ _ _ (convo_loop c hf _ (.inl rfl)).1 fun a ha => convoAny_into ha

/-- The struct of the right type was filled with this group: the same but for what follows a NUL in the name, and for keys of
a wrong length -/
def CAnyGroup.Holds : CAnyGroup → AnyGroup → Prop
  | .group g', .group g => g'.id = g.id ∧ g'.base = g.base ∧ g'.name = g.name.takeWhile (· ≠ 0) ∧
      (g.secret.length = 64 → g'.secret = g.secret) ∧ (g.secret.length ≠ 64 → g'.secret = []) ∧
      (g.auth.length = 100 → g'.auth = g.auth) ∧ (g.auth.length ≠ 100 → g'.auth = [])
  | .comm s, .comm x => s.Holds x
  | .legacy g', .legacy g => g'.id = g.id ∧ g'.base = g.base ∧ g'.name = g.name.takeWhile (· ≠ 0) ∧
      g'.timer = g.timer ∧ g'.members = g.members ∧
      ((g'.encPub = g.encPub ∧ g'.encSec = g.encSec ∧ g'.encPub.length = 32 ∧ g'.encSec.length = 32) ∨
       (g'.encPub = [] ∧ g'.encSec = [] ∧ ¬ (g.encPub.length = 32 ∧ g.encSec.length = 32)))
  | _, _ => False

/-- The name, if it has one, fits the C struct -/
def AnyGroup.Fits : AnyGroup → Prop
  | .group g => g.name.length ≤ 100
  | .comm _ => True
  | .legacy g => g.name.length ≤ 100

theorem ucomms_fields {c : Client} {x : Comm} (h : x ∈ c.ucomms) :
    canonUrl x.base = .ok x.base ∧ (∃ r, canonRoom x.room = .ok r) ∧ x.pubkey.length = 32 := by
  obtain ⟨s, _, hs⟩ := List.mem_flatMap.1 h
  unfold userverEntry at hs
  split at hs
  · split at hs
    · obtain ⟨r, _, hr⟩ := List.mem_filterMap.1 hs
      unfold uroomEntry at hr
      split at hr
      · rename_i e1 e2
        split at hr
        · rename_i hk
          split at hr
          · rename_i o ho
            subst hr
            obtain ⟨f1, f2, f3⟩ := loadComm_fields e2 ho
            exact ⟨by rw [f1]; exact canonical_url_idem _ _ e1, f3, by rw [f2]; exact hk⟩
          · cases hr
        · cases hr
      · cases hr
    · cases hs
  · cases hs

/-- **C124**, for the groups: as long as every group name that is stored fits the struct (C89 has what happens otherwise). -/
theorem c_ugroup_loop_partial (pub : Bytes → Bytes) (c : Client) {fuel : Nat} (hf : (c.allGroups pub).length < fuel)
    (hn : ∀ a ∈ c.allGroups pub, a.Fits) :
    ∃ L, loopList UGroupIter.done (fun it => (derefVal it.val).bind AnyGroup.into) (·.next pub) fuel
        (c.ugroupIter pub true true true) = .ok L ∧ List.Forall₂ CAnyGroup.Holds L (c.allGroups pub) := by
  refine loop_holds _ _ _ (ugroup_loop pub c hf _ (.inl rfl)).1 fun a ha => ?_
  · have hfit := hn a ha
    cases a with
    | group g =>
      have : ∃ g', g.viaC = .ok g' := by
        unfold Group.viaC
        rw [copyCStr_fits (Nat.lt_succ_of_le hfit)]; exact ⟨_, rfl⟩
      obtain ⟨g', hg⟩ := this
      exact ⟨.group g', by show Out.bind _ _ = _; rw [hg]; rfl, ugroups_via_c_sound.1 g g' hg⟩
    | legacy g =>
      have : ∃ g', g.viaC = .ok g' := by
        unfold Legacy.viaC
        rw [copyCStr_fits (Nat.lt_succ_of_le hfit)]; exact ⟨_, rfl⟩
      obtain ⟨g', hg⟩ := this
      exact ⟨.legacy g', by show Out.bind _ _ = _; rw [hg]; rfl, ugroups_via_c_sound.2 g g' hg⟩
    | comm x =>
      have hx : x ∈ c.ucomms := by
        unfold Client.allGroups at ha
        simp only [List.mem_append, List.mem_map] at ha
        rcases ha with (⟨y, _, hy⟩ | ⟨y, hy, e⟩) | ⟨y, _, hy⟩
        · cases hy
        · cases e; exact hy
        · cases hy
      obtain ⟨e1, ⟨r, e2⟩, e3⟩ := ucomms_fields hx
      obtain ⟨s, hs, hh⟩ := comm_into e1 e2 e3
      exact ⟨.comm s, by show Out.bind _ _ = _; rw [hs]; rfl, hh⟩

/-! ### Members of a legacy group, kicked -/

theorem count_fold (wm wa : Bool) : ∀ (m : Members) (n : Nat) (a b : Option Nat),
    m.foldl (fun r x => (r.1, if x.2 then r.2.1 else r.2.1.map (· + 1), if x.2 then r.2.2.map (· + 1) else r.2.2)) (n, a, b) =
      (n, a.map (· + m.countP fun x => !x.2), b.map (· + m.countP fun x => x.2))
  | [], n, a, b => by simp
  | x :: t, n, a, b => by
    rw [List.foldl_cons, count_fold wm wa t]
    cases hx : x.2 <;> cases a <;> cases b <;> simp [hx, List.countP_cons] <;> omega

/-- **C124.** The C functions for the members of a legacy group: `add` refuses an id that is not valid, changing nothing, and
otherwise that member then has the status, the others as before, and the result tells whether anything changed; `count`
returns the number of members and stores at each pointer that is not null the number of its kind. -/
theorem c_legacy_members {m : Members} (hm : MembersOk m) (id : Bytes) (adm : Bool) :
    (checkId id pre05 = false → cMemberAdd m id adm = (m, false)) ∧
    (checkId id pre05 = true → MembersOk (cMemberAdd m id adm).1 ∧ mget id (cMemberAdd m id adm).1 = some adm ∧
      (∀ id', id' ≠ id → mget id' (cMemberAdd m id adm).1 = mget id' m) ∧
      ((cMemberAdd m id adm).2 = true ↔ mget id m ≠ some adm)) ∧
    (∀ wm wa, cMemberCount m wm wa =
      (m.length, (if wm then some ((m.filter fun x => x.2 = false).length) else none),
        if wa then some ((m.filter fun x => x.2 = true).length) else none)) := by
  refine ⟨fun h => by unfold cMemberAdd; rw [h]; rfl, fun h => ?_, fun wm wa => ?_⟩
  · have e : insertMember m id adm = .ok (cMemberAdd m id adm) := by
      unfold insertMember cMemberAdd
      rw [if_pos h, if_pos h]
      cases hg : mget id m with
      | none =>
        rw [if_neg (by simp)]
        simp only [memplace_eq hm.1, hg]
        rfl
      | some a =>
        by_cases ha : a = adm
        · subst ha; simp
        · rw [if_neg (by simpa using ha)]; simp [ha]
    exact insertMember_ok hm e
  · unfold cMemberCount
    rw [count_fold wm wa, List.countP_eq_length_filter, List.countP_eq_length_filter]
    cases wm <;> cases wa <;> simp

/-- **C124.** A group whose struct went through `ugroups_group_set_kicked` and is set reads back, through the C struct too, as
kicked, whatever was stored before. -/
theorem c_group_kicked {S : Sys} (hS : S.Good) {pub : Bytes → Bytes} (hpub : ∀ s, (pub s).length = 32)
    {c c' : Client} (hc : Reach S c) {g : Group} (hr : g.base.inRange = true)
    (h : c.cGroupSet S g.cKick = (c', .ok ())) :
    ∃ g', c'.getGroup pub g.id = .ok (some g') ∧ g'.kicked = true ∧
      ∀ g'', g'.viaC = .ok g'' → g''.cKicked = true ∧ g''.base = g.base.norm := by
  obtain ⟨g', h1, h2, h3⟩ := group_kicked hS hpub hc hr h
  refine ⟨g', h1, h2, fun g'' h4 => ?_⟩
  obtain ⟨_, e2, _, _, e5, _, e7⟩ := ugroups_via_c_sound.1 g' g'' h4
  unfold Group.kicked at h2
  simp only [Bool.and_eq_true, List.isEmpty_iff] at h2
  refine ⟨?_, e2.trans h3⟩
  unfold Group.cKicked
  rw [e5 (by rw [h2.1]; decide), e7 (by rw [h2.2]; decide)]
  rfl

/-! ### Instances -/

/-- `HTTP://AB.C:80/` and `roOm` spell `http://ab.c` and `Room`; an invalid port, an empty room; a set, a read, an erasure -/
example :
    let s : CUComm := ⟨exServer, [82, 111, 111, 109], List.replicate 32 3, { priority := 2, notify := .mentions }⟩
    let a := (exC3.cUCommSet exSys s).1
    (exC3.cUCommSet exSys s).2 = .ok () ∧ s.info.inRange = true ∧
    a.cUCommGet exServer2 [114, 79, 111, 109] = .ok ⟨some s, none⟩ ∧
    a.cUCommGet exServer [120] = .ok ⟨none, none⟩ ∧
    a.cUCommGet (exServer ++ [58]) [120] = .ok ⟨none, some (asc "Invalid community URL: invalid port".toList)⟩ ∧
    a.cUCommGet exServer [] = .ok ⟨none, some (asc "Invalid community room: room token cannot be empty".toList)⟩ ∧
    (a.cCommErase exSys exServer2 [82, 79, 79, 77]).2 = .ok true ∧ (a.cCommErase exSys [] [82]).2 = .ok false := by decide +kernel

example :
    let s : CConvoComm := ⟨exServer2, [82, 79], List.replicate 32 3, ⟨exRecent, true⟩⟩
    let a := (exC3.cCommSet exSys exNow s).1
    (exC3.cCommSet exSys exNow s).2 = .ok () ∧ int64Ok s.convo.lastRead = true ∧ 0 ≤ s.convo.lastRead ∧
    a.cCommGet exServer [114, 111] = .ok ⟨some ⟨exServer, [114, 111], List.replicate 32 3, ⟨exRecent, true⟩⟩, none⟩ ∧
    a.cCommGet exServer [46] =
      .ok ⟨none, some (asc "Invalid community URL: room token contains invalid characters".toList)⟩ ∧
    a.cCommOr exServer [120] (List.replicate 32 9) = .ok ⟨some ⟨exServer, [120], List.replicate 32 9, {}⟩, none⟩ := by decide +kernel

/-- A room of a server without a key, as a device that writes only the room would send it -/
example :
    let a := (exC3.assign exSys (roomPath exServer [120] ++ [[117]]) (.scalar (.int 1))).1
    Reach exSys a ∧ a.getComm exServer [120] = .ok (some ⟨exServer, [120], [], ⟨0, true⟩⟩) ∧ a.cCommGet exServer [120] = .ub := by
  intro a
  have h : a.getComm exServer [120] = .ok (some ⟨exServer, [120], [], ⟨0, true⟩⟩) := by decide +kernel
  refine ⟨?_, h, (c_comm_overread a _ _).1 _ h (by decide)⟩
  exact (assign_get exSys_good exC3_reach (by decide) (by decide) (pair_ok (by decide +kernel))).2.2

example : exConvos.convoList.length = 6 ∧ ∃ L : List CConvoAny, L.length = 6 ∧
    loopList ConvoIter.done (fun it => (derefVal it.val).bind ConvoAny.into) ConvoIter.next 7
      (exConvos.convoIter true true true true) = .ok L := by
  have h : exConvos.convoList.length = 6 := by decide +kernel
  obtain ⟨L, h1, h2⟩ := c_convo_loop exConvos (fuel := 7) (by rw [h]; decide)
  exact ⟨h, L, h2.length_eq.trans h, h1⟩

example :
    let b := (((exC3.setUComm exSys exUComm).1.setLegacy exSys exLegacy).1.setGroup exSys exOwn).1
    (∀ a ∈ b.allGroups exPub, a.Fits) ∧ b.allGroups exPub = [.group exOwn, .comm exUComm, .legacy exLegacy] := by
  intro b
  have h : b.allGroups exPub = [.group exOwn, .comm exUComm, .legacy exLegacy] := by decide +kernel
  refine ⟨fun a ha => ?_, h⟩
  rw [h] at ha
  simp only [List.mem_cons, List.not_mem_nil, or_false] at ha
  rcases ha with rfl | rfl | rfl
  · exact (by decide +kernel : exOwn.name.length ≤ 100)
  · trivial
  · exact (by decide +kernel : exLegacy.name.length ≤ 100)

example :
    let m := (cMemberAdd [] exId true).1
    MembersOk m ∧ cMemberAdd m exId true = (m, false) ∧ cMemberAdd m exId false = ([(exId, false)], true) ∧
    cMemberAdd m [48, 53] true = (m, false) ∧ cMemberCount (cMemberAdd m exId2 false).1 true false = (2, some 1, none) := by
  refine ⟨⟨?_, ?_⟩, ?_⟩
  · decide +kernel
  · decide +kernel
  · decide +kernel

end Verif
