import Verif.Construct
import Verif.Props.CErr
import Verif.Props.UserComm
import Verif.Props.UserGroupsWitness

/-!
# Records that need not exist yet
-/

namespace Verif

/-- `get_or_construct` against `get`: an invalid id is an error for both; for a valid one `get` succeeds, and the result is
what it found, or else the default -/
def OrDefault {R : Type} (valid : Bool) (get : Out (Option R)) (new : R) (res : Out R) : Prop :=
  (valid = false → (∃ e, get = .err e) ∧ ∃ e, res = .err e) ∧
  (valid = true → (∃ r, get = .ok r) ∧ (∀ r, get = .ok (some r) → res = .ok r) ∧ (get = .ok none → res = .ok new))

theorem orDefault_of {R : Type} {valid : Bool} {get : Out (Option R)} {new : R} {res : Out R}
    (h0 : valid = false → get = .err .foreign) (h1 : valid = true → ∃ r, get = .ok r)
    (hr : res = get.bind fun r => match r with | some r => .ok r | none => if valid then .ok new else .err .foreign) :
    OrDefault valid get new res := by
  refine ⟨fun h => ⟨⟨_, h0 h⟩, .foreign, by rw [hr, h0 h]; rfl⟩, fun h => ⟨h1 h, fun r hg => by rw [hr, hg]; rfl, fun hg => ?_⟩⟩
  rw [hr, hg]
  exact if_pos h

/-- **C112.** For contacts, conversations, groups, legacy groups and group members, in every state and for every id,
`get_or_construct` gives what `get` finds and otherwise a record with nothing but the id. -/
theorem or_construct (pub : Bytes → Bytes) (c : Client) (id : Bytes) (k : ConvoKind) :
    OrDefault (checkId id pre05) (c.getContact id) { id := id } (c.getOrConstruct id) ∧
    OrDefault (checkId id k.pre) (c.getConvo k id) {} (c.convo k id) ∧
    OrDefault (checkId id pre03) (c.getGroup pub id) { id := id } (c.groupOr pub id) ∧
    OrDefault (checkId id pre05) (c.getLegacy id) { id := id } (c.legacyOr id) ∧
    OrDefault (checkId id pre05) (c.getMember id) { id := id } (c.memberOr id) := by
  have aux : ∀ {R : Type} {valid : Bool} {get : Out (Option R)} {new : R},
      (valid = false → get = .err .foreign) → (valid = true → ∃ r, get = .ok r) →
      (get.bind fun r => .ok (r.getD new)) =
        get.bind fun r => match r with | some r => .ok r | none => if valid then .ok new else .err .foreign := by
    intro R valid get new h0 h1
    cases valid with
    | false => rw [h0 rfl]; rfl
    | true => obtain ⟨r, hr⟩ := h1 rfl; rw [hr]; cases r <;> rfl
  refine ⟨orDefault_of (getContact_err c id) (getContact_isOk c id) ?_,
    orDefault_of (getConvo_err c id k) (getConvo_isOk c id k) ?_,
    orDefault_of (getRec_err c id _ _ _) (getRec_isOk c id _ _ _) ?_,
    orDefault_of (getRec_err c id _ _ _) (getRec_isOk c id _ _ _) ?_,
    orDefault_of (getRec_err c id _ _ _) (getRec_isOk c id _ _ _) ?_⟩
  · unfold Client.getOrConstruct
    congr 1
    funext r
    cases r <;> rfl
  · exact aux (getConvo_err c id k) (getConvo_isOk c id k)
  · exact aux (getRec_err c id pathG pre03 (Group.load pub)) (getRec_isOk c id _ _ _)
  · exact aux (getRec_err c id pathL pre05 Legacy.load) (getRec_isOk c id _ _ _)
  · exact aux (getRec_err c id pathM pre05 GMember.load) (getRec_isOk c id _ _ _)

/-- **C112, communities.** `get_or_construct_community` succeeds exactly with a key of 32 bytes where `get_community`
succeeds, and gives what that finds, with the given key; otherwise a community with no settings. -/
theorem ucomm_or (c : Client) (base room pk : Bytes) :
    (∀ y, c.ucommOr base room pk = .ok y → pk.length = 32 ∧ y.pubkey = pk ∧ canonUrl base = .ok y.base ∧
      (c.getUComm base room = .ok none ∧ y.room = room ∧ y.info = {} ∨
       ∃ k, c.getUComm base room = .ok (some { y with pubkey := k }))) ∧
    (pk.length = 32 → (∃ r, c.getUComm base room = .ok r) → ∃ y, c.ucommOr base room pk = .ok y) := by
  unfold Client.ucommOr Client.getUComm
  cases hb : canonUrl base with
  | ok b =>
    cases hr : canonRoom room with
    | ok r =>
      simp only [Out.bind]
      have hl : ∀ k, (loadComm b room k (c.get (roomPath b r)) = .ok none ∧ loadComm b room pk (c.get (roomPath b r)) = .ok none) ∨
          (∃ n i, loadComm b room k (c.get (roomPath b r)) = .ok (some ⟨b, n, k, i⟩) ∧
            loadComm b room pk (c.get (roomPath b r)) = .ok (some ⟨b, n, pk, i⟩)) ∨
          (loadComm b room k (c.get (roomPath b r)) = loadComm b room pk (c.get (roomPath b r)) ∧
            ∀ x, loadComm b room k (c.get (roomPath b r)) ≠ .ok x) := by
        intro k
        unfold loadComm
        split
        · cases loadRoom room ‹_› with
          | ok n => exact .inr (.inl ⟨n, _, rfl, rfl⟩)
          | err e => exact .inr (.inr ⟨rfl, fun x h => by cases h⟩)
          | hang => exact .inr (.inr ⟨rfl, fun x h => by cases h⟩)
          | ub => exact .inr (.inr ⟨rfl, fun x h => by cases h⟩)
        · exact .inl ⟨rfl, rfl⟩
      rcases hl (c.serverKey b) with ⟨e1, e2⟩ | ⟨n, i, e1, e2⟩ | ⟨e1, e2⟩
      · rw [e1, e2]
        refine ⟨fun y hy => ?_, fun h _ => ⟨⟨b, room, pk, {}⟩, by rw [if_pos h]; rfl⟩⟩
        split at hy
        · rename_i h32
          cases hy
          exact ⟨h32, rfl, rfl, .inl ⟨rfl, rfl, rfl⟩⟩
        · cases hy
      · rw [e1, e2]
        refine ⟨fun y hy => ?_, fun h _ => ⟨⟨b, n, pk, i⟩, by rw [if_pos h]; rfl⟩⟩
        split at hy
        · rename_i h32
          cases hy
          exact ⟨h32, rfl, rfl, .inr ⟨_, rfl⟩⟩
        · cases hy
      · refine ⟨fun y hy => ?_, fun _ ⟨x, h⟩ => absurd h (e2 x)⟩
        split at hy
        · rw [← e1] at hy
          cases hg : loadComm b room (c.serverKey b) (c.get (roomPath b r)) with
          | ok x => exact absurd hg (e2 x)
          | err e => rw [hg] at hy; cases hy
          | hang => rw [hg] at hy; cases hy
          | ub => rw [hg] at hy; cases hy
        · cases hy
    | err e => exact ⟨fun y hy => (by cases hy), fun _ ⟨x, h⟩ => by cases h⟩
    | hang => exact ⟨fun y hy => (by cases hy), fun _ ⟨x, h⟩ => by cases h⟩
    | ub => exact ⟨fun y hy => (by cases hy), fun _ ⟨x, h⟩ => by cases h⟩
  | err e => exact ⟨fun y hy => (by cases hy), fun _ ⟨x, h⟩ => by cases h⟩
  | hang => exact ⟨fun y hy => (by cases hy), fun _ ⟨x, h⟩ => by cases h⟩
  | ub => exact ⟨fun y hy => (by cases hy), fun _ ⟨x, h⟩ => by cases h⟩

/-- The same for the conversations of communities. -/
theorem comm_convo_or (c : Client) (base room pk : Bytes) :
    (∀ y, c.commConvo base room pk = .ok y → pk.length = 32 ∧ y.pubkey = pk ∧ canonUrl base = .ok y.base ∧
      canonRoom room = .ok y.room ∧
      (c.getComm base room = .ok none ∧ y.convo = {} ∨ ∃ k, c.getComm base room = .ok (some { y with pubkey := k }))) ∧
    (pk.length = 32 → (∃ r, c.getComm base room = .ok r) → ∃ y, c.commConvo base room pk = .ok y) := by
  unfold Client.commConvo Client.getComm
  cases hr : canonRoom room with
  | ok r =>
    cases hb : canonUrl base with
    | ok b =>
      simp only [Out.bind]
      refine ⟨fun y hy => ?_, fun h _ => ⟨_, if_pos h⟩⟩
      split at hy
      · rename_i h32
        cases hy
        refine ⟨h32, rfl, rfl, rfl, ?_⟩
        cases hl : loadConvo (c.get (roomPath b r)) with
        | none => exact .inl ⟨rfl, rfl⟩
        | some x => exact .inr ⟨_, rfl⟩
      · cases hy
    | err e => exact ⟨fun y hy => (by cases hy), fun _ ⟨x, h⟩ => by cases h⟩
    | hang => exact ⟨fun y hy => (by cases hy), fun _ ⟨x, h⟩ => by cases h⟩
    | ub => exact ⟨fun y hy => (by cases hy), fun _ ⟨x, h⟩ => by cases h⟩
  | err e => exact ⟨fun y hy => (by cases hy), fun _ ⟨x, h⟩ => by cases h⟩
  | hang => exact ⟨fun y hy => (by cases hy), fun _ ⟨x, h⟩ => by cases h⟩
  | ub => exact ⟨fun y hy => (by cases hy), fun _ ⟨x, h⟩ => by cases h⟩

/-- **C112, URLs.** With a server URL in normal form, an acceptable room and a key of 32 bytes, the functions taking a URL do
what those taking its parts do, and the key may be given in hex (in either case). -/
theorem comm_by_url (K : Codecs) (c : Client) {base room r pk : Bytes} (hb : canonUrl base = .ok base) (hr : canonRoom room = .ok r)
    (hk : pk.length = 32) :
    c.ucommOrUrl K (fullUrl base room pk) = c.ucommOr base room pk ∧
    c.getUCommUrl K (fullUrl base room pk) = c.getUComm base room ∧
    c.getUCommUrl K (base ++ 47 :: room) = c.getUComm base room ∧
    c.getUCommUrl K (base ++ sR ++ room) = c.getUComm base room ∧
    c.commConvoUrl K (fullUrl base room pk) = c.commConvo base room pk ∧
    c.getCommUrl K (fullUrl base room pk) = c.getComm base room ∧
    c.getCommUrl K (base ++ 47 :: room) = c.getComm base room ∧
    c.getCommUrl K (base ++ sR ++ room) = c.getComm base room := by
  obtain ⟨h1, _, h3, h4, _⟩ := full_url_roundtrip K hb hr hk
  have h5 : K.parsePartial (fullUrl base room pk) = .ok (base, room, some pk) := by
    unfold Codecs.parseFull at h1
    cases hp : K.parsePartial (fullUrl base room pk) with
    | ok x =>
      rw [hp] at h1
      simp only [Out.bind_ok] at h1
      obtain ⟨x1, x2, x3⟩ := x
      cases x3 with
      | some k => cases h1; rfl
      | none => cases h1
    | err e => rw [hp] at h1; cases h1
    | hang => rw [hp] at h1; cases h1
    | ub => rw [hp] at h1; cases h1
  unfold Client.ucommOrUrl Client.getUCommUrl Client.commConvoUrl Client.getCommUrl
  rw [h1, h3, h4, h5]
  exact ⟨rfl, rfl, rfl, rfl, rfl, rfl, rfl, rfl⟩

/-- **C112.** With the key as 64 hex digits: the same as with its bytes, only that a conversation keeps the room's spelling. -/
theorem comm_by_hex (K : Codecs) (c : Client) {base room enc : Bytes} (hl : enc.length = 64) (hx : isHex enc = true) :
    c.ucommOrEnc K base room enc = c.ucommOr base room (fromHex enc) ∧
    (∀ y, c.commConvoEnc K base room enc = .ok y ↔
      y.room = room ∧ ∃ r, canonRoom room = .ok r ∧ c.commConvo base room (fromHex enc) = .ok { y with room := r }) := by
  have hd : K.decodePubkey enc = .ok (fromHex enc) := by unfold Codecs.decodePubkey; rw [if_pos ⟨hl, hx⟩]
  have h32 : (fromHex enc).length = 32 := by rw [fromHex_length, hl]
  constructor
  · unfold Client.ucommOrEnc Client.ucommOr
    rw [hd, h32]
    rfl
  · intro y
    unfold Client.commConvoEnc Client.commConvo
    rw [hd, h32]
    cases hb : canonUrl base with
    | ok b => cases hr : canonRoom room with
      | ok r =>
        simp only [Out.bind, if_true]
        constructor
        · intro h
          cases h
          exact ⟨rfl, r, rfl, rfl⟩
        · rintro ⟨h1, r', h2, h3⟩
          cases h2
          obtain ⟨y1, y2, y3, y4⟩ := y
          have h3 := Out.ok.inj h3
          simp only [CommConvo.mk.injEq, true_and] at h3
          simp only at h1
          rw [h1, ← h3.1, h3.2.1, h3.2.2]
      | _ => simp [Out.bind]
    | _ => cases canonRoom room <;> simp [Out.bind]

/-- **C112.** A community found by iterating is found by its URL: its full URL gives it back exactly, whatever spelling
it was looked up under. -/
theorem ucomm_found_by_url (K : Codecs) {S : Sys} (hS : S.Good) {c : Client} (hc : Reach S c) (hcn : c.CanonRooms)
    {x : Comm} (hx : x ∈ c.ucomms) :
    c.ucommOrUrl K (fullUrl x.base x.room x.pubkey) = .ok x ∧ c.getUCommUrl K (x.base ++ 47 :: x.room) = .ok (some x) := by
  have hi := (ucomm_iter hS hc hcn x).1 hx
  obtain ⟨b, r, rr, h1, h2, h3, h4, h5⟩ := (mem_ucomms hS hc x).1 hx
  have hb := canonical_url_idem _ _ h1
  have hg := hi.1
  obtain ⟨v, hv⟩ : ∃ v, canonRoom x.room = .ok v := by
    unfold Client.getUComm at hg
    rw [hb] at hg
    cases hr : canonRoom x.room with
    | ok v => exact ⟨v, rfl⟩
    | err e => rw [hr] at hg; cases hg
    | hang => rw [hr] at hg; cases hg
    | ub => rw [hr] at hg; cases hg
  obtain ⟨u1, _, u3, _⟩ := comm_by_url K c hb hv h4
  refine ⟨?_, by rw [u3, hg]⟩
  rw [u1]
  obtain ⟨s1, s2⟩ := ucomm_or c x.base x.room x.pubkey
  obtain ⟨y, hy⟩ := s2 h4 ⟨_, hg⟩
  obtain ⟨_, e1, _, e2⟩ := s1 y hy
  rcases e2 with ⟨e2, _⟩ | ⟨k, e2⟩
  · rw [hg] at e2; cases e2
  · rw [hg] at e2
    have e3 := Option.some.inj (Out.ok.inj e2)
    rw [hy]
    congr 1
    rw [e3] at e1 ⊢
    simp only at e1
    rw [← e1]

/-! ### Instances -/

/-- A community set on a reachable object (`exC3.CanonRooms` is shown beside C86, and `set` keeps it: `ucomm_set_canon`) is
found by its URL, and one never set is constructed. -/
example :
    let a := (exC3.setUComm exSys exUComm).1
    let K : Codecs := ⟨fun _ => none, fun _ => none⟩
    a.ucomms = [exUComm] ∧ exC3.ucomms = [] ∧
    a.ucommOrUrl K (fullUrl exUComm.base exUComm.room exUComm.pubkey) = .ok exUComm ∧
    a.ucommOr exServer2 [120] (List.replicate 32 9) = .ok ⟨exUComm.base, [120], List.replicate 32 9, {}⟩ ∧
    (a.ucommOr exServer2 [120] [9]).isOk = false ∧
    (a.commConvoUrl K (fullUrl exUComm.base exUComm.room exUComm.pubkey)).isOk = true := by
  decide +kernel

example : exC3.getContact exId = .ok none ∧ (exC3.getOrConstruct exId).isOk = true ∧ (exC3.getOrConstruct (exId ++ [48])).isOk = false := by
  decide +kernel

end Verif
