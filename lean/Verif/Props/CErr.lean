import Verif.CErr
import Verif.Props.GroupMembers

/-!
# Errors in the C interface
-/

namespace Verif

/-- What a caller of a C getter with an id argument may expect, for one id: for an invalid id no record and the exception's
message as error; for a valid one no error, and the record, if there is one. -/
def Reports {R T : Type} (id pre : Bytes) (get : Out (Option R)) (into : R → Out T) (reply : Out (CReply T)) : Prop :=
  (checkId id pre = false → reply = .ok ⟨none, some (sessionIdMsg pre id)⟩) ∧
  (checkId id pre = true → ∃ r, get = .ok r ∧ (r = none → reply = .ok ⟨none, none⟩) ∧
    ∀ x t, r = some x → into x = .ok t → reply = .ok ⟨some t, none⟩)

theorem sessionIdMsg_length {pre id : Bytes} (hp : pre.length = 2) : (sessionIdMsg pre id).length = 65 + id.length := by
  have h1 : (asc "Invalid session ID: expected 66 hex digits starting with ".toList).length = 57 := by decide +kernel
  have h2 : (asc "; got ".toList).length = 6 := by decide +kernel
  unfold sessionIdMsg
  simp only [List.length_append, h1, h2, hp]

theorem cGet_reports {R T : Type} {id pre : Bytes} (hp : pre.length = 2) {get : Out (Option R)} {into : R → Out T} (hl : id.length < 191)
    (h0 : checkId id pre = false → get = .err .foreign) (h1 : checkId id pre = true → ∃ r, get = .ok r) :
    Reports id pre get into (cGet (sessionIdMsg pre id) into get) := by
  refine ⟨fun h => ?_, fun h => ?_⟩
  · rw [h0 h]
    show (copyCStr 256 _).bind _ = _
    unfold copyCStr
    rw [if_pos (by rw [sessionIdMsg_length hp]; omega)]
    rfl
  · obtain ⟨r, hr⟩ := h1 h
    refine ⟨r, hr, fun hn => by rw [hr, hn]; rfl, fun x t hx ht => ?_⟩
    rw [hr, hx]
    show (into x).bind _ = _
    rw [ht]; rfl

theorem cGetStr_reports {R T : Type} {id pre : Bytes} {get : Out (Option R)} {into : R → Out T}
    (h0 : checkId id pre = false → get = .err .foreign) (h1 : checkId id pre = true → ∃ r, get = .ok r) :
    Reports id pre get into (cGetStr (sessionIdMsg pre id) into get) := by
  refine ⟨fun h => by rw [h0 h]; rfl, fun h => ?_⟩
  obtain ⟨r, hr⟩ := h1 h
  refine ⟨r, hr, fun hn => by rw [hr, hn]; rfl, fun x t hx ht => ?_⟩
  rw [hr, hx]
  show (into x).bind _ = _
  rw [ht]; rfl

theorem cGet_overflows {R T : Type} {id pre : Bytes} (hp : pre.length = 2) {get : Out (Option R)} {into : R → Out T} (hl : 191 ≤ id.length)
    (h0 : get = .err .foreign) : cGet (sessionIdMsg pre id) into get = .ub := by
  rw [h0]
  show (copyCStr 256 _).bind _ = _
  unfold copyCStr
  rw [if_neg (by rw [sessionIdMsg_length hp]; omega)]
  rfl

theorem idBytes_err {id pre : Bytes} (h : checkId id pre = false) : idBytes id pre = .err .foreign := by
  unfold idBytes; rw [h]; rfl

theorem idBytes_isOk {id pre : Bytes} (h : checkId id pre = true) : ∃ b, idBytes id pre = .ok b := by
  unfold idBytes; rw [h]; exact ⟨_, rfl⟩

section
variable (c : Client) (id : Bytes)

theorem getContact_err (h : checkId id pre05 = false) : c.getContact id = .err .foreign := by
  unfold Client.getContact; rw [idBytes_err h]; rfl

theorem getContact_isOk (h : checkId id pre05 = true) : ∃ r, c.getContact id = .ok r := by
  obtain ⟨b, hb⟩ := idBytes_isOk h
  unfold Client.getContact; rw [hb]; exact ⟨_, rfl⟩

theorem getOrConstruct_isOk (h : checkId id pre05 = true) : ∃ r, c.getOrConstruct id = .ok r := by
  obtain ⟨r, hr⟩ := getContact_isOk c id h
  unfold Client.getOrConstruct; rw [hr]
  cases r with
  | none => exact ⟨_, if_pos h⟩
  | some r => exact ⟨r, rfl⟩

theorem getConvo_err (k : ConvoKind) (h : checkId id k.pre = false) : c.getConvo k id = .err .foreign := by
  unfold Client.getConvo; rw [idBytes_err h]; rfl

theorem getConvo_isOk (k : ConvoKind) (h : checkId id k.pre = true) : ∃ r, c.getConvo k id = .ok r := by
  obtain ⟨b, hb⟩ := idBytes_isOk h
  unfold Client.getConvo; rw [hb]; exact ⟨_, rfl⟩

theorem getRec_err {R : Type} (P : List Bytes) (pre : Bytes) (L : Bytes → Dict → R) (h : checkId id pre = false) :
    c.getRec P pre L id = .err .foreign := by
  unfold Client.getRec; rw [idBytes_err h]; rfl

theorem getRec_isOk {R : Type} (P : List Bytes) (pre : Bytes) (L : Bytes → Dict → R) (h : checkId id pre = true) :
    ∃ r, c.getRec P pre L id = .ok r := by
  obtain ⟨b, hb⟩ := idBytes_isOk h
  unfold Client.getRec; rw [hb]; exact ⟨_, rfl⟩

end

theorem bind_err_some {R : Type} {x : Out R} (h : x = .err .foreign) : (x.bind fun r => Out.ok (some r)) = .err .foreign := by rw [h]; rfl

theorem bind_isOk_some {R : Type} {x : Out R} (h : ∃ r, x = .ok r) : ∃ r, (x.bind fun r => Out.ok (some r)) = .ok r := by
  obtain ⟨r, h⟩ := h; exact ⟨some r, by rw [h]; rfl⟩

theorem ConvoKind.pre_length (k : ConvoKind) : k.pre.length = 2 := by cases k <;> rfl

/-- **C109** (partial: for ids of at most 190 bytes).  The C getters of contacts, conversations, legacy groups and group
members, for every state and id: an invalid id is reported with the message of the exception, a valid one without error. -/
theorem c_get_reports_partial (c : Client) {id : Bytes} (hl : id.length < 191) (k : ConvoKind) :
    Reports id pre05 (c.getContact id) Contact.viaC (c.cContactsGet id) ∧
    Reports id pre05 ((c.getOrConstruct id).bind fun r => .ok (some r)) Contact.viaC (c.cContactsOr id) ∧
    Reports id k.pre (c.getConvo k id) .ok (c.cConvoGet k id) ∧
    Reports id k.pre ((c.convo k id).bind fun r => .ok (some r)) .ok (c.cConvoOr k id) ∧
    Reports id pre05 (c.getLegacy id) Legacy.viaC (c.cLegacyGet id) ∧
    Reports id pre05 ((c.legacyOr id).bind fun r => .ok (some r)) Legacy.viaC (c.cLegacyOr id) ∧
    Reports id pre05 (c.getMember id) GMember.viaC (c.cMemberGet id) ∧
    Reports id pre05 ((c.memberOr id).bind fun r => .ok (some r)) GMember.viaC (c.cMemberOr id) := by
  have h5 : pre05.length = 2 := rfl
  refine ⟨cGet_reports h5 hl (getContact_err c id) (getContact_isOk c id),
    cGet_reports h5 hl (fun h => bind_err_some ?_) (fun h => bind_isOk_some (getOrConstruct_isOk c id h)),
    cGet_reports k.pre_length hl (getConvo_err c id k) (getConvo_isOk c id k),
    cGet_reports k.pre_length hl (fun h => bind_err_some ?_) (fun h => bind_isOk_some ?_),
    cGet_reports h5 hl (getRec_err c id _ _ _) (getRec_isOk c id _ _ _),
    cGet_reports h5 hl (fun h => bind_err_some ?_) (fun h => bind_isOk_some ?_),
    cGet_reports h5 hl (getRec_err c id _ _ _) (getRec_isOk c id _ _ _),
    cGet_reports h5 hl (fun h => bind_err_some ?_) (fun h => bind_isOk_some ?_)⟩
  · unfold Client.getOrConstruct; rw [getContact_err c id h]; rfl
  · unfold Client.convo; rw [getConvo_err c id k h]; rfl
  · obtain ⟨r, hr⟩ := getConvo_isOk c id k h
    unfold Client.convo; rw [hr]; exact ⟨_, rfl⟩
  · unfold Client.legacyOr Client.getLegacy; rw [getRec_err c id _ _ _ h]; rfl
  · obtain ⟨r, hr⟩ := getRec_isOk c id pathL pre05 Legacy.load h
    unfold Client.legacyOr Client.getLegacy; rw [hr]; exact ⟨_, rfl⟩
  · unfold Client.memberOr Client.getMember; rw [getRec_err c id _ _ _ h]; rfl
  · obtain ⟨r, hr⟩ := getRec_isOk c id pathM pre05 GMember.load h
    unfold Client.memberOr Client.getMember; rw [hr]; exact ⟨_, rfl⟩

/-- C109, the getters of groups: for every id. -/
theorem c_group_get_reports (pub : Bytes → Bytes) (c : Client) (id : Bytes) :
    Reports id pre03 (c.getGroup pub id) Group.viaC (c.cGroupGet pub id) ∧
    Reports id pre03 ((c.groupOr pub id).bind fun r => .ok (some r)) Group.viaC (c.cGroupOr pub id) := by
  refine ⟨cGetStr_reports (getRec_err c id _ _ _) (getRec_isOk c id _ _ _),
    cGetStr_reports (fun h => bind_err_some ?_) (fun h => bind_isOk_some ?_)⟩
  · unfold Client.groupOr Client.getGroup; rw [getRec_err c id _ _ _ h]; rfl
  · obtain ⟨r, hr⟩ := getRec_isOk c id pathG pre03 (Group.load pub) h
    unfold Client.groupOr Client.getGroup; rw [hr]; exact ⟨_, rfl⟩

/-- **C109, what fails.** With a longer id, which is always invalid, each of these getters writes beyond the error buffer,
whatever the state. -/
theorem c_get_overflows (c : Client) {id : Bytes} (hl : 191 ≤ id.length) (k : ConvoKind) :
    c.cContactsGet id = .ub ∧ c.cContactsOr id = .ub ∧ c.cConvoGet k id = .ub ∧ c.cConvoOr k id = .ub ∧
    c.cLegacyGet id = .ub ∧ c.cLegacyOr id = .ub ∧ c.cMemberGet id = .ub ∧ c.cMemberOr id = .ub := by
  have hc : ∀ pre : Bytes, pre.length = 2 → checkId id pre = false := by
    intro pre hp
    unfold checkId
    have : ¬ (id.length == 64 + pre.length) = true := by simp; omega
    simp [this]
  have h5 : pre05.length = 2 := rfl
  have h := hc pre05 h5
  have hk := hc k.pre k.pre_length
  refine ⟨cGet_overflows h5 hl (getContact_err c id h), cGet_overflows h5 hl (bind_err_some ?_),
    cGet_overflows k.pre_length hl (getConvo_err c id k hk), cGet_overflows k.pre_length hl (bind_err_some ?_),
    cGet_overflows h5 hl (getRec_err c id _ _ _ h), cGet_overflows h5 hl (bind_err_some ?_),
    cGet_overflows h5 hl (getRec_err c id _ _ _ h), cGet_overflows h5 hl (bind_err_some ?_)⟩
  · unfold Client.getOrConstruct; rw [getContact_err c id h]; rfl
  · unfold Client.convo; rw [getConvo_err c id k hk]; rfl
  · unfold Client.legacyOr Client.getLegacy; rw [getRec_err c id _ _ _ h]; rfl
  · unfold Client.memberOr Client.getMember; rw [getRec_err c id _ _ _ h]; rfl

/-- **C109, what fails.** The C setters let the exception for an invalid id out. -/
theorem c_set_throws (S : Sys) (now : Int) (c : Client) :
    (∀ r : Contact, checkId r.id pre05 = false → (c.cContactsSet S r).2 = .err .foreign) ∧
    (∀ k id x, checkId id (ConvoKind.pre k) = false → (c.cConvoSet S now k id x).2 = .err .foreign) ∧
    (∀ g : Group, checkId g.id pre03 = false → (c.cGroupSet S g).2 = .err .foreign) ∧
    (∀ g : Legacy, checkId g.id pre05 = false → (c.cLegacySet S g).2 = .err .foreign) ∧
    (∀ m : GMember, checkId m.id pre05 = false → (c.cMemberSet S m).2 = .err .foreign) := by
  refine ⟨fun r h => ?_, fun k id x h => ?_, fun g h => ?_, fun g h => ?_, fun m h => ?_⟩
  · unfold Client.cContactsSet Client.setContact; rw [idBytes_err h]
  · unfold Client.cConvoSet Client.setConvo; rw [idBytes_err h]
  all_goals
    first
    | (unfold Client.cGroupSet Client.setGroup Client.setRec; rw [idBytes_err h])
    | (unfold Client.cLegacySet Client.setLegacy Client.setRec; rw [idBytes_err h])
    | (unfold Client.cMemberSet Client.setMember Client.setRec; rw [idBytes_err h])

/-- C109.  The messages of the `..._init` and `groups_keys_...` functions are cut to fit: in a buffer of 256 bytes a C program
finds the first 255 bytes of the message. -/
theorem c_error_fits {buf msg : Bytes} (hb : buf.length = 256) (h0 : 0 ∉ msg) :
    (∃ b, initError buf msg = .ok b ∧ b.length = 256 ∧ cStr b = msg.take 255) ∧
    (∃ b, keysError buf msg = .ok b ∧ b.length = 256 ∧ cStr b = msg.take 255) := by
  have hm : (if msg.length > 255 then msg.take 255 else msg) = msg.take 255 := by
    split
    · rfl
    · rw [List.take_of_length_le (by omega)]
  have ht : 0 ∉ msg.take 255 := fun h => h0 (List.mem_of_mem_take h)
  have hl : (msg.take 255).length ≤ 255 := by simp
  have hc : ∀ r : Bytes, cStr (msg.take 255 ++ 0 :: r) = msg.take 255 := by
    intro r
    unfold cStr
    rw [List.takeWhile_append_of_pos (by intro a ha; simpa using fun (e : a = 0) => ht (e ▸ ha))]
    simp
  constructor
  · unfold initError copy256
    rw [hm, if_pos (by simp only [List.length_append, List.length_singleton]; omega)]
    refine ⟨_, rfl, ?_, ?_⟩
    · simp only [List.length_append, List.length_singleton, List.length_drop]; omega
    · rw [List.append_assoc]; exact hc _
  · unfold keysError copy256
    simp only [hm]
    rw [if_pos (by omega)]
    simp only [Out.bind]
    have hlen : (msg.take 255 ++ buf.drop (msg.take 255).length).length = 256 := by
      simp only [List.length_append, List.length_drop]; omega
    rw [if_pos (by omega)]
    refine ⟨_, rfl, by rw [List.length_set]; exact hlen, ?_⟩
    have hd : buf.drop (msg.take 255).length ≠ [] := by
      intro h
      have := congrArg List.length h
      simp only [List.length_drop, List.length_nil] at this
      omega
    obtain ⟨x, t, hx⟩ := List.exists_cons_of_ne_nil hd
    rw [hx, List.set_append_right _ _ (Nat.le_refl _), Nat.sub_self, List.set_cons_zero]
    exact hc t

/-- What a caller of a C eraser may expect: no exception; if it returns true the record is gone, under every spelling of the id, and
the others are as before; if it returns false, nothing changed. -/
def Erases {R : Type} (same : Bytes → Bytes → Prop) (get : Client → Bytes → Out (Option R)) (size : Client → Nat) (c : Client) (id : Bytes)
    (r : Client × Out Bool) : Prop :=
  (∀ e, r.2 ≠ .err e) ∧
  (r.2 = .ok true → (∀ id', same id' id → get r.1 id' = .ok none) ∧ (∀ id', ¬ same id' id → get r.1 id' = get c id') ∧
    size c = size r.1 + 1) ∧
  (r.2 = .ok false → (∀ id', get r.1 id' = get c id') ∧ size c = size r.1)

theorem erases_of {R : Type} {same : Bytes → Bytes → Prop} {get : Client → Bytes → Out (Option R)} {size : Client → Nat} {c : Client}
    {id : Bytes} {r : Client × Out Bool}
    (hok : ∀ c' b, r = (c', .ok b) → (∀ id', same id' id → get c' id' = .ok none) ∧ (∀ id', ¬ same id' id → get c' id' = get c id') ∧
      (get c id ≠ .ok none → b = true) ∧ size c = size c' + (if b then 1 else 0))
    (herr : ∀ c' e, r = (c', .err e) → c' = c) (hs : ∀ id', same id' id → get c id = .ok none → get c id' = .ok none) :
    Erases same get size c id (cErase r) := by
  rcases r with ⟨c', o⟩
  cases o with
  | ok b =>
    obtain ⟨h1, h2, h3, h4⟩ := hok c' b rfl
    refine ⟨fun e he => (by cases he), fun h => ?_, fun h => ?_⟩
    · have : b = true := Out.ok.inj h
      subst this
      exact ⟨h1, h2, h4⟩
    · have : b = false := Out.ok.inj h
      subst this
      refine ⟨fun id' => ?_, h4⟩
      by_cases hi : same id' id
      · rw [hs id' hi (by
          by_contra hh
          cases h3 hh)]
        exact h1 id' hi
      · exact h2 id' hi
  | err e =>
    cases herr c' e rfl
    exact ⟨fun e he => (by cases he), (fun h => by cases h), fun _ => ⟨fun _ => rfl, rfl⟩⟩
  | hang => exact ⟨fun e he => (by cases he), (fun h => by cases h), (fun h => by cases h)⟩
  | ub => exact ⟨fun e he => (by cases he), (fun h => by cases h), (fun h => by cases h)⟩

theorem erase_err_same {S : Sys} {c c' : Client} {p : List Bytes} {e : Err} (h : c.erase S p = (c', .err e)) : c' = c := by
  unfold Client.erase Client.modify Client.edit Client.dirty at h
  repeat' split at h
  all_goals first | (cases h; rfl) | cases h

theorem eraseImpl_err_same {S : Sys} {c c' : Client} {p : List Bytes} {e : Err} (h : c.eraseImpl S p = (c', .err e)) : c' = c := by
  unfold Client.eraseImpl at h
  split at h <;> rename_i heq <;> cases h
  exact erase_err_same heq

/-- **C109.** The C erasers — of contacts, conversations, groups, legacy groups and group members — in every state, for every id. -/
theorem c_erase {S : Sys} (hS : S.Good) (pub : Bytes → Bytes) {c : Client} (hc : Reach S c) (id : Bytes) (k : ConvoKind) :
    Erases SameId Client.getContact Client.contactsSize c id (cErase (c.eraseContact S id)) ∧
    Erases (SameConvo k) (fun c id => c.getConvo k id) (fun c => c.convoSize k) c id (cErase (c.eraseConvo S k id)) ∧
    Erases (SameRec pre03) (fun c id => c.getGroup pub id) Client.groupsSize c id (cErase (c.eraseGroup S id)) ∧
    Erases (SameRec pre05) Client.getLegacy Client.legacySize c id (cErase (c.eraseLegacy S id)) ∧
    Erases (SameRec pre05) Client.getMember Client.membersSize c id (cErase (c.eraseGMember S id)) := by
  have hrec : ∀ {c' : Client} {P : List Bytes} {pre id : Bytes} {e : Err}, c.eraseRec S P pre id = (c', .err e) → c' = c := by
    intro c' P pre id e h
    unfold Client.eraseRec at h
    split at h
    · exact eraseImpl_err_same h
    all_goals cases h; try rfl
  have hsame : ∀ {R : Type} {P : List Bytes} {pre id : Bytes} {L : Bytes → Dict → R} (id' : Bytes), SameRec pre id' id →
      c.getRec P pre L id = .ok none → c.getRec P pre L id' = .ok none := by
    rintro R P pre id L id' ⟨pk, h1, h2⟩ h
    unfold Client.getRec at h ⊢
    rw [h2] at h
    rw [h1]
    have h : loadAt (L id) (c.get (P ++ [pk])) = none := Out.ok.inj h
    show Out.ok (loadAt (L id') (c.get (P ++ [pk]))) = _
    unfold loadAt at h ⊢
    split at h
    · cases h
    · rfl
  refine ⟨erases_of (fun c' b h => ?_) (fun c' e h => ?_) ?_, erases_of (fun c' b h => ?_) (fun c' e h => ?_) ?_,
    erases_of (fun c' b h => ?_) (fun c' e h => hrec h) hsame, erases_of (fun c' b h => ?_) (fun c' e h => hrec h) hsame,
    erases_of (fun c' b h => ?_) (fun c' e h => hrec h) hsame⟩
  · obtain ⟨_, h1, h2, _, h4, h5⟩ := contact_erase hS hc h
    exact ⟨h1, h2, h4, h5⟩
  · unfold Client.eraseContact at h
    split at h
    · split at h <;> rename_i heq <;> cases h
      exact erase_err_same heq
    all_goals cases h; try rfl
  · rintro id' ⟨pk, h1, h2⟩ h
    unfold Client.getContact at h ⊢
    rw [h2] at h
    rw [h1]
    have h := Out.ok.inj h
    show Out.ok _ = _
    congr 1
    split at h
    · cases h
    · rfl
  · obtain ⟨_, h1, h2, _, h4, h5, _⟩ := convo_erase hS hc h
    exact ⟨h1, fun id' hi => h2 k id' (.inr hi), h4, h5⟩
  · unfold Client.eraseConvo at h
    split at h
    · exact eraseImpl_err_same h
    all_goals cases h; try rfl
  · rintro id' ⟨pk, h1, h2⟩ h
    unfold Client.getConvo at h ⊢
    rw [h2] at h
    rw [h1]
    exact h
  · obtain ⟨_, h1, h2, _, h4, h5⟩ := group_erase hS pub hc h
    exact ⟨h1, h2, h4, h5⟩
  · obtain ⟨_, h1, h2, _, h4, h5⟩ := legacy_erase hS hc h
    exact ⟨h1, h2, h4, h5⟩
  · obtain ⟨_, h1, h2, _, h4, h5⟩ := gmember_erase hS hc h
    exact ⟨h1, h2, h4, h5⟩

/-! ### Instances -/

/-- A misspelt id, short enough: reported -/
example : exC0.cContactsGet [48, 53] = .ok ⟨none, some (sessionIdMsg pre05 [48, 53])⟩ := by decide +kernel

example : checkId [48, 53] pre05 = false ∧ checkId exId pre05 = true ∧ exId.length < 191 := by decide +kernel

/-- A long one: overflow -/
example : (exC0.cContactsGet (List.replicate 191 48)) = .ub := (c_get_overflows exC0 (by rw [List.length_replicate]) .oneToOne).1

/-- Erasing a contact that is there, one that is not, and with an id that is none -/
example : (cErase ((exC3.setContact exSys exContact).1.eraseContact exSys exId)).2 = .ok true ∧
    (cErase ((exC3.setContact exSys exContact).1.eraseContact exSys exId2)).2 = .ok false ∧
    (cErase (exC3.eraseContact exSys [48, 53])).2 = .ok false ∧ (exC3.eraseContact exSys [48, 53]).2 = .err .foreign := by decide +kernel

example : Erases SameId Client.getContact Client.contactsSize exC3 exId (cErase (exC3.eraseContact exSys exId)) :=
  (c_erase exSys_good (fun x => x) exC3_reach exId .oneToOne).1

end Verif
