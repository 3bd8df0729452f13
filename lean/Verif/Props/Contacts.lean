import Verif.Contacts

/-!
# Contacts: C46 - C48
-/

namespace Verif

/-- A record that says what the documentation allows: names of at most 100 bytes, a picture with both
URL and 32-byte key or neither, no negative times, a timer exactly if there is an expiration mode, no
"mentions only" (which is for groups). -/
structure Contact.Valid (r : Contact) : Prop where
  name : r.name.length ≤ 100
  nick : r.nick.length ≤ 100
  pic : (r.url ≠ [] ∧ r.key.length = 32) ∨ (r.url = [] ∧ r.key = [])
  notify : r.notify ≠ .mentions
  mute : 0 ≤ r.mute
  created : 0 ≤ r.created
  exp : (r.exp = .none ∧ r.timer = 0) ∨ (r.exp ≠ .none ∧ 0 < r.timer ∧ r.timer < 2 ^ 31)

/-- What is stored of any record: names cut to 100 bytes, incomplete pictures and expiration settings
dropped, "mentions only" turned into "all", negative times dropped; and, because the timer is read
into an `int`, timers taken modulo 2^32. -/
def Contact.norm (r : Contact) : Contact :=
  let pic := picOk r.url r.key
  let exp : ExpMode × Int :=
    if r.exp ≠ .none ∧ 0 < r.timer ∧ 0 < toInt32 r.timer then (r.exp, toInt32 r.timer)
    else (.none, 0)
  { r with
    name := r.name.take 100
    nick := r.nick.take 100
    url := if pic then r.url else []
    key := if pic then r.key else []
    notify := if r.notify = .mentions then .all else r.notify
    mute := max r.mute 0
    exp := exp.1
    timer := exp.2
    created := max r.created 0 }

/-- A valid record is stored as it is. -/
theorem Contact.Valid.norm_eq {r : Contact} (h : r.Valid) : r.norm = r := by
  obtain ⟨h1, h2, h3, h4, h5, h6, h7⟩ := h
  unfold Contact.norm
  have e : (if r.exp ≠ .none ∧ 0 < r.timer ∧ 0 < toInt32 r.timer then (r.exp, toInt32 r.timer)
      else (ExpMode.none, 0)) = (r.exp, r.timer) := by
    rcases h7 with ⟨a, b⟩ | ⟨a, b, c⟩
    · rw [if_neg (by simp [a]), a, b]
    · have : toInt32 r.timer = r.timer := toInt32_of_ok (by simp [int32Ok]; omega)
      rw [this, if_pos ⟨a, b, b⟩]
  rw [e]
  rcases h3 with ⟨a, b⟩ | ⟨a, b⟩
  · have : picOk r.url r.key = true := by simp [picOk, a, b]
    simp only [this, if_true, if_neg h4, List.take_of_length_le h1, List.take_of_length_le h2,
      max_eq_left h5, max_eq_left h6]
  · have : picOk r.url r.key = false := by simp [picOk, a]
    simp only [this, if_neg h4, List.take_of_length_le h1, List.take_of_length_le h2,
      max_eq_left h5, max_eq_left h6, Bool.false_eq_true, if_false]
    cases r
    simp_all

/-! ### Reading what was written -/

theorem Notify.load_num (n : Notify) :
    Notify.load (toInt32 (max (if n = .mentions then Notify.all else n).num 0)) =
      if n = .mentions then .all else n := by
  cases n <;> decide +kernel

theorem contact_load {r : Contact} (hr : int32Ok r.priority = true) {e : Dict}
    (h : ∀ f ∈ r.fields, mget f.1 e = f.2) (id : Bytes) :
    Contact.load id e = { r.norm with id := id } := by
  simp only [Contact.fields, List.mem_cons, List.not_mem_nil, or_false, forall_eq_or_imp,
    forall_eq] at h
  obtain ⟨h1, h2, h3, h4, h5, h6, h7, h8, h9, h10, h11, h12, h13⟩ := h
  have e1 : maybeStr e [110] = some (r.name.take maxName) := maybeStr_of h1
  have flag : ∀ b : Bool, ((if b then (1 : Int) else 0) != 0) = b := by decide
  unfold Contact.load Contact.norm
  simp only [e1, read_str h2, read_flag h5, read_flag h6, read_flag h7, read_nonzero h8,
    read_pos h9, read_pos h10, read_pos h13, Option.getD_some, Notify.load_num,
    toInt32_of_ok hr, flag]
  have epic : loadPic e =
      (if picOk r.url r.key then r.url else [], if picOk r.url r.key then r.key else []) := by
    unfold loadPic
    rw [maybeStr_of h3, maybeStr_of h4]
    cases hp : picOk r.url r.key with
    | true => simp [fIf, strOf, hp]
    | false => simp [fIf, strOf]
  have eexp : loadExp e = if r.exp ≠ .none ∧ 0 < r.timer ∧ 0 < toInt32 r.timer then (r.exp, toInt32 r.timer)
      else (.none, 0) := by
    unfold loadExp
    rw [maybeInt_of h11, maybeInt_of h12]
    by_cases hc : r.exp ≠ .none ∧ 0 < r.timer
    · have hb : (decide (r.exp ≠ .none) && decide (r.timer > 0)) = true := by
        simp only [Bool.and_eq_true, decide_eq_true_eq]; exact hc
      simp only [fIf, hb, if_true, intOf, Option.getD_some]
      have hl : ExpMode.load (toInt32 r.exp.num) = r.exp := by
        cases r.exp <;> decide +kernel
      rw [hl]
      by_cases ht : 0 < toInt32 r.timer
      · rw [if_pos ⟨hc.1, hc.2, ht⟩]
        have hne := hc.1
        cases hm : r.exp with
        | none => exact absurd hm hne
        | afterSend => simp only; rw [if_neg (by omega)]
        | afterRead => simp only; rw [if_neg (by omega)]
      · rw [if_neg (fun hh => ht hh.2.2)]
        cases hm : r.exp with
        | none => rfl
        | afterSend => simp only; rw [if_pos (by omega)]
        | afterRead => simp only; rw [if_pos (by omega)]
    · have hb : (decide (r.exp ≠ .none) && decide (r.timer > 0)) = false := by
        rw [Bool.and_eq_false_iff]
        by_cases h1 : r.exp = .none
        · left; simp [h1]
        · right; simp only [decide_eq_false_iff_not]; exact fun h2 => hc ⟨h1, h2⟩
      rw [if_neg (fun hh => hc ⟨hh.1, hh.2.1⟩)]
      simp only [fIf, hb, Bool.false_eq_true, if_false, intOf, Option.getD_none]
      rfl
  simp only [epic, eexp, maxName]

theorem contact_fields_nodup (r : Contact) : (r.fields.map (·.1)).Nodup := by
  simp only [Contact.fields, List.map_cons, List.map_nil]; decide

theorem contact_fields_wf {r : Contact} (h : r.inRange = true) : ∀ f ∈ r.fields, wfO f.2 = true := by
  simp only [Contact.inRange, Bool.and_eq_true] at h
  obtain ⟨⟨⟨h1, h2⟩, h3⟩, h4⟩ := h
  simp only [Contact.fields, List.mem_cons, List.not_mem_nil, or_false, forall_eq_or_imp,
    forall_eq]
  refine ⟨rfl, wfO_nestr _, wfO_if _ rfl, wfO_if _ rfl, wfO_flag _, wfO_flag _, wfO_flag _,
    wfO_nonzero (int32_int64 h1), wfO_pos ?_, wfO_pos h2, wfO_if _ ?_, wfO_if _ h3, wfO_pos h4⟩
  · cases r.notify <;> decide
  · cases r.exp <;> decide

theorem setContact_ok {S : Sys} {c c' : Client} {r : Contact}
    (h : c.setContact S r = (c', .ok ())) : ∃ pk, idBytes r.id pre05 = .ok pk ∧
      c.writeAll S (entries (pathC ++ [pk]) r.fields) = (c', .ok ()) := by
  unfold Client.setContact at h
  split at h
  · exact ⟨_, by assumption, h⟩
  · cases h
  · cases h
  · cases h

theorem getContact_eq {c : Client} {id pk : Bytes} (h : idBytes id pre05 = .ok pk) :
    c.getContact id = .ok (match c.get (pathC ++ [pk]) with
      | some (.dict e) => some (Contact.load id e)
      | _ => none) := by
  unfold Client.getContact; rw [h]; rfl

theorem getContact_congr {c c' : Client} {id : Bytes}
    (h : ∀ pk, idBytes id pre05 = .ok pk → c'.get (pathC ++ [pk]) = c.get (pathC ++ [pk])) :
    c'.getContact id = c.getContact id := by
  unfold Client.getContact
  cases hi : idBytes id pre05 with
  | ok pk => simp only [Out.bind, h pk hi]
  | err e => rfl
  | hang => rfl
  | ub => rfl

/-- Where the record of a contact is stored. -/
def contactPath (id : Bytes) : List Bytes := pathC ++ [fromHex id]

/-- Two spellings of an id: both valid, equal up to the case of hex digits. -/
def SameId (a b : Bytes) : Prop := ∃ pk, idBytes a pre05 = .ok pk ∧ idBytes b pre05 = .ok pk

theorem sameId_iff {a b : Bytes} : SameId a b ↔
    checkId a pre05 = true ∧ checkId b pre05 = true ∧ lower a = lower b := by
  constructor
  · rintro ⟨pk, ha, hb⟩
    refine ⟨?_, ?_, idBytes_same ha hb⟩
    · unfold idBytes at ha; split at ha
      · assumption
      · cases ha
    · unfold idBytes at hb; split at hb
      · assumption
      · cases hb
  · rintro ⟨ha, hb, he⟩
    refine ⟨fromHex a, by unfold idBytes; rw [if_pos ha], ?_⟩
    have h1 : isHex a = true := by
      simp only [checkId, Bool.and_eq_true] at ha; exact ha.1.2
    have h2 : isHex b = true := by
      simp only [checkId, Bool.and_eq_true] at hb; exact hb.1.2
    unfold idBytes; rw [if_pos hb, (fromHex_inj h1 h2).2 he]

/-- C46.  After `set(r)` the contact reads back as `r`, as far as it can be stored, under every spelling
of its id; every other contact, every field of the stored record that this version does not know, and
everything outside the contacts table is as before; and there is one contact more exactly if it was
new. -/
theorem contact_set_get {S : Sys} (hS : S.Good) {c c' : Client} (hc : Reach S c) {r : Contact}
    (hr : r.inRange = true) (h : c.setContact S r = (c', .ok ())) :
    Reach S c' ∧
    (∀ id, SameId id r.id → c'.getContact id = .ok (some { r.norm with id := id })) ∧
    (∀ id, ¬ SameId id r.id → c'.getContact id = c.getContact id) ∧
    (∀ k, k ∉ r.fields.map (·.1) →
      c'.get (contactPath r.id ++ [k]) = c.get (contactPath r.id ++ [k])) ∧
    (∀ q, ¬ Nested pathC q → c'.get q = c.get q) ∧
    c'.contactsSize = c.contactsSize +
      (if (c.get (contactPath r.id)).isSome then 0 else 1) := by
  obtain ⟨pk, hpk, hw⟩ := setContact_ok h
  obtain ⟨h1, ⟨e, he, hf⟩, h3, h4, h5, h6⟩ := record_written hS (by simp [pathC])
    (contact_fields_nodup r) (contact_fields_wf hr)
    ⟨([110], some (.scalar (.str (r.name.take maxName)))), by simp [Contact.fields], rfl⟩ hc hw
  have hp : int32Ok r.priority = true := by
    simp only [Contact.inRange, Bool.and_eq_true] at hr; exact hr.1.1.1
  refine ⟨h1, fun id hid => ?_, fun id hid => ?_, fun k hk => ?_, h5, ?_⟩
  · obtain ⟨pk', i1, i2⟩ := hid
    rw [hpk] at i2; cases i2
    rw [getContact_eq i1, he]
    simp only [contact_load hp hf id]
  · exact getContact_congr fun pk' hi => h4 pk' (by rintro rfl; exact hid ⟨_, hi, hpk⟩)
  · rw [contactPath, ← (idBytes_ok hpk).1]
    exact h3 k hk
  · unfold Client.contactsSize
    rw [h6, contactPath, ← (idBytes_ok hpk).1]

/-- C46.  `set` throws exactly on an invalid id or (leaving the object as it was) if the object cannot
be modified; an object that can publish accepts every contact with a valid id. -/
theorem contact_set_error {S : Sys} (hS : S.Good) {c : Client} (hc : Reach S c) {r : Contact}
    (hr : r.inRange = true) :
    ((c.setContact S r).2 ≠ .ok () → (c.setContact S r).1 = c) ∧
    (checkId r.id pre05 = false → (c.setContact S r).2 = .err .foreign) ∧
    (checkId r.id pre05 = true → S.env.readonly = false → int64Ok (c.seqno + 1) = true →
      (c.setContact S r).2 = .ok ()) := by
  refine ⟨fun h => ?_, fun h => ?_, fun h hro hov => ?_⟩
  · unfold Client.setContact at h ⊢
    split
    · rename_i pk hpk
      rw [hpk] at h
      exact writeAll_error hS _ hc (entries_ok (contact_fields_wf hr)) h
    · rfl
    · rfl
    · rfl
  · unfold Client.setContact idBytes
    rw [if_neg (by rw [h]; simp)]
  · unfold Client.setContact idBytes
    rw [if_pos h]
    obtain ⟨c', hc'⟩ := writeAll_succeeds hS (entries (pathC ++ [fromHex r.id]) r.fields) hc
      (entries_ok (contact_fields_wf hr)) hro hov
    simp only [hc']

/-- C46.  Writing back a contact just read does not change the object (no push, no dump needed) if
there is nothing unpublished and the stored record is in normal form. -/
theorem contact_rewrite_noop {S : Sys} {c : Client} (hd : c.st ≠ .dirty) {r : Contact} {pk : Bytes}
    (hr : r.inRange = true) (hpk : idBytes r.id pre05 = .ok pk)
    (hf : ∀ f ∈ r.fields, c.get (pathC ++ [pk] ++ [f.1]) = f.2) :
    c.setContact S r = (c, .ok ()) := by
  unfold Client.setContact
  rw [hpk]
  refine writeAll_noop _ (fun w hw => (entries_ok (contact_fields_wf hr) w hw).2) hd ?_
  intro w hw
  obtain ⟨f, hf', rfl⟩ := List.mem_map.1 hw
  exact hf f hf'

/-- C46.  `erase` reports whether the contact existed; afterwards it does not; everything else is as
before. -/
theorem contact_erase {S : Sys} (hS : S.Good) {c c' : Client} (hc : Reach S c) {id : Bytes}
    {b : Bool} (h : c.eraseContact S id = (c', .ok b)) :
    Reach S c' ∧ (∀ id', SameId id' id → c'.getContact id' = .ok none) ∧
    (∀ id', ¬ SameId id' id → c'.getContact id' = c.getContact id') ∧
    (∀ q, ¬ Nested pathC q → c'.get q = c.get q) ∧
    (c.getContact id ≠ .ok none → b = true) ∧
    c.contactsSize = c'.contactsSize + (if b then 1 else 0) := by
  unfold Client.eraseContact at h
  split at h
  · rename_i pk hpk
    split at h
    · rename_i c1 hc1
      obtain ⟨rfl, hb⟩ := Prod.mk.inj h
      obtain ⟨h1, h2, h3, h4, h5⟩ := record_erased hS (by simp [pathC]) hc hc1
      have hb := Out.ok.inj hb
      refine ⟨h1, fun id' hid => ?_, fun id' hid => ?_, h4, fun hn => ?_, ?_⟩
      · obtain ⟨pk', i1, i2⟩ := hid
        rw [hpk] at i2; cases i2
        rw [getContact_eq i1, h2]
      · exact getContact_congr fun pk' hi => h3 pk' (by rintro rfl; exact hid ⟨_, hi, hpk⟩)
      · rw [← hb]
        rw [getContact_eq hpk] at hn
        by_contra hs
        rw [Bool.not_eq_true, Option.isSome_eq_false_iff, Option.isNone_iff_eq_none] at hs
        rw [hs] at hn
        exact hn rfl
      · unfold Client.contactsSize
        rw [h5, hb]
    · cases (Prod.mk.inj h).2
    · cases (Prod.mk.inj h).2
    · cases (Prod.mk.inj h).2
  · cases (Prod.mk.inj h).2
  · cases (Prod.mk.inj h).2
  · cases (Prod.mk.inj h).2

/-! ### Single field setters -/

/-- C46.  A single field setter stores what was there (the default contact if there was none) with the
one change made, and nothing else. -/
theorem contact_update {S : Sys} (hS : S.Good) {c c' : Client} (hc : Reach S c) {id : Bytes}
    {upd : Contact → Out Contact} (hid : ∀ r r', upd r = .ok r' → r'.id = r.id)
    (hrange : ∀ r r', r.inRange = true → upd r = .ok r' → r'.inRange = true)
    (h : c.updContact S id upd = (c', .ok ())) : ∃ r r', c.getOrConstruct id = .ok r ∧
      upd r = .ok r' ∧ c'.getContact id = .ok (some r'.norm) ∧
      (∀ id', ¬ SameId id' id → c'.getContact id' = c.getContact id') ∧
      (r'.Valid → c'.getContact id = .ok (some r')) := by
  unfold Client.updContact at h
  cases hg : c.getOrConstruct id with
  | ok r =>
    rw [hg] at h
    cases hu : upd r with
    | ok r' =>
      rw [show (Out.ok r).bind upd = .ok r' from hu] at h
      have hrid : r.id = id ∧ r.inRange = true := by
        unfold Client.getOrConstruct at hg
        cases hc' : c.getContact id with
        | ok o =>
          rw [hc'] at hg
          cases o with
          | none =>
            change (if checkId id pre05 then _ else _) = _ at hg
            split at hg
            · have := Out.ok.inj hg; subst this; exact ⟨rfl, rfl⟩
            · cases hg
          | some r0 =>
            have := Out.ok.inj hg
            subst this
            unfold Client.getContact at hc'
            cases hi : idBytes id pre05 with
            | ok pk =>
              rw [hi] at hc'
              have := Out.ok.inj hc'
              split at this
              · rename_i e he
                have := Option.some.inj this
                subst this
                have ht := valAt_typed _ (hc.inv hS).wf.data he
                have hint : ∀ k, int64Ok ((maybeInt e k).getD 0) = true := by
                  intro k
                  unfold maybeInt
                  split
                  · rename_i i hi
                    have := typed_of_mget (by simpa [Val.typed] using ht) hi
                    simpa [Val.typed, Scalar.ok] using this
                  · decide
                refine ⟨rfl, ?_⟩
                unfold Contact.inRange Contact.load loadExp
                simp only [toInt32_ok, hint, Bool.true_and, Bool.and_true]
                split
                · rfl
                · split
                  · rfl
                  · exact int32_int64 (toInt32_ok _)
              · cases this
            | err e => rw [hi] at hc'; cases hc'
            | hang => rw [hi] at hc'; cases hc'
            | ub => rw [hi] at hc'; cases hc'
        | err e => rw [hc'] at hg; cases hg
        | hang => rw [hc'] at hg; cases hg
        | ub => rw [hc'] at hg; cases hg
      have hr' := hrange r r' hrid.2 hu
      have hid' : r'.id = id := (hid r r' hu).trans hrid.1
      obtain ⟨_, g2, g3, _⟩ := contact_set_get hS hc hr' h
      obtain ⟨pk, hpk, _⟩ := setContact_ok h
      rw [hid'] at g2 g3 hpk
      have g := g2 id ⟨pk, hpk, hpk⟩
      have hn : { r'.norm with id := id } = r'.norm := by
        conv_rhs => rw [show r'.norm = { r'.norm with id := r'.id } from rfl]
        rw [hid']
      rw [hn] at g
      exact ⟨r, r', rfl, hu, g, g3, fun hv => by rw [g, hv.norm_eq]⟩
    | err e => rw [show (Out.ok r).bind upd = .err e from hu] at h; cases (Prod.mk.inj h).2
    | hang => rw [show (Out.ok r).bind upd = .hang from hu] at h; cases (Prod.mk.inj h).2
    | ub => rw [show (Out.ok r).bind upd = .ub from hu] at h; cases (Prod.mk.inj h).2
  | err e => rw [hg] at h; cases (Prod.mk.inj h).2
  | hang => rw [hg] at h; cases (Prod.mk.inj h).2
  | ub => rw [hg] at h; cases (Prod.mk.inj h).2

/-! ### C47: iteration -/

theorem checkId_toHex {k : Bytes} (hl : k.length = 33) :
    checkId (toHex k) pre05 = true ↔ k.head? = some 5 := by
  constructor
  · intro h
    have : idBytes (toHex k) pre05 = .ok k := by
      unfold idBytes; rw [if_pos h, fromHex_toHex]
    exact idBytes_head05 this
  · intro h
    have := idBytes_toHex05 hl h
    unfold idBytes at this
    split at this
    · assumption
    · cases this

theorem iterContacts_spec : ∀ {d : Dict} {l : List Contact}, KSorted d →
    iterContacts d = .ok l → (l.map (·.id)).Nodup ∧
      ∀ r, r ∈ l ↔ ∃ k e, mget k d = some (.dict e) ∧ k.length = 33 ∧ r = Contact.load (toHex k) e
  | [], l, _, h => by
    cases h; exact ⟨by simp, fun r => by simp [mget]⟩
  | (k, v) :: t, l, hs, h => by
    have hhead := hs.head
    have ht := hs.tail
    -- entries of the tail have other keys
    have hlift : ∀ {k' : Bytes} {w : Val}, mget k' t = some w → mget k' ((k, v) :: t) = some w := by
      intro k' w hm
      rw [mget_iff_mem ht] at hm
      rw [mget_iff_mem hs]; exact List.mem_cons_of_mem _ hm
    have hcases : ∀ {k' : Bytes} {w : Val}, mget k' ((k, v) :: t) = some w →
        (k' = k ∧ w = v) ∨ mget k' t = some w := by
      intro k' w hm
      rw [mget_iff_mem hs, List.mem_cons] at hm
      rcases hm with hm | hm
      · left; exact Prod.mk.inj hm
      · right; rw [mget_iff_mem ht]; exact hm
    have hself : mget k ((k, v) :: t) = some v := by rw [mget_iff_mem hs]; exact List.mem_cons_self ..
    have skip : (∀ e, ¬ (k.length = 33 ∧ v = .dict e)) → iterContacts t = .ok l →
        (l.map (·.id)).Nodup ∧ ∀ r, r ∈ l ↔ ∃ k' e, mget k' ((k, v) :: t) = some (.dict e) ∧
          k'.length = 33 ∧ r = Contact.load (toHex k') e := by
      intro hno hl
      obtain ⟨i1, i2⟩ := iterContacts_spec ht hl
      refine ⟨i1, fun r => (i2 r).trans ⟨?_, ?_⟩⟩
      · rintro ⟨k', e, a, b⟩; exact ⟨k', e, hlift a, b⟩
      · rintro ⟨k', e, a, b, c⟩
        rcases hcases a with ⟨rfl, hv⟩ | a
        · exact absurd ⟨b, hv.symm⟩ (hno e)
        · exact ⟨k', e, a, b, c⟩
    unfold iterContacts at h
    split at h
    · rename_i hk
      cases v with
      | dict e =>
        simp only at h
        split at h
        · cases hl : iterContacts t with
          | ok l' =>
            rw [hl] at h
            have := Out.ok.inj h
            subst this
            obtain ⟨i1, i2⟩ := iterContacts_spec ht hl
            refine ⟨?_, fun r => ?_⟩
            · rw [List.map_cons, List.nodup_cons]
              refine ⟨fun hm => ?_, i1⟩
              obtain ⟨r, hr, hid⟩ := List.mem_map.1 hm
              obtain ⟨k', e', a, b, rfl⟩ := (i2 r).1 hr
              have hkk : toHex k' = toHex k := hid
              have : k' = k := by rw [← fromHex_toHex k', hkk, fromHex_toHex]
              subst this
              rw [mget_iff_mem ht] at a
              exact absurd (hhead _ a) (lt_irrefl _)
            · rw [List.mem_cons, i2]
              constructor
              · rintro (rfl | ⟨k', e', a, b⟩)
                · exact ⟨k, e, hself, hk, rfl⟩
                · exact ⟨k', e', hlift a, b⟩
              · rintro ⟨k', e', a, b, c⟩
                rcases hcases a with ⟨rfl, hv⟩ | a
                · left; cases hv; exact c
                · exact .inr ⟨k', e', a, b, c⟩
          | err e => rw [hl] at h; cases h
          | hang => rw [hl] at h; cases h
          | ub => rw [hl] at h; cases h
        · cases h
      | set s => exact skip (fun e hh => by cases hh.2) h
      | scalar x => exact skip (fun e hh => by cases hh.2) h
    · rename_i hk
      exact skip (fun e hh => hk hh.1) h

theorem iterContacts_ok : ∀ {d : Dict}, KSorted d → ((∃ l, iterContacts d = .ok l) ↔
    ∀ k e, mget k d = some (.dict e) → k.length = 33 → k.head? = some 5)
  | [], _ => ⟨fun _ => by simp [mget], fun _ => ⟨[], rfl⟩⟩
  | (k, v) :: t, hs => by
    have ht := hs.tail
    have hself : mget k ((k, v) :: t) = some v := by rw [mget_iff_mem hs]; exact List.mem_cons_self ..
    have hlift : ∀ {k' : Bytes} {w : Val}, mget k' t = some w → mget k' ((k, v) :: t) = some w := by
      intro k' w hm
      rw [mget_iff_mem ht] at hm
      rw [mget_iff_mem hs]; exact List.mem_cons_of_mem _ hm
    have hcases : ∀ {k' : Bytes} {w : Val}, mget k' ((k, v) :: t) = some w →
        (k' = k ∧ w = v) ∨ mget k' t = some w := by
      intro k' w hm
      rw [mget_iff_mem hs, List.mem_cons] at hm
      rcases hm with hm | hm
      · left; exact Prod.mk.inj hm
      · right; rw [mget_iff_mem ht]; exact hm
    have skip : (∀ e, ¬ (k.length = 33 ∧ v = .dict e)) → ((∃ l, iterContacts t = .ok l) ↔
        ∀ k' e, mget k' ((k, v) :: t) = some (.dict e) → k'.length = 33 → k'.head? = some 5) := by
      intro hno
      rw [iterContacts_ok ht]
      constructor
      · intro h k' e a b
        rcases hcases a with ⟨rfl, hv⟩ | a
        · exact absurd ⟨b, hv.symm⟩ (hno e)
        · exact h k' e a b
      · intro h k' e a b; exact h k' e (hlift a) b
    unfold iterContacts
    split
    · rename_i hk
      cases v with
      | dict e =>
        simp only
        split
        · rename_i hc
          constructor
          · rintro ⟨l, hl⟩ k' e' a b
            rcases hcases a with ⟨rfl, hv⟩ | a
            · exact (checkId_toHex hk).1 hc
            · refine (iterContacts_ok ht).1 ?_ k' e' a b
              cases hi : iterContacts t with
              | ok l' => exact ⟨l', rfl⟩
              | err e => rw [hi] at hl; cases hl
              | hang => rw [hi] at hl; cases hl
              | ub => rw [hi] at hl; cases hl
          · intro h
            obtain ⟨l, hl⟩ := (iterContacts_ok ht).2 fun k' e' a b => h k' e' (hlift a) b
            exact ⟨_, by rw [hl]; rfl⟩
        · rename_i hc
          constructor
          · rintro ⟨l, hl⟩; cases hl
          · intro h; exact absurd ((checkId_toHex hk).2 (h k e hself hk)) hc
      | set s => exact skip fun e hh => by cases hh.2
      | scalar x => exact skip fun e hh => by cases hh.2
    · rename_i hk
      exact skip fun e hh => hk hh.1

/-- C47.  Iterating over the contacts yields exactly the contacts `get` finds, each once, under the
lower-case spelling of its id.  It throws exactly if the table holds a record under a 33-byte key that
does not start with 0x05; `set` never creates one. -/
theorem contact_iter {S : Sys} (hS : S.Good) {c : Client} (hc : Reach S c) :
    (∀ l, c.contacts = .ok l → (l.map (·.id)).Nodup ∧
      ∀ r, r ∈ l ↔ lower r.id = r.id ∧ c.getContact r.id = .ok (some r)) ∧
    ((∃ l, c.contacts = .ok l) ↔ ∀ k e, c.get (pathC ++ [k]) = some (.dict e) → k.length = 33 →
      k.head? = some 5) ∧
    (∀ (r : Contact) c', r.inRange = true → c.setContact S r = (c', .ok ()) →
      (∃ l, c.contacts = .ok l) → ∃ l, c'.contacts = .ok l) := by
  have hP : pathC ≠ [] := by simp [pathC]
  have hok : ∀ {c : Client}, Reach S c → ((∃ l, c.contacts = .ok l) ↔
      ∀ k e, c.get (pathC ++ [k]) = some (.dict e) → k.length = 33 → k.head? = some 5) := by
    intro c hc
    unfold Client.contacts
    rw [iterContacts_ok (table_sorted hS hc pathC)]
    simp only [table_mget hP]
  refine ⟨fun l hl => ?_, hok hc, fun r c' hr h hi => ?_⟩
  · obtain ⟨h1, h2⟩ := iterContacts_spec (table_sorted hS hc pathC) hl
    refine ⟨h1, fun r => (h2 r).trans ⟨?_, ?_⟩⟩
    · rintro ⟨k, e, a, b, rfl⟩
      rw [table_mget hP] at a
      have hk := (hok hc).1 ⟨l, hl⟩ k e a b
      have hid := idBytes_toHex05 b hk
      refine ⟨?_, ?_⟩
      · show lower (toHex k) = toHex k
        conv_rhs => rw [← fromHex_toHex k, toHex_fromHex _ (toHex_isHex k)]
      · rw [show (Contact.load (toHex k) e).id = toHex k from rfl, getContact_eq hid, a]
    · rintro ⟨hlow, hg⟩
      cases hi : idBytes r.id pre05 with
      | ok pk =>
        rw [getContact_eq hi] at hg
        have hg := Out.ok.inj hg
        split at hg
        · rename_i e he
          have hg := Option.some.inj hg
          obtain ⟨i1, i2, i3, i4⟩ := idBytes_ok hi
          refine ⟨pk, e, ?_, ?_, ?_⟩
          · rw [table_mget hP]; exact he
          · exact idBytes_len rfl hi
          · have : toHex pk = r.id := by rw [i1, toHex_fromHex _ i2, hlow]
            rw [this]; exact hg.symm
        · cases hg
      | err e => unfold Client.getContact at hg; rw [hi] at hg; cases hg
      | hang => unfold Client.getContact at hg; rw [hi] at hg; cases hg
      | ub => unfold Client.getContact at hg; rw [hi] at hg; cases hg
  · obtain ⟨pk, hpk, hw⟩ := setContact_ok h
    obtain ⟨h1, ⟨e0, he0, _⟩, h3, h4, _⟩ := record_written hS hP
      (contact_fields_nodup r) (contact_fields_wf hr)
      ⟨([110], some (.scalar (.str (r.name.take maxName)))), by simp [Contact.fields], rfl⟩ hc hw
    rw [hok h1]
    intro k e a b
    by_cases hk : k = pk
    · subst hk; exact idBytes_head05 hpk
    · rw [h4 k hk] at a
      exact (hok hc).1 hi k e a b

/-! ### C48: contacts reach the other devices -/

theorem load_congr {d d' : Dict} (h : ∀ k, maybeInt d' k = maybeInt d k ∧ maybeStr d' k = maybeStr d k)
    (id : Bytes) : Contact.load id d' = Contact.load id d := by
  unfold Contact.load loadPic loadExp
  simp only [(h _).1, (h _).2]

/-- The contact as an object with the same content, stored without its empty dicts, shows it. -/
theorem getContact_pruned {c r' : Client} (ht : typedD c.conf.m.data = true)
    (hd : r'.conf.m.data = pruneD c.conf.m.data) (id : Bytes)
    (hne : ∀ pk, idBytes id pre05 = .ok pk → c.get (pathC ++ [pk]) ≠ none →
      (maybeStr (curDict (c.get (pathC ++ [pk]))) [110]).isSome = true) :
    r'.getContact id = c.getContact id := by
  unfold Client.getContact
  cases hi : idBytes id pre05 with
  | err e => rfl
  | hang => rfl
  | ub => rfl
  | ok pk =>
    have hne := hne pk hi
    have hg : r'.get (pathC ++ [pk]) = (c.get (pathC ++ [pk])).bind fun v =>
        if v.prune.emptyVal then none else some v.prune := by
      unfold Client.get; rw [hd]; exact valAt_pruneD _ ht
    cases hv : c.get (pathC ++ [pk]) with
    | none => rw [hv] at hg; simp only [Out.bind, hg, hv, Option.bind_none]
    | some v =>
      rw [hv, Option.bind_some] at hg
      have hn := hne (by rw [hv]; simp)
      rw [hv] at hn
      cases v with
      | dict e =>
        have hte : typedD e = true := by simpa [Val.typed] using valAt_typed _ ht hv
        have hm := maybe_of_pruned hte
        have : (Val.dict e).prune.emptyVal = false := by
          simp only [Val.prune, Val.emptyVal]
          have h2 := (hm [110]).2
          rw [show curDict (some (Val.dict e)) = e from rfl, ← h2] at hn
          cases hp : pruneD e with
          | nil => rw [hp] at hn; cases hn
          | cons a t => rfl
        rw [this] at hg
        simp only [Bool.false_eq_true, if_false] at hg
        simp only [Out.bind, hg, hv, Val.prune]
        rw [load_congr hm]
      | set s => cases hn
      | scalar x => cases hn

/-- C48.  End to end: a contact that `set` stored on one device, once pushed and delivered (as in C34),
is what `get` returns on the other, for every contact and every spelling of its id. -/
theorem contact_delivered {S : Sys} (hS : S.Good) {sg : Option (Bytes → Bytes)}
    (hS' : (S.as sg).Good) {c0 c r : Client} (hc0 : Reach S c0) {x : Contact}
    (hx : x.inRange = true) (hset : c0.setContact S x = (c, .ok ()))
    (hr : Reach (S.as sg) r) {s : Int}
    {m : Bytes} {obs : List Bytes} (hp : (c.push S).2 = .ok (s, m, obs)) (hs : s ≠ 0)
    (hk : r.keys.head? = c.keys.head?) (hst : r.st ≠ .dirty)
    (hknown : r.seqno = 0 ∨
      ∀ M, parseMsg S.env false (c.plain S) = .ok M → Supersedes (S.as sg) M r)
    (hnc : S.env.H (c.plain S) = S.env.H (r.plain (S.as sg)) → c.plain S = r.plain (S.as sg))
    (hov : int64Ok (s + S.env.lag) = true) (h : Bytes)
    {r' : Client} {res : Out (List Bytes)} (hm : r.merge (S.as sg) [(h, m)] = (r', res)) :
    (∀ id, SameId id x.id → r'.getContact id = .ok (some { x.norm with id := id })) ∧
    (∀ id, (∀ pk, idBytes id pre05 = .ok pk → c.get (pathC ++ [pk]) ≠ none →
        (maybeStr (curDict (c.get (pathC ++ [pk]))) [110]).isSome = true) →
      r'.getContact id = c.getContact id) := by
  obtain ⟨hc, hget, _⟩ := contact_set_get hS hc0 hx hset
  obtain ⟨_, hd, _⟩ := delivery_full hS hS' hc hr hp hs hk hst hknown hnc hov h
  rw [hm] at hd
  have hd : r'.conf.m.data = pruneD c.conf.m.data := hd
  have ht := (hc.inv hS).wf.data
  refine ⟨fun id hid => ?_, fun id hne => getContact_pruned ht hd id hne⟩
  rw [getContact_pruned ht hd id ?_]
  · exact hget id hid
  · intro pk hpk _
    obtain ⟨pk', hpk', hw⟩ := setContact_ok hset
    obtain ⟨pk2, i1, i2⟩ := hid
    rw [hpk'] at i2; cases i2
    rw [hpk] at i1; cases i1
    obtain ⟨_, ⟨e, he, hf⟩, _⟩ := record_written hS (by simp [pathC])
      (contact_fields_nodup x) (contact_fields_wf hx)
      ⟨([110], some (.scalar (.str (x.name.take maxName)))), by simp [Contact.fields], rfl⟩ hc0 hw
    rw [he]
    have := hf ([110], some (.scalar (.str (x.name.take maxName)))) (by simp [Contact.fields])
    rw [show curDict (some (Val.dict e)) = e from rfl, maybeStr_of this]
    rfl

/-! ### The C struct -/

theorem cStr_of_clean {s : Bytes} (h : (0 : UInt8) ∉ s) : cStr s = s := by
  unfold cStr
  induction s with
  | nil => rfl
  | cons a t ih =>
    simp only [List.mem_cons, not_or] at h
    rw [List.takeWhile_cons_of_pos (by simpa using fun hh => h.1 hh.symm), ih h.2]

/-- C49, what holds.  A valid contact whose strings contain no NUL and whose picture URL has at most 223
bytes survives the way through the C struct, except for `mute_until`, which is lost. -/
theorem contact_via_c_partial {r : Contact} (h : r.Valid) (hu : r.url.length ≤ 223)
    (h1 : (0 : UInt8) ∉ r.name) (h2 : (0 : UInt8) ∉ r.nick) (h3 : (0 : UInt8) ∉ r.url) :
    r.viaC = .ok { r with mute := 0 } := by
  obtain ⟨v1, v2, v3, v4, v5, v6, v7⟩ := h
  have c1 : copyCStr 101 r.name = .ok r.name := by unfold copyCStr; rw [if_pos (by omega)]
  have c2 : copyCStr 101 r.nick = .ok r.nick := by unfold copyCStr; rw [if_pos (by omega)]
  have c3 : copyPic r.url r.key = .ok r.url := by
    unfold copyPic
    rcases v3 with ⟨a, b⟩ | ⟨a, b⟩
    · rw [if_pos (by simp [picOk, a, b]), copyCStr, if_pos (by omega)]
    · rw [if_neg (by simp [picOk, a]), a]
  have ht : toInt32 r.timer = r.timer := toInt32_of_ok (by
    simp only [int32Ok, Bool.and_eq_true, decide_eq_true_eq]
    rcases v7 with ⟨_, b⟩ | ⟨_, b, c⟩ <;> omega)
  have hm : (if r.timer ≤ 0 ∧ r.exp ≠ .none then ExpMode.none else r.exp) = r.exp := by
    rcases v7 with ⟨a, b⟩ | ⟨a, b, c⟩
    · rw [if_neg (by simp [a])]
    · rw [if_neg (by omega)]
  have hk : (if r.url = [] then [] else r.key) = r.key := by
    rcases v3 with ⟨a, b⟩ | ⟨a, b⟩
    · rw [if_neg a]
    · rw [if_pos a, b]
  have htt : (if r.exp = .none then 0 else r.timer) = r.timer := by
    rcases v7 with ⟨a, b⟩ | ⟨a, b, c⟩
    · rw [if_pos a, b]
    · rw [if_neg a]
  unfold Contact.viaC
  rw [c1, c2, c3]
  simp only [Out.bind_ok, ht, hm, cStr_of_clean h1, cStr_of_clean h2, cStr_of_clean h3, hk, htt]

/-- C49, for every contact, also one another device stored: what comes back out of the C struct has the same id, flags, priority
and creation time, its strings up to the first NUL, a whole picture or none, and a timer exactly if it has a mode. -/
theorem contact_via_c_sound {r r' : Contact} (h : r.viaC = .ok r') :
    r'.id = r.id ∧ r'.name = r.name.takeWhile (· ≠ 0) ∧ r'.nick = r.nick.takeWhile (· ≠ 0) ∧
    r'.approved = r.approved ∧ r'.approvedMe = r.approvedMe ∧ r'.blocked = r.blocked ∧ r'.priority = r.priority ∧
    r'.notify = r.notify ∧ r'.created = r.created ∧ r.name.length ≤ 100 ∧ r.nick.length ≤ 100 ∧
    ((r'.url ≠ [] ∧ r'.key.length = 32 ∧ r'.key = r.key ∧ r'.url = r.url.takeWhile (· ≠ 0)) ∨ (r'.url = [] ∧ r'.key = [])) ∧
    ((r'.exp ≠ .none ∧ r'.exp = r.exp ∧ 0 < r'.timer ∧ r'.timer = toInt32 r.timer) ∨ (r'.exp = .none ∧ r'.timer = 0)) := by
  unfold Contact.viaC at h
  obtain ⟨n, hn, h⟩ := Out.bind_eq_ok.1 h
  obtain ⟨k, hk, h⟩ := Out.bind_eq_ok.1 h
  obtain ⟨u, hu, h⟩ := Out.bind_eq_ok.1 h
  cases h
  have cc : ∀ {s t : Bytes}, copyCStr 101 s = .ok t → t = s ∧ s.length ≤ 100 := by
    intro s t hs
    unfold copyCStr at hs
    split at hs
    · cases hs; exact ⟨rfl, by omega⟩
    · cases hs
  obtain ⟨rfl, hl⟩ := cc hn
  obtain ⟨rfl, hl'⟩ := cc hk
  refine ⟨rfl, rfl, rfl, rfl, rfl, rfl, rfl, rfl, rfl, hl, hl', ?_, ?_⟩
  · by_cases he : cStr u = []
    · exact .inr ⟨he, by simp [he]⟩
    · left
      unfold copyPic at hu
      split at hu
      · rename_i hp
        unfold copyCStr at hu
        split at hu
        · cases hu
          have hk : (if cStr r.url = [] then [] else r.key) = r.key := if_neg he
          exact ⟨he, by show (if cStr r.url = [] then [] else r.key).length = 32; rw [hk]; simp [picOk] at hp; exact hp.2, hk, rfl⟩
        · cases hu
      · cases hu; exact absurd rfl he
  · simp only
    by_cases hx : r.exp = .none
    · right; simp [hx]
    · by_cases ht : toInt32 r.timer ≤ 0
      · right; simp [ht]
      · left
        simp only [ht, hx, false_and, if_false]
        exact ⟨hx, trivial, by omega, trivial⟩

/-- C49, what does not hold: a contact muted until some time, read and written back through the C
interface without any change, is not muted any more; and a name of more than 100 bytes, which `get`
returns if another device stored it, makes the conversion write out of bounds. -/
theorem contact_via_c_fails :
    (∃ r : Contact, r.Valid ∧ r.viaC ≠ .ok r) ∧
    (∀ r : Contact, 100 < r.name.length → r.viaC = .ub) := by
  refine ⟨⟨{ id := [], name := [65], mute := 7 }, ?_, by decide +kernel⟩, fun r h => ?_⟩
  · constructor <;> decide +kernel
  · unfold Contact.viaC
    have : copyCStr 101 r.name = .ub := by unfold copyCStr; rw [if_neg (by omega)]
    rw [this]; rfl

/-! ### Concrete cases -/

/-- An id: "05" followed by 64 hex digits, here with capitals. -/
def exId : Bytes := [48, 53] ++ (List.replicate 32 [97, 66]).flatten
def exId2 : Bytes := [48, 53] ++ (List.replicate 32 [97, 67]).flatten

/-- A contact with everything set. -/
def exContact : Contact :=
  { id := exId, name := [65, 66], nick := [67], url := [104, 116], key := List.replicate 32 9,
    approved := true, approvedMe := true, blocked := true, priority := -1, notify := .disabled,
    mute := 5, exp := .afterRead, timer := 3600, created := 1000 }

theorem exContact_valid : exContact.Valid := by constructor <;> decide +kernel

/-- Stored in a published object, read back under the lower-case spelling, erased. -/
example :
    let a := (exC3.setContact exSys exContact).1
    let b := (a.setContact exSys { id := exId2, notify := .mentions }).1
    exContact.inRange = true ∧ (exC3.setContact exSys exContact).2 = .ok () ∧
      SameId (lower exId) exId ∧ lower exId ≠ exId ∧
      b.getContact (lower exId) = .ok (some { exContact with id := lower exId }) ∧
      b.getContact exId2 = .ok (some { id := exId2, notify := .all }) ∧
      b.contactsSize = 2 ∧ b.contacts = .ok [{ exContact with id := lower exId },
        { id := lower exId2, notify := .all }] ∧
      (b.eraseContact exSys exId).2 = .ok true ∧
      (b.eraseContact exSys exId).1.getContact exId = .ok none ∧
      (b.setContactName exSys exId2 [88]).1.getContact exId2 =
        .ok (some { id := exId2, name := [88], notify := .all }) := by
  refine ⟨by decide +kernel, by decide +kernel, ⟨fromHex exId, by decide +kernel, by decide +kernel⟩,
    by decide +kernel⟩

/-- Delivered: the sender has published before, the receiver has what was published. -/
example :
    let c := (exC3.setContact exSys exContact).1
    let m := match (c.push exSys).2 with | .ok (_, m, _) => m | _ => []
    (exD1.merge exSys [([107], m)]).1.getContact exId = .ok (some exContact) ∧
      exD1.getContact exId = .ok none := by decide +kernel

/-- The 32-bit timer: a timer of 2^32 + 60 seconds is stored as such but read as 60. -/
example : ({ id := exId, exp := .afterSend, timer := 2 ^ 32 + 60 } : Contact).inRange = true ∧
    ((exC3.setContact exSys { id := exId, exp := .afterSend, timer := 2 ^ 32 + 60 }).1.getContact exId
      ).toOption.join.map (·.timer) = some 60 := by decide +kernel

/-- C49: a contact with everything set goes through the C struct; one whose stored timer lost its mode comes back without it. -/
example : exContact.Valid ∧ exContact.url.length ≤ 223 ∧ (0 : UInt8) ∉ exContact.name ++ exContact.nick ++ exContact.url ∧
    exContact.viaC = .ok { exContact with mute := 0 } ∧
    ({ exContact with name := [65, 0, 66], key := [1], timer := -5 } : Contact).viaC =
      .ok { exContact with name := [65], url := [], key := [], timer := 0, exp := .none, mute := 0 } :=
  ⟨exContact_valid, by decide +kernel, by decide +kernel, by decide +kernel, by decide +kernel⟩

/-- The sixteen lower case hex digits. -/
def hexDigits : List UInt8 := [48, 49, 50, 51, 52, 53, 54, 55, 56, 57, 97, 98, 99, 100, 101, 102]

theorem isHexDigit_mem (c : UInt8) : isHexDigit c = true ↔ c ∈ hexDigits ∨ c ∈ [65, 66, 67, 68, 69, 70] := by
  revert c; apply forall_uint8; decide +kernel

theorem hexDigit_get (b : UInt8) : hexDigits[(b / 16).toNat]? = some (hexDigit (b / 16)) ∧
    hexDigits[(b % 16).toNat]? = some (hexDigit (b % 16)) := by
  revert b; apply forall_uint8; decide +kernel

/-- C46.  Which ids are valid: 66 characters, the first two of them "05", all of them hex digits in either case; ... -/
theorem valid_id_iff (s : Bytes) : checkId s pre05 = true ↔
    s.length = 66 ∧ s.take 2 = [48, 53] ∧ ∀ c ∈ s, c ∈ hexDigits ∨ c ∈ [65, 66, 67, 68, 69, 70] := by
  unfold checkId isHex
  simp only [pre05, List.length_cons, List.length_nil, Bool.and_eq_true, beq_iff_eq, List.all_eq_true, isHexDigit_mem]
  constructor
  · rintro ⟨⟨h1, _, h2⟩, h3⟩; exact ⟨h1, h3, h2⟩
  · rintro ⟨h1, h3, h2⟩; exact ⟨⟨h1, by omega, h2⟩, h3⟩

/-- ... and what they mean: the record is kept under the bytes that the id spells out, two digits for each byte with the
higher four bits first. -/
theorem id_spells {s pk : Bytes} (h : idBytes s pre05 = .ok pk) :
    pk.length = 33 ∧ (s.map fun c => if c ∈ [65, 66, 67, 68, 69, 70] then c + 32 else c).map some =
      pk.flatMap fun b => [hexDigits[(b / 16).toNat]?, hexDigits[(b % 16).toNat]?] := by
  refine ⟨idBytes_len rfl h, ?_⟩
  obtain ⟨rfl, h2, _, _⟩ := idBytes_ok h
  have e : (s.map fun c => if c ∈ [65, 66, 67, 68, 69, 70] then c + 32 else c) = lower s := by
    unfold lower
    apply List.map_congr_left
    intro c hc
    have h3 : isHexDigit c = true := by
      simp only [isHex, Bool.and_eq_true, List.all_eq_true] at h2; exact h2.2 c hc
    revert h3
    clear hc
    revert c; apply forall_uint8; decide +kernel
  rw [e, ← toHex_fromHex s h2]
  generalize fromHex s = pk
  induction pk with
  | nil => rfl
  | cons b t ih =>
    simp only [toHex, List.map_cons, List.flatMap_cons, (hexDigit_get b).1, (hexDigit_get b).2, ih, List.cons_append,
      List.nil_append]

example : checkId exId pre05 = true := by decide +kernel

/-! ### The single field setters -/

/-- After the call the contact reads as `r` as far as that can be stored, and every other contact as before. -/
def ContactBecomes (c c' : Client) (id : Bytes) (r : Contact) : Prop :=
  c'.getContact id = .ok (some r.norm) ∧ ∀ id', ¬ SameId id' id → c'.getContact id' = c.getContact id'

theorem setter_becomes {S : Sys} (hS : S.Good) {c c' : Client} (hc : Reach S c) {id : Bytes} {r : Contact}
    (hg : c.getOrConstruct id = .ok r) {upd : Contact → Out Contact} (hid : ∀ r r', upd r = .ok r' → r'.id = r.id)
    (hrange : ∀ r r', r.inRange = true → upd r = .ok r' → r'.inRange = true)
    (h : c.updContact S id upd = (c', .ok ())) : ∃ r', upd r = .ok r' ∧ ContactBecomes c c' id r' := by
  obtain ⟨r0, r', h1, h2, h3, h4, _⟩ := contact_update hS hc hid hrange h
  rw [hg] at h1
  cases h1
  exact ⟨r', h2, h3, h4⟩

theorem setter_ok {S : Sys} (hS : S.Good) {c c' : Client} (hc : Reach S c) {id : Bytes} {r : Contact}
    (hg : c.getOrConstruct id = .ok r) {f : Contact → Contact} (hid : ∀ r, (f r).id = r.id)
    (hrange : ∀ r : Contact, r.inRange = true → (f r).inRange = true)
    (h : c.updContact S id (fun r => .ok (f r)) = (c', .ok ())) : ContactBecomes c c' id (f r) := by
  obtain ⟨r', h1, h2⟩ := setter_becomes hS hc hg (fun r r' e => by rw [← Out.ok.inj e]; exact hid r)
    (fun r r' hr e => by rw [← Out.ok.inj e]; exact hrange r hr) h
  rw [Out.ok.inj h1]; exact h2

/-- C46.  Each of the ten single field setters, when it succeeds, changes that field of the contact (a blank one with
that id if there is none) and nothing else; names that are too long are refused. -/
theorem contact_setters {S : Sys} (hS : S.Good) {c : Client} (hc : Reach S c) {id : Bytes} {r : Contact}
    (hg : c.getOrConstruct id = .ok r) (c' : Client) :
    (∀ n, c.setContactName S id n = (c', .ok ()) → n.length ≤ 100 ∧ ContactBecomes c c' id { r with name := n }) ∧
    (∀ n, c.setContactNick S id n = (c', .ok ()) → n.length ≤ 100 ∧ ContactBecomes c c' id { r with nick := n }) ∧
    (∀ u k, c.setContactPic S id u k = (c', .ok ()) → ContactBecomes c c' id { r with url := u, key := k }) ∧
    (∀ b, c.setContactApproved S id b = (c', .ok ()) → ContactBecomes c c' id { r with approved := b }) ∧
    (∀ b, c.setContactApprovedMe S id b = (c', .ok ()) → ContactBecomes c c' id { r with approvedMe := b }) ∧
    (∀ b, c.setContactBlocked S id b = (c', .ok ()) → ContactBecomes c c' id { r with blocked := b }) ∧
    (∀ p, int32Ok p = true → c.setContactPriority S id p = (c', .ok ()) →
      ContactBecomes c c' id { r with priority := p }) ∧
    (∀ n, c.setContactNotify S id n = (c', .ok ()) → ContactBecomes c c' id { r with notify := n }) ∧
    (∀ m t, int64Ok t = true → c.setContactExpiry S id m t = (c', .ok ()) →
      ContactBecomes c c' id { r with exp := m, timer := t }) ∧
    (∀ t, int64Ok t = true → c.setContactCreated S id t = (c', .ok ()) →
      ContactBecomes c c' id { r with created := t }) := by
  refine ⟨fun n h => ?_, fun n h => ?_, fun u k h => ?_, fun b h => ?_, fun b h => ?_, fun b h => ?_, fun p hp h => ?_,
    fun n h => ?_, fun m t ht h => ?_, fun t ht h => ?_⟩
  · obtain ⟨r', h1, h2⟩ := setter_becomes hS hc hg
      (fun r r' e => by split at e; cases e; rw [← Out.ok.inj e])
      (fun r r' hr e => by split at e; cases e; rw [← Out.ok.inj e]; exact hr) h
    split at h1
    · cases h1
    · rename_i hn
      rw [← Out.ok.inj h1] at h2
      exact ⟨by unfold maxName at hn; omega, h2⟩
  · obtain ⟨r', h1, h2⟩ := setter_becomes hS hc hg
      (fun r r' e => by split at e; cases e; rw [← Out.ok.inj e])
      (fun r r' hr e => by split at e; cases e; rw [← Out.ok.inj e]; exact hr) h
    split at h1
    · cases h1
    · rename_i hn
      rw [← Out.ok.inj h1] at h2
      exact ⟨by unfold maxName at hn; omega, h2⟩
  · exact setter_ok hS hc hg (f := fun r => { r with url := u, key := k }) (fun _ => rfl) (fun _ h => h) h
  · exact setter_ok hS hc hg (f := fun r => { r with approved := b }) (fun _ => rfl) (fun _ h => h) h
  · exact setter_ok hS hc hg (f := fun r => { r with approvedMe := b }) (fun _ => rfl) (fun _ h => h) h
  · exact setter_ok hS hc hg (f := fun r => { r with blocked := b }) (fun _ => rfl) (fun _ h => h) h
  · refine setter_ok hS hc hg (f := fun r => { r with priority := p }) (fun _ => rfl) (fun r h => ?_) h
    simp only [Contact.inRange, Bool.and_eq_true] at h ⊢
    exact ⟨⟨⟨hp, h.1.1.2⟩, h.1.2⟩, h.2⟩
  · exact setter_ok hS hc hg (f := fun r => { r with notify := n }) (fun _ => rfl) (fun _ h => h) h
  · have h2 := setter_ok hS hc hg (f := fun r => { r with exp := m, timer := if m = .none then 0 else t })
      (fun _ => rfl) (fun r h => by
        simp only [Contact.inRange, Bool.and_eq_true] at h ⊢
        exact ⟨⟨⟨h.1.1.1, h.1.1.2⟩, by split; rfl; exact ht⟩, h.2⟩) h
    have e : ({ r with exp := m, timer := if m = .none then 0 else t } : Contact).norm =
        ({ r with exp := m, timer := t } : Contact).norm := by
      unfold Contact.norm
      by_cases hm : m = .none
      · subst hm; simp
      · simp [hm]
    refine ⟨?_, h2.2⟩
    rw [← e]; exact h2.1
  · refine setter_ok hS hc hg (f := fun r => { r with created := t }) (fun _ => rfl) (fun r h => ?_) h
    simp only [Contact.inRange, Bool.and_eq_true] at h ⊢
    exact ⟨⟨⟨h.1.1.1, h.1.1.2⟩, h.1.2⟩, ht⟩

/-- C46.  When they succeed: on an object that can be modified each does, for every valid id (and names of at most 100
bytes). -/
theorem contact_setters_succeed {S : Sys} (hS : S.Good) {c : Client} (hc : Reach S c) {id : Bytes} {r : Contact}
    (hg : c.getOrConstruct id = .ok r) (hid : r.id = id) (hv : checkId id pre05 = true) (hro : S.env.readonly = false)
    (hov : int64Ok (c.seqno + 1) = true) {upd : Contact → Out Contact} {r' : Contact} (hu : upd r = .ok r')
    (hr : r'.inRange = true) (hid' : r'.id = r.id) : (c.updContact S id upd).2 = .ok () := by
  unfold Client.updContact
  rw [hg, show (Out.ok r).bind upd = .ok r' from hu]
  exact (contact_set_error hS hc hr).2.2 (by rw [hid', hid]; exact hv) hro hov

example : exC3.getOrConstruct exId = .ok { id := exId } ∧
    (exC3.setContactNick exSys exId [78, 105]).2 = .ok () ∧ (exC3.setContactPriority exSys exId (-1)).2 = .ok () ∧
    ((exC3.setContactExpiry exSys exId .afterRead 60).1.getContact exId =
      .ok (some { id := exId, exp := .afterRead, timer := 60 })) ∧
    (exC3.setContactName exSys exId (List.replicate 101 65)).2 = .err .foreign := by
  refine ⟨by decide +kernel, by decide +kernel, by decide +kernel, by decide +kernel, by decide +kernel⟩

end Verif
