import Verif.GroupMembers
import Verif.Props.LegacyNet
import Verif.Props.UserComm
import Verif.Props.Profile

/-!
# The members and the description of a group: C91 - C95
-/

namespace Verif

/-! ### C91: members -/

/-- What the documentation allows: a name of at most 100 bytes, a picture with both URL and key or
neither; admins have no pending invitation or promotion; the flag for supplemental keys only with a
pending invitation of somebody not being promoted; no negative statuses. -/
structure GMember.Valid (m : GMember) : Prop where
  name : m.name.length ≤ 100
  pic : (m.url ≠ [] ∧ m.key.length = 32) ∨ (m.url = [] ∧ m.key = [])
  invite : 0 ≤ m.invite
  promotion : 0 ≤ m.promotion
  removed : 0 ≤ m.removed
  admin : m.admin = true → m.invite = 0 ∧ m.promotion = 0
  supplement : m.supplement = true → 0 < m.invite ∧ m.promotion = 0

/-- What is stored of any record -/
def GMember.norm (m : GMember) : GMember :=
  { m with
    name := m.name.take 100
    url := if m.url ≠ [] ∧ m.key.length = 32 then m.url else []
    key := if m.url ≠ [] ∧ m.key.length = 32 then m.key else []
    invite := if m.admin then 0 else max 0 m.invite
    promotion := if m.admin then 0 else max 0 m.promotion
    removed := max 0 m.removed
    supplement := m.supplement && !m.admin && decide (0 < m.invite) && decide (m.promotion ≤ 0) }

theorem GMember.Valid.norm_eq {m : GMember} (h : m.Valid) : m.norm = m := by
  obtain ⟨h1, h2, h3, h4, h5, h6, h7⟩ := h
  unfold GMember.norm
  have e1 : (if m.admin then 0 else max 0 m.invite) = m.invite := by
    split
    · rename_i ha; exact (h6 ha).1.symm
    · exact max_eq_right h3
  have e2 : (if m.admin then 0 else max 0 m.promotion) = m.promotion := by
    split
    · rename_i ha; exact (h6 ha).2.symm
    · exact max_eq_right h4
  have e3 : (m.supplement && !m.admin && decide (0 < m.invite) && decide (m.promotion ≤ 0)) = m.supplement := by
    cases hs : m.supplement with
    | false => rfl
    | true =>
      obtain ⟨s1, s2⟩ := h7 hs
      cases ha : m.admin with
      | true => have := (h6 ha).1; omega
      | false => simp [s1, s2]
  rw [e1, e2, e3, max_eq_right h5, List.take_of_length_le h1]
  rcases h2 with ⟨a, b⟩ | ⟨a, b⟩
  · rw [if_pos ⟨a, b⟩, if_pos ⟨a, b⟩]
  · rw [if_neg (by simp [a]), if_neg (by simp [a])]
    cases m; simp_all

theorem gmember_fields_nodup (m : GMember) : (m.fields.map (·.1)).Nodup := by
  unfold GMember.fields
  simp only [List.map_cons, List.map_nil]
  decide

theorem gmember_fields_wf {m : GMember} (h : m.inRange = true) : ∀ f ∈ m.fields, wfO f.2 = true := by
  simp only [GMember.inRange, Bool.and_eq_true] at h
  simp only [GMember.fields, List.mem_cons, List.not_mem_nil, or_false, forall_eq_or_imp, forall_eq]
  refine ⟨wfO_str _, wfO_if _ rfl, wfO_if _ rfl, wfO_flag _, wfO_pos ?_, wfO_pos ?_, wfO_flag _,
    wfO_pos (int32_int64 h.2)⟩
  · split
    · decide
    · exact int32_int64 h.1.2
  · split
    · decide
    · exact int32_int64 h.1.1

theorem picOk_iff (u k : Bytes) : picOk u k = true ↔ u ≠ [] ∧ k.length = 32 := by simp [picOk]

theorem loadPic_of {u k : Bytes} {e : Dict} (h3 : mget [112] e = fIf (picOk u k) (.str u))
    (h4 : mget [113] e = fIf (picOk u k) (.str k)) :
    loadPic e = (if u ≠ [] ∧ k.length = 32 then u else [], if u ≠ [] ∧ k.length = 32 then k else []) := by
  unfold loadPic
  rw [maybeStr_of h3, maybeStr_of h4]
  by_cases hp : u ≠ [] ∧ k.length = 32
  · have := (picOk_iff u k).2 hp
    rw [if_pos hp, if_pos hp]
    simp [fIf, strOf, this]
  · have : picOk u k = false := by rw [← Bool.not_eq_true, picOk_iff]; exact hp
    rw [if_neg hp, if_neg hp]
    simp [fIf, strOf, this]

theorem int32_max {i : Int} (h : int32Ok i = true) : toInt32 (max i 0) = max 0 i := by
  rw [max_comm]
  refine toInt32_of_ok ?_
  simp only [int32Ok, Bool.and_eq_true, decide_eq_true_eq] at h ⊢
  omega

theorem gmember_load {m : GMember} (hr : m.inRange = true) {e : Dict}
    (h : ∀ f ∈ m.fields, mget f.1 e = f.2) (id : Bytes) : GMember.load id e = { m.norm with id := id } := by
  simp only [GMember.fields, List.mem_cons, List.not_mem_nil, or_false, forall_eq_or_imp, forall_eq] at h
  obtain ⟨h1, h2, h3, h4, h5, h6, h7, h8⟩ := h
  simp only [GMember.inRange, Bool.and_eq_true] at hr
  have flag : ∀ b : Bool, ((if b then (1 : Int) else 0) != 0) = b := by decide
  have e1 : maybeStr e [110] = some (m.name.take 100) := maybeStr_of h1
  unfold GMember.load GMember.norm loadAdmin loadStatus
  simp only [e1, Option.getD_some, loadPic_of h2 h3, read_flag h4, read_pos h5, read_pos h6, read_flag h7,
    read_pos h8, flag, int32_max hr.2]
  cases ha : m.admin with
  | true => simp
  | false =>
    simp only [Bool.false_eq_true, if_false, int32_max hr.1.1, int32_max hr.1.2, Bool.not_false, Bool.true_and,
      Bool.false_or, Bool.and_true]
    congr 1
    have q1 : decide (0 < max 0 m.invite) = decide (0 < m.invite) := by
      by_cases h : 0 < m.invite <;> simp [h]
    have q2 : (!decide (0 < max 0 m.promotion)) = decide (m.promotion ≤ 0) := by
      by_cases h : 0 < m.promotion
      · have : ¬ m.promotion ≤ 0 := by omega
        simp [h, this]
      · have : m.promotion ≤ 0 := by omega
        simp [h, this]
    rw [q1, q2]
    cases m.supplement <;> simp

/-- C91.  After `set(m)` the member reads back, as far as it can be stored, under every spelling of its
id; a valid record reads back exactly as it is.  Every other member, every field this version does not
know and everything outside the list is as before, and there is one member more exactly if it was new. -/
theorem gmember_set_get {S : Sys} (hS : S.Good) {c c' : Client} (hc : Reach S c) {m : GMember}
    (hr : m.inRange = true) (h : c.setMember S m = (c', .ok ())) :
    Reach S c' ∧
    (∀ id, SameRec pre05 id m.id → c'.getMember id = .ok (some { m.norm with id := id })) ∧
    (m.Valid → c'.getMember m.id = .ok (some m)) ∧
    (∀ id, ¬ SameRec pre05 id m.id → c'.getMember id = c.getMember id) ∧
    (∀ k, k ∉ [[110], [112], [113], [65], [80], [73], [115], [82]] →
      c'.get (pathM ++ [fromHex m.id] ++ [k]) = c.get (pathM ++ [fromHex m.id] ++ [k])) ∧
    (∀ q, ¬ Nested pathM q → c'.get q = c.get q) ∧
    c'.membersSize = c.membersSize + (if (c.get (pathM ++ [fromHex m.id])).isSome then 0 else 1) := by
  obtain ⟨h1, pk, hpk, ⟨e, he, hf⟩, h3, h4, h5, h6⟩ := setRec_spec hS (by simp [pathM])
    (fun _ => gmember_fields_nodup m) (fun _ => gmember_fields_wf hr)
    (fun _ => ⟨([110], some (.scalar (.str (m.name.take 100)))), by simp [GMember.fields], rfl⟩) hc h
  have hpk' := (idBytes_ok hpk).1
  have hget : ∀ id, SameRec pre05 id m.id → c'.getMember id = .ok (some { m.norm with id := id }) := by
    rintro id ⟨pk', i1, i2⟩
    rw [hpk] at i2; cases i2
    unfold Client.getMember
    rw [getRec_eq i1, he]
    simp only [loadAt, gmember_load hr hf id]
  refine ⟨h1, hget, fun hv => ?_, fun id hid => setRec_other hpk h4 hid,
    fun k hk => by rw [← hpk']; exact h3 k (by simpa [GMember.fields] using hk), h5,
    by unfold Client.membersSize; rw [h6, ← hpk']⟩
  rw [hget m.id (SameRec.refl hpk), hv.norm_eq]

/-- C91.  `set` throws exactly on an invalid id or (leaving the object as it was) if the object cannot be
modified. -/
theorem gmember_set_error {S : Sys} (hS : S.Good) {c : Client} (hc : Reach S c) {m : GMember}
    (hr : m.inRange = true) :
    ((c.setMember S m).2 ≠ .ok () → (c.setMember S m).1 = c) ∧
    (checkId m.id pre05 = false → (c.setMember S m).2 = .err .foreign) ∧
    (checkId m.id pre05 = true → S.env.readonly = false → int64Ok (c.seqno + 1) = true →
      (c.setMember S m).2 = .ok ()) :=
  setRec_error hS (fun _ => gmember_fields_wf hr) hc

/-- C91.  `erase` removes the member, and only it, and reports whether there was one. -/
theorem gmember_erase {S : Sys} (hS : S.Good) {c c' : Client} (hc : Reach S c)
    {id : Bytes} {b : Bool} (h : c.eraseGMember S id = (c', .ok b)) :
    Reach S c' ∧ (∀ id', SameRec pre05 id' id → c'.getMember id' = .ok none) ∧
    (∀ id', ¬ SameRec pre05 id' id → c'.getMember id' = c.getMember id') ∧
    (∀ q, ¬ Nested pathM q → c'.get q = c.get q) ∧
    (c.getMember id ≠ .ok none → b = true) ∧
    c.membersSize = c'.membersSize + (if b then 1 else 0) :=
  eraseRec_spec hS (by simp [pathM]) GMember.load hc h

theorem gmember_status_norm (m : GMember) (hv : m.Valid) (failed : Bool) :
    (m.admin = false →
      (m.setInvited failed).norm.invitePending = true ∧ (m.setInvited failed).norm.inviteFailed = failed ∧
      (m.setInvited failed).norm = { m with invite := (m.setInvited failed).norm.invite } ∧
      (m.setPromoted failed).norm.promotionPending = true ∧ (m.setPromoted failed).norm.promotionFailed = failed ∧
      (m.setPromoted failed).norm.promoted = true ∧
      (m.setPromoted failed).norm =
        { m with promotion := (m.setPromoted failed).norm.promotion, supplement := false }) ∧
    (m.admin = true → (m.setInvited failed).norm = m ∧ (m.setPromoted failed).norm = m ∧ m.promoted = true ∧
      m.promotionPending = false ∧ m.promotionFailed = false ∧ m.invitePending = false) ∧
    m.setAccepted.norm.invitePending = false ∧ m.setAccepted.norm.inviteFailed = false ∧
    m.setAccepted.norm.supplement = false ∧
    m.setAccepted.norm = { m with invite := m.setAccepted.norm.invite, supplement := false } ∧
    (m.setRemoved failed).norm.isRemoved = true ∧ (m.setRemoved failed).norm.removesMessages = failed ∧
    (m.setRemoved failed).norm = { m with removed := (m.setRemoved failed).norm.removed } ∧
    ({ m with admin := true } : GMember).norm =
      { m with admin := true, invite := 0, promotion := 0, supplement := false } := by
  have hnm := hv.norm_eq
  obtain ⟨h1, h2, h3, h4, h5, h6, h7⟩ := hv
  have e1 : m.name.take 100 = m.name := List.take_of_length_le h1
  obtain ⟨id, name, url, key, adm, sup, inv, pro, rem⟩ := m
  simp only at *
  have m3 : max 0 inv = inv := max_eq_right h3
  have m4 : max 0 pro = pro := max_eq_right h4
  have m5 : max 0 rem = rem := max_eq_right h5
  simp only [GMember.norm, GMember.setInvited, GMember.setPromoted, GMember.setAccepted, GMember.setRemoved,
    GMember.invitePending, GMember.inviteFailed, GMember.promotionPending, GMember.promotionFailed,
    GMember.promoted, GMember.isRemoved, GMember.removesMessages, e1, m3, m4, m5]
  cases adm with
  | true =>
    obtain ⟨a1, a2⟩ := h6 rfl
    subst a1 a2
    cases sup with
    | true => have := (h7 rfl).1; omega
    | false => rcases h2 with ⟨a, b⟩ | ⟨a, b⟩ <;> cases failed <;> simp [a, b]
  | false =>
    cases sup with
    | true =>
      obtain ⟨s1, s2⟩ := h7 rfl
      subst s2
      rcases h2 with ⟨a, b⟩ | ⟨a, b⟩ <;> cases failed <;> simp [a, b, s1]
    | false => rcases h2 with ⟨a, b⟩ | ⟨a, b⟩ <;> cases failed <;> simp [a, b]

/-- C91.  The record in the caller's hands shows what a status call did at once, before it is stored, and nothing else of it
changes. -/
theorem gmember_status_now (m : GMember) (failed : Bool) (ha : m.admin = false) :
    (let r := m.setInvited failed
     r.invitePending = true ∧ r.inviteFailed = failed ∧ r = { m with invite := r.invite }) ∧
    (let r := m.setAccepted
     r.invitePending = false ∧ r.inviteFailed = false ∧ r.supplement = false ∧ r = { m with invite := r.invite, supplement := r.supplement }) ∧
    (let r := m.setPromoted failed
     r.promotionPending = true ∧ r.promotionFailed = failed ∧ r.promoted = true ∧ r = { m with promotion := r.promotion }) ∧
    (let r := m.setRemoved failed
     r.isRemoved = true ∧ r.removesMessages = failed ∧ r = { m with removed := r.removed }) := by
  cases failed <;> simp [GMember.setInvited, GMember.setPromoted, GMember.setAccepted, GMember.setRemoved,
    GMember.invitePending, GMember.inviteFailed, GMember.promotionPending, GMember.promotionFailed,
    GMember.promoted, GMember.isRemoved, GMember.removesMessages, ha]

/-- C91.  The status calls as everybody sees them once the changed record `m'` is stored and read back as
`r`.  For somebody who is not an admin: inviting, accepting, promoting and removing set exactly the
documented flags; for an admin the invitation and promotion calls change nothing; making somebody an admin
ends a pending invitation or promotion; nothing else of the record changes. -/
theorem gmember_status {S : Sys} (hS : S.Good) {c c' : Client} (hc : Reach S c) {m m' r : GMember}
    (hv : m.Valid) (hi : m'.inRange = true) (h : c.setMember S m' = (c', .ok ()))
    (hr : c'.getMember m'.id = .ok (some r)) (failed : Bool) :
    (m' = m.setInvited failed → m.admin = false →
      r.invitePending = true ∧ r.inviteFailed = failed ∧ r = { m with invite := r.invite }) ∧
    (m' = m.setPromoted failed → m.admin = false →
      r.promotionPending = true ∧ r.promotionFailed = failed ∧ r.promoted = true ∧
      r = { m with promotion := r.promotion, supplement := false }) ∧
    (m' = m.setInvited failed ∨ m' = m.setPromoted failed → m.admin = true → r = m ∧ r.promoted = true ∧
      r.promotionPending = false ∧ r.promotionFailed = false ∧ r.invitePending = false) ∧
    (m' = m.setAccepted → r.invitePending = false ∧ r.inviteFailed = false ∧
      r = { m with invite := r.invite, supplement := false }) ∧
    (m' = m.setRemoved failed → r.isRemoved = true ∧ r.removesMessages = failed ∧
      r = { m with removed := r.removed }) ∧
    (m' = { m with admin := true } →
      r.promoted = true ∧ r = { m with admin := true, invite := 0, promotion := 0, supplement := false }) := by
  have hn : r = m'.norm := by
    have hg := gmember_set_get hS hc hi h
    have hid : checkId m'.id pre05 = true := by
      by_contra hb
      have := (gmember_set_error hS hc hi).2.1 (by simpa using hb)
      rw [h] at this; cases this
    have := hg.2.1 m'.id (SameRec.refl (pk := fromHex m'.id) (by unfold idBytes; rw [hid]; rfl))
    rw [this] at hr
    exact (Option.some.inj (Out.ok.inj hr)).symm
  subst hn
  obtain ⟨a1, a2, a3, a4, a5, a6, a7, a8, a9, a10⟩ := gmember_status_norm m hv failed
  refine ⟨?_, ?_, ?_, ?_, ?_, ?_⟩
  · rintro rfl ha
    obtain ⟨b1, b2, b3, _⟩ := a1 ha
    exact ⟨b1, b2, b3⟩
  · rintro rfl ha
    obtain ⟨_, _, _, b4, b5, b6, b7⟩ := a1 ha
    exact ⟨b4, b5, b6, b7⟩
  · rintro hm ha
    obtain ⟨b1, b2, b3⟩ := a2 ha
    have : m'.norm = m := by rcases hm with rfl | rfl <;> assumption
    rw [this]; exact ⟨rfl, b3⟩
  · rintro rfl; exact ⟨a3, a4, a6⟩
  · rintro rfl; exact ⟨a7, a8, a9⟩
  · rintro rfl
    rw [a10]; exact ⟨by simp [GMember.promoted], rfl⟩

/-- C91.  `get_or_construct` is what is stored, otherwise a record with nothing but the id. -/
theorem gmember_or (c : Client) (id : Bytes) :
    (∀ m, c.getMember id = .ok (some m) → c.memberOr id = .ok m) ∧
    (c.getMember id = .ok none → c.memberOr id = .ok { id := id }) ∧
    (checkId id pre05 = false → c.memberOr id = .err .foreign) := by
  unfold Client.memberOr
  refine ⟨fun m h => by rw [h]; rfl, fun h => by rw [h]; rfl, fun h => ?_⟩
  unfold Client.getMember Client.getRec idBytes
  rw [if_neg (by rw [h]; simp)]; rfl

/-! ### C92: iteration -/

theorem checkId_hex {k : Bytes} (hl : k.length = 33) : checkId (toHex k) pre05 = true ↔ k.head? = some 5 := by
  rw [checkId_toHex hl]

theorem iterRecs_eq {R : Type} (L : Bytes → Dict → R) : ∀ d : Dict,
    ((∀ x ∈ d, ∀ e, x.2 = .dict e → x.1.length = 33 → x.1.head? = some 5) →
      iterRecs L d = .ok (d.filterMap (recEntry 5 L))) ∧
    ((∃ x ∈ d, ∃ e, x.2 = .dict e ∧ x.1.length = 33 ∧ x.1.head? ≠ some 5) → iterRecs L d = .err .foreign)
  | [] => ⟨fun _ => rfl, by rintro ⟨x, hx, _⟩; cases hx⟩
  | (k, .dict e) :: t => by
    obtain ⟨i1, i2⟩ := iterRecs_eq L t
    constructor
    · intro h
      have ht := i1 fun x hx => h x (by simp [hx])
      simp only [iterRecs]
      by_cases hl : k.length = 33
      · have hh := h (k, .dict e) (by simp) e rfl hl
        rw [if_pos hl, if_pos ((checkId_hex hl).2 hh), ht]
        show Out.ok _ = _
        rw [List.filterMap_cons, recEntry, if_pos ⟨hl, hh⟩]; rfl
      · rw [if_neg hl, ht, List.filterMap_cons, recEntry, if_neg (fun hh => hl hh.1)]
    · rintro ⟨x, hx, e', h1, h2, h3⟩
      simp only [iterRecs]
      rcases List.mem_cons.1 hx with rfl | hx
      · have h2 : k.length = 33 := h2
        have h3 : k.head? ≠ some 5 := h3
        rw [if_pos h2, if_neg (fun hh => h3 ((checkId_hex h2).1 hh))]
      · have ht := i2 ⟨x, hx, e', h1, h2, h3⟩
        by_cases hl : k.length = 33
        · rw [if_pos hl, ht]
          split <;> rfl
        · rw [if_neg hl, ht]
  | (k, .set s) :: t => by
    obtain ⟨i1, i2⟩ := iterRecs_eq L t
    have hn : recEntry 5 L (k, .set s) = none := by unfold recEntry; split <;> rfl
    constructor
    · intro h
      simp only [iterRecs]
      rw [i1 fun x hx => h x (by simp [hx]), List.filterMap_cons, hn]
    · rintro ⟨x, hx, e', h1, h2, h3⟩
      rcases List.mem_cons.1 hx with rfl | hx
      · cases h1
      · exact i2 ⟨x, hx, e', h1, h2, h3⟩
  | (k, .scalar s) :: t => by
    obtain ⟨i1, i2⟩ := iterRecs_eq L t
    have hn : recEntry 5 L (k, .scalar s) = none := by unfold recEntry; split <;> rfl
    constructor
    · intro h
      simp only [iterRecs]
      rw [i1 fun x hx => h x (by simp [hx]), List.filterMap_cons, hn]
    · rintro ⟨x, hx, e', h1, h2, h3⟩
      rcases List.mem_cons.1 hx with rfl | hx
      · cases h1
      · exact i2 ⟨x, hx, e', h1, h2, h3⟩

/-- No dict under a 33-byte key that is no session id -/
def Client.MembersClean (c : Client) : Prop :=
  ∀ k e, c.get (pathM ++ [k]) = some (.dict e) → k.length = 33 → k.head? = some 5

theorem members_eq {S : Sys} (hS : S.Good) {c : Client} (hc : Reach S c) :
    (c.MembersClean → c.members = .ok (c.recs pathM 5 GMember.load)) ∧
    (¬ c.MembersClean → c.members = .err .foreign) := by
  have hP : pathM ≠ [] := by simp [pathM]
  have hs := table_sorted hS hc pathM
  obtain ⟨i1, i2⟩ := iterRecs_eq GMember.load (c.table pathM)
  have key : ∀ k v, (k, v) ∈ c.table pathM ↔ c.get (pathM ++ [k]) = some v := fun k v => by
    rw [← mget_iff_mem hs, table_mget hP]
  constructor
  · intro h
    exact i1 fun ⟨k, v⟩ hx e he hl => h k e (by rw [← (show v = .dict e from he)]; exact (key k v).1 hx) hl
  · intro h
    refine i2 ?_
    unfold Client.MembersClean at h
    push Not at h
    obtain ⟨k, e, h1, h2, h3⟩ := h
    exact ⟨(k, .dict e), (key _ _).2 h1, e, rfl, h2, h3⟩

/-- C92.  Iterating over the members yields exactly those `get` finds, under the lower-case spelling of
their ids, each once, in the order of the ids (and throws only if there is a record whose 33-byte key
is no session id, which `set` never makes).  `size` is their number if all entries are well formed. -/
theorem gmember_iter {S : Sys} (hS : S.Good) {c : Client} (hc : Reach S c) :
    (∀ l, c.members = .ok l →
      (∀ m, m ∈ l ↔ lower m.id = m.id ∧ c.getMember m.id = .ok (some m)) ∧
      (l.map GMember.id).Pairwise (fun a b => fromHex a < fromHex b) ∧
      l.length ≤ c.membersSize ∧
      ((∀ pk v, c.get (pathM ++ [pk]) = some v → pk.length = 33 ∧ ∃ e, v = .dict e) →
        l.length = c.membersSize)) ∧
    ((∃ l, c.members = .ok l) ↔ c.MembersClean) ∧
    (∀ (m : GMember) c', m.inRange = true → c.setMember S m = (c', .ok ()) → c.MembersClean → c'.MembersClean) := by
  obtain ⟨e1, e2⟩ := members_eq hS hc
  refine ⟨fun l hl => ?_, ⟨fun ⟨l, hl⟩ => ?_, fun h => ⟨_, e1 h⟩⟩, fun m c' hr h hcl => ?_⟩
  · have hcl : c.MembersClean := by
      by_contra hn; rw [e2 hn] at hl; cases hl
    rw [e1 hcl] at hl; cases hl
    obtain ⟨r1, r2, r3, r4⟩ := recs_spec hS hc (P := pathM) (by simp [pathM]) GMember.load GMember.id (fun _ _ => rfl)
      idBytes_toHex05 fun h => ⟨idBytes_len rfl h, idBytes_head05 h⟩
    refine ⟨r1, r2, r3, fun hall => r4 fun pk v hv => ?_⟩
    obtain ⟨a, e, rfl⟩ := hall pk v hv
    exact ⟨a, hcl pk e hv a, e, rfl⟩
  · by_contra hn; rw [e2 hn] at hl; cases hl
  · obtain ⟨h1, pk, hpk, _, _, h4, _⟩ := setRec_spec hS (by simp [pathM])
      (fun _ => gmember_fields_nodup m) (fun _ => gmember_fields_wf hr)
      (fun _ => ⟨([110], some (.scalar (.str (m.name.take 100)))), by simp [GMember.fields], rfl⟩) hc h
    intro k e a b
    by_cases hk : k = pk
    · subst hk; exact idBytes_head05 hpk
    · rw [h4 k hk] at a; exact hcl k e a b

/-! ### C93: on other devices -/

theorem GMember.load_congr (id : Bytes) (d d' : Dict) (h : SameReads d d') :
    GMember.load id d' = GMember.load id d := by
  unfold GMember.load loadAdmin loadStatus loadPic
  simp only [(h _).1, (h _).2.1]

/-- What holds of every member read, whatever is stored -/
structure GMember.Sound (m : GMember) : Prop where
  pic : (m.url ≠ [] ∧ m.key.length = 32) ∨ (m.url = [] ∧ m.key = [])
  admin : m.admin = true → m.invite = 0 ∧ m.promotion = 0
  supplement : m.supplement = true → m.invitePending = true ∧ m.promoted = false

theorem gmember_load_sound (id : Bytes) (d : Dict) : (GMember.load id d).Sound := by
  refine ⟨?_, fun h => ?_, fun h => ?_⟩
  · show ((loadPic d).1 ≠ [] ∧ (loadPic d).2.length = 32) ∨ ((loadPic d).1 = [] ∧ (loadPic d).2 = [])
    unfold loadPic
    split
    · split
      · rename_i hp; exact .inl ((picOk_iff _ _).1 hp)
      · exact .inr ⟨rfl, rfl⟩
    · exact .inr ⟨rfl, rfl⟩
  · have h : loadAdmin d = true := h
    constructor
    · show (if loadAdmin d then 0 else loadStatus d [73]) = 0
      rw [h]; rfl
    · show (if loadAdmin d then 0 else loadStatus d [80]) = 0
      rw [h]; rfl
  · have h : (decide (0 < (GMember.load id d).invite) && !(GMember.load id d).promoted &&
        ((maybeInt d [115]).getD 0 != 0)) = true := h
    simp only [Bool.and_eq_true, Bool.not_eq_true'] at h
    exact ⟨h.1.1, h.1.2⟩

/-- C93.  Every member that `get` returns is well-formed, whatever the object holds. -/
theorem gmember_read_sound (c : Client) (id : Bytes) {m : GMember} (h : c.getMember id = .ok (some m)) :
    m.id = id ∧ m.Sound := by
  obtain ⟨e, rfl⟩ := getRec_some h
  exact ⟨rfl, gmember_load_sound id e⟩

/-- C93.  A member that an admin set, once pushed and delivered (as in C34; the reader may be a member
without the group's secret key), reads there as it does on the admin's device; so does every other
member with a name field (which `set` always writes). -/
theorem gmember_delivered {S : Sys} (hS : S.Good) {sg : Option (Bytes → Bytes)}
    (hS' : (S.as sg).Good) {c0 c r : Client} (hc0 : Reach S c0) {x : GMember}
    (hx : x.inRange = true) (hset : c0.setMember S x = (c, .ok ()))
    (hr : Reach (S.as sg) r) {s : Int}
    {m : Bytes} {obs : List Bytes} (hp : (c.push S).2 = .ok (s, m, obs)) (hs : s ≠ 0)
    (hk : r.keys.head? = c.keys.head?) (hst : r.st ≠ .dirty)
    (hknown : r.seqno = 0 ∨
      ∀ M, parseMsg S.env false (c.plain S) = .ok M → Supersedes (S.as sg) M r)
    (hnc : S.env.H (c.plain S) = S.env.H (r.plain (S.as sg)) → c.plain S = r.plain (S.as sg))
    (hov : int64Ok (s + S.env.lag) = true) (h : Bytes)
    {r' : Client} {res : Out (List Bytes)} (hm : r.merge (S.as sg) [(h, m)] = (r', res)) :
    (∀ id, SameRec pre05 id x.id → r'.getMember id = .ok (some { x.norm with id := id })) ∧
    (∀ id, (∀ pk, idBytes id pre05 = .ok pk → c.get (pathM ++ [pk]) ≠ none →
        (maybeStr (curDict (c.get (pathM ++ [pk]))) [110]).isSome = true) →
      r'.getMember id = c.getMember id) := by
  have hn : ∀ _ : Bytes, ∃ s, ([110], some (.scalar (.str s))) ∈ x.fields := fun _ =>
    ⟨x.name.take 100, by unfold GMember.fields; simp⟩
  obtain ⟨hc, hget, _⟩ := gmember_set_get hS hc0 hx hset
  obtain ⟨_, hd, _⟩ := delivery_full hS hS' hc hr hp hs hk hst hknown hnc hov h
  rw [hm] at hd
  have hd : r'.conf.m.data = pruneD c.conf.m.data := hd
  have ht := (hc.inv hS).wf.data
  refine ⟨fun id hid => ?_,
    fun id hne => getRec_pruned ht hd GMember.load_congr id fun pk hpk hn => ⟨[110], hne pk hpk hn⟩⟩
  rw [← hget id hid]
  exact getRec_pruned ht hd GMember.load_congr id fun pk hpk _ => ⟨[110], rec_has hS (by simp [pathM])
      (fun _ => gmember_fields_nodup x) (fun _ => gmember_fields_wf hx) hn hc0 hset hid hpk⟩

/-! ### C95: the C struct -/

/-- C95, what holds.  A valid member with known statuses, whose strings contain no NUL and whose picture
URL has at most 223 bytes, goes through the C struct unchanged. -/
theorem gmember_via_c_partial {m : GMember} (h : m.Valid) (hu : m.url.length ≤ 223)
    (h1 : (0 : UInt8) ∉ m.name) (h3 : (0 : UInt8) ∉ m.url)
    (hs : m.invite ≤ 2 ∧ m.promotion ≤ 2 ∧ m.removed ≤ 2) : m.viaC = .ok m := by
  obtain ⟨v1, v3, v4, v5, v6, v7, v8⟩ := h
  have c1 : copyCStr 101 m.name = .ok m.name := by unfold copyCStr; rw [if_pos (by omega)]
  have c3 : copyPic m.url m.key = .ok m.url := by
    unfold copyPic
    rcases v3 with ⟨a, b⟩ | ⟨a, b⟩
    · rw [if_pos (by simp [picOk, a, b]), copyCStr, if_pos (by omega)]
    · rw [if_neg (by simp [picOk, a]), a]
  have hk : (if m.url = [] then [] else m.key) = m.key := by
    rcases v3 with ⟨a, b⟩ | ⟨a, b⟩
    · rw [if_neg a]
    · rw [if_pos a, b]
  have ks : ∀ i : Int, 0 ≤ i → i ≤ 2 → knownStatus i = i := by
    intro i a b; unfold knownStatus; split <;> omega
  unfold GMember.viaC
  rw [c1, c3]
  simp only [Out.bind_ok, cStr_of_clean h1, cStr_of_clean h3, hk, ks _ v4 hs.1, ks _ v5 hs.2.1, ks _ v6 hs.2.2]

/-- C95, for every member, also one another device stored: what comes back out of the C struct has the same id, flags and known
statuses, its strings up to the first NUL, and either a whole picture or none. -/
theorem gmember_via_c_sound {m m' : GMember} (h : m.viaC = .ok m') :
    m'.id = m.id ∧ m'.name = m.name.takeWhile (· ≠ 0) ∧ m'.admin = m.admin ∧ m'.supplement = m.supplement ∧
    m.name.length ≤ 100 ∧
    ((m'.url ≠ [] ∧ m'.key.length = 32 ∧ m'.key = m.key ∧ m'.url = m.url.takeWhile (· ≠ 0)) ∨ (m'.url = [] ∧ m'.key = [])) ∧
    (∀ f ∈ [GMember.invite, GMember.promotion, GMember.removed], f m' = if f m = 1 ∨ f m = 2 then f m else 0) := by
  unfold GMember.viaC at h
  obtain ⟨n, hn, h⟩ := Out.bind_eq_ok.1 h
  obtain ⟨u, hu, h⟩ := Out.bind_eq_ok.1 h
  cases h
  have hn' : n = m.name ∧ m.name.length ≤ 100 := by
    unfold copyCStr at hn
    split at hn
    · cases hn; exact ⟨rfl, by omega⟩
    · cases hn
  obtain ⟨rfl, hl⟩ := hn'
  refine ⟨rfl, rfl, rfl, rfl, hl, ?_, ?_⟩
  · by_cases he : cStr u = []
    · exact .inr ⟨he, by simp [he]⟩
    · left
      unfold copyPic at hu
      split at hu
      · rename_i hp
        unfold copyCStr at hu
        split at hu
        · cases hu
          have hk : (if cStr m.url = [] then [] else m.key) = m.key := if_neg he
          exact ⟨he, by show (if cStr m.url = [] then [] else m.key).length = 32; rw [hk]; exact ((picOk_iff _ _).1 hp).2, hk, rfl⟩
        · cases hu
      · cases hu; exact absurd rfl he
  · intro f hf
    simp only [List.mem_cons, List.not_mem_nil, or_false] at hf
    rcases hf with rfl | rfl | rfl <;> rfl

/-- C95, what does not hold: a name of more than 100 bytes or a picture URL of more than 223, which `get`
returns if another device stored them, make the conversion write out of bounds; a status this version
does not know is lost. -/
theorem gmember_via_c_fails :
    (∀ m : GMember, 100 < m.name.length → m.viaC = .ub) ∧
    (∀ m : GMember, 223 < m.url.length → m.key.length = 32 → m.viaC = .ub) ∧
    (∃ m : GMember, m.Valid ∧ m.invite = 3 ∧ m.viaC = .ok { m with invite := 0 }) := by
  refine ⟨fun m h => ?_, fun m h hk => ?_, ⟨{ id := [], name := [65], invite := 3 }, ?_, rfl, by decide +kernel⟩⟩
  · unfold GMember.viaC
    have : copyCStr 101 m.name = .ub := by unfold copyCStr; rw [if_neg (by omega)]
    rw [this]; rfl
  · have hu : copyPic m.url m.key = .ub := by
      unfold copyPic
      rw [if_pos ((picOk_iff _ _).2 ⟨by intro e; rw [e] at h; simp at h, hk⟩), copyCStr, if_neg (by omega)]
    unfold GMember.viaC
    by_cases hn : m.name.length < 101
    · have : copyCStr 101 m.name = .ok m.name := by unfold copyCStr; rw [if_pos hn]
      rw [this, hu]; rfl
    · have : copyCStr 101 m.name = .ub := by unfold copyCStr; rw [if_neg hn]
      rw [this]; rfl
  · constructor <;> decide +kernel

/-! ### C94: the description of a group -/

/-- Everything an `Info` shows -/
structure GInfo where
  name : Option Bytes
  descr : Option Bytes
  pic : Bytes × Bytes
  expiry : Option Int
  created : Option Int
  deleteBefore : Option Int
  deleteAttach : Option Int
  destroyed : Bool
deriving DecidableEq, Repr

/-- The getters, together -/
def Client.ginfo (c : Client) : GInfo :=
  { name := c.infoName, descr := c.infoDescr, pic := c.infoPic, expiry := c.infoExpiry, created := c.infoCreated,
    deleteBefore := c.infoDeleteBefore, deleteAttach := c.infoDeleteAttach, destroyed := c.infoDestroyed }

/-- A string, if it is not empty -/
def orNone (s : Bytes) : Option Bytes := if s = [] then none else some s

/-- A number, if it is positive -/
def posOrNone (i : Int) : Option Int := if 0 < i then some i else none

theorem ginfo_of {c c' : Client} {k : Bytes} (h : ∀ k', k' ≠ k → c'.get [k'] = c.get [k']) :
    (k ≠ [110] → c'.infoName = c.infoName) ∧ (k ≠ [111] → c'.infoDescr = c.infoDescr) ∧
    (k ≠ [112] → k ≠ [113] → c'.infoPic = c.infoPic) ∧ (k ≠ [69] → c'.infoExpiry = c.infoExpiry) ∧
    (k ≠ [99] → c'.infoCreated = c.infoCreated) ∧ (k ≠ [100] → c'.infoDeleteBefore = c.infoDeleteBefore) ∧
    (k ≠ [68] → c'.infoDeleteAttach = c.infoDeleteAttach) ∧ (k ≠ [33] → c'.infoDestroyed = c.infoDestroyed) := by
  unfold Client.infoName Client.infoDescr Client.infoPic Client.infoExpiry Client.infoCreated
    Client.infoDeleteBefore Client.infoDeleteAttach Client.infoDestroyed Client.getPic Client.strAt Client.intAt
  refine ⟨fun a => ?_, fun a => ?_, fun a b => ?_, fun a => ?_, fun a => ?_, fun a => ?_, fun a => ?_, fun a => ?_⟩
  · rw [h _ (Ne.symm a)]
  · rw [h _ (Ne.symm a)]
  · rw [h _ (Ne.symm a), h _ (Ne.symm b)]
  · rw [h _ (Ne.symm a)]
  · rw [h _ (Ne.symm a)]
  · rw [h _ (Ne.symm a)]
  · rw [h _ (Ne.symm a)]
  · rw [h _ (Ne.symm a)]

/-- C94.  Each setter of `Info` changes what its getter returns to the value set (names cut to 100 bytes,
descriptions to 2000, empty strings and non-positive numbers meaning none) and nothing else;
`destroy_group` cannot be undone through the API: no setter makes a destroyed group not destroyed. -/
theorem ginfo_set {S : Sys} (hS : S.Good) {c c' : Client} (hc : Reach S c) :
    (∀ n, c.setInfoName S n = (c', .ok ()) → c'.ginfo = { c.ginfo with name := orNone (n.take 100) }) ∧
    (∀ n, c.setInfoDescr S n = (c', .ok ()) → c'.ginfo = { c.ginfo with descr := orNone (n.take 2000) }) ∧
    (∀ u k, c.setPic S u k = (c', .ok ()) →
      c'.ginfo = { c.ginfo with pic := if u ≠ [] ∧ k.length = 32 then (u, k) else ([], []) }) ∧
    (∀ i, int64Ok i = true → c.setInfoExpiry S i = (c', .ok ()) →
      c'.ginfo = { c.ginfo with expiry := posOrNone i }) ∧
    (∀ i, int64Ok i = true → c.setInfoCreated S i = (c', .ok ()) →
      c'.ginfo = { c.ginfo with created := posOrNone i }) ∧
    (∀ i, int64Ok i = true → c.setInfoDeleteBefore S i = (c', .ok ()) →
      c'.ginfo = { c.ginfo with deleteBefore := posOrNone i }) ∧
    (∀ i, int64Ok i = true → c.setInfoDeleteAttach S i = (c', .ok ()) →
      c'.ginfo = { c.ginfo with deleteAttach := posOrNone i }) ∧
    (c.destroyInfo S = (c', .ok ()) → c'.ginfo = { c.ginfo with destroyed := true }) := by
  have one : ∀ (k : Bytes) (v : Option Val), wfO v = true → c.write S [k] v = (c', .ok ()) →
      c'.get [k] = v ∧ ∀ k', k' ≠ k → c'.get [k'] = c.get [k'] := by
    intro k v hv h
    obtain ⟨h1, h2, _⟩ := write_get hS hc (by simp) hv h
    exact ⟨h1, fun k' hk' => h2 _ (top_not_nested (Ne.symm hk'))⟩
  have str : ∀ s : Bytes, nonEmptyStr (strOf (fStr s)) = orNone s := by
    intro s; unfold fStr orNone; by_cases hn : s = [] <;> simp [hn, strOf, nonEmptyStr]
  have pos : ∀ i : Int, intOf (fPos i) = posOrNone i := by
    intro i; unfold fPos posOrNone; by_cases hn : i > 0 <;> simp [hn, intOf]
  refine ⟨fun n h => ?_, fun n h => ?_, fun u k h => ?_, fun i hi h => ?_, fun i hi h => ?_, fun i hi h => ?_,
    fun i hi h => ?_, fun h => ?_⟩
  · unfold Client.setInfoName at h
    rw [setNonempty_eq] at h
    obtain ⟨h1, h2⟩ := one _ _ (wfO_nestr _) h
    obtain ⟨g1, g2, g3, g4, g5, g6, g7, g8⟩ := ginfo_of h2
    unfold Client.ginfo
    rw [g2 (by decide), g3 (by decide) (by decide), g4 (by decide), g5 (by decide), g6 (by decide), g7 (by decide),
      g8 (by decide)]
    unfold Client.infoName Client.strAt
    rw [h1, str]
  · unfold Client.setInfoDescr at h
    rw [setNonempty_eq] at h
    obtain ⟨h1, h2⟩ := one _ _ (wfO_nestr _) h
    obtain ⟨g1, g2, g3, g4, g5, g6, g7, g8⟩ := ginfo_of h2
    unfold Client.ginfo
    rw [g1 (by decide), g3 (by decide) (by decide), g4 (by decide), g5 (by decide), g6 (by decide), g7 (by decide),
      g8 (by decide)]
    unfold Client.infoDescr Client.strAt
    rw [h1, str]
  · have hp : c'.getPic = if u ≠ [] ∧ k.length = 32 then (u, k) else ([], []) :=
      congrArg Profile.pic ((profile_set hS hc).2.1 u k h)
    unfold Client.setPic at h
    have hw : ∀ w ∈ [([[112]], fIf (picOk u k) (.str u)), ([[113]], fIf (picOk u k) (.str k))],
        w.1 ≠ ([] : List Bytes) ∧ wfO w.2 = true := by
      simp only [List.mem_cons, List.not_mem_nil, or_false, forall_eq_or_imp, forall_eq]
      exact ⟨⟨by simp, wfO_if _ rfl⟩, by simp, wfO_if _ rfl⟩
    obtain ⟨_, _, h2⟩ := writeAll_get hS _ hc hw
      (by simp only [List.pairwise_cons, List.mem_cons, List.not_mem_nil, or_false, forall_eq,
            List.Pairwise.nil, and_true, false_imp_iff, implies_true]
          exact top_not_nested (by decide)) h
    have h2' : ∀ k', k' ≠ [112] → k' ≠ [113] → c'.get [k'] = c.get [k'] := by
      intro k' a b
      refine h2 _ ?_
      simp only [List.mem_cons, List.not_mem_nil, or_false, forall_eq_or_imp, forall_eq]
      exact ⟨top_not_nested (Ne.symm a), top_not_nested (Ne.symm b)⟩
    unfold Client.ginfo
    rw [show c'.infoPic = _ from hp]
    unfold Client.infoName Client.infoDescr Client.infoExpiry Client.infoCreated
      Client.infoDeleteBefore Client.infoDeleteAttach Client.infoDestroyed Client.strAt Client.intAt
    rw [h2' [110] (by decide) (by decide), h2' [111] (by decide) (by decide), h2' [69] (by decide) (by decide),
      h2' [99] (by decide) (by decide), h2' [100] (by decide) (by decide), h2' [68] (by decide) (by decide),
      h2' [33] (by decide) (by decide)]
  · unfold Client.setInfoExpiry at h
    rw [setPositive_eq] at h
    obtain ⟨h1, h2⟩ := one _ _ (wfO_pos hi) h
    obtain ⟨g1, g2, g3, g4, g5, g6, g7, g8⟩ := ginfo_of h2
    unfold Client.ginfo
    rw [g1 (by decide), g2 (by decide), g3 (by decide) (by decide), g5 (by decide), g6 (by decide), g7 (by decide),
      g8 (by decide)]
    unfold Client.infoExpiry Client.intAt
    rw [h1, pos]
  · unfold Client.setInfoCreated at h
    rw [setPositive_eq] at h
    obtain ⟨h1, h2⟩ := one _ _ (wfO_pos hi) h
    obtain ⟨g1, g2, g3, g4, g5, g6, g7, g8⟩ := ginfo_of h2
    unfold Client.ginfo
    rw [g1 (by decide), g2 (by decide), g3 (by decide) (by decide), g4 (by decide), g6 (by decide), g7 (by decide),
      g8 (by decide)]
    unfold Client.infoCreated Client.intAt
    rw [h1, pos]
  · unfold Client.setInfoDeleteBefore at h
    rw [setPositive_eq] at h
    obtain ⟨h1, h2⟩ := one _ _ (wfO_pos hi) h
    obtain ⟨g1, g2, g3, g4, g5, g6, g7, g8⟩ := ginfo_of h2
    unfold Client.ginfo
    rw [g1 (by decide), g2 (by decide), g3 (by decide) (by decide), g4 (by decide), g5 (by decide), g7 (by decide),
      g8 (by decide)]
    unfold Client.infoDeleteBefore Client.intAt
    rw [h1, pos]
  · unfold Client.setInfoDeleteAttach at h
    rw [setPositive_eq] at h
    obtain ⟨h1, h2⟩ := one _ _ (wfO_pos hi) h
    obtain ⟨g1, g2, g3, g4, g5, g6, g7, g8⟩ := ginfo_of h2
    unfold Client.ginfo
    rw [g1 (by decide), g2 (by decide), g3 (by decide) (by decide), g4 (by decide), g5 (by decide), g6 (by decide),
      g8 (by decide)]
    unfold Client.infoDeleteAttach Client.intAt
    rw [h1, pos]
  · unfold Client.destroyInfo at h
    rw [setFlag_eq] at h
    obtain ⟨h1, h2⟩ := one _ _ (wfO_flag _) h
    obtain ⟨g1, g2, g3, g4, g5, g6, g7, g8⟩ := ginfo_of h2
    unfold Client.ginfo
    rw [g1 (by decide), g2 (by decide), g3 (by decide) (by decide), g4 (by decide), g5 (by decide), g6 (by decide),
      g7 (by decide)]
    unfold Client.infoDestroyed Client.intAt
    rw [h1]; rfl

/-- C94.  The description on the device of another member, after delivery (as in C34). -/
theorem ginfo_delivered {S : Sys} (hS : S.Good) {sg : Option (Bytes → Bytes)}
    (hS' : (S.as sg).Good) {c r : Client} (hc : Reach S c) (hr : Reach (S.as sg) r) {s : Int}
    {m : Bytes} {obs : List Bytes} (hp : (c.push S).2 = .ok (s, m, obs)) (hs : s ≠ 0)
    (hk : r.keys.head? = c.keys.head?) (hst : r.st ≠ .dirty)
    (hknown : r.seqno = 0 ∨
      ∀ M, parseMsg S.env false (c.plain S) = .ok M → Supersedes (S.as sg) M r)
    (hnc : S.env.H (c.plain S) = S.env.H (r.plain (S.as sg)) → c.plain S = r.plain (S.as sg))
    (hov : int64Ok (s + S.env.lag) = true) (h : Bytes)
    {r' : Client} {res : Out (List Bytes)} (hm : r.merge (S.as sg) [(h, m)] = (r', res)) :
    r'.ginfo = c.ginfo := by
  obtain ⟨_, _, h3, _⟩ := fields_delivered hS hS' hc hr hp hs hk hst hknown hnc hov h hm
  have key : ∀ p, intOf (r'.get p) = intOf (c.get p) ∧ strOf (r'.get p) = strOf (c.get p) := by
    intro p
    exact scalars_eq (h3 p)
  unfold Client.ginfo Client.infoName Client.infoDescr Client.infoPic Client.infoExpiry Client.infoCreated
      Client.infoDeleteBefore Client.infoDeleteAttach Client.infoDestroyed Client.getPic Client.strAt Client.intAt
  simp only [(key _).1, (key _).2]

/-- C94.  Whatever other versions stored: a name or description shown is a stored non-empty string, the key of the
picture has 32 bytes or is missing, and the group is destroyed exactly if a positive number is stored as the flag. -/
theorem ginfo_read (c : Client) :
    (∀ s, c.infoName = some s ↔ s ≠ [] ∧ c.get [[110]] = some (.scalar (.str s))) ∧
    (∀ s, c.infoDescr = some s ↔ s ≠ [] ∧ c.get [[111]] = some (.scalar (.str s))) ∧
    (c.infoPic.2 = [] ∨ c.infoPic.2.length = 32 ∧ c.get [[113]] = some (.scalar (.str c.infoPic.2))) ∧
    (c.infoPic.1 = [] ∨ c.get [[112]] = some (.scalar (.str c.infoPic.1))) ∧
    (∀ i, c.infoExpiry = some i ↔ c.get [[69]] = some (.scalar (.int i))) ∧
    (∀ i, c.infoCreated = some i ↔ c.get [[99]] = some (.scalar (.int i))) ∧
    (∀ i, c.infoDeleteBefore = some i ↔ c.get [[100]] = some (.scalar (.int i))) ∧
    (∀ i, c.infoDeleteAttach = some i ↔ c.get [[68]] = some (.scalar (.int i))) ∧
    (c.infoDestroyed = true ↔ ∃ i, 0 < i ∧ c.get [[33]] = some (.scalar (.int i))) := by
  have hs : ∀ (v : Option Val) s, strOf v = some s ↔ v = some (.scalar (.str s)) := by
    intro v s
    constructor
    · intro h; unfold strOf at h; split at h
      · cases h; rfl
      · cases h
    · rintro rfl; rfl
  have hi : ∀ (v : Option Val) i, intOf v = some i ↔ v = some (.scalar (.int i)) := by
    intro v i
    constructor
    · intro h; unfold intOf at h; split at h
      · cases h; rfl
      · cases h
    · rintro rfl; rfl
  have hne : ∀ (v : Option Val) s, nonEmptyStr (strOf v) = some s ↔ s ≠ [] ∧ v = some (.scalar (.str s)) := by
    intro v s
    rw [← hs]
    cases strOf v with
    | none => simp [nonEmptyStr]
    | some x =>
      by_cases hx : x = []
      · simp only [nonEmptyStr, hx, if_true, Option.some.injEq]
        constructor
        · intro h; cases h
        · rintro ⟨h1, h2⟩; exact absurd h2.symm h1
      · simp only [nonEmptyStr, hx, if_false, Option.some.injEq]
        constructor
        · rintro rfl; exact ⟨hx, rfl⟩
        · exact fun h => h.2
  refine ⟨fun s => hne _ s, fun s => hne _ s, ?_, ?_, fun i => hi _ i, fun i => hi _ i, fun i => hi _ i, fun i => hi _ i,
    ?_⟩
  · unfold Client.infoPic Client.getPic
    dsimp only
    cases hk : c.strAt [[113]] with
    | none => exact .inl rfl
    | some k =>
      dsimp only
      by_cases hl : k.length = 32
      · rw [if_pos hl]; exact .inr ⟨hl, (hs _ _).1 hk⟩
      · rw [if_neg hl]; exact .inl rfl
  · unfold Client.infoPic Client.getPic
    dsimp only
    cases hk : c.strAt [[112]] with
    | none => exact .inl rfl
    | some k => exact .inr ((hs _ _).1 hk)
  · unfold Client.infoDestroyed
    cases hk : c.intAt [[33]] with
    | none =>
      simp only [Bool.false_eq_true, false_iff]
      rintro ⟨i, _, h⟩
      have := (hi _ _).2 h
      unfold Client.intAt at hk
      rw [hk] at this; cases this
    | some i =>
      simp only [decide_eq_true_eq]
      constructor
      · exact fun h => ⟨i, h, (hi _ _).1 hk⟩
      · rintro ⟨j, hj, h⟩
        have := (hi _ _).2 h
        unfold Client.intAt at hk
        rw [hk] at this; cases this; exact hj

/-! ### Concrete cases -/

/-- A member who has been invited with supplemental keys. -/
def exMember : GMember :=
  { id := exId, name := [65, 66], url := [104, 116], key := List.replicate 32 9, invite := 1, supplement := true,
    removed := 2 }

theorem exMember_valid : exMember.Valid := by constructor <;> decide +kernel

/-- C95: a member with everything set goes through the C struct; an unknown status is dropped, and so is a picture without a
URL. -/
example : exMember.Valid ∧ exMember.url.length ≤ 223 ∧ (0 : UInt8) ∉ exMember.name ++ exMember.url ∧
    exMember.viaC = .ok exMember ∧
    ({ exMember with url := [0], removed := 7 } : GMember).viaC = .ok { exMember with url := [], key := [], removed := 0 } :=
  ⟨exMember_valid, by decide +kernel, by decide +kernel, by decide +kernel, by decide +kernel⟩

/-- Stored by an admin, read under another spelling, listed; the flag for supplemental keys of somebody
who is not invited is not stored. -/
example :
    let a := (exC3.setMember exSys exMember).1
    let b := (a.setMember exSys { id := exId2, admin := true, promotion := 1, supplement := true }).1
    exMember.inRange = true ∧ (exC3.setMember exSys exMember).2 = .ok () ∧
      b.getMember (lower exId) = .ok (some { exMember with id := lower exId }) ∧
      b.getMember exId2 = .ok (some { id := exId2, admin := true }) ∧
      b.membersSize = 2 ∧
      b.members = .ok [{ exMember with id := lower exId }, { id := lower exId2, admin := true }] ∧
      (b.eraseGMember exSys exId).2 = .ok true ∧
      (b.eraseGMember exSys exId).1.getMember exId = .ok none := by decide +kernel

/-- Statuses: accepted, invited again but not sent, promoted, made an admin, removed with the messages. -/
example :
    let set (m : GMember) := ((exC3.setMember exSys m).2 == .ok (), (exC3.setMember exSys m).1.getMember exId)
    set exMember.setAccepted = (true, .ok (some { exMember with invite := 0, supplement := false })) ∧
      set (exMember.setInvited true) = (true, .ok (some { exMember with invite := 2 })) ∧
      set (exMember.setPromoted false) = (true, .ok (some { exMember with promotion := 1, supplement := false })) ∧
      set { exMember with admin := true } =
        (true, .ok (some { exMember with admin := true, invite := 0, supplement := false })) ∧
      set (exMember.setRemoved true) = (true, .ok (some { exMember with removed := 2 })) := by decide +kernel

/-- Delivered to a member who cannot sign. -/
example :
    let c := (exC3.setMember exSys exMember).1
    let m := match (c.push exSys).2 with | .ok (_, m, _) => m | _ => []
    (exR0.merge exSysRO [([107], m)]).1.getMember exId = .ok (some exMember) ∧
      exSysRO.env.readonly = true ∧ exR0.getMember exId = .ok none := by decide +kernel

/-- A description set field by field, and delivered. -/
example :
    let a := (exC3.setInfoName exSys (List.replicate 120 65)).1
    let b := (a.setPic exSys [104] (List.replicate 32 9)).1
    let c := (b.setInfoDeleteBefore exSys 77).1
    let d := (c.setInfoExpiry exSys (-5)).1
    let e := (d.destroyInfo exSys).1
    let m := match (e.push exSys).2 with | .ok (_, m, _) => m | _ => []
    e.ginfo = ⟨some (List.replicate 100 65), none, ([104], List.replicate 32 9), none, none, some 77, none, true⟩ ∧
      (exR0.merge exSysRO [([107], m)]).1.ginfo = e.ginfo := by decide +kernel

end Verif
