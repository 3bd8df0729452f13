import Verif.Props.ContactsNet
import Verif.Props.LegacyNet
import Verif.Props.GroupMembers
import Verif.Props.UserComm
import Verif.Props.UserGroupsWitness

/-!
# Records set and erased on several devices (C121)
-/

namespace Verif

/-! ### The calls -/

/-- The calls that store or erase one record of `Contacts`, `UserGroups`, `Members` or `ConvoInfoVolatile` -/
inductive RecOp where
  | setContact (r : Contact) | eraseContact (id : Bytes)
  | setGroup (g : Group) | eraseGroup (id : Bytes)
  | setLegacy (g : Legacy) | eraseLegacy (id : Bytes)
  | setMember (m : GMember) | eraseMember (id : Bytes)
  | setConvo (now : Int) (k : ConvoKind) (id : Bytes) (x : Convo) | eraseConvo (k : ConvoKind) (id : Bytes)
  | setUComm (x : Comm) | setComm (now : Int) (base room pk : Bytes) (x : Convo) | eraseComm (base room : Bytes)

/-- The result, without what `erase` reports -/
def dropBool (r : Client × Out Bool) : Client × Out Unit := (r.1, r.2.bind fun _ => .ok ())

def RecOp.run (S : Sys) (c : Client) : RecOp → Client × Out Unit
  | .setContact r => c.setContact S r
  | .eraseContact id => dropBool (c.eraseContact S id)
  | .setGroup g => c.setGroup S g
  | .eraseGroup id => dropBool (c.eraseGroup S id)
  | .setLegacy g => c.setLegacy S g
  | .eraseLegacy id => dropBool (c.eraseLegacy S id)
  | .setMember m => c.setMember S m
  | .eraseMember id => dropBool (c.eraseGMember S id)
  | .setConvo now k id x => c.setConvo S now k id x
  | .eraseConvo k id => dropBool (c.eraseConvo S k id)
  | .setUComm x => c.setUComm S x
  | .setComm now base room pk x => c.setComm S now base room pk x
  | .eraseComm base room => dropBool (c.eraseComm S base room)

/-- The integers fit their C++ types. -/
def RecOp.inRange : RecOp → Bool
  | .setContact r => r.inRange
  | .setGroup g => g.base.inRange
  | .setLegacy g => g.inRange
  | .setMember m => m.inRange
  | .setConvo _ _ _ x => int64Ok x.lastRead
  | .setUComm x => x.info.inRange
  | .setComm _ _ _ _ x => int64Ok x.lastRead
  | _ => true

/-- Where the record of an id is stored -/
def recPlace (P : List Bytes) (pre id : Bytes) : Option (List Bytes) := match idBytes id pre with
  | .ok pk => some (P ++ [pk])
  | _ => none

/-- Where a community is stored -/
def roomPlace (base room : Bytes) : Option (List Bytes) := match canonUrl base, canonRoom room with
  | .ok b, .ok r => some (roomPath b r)
  | _, _ => none

/-- Where the record is stored that a call is about -/
def RecOp.place : RecOp → Option (List Bytes)
  | .setContact r => recPlace pathC pre05 r.id
  | .eraseContact id => recPlace pathC pre05 id
  | .setGroup g => recPlace pathG pre03 g.id
  | .eraseGroup id => recPlace pathG pre03 id
  | .setLegacy g => recPlace pathL pre05 g.id
  | .eraseLegacy id => recPlace pathL pre05 id
  | .setMember m => recPlace pathM pre05 m.id
  | .eraseMember id => recPlace pathM pre05 id
  | .setConvo _ k id _ => recPlace k.path k.pre id
  | .eraseConvo k id => recPlace k.path k.pre id
  | .setUComm x => roomPlace x.base x.room
  | .setComm _ base room _ _ => roomPlace base room
  | .eraseComm base room => roomPlace base room

/-- A device makes these calls, all of them successful. -/
inductive RunsOps (S : Sys) : Client → List RecOp → Client → Prop
  | nil (c : Client) : RunsOps S c [] c
  | cons {c c1 c' : Client} {op : RecOp} {ops : List RecOp} : op.inRange = true → op.run S c = (c1, .ok ()) →
      RunsOps S c1 ops c' → RunsOps S c (op :: ops) c'

/-- The path of a record: in a table, or of a room -/
def RecPath (q : List Bytes) : Prop := (∃ k pk : Bytes, k ≠ [111] ∧ q = [k, pk]) ∨ ∃ b r, q = roomPath b r

theorem rec_nested {p q : List Bytes} (hp : RecPath p) (hq : RecPath q) (h : Nested p q) : p = q := by
  rcases hp with ⟨k, pk, hk, rfl⟩ | ⟨b, r, rfl⟩ <;> rcases hq with ⟨k', pk', hk', rfl⟩ | ⟨b', r', rfl⟩
  · exact nested_same_length (by rfl) h
  · exact absurd (nested_head h) hk
  · exact absurd (nested_head h).symm hk'
  · obtain ⟨rfl, rfl⟩ := room_inj h; rfl

theorem writeAll_frame {S : Sys} (hS : S.Good) : ∀ (ws : List (List Bytes × Option Val)) {c c' : Client}, Reach S c →
    (∀ w ∈ ws, w.1 ≠ [] ∧ wfO w.2 = true) → c.writeAll S ws = (c', .ok ()) →
    Reach S c' ∧ ∀ q, (∀ w ∈ ws, ¬ Nested w.1 q) → c'.get q = c.get q
  | [], c, c', hr, _, h => by cases h; exact ⟨hr, fun _ _ => rfl⟩
  | (p, v) :: t, c, c', hr, hw, h => by
    simp only [Client.writeAll] at h
    split at h
    · rename_i c1 hc1
      obtain ⟨g1, g2, g3⟩ := write_get hS hr (hw (p, v) (by simp)).1 (hw (p, v) (by simp)).2 hc1
      obtain ⟨k1, k2⟩ := writeAll_frame hS t g3 (fun w hm => hw w (by simp [hm])) h
      exact ⟨k1, fun q hq => by rw [k2 q fun w hm => hq w (by simp [hm]), g2 q (hq (p, v) (by simp))]⟩
    · rename_i c1 e hne hc1
      cases h
      exact (hne rfl).elim

/-- What a call does: it leaves all other records and all other tables as they are. -/
structure OpSpec (S : Sys) (c c' : Client) (P : List Bytes) : Prop where
  path : RecPath P
  edits : Edits S c c'
  reach : Reach S c'
  others : ∀ q, RecPath q → q ≠ P → c'.get q = c.get q
  tables : ∀ q, ¬ Nested (P.take 1) q → c'.get q = c.get q

theorem writes_spec {S : Sys} (hS : S.Good) {c c' : Client} (hr : Reach S c) {P : List Bytes} (hP : RecPath P)
    {ws : List (List Bytes × Option Val)} (hw : ∀ w ∈ ws, w.1 ≠ [] ∧ wfO w.2 = true) (hpre : ∀ w ∈ ws, P <+: w.1)
    (h : c.writeAll S ws = (c', .ok ())) : OpSpec S c c' P := by
  obtain ⟨h1, h2⟩ := writeAll_frame hS ws hr hw h
  refine ⟨hP, writeAll_edits hS ws hr hw h, h1, fun q hq hne => h2 q fun w hm hn => ?_, fun q hq => h2 q fun w hm hn => ?_⟩
  · exact hne (rec_nested hP hq (nested_trans_left (hpre w hm) hn)).symm
  · exact hq (nested_trans_left ((List.take_prefix 1 P).trans (hpre w hm)) hn)

theorem erase_edits {S : Sys} (hS : S.Good) {c c' : Client} (hr : Reach S c) {p : List Bytes}
    (h : c.erase S p = (c', .ok ())) : Edits S c c' := by
  have : c.write S p none = (c', .ok ()) := h
  exact write_edits hS hr rfl this

theorem eraseOp_spec {S : Sys} (hS : S.Good) {c c' : Client} (hr : Reach S c) {P : List Bytes} (hP : RecPath P)
    (h : c.erase S P = (c', .ok ())) : OpSpec S c c' P := by
  obtain ⟨_, h2, h3⟩ := erase_get hS hr h
  refine ⟨hP, erase_edits hS hr h, h3, fun q hq hne => h2 q fun hn => hne (rec_nested hP hq hn).symm, fun q hq =>
    h2 q fun hn => hq (nested_trans_left (List.take_prefix 1 P) hn)⟩

theorem entries_prefix {P : List Bytes} {fs : List (Bytes × Option Val)} : ∀ w ∈ entries P fs, P <+: w.1 := by
  intro w hw
  obtain ⟨f, _, rfl⟩ := List.mem_map.1 hw
  exact List.prefix_append _ _

theorem setRec_op {S : Sys} (hS : S.Good) {c c' : Client} (hr : Reach S c) {k : Bytes} (hk : k ≠ [111]) {pre id : Bytes}
    {fs : Bytes → List (Bytes × Option Val)} (hw : ∀ pk, ∀ f ∈ fs pk, wfO f.2 = true)
    (h : c.setRec S [k] pre id fs = (c', .ok ())) : ∃ P, recPlace [k] pre id = some P ∧ OpSpec S c c' P := by
  obtain ⟨pk, hpk, h⟩ := setRec_ok h
  exact ⟨[k, pk], by unfold recPlace; rw [hpk]; rfl, writes_spec hS hr (.inl ⟨k, pk, hk, rfl⟩) (entries_ok (hw pk))
    entries_prefix h⟩

theorem dropBool_ok {r : Client × Out Bool} {c' : Client} (h : dropBool r = (c', .ok ())) : ∃ b, r = (c', .ok b) := by
  obtain ⟨c1, o⟩ := r
  unfold dropBool at h
  obtain ⟨h1, h2⟩ := Prod.mk.inj h
  simp only at h1 h2
  subst h1
  cases o with
  | ok b => exact ⟨b, rfl⟩
  | err e => cases h2
  | hang => cases h2
  | ub => cases h2

theorem eraseRec_op {S : Sys} (hS : S.Good) {c c' : Client} (hr : Reach S c) {k : Bytes} (hk : k ≠ [111]) {pre id : Bytes}
    (h : dropBool (c.eraseRec S [k] pre id) = (c', .ok ())) : ∃ P, recPlace [k] pre id = some P ∧ OpSpec S c c' P := by
  obtain ⟨b, h⟩ := dropBool_ok h
  unfold Client.eraseRec at h
  split at h
  · rename_i pk hpk
    exact ⟨[k, pk], by unfold recPlace; rw [hpk]; rfl, eraseOp_spec hS hr (.inl ⟨k, pk, hk, rfl⟩) (eraseImpl_ok h).1⟩
  · cases (Prod.mk.inj h).2
  · cases (Prod.mk.inj h).2
  · cases (Prod.mk.inj h).2

theorem eraseContact_rec (S : Sys) (c : Client) (id : Bytes) : c.eraseContact S id = c.eraseRec S pathC pre05 id := rfl

theorem eraseConvo_rec (S : Sys) (c : Client) (k : ConvoKind) (id : Bytes) :
    c.eraseConvo S k id = c.eraseRec S k.path k.pre id := rfl

theorem setBase_op {S : Sys} (hS : S.Good) {c c' : Client} (hr : Reach S c) {now : Int} {P : List Bytes} (hP : RecPath P)
    {x : Convo} (hx : int64Ok x.lastRead = true) (h : c.setBase S now P x = (c', .ok ())) : OpSpec S c c' P := by
  unfold Client.setBase at h
  split at h
  · rename_i ws hws
    refine writes_spec hS hr hP (setBase_wf hx hws) (fun w hw => ?_) h
    rcases List.mem_append.1 hw with hw | hw
    · have : w.1 = P ++ [[114]] := by
        unfold Client.readWrites at hws
        split at hws
        · cases hws; rw [List.mem_singleton.1 hw]
        · split at hws
          · cases hws
            split at hw
            · rw [List.mem_singleton.1 hw]
            · cases hw
          · cases hws
      rw [this]; exact List.prefix_append _ _
    · rw [List.mem_singleton.1 hw]; exact List.prefix_append _ _
  · cases (Prod.mk.inj h).2
  · cases (Prod.mk.inj h).2
  · cases (Prod.mk.inj h).2

theorem key_not_rec {b : Bytes} {q : List Bytes} (hq : RecPath q) : ¬ Nested (pathO ++ [b, [35]]) q := by
  rcases hq with ⟨k, pk, hk, rfl⟩ | ⟨b', r', rfl⟩
  · exact fun h => hk (nested_head h).symm
  · have := key_not_room b b' r' []
    rwa [List.append_nil] at this

theorem OpSpec.trans {S : Sys} {a b c : Client} {P : List Bytes} (h1 : OpSpec S a b P) (h2 : OpSpec S b c P) : OpSpec S a c P :=
  ⟨h1.path, h1.edits.trans h2.edits, h2.reach, fun q hq hne => (h2.others q hq hne).trans (h1.others q hq hne),
    fun q hq => (h2.tables q hq).trans (h1.tables q hq)⟩

/-- Writing the key of the server of a room -/
theorem key_op {S : Sys} (hS : S.Good) {c c' : Client} (hr : Reach S c) {b r : Bytes} {pk : Bytes}
    (h : c.assign S (pathO ++ [b, [35]]) (.scalar (.str pk)) = (c', .ok ())) : OpSpec S c c' (roomPath b r) := by
  have h' : c.write S (pathO ++ [b, [35]]) (some (.scalar (.str pk))) = (c', .ok ()) := h
  obtain ⟨_, g2, g3⟩ := write_get hS hr (by simp) (wfO_str _) h'
  refine ⟨.inr ⟨b, r, rfl⟩, write_edits hS hr (wfO_str _) h', g3, fun q hq _ => g2 q (key_not_rec hq), fun q hq => g2 q fun hn =>
    hq (nested_trans_left (p := [[111]]) ⟨[b, [35]], rfl⟩ hn)⟩

theorem eraseComm_edits {S : Sys} (hS : S.Good) {c c' : Client} (hr : Reach S c) {base room b r : Bytes}
    (hb : canonUrl base = .ok b) (hrm : canonRoom room = .ok r) {res : Bool}
    (h : c.eraseComm S base room = (c', .ok res)) : Edits S c c' := by
  unfold Client.eraseComm at h
  rw [hb, hrm] at h
  simp only at h
  have himpl : ∀ c1 o, c.eraseImpl S (roomPath b r) = (c1, .ok o) → Edits S c c1 ∧ Reach S c1 := fun c1 o h1 =>
    ⟨erase_edits hS hr (eraseImpl_ok h1).1, (erase_get hS hr (eraseImpl_ok h1).1).2.2⟩
  split at h
  · rename_i c1 h1
    obtain ⟨i1, i2⟩ := himpl _ _ h1
    split at h
    · rename_i c2 h2
      obtain ⟨rfl, _⟩ := Prod.mk.inj h
      unfold Client.eraseServer at h2
      split at h2
      · obtain ⟨rfl, _⟩ := Prod.mk.inj h2
        exact i1
      · split at h2
        · rename_i c3 h3
          exact (i1.trans (erase_edits hS i2 h3)).trans (erase_edits hS (erase_get hS i2 h3).2.2 h2)
        · rename_i c3 o hne heq
          obtain ⟨rfl, rfl⟩ := Prod.mk.inj h2
          exact absurd rfl hne
    · cases (Prod.mk.inj h).2
    · cases (Prod.mk.inj h).2
    · cases (Prod.mk.inj h).2
  · rename_i c1 o hne heq
    obtain ⟨rfl, rfl⟩ := Prod.mk.inj h
    exact (himpl _ _ heq).1

theorem op_spec {S : Sys} (hS : S.Good) {c c' : Client} (hr : Reach S c) {op : RecOp} (hi : op.inRange = true)
    (h : op.run S c = (c', .ok ())) : ∃ P, op.place = some P ∧ OpSpec S c c' P := by
  cases op with
  | setContact r => exact setRec_op hS hr (k := [99]) (by decide) (fs := fun _ => r.fields) (fun _ => contact_fields_wf hi) h
  | eraseContact id => exact eraseRec_op hS hr (k := [99]) (by decide) h
  | setGroup g => exact setRec_op hS hr (k := [103]) (by decide) (fun pk => group_fields_wf hi pk) h
  | eraseGroup id => exact eraseRec_op hS hr (k := [103]) (by decide) h
  | setLegacy g => exact setRec_op hS hr (k := [67]) (by decide) (fs := fun _ => g.fields) (fun _ => legacy_fields_wf hi) h
  | eraseLegacy id => exact eraseRec_op hS hr (k := [67]) (by decide) h
  | setMember m => exact setRec_op hS hr (k := [109]) (by decide) (fs := fun _ => m.fields) (fun _ => gmember_fields_wf hi) h
  | eraseMember id => exact eraseRec_op hS hr (k := [109]) (by decide) h
  | eraseConvo k id => cases k <;> exact eraseRec_op hS hr (by decide) h
  | setConvo now k id x =>
    have h : c.setConvo S now k id x = (c', .ok ()) := h
    unfold Client.setConvo at h
    split at h
    · rename_i pk hpk
      refine ⟨k.path ++ [pk], by show recPlace _ _ _ = _; unfold recPlace; rw [hpk], setBase_op hS hr (.inl ?_) hi h⟩
      cases k <;> exact ⟨_, pk, by decide, rfl⟩
    · cases (Prod.mk.inj h).2
    · cases (Prod.mk.inj h).2
    · cases (Prod.mk.inj h).2
  | setUComm x =>
    obtain ⟨b, r, hb, hrm, _, h⟩ := setUComm_ok h
    refine ⟨roomPath b r, by show roomPlace _ _ = _; unfold roomPlace; rw [hb, hrm], ?_⟩
    unfold Comm.writes at h
    simp only [Client.writeAll] at h
    split at h
    · rename_i c1 hc1
      have k1 := key_op hS hr (r := r) hc1
      exact k1.trans (writes_spec hS k1.reach k1.path (entries_ok (comm_fields_wf hi)) entries_prefix h)
    · rename_i c1 e hne hc1
      cases h
      exact (hne rfl).elim
  | setComm now base room pk x =>
    obtain ⟨b, r, c1, hb, hrm, _, h1, h2⟩ := setComm_ok h
    have k1 := key_op hS hr (r := r) h1
    exact ⟨roomPath b r, by show roomPlace _ _ = _; unfold roomPlace; rw [hb, hrm], k1.trans (setBase_op hS k1.reach k1.path hi h2)⟩
  | eraseComm base room =>
    obtain ⟨res, h⟩ := dropBool_ok h
    have hok : ∃ b r, canonUrl base = .ok b ∧ canonRoom room = .ok r := by
      unfold Client.eraseComm at h
      cases hb : canonUrl base <;> rw [hb] at h <;> try cases (Prod.mk.inj h).2
      cases hr : canonRoom room <;> rw [hr] at h <;> try cases (Prod.mk.inj h).2
      exact ⟨_, _, rfl, rfl⟩
    obtain ⟨b, r, hb, hrm⟩ := hok
    obtain ⟨s1, _, _, s4, _, _, _, s8⟩ := eraseComm_spec hS hr hb hrm h
    refine ⟨roomPath b r, by show roomPlace _ _ = _; unfold roomPlace; rw [hb, hrm], .inr ⟨b, r, rfl⟩,
      eraseComm_edits hS hr hb hrm h, s1, fun q hq hne => ?_, fun q hq => s8 q hq⟩
    rcases hq with ⟨k, pk', hk, rfl⟩ | ⟨b', r', rfl⟩
    · exact s8 _ fun hn => hk (nested_head hn).symm
    · exact s4 b' r' fun he => hne (by rw [he.1, he.2])

theorem RunsOps.spec {S : Sys} (hS : S.Good) {c c' : Client} {ops : List RecOp} (h : RunsOps S c ops c') (hr : Reach S c) :
    Edits S c c' ∧ Reach S c' ∧
    (∀ q, RecPath q → (∀ op ∈ ops, op.place ≠ some q) → c'.get q = c.get q) ∧
    (∀ q, (∀ op ∈ ops, ∀ P, op.place = some P → ¬ Nested (P.take 1) q) → c'.get q = c.get q) := by
  induction h with
  | nil c => exact ⟨.refl _, hr, fun _ _ _ => rfl, fun _ _ => rfl⟩
  | @cons c c1 c' op ops h1 h2 _ ih =>
    obtain ⟨P, hp, s⟩ := op_spec hS hr h1 h2
    obtain ⟨i1, i2, i3, i4⟩ := ih s.reach
    refine ⟨s.edits.trans i1, i2, fun q hq hne => ?_, fun q hq => ?_⟩
    · rw [i3 q hq fun o ho => hne o (by simp [ho]), s.others q hq fun e => hne op (by simp) (e ▸ hp)]
    · rw [i4 q fun o ho => hq o (by simp [ho]), s.tables q (hq op (by simp) P hp)]

/-! ### Leaving a record alone -/

theorem valAt_subDict {d : Dict} {k k2 : Bytes} {ps : List Bytes} :
    valAt d (k :: k2 :: ps) = valAt (subDict (mget k d)) (k2 :: ps) := by
  rw [valAt_curDict]
  cases mget k d with
  | none => rfl
  | some v => cases v <;> rfl

theorem sameAt_prefix {r : List Bytes} : ∀ {q : List Bytes} {a b : Dict}, q ≠ [] → valAt a q = valAt b q →
    (∀ p, p ≠ [] → p <+: q → p ≠ q → valAt b p = valAt a p ∨ ∃ d, valAt b p = some (.dict d)) →
    sameAt a b (q ++ r) = true
  | [], _, _, h, _, _ => absurd rfl h
  | [k], a, b, _, h, _ => by
    have h : mget k a = mget k b := h
    cases r with
    | nil => simp [sameAt, h]
    | cons k2 t => simp [sameAt, h]
  | k :: k2 :: ps, a, b, _, h, hp => by
    show sameAt a b (k :: k2 :: (ps ++ r)) = true
    simp only [sameAt, Bool.or_eq_true, decide_eq_true_eq]
    rcases hp [k] (by simp) ⟨k2 :: ps, rfl⟩ (by simp) with h1 | ⟨d, h1⟩
    · exact .inl h1.symm
    · have h1 : mget k b = some (.dict d) := h1
      right
      rw [h1]
      simp only
      have hb : ∀ t t', valAt b (k :: t :: t') = valAt d (t :: t') := fun t t' => by
        rw [valAt_subDict, h1]; rfl
      refine sameAt_prefix (q := k2 :: ps) (by simp) ?_ fun p hne hpre hpne => ?_
      · rw [← valAt_subDict, h, hb]
      · cases p with
        | nil => exact absurd rfl hne
        | cons t t' =>
          rw [← valAt_subDict, ← hb]
          exact hp (k :: t :: t') (by simp) (List.cons_prefix_cons.2 ⟨rfl, hpre⟩) (by simpa using hpne)

/-- The device has not removed the table (or the server) a record is in: every dict on the way to the record is in what it
publishes, or is what it was in the common config `B`. -/
def KeepsWay (B a : Client) (P : List Bytes) : Prop :=
  ∀ q, q ≠ [] → q <+: P → q ≠ P → valAt a.content q = valAt B.content q ∨ ∃ d, valAt a.content q = some (.dict d)

/-- A device: before its calls, the calls, after them -/
abbrev Device := Client × List RecOp × Client

/-- A device that holds the config of `B`, makes these calls, and so has changes to publish. -/
structure DeviceEdit (S : Sys) (B : Client) (e : Device) : Prop where
  peer : Peer S e.1
  idle : e.1.st ≠ .dirty
  same : SameConfig S e.1 B
  runs : RunsOps S e.1 e.2.1 e.2.2
  pending : e.2.2.st = .dirty

/-- A device that makes no call about the record at `P` and keeps the way to it -/
def Spares (B : Client) (e : Device) (P : List Bytes) : Prop := (∀ op ∈ e.2.1, op.place ≠ some P) ∧ KeepsWay B e.2.2 P

theorem DeviceEdit.editor {S : Sys} (hS : S.Good) (hro : S.env.readonly = false) {B : Client} {e : Device}
    (h : DeviceEdit S B e) : Editor S B (e.1, e.2.2) :=
  ⟨h.peer, h.idle, h.same, (h.runs.spec hS (h.peer.inv hS hro).reach).1, h.pending⟩

theorem DeviceEdit.content {S : Sys} (hS : S.Good) (hro : S.env.readonly = false) {B : Client} (hB : Peer S B) {e : Device}
    (h : DeviceEdit S B e) : e.1.content = B.content := by
  have hb := h.peer.inv hS hro
  have h1 := congrArg Msg.data (h.same.own hS hro hb (hB.inv hS hro))
  rw [own_content, own_content] at h1
  unfold Client.content
  rw [← refresh_data_eq (hb.reach.inv hS).wf, ← refresh_data_eq ((hB.inv hS hro).reach.inv hS).wf]
  exact h1

theorem content_congr {a b : Client} (ha : typedD a.conf.m.data = true) (hb : typedD b.conf.m.data = true) {q : List Bytes}
    (h : a.get q = b.get q) : valAt a.content q = valAt b.content q := by
  unfold Client.content
  rw [valAt_pruneD _ ha, valAt_pruneD _ hb]
  have h : valAt a.conf.m.data q = valAt b.conf.m.data q := h
  rw [h]

theorem DeviceEdit.spares {S : Sys} (hS : S.Good) (hro : S.env.readonly = false) {B : Client} (hB : Peer S B) {e : Device}
    (h : DeviceEdit S B e) {P : List Bytes} (hP : RecPath P) (hs : Spares B e P) (r : List Bytes) :
    sameAt B.content e.2.2.content (P ++ r) = true := by
  have hb := h.peer.inv hS hro
  obtain ⟨_, s2, s3, _⟩ := h.runs.spec hS hb.reach
  refine sameAt_prefix ?_ ?_ hs.2
  · rcases hP with ⟨k, pk, _, rfl⟩ | ⟨b, r, rfl⟩ <;> simp [roomPath, pathO]
  · rw [← h.content hS hro hB]
    exact (content_congr (s2.inv hS).wf.data (hb.reach.inv hS).wf.data (s3 P hP hs.1)).symm

/-- A device keeps the way to a record of a table in which it made no call. -/
theorem keeps_untouched {S : Sys} (hS : S.Good) (hro : S.env.readonly = false) {B : Client} (hB : Peer S B) {e : Device}
    (h : DeviceEdit S B e) {P : List Bytes} (hP : RecPath P)
    (hn : ∀ op ∈ e.2.1, ∀ Q, op.place = some Q → Q.take 1 ≠ P.take 1) : Spares B e P := by
  have hb := h.peer.inv hS hro
  obtain ⟨s1, s2, s3, s4⟩ := h.runs.spec hS hb.reach
  refine ⟨fun op hm hp => hn op hm P hp rfl, fun q hne hpre _ => .inl ?_⟩
  rw [← h.content hS hro hB]
  refine content_congr (s2.inv hS).wf.data (hb.reach.inv hS).wf.data (s4 q fun op hm Q hQ hnest => hn op hm Q hQ ?_)
  have hq : q.take 1 = P.take 1 := by
    obtain ⟨t, rfl⟩ := hpre
    cases q with
    | nil => exact absurd rfl hne
    | cons a q => rfl
  rw [← hq]
  cases Q with
  | nil => cases q with
    | nil => rfl
    | cons a q =>
      rcases h' : P with _ | ⟨p0, pt⟩
      · rw [h'] at hP; rcases hP with ⟨k, pk, _, h⟩ | ⟨b, r, h⟩ <;> simp [roomPath, pathO] at h
      · exfalso
        have : ∃ c c', op.run S c = (c', .ok ()) ∧ op.inRange = true ∧ Reach S c := by
          clear h' hnest hQ hq hn hpre hne s1 s2 s3 s4
          have hr := hb.reach
          have hR := h.runs
          clear h hb
          generalize e.1 = c, e.2.2 = c', e.2.1 = ops at *
          induction hR with
          | nil => cases hm
          | cons h1 h2 _ ih =>
            rcases List.mem_cons.1 hm with rfl | hm
            · exact ⟨_, _, h2, h1, hr⟩
            · obtain ⟨_, _, s⟩ := op_spec hS hr h1 h2
              exact ih hm s.reach
        obtain ⟨c, c', h2, h1, hr⟩ := this
        obtain ⟨Q', e1, s⟩ := op_spec hS hr h1 h2
        rw [hQ] at e1
        cases e1
        rcases s.path with ⟨k, pk, _, h⟩ | ⟨b, r, h⟩ <;> simp [roomPath, pathO] at h
  | cons x t => cases q with
    | nil => exact absurd rfl hne
    | cons a q => rw [show (x :: t).take 1 = [x] from rfl] at hnest ⊢; rw [nested_head hnest]; rfl

/-- A device keeps the way to the records of a table in which it still has something. -/
theorem keeps_nonempty {B a : Client} {k pk pk' f : Bytes} (h : scalarAt a.content [k, pk', f] ≠ none) :
    KeepsWay B a [k, pk] := by
  intro q hne hpre hneq
  have hq : q = [k] := by
    obtain ⟨t, ht⟩ := hpre
    match q, ht with
    | [], _ => exact absurd rfl hne
    | [x], ht => cases ht; rfl
    | [x, y], ht => simp at ht; exact absurd (by rw [ht.1, ht.2.1]) hneq
    | x :: y :: z :: w, ht => simp at ht
  subst hq
  right
  show ∃ d, mget k a.content = some (.dict d)
  simp only [scalarAt] at h
  split at h
  · rename_i e he; exact ⟨e, he⟩
  · exact absurd rfl h

/-! ### The exchange -/

/-- Any number of devices hold the config of `B` and make calls (`team`); the device `x` has pushed its version and merges the
messages `configs`: those of all the others, in any order, any number of times, with unusable messages and the common config
mixed in.  `r` is `x` after that. -/
structure Exchange (S : Sys) (B : Client) (team : List Device) (x : Device) (configs : List (Bytes × Bytes)) (r : Client) :
    Prop where
  base : Peer S B
  edits : ∀ e ∈ team, DeviceEdit S B e
  here : x ∈ team
  pushed : (x.2.2.push S).2.isOk = true
  all : ∀ e ∈ team, e.2.2.plain S = x.2.2.plain S ∨ ∃ p ∈ gather S x.2.2.keys configs, p.2 = e.2.2.plain S
  known : ∀ p ∈ gather S x.2.2.keys configs, (∃ m, parseMsg S.env false p.2 = .ok m) →
    (∃ e ∈ team, p.2 = e.2.2.plain S) ∨ (B.seqno ≠ 0 ∧ p.2 = B.plain S)
  nocol : NoCollision S.env (x.2.2.plain S :: (gather S x.2.2.keys configs).map (·.2))
  merged : (x.2.2.push S).1.merge S configs = (r, ((x.2.2.push S).1.merge S configs).2)
  ok : ((x.2.2.push S).1.merge S configs).2.isOk = true

/-- `s` has the version that should come out of what lies at `P`: that of the only device that does not leave it alone, or, if
all do, the common one. -/
def RulesBy (left : Device → Prop) (B : Client) (team : List Device) (s : Client) : Prop :=
  (∃ t ∈ team, s = t.2.2 ∧ ∀ e ∈ team, e ≠ t → left e) ∨ (s = B ∧ ∀ e ∈ team, left e)

/-- For the record at `P` -/
def Rules (B : Client) (team : List Device) (P : List Bytes) (s : Client) : Prop := RulesBy (Spares B · P) B team s

theorem Exchange.facts {S : Sys} (hS : S.Good) (hro : S.env.readonly = false) {B : Client} {team : List Device} {x : Device}
    {configs : List (Bytes × Bytes)} {r : Client} (h : Exchange S B team x configs r) :
    Peer S r ∧ ∀ {p : List Bytes}, p ≠ [] → ∀ {s : Client}, RulesBy (fun e => sameAt B.content e.2.2.content p = true) B team s →
      typedD s.conf.m.data = true ∧ scalarAt r.content p = scalarAt s.content p := by
  have hB := h.base
  let team' : List (Client × Client) := team.map fun e => (e.1, e.2.2)
  have hteam' : ∀ e ∈ team', Editor S B e := by
    intro e he
    obtain ⟨e0, he0, rfl⟩ := List.mem_map.1 he
    exact (h.edits e0 he0).editor hS hro
  have hx' : (x.1, x.2.2) ∈ team' := List.mem_map.2 ⟨x, h.here, rfl⟩
  have hall' : ∀ e ∈ team', e.2.plain S = x.2.2.plain S ∨ ∃ p ∈ gather S x.2.2.keys configs, p.2 = e.2.plain S := by
    intro e he
    obtain ⟨e0, he0, rfl⟩ := List.mem_map.1 he
    exact h.all e0 he0
  have hknown' : ∀ p ∈ gather S x.2.2.keys configs, (∃ m, parseMsg S.env false p.2 = .ok m) →
      (∃ e ∈ team', p.2 = e.2.plain S) ∨ (B.seqno ≠ 0 ∧ p.2 = B.plain S) := by
    intro p hp hm
    rcases h.known p hp hm with ⟨e, he, h⟩ | h
    · exact .inl ⟨(e.1, e.2.2), List.mem_map.2 ⟨e, he, rfl⟩, h⟩
    · exact .inr h
  have hpush : ∃ s msg obs, (x.2.2.push S).2 = .ok (s, msg, obs) := by
    have := h.pushed
    cases hp : (x.2.2.push S).2 with
    | ok y => exact ⟨y.1, y.2.1, y.2.2, rfl⟩
    | err e => rw [hp] at this; cases this
    | hang => rw [hp] at this; cases this
    | ub => rw [hp] at this; cases this
  obtain ⟨s0, msg, obs, hpush⟩ := hpush
  have hr : ((x.2.2.push S).1.merge S configs).1 = r := by rw [h.merged]
  refine ⟨hr ▸ team_peer hS hro hB hteam' hx' hpush hknown' h.nocol h.ok, fun {p} hp {s} hs => ?_⟩
  rcases hs with ⟨t, ht, rfl, hoth⟩ | ⟨rfl, hoth⟩
  · refine ⟨(((h.edits t ht).runs.spec hS ((h.edits t ht).peer.inv hS hro).reach).2.1.inv hS).wf.data, ?_⟩
    rw [← hr]
    refine edit_survives hS hro hB hteam' hx' hpush hall' hknown' h.nocol h.ok hp
      (e := (t.1, t.2.2)) (List.mem_map.2 ⟨t, ht, rfl⟩) fun e' he' => ?_
    obtain ⟨e, he, rfl⟩ := List.mem_map.1 he'
    by_cases heq : e = t
    · left; rw [heq]
    · right; exact hoth e he heq
  · refine ⟨((hB.inv hS hro).reach.inv hS).wf.data, ?_⟩
    rw [← hr]
    obtain ⟨_, _, c3, _⟩ := edits_combine hS hro hB hteam' hx' hpush hall' hknown' h.nocol h.ok p hp
    refine c3 fun e' he' => ?_
    obtain ⟨e, he, rfl⟩ := List.mem_map.1 he'
    exact hoth e he

/-! ### Reading the records -/

/-- The same scalars are stored in two dicts. -/
def SameScalars (d d' : Dict) : Prop := ∀ k, maybeInt d k = maybeInt d' k ∧ maybeStr d k = maybeStr d' k

theorem sameScalars_of {a b : Client} (ha : typedD a.conf.m.data = true) (hb : typedD b.conf.m.data = true) {P : List Bytes}
    (hP : P ≠ []) (h : ∀ q, scalarAt a.content (P ++ q) = scalarAt b.content (P ++ q)) :
    SameScalars (curDict (a.get P)) (curDict (b.get P)) := by
  have hk : ∀ (c : Client), typedD c.conf.m.data = true → ∀ k,
      scalarAt c.content (P ++ [k]) = onlyScalar (mget k (curDict (c.get P))) := by
    intro c hc k
    unfold Client.content
    rw [scalarAt_pruneD _ _ hc, scalarAt_only, valAt_snoc _ _ _ hP]
    show onlyScalar ((c.get P).bind _) = _
    cases c.get P with
    | none => rfl
    | some v => cases v <;> rfl
  intro k
  have h1 := h [k]
  rw [hk a ha, hk b hb] at h1
  unfold maybeInt maybeStr
  generalize mget k (curDict (a.get P)) = u at h1 ⊢
  generalize mget k (curDict (b.get P)) = v at h1 ⊢
  cases u with
  | none =>
    cases v with
    | none => exact ⟨rfl, rfl⟩
    | some v => cases v <;> first | exact ⟨rfl, rfl⟩ | cases h1
  | some u =>
    cases v with
    | none => cases u <;> first | exact ⟨rfl, rfl⟩ | cases h1
    | some v =>
      cases u <;> cases v <;> first | exact ⟨rfl, rfl⟩ | cases h1 <;> exact ⟨rfl, rfl⟩

/-- Something of the record is stored. -/
def Client.has (c : Client) (P : List Bytes) : Prop :=
  ∃ k, maybeInt (curDict (c.get P)) k ≠ none ∨ maybeStr (curDict (c.get P)) k ≠ none

theorem has_dict {c : Client} {P : List Bytes} (h : c.has P) : ∃ e, c.get P = some (.dict e) := by
  obtain ⟨k, h⟩ := h
  cases hg : c.get P with
  | none => rw [hg] at h; simp [curDict, maybeInt, maybeStr, mget] at h
  | some v =>
    rw [hg] at h
    cases v with
    | dict e => exact ⟨e, rfl⟩
    | _ => simp [curDict, maybeInt, maybeStr, mget] at h

/-- Loading from what is stored at a path, or the default -/
theorem loadAt_same {R : Type} {a b : Client} {P : List Bytes} (hs : SameScalars (curDict (a.get P)) (curDict (b.get P)))
    {L : Dict → R} (hL : ∀ d d', SameScalars d d' → L d = L d') :
    (loadAt L (a.get P)).getD (L []) = (loadAt L (b.get P)).getD (L []) ∧
    (b.has P → loadAt L (a.get P) = loadAt L (b.get P)) := by
  have key : ∀ c : Client, (loadAt L (c.get P)).getD (L []) = L (curDict (c.get P)) := by
    intro c
    cases c.get P with
    | none => rfl
    | some v => cases v <;> rfl
  refine ⟨by rw [key, key]; exact hL _ _ hs, fun hb => ?_⟩
  have ha : a.has P := by
    obtain ⟨k, h⟩ := hb
    exact ⟨k, by rw [(hs k).1, (hs k).2]; exact h⟩
  obtain ⟨e, he⟩ := has_dict ha
  obtain ⟨e', he'⟩ := has_dict hb
  rw [he, he'] at hs ⊢
  exact congrArg some (hL e e' hs)

theorem contact_scalars {id : Bytes} (d d' : Dict) (h : SameScalars d d') : Contact.load id d = Contact.load id d' :=
  load_congr h id

theorem groupBase_scalars {d d' : Dict} (h : SameScalars d d') : GroupBase.load d = GroupBase.load d' := by
  unfold GroupBase.load; simp only [(h _).1]

theorem group_scalars {pub : Bytes → Bytes} {id : Bytes} (d d' : Dict) (h : SameScalars d d') :
    Group.load pub id d = Group.load pub id d' := by
  unfold Group.load loadSecret loadAuth; simp only [(h _).2, groupBase_scalars h]

theorem gmember_scalars {id : Bytes} (d d' : Dict) (h : SameScalars d d') : GMember.load id d = GMember.load id d' := by
  unfold GMember.load loadAdmin loadStatus loadPic; simp only [(h _).1, (h _).2]

theorem convo_scalars (d d' : Dict) (h : SameScalars d d') : Convo.load d = Convo.load d' := by
  unfold Convo.load; simp only [(h _).1]

theorem getRec_same {R : Type} {a b : Client} {P : List Bytes} {pre : Bytes} {L : Bytes → Dict → R} {id : Bytes}
    (hL : ∀ d d', SameScalars d d' → L id d = L id d') {dflt : R} (h0 : L id [] = dflt)
    (hs : ∀ pk, idBytes id pre = .ok pk → SameScalars (curDict (a.get (P ++ [pk]))) (curDict (b.get (P ++ [pk])))) :
    ((a.getRec P pre L id).bind fun x => .ok (x.getD dflt)) = ((b.getRec P pre L id).bind fun x => .ok (x.getD dflt)) ∧
    ((∀ pk, idBytes id pre = .ok pk → b.has (P ++ [pk])) → a.getRec P pre L id = b.getRec P pre L id) := by
  unfold Client.getRec
  cases hi : idBytes id pre with
  | ok pk =>
    obtain ⟨h1, h2⟩ := loadAt_same (hs pk hi) hL
    rw [h0] at h1
    exact ⟨congrArg Out.ok h1, fun hh => congrArg Out.ok (h2 (hh pk rfl))⟩
  | err e => exact ⟨rfl, fun _ => rfl⟩
  | hang => exact ⟨rfl, fun _ => rfl⟩
  | ub => exact ⟨rfl, fun _ => rfl⟩

theorem recPlace_ok {P : List Bytes} {pre id pk : Bytes} (h : idBytes id pre = .ok pk) : recPlace P pre id = some (P ++ [pk]) := by
  unfold recPlace; rw [h]

theorem Exchange.scalars {S : Sys} (hS : S.Good) (hro : S.env.readonly = false) {B : Client} {team : List Device} {x : Device}
    {configs : List (Bytes × Bytes)} {r : Client} (h : Exchange S B team x configs r) {P : List Bytes} (hP : RecPath P)
    {s : Client} (hs : Rules B team P s) : SameScalars (curDict (r.get P)) (curDict (s.get P)) := by
  obtain ⟨hr, hf⟩ := h.facts hS hro
  have hPn : P ≠ [] := by rcases hP with ⟨k, pk, _, rfl⟩ | ⟨b, r, rfl⟩ <;> simp [roomPath, pathO]
  have key : ∀ q, RulesBy (fun e => sameAt B.content e.2.2.content (P ++ q) = true) B team s := by
    intro q
    rcases hs with ⟨t, ht, rfl, ho⟩ | ⟨rfl, ho⟩
    · exact .inl ⟨t, ht, rfl, fun e he hne => (h.edits e he).spares hS hro h.base hP (ho e he hne) q⟩
    · exact .inr ⟨rfl, fun e he => (h.edits e he).spares hS hro h.base hP (ho e he) q⟩
  exact sameScalars_of ((hr.inv hS hro).reach.inv hS).wf.data (hf (p := P ++ []) (by simpa using hPn) (key [])).1 hPn
    fun q => (hf (p := P ++ q) (by simp [hPn]) (key q)).2

/-- **C121**, for contacts.  Let `s` be the only device that does not spare the contact `id` (or `B`, if all spare it).  After
the exchange `get_or_construct` gives what it gives on `s` — a contact erased there is gone — and if something of the contact
is stored on `s`, `get` gives what it gives on `s`. -/
theorem contact_combines_partial {S : Sys} (hS : S.Good) (hro : S.env.readonly = false) {B : Client} {team : List Device}
    {x : Device} {configs : List (Bytes × Bytes)} {r : Client} (h : Exchange S B team x configs r) (id : Bytes) (s : Client)
    (hs : ∀ P, recPlace pathC pre05 id = some P → Rules B team P s) :
    r.getOrConstruct id = s.getOrConstruct id ∧
    ((∀ P, recPlace pathC pre05 id = some P → s.has P) → r.getContact id = s.getContact id) := by
  have hg : ∀ c : Client, c.getContact id = c.getRec pathC pre05 Contact.load id := fun c => by
    unfold Client.getContact Client.getRec
    cases idBytes id pre05 with
    | ok pk =>
      show Out.ok _ = Out.ok _
      congr 1
    | err e => rfl
    | hang => rfl
    | ub => rfl
  have key := getRec_same (a := r) (b := s) (P := pathC) (pre := pre05) (L := Contact.load) (id := id) contact_scalars
    (dflt := { id := id }) rfl fun pk hpk => h.scalars hS hro (.inl ⟨[99], pk, by decide, rfl⟩) (hs _ (recPlace_ok hpk))
  refine ⟨?_, fun hh => by rw [hg, hg]; exact key.2 fun pk hpk => hh _ (recPlace_ok hpk)⟩
  have hc : ∀ c : Client, c.getOrConstruct id = (c.getRec pathC pre05 Contact.load id).bind fun x => .ok (x.getD { id := id }) := by
    intro c
    unfold Client.getOrConstruct
    rw [hg]
    unfold Client.getRec idBytes
    by_cases hck : checkId id pre05 = true
    · rw [if_pos hck]
      simp only [Out.bind]
      cases loadAt (Contact.load id) _ with
      | none => simp only [if_pos hck]; rfl
      | some y => rfl
    · rw [if_neg hck]; rfl
  rw [hc, hc]; exact key.1

/-- C121, for the groups of the user. -/
theorem group_combines_partial {S : Sys} (hS : S.Good) (hro : S.env.readonly = false) (pub : Bytes → Bytes) {B : Client}
    {team : List Device} {x : Device} {configs : List (Bytes × Bytes)} {r : Client} (h : Exchange S B team x configs r)
    (id : Bytes) (s : Client) (hs : ∀ P, recPlace pathG pre03 id = some P → Rules B team P s) :
    r.groupOr pub id = s.groupOr pub id ∧
    ((∀ P, recPlace pathG pre03 id = some P → s.has P) → r.getGroup pub id = s.getGroup pub id) := by
  have key := getRec_same (a := r) (b := s) (P := pathG) (pre := pre03) (L := Group.load pub) (id := id) group_scalars
    (dflt := { id := id }) rfl fun pk hpk => h.scalars hS hro (.inl ⟨[103], pk, by decide, rfl⟩) (hs _ (recPlace_ok hpk))
  exact ⟨key.1, fun hh => key.2 fun pk hpk => hh _ (recPlace_ok hpk)⟩

/-- C121, for the members of a group. -/
theorem member_combines_partial {S : Sys} (hS : S.Good) (hro : S.env.readonly = false) {B : Client} {team : List Device}
    {x : Device} {configs : List (Bytes × Bytes)} {r : Client} (h : Exchange S B team x configs r) (id : Bytes) (s : Client)
    (hs : ∀ P, recPlace pathM pre05 id = some P → Rules B team P s) :
    r.memberOr id = s.memberOr id ∧
    ((∀ P, recPlace pathM pre05 id = some P → s.has P) → r.getMember id = s.getMember id) := by
  have key := getRec_same (a := r) (b := s) (P := pathM) (pre := pre05) (L := GMember.load) (id := id) gmember_scalars
    (dflt := { id := id }) rfl fun pk hpk => h.scalars hS hro (.inl ⟨[109], pk, by decide, rfl⟩) (hs _ (recPlace_ok hpk))
  exact ⟨key.1, fun hh => key.2 fun pk hpk => hh _ (recPlace_ok hpk)⟩

/-- C121, for the conversations with a person or a group. -/
theorem convo_combines_partial {S : Sys} (hS : S.Good) (hro : S.env.readonly = false) {B : Client} {team : List Device}
    {x : Device} {configs : List (Bytes × Bytes)} {r : Client} (h : Exchange S B team x configs r) (k : ConvoKind) (id : Bytes)
    (s : Client) (hs : ∀ P, recPlace k.path k.pre id = some P → Rules B team P s) :
    r.convo k id = s.convo k id ∧
    ((∀ P, recPlace k.path k.pre id = some P → s.has P) → r.getConvo k id = s.getConvo k id) := by
  have hg : ∀ c : Client, c.getConvo k id = c.getRec k.path k.pre (fun _ => Convo.load) id := fun c => by
    unfold Client.getConvo Client.getRec
    cases idBytes id k.pre with
    | ok pk =>
      show Out.ok _ = Out.ok _
      congr 1
    | err e => rfl
    | hang => rfl
    | ub => rfl
  have key := getRec_same (a := r) (b := s) (P := k.path) (pre := k.pre) (L := fun _ => Convo.load) (id := id) convo_scalars
    (dflt := {}) rfl fun pk hpk => h.scalars hS hro (.inl (by cases k <;> exact ⟨_, pk, by decide, rfl⟩)) (hs _ (recPlace_ok hpk))
  refine ⟨?_, fun hh => by rw [hg, hg]; exact key.2 fun pk hpk => hh _ (recPlace_ok hpk)⟩
  unfold Client.convo
  rw [hg, hg]; exact key.1

theorem loadComm_same {a b : Client} {P : List Bytes} (hs : SameScalars (curDict (a.get P)) (curDict (b.get P)))
    (base room pk : Bytes) :
    ((loadComm base room pk (a.get P)).bind fun x => .ok (x.getD ⟨base, room, pk, {}⟩)) =
      ((loadComm base room pk (b.get P)).bind fun x => .ok (x.getD ⟨base, room, pk, {}⟩)) ∧
    (b.has P → loadComm base room pk (a.get P) = loadComm base room pk (b.get P)) := by
  have key : ∀ c : Client, ((loadComm base room pk (c.get P)).bind fun x => .ok (x.getD ⟨base, room, pk, {}⟩)) =
      (loadRoom room (curDict (c.get P))).bind fun n => .ok (⟨base, n, pk, GroupBase.load (curDict (c.get P))⟩ : Comm) := by
    intro c
    cases c.get P with
    | none => rfl
    | some v =>
      cases v with
      | dict e =>
        show ((loadRoom room e).bind _).bind _ = (loadRoom room e).bind _
        cases loadRoom room e <;> rfl
      | _ => rfl
  have hload : ∀ d d', SameScalars d d' → loadRoom room d = loadRoom room d' := fun d d' h => by
    unfold loadRoom; rw [(h _).2]
  refine ⟨by rw [key, key, hload _ _ hs, groupBase_scalars hs], fun hb => ?_⟩
  have ha : a.has P := by
    obtain ⟨k, h⟩ := hb
    exact ⟨k, by rw [(hs k).1, (hs k).2]; exact h⟩
  obtain ⟨e, he⟩ := has_dict ha
  obtain ⟨e', he'⟩ := has_dict hb
  rw [he, he'] at hs ⊢
  have hs : SameScalars e e' := hs
  show (loadRoom room e).bind _ = (loadRoom room e').bind _
  rw [hload e e' hs, groupBase_scalars hs]

/-- C121, for communities, in `UserGroups` and in `ConvoInfoVolatile`: `get_or_construct` with the key of the server gives what
it gives on `s`. -/
theorem community_combines_partial {S : Sys} (hS : S.Good) (hro : S.env.readonly = false) {B : Client} {team : List Device}
    {x : Device} {configs : List (Bytes × Bytes)} {r : Client} (h : Exchange S B team x configs r) (base room pk : Bytes)
    (s : Client) (hs : ∀ P, roomPlace base room = some P → Rules B team P s) :
    r.ucommOr base room pk = s.ucommOr base room pk ∧ r.commConvo base room pk = s.commConvo base room pk := by
  unfold Client.ucommOr Client.commConvo
  cases hb : canonUrl base with
  | ok b =>
    cases hrm : canonRoom room with
    | ok rm =>
      have hsc := h.scalars hS hro (.inr ⟨b, rm, rfl⟩) (hs (roomPath b rm) (by unfold roomPlace; rw [hb, hrm]))
      have hcv : (loadConvo (r.get (roomPath b rm))).getD {} = (loadConvo (s.get (roomPath b rm))).getD {} := by
        have key : ∀ c : Client, (loadConvo (c.get (roomPath b rm))).getD {} = Convo.load (curDict (c.get (roomPath b rm))) := by
          intro c
          cases c.get (roomPath b rm) with
          | none => rfl
          | some v => cases v <;> rfl
        rw [key, key]; exact convo_scalars _ _ hsc
      simp only [Out.bind]
      rw [hcv]
      refine ⟨?_, rfl⟩
      by_cases hl : pk.length = 32
      · rw [if_pos hl, if_pos hl]; exact (loadComm_same hsc b room pk).1
      · rw [if_neg hl, if_neg hl]
    | err e => exact ⟨rfl, rfl⟩
    | hang => exact ⟨rfl, rfl⟩
    | ub => exact ⟨rfl, rfl⟩
  | err e => exact ⟨rfl, by cases canonRoom room <;> rfl⟩
  | hang => exact ⟨rfl, by cases canonRoom room <;> rfl⟩
  | ub => exact ⟨rfl, by cases canonRoom room <;> rfl⟩

/-- The device publishes the common key of the server, too. -/
def SparesKey (B : Client) (e : Device) (b r : Bytes) : Prop :=
  Spares B e (roomPath b r) ∧ valAt B.content (pathO ++ [b, [35]]) = valAt e.2.2.content (pathO ++ [b, [35]])

/-- C121, for communities: if only `s` changed the community or the key of its server, and something of it is stored there,
then `get` gives what it gives on `s`. -/
theorem community_get_combines_partial {S : Sys} (hS : S.Good) (hro : S.env.readonly = false) {B : Client} {team : List Device}
    {x : Device} {configs : List (Bytes × Bytes)} {r : Client} (h : Exchange S B team x configs r) (base room : Bytes)
    (s : Client) (hs : ∀ b rm, canonUrl base = .ok b → canonRoom room = .ok rm →
      RulesBy (SparesKey B · b rm) B team s ∧ s.has (roomPath b rm)) :
    r.getUComm base room = s.getUComm base room ∧ r.getComm base room = s.getComm base room := by
  unfold Client.getUComm Client.getComm
  cases hb : canonUrl base with
  | ok b =>
    cases hrm : canonRoom room with
    | ok rm =>
      obtain ⟨hs, hhas⟩ := hs b rm hb hrm
      have hsc := h.scalars hS hro (.inr ⟨b, rm, rfl⟩) (s := s) (by
        rcases hs with ⟨t, ht, rfl, ho⟩ | ⟨rfl, ho⟩
        · exact .inl ⟨t, ht, rfl, fun e he hne => (ho e he hne).1⟩
        · exact .inr ⟨rfl, fun e he => (ho e he).1⟩)
      obtain ⟨hr, hf⟩ := h.facts hS hro
      have hkey : r.serverKey b = s.serverKey b := by
        have left : ∀ e, SparesKey B e b rm → sameAt B.content e.2.2.content (pathO ++ [b, [35]] ++ []) = true := by
          intro e he
          refine sameAt_prefix (by simp) he.2 fun q hne hpre hneq => ?_
          refine he.1.2 q hne ?_ ?_
          · obtain ⟨t, ht⟩ := hpre
            have hq : q = [[111]] ∨ q = [[111], b] := by
              match q, ht with
              | [], _ => exact absurd rfl hne
              | [x], ht => cases ht; exact .inl rfl
              | [x, y], ht => cases ht; exact .inr rfl
              | [x, y, z], ht => cases ht; exact absurd rfl hneq
              | x :: y :: z :: w :: t, ht => cases ht
            rcases hq with rfl | rfl
            · exact ⟨[b, [82], rm], rfl⟩
            · exact ⟨[[82], rm], rfl⟩
          · rintro rfl
            have := hpre.length_le
            simp [roomPath, pathO] at this
        have hk := hf (p := pathO ++ [b, [35]]) (by simp) (s := s) (by
          rcases hs with ⟨t, ht, rfl, ho⟩ | ⟨rfl, ho⟩
          · exact .inl ⟨t, ht, rfl, fun e he hne => left e (ho e he hne)⟩
          · exact .inr ⟨rfl, fun e he => left e (ho e he)⟩)
        have hstr : ∀ c : Client, typedD c.conf.m.data = true →
            strOf (c.get (pathO ++ [b, [35]])) = match scalarAt c.content (pathO ++ [b, [35]]) with
              | some (.str k) => some k
              | _ => none := by
          intro c hc
          unfold Client.content
          rw [scalarAt_pruneD _ _ hc, scalarAt_only]
          show strOf (c.get (pathO ++ [b, [35]])) = match onlyScalar (c.get (pathO ++ [b, [35]])) with
              | some (.str k) => some k
              | _ => none
          cases c.get (pathO ++ [b, [35]]) with
          | none => rfl
          | some v =>
            cases v with
            | scalar y => cases y <;> rfl
            | _ => rfl
        unfold Client.serverKey
        rw [hstr r ((hr.inv hS hro).reach.inv hS).wf.data, hstr s hk.1, hk.2]
      have hcv : loadConvo (r.get (roomPath b rm)) = loadConvo (s.get (roomPath b rm)) := by
        have := (loadAt_same hsc (L := Convo.load) convo_scalars).2 hhas
        have key : ∀ o, loadConvo o = loadAt Convo.load o := fun o => by
          cases o with
          | none => rfl
          | some v => cases v <;> rfl
        rw [key, key]; exact this
      simp only [Out.bind]
      rw [hkey, hcv]
      exact ⟨(loadComm_same hsc b room (s.serverKey b)).2 hhas, rfl⟩
    | err e => exact ⟨rfl, rfl⟩
    | hang => exact ⟨rfl, rfl⟩
    | ub => exact ⟨rfl, rfl⟩
  | err e => exact ⟨rfl, by cases canonRoom room <;> rfl⟩
  | hang => exact ⟨rfl, by cases canonRoom room <;> rfl⟩
  | ub => exact ⟨rfl, by cases canonRoom room <;> rfl⟩

/-! ### Examples -/

def exId3 : Bytes := [48, 53] ++ (List.replicate 32 [49, 48]).flatten
def exContact3 : Contact := { id := exId3, name := [66, 51] }
def pushOf (c : Client) : Bytes := match (c.push exSysK).2 with
  | .ok (_, m, _) => m
  | _ => []

theorem runs_one {S : Sys} {c c' : Client} {op : RecOp} (h1 : op.inRange = true) (h2 : (op.run S c).2 = .ok ())
    (h3 : c' = (op.run S c).1) : RunsOps S c [op] c' := .cons h1 (by rw [h3]; exact pair_ok h2) (.nil _)

/-- A config with two contacts -/
def qB : Client := (((exK0.setContact exSysK exContact).1.setContact exSysK exContact2).1.push exSysK).1.confirm 1 [105]
/-- One device erases one of them, -/
def qA : Client := (RecOp.run exSysK qB (.eraseContact exId)).1
/-- another adds a third. -/
def qC : Client := (RecOp.run exSysK qB (.setContact exContact3)).1
def qConfigs : List (Bytes × Bytes) := [([1], pushOf qC), ([3], [7])]
def qR : Client := ((qA.push exSysK).1.merge exSysK qConfigs).1

theorem qB_peer : Peer exSysK qB := by
  have h : RunsOps exSysK exK0 [.setContact exContact, .setContact exContact2]
      ((exK0.setContact exSysK exContact).1.setContact exSysK exContact2).1 := by
    refine .cons (c1 := (exK0.setContact exSysK exContact).1) (by decide +kernel) ?_ (runs_one (by decide +kernel) ?_ (by unfold RecOp.run; rfl))
    · exact pair_ok (by decide +kernel)
    · decide +kernel
  unfold qB
  exact .step (.step ((h.spec exSysK_good exK0_reach).1.peer exK0_peer) (.push _)) (.confirm _ _ _)

/-- Two devices, the second one's message and an unusable one -/
theorem exchange_two {S : Sys} {B A C R : Client} {oa oc : List RecOp} {configs : List (Bytes × Bytes)} {h : Bytes}
    (hB : Peer S B) (hi : B.st ≠ .dirty) (hq : B.seqno ≠ 0) (ha : RunsOps S B oa A) (hc : RunsOps S B oc C) (sa : A.st = .dirty)
    (sc : C.st = .dirty) (hp : (A.push S).2.isOk = true) (hg : gather S A.keys configs = [(h, C.plain S)])
    (hn : NoCollision S.env [A.plain S, C.plain S]) (hR : R = ((A.push S).1.merge S configs).1)
    (hok : ((A.push S).1.merge S configs).2.isOk = true) :
    Exchange S B [(B, oa, A), (B, oc, C)] (B, oa, A) configs R where
  base := hB
  edits e he := by
    simp only [List.mem_cons, List.not_mem_nil, or_false] at he
    rcases he with rfl | rfl
    · exact ⟨hB, hi, .inl ⟨hq, rfl⟩, ha, sa⟩
    · exact ⟨hB, hi, .inl ⟨hq, rfl⟩, hc, sc⟩
  here := by simp
  pushed := hp
  all e he := by
    simp only [List.mem_cons, List.not_mem_nil, or_false] at he
    rcases he with rfl | rfl
    · exact .inl rfl
    · exact .inr ⟨(h, C.plain S), by rw [hg]; simp, rfl⟩
  known p hp _ := by
    rw [hg, List.mem_singleton] at hp
    subst hp
    exact .inl ⟨(B, oc, C), by simp, rfl⟩
  nocol := by rw [hg]; exact hn
  merged := by rw [hR]
  ok := hok

theorem qExchange : Exchange exSysK qB [(qB, [.eraseContact exId], qA), (qB, [.setContact exContact3], qC)]
    (qB, [.eraseContact exId], qA) qConfigs qR :=
  exchange_two (h := [1]) qB_peer (by decide +kernel) (by decide +kernel) (runs_one (by decide +kernel) (by decide +kernel) (by unfold qA; rfl))
    (runs_one (by decide +kernel) (by decide +kernel) (by unfold qC; rfl)) (by decide +kernel) (by decide +kernel)
    (by decide +kernel) (by decide +kernel) (by unfold NoCollision; decide +kernel) (by unfold qR; rfl) (by decide +kernel)

/-- Who decides about a record, with two devices -/
theorem rules_two {B A C : Client} {oa oc : List RecOp} {P : List Bytes} :
    (Spares B (B, oc, C) P → Rules B [(B, oa, A), (B, oc, C)] P A) ∧
    (Spares B (B, oa, A) P → Rules B [(B, oa, A), (B, oc, C)] P C) ∧
    (Spares B (B, oa, A) P → Spares B (B, oc, C) P → Rules B [(B, oa, A), (B, oc, C)] P B) := by
  refine ⟨fun h => .inl ⟨(B, oa, A), by simp, rfl, fun e he hne => ?_⟩,
    fun h => .inl ⟨(B, oc, C), by simp, rfl, fun e he hne => ?_⟩, fun h h' => .inr ⟨rfl, fun e he => ?_⟩⟩
  all_goals
    simp only [List.mem_cons, List.not_mem_nil, or_false] at he
    rcases he with rfl | rfl
  · exact absurd rfl hne
  · exact h
  · exact h
  · exact absurd rfl hne
  · exact h
  · exact h'

theorem spares_one {B C : Client} {op : RecOp} {P : List Bytes} (h1 : op.place ≠ some P) (h2 : KeepsWay B C P) :
    Spares B (B, [op], C) P := ⟨fun o ho => by rw [List.mem_singleton.1 ho]; exact h1, h2⟩

theorem qA_keeps (pk : Bytes) : KeepsWay qB qA [[99], pk] :=
  keeps_nonempty (pk' := fromHex exContact2.id) (f := [110]) (by decide +kernel)
theorem qC_keeps (pk : Bytes) : KeepsWay qB qC [[99], pk] :=
  keeps_nonempty (pk' := fromHex exContact2.id) (f := [110]) (by decide +kernel)

def qTeam : List Device := [(qB, [.eraseContact exId], qA), (qB, [.setContact exContact3], qC)]

/-- C121: what was erased here is gone, what was added there is there, and what nobody touched is still there. -/
example : (∃ x, Exchange exSysK qB qTeam x qConfigs qR) ∧
    Rules qB qTeam [[99], fromHex exId] qA ∧ Rules qB qTeam [[99], fromHex exId3] qC ∧
    Rules qB qTeam [[99], fromHex exContact2.id] qB ∧
    recPlace pathC pre05 exId = some [[99], fromHex exId] ∧ recPlace pathC pre05 exId3 = some [[99], fromHex exId3] ∧
    recPlace pathC pre05 exContact2.id = some [[99], fromHex exContact2.id] ∧
    (qR.getContact exId).toOption = some none ∧ (qR.getContact exId3).toOption = some (some exContact3) ∧
    (qR.getContact exContact2.id).toOption = (qB.getContact exContact2.id).toOption ∧
    (qR.getContact exContact2.id).toOption.join.isSome = true := by
  refine ⟨⟨_, qExchange⟩, ?_, ?_, ?_, by decide +kernel, by decide +kernel, by decide +kernel, by decide +kernel,
    by decide +kernel, by decide +kernel, by decide +kernel⟩
  · exact rules_two.1 (spares_one (by decide +kernel) (qC_keeps _))
  · exact rules_two.2.1 (spares_one (by decide +kernel) (qA_keeps _))
  · exact rules_two.2.2 (spares_one (by decide +kernel) (qA_keeps _)) (spares_one (by decide +kernel) (qC_keeps _))

/-- A config with one contact, -/
def pB : Client := ((exK0.setContact exSysK exContact).1.push exSysK).1.confirm 1 [105]
/-- which one device erases, -/
def pA : Client := (RecOp.run exSysK pB (.eraseContact exId)).1
/-- while another device adds a contact -/
def pC : Client := (RecOp.run exSysK pB (.setContact exContact3)).1
def pConfigs : List (Bytes × Bytes) := [([1], pushOf pC), ([3], [7])]
def pR : Client := ((pA.push exSysK).1.merge exSysK pConfigs).1

theorem pB_peer : Peer exSysK pB := by
  have h : RunsOps exSysK exK0 [.setContact exContact] (exK0.setContact exSysK exContact).1 :=
    runs_one (by decide +kernel) (by decide +kernel) (by unfold RecOp.run; rfl)
  unfold pB
  exact .step (.step ((h.spec exSysK_good exK0_reach).1.peer exK0_peer) (.push _)) (.confirm _ _ _)

/-- C121, what does not hold without the assumption that nobody removes the table: one device erases the only contact, which
removes the table, another adds a contact at the same time, about which the first made no call.  After the exchange the new
contact is gone. -/
theorem erase_last_loses :
    Exchange exSysK pB [(pB, [.eraseContact exId], pA), (pB, [.setContact exContact3], pC)] (pB, [.eraseContact exId], pA)
      pConfigs pR ∧
    RecOp.place (.eraseContact exId) ≠ recPlace pathC pre05 exId3 ∧
    (pC.getContact exId3).toOption = some (some exContact3) ∧
    (pR.getContact exId3).toOption = some none ∧ pR.contacts.toOption = some [] :=
  ⟨exchange_two (h := [1]) pB_peer (by decide +kernel) (by decide +kernel) (runs_one (by decide +kernel) (by decide +kernel) (by unfold pA; rfl))
    (runs_one (by decide +kernel) (by decide +kernel) (by unfold pC; rfl)) (by decide +kernel) (by decide +kernel)
    (by decide +kernel) (by decide +kernel) (by unfold NoCollision; decide +kernel) (by unfold pR; rfl) (by decide +kernel),
    by decide +kernel, by decide +kernel, by decide +kernel, by decide +kernel⟩

end Verif
