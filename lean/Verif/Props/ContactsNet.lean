import Verif.Props.Network
import Verif.Props.Contacts

/-!
# Contacts edited on several devices (C60)
-/

namespace Verif

/-! ### Field writes are edits -/

theorem modify_edits {S : Sys} (hS : S.Good) {c c' : Client} (hr : Reach S c) {f : Dict → Dict}
    (hf : ∀ d, typedD d = true → typedD (f d) = true) (h : c.modify S f = (c', .ok ())) :
    Edits S c c' := by
  have h1 := (Prod.mk.inj h).1
  have h2 := (Prod.mk.inj h).2
  subst h1
  refine .tail (.refl c) (hf _ ?_) h2
  rw [dirty_data (hr.inv hS) (hr.neat hS)]
  exact (hr.inv hS).wf.data

theorem write_edits {S : Sys} (hS : S.Good) {c c' : Client} (hr : Reach S c) {p : List Bytes}
    {v : Option Val} (hv : wfO v = true) (h : c.write S p v = (c', .ok ())) : Edits S c c' := by
  have her : ∀ {c c' : Client}, Reach S c → c.erase S p = (c', .ok ()) → Edits S c c' := by
    intro c c' hr h
    unfold Client.erase at h
    split at h
    · cases h; exact .refl _
    · exact modify_edits hS hr (fun d hd => delAt_typed p hd) h
  cases v with
  | none => exact her hr h
  | some v =>
    have h : c.assign S p v = (c', .ok ()) := h
    unfold Client.assign at h
    split at h
    · exact her hr h
    split at h
    · cases h; exact .refl _
    · have hv : v.wf = true := hv
      simp only [Val.wf, Bool.and_eq_true] at hv
      exact modify_edits hS hr (fun d hd => putAt_typed hv.1 p hd) h

theorem writeAll_edits {S : Sys} (hS : S.Good) : ∀ (ws : List (List Bytes × Option Val))
    {c c' : Client}, Reach S c → (∀ w ∈ ws, w.1 ≠ [] ∧ wfO w.2 = true) →
    c.writeAll S ws = (c', .ok ()) → Edits S c c'
  | [], c, c', _, _, h => by cases h; exact .refl _
  | (p, v) :: t, c, c', hr, hw, h => by
    simp only [Client.writeAll] at h
    split at h
    · rename_i c1 hc1
      obtain ⟨hp, hv⟩ := hw (p, v) (by simp)
      exact (write_edits hS hr hv hc1).trans (writeAll_edits hS t (write_get hS hr hp hv hc1).2.2
        (fun w hm => hw w (by simp [hm])) h)
    · rename_i c1 e hne hc1
      cases h
      exact (hne rfl).elim

theorem setContact_edits {S : Sys} (hS : S.Good) {c c' : Client} (hr : Reach S c) {r : Contact}
    (hr' : r.inRange = true) (h : c.setContact S r = (c', .ok ())) : Edits S c c' := by
  obtain ⟨pk, _, hw⟩ := setContact_ok h
  exact writeAll_edits hS _ hr (entries_ok (contact_fields_wf hr')) hw

/-- A device calls `set` for each of the contacts of a list. -/
inductive SetsContacts (S : Sys) : Client → List Contact → Client → Prop
  | nil (c : Client) : SetsContacts S c [] c
  | cons {c c1 c' : Client} {r : Contact} {rs : List Contact} : r.inRange = true →
      c.setContact S r = (c1, .ok ()) → SetsContacts S c1 rs c' → SetsContacts S c (r :: rs) c'

theorem SetsContacts.spec {S : Sys} (hS : S.Good) {c c' : Client} {rs : List Contact}
    (h : SetsContacts S c rs c') (hr : Reach S c) : Edits S c c' ∧ Reach S c' ∧
      (∀ pk, (∀ r ∈ rs, idBytes r.id pre05 ≠ .ok pk) → c'.get (pathC ++ [pk]) = c.get (pathC ++ [pk])) ∧
      (∀ r ∈ rs, ∀ pk, idBytes r.id pre05 = .ok pk → ∃ e, c'.get (pathC ++ [pk]) = some (.dict e) ∧
        (maybeStr e [110]).isSome = true) := by
  induction h with
  | nil c => exact ⟨.refl _, hr, fun _ _ => rfl, by simp⟩
  | @cons c c1 c' r rs h1 h2 _ ih =>
    obtain ⟨pk, hpk, hw⟩ := setContact_ok h2
    obtain ⟨w1, ⟨e, he, hf⟩, _, w4, _⟩ := record_written hS (by simp [pathC])
      (contact_fields_nodup r) (contact_fields_wf h1)
      ⟨([110], some (.scalar (.str (r.name.take maxName)))), by simp [Contact.fields], rfl⟩ hr hw
    obtain ⟨i1, i2, i3, i4⟩ := ih w1
    refine ⟨(setContact_edits hS hr h1 h2).trans i1, i2, fun pk' hne => ?_, fun r' hr' pk' hpk' => ?_⟩
    · rw [i3 pk' fun r' hr' => hne r' (by simp [hr'])]
      refine w4 pk' ?_
      rintro rfl
      exact hne r (by simp) hpk
    · by_cases hin : ∃ r'' ∈ rs, idBytes r''.id pre05 = .ok pk'
      · obtain ⟨r'', hm, hp⟩ := hin
        exact i4 r'' hm pk' hp
      · rcases List.mem_cons.1 hr' with rfl | hr'
        · rw [hpk] at hpk'; cases hpk'
          refine ⟨e, ?_, ?_⟩
          · rw [i3 pk fun r'' hm hp => hin ⟨r'', hm, hp⟩]; exact he
          · have := hf ([110], some (.scalar (.str (r'.name.take maxName)))) (by simp [Contact.fields])
            rw [maybeStr_of this]; rfl
        · exact absurd ⟨r', hr', hpk'⟩ hin

/-- A value, if it is a scalar. -/
def onlyScalar : Option Val → Option Scalar
  | some (.scalar x) => some x
  | _ => none

theorem scalarAt_only (p : List Bytes) (d : Dict) : scalarAt d p = onlyScalar (valAt d p) := by
  rw [scalarAt_eq]
  cases valAt d p with
  | none => rfl
  | some v => cases v <;> rfl

/-- What one reads of a contact is the scalars of its record. -/
theorem getContact_of_scalars {a b : Client} (ha : typedD a.conf.m.data = true)
    (hb : typedD b.conf.m.data = true) {id : Bytes}
    (h : ∀ pk, idBytes id pre05 = .ok pk → ∀ k,
      scalarAt a.content (pathC ++ [pk, k]) = scalarAt b.content (pathC ++ [pk, k]))
    (hn : ∀ pk, idBytes id pre05 = .ok pk → ∃ e, b.get (pathC ++ [pk]) = some (.dict e) ∧
        (maybeStr e [110]).isSome = true) : a.getContact id = b.getContact id := by
  unfold Client.getContact
  cases hi : idBytes id pre05 with
  | err e => rfl
  | hang => rfl
  | ub => rfl
  | ok pk =>
    obtain ⟨e, he, hne⟩ := hn pk hi
    have hk : ∀ (c : Client), typedD c.conf.m.data = true → ∀ k,
        scalarAt c.content (pathC ++ [pk, k]) =
          onlyScalar (mget k (curDict (c.get (pathC ++ [pk])))) := by
      intro c hc k
      unfold Client.content
      rw [scalarAt_pruneD _ _ hc, scalarAt_only]
      have : valAt c.conf.m.data (pathC ++ [pk, k]) = valAt (curDict (c.get (pathC ++ [pk]))) [k] := by
        unfold pathC Client.get
        rw [show ([[99]] : List Bytes) ++ [pk, k] = [[99], pk, k] from rfl,
          show ([[99]] : List Bytes) ++ [pk] = [[99], pk] from rfl, valAt_curDict, valAt_curDict,
          valAt_curDict]
        rfl
      rw [this]; rfl
    have hall : ∀ k, maybeInt (curDict (a.get (pathC ++ [pk]))) k = maybeInt e k ∧
        maybeStr (curDict (a.get (pathC ++ [pk]))) k = maybeStr e k := by
      intro k
      have h1 := h pk hi k
      rw [hk a ha, hk b hb, he] at h1
      rw [show curDict (some (Val.dict e)) = e from rfl] at h1
      unfold maybeInt maybeStr
      generalize mget k (curDict (a.get (pathC ++ [pk]))) = u at h1 ⊢
      generalize mget k e = v at h1 ⊢
      cases u with
      | none =>
        cases v with
        | none => exact ⟨rfl, rfl⟩
        | some v => cases v <;> first | exact ⟨rfl, rfl⟩ | cases h1
      | some u =>
        cases v with
        | none => cases u <;> first | exact ⟨rfl, rfl⟩ | cases h1
        | some v =>
          cases u <;> cases v <;> first | exact ⟨rfl, rfl⟩ | cases h1 <;> exact ⟨rfl, rfl⟩
    have hda : ∃ e', a.get (pathC ++ [pk]) = some (.dict e') := by
      rw [← (hall [110]).2] at hne
      cases hg : a.get (pathC ++ [pk]) with
      | none => rw [hg] at hne; cases hne
      | some v =>
        rw [hg] at hne
        cases v with
        | dict e' => exact ⟨e', rfl⟩
        | set s => cases hne
        | scalar x => cases hne
    obtain ⟨e', he'⟩ := hda
    rw [he'] at hall
    simp only [Out.bind, he, he']
    have := load_congr (d := e) (d' := e') hall id
    rw [this]

/-- A device that holds some config, sets contacts, and so has changes to publish. -/
structure ContactEdit (S : Sys) (B before : Client) (sets : List Contact) (after : Client) : Prop where
  peer : Peer S before
  idle : before.st ≠ .dirty
  same : SameConfig S before B
  sets : SetsContacts S before sets after
  pending : after.st = .dirty

theorem ContactEdit.editor {S : Sys} (hS : S.Good) (hro : S.env.readonly = false) {B before after : Client}
    {sets : List Contact} (h : ContactEdit S B before sets after) : Editor S B (before, after) :=
  ⟨h.peer, h.idle, h.same, (h.sets.spec hS (h.peer.inv hS hro).reach).1, h.pending⟩

theorem valAt_sub (d : Dict) (k k2 : Bytes) : valAt d [k, k2] = mget k2 (subDict (mget k d)) := by
  rw [valAt_curDict]
  cases mget k d with
  | none => rfl
  | some v => cases v <;> rfl

/-- A device leaves the contacts alone that it does not set. -/
theorem ContactEdit.leaves {S : Sys} (hS : S.Good) (hro : S.env.readonly = false) {B before after : Client}
    {sets : List Contact} (h : ContactEdit S B before sets after) (hB : Peer S B) {pk : Bytes}
    (hne : ∀ r ∈ sets, idBytes r.id pre05 ≠ .ok pk) (k : Bytes) :
    sameAt B.content after.content (pathC ++ [pk, k]) = true := by
  have hb := (h.peer.inv hS hro)
  obtain ⟨s1, s2, s3, s4⟩ := h.sets.spec hS hb.reach
  have hti := (s2.inv hS).wf.data
  have hcont : before.content = B.content := by
    have h1 := congrArg Msg.data (h.same.own hS hro hb (hB.inv hS hro))
    rw [own_content, own_content] at h1
    unfold Client.content
    rw [← refresh_data_eq (hb.reach.inv hS).wf, ← refresh_data_eq ((hB.inv hS hro).reach.inv hS).wf]
    exact h1
  have hval : valAt before.content [[99], pk] = valAt after.content [[99], pk] := by
    unfold Client.content
    rw [valAt_pruneD _ (hb.reach.inv hS).wf.data, valAt_pruneD _ hti]
    have := s3 pk hne
    unfold Client.get pathC at this
    rw [show ([[99], pk] : List Bytes) = [[99]] ++ [pk] from rfl, this]
  have hdict : ∃ y, mget [99] after.content = some (.dict y) := by
    have hs : sets ≠ [] := by
      rintro rfl
      have := h.sets
      cases this
      exact h.idle h.pending
    obtain ⟨r, hr⟩ := List.exists_mem_of_ne_nil _ hs
    have hpk : ∃ pk', idBytes r.id pre05 = .ok pk' := by
      clear s1 s2 s3 s4 hti hval hne hcont
      have := h.sets
      generalize before = c, after = c' at this
      clear h hb
      induction this with
      | nil => cases hr
      | cons h1 h2 _ ih =>
        rcases List.mem_cons.1 hr with rfl | hr
        · obtain ⟨pk', hpk', _⟩ := setContact_ok h2
          exact ⟨pk', hpk'⟩
        · exact ih (List.ne_nil_of_mem hr) hr
    obtain ⟨pk', hpk'⟩ := hpk
    obtain ⟨e, he, hn⟩ := s4 r hr pk' hpk'
    have hsc : scalarAt after.content [[99], pk', [110]] ≠ none := by
      unfold Client.content
      rw [scalarAt_pruneD _ _ hti, scalarAt_eq, valAt_curDict]
      have he : valAt after.conf.m.data [[99], pk'] = some (.dict e) := he
      rw [valAt_curDict] at he
      rw [valAt_curDict, show mget pk' (curDict (mget [99] after.conf.m.data)) = some (.dict e) from he]
      show (Option.bind (mget [110] e) _) ≠ none
      unfold maybeStr at hn
      split at hn
      · rename_i x hx; rw [hx]; simp
      · cases hn
    simp only [scalarAt] at hsc
    split at hsc
    · rename_i y hy; exact ⟨y, hy⟩
    · exact absurd rfl hsc
  obtain ⟨y, hy⟩ := hdict
  rw [hcont, valAt_sub, valAt_sub, hy] at hval
  show sameAt B.content after.content [[99], pk, k] = true
  have h2 : sameAt (subDict (mget [99] B.content)) y [pk, k] = true := by
    have : mget pk (subDict (mget [99] B.content)) = mget pk y := hval
    simp only [sameAt, this, decide_true, Bool.true_or]
  simp only [sameAt, hy, Bool.or_eq_true] at h2 ⊢
  exact .inr h2

/-- The last `set` of a contact counts. -/
theorem SetsContacts.last {S : Sys} (hS : S.Good) {c c' : Client} {rs l2 : List Contact} {r : Contact}
    {id : Bytes} (hid : SameId id r.id) (hl : ∀ r' ∈ l2, ¬ SameId id r'.id) (h : SetsContacts S c rs c') :
    ∀ {l1 : List Contact}, rs = l1 ++ r :: l2 → Reach S c →
    c'.getContact id = .ok (some { r.norm with id := id }) := by
  have hrest : ∀ {c c' : Client} {l : List Contact}, SetsContacts S c l c' → Reach S c →
      (∀ r' ∈ l, ¬ SameId id r'.id) → c'.getContact id = c.getContact id := by
    intro c c' l h
    induction h with
    | nil => exact fun _ _ => rfl
    | cons h1 h2 _ ih =>
      intro hr hl
      obtain ⟨g1, _, g3, _⟩ := contact_set_get hS hr h1 h2
      rw [ih g1 fun r' hr' => hl r' (by simp [hr']), g3 id (hl _ (by simp))]
  induction h with
  | nil => intro l1 he; cases l1 <;> cases he
  | @cons c c1 c' r0 rs h1 h2 h3 ih =>
    intro l1 he hr
    obtain ⟨g1, g2, _⟩ := contact_set_get hS hr h1 h2
    cases l1 with
    | nil =>
      obtain ⟨rfl, rfl⟩ := List.cons.inj he
      rw [hrest h3 g1 hl, g2 id hid]
    | cons a t =>
      exact ih (List.cons.inj he).2 g1

/-- C60.  Let any number of devices (`team`: each before its edits, the contacts it sets, and after)
that hold the same config, that of `B`, set contacts, and let one of them, `x`, having pushed its own
version, merge the messages of all the others (as in C59).  Then `x` has

1. every contact that only one of the devices set, as that device set it last;
2. every contact of the common config that none of them set, as it was. -/
theorem contacts_combine {S : Sys} (hS : S.Good) (hro : S.env.readonly = false) {B : Client}
    (hB : Peer S B) {team : List (Client × List Contact × Client)}
    (hteam : ∀ e ∈ team, ContactEdit S B e.1 e.2.1 e.2.2)
    {x : Client × List Contact × Client} (hx : x ∈ team) {s : Int} {msg : Bytes} {obs : List Bytes}
    (hpush : (x.2.2.push S).2 = .ok (s, msg, obs)) {configs : List (Bytes × Bytes)}
    (hall : ∀ e ∈ team, e.2.2.plain S = x.2.2.plain S ∨
      ∃ p ∈ gather S x.2.2.keys configs, p.2 = e.2.2.plain S)
    (hknown : ∀ p ∈ gather S x.2.2.keys configs, (∃ m, parseMsg S.env false p.2 = .ok m) →
      (∃ e ∈ team, p.2 = e.2.2.plain S) ∨ (B.seqno ≠ 0 ∧ p.2 = B.plain S))
    (hcol : NoCollision S.env (x.2.2.plain S :: (gather S x.2.2.keys configs).map (·.2)))
    (hok : ((x.2.2.push S).1.merge S configs).2.isOk = true) (id : Bytes) :
    (∀ t ∈ team, (∀ e ∈ team, e ≠ t → ∀ r ∈ e.2.1, ¬ SameId id r.id) →
      ∀ (l1 l2 : List Contact) (r : Contact), t.2.1 = l1 ++ r :: l2 → SameId id r.id →
        (∀ r' ∈ l2, ¬ SameId id r'.id) →
        ((x.2.2.push S).1.merge S configs).1.getContact id = .ok (some { r.norm with id := id })) ∧
    ((∀ e ∈ team, ∀ r ∈ e.2.1, ¬ SameId id r.id) →
      (maybeStr (curDict (B.get (contactPath id))) [110]).isSome = true →
      ((x.2.2.push S).1.merge S configs).1.getContact id = B.getContact id) := by
  let team' : List (Client × Client) := team.map fun e => (e.1, e.2.2)
  have hteam' : ∀ e ∈ team', Editor S B e := by
    intro e he
    obtain ⟨e0, he0, rfl⟩ := List.mem_map.1 he
    exact (hteam e0 he0).editor hS hro
  have hx' : (x.1, x.2.2) ∈ team' := List.mem_map.2 ⟨x, hx, rfl⟩
  have hall' : ∀ e ∈ team', e.2.plain S = x.2.2.plain S ∨
      ∃ p ∈ gather S x.2.2.keys configs, p.2 = e.2.plain S := by
    intro e he
    obtain ⟨e0, he0, rfl⟩ := List.mem_map.1 he
    exact hall e0 he0
  have hknown' : ∀ p ∈ gather S x.2.2.keys configs, (∃ m, parseMsg S.env false p.2 = .ok m) →
      (∃ e ∈ team', p.2 = e.2.plain S) ∨ (B.seqno ≠ 0 ∧ p.2 = B.plain S) := by
    intro p hp hm
    rcases hknown p hp hm with ⟨e, he, h⟩ | h
    · exact .inl ⟨(e.1, e.2.2), List.mem_map.2 ⟨e, he, rfl⟩, h⟩
    · exact .inr h
  have hpeer := team_peer hS hro hB hteam' hx' hpush hknown' hcol hok
  have hrty := ((hpeer.inv hS hro).reach.inv hS).wf.data
  refine ⟨fun t ht hoth l1 l2 r hsp hid hl2 => ?_, fun hno hnm => ?_⟩
  · have htr := ((hteam t ht).peer.inv hS hro).reach
    obtain ⟨_, t2, _, t4⟩ := (hteam t ht).sets.spec hS htr
    rw [← (hteam t ht).sets.last hS hid hl2 hsp htr]
    refine getContact_of_scalars hrty (t2.inv hS).wf.data (fun pk hpk k => ?_) (fun pk hpk => ?_)
    · refine edit_survives hS hro hB hteam' hx' hpush hall' hknown' hcol hok (by simp [pathC])
        (e := (t.1, t.2.2)) (List.mem_map.2 ⟨t, ht, rfl⟩) fun e' he' => ?_
      obtain ⟨e, he, rfl⟩ := List.mem_map.1 he'
      by_cases heq : e = t
      · left; rw [heq]
      · right
        exact (hteam e he).leaves hS hro hB (fun r' hr' hp' => hoth e he heq r' hr' ⟨pk, hpk, hp'⟩) k
    · obtain ⟨pk', i1, i2⟩ := hid
      rw [hpk] at i1; cases i1
      exact t4 r (by rw [hsp]; simp) pk i2
  · have hBi := (hB.inv hS hro).reach.inv hS
    refine getContact_of_scalars hrty hBi.wf.data (fun pk hpk k => ?_) (fun pk hpk => ?_)
    · obtain ⟨_, _, c3, _⟩ := edits_combine hS hro hB hteam' hx' hpush hall' hknown' hcol hok
        (pathC ++ [pk, k]) (by simp [pathC])
      refine c3 fun e' he' => ?_
      obtain ⟨e, he, rfl⟩ := List.mem_map.1 he'
      exact (hteam e he).leaves hS hro hB (fun r' hr' hp' => hno e he r' hr' ⟨pk, hpk, hp'⟩) k
    · have : contactPath id = pathC ++ [pk] := by rw [contactPath, ← (idBytes_ok hpk).1]
      rw [this] at hnm
      cases hg : B.get (pathC ++ [pk]) with
      | none => rw [hg] at hnm; cases hnm
      | some v =>
        rw [hg] at hnm
        cases v with
        | dict e => exact ⟨e, rfl, hnm⟩
        | set s => cases hnm
        | scalar x => cases hnm

/-! ### A concrete case -/

theorem ContactEdit.one {S : Sys} {B c c' : Client} {r : Contact} (h1 : Peer S c) (h2 : c.st ≠ .dirty)
    (h3 : SameConfig S c B) (h4 : r.inRange = true) (h5 : (c.setContact S r).2 = .ok ())
    (h6 : c' = (c.setContact S r).1) (h7 : c'.st = .dirty) : ContactEdit S B c [r] c' :=
  ⟨h1, h2, h3, .cons h4 (Prod.ext h6.symm h5) (.nil _), h7⟩

def exContact2 : Contact := { exContact with id := exId2, name := [66, 111, 98] }
def exCs : Client := (exC3.setContact exSys exContact).1
def exDs : Client := (exD1.setContact exSys exContact2).1
def exMDs : Bytes := match (exDs.push exSys).2 with
  | .ok (_, m, _) => m
  | _ => []

theorem exCs_edit : ContactEdit exSys exC3 exC3 [exContact] exCs :=
  ContactEdit.one exC3_peer (by decide +kernel) (.inl (by decide +kernel)) (by decide +kernel)
    (by decide +kernel) (by unfold exCs; rfl) (by decide +kernel)

theorem exDs_edit : ContactEdit exSys exC3 exD1 [exContact2] exDs :=
  ContactEdit.one exD1_peer (by decide +kernel) (.inl (by decide +kernel)) (by decide +kernel)
    (by decide +kernel) (by unfold exDs; rfl) (by decide +kernel)

/-- C60: two devices that hold the same config each set a different contact; the first pushes and merges
the message of the second (and some junk): it has both. -/
example :
    ContactEdit exSys exC3 exC3 [exContact] exCs ∧ ContactEdit exSys exC3 exD1 [exContact2] exDs ∧
    (exCs.push exSys).2.isOk = true ∧
    gather exSys exCs.keys [([1], exMDs), ([3], [7])] = [([1], exDs.plain exSys)] ∧
    NoCollision exSys.env [exCs.plain exSys, exDs.plain exSys] ∧
    ((exCs.push exSys).1.merge exSys [([1], exMDs), ([3], [7])]).2.isOk = true ∧
    ¬ SameId exId exContact2.id ∧
    ((exCs.push exSys).1.merge exSys [([1], exMDs), ([3], [7])]).1.getContact exId =
      .ok (some { exContact.norm with id := exId }) ∧
    ((exCs.push exSys).1.merge exSys [([1], exMDs), ([3], [7])]).1.getContact exId2 =
      .ok (some { exContact2.norm with id := exId2 }) := by
  refine ⟨exCs_edit, exDs_edit, by decide +kernel, by decide +kernel, by unfold NoCollision; decide +kernel,
    by decide +kernel, ?_, by decide +kernel⟩
  rw [sameId_iff]; decide +kernel

end Verif
