import Verif.Props.UserGroupsNet
import Verif.Props.ContactsNet

/-!
# Members of a legacy group edited on several devices (C90)
-/

namespace Verif

/-- The object holds the legacy group `g` as `set` stores it. -/
structure StoredLegacy (c : Client) (g : Legacy) : Prop where
  id : checkId g.id pre05 = true
  members : MembersOk g.members
  lower : ∀ x ∈ g.members, lower x.1 = x.1
  fields : ∀ f ∈ g.fields, c.get (pathL ++ [fromHex g.id] ++ [f.1]) = f.2

theorem idBytes_of_check {id pre : Bytes} (h : checkId id pre = true) : idBytes id pre = .ok (fromHex id) := by
  unfold idBytes; rw [if_pos h]

theorem stored_of_set {S : Sys} (hS : S.Good) {c c' : Client} (hc : Reach S c) {g : Legacy}
    (hr : g.inRange = true) (hm : MembersOk g.members) (hl : ∀ x ∈ g.members, lower x.1 = x.1)
    (h : c.setLegacy S g = (c', .ok ())) : StoredLegacy c' g := by
  obtain ⟨_, pk, hpk, ⟨e, he, hf⟩, _⟩ := setRec_spec hS (by simp [pathL])
    (fun _ => legacy_fields_nodup g) (fun _ => legacy_fields_wf hr)
    (fun _ => ⟨([110], some (.scalar (.str (g.name.take 100)))), by unfold Legacy.fields; simp, rfl⟩) hc h
  have hck : checkId g.id pre05 = true := by
    unfold idBytes at hpk
    split at hpk
    · assumption
    · cases hpk
  refine ⟨hck, hm, hl, fun f hfm => ?_⟩
  rw [← (idBytes_ok hpk).1, get_entry (by simp) he]
  exact hf f hfm

theorem prune_fSet (s : List Scalar) : ((fSet s).bind fun v => if v.prune.emptyVal then none else some v.prune) = fSet s := by
  unfold fSet
  by_cases h : s = []
  · rw [if_pos h]; rfl
  · rw [if_neg h, Option.bind_some]
    cases s with
    | nil => exact absurd rfl h
    | cons a t => rfl

/-- The shape of the published content of an object that holds the group. -/
theorem stored_shape {c : Client} (ht : typedD c.conf.m.data = true) {g : Legacy} (h : StoredLegacy c g) :
    ∃ y d, mget [67] c.content = some (.dict y) ∧ mget (fromHex g.id) y = some (.dict d) ∧
      mget [109] d = fSet (memberSet false g.members) ∧ mget [97] d = fSet (memberSet true g.members) ∧
      mget [110] d = some (.scalar (.str (g.name.take 100))) := by
  have hn : c.get (pathL ++ [fromHex g.id] ++ [[110]]) = some (.scalar (.str (g.name.take 100))) :=
    h.fields ([110], some (.scalar (.str (g.name.take 100)))) (by unfold Legacy.fields; simp)
  have h1 : c.get (pathL ++ [fromHex g.id] ++ [[109]]) = fSet (memberSet false g.members) :=
    h.fields ([109], fSet (memberSet false g.members)) (by
      unfold Legacy.fields; exact List.mem_append_right _ (by simp))
  have h2 : c.get (pathL ++ [fromHex g.id] ++ [[97]]) = fSet (memberSet true g.members) :=
    h.fields ([97], fSet (memberSet true g.members)) (by
      unfold Legacy.fields; exact List.mem_append_right _ (by simp))
  have hv : ∀ k, valAt c.content [[67], fromHex g.id, k] =
      (c.get (pathL ++ [fromHex g.id] ++ [k])).bind fun v => if v.prune.emptyVal then none else some v.prune :=
    fun k => valAt_pruneD _ ht
  have e1 := hv [110]
  have e2 := hv [109]
  have e3 := hv [97]
  rw [hn] at e1
  rw [h1, prune_fSet] at e2
  rw [h2, prune_fSet] at e3
  have e1 : valAt c.content [[67], fromHex g.id, [110]] = some (.scalar (.str (g.name.take 100))) := e1
  simp only [valAt] at e1 e2 e3
  cases ha : mget [67] c.content with
  | none => rw [ha] at e1; cases e1
  | some v =>
    cases v with
    | scalar x => rw [ha] at e1; cases e1
    | set x => rw [ha] at e1; cases e1
    | dict y =>
      simp only [ha] at e1 e2 e3
      cases hb : mget (fromHex g.id) y with
      | none => rw [hb] at e1; cases e1
      | some v =>
        cases v with
        | scalar x => rw [hb] at e1; cases e1
        | set x => rw [hb] at e1; cases e1
        | dict d =>
          simp only [hb] at e1 e2 e3
          exact ⟨y, d, rfl, hb, e2, e3, e1⟩

/-- The field of the plain members or the admins -/
def roleKey : Bool → Bytes
  | false => [109]
  | true => [97]

/-- The path of the set of plain members or admins -/
def rolePath (id : Bytes) (adm : Bool) : List Bytes := [[67], fromHex id, roleKey adm]

theorem fromHex_lower_inj {a b : Bytes} (ha : checkId a pre05 = true) (hb : checkId b pre05 = true)
    (la : lower a = a) (lb : lower b = b) (h : fromHex a = fromHex b) : a = b := by
  rw [← la, ← lb, lower_id (idBytes_of_check ha), lower_id (idBytes_of_check hb), h]

theorem mem_memberSet_iff {m : Members} (hm : MembersOk m) (hl : ∀ x ∈ m, lower x.1 = x.1) {k : Bytes}
    (hk : checkId k pre05 = true) (lk : lower k = k) (adm : Bool) :
    .str (fromHex k) ∈ memberSet adm m ↔ mget k m = some adm := by
  rw [(memberSet_spec adm m).2, mget_iff_mem hm.1]
  constructor
  · rintro ⟨y, h1, h2, h3⟩
    have := fromHex_lower_inj (hm.2 y h1) hk (hl y h1) lk (Scalar.str.inj h3).symm
    rw [← this, ← h2]; exact h1
  · intro h; exact ⟨_, h, rfl, rfl⟩

theorem stored_field {g : Legacy} {d : Dict} (h1 : mget [109] d = fSet (memberSet false g.members))
    (h2 : mget [97] d = fSet (memberSet true g.members)) (adm : Bool) :
    mget (roleKey adm) d = fSet (memberSet adm g.members) := by
  cases adm
  · exact h1
  · exact h2

theorem stored_member {c : Client} (ht : typedD c.conf.m.data = true) {g : Legacy} (h : StoredLegacy c g)
    {k : Bytes} (hk : checkId k pre05 = true) (lk : lower k = k) (adm : Bool) :
    memberAt c.content (rolePath g.id adm) (.str (fromHex k)) = true ↔ mget k g.members = some adm := by
  obtain ⟨y, d, e1, e2, e3, e4, _⟩ := stored_shape ht h
  unfold rolePath
  simp only [memberAt, e1, e2, stored_field e3 e4 adm]
  rw [← mem_memberSet_iff h.members h.lower hk lk adm]
  unfold fSet
  by_cases hs : memberSet adm g.members = []
  · simp [hs]
  · simp [hs]

/-- One object leaves the member `k` alone. -/
theorem stored_agree {b c : Client} (hb : typedD b.conf.m.data = true) (ht : typedD c.conf.m.data = true)
    {gb g : Legacy} (h : StoredLegacy b gb) (h' : StoredLegacy c g) (hid : fromHex g.id = fromHex gb.id)
    {k : Bytes} (hk : checkId k pre05 = true) (lk : lower k = k) (adm : Bool)
    (heq : mget k g.members = some adm ↔ mget k gb.members = some adm)
    (hne : (∃ x ∈ g.members, x.2 = adm) ∨ ¬ ∃ x ∈ gb.members, x.2 = adm) :
    agreeOn b.content c.content (rolePath gb.id adm) (.str (fromHex k)) := by
  obtain ⟨y, d, e1, e2, e3, e4, _⟩ := stored_shape ht h'
  obtain ⟨y', d', f1, f2, f3, f4, _⟩ := stored_shape hb h
  have k1 := stored_field e3 e4 adm
  have k2 := stored_field f3 f4 adm
  have hset : ∀ {m : Members}, (∃ x ∈ m, x.2 = adm) ↔ memberSet adm m ≠ [] := by
    intro m
    constructor
    · rintro ⟨x, hx, ha⟩ hn
      have := ((memberSet_spec adm m).2 _).2 ⟨x, hx, ha, rfl⟩
      rw [hn] at this; cases this
    · intro hn
      obtain ⟨s, hs⟩ := List.exists_mem_of_ne_nil _ hn
      obtain ⟨x, hx, ha, _⟩ := ((memberSet_spec adm m).2 s).1 hs
      exact ⟨x, hx, ha⟩
  rw [hid] at e2
  rw [hset, hset] at hne
  by_cases hs : memberSet adm g.members = []
  · left
    have hs' : memberSet adm gb.members = [] := by
      rcases hne with h | h
      · exact absurd hs h
      · exact Classical.not_not.1 h
    have q1 : mget (roleKey adm) d = none := by rw [k1, hs]; rfl
    have q2 : mget (roleKey adm) d' = none := by rw [k2, hs']; rfl
    unfold rolePath
    simp only [sameAt, e1, f1, subDict, e2, f2, q1, q2, decide_true, Bool.or_true]
  · right
    refine ⟨memberSet adm g.members, ?_, ?_⟩
    · unfold rolePath
      simp only [setAt, e1, e2, k1, fSet, if_neg hs]
    · rw [stored_member hb h hk lk, mem_memberSet_iff h'.members h'.lower hk lk]
      exact heq.symm

theorem setRec_edits {S : Sys} (hS : S.Good) {c c' : Client} (hr : Reach S c) {P : List Bytes} {pre id : Bytes}
    {fs : Bytes → List (Bytes × Option Val)} (hwf : ∀ pk, ∀ f ∈ fs pk, wfO f.2 = true)
    (h : c.setRec S P pre id fs = (c', .ok ())) : Edits S c c' := by
  obtain ⟨pk, _, hw⟩ := setRec_ok h
  exact writeAll_edits hS _ hr (entries_ok (hwf pk)) hw

/-- A device that holds the config of `B`, stores the legacy group `g`, and so has changes to publish. -/
structure LegacyEdit (S : Sys) (B before : Client) (g : Legacy) (after : Client) : Prop where
  peer : Peer S before
  idle : before.st ≠ .dirty
  same : SameConfig S before B
  range : g.inRange = true
  members : MembersOk g.members
  lower : ∀ x ∈ g.members, lower x.1 = x.1
  set : before.setLegacy S g = (after, .ok ())
  pending : after.st = .dirty

theorem LegacyEdit.editor {S : Sys} (hS : S.Good) (hro : S.env.readonly = false) {B before after : Client}
    {g : Legacy} (h : LegacyEdit S B before g after) : Editor S B (before, after) :=
  ⟨h.peer, h.idle, h.same, setRec_edits hS (h.peer.inv hS hro).reach (fun _ => legacy_fields_wf h.range) h.set,
    h.pending⟩

theorem LegacyEdit.stored {S : Sys} (hS : S.Good) (hro : S.env.readonly = false) {B before after : Client}
    {g : Legacy} (h : LegacyEdit S B before g after) : StoredLegacy after g :=
  stored_of_set hS (h.peer.inv hS hro).reach h.range h.members h.lower h.set


theorem memberId_iff {x : Scalar} {k : Bytes} (hk : checkId k pre05 = true) (lk : lower k = k) :
    memberId x = some k ↔ x = .str (fromHex k) := by
  constructor
  · intro h
    unfold memberId at h
    split at h
    · rename_i b
      by_cases hb : b.length = 33 ∧ b.head? = some 5
      · rw [if_pos hb] at h
        rw [← Option.some.inj h, fromHex_toHex]
      · rw [if_neg hb] at h; cases h
    · cases h
  · rintro rfl; rw [memberId_hex hk, lk]

/-- What a device reads, from the content. -/
theorem read_members {c : Client} (ht : typedD c.conf.m.data = true) {id n : Bytes} (hid : checkId id pre05 = true)
    (hn : scalarAt c.content [[67], fromHex id, [110]] = some (.str n)) :
    ∃ r, c.getLegacy id = .ok (some r) ∧ ∀ k, checkId k pre05 = true → lower k = k →
      mget k r.members = if memberAt c.content (rolePath id false) (.str (fromHex k)) then some false
        else if memberAt c.content (rolePath id true) (.str (fromHex k)) then some true else none := by
  unfold Client.content at hn ⊢
  rw [scalarAt_pruneD _ _ ht] at hn
  have hshape : ∃ y d, mget [67] c.conf.m.data = some (.dict y) ∧ mget (fromHex id) y = some (.dict d) := by
    simp only [scalarAt] at hn
    split at hn
    · rename_i y hy
      split at hn
      · rename_i d hd; exact ⟨y, d, hy, hd⟩
      · cases hn
    · cases hn
  obtain ⟨y, d, e1, e2⟩ := hshape
  refine ⟨Legacy.load id d, ?_, fun k hk lk => ?_⟩
  · unfold Client.getLegacy
    have hg : c.get (pathL ++ [fromHex id]) = some (.dict d) := by
      show valAt c.conf.m.data [[67], fromHex id] = _
      simp only [valAt, e1, e2]
    rw [getRec_eq (idBytes_of_check hid), hg]; rfl
  · show mget k (loadMembers d) = _
    unfold loadMembers
    obtain ⟨a1, a2⟩ := loadSet_spec (m := []) KSorted.nil false (maybeSet d [109])
    obtain ⟨b1, b2⟩ := loadSet_spec a1 true (maybeSet d [97])
    have hin : ∀ adm, (∃ x ∈ (maybeSet d (roleKey adm)).getD [], memberId x = some k) ↔
        memberAt (pruneD c.conf.m.data) (rolePath id adm) (.str (fromHex k)) = true := by
      intro adm
      rw [memberAt_pruneD _ _ ht]
      unfold rolePath maybeSet
      simp only [memberAt, e1, e2, memberId_iff hk lk]
      cases mget (roleKey adm) d with
      | none => simp
      | some v => cases v <;> simp
    have h1 := hin false
    have h2 := hin true
    simp only [roleKey] at h1 h2
    rw [b2 k, a2 k]
    simp only [h1, h2]
    show ((none : Option Bool).or _).or _ = _
    rw [Option.none_or]
    cases memberAt (pruneD c.conf.m.data) (rolePath id false) (.str (fromHex k)) <;> rfl

theorem exists_max {α : Type} (f : α → Bytes) : ∀ (l : List α), l ≠ [] → ∃ x ∈ l, ∀ y ∈ l, ¬ f x < f y
  | [], h => absurd rfl h
  | [a], _ => ⟨a, by simp, by simp⟩
  | a :: b :: t, _ => by
    obtain ⟨x, hx, hm⟩ := exists_max f (b :: t) (by simp)
    by_cases h : f x < f a
    · refine ⟨a, by simp, fun y hy => ?_⟩
      rcases List.mem_cons.1 hy with rfl | hy
      · exact lt_irrefl _
      · exact fun h' => hm y hy (lt_trans h h')
    · refine ⟨x, by simp [List.mem_cons.1 hx], fun y hy => ?_⟩
      rcases List.mem_cons.1 hy with rfl | hy
      · exact h
      · exact hm y hy

/-- The group is there after the merge, and what is read of its members. -/
theorem legacy_read_merged {S : Sys} (hS : S.Good) (hro : S.env.readonly = false) {B : Client}
    (hB : Peer S B) {gB : Legacy} (hst : StoredLegacy B gB) {team : List (Client × Legacy × Client)}
    (hteam : ∀ e ∈ team, LegacyEdit S B e.1 e.2.1 e.2.2 ∧ SameRec pre05 e.2.1.id gB.id)
    {x : Client × Legacy × Client} (hx : x ∈ team) {s : Int} {msg : Bytes} {obs : List Bytes}
    (hpush : (x.2.2.push S).2 = .ok (s, msg, obs)) {configs : List (Bytes × Bytes)}
    (hall : ∀ e ∈ team, e.2.2.plain S = x.2.2.plain S ∨
      ∃ p ∈ gather S x.2.2.keys configs, p.2 = e.2.2.plain S)
    (hknown : ∀ p ∈ gather S x.2.2.keys configs, (∃ m, parseMsg S.env false p.2 = .ok m) →
      (∃ e ∈ team, p.2 = e.2.2.plain S) ∨ (B.seqno ≠ 0 ∧ p.2 = B.plain S))
    (hcol : NoCollision S.env (x.2.2.plain S :: (gather S x.2.2.keys configs).map (·.2)))
    (hok : ((x.2.2.push S).1.merge S configs).2.isOk = true) :
    ∃ r, ((x.2.2.push S).1.merge S configs).1.getLegacy gB.id = .ok (some r) ∧
    ∀ k, checkId k pre05 = true → lower k = k → mget k r.members =
      if memberAt ((x.2.2.push S).1.merge S configs).1.content (rolePath gB.id false) (.str (fromHex k)) then some false
      else if memberAt ((x.2.2.push S).1.merge S configs).1.content (rolePath gB.id true) (.str (fromHex k)) then some true
      else none := by
  let team' : List (Client × Client) := team.map fun e => (e.1, e.2.2)
  have hteam' : ∀ e ∈ team', Editor S B e := by
    intro e he
    obtain ⟨e0, he0, rfl⟩ := List.mem_map.1 he
    exact (hteam e0 he0).1.editor hS hro
  have hx' : (x.1, x.2.2) ∈ team' := List.mem_map.2 ⟨x, hx, rfl⟩
  have hall' : ∀ e ∈ team', e.2.plain S = x.2.2.plain S ∨
      ∃ p ∈ gather S x.2.2.keys configs, p.2 = e.2.plain S := by
    intro e he
    obtain ⟨e0, he0, rfl⟩ := List.mem_map.1 he
    exact hall e0 he0
  have hknown' : ∀ p ∈ gather S x.2.2.keys configs, (∃ m, parseMsg S.env false p.2 = .ok m) →
      (∃ e ∈ team', p.2 = e.2.plain S) ∨ (B.seqno ≠ 0 ∧ p.2 = B.plain S) := by
    intro p hp hm
    rcases hknown p hp hm with ⟨e, he, h⟩ | h
    · exact .inl ⟨(e.1, e.2.2), List.mem_map.2 ⟨e, he, rfl⟩, h⟩
    · exact .inr h
  have hpeer := team_peer hS hro hB hteam' hx' hpush hknown' hcol hok
  have hrty := ((hpeer.inv hS hro).reach.inv hS).wf.data
  have hBty := ((hB.inv hS hro).reach.inv hS).wf.data
  have hety : ∀ e ∈ team, typedD e.2.2.conf.m.data = true := fun e he =>
    ((hteam' _ (List.mem_map.2 ⟨e, he, rfl⟩)).result).2.2.1
  have hids : ∀ e ∈ team, fromHex e.2.1.id = fromHex gB.id := by
    intro e he
    obtain ⟨pk, i1, i2⟩ := (hteam e he).2
    rw [← (idBytes_ok i1).1, ← (idBytes_ok i2).1]
  have hstored : ∀ e ∈ team, StoredLegacy e.2.2 e.2.1 := fun e he => (hteam e he).1.stored hS hro
  have hrole : ∀ e ∈ team, ∀ adm, rolePath e.2.1.id adm = rolePath gB.id adm := by
    intro e he adm; unfold rolePath; rw [hids e he]
  -- the name
  have hname : ∃ n, scalarAt ((x.2.2.push S).1.merge S configs).1.content [[67], fromHex gB.id, [110]] =
      some (.str n) := by
    obtain ⟨c1, _, c3, _⟩ := edits_combine hS hro hB hteam' hx' hpush hall' hknown' hcol hok
      [[67], fromHex gB.id, [110]] (by simp)
    have hsc : ∀ {c : Client} {g : Legacy}, typedD c.conf.m.data = true → StoredLegacy c g →
        fromHex g.id = fromHex gB.id →
        scalarAt c.content [[67], fromHex gB.id, [110]] = some (.str (g.name.take 100)) := by
      intro c g ht hg hi
      obtain ⟨y, d, e1, e2, _, _, e5⟩ := stored_shape ht hg
      rw [← hi]
      simp only [scalarAt, e1, e2, e5]
    by_cases hch : ∃ e ∈ team, sameAt B.content e.2.2.content [[67], fromHex gB.id, [110]] = false
    · let l := team.filter fun e => !sameAt B.content e.2.2.content [[67], fromHex gB.id, [110]]
      have hl : l ≠ [] := by
        obtain ⟨e, he, h⟩ := hch
        exact List.ne_nil_of_mem (List.mem_filter.2 ⟨he, by simp [h]⟩)
      obtain ⟨e, he, hmax⟩ := exists_max (fun e => S.env.H (e.2.2.plain S)) l hl
      obtain ⟨he1, he2⟩ := List.mem_filter.1 he
      refine ⟨e.2.1.name.take 100, ?_⟩
      rw [c1 (e.1, e.2.2) (List.mem_map.2 ⟨e, he1, rfl⟩) (by simpa using he2) fun e' he' hlt => ?_]
      · exact hsc (hety e he1) (hstored e he1) (hids e he1)
      · obtain ⟨e0, he0, rfl⟩ := List.mem_map.1 he'
        by_contra hne
        exact hmax e0 (List.mem_filter.2 ⟨he0, by simpa using hne⟩) hlt
    · refine ⟨gB.name.take 100, ?_⟩
      rw [c3 fun e' he' => ?_]
      · exact hsc hBty hst rfl
      · obtain ⟨e0, he0, rfl⟩ := List.mem_map.1 he'
        by_contra hne
        exact hch ⟨e0, he0, by simpa using hne⟩
  obtain ⟨n, hn⟩ := hname
  exact read_members hrty hst.id hn

/-- C90.  Let any number of devices (`team`) that hold the same config, in which the legacy group `gB` is
stored, each store a new version of that group, and let one of them, `x`, having pushed its own version,
merge the messages of all the others (as in C59).  Assume no device removes the last plain member or the
last admin.  Then `x` has the group, and for every id `k`:

1. if exactly one device `t` changed the status of `k`, then what it made of `k` is what `x` has: a plain
   member is a plain member; an admin is an admin if it was a plain member and a member in any case; one
   removed does not have the status it had;
2. if no device changed the status of `k`: a plain member is still one, an admin is still a member. -/
theorem legacy_members_combine {S : Sys} (hS : S.Good) (hro : S.env.readonly = false) {B : Client}
    (hB : Peer S B) {gB : Legacy} (hst : StoredLegacy B gB) {team : List (Client × Legacy × Client)}
    (hteam : ∀ e ∈ team, LegacyEdit S B e.1 e.2.1 e.2.2 ∧ SameRec pre05 e.2.1.id gB.id)
    {x : Client × Legacy × Client} (hx : x ∈ team) {s : Int} {msg : Bytes} {obs : List Bytes}
    (hpush : (x.2.2.push S).2 = .ok (s, msg, obs)) {configs : List (Bytes × Bytes)}
    (hall : ∀ e ∈ team, e.2.2.plain S = x.2.2.plain S ∨
      ∃ p ∈ gather S x.2.2.keys configs, p.2 = e.2.2.plain S)
    (hknown : ∀ p ∈ gather S x.2.2.keys configs, (∃ m, parseMsg S.env false p.2 = .ok m) →
      (∃ e ∈ team, p.2 = e.2.2.plain S) ∨ (B.seqno ≠ 0 ∧ p.2 = B.plain S))
    (hcol : NoCollision S.env (x.2.2.plain S :: (gather S x.2.2.keys configs).map (·.2)))
    (hok : ((x.2.2.push S).1.merge S configs).2.isOk = true)
    (hkeep : ∀ e ∈ team, ∀ adm, (∃ y ∈ e.2.1.members, y.2 = adm) ∨ ¬ ∃ y ∈ gB.members, y.2 = adm) :
    ∃ r, ((x.2.2.push S).1.merge S configs).1.getLegacy gB.id = .ok (some r) ∧
    ∀ k, checkId k pre05 = true → lower k = k →
      (∀ t ∈ team, mget k t.2.1.members ≠ mget k gB.members →
        (∀ e ∈ team, e ≠ t → mget k e.2.1.members = mget k gB.members) →
        (mget k t.2.1.members = some false → mget k r.members = some false) ∧
        (mget k t.2.1.members = some true → mget k gB.members = some false → mget k r.members = some true) ∧
        (mget k t.2.1.members = some true → mget k r.members ≠ none) ∧
        (mget k t.2.1.members = none → mget k r.members ≠ mget k gB.members)) ∧
      ((∀ e ∈ team, mget k e.2.1.members = mget k gB.members) →
        (mget k gB.members = some false → mget k r.members = some false) ∧
        (mget k gB.members = some true → mget k r.members ≠ none)) := by
  let team' : List (Client × Client) := team.map fun e => (e.1, e.2.2)
  have hteam' : ∀ e ∈ team', Editor S B e := by
    intro e he
    obtain ⟨e0, he0, rfl⟩ := List.mem_map.1 he
    exact (hteam e0 he0).1.editor hS hro
  have hx' : (x.1, x.2.2) ∈ team' := List.mem_map.2 ⟨x, hx, rfl⟩
  have hall' : ∀ e ∈ team', e.2.plain S = x.2.2.plain S ∨
      ∃ p ∈ gather S x.2.2.keys configs, p.2 = e.2.plain S := by
    intro e he
    obtain ⟨e0, he0, rfl⟩ := List.mem_map.1 he
    exact hall e0 he0
  have hknown' : ∀ p ∈ gather S x.2.2.keys configs, (∃ m, parseMsg S.env false p.2 = .ok m) →
      (∃ e ∈ team', p.2 = e.2.plain S) ∨ (B.seqno ≠ 0 ∧ p.2 = B.plain S) := by
    intro p hp hm
    rcases hknown p hp hm with ⟨e, he, h⟩ | h
    · exact .inl ⟨(e.1, e.2.2), List.mem_map.2 ⟨e, he, rfl⟩, h⟩
    · exact .inr h
  have hpeer := team_peer hS hro hB hteam' hx' hpush hknown' hcol hok
  have hrty := ((hpeer.inv hS hro).reach.inv hS).wf.data
  have hBty := ((hB.inv hS hro).reach.inv hS).wf.data
  have hety : ∀ e ∈ team, typedD e.2.2.conf.m.data = true := fun e he =>
    ((hteam' _ (List.mem_map.2 ⟨e, he, rfl⟩)).result).2.2.1
  have hids : ∀ e ∈ team, fromHex e.2.1.id = fromHex gB.id := by
    intro e he
    obtain ⟨pk, i1, i2⟩ := (hteam e he).2
    rw [← (idBytes_ok i1).1, ← (idBytes_ok i2).1]
  have hstored : ∀ e ∈ team, StoredLegacy e.2.2 e.2.1 := fun e he => (hteam e he).1.stored hS hro
  have hrole : ∀ e ∈ team, ∀ adm, rolePath e.2.1.id adm = rolePath gB.id adm := by
    intro e he adm; unfold rolePath; rw [hids e he]
  obtain ⟨r, hr, hmem⟩ := legacy_read_merged hS hro hB hst hteam hx hpush hall hknown hcol hok
  refine ⟨r, hr, fun k hk lk => ?_⟩
  rw [hmem k hk lk]
  have hBm := fun adm => stored_member hBty hst hk lk adm
  have hem : ∀ e ∈ team, ∀ adm, memberAt e.2.2.content (rolePath gB.id adm) (.str (fromHex k)) = true ↔
      mget k e.2.1.members = some adm := by
    intro e he adm
    rw [← hrole e he adm]
    exact stored_member (hety e he) (hstored e he) hk lk adm
  have hagree : ∀ e ∈ team, mget k e.2.1.members = mget k gB.members → ∀ adm,
      agreeOn B.content e.2.2.content (rolePath gB.id adm) (.str (fromHex k)) := fun e he heq adm =>
    stored_agree hBty (hety e he) hst (hstored e he) (hids e he) hk lk adm (by rw [heq]) (hkeep e he adm)
  have hcomb := fun adm => edits_combine hS hro hB hteam' hx' hpush hall' hknown' hcol hok
    (rolePath gB.id adm) (by simp [rolePath])
  generalize hR : ((x.2.2.push S).1.merge S configs).1.content = R at hcomb ⊢
  constructor
  · intro t ht hch hoth
    -- in a role whose membership t changed, the result is as t has it
    have hset : ∀ adm, (mget k t.2.1.members = some adm ↔ ¬ mget k gB.members = some adm) →
        memberAt R (rolePath gB.id adm) (.str (fromHex k)) =
          memberAt t.2.2.content (rolePath gB.id adm) (.str (fromHex k)) := by
      intro adm hd
      refine (hcomb adm).2.1 (t.1, t.2.2) (List.mem_map.2 ⟨t, ht, rfl⟩) _ ?_ fun e' he' hlt => ?_
      · intro heq
        have h1 := hBm adm
        have h2 := hem t ht adm
        rw [heq] at h1
        have h3 := h1.symm.trans h2
        tauto
      · obtain ⟨e0, he0, rfl⟩ := List.mem_map.1 he'
        by_cases he : e0 = t
        · subst he; exact absurd hlt (lt_irrefl _)
        · exact hagree e0 he0 (hoth e0 he0 he) adm
    have htrue : ∀ adm, mget k t.2.1.members = some adm →
        memberAt R (rolePath gB.id adm) (.str (fromHex k)) = true := by
      intro adm h
      rw [hset adm ⟨fun _ hb => hch (h.trans hb.symm), fun _ => h⟩]
      exact (hem t ht adm).2 h
    have hfalse : ∀ adm, mget k gB.members = some adm →
        memberAt R (rolePath gB.id adm) (.str (fromHex k)) = false := by
      intro adm h
      have hne : ¬ mget k t.2.1.members = some adm := fun hh => hch (hh.trans h.symm)
      rw [hset adm ⟨fun hh => absurd hh hne, fun hh => absurd h hh⟩]
      cases hv : memberAt t.2.2.content (rolePath gB.id adm) (.str (fromHex k)) with
      | false => rfl
      | true => exact absurd ((hem t ht adm).1 hv) hne
    refine ⟨fun h => ?_, fun h hb => ?_, fun h => ?_, fun h => ?_⟩
    · rw [htrue false h]; rfl
    · rw [hfalse false hb, htrue true h]; rfl
    · rw [htrue true h]
      cases memberAt R (rolePath gB.id false) (.str (fromHex k)) <;> simp
    · cases hb : mget k gB.members with
      | none => exact absurd (h.trans hb.symm) hch
      | some adm =>
        have hf := hfalse adm hb
        cases adm with
        | false => rw [hf]; cases memberAt R (rolePath gB.id true) (.str (fromHex k)) <;> simp
        | true => rw [hf]; cases memberAt R (rolePath gB.id false) (.str (fromHex k)) <;> simp
  · intro heq
    have htrue : ∀ adm, mget k gB.members = some adm →
        memberAt R (rolePath gB.id adm) (.str (fromHex k)) = true := fun adm h =>
      (hcomb adm).2.2.2 _ (fun e' he' => by
        obtain ⟨e0, he0, rfl⟩ := List.mem_map.1 he'
        exact hagree e0 he0 (heq e0 he0) adm) ((hBm adm).2 h)
    refine ⟨fun h => by rw [htrue false h]; rfl, fun h => ?_⟩
    rw [htrue true h]
    cases memberAt R (rolePath gB.id false) (.str (fromHex k)) <;> simp

end Verif
