import Verif.Props.UserGroups
import Verif.Props.UserComm

/-!
# User groups: what is read is well-formed (C87), delivery (C88), the C structs (C89)
-/

namespace Verif

/-! ### Whatever is stored, what is read is well-formed (C87) -/

theorem loadAny_ne (i : Int) : Notify.loadAny i = .mentions ↔ i = 3 := by
  unfold Notify.loadAny
  constructor
  · intro h
    by_contra hne
    repeat' split at h
    all_goals first | cases h | omega
  · rintro rfl; rfl

/-- What a reader can rely on of the secret key and authentication data of a group. -/
structure Group.Sound (pub : Bytes → Bytes) (g : Group) : Prop where
  joined : 0 ≤ g.base.joined
  secret : g.secret ≠ [] → ∃ seed, seed.length = 32 ∧ g.secret = seed ++ pub seed ∧
    g.id = toHex (3 :: pub seed)
  auth : g.auth = [] ∨ g.auth.length = 100

theorem group_load_sound (pub : Bytes → Bytes) (id : Bytes) (d : Dict) : (Group.load pub id d).Sound pub := by
  refine ⟨le_max_left _ _, fun h => ?_, ?_⟩
  · have h : loadSecret pub id d ≠ [] := h
    show ∃ seed, seed.length = 32 ∧ loadSecret pub id d = seed ++ pub seed ∧ _
    unfold loadSecret at h ⊢
    split at h
    · rename_i s hs
      by_cases hc : s.length = 32 ∧ id = toHex (3 :: pub s)
      · rw [if_pos hc]; exact ⟨s, hc.1, rfl, hc.2⟩
      · rw [if_neg hc] at h; exact absurd rfl h
    · exact absurd rfl h
  · show loadAuth d = [] ∨ (loadAuth d).length = 100
    unfold loadAuth
    split
    · split
      · right; assumption
      · left; rfl
    · left; rfl

/-- What a reader can rely on of a legacy group. -/
structure Legacy.Sound (g : Legacy) : Prop where
  joined : 0 ≤ g.base.joined
  pair : (g.encPub.length = 32 ∧ g.encSec.length = 32) ∨ (g.encPub = [] ∧ g.encSec = [])
  timer : 0 ≤ g.timer
  sorted : KSorted g.members
  ids : ∀ x ∈ g.members, checkId x.1 pre05 = true ∧ lower x.1 = x.1

theorem memberId_ok {s : Scalar} {k : Bytes} (h : memberId s = some k) : checkId k pre05 = true ∧ lower k = k := by
  unfold memberId at h
  split at h
  · rename_i b
    by_cases hb : b.length = 33 ∧ b.head? = some 5
    · rw [if_pos hb] at h
      have := Option.some.inj h
      subst this
      have := idBytes_toHex05 hb.1 hb.2
      refine ⟨?_, toHex_lower _⟩
      unfold idBytes at this
      split at this
      · assumption
      · cases this
    · rw [if_neg hb] at h; cases h
  · cases h

theorem loadMembers_ok (d : Dict) : KSorted (loadMembers d) ∧
    ∀ x ∈ loadMembers d, checkId x.1 pre05 = true ∧ lower x.1 = x.1 := by
  unfold loadMembers
  obtain ⟨a1, a2⟩ := loadSet_spec (m := []) KSorted.nil false (maybeSet d [109])
  obtain ⟨b1, b2⟩ := loadSet_spec a1 true (maybeSet d [97])
  refine ⟨b1, fun x hx => ?_⟩
  have hx := (mget_iff_mem b1 (k := x.1) (v := x.2)).2 hx
  rw [b2, a2] at hx
  by_cases h1 : ∃ y ∈ (maybeSet d [109]).getD [], memberId y = some x.1
  · obtain ⟨y, _, hy⟩ := h1; exact memberId_ok hy
  · by_cases h2 : ∃ y ∈ (maybeSet d [97]).getD [], memberId y = some x.1
    · obtain ⟨y, _, hy⟩ := h2; exact memberId_ok hy
    · rw [if_neg h1, if_neg h2] at hx
      cases hx

theorem legacy_load_sound (id : Bytes) (d : Dict) : (Legacy.load id d).Sound := by
  obtain ⟨m1, m2⟩ := loadMembers_ok d
  refine ⟨le_max_left _ _, ?_, le_max_left _ _, m1, m2⟩
  show ((loadPair d).1.length = 32 ∧ (loadPair d).2.length = 32) ∨ ((loadPair d).1 = [] ∧ (loadPair d).2 = [])
  unfold loadPair
  split
  · split
    · left; assumption
    · right; exact ⟨rfl, rfl⟩
  · right; exact ⟨rfl, rfl⟩

/-- What a reader can rely on of a contact. -/
structure Contact.Sound (r : Contact) : Prop where
  pic : (r.url ≠ [] ∧ r.key.length = 32) ∨ (r.url = [] ∧ r.key = [])
  notify : r.notify ≠ .mentions
  timer : (r.exp = .none ∧ r.timer = 0) ∨ (r.exp ≠ .none ∧ 0 < r.timer ∧ r.timer < 2 ^ 31)

theorem toInt32_lt (i : Int) : toInt32 i < 2 ^ 31 := by
  unfold toInt32
  have := Int.bmod_lt (x := i) (m := 2 ^ 32) (by decide)
  omega

theorem contact_load_sound (id : Bytes) (d : Dict) : (Contact.load id d).Sound := by
  refine ⟨?_, ?_, ?_⟩
  · show ((loadPic d).1 ≠ [] ∧ (loadPic d).2.length = 32) ∨ ((loadPic d).1 = [] ∧ (loadPic d).2 = [])
    unfold loadPic
    split
    · rename_i u k _ _
      by_cases hp : picOk u k = true
      · rw [if_pos hp]
        simp only [picOk, Bool.and_eq_true, Bool.not_eq_true', beq_iff_eq] at hp
        left
        refine ⟨fun h => ?_, hp.2⟩
        have h : u = [] := h
        rw [h] at hp; cases hp.1
      · rw [if_neg hp]; right; exact ⟨rfl, rfl⟩
    · right; exact ⟨rfl, rfl⟩
  · show Notify.load _ ≠ _
    unfold Notify.load
    repeat' split
    all_goals simp
  · show ((loadExp d).1 = .none ∧ (loadExp d).2 = 0) ∨ ((loadExp d).1 ≠ .none ∧ 0 < (loadExp d).2 ∧ (loadExp d).2 < 2 ^ 31)
    unfold loadExp
    split
    · left; exact ⟨rfl, rfl⟩
    · rename_i hne
      by_cases hs : toInt32 ((maybeInt d [69]).getD 0) ≤ 0
      · rw [if_pos hs]; left; exact ⟨rfl, rfl⟩
      · rw [if_neg hs]; right; exact ⟨hne, by simpa using hs, toInt32_lt _⟩

theorem getRec_some {R : Type} {c : Client} {P : List Bytes} {pre : Bytes} {L : Bytes → Dict → R} {id : Bytes}
    {r : R} (h : c.getRec P pre L id = .ok (some r)) : ∃ e, r = L id e := by
  unfold Client.getRec at h
  cases hi : idBytes id pre <;> rw [hi] at h <;> try cases h
  have h := Out.ok.inj h
  unfold loadAt at h
  split at h
  · exact ⟨_, (Option.some.inj h).symm⟩
  · cases h

/-- C87.  Whatever the object holds (messages of other versions or of devices with bugs included), every
contact, group and legacy group that `get` returns is well-formed. -/
theorem read_sound (pub : Bytes → Bytes) (c : Client) (id : Bytes) :
    (∀ r, c.getContact id = .ok (some r) → r.id = id ∧ r.Sound) ∧
    (∀ g, c.getGroup pub id = .ok (some g) → g.id = id ∧ g.Sound pub) ∧
    (∀ g, c.getLegacy id = .ok (some g) → g.id = id ∧ g.Sound) := by
  refine ⟨fun r h => ?_, fun g h => ?_, fun g h => ?_⟩
  · unfold Client.getContact at h
    cases hi : idBytes id pre05 with
    | ok pk =>
      rw [hi] at h
      have h := Out.ok.inj h
      split at h
      · obtain rfl := Option.some.inj h; exact ⟨rfl, contact_load_sound _ _⟩
      · cases h
    | err e => rw [hi] at h; cases h
    | hang => rw [hi] at h; cases h
    | ub => rw [hi] at h; cases h
  · obtain ⟨e, rfl⟩ := getRec_some h
    exact ⟨rfl, group_load_sound pub id e⟩
  · obtain ⟨e, rfl⟩ := getRec_some h
    exact ⟨rfl, legacy_load_sound id e⟩


/-! ### On other devices (C88) -/

theorem GroupBase.load_congr {d d' : Dict} (h : SameReads d d') : GroupBase.load d' = GroupBase.load d := by
  unfold GroupBase.load
  simp only [(h _).1]

theorem Group.load_congr (pub : Bytes → Bytes) (id : Bytes) (d d' : Dict) (h : SameReads d d') :
    Group.load pub id d' = Group.load pub id d := by
  unfold Group.load loadSecret loadAuth
  simp only [GroupBase.load_congr h, (h _).2.1]

theorem Legacy.load_congr (id : Bytes) (d d' : Dict) (h : SameReads d d') :
    Legacy.load id d' = Legacy.load id d := by
  unfold Legacy.load loadPair loadMembers loadSet
  simp only [GroupBase.load_congr h, (h _).1, (h _).2.1, (h _).2.2]

theorem rec_has {S : Sys} (hS : S.Good) {P : List Bytes} (hP : P ≠ []) {pre id : Bytes}
    {fs : Bytes → List (Bytes × Option Val)} (hnd : ∀ pk, ((fs pk).map (·.1)).Nodup)
    (hwf : ∀ pk, ∀ f ∈ fs pk, wfO f.2 = true) {k : Bytes} (hk : ∀ pk, ∃ s, (k, some (.scalar (.str s))) ∈ fs pk)
    {c c' : Client} (hc : Reach S c) (h : c.setRec S P pre id fs = (c', .ok ())) {id' pk : Bytes}
    (hs : SameRec pre id' id) (hpk : idBytes id' pre = .ok pk) :
    (maybeStr (curDict (c'.get (P ++ [pk]))) k).isSome = true := by
  obtain ⟨_, pk1, hpk1, ⟨e, he, hf⟩, _⟩ := setRec_spec hS hP hnd hwf
    (fun pk => by obtain ⟨s, hs⟩ := hk pk; exact ⟨_, hs, rfl⟩) hc h
  obtain ⟨pk2, i1, i2⟩ := hs
  rw [hpk1] at i2; cases i2
  rw [hpk] at i1; cases i1
  obtain ⟨s, hm⟩ := hk pk
  rw [he, show curDict (some (Val.dict e)) = e from rfl, maybeStr_of (hf _ hm)]
  rfl

/-- C88.  A group that `set` stored on one device, once pushed and delivered (as in C34), reads on the
other device as it reads on the first, under every spelling of its id; so does every other group that
has a field "K" (which `set` always writes). -/
theorem group_delivered {S : Sys} (hS : S.Good) {pub : Bytes → Bytes} {sg : Option (Bytes → Bytes)}
    (hS' : (S.as sg).Good) {c0 c r : Client} (hc0 : Reach S c0) {x : Group}
    (hx : x.base.inRange = true) (hset : c0.setGroup S x = (c, .ok ()))
    (hr : Reach (S.as sg) r) {s : Int}
    {m : Bytes} {obs : List Bytes} (hp : (c.push S).2 = .ok (s, m, obs)) (hs : s ≠ 0)
    (hk : r.keys.head? = c.keys.head?) (hst : r.st ≠ .dirty)
    (hknown : r.seqno = 0 ∨
      ∀ M, parseMsg S.env false (c.plain S) = .ok M → Supersedes (S.as sg) M r)
    (hnc : S.env.H (c.plain S) = S.env.H (r.plain (S.as sg)) → c.plain S = r.plain (S.as sg))
    (hov : int64Ok (s + S.env.lag) = true) (h : Bytes)
    {r' : Client} {res : Out (List Bytes)} (hm : r.merge (S.as sg) [(h, m)] = (r', res)) :
    (∀ id, SameRec pre03 id x.id → r'.getGroup pub id = c.getGroup pub id) ∧
    (∀ id, (∀ pk, idBytes id pre03 = .ok pk → c.get (pathG ++ [pk]) ≠ none →
        (maybeStr (curDict (c.get (pathG ++ [pk]))) [75]).isSome = true) →
      r'.getGroup pub id = c.getGroup pub id) := by
  have hc : Reach S c := (setRec_spec hS (by simp [pathG]) (fun pk => group_fields_nodup pk x)
    (fun pk => group_fields_wf hx pk)
    (fun pk => by obtain ⟨s, hs⟩ := group_fields_K x pk; exact ⟨_, hs, rfl⟩) hc0 hset).1
  obtain ⟨_, hd, _⟩ := delivery_full hS hS' hc hr hp hs hk hst hknown hnc hov h
  rw [hm] at hd
  have hd : r'.conf.m.data = pruneD c.conf.m.data := hd
  have ht := (hc.inv hS).wf.data
  refine ⟨fun id hid => getRec_pruned ht hd (Group.load_congr pub) id fun pk hpk _ => ⟨[75], ?_⟩,
    fun id hne => getRec_pruned ht hd (Group.load_congr pub) id fun pk hpk hn => ⟨[75], hne pk hpk hn⟩⟩
  exact rec_has hS (by simp [pathG]) (fun pk => group_fields_nodup pk x) (fun pk => group_fields_wf hx pk)
    (group_fields_K x) hc0 hset hid hpk

/-- C88.  The same for legacy groups, members included. -/
theorem legacy_delivered {S : Sys} (hS : S.Good) {sg : Option (Bytes → Bytes)}
    (hS' : (S.as sg).Good) {c0 c r : Client} (hc0 : Reach S c0) {x : Legacy}
    (hx : x.inRange = true) (hset : c0.setLegacy S x = (c, .ok ()))
    (hr : Reach (S.as sg) r) {s : Int}
    {m : Bytes} {obs : List Bytes} (hp : (c.push S).2 = .ok (s, m, obs)) (hs : s ≠ 0)
    (hk : r.keys.head? = c.keys.head?) (hst : r.st ≠ .dirty)
    (hknown : r.seqno = 0 ∨
      ∀ M, parseMsg S.env false (c.plain S) = .ok M → Supersedes (S.as sg) M r)
    (hnc : S.env.H (c.plain S) = S.env.H (r.plain (S.as sg)) → c.plain S = r.plain (S.as sg))
    (hov : int64Ok (s + S.env.lag) = true) (h : Bytes)
    {r' : Client} {res : Out (List Bytes)} (hm : r.merge (S.as sg) [(h, m)] = (r', res)) :
    (∀ id, SameRec pre05 id x.id → r'.getLegacy id = c.getLegacy id) ∧
    (x.Valid → MembersOk x.members → r'.getLegacy x.id = .ok (some x)) ∧
    (∀ id, (∀ pk, idBytes id pre05 = .ok pk → c.get (pathL ++ [pk]) ≠ none →
        (maybeStr (curDict (c.get (pathL ++ [pk]))) [110]).isSome = true) →
      r'.getLegacy id = c.getLegacy id) := by
  have hn : ∀ _ : Bytes, ∃ s, ([110], some (.scalar (.str s))) ∈ x.fields := fun _ =>
    ⟨x.name.take 100, by unfold Legacy.fields; simp⟩
  have hc : Reach S c := (setRec_spec hS (by simp [pathL]) (fun _ => legacy_fields_nodup x)
    (fun _ => legacy_fields_wf hx)
    (fun pk => by obtain ⟨s, hs⟩ := hn pk; exact ⟨_, hs, rfl⟩) hc0 hset).1
  obtain ⟨_, hd, _⟩ := delivery_full hS hS' hc hr hp hs hk hst hknown hnc hov h
  rw [hm] at hd
  have hd : r'.conf.m.data = pruneD c.conf.m.data := hd
  have ht := (hc.inv hS).wf.data
  have h1 : ∀ id, SameRec pre05 id x.id → r'.getLegacy id = c.getLegacy id := fun id hid =>
    getRec_pruned ht hd Legacy.load_congr id fun pk hpk _ => ⟨[110], rec_has hS (by simp [pathL])
      (fun _ => legacy_fields_nodup x) (fun _ => legacy_fields_wf hx) hn hc0 hset hid hpk⟩
  refine ⟨h1, fun hv hmo => ?_,
    fun id hne => getRec_pruned ht hd Legacy.load_congr id fun pk hpk hn => ⟨[110], hne pk hpk hn⟩⟩
  obtain ⟨pk, hpk, _⟩ := setRec_ok hset
  rw [h1 _ (SameRec.refl hpk)]
  exact (legacy_set_get hS hc0 hx hmo hset).2.2.1 hv

theorem strOf_pruned {c r' : Client} (ht : typedD c.conf.m.data = true)
    (hd : r'.conf.m.data = pruneD c.conf.m.data) (p : List Bytes) :
    strOf (r'.get p) = strOf (c.get p) := by
  have hg : r'.get p = (c.get p).bind fun v => if v.prune.emptyVal then none else some v.prune := by
    unfold Client.get; rw [hd]; exact valAt_pruneD _ ht
  rw [hg]
  cases c.get p with
  | none => rfl
  | some v =>
    rw [Option.bind_some]
    cases v with
    | dict e => by_cases hh : (Val.dict e).prune.emptyVal = true <;> simp only [hh, if_true, if_false] <;> rfl
    | set s => by_cases hh : (Val.set s).prune.emptyVal = true <;> simp only [hh, if_true, if_false] <;> rfl
    | scalar x => rfl

theorem setUComm_name {S : Sys} (hS : S.Good) {c c' : Client} (hc : Reach S c) {x : Comm}
    (hx : x.info.inRange = true) {b r : Bytes} (hw : c.writeAll S (x.writes b r) = (c', .ok ())) :
    (maybeStr (curDict (c'.get (roomPath b r))) [110]).isSome = true := by
  have hpair : (x.writes b r).Pairwise fun a b => ¬ Nested a.1 b.1 := by
    unfold Comm.writes
    rw [List.pairwise_cons]
    refine ⟨fun w hm => ?_, entries_pairwise _ ?_⟩
    · obtain ⟨f, _, rfl⟩ := List.mem_map.1 hm
      exact key_not_room b b r [f.1]
    · simp only [GroupBase.fields, List.map_cons, List.map_nil, List.map_append]; decide
  obtain ⟨_, w2, _⟩ := writeAll_get hS _ hc (comm_writes_wf hx b r) hpair hw
  have hfield : c'.get (roomPath b r ++ [[110]]) = some (.scalar (.str x.room)) :=
    w2 (roomPath b r ++ [[110]], some (.scalar (.str x.room))) (by
      unfold Comm.writes
      exact List.mem_cons_of_mem _ (List.mem_map.2 ⟨([110], some (.scalar (.str x.room))), by simp, rfl⟩))
  obtain ⟨e, he, hn⟩ := get_dict (p := roomPath b r) (k := [110]) (by simp [roomPath]) hfield
  rw [he, show curDict (some (Val.dict e)) = e from rfl, maybeStr_of hn]
  rfl

/-- C88.  The same for communities; the ones stored by `set` have a field "n". -/
theorem ucomm_delivered {S : Sys} (hS : S.Good) {sg : Option (Bytes → Bytes)}
    (hS' : (S.as sg).Good) {c0 c r : Client} (hc0 : Reach S c0) {x : Comm}
    (hx : x.info.inRange = true) (hset : c0.setUComm S x = (c, .ok ()))
    (hr : Reach (S.as sg) r) {s : Int}
    {m : Bytes} {obs : List Bytes} (hp : (c.push S).2 = .ok (s, m, obs)) (hs : s ≠ 0)
    (hk : r.keys.head? = c.keys.head?) (hst : r.st ≠ .dirty)
    (hknown : r.seqno = 0 ∨
      ∀ M, parseMsg S.env false (c.plain S) = .ok M → Supersedes (S.as sg) M r)
    (hnc : S.env.H (c.plain S) = S.env.H (r.plain (S.as sg)) → c.plain S = r.plain (S.as sg))
    (hov : int64Ok (s + S.env.lag) = true) (h : Bytes)
    {r' : Client} {res : Out (List Bytes)} (hm : r.merge (S.as sg) [(h, m)] = (r', res)) :
    (∀ base room, SameComm base room x.base x.room → ∃ b, canonUrl x.base = .ok b ∧
      r'.getUComm base room = .ok (some ⟨b, x.room, x.pubkey, x.info.norm⟩)) ∧
    (∀ base room, (∀ b rm, canonUrl base = .ok b → canonRoom room = .ok rm → c.get (roomPath b rm) ≠ none →
        (maybeStr (curDict (c.get (roomPath b rm))) [110]).isSome = true) →
      r'.getUComm base room = c.getUComm base room) := by
  obtain ⟨hc, hget, _⟩ := ucomm_set_get hS hc0 hx hset
  obtain ⟨_, hd, _⟩ := delivery_full hS hS' hc hr hp hs hk hst hknown hnc hov h
  rw [hm] at hd
  have hd : r'.conf.m.data = pruneD c.conf.m.data := hd
  have ht := (hc.inv hS).wf.data
  have hgen : ∀ base room, (∀ b rm, canonUrl base = .ok b → canonRoom room = .ok rm →
        c.get (roomPath b rm) ≠ none → (maybeStr (curDict (c.get (roomPath b rm))) [110]).isSome = true) →
      r'.getUComm base room = c.getUComm base room := by
    intro base room hne
    unfold Client.getUComm
    cases hb : canonUrl base with
    | ok b =>
      cases hrm : canonRoom room with
      | ok rm =>
        show loadComm b room (r'.serverKey b) (r'.get (roomPath b rm)) = loadComm b room (c.serverKey b) (c.get (roomPath b rm))
        have hsk : r'.serverKey b = c.serverKey b := by
          unfold Client.serverKey; rw [strOf_pruned ht hd]
        rw [hsk]
        obtain ⟨p1, p2⟩ := get_pruned_rec ht hd (roomPath b rm)
        cases hv : c.get (roomPath b rm) with
        | none => rw [p1 hv]
        | some v =>
          have hk := hne b rm hb hrm (by rw [hv]; simp)
          rw [hv] at hk
          cases v with
          | dict e =>
            obtain ⟨e', he', hsr⟩ := p2 e [110] hv hk
            rw [he']
            simp only [loadComm, loadRoom, (hsr [110]).2.1, GroupBase.load_congr hsr]
          | set s => cases hk
          | scalar x => cases hk
      | err e => rfl
      | hang => rfl
      | ub => rfl
    | err e => rfl
    | hang => rfl
    | ub => rfl
  refine ⟨fun base room hsc => ?_, hgen⟩
  obtain ⟨b, hb, hg⟩ := hget base room hsc
  refine ⟨b, hb, ?_⟩
  rw [hgen base room ?_, hg]
  intro b' rm hb' hrm _
  -- the record has a name
  obtain ⟨b1, r1, k1, k2, hpk, hw⟩ := setUComm_ok hset
  obtain ⟨b2, r2, e1, e2, e3, e4⟩ := hsc
  rw [hb'] at e1; cases e1
  rw [hrm] at e3; cases e3
  rw [e2] at k1; cases k1
  rw [e4] at k2; cases k2
  exact setUComm_name hS hc0 hx hw

/-! ### Iteration over everything (C86) -/

/-- C86.  If all communities are stored as `set` stores them, `set` keeps it so. -/
theorem ucomm_set_canon {S : Sys} (hS : S.Good) {c c' : Client} (hc : Reach S c) {x : Comm}
    (hx : x.info.inRange = true) (h : c.setUComm S x = (c', .ok ())) (hcn : c.CanonRooms) : c'.CanonRooms := by
  obtain ⟨_, _, _, _, _, _, _, hn⟩ := ucomm_set_get hS hc hx h
  refine ⟨hn hcn.1, fun b' r' e he => ?_⟩
  obtain ⟨b, r, hb, hr, hpk, hw⟩ := setUComm_ok h
  have hpair : (x.writes b r).Pairwise fun a b => ¬ Nested a.1 b.1 := by
    unfold Comm.writes
    rw [List.pairwise_cons]
    refine ⟨fun w hm => ?_, entries_pairwise _ ?_⟩
    · obtain ⟨f, _, rfl⟩ := List.mem_map.1 hm
      exact key_not_room b b r [f.1]
    · simp only [GroupBase.fields, List.map_cons, List.map_nil, List.map_append]; decide
  obtain ⟨_, w2, w3⟩ := writeAll_get hS _ hc (comm_writes_wf hx b r) hpair hw
  by_cases heq : b = b' ∧ r = r'
  · obtain ⟨rfl, rfl⟩ := heq
    have hfield : c'.get (roomPath b r ++ [[110]]) = some (.scalar (.str x.room)) :=
      w2 (roomPath b r ++ [[110]], some (.scalar (.str x.room))) (by
        unfold Comm.writes
        exact List.mem_cons_of_mem _ (List.mem_map.2 ⟨([110], some (.scalar (.str x.room))), by simp, rfl⟩))
    rw [get_entry (by simp [roomPath]) he] at hfield
    exact ⟨x.room, by rw [maybeStr_of hfield]; rfl, hr⟩
  · refine hcn.2 b' r' e ?_
    rw [← he]
    refine (w3 _ fun w hm hn => ?_).symm
    unfold Comm.writes at hm
    rcases List.mem_cons.1 hm with rfl | hm
    · have := key_not_room b b' r' []
      rw [List.append_nil] at this
      exact this hn
    · obtain ⟨f, _, rfl⟩ := List.mem_map.1 hm
      exact heq (room_inj (nested_trans_left (List.prefix_append _ _) hn))

/-- C86.  Iterating over everything yields exactly the groups, communities and legacy groups, in this
order; `size` counts at least what the iteration yields of groups and legacy groups. -/
theorem all_groups_iter {S : Sys} (hS : S.Good) (pub : Bytes → Bytes) {c : Client} (hc : Reach S c)
    (hcn : c.CanonRooms) :
    (∀ g, .group g ∈ c.allGroups pub ↔ lower g.id = g.id ∧ c.getGroup pub g.id = .ok (some g)) ∧
    (∀ x, .comm x ∈ c.allGroups pub ↔ c.getUComm x.base x.room = .ok (some x) ∧ x.pubkey ≠ []) ∧
    (∀ g, .legacy g ∈ c.allGroups pub ↔ lower g.id = g.id ∧ c.getLegacy g.id = .ok (some g)) ∧
    (∃ l1 l2 l3, c.allGroups pub = l1 ++ l2 ++ l3 ∧ (∀ a ∈ l1, ∃ g, a = .group g) ∧
      (∀ a ∈ l2, ∃ x, a = .comm x) ∧ (∀ a ∈ l3, ∃ g, a = .legacy g) ∧
      l1.length ≤ c.groupsSize ∧ l3.length ≤ c.legacySize) := by
  obtain ⟨g1, _, g3, _⟩ := group_iter hS pub hc
  obtain ⟨k1, _, k3, _⟩ := legacy_iter hS hc
  have u1 := ucomm_iter hS hc hcn
  refine ⟨fun g => ?_, fun x => ?_, fun g => ?_, _, _, _, rfl, ?_, ?_, ?_, ?_, ?_⟩
  · rw [← g1]; unfold Client.allGroups; simp
  · rw [← u1]; unfold Client.allGroups; simp
  · rw [← k1]; unfold Client.allGroups; simp
  · intro a ha; obtain ⟨g, _, rfl⟩ := List.mem_map.1 ha; exact ⟨g, rfl⟩
  · intro a ha; obtain ⟨g, _, rfl⟩ := List.mem_map.1 ha; exact ⟨g, rfl⟩
  · intro a ha; obtain ⟨g, _, rfl⟩ := List.mem_map.1 ha; exact ⟨g, rfl⟩
  · rw [List.length_map]; exact g3
  · rw [List.length_map]; exact k3

theorem length_flatMap_le {α β : Type} (f : α → List β) (g : α → Nat) (l : List α) (h : ∀ x ∈ l, (f x).length ≤ g x) :
    (l.flatMap f).length ≤ (l.map g).sum := by
  induction l with
  | nil => simp
  | cons a l ih =>
    simp only [List.flatMap_cons, List.length_append, List.map_cons, List.sum_cons]
    have := ih fun x hx => h x (List.mem_cons_of_mem _ hx)
    have := h a (List.mem_cons_self ..)
    omega

theorem length_flatMap_eq {α β : Type} (f : α → List β) (g : α → Nat) (l : List α) (h : ∀ x ∈ l, (f x).length = g x) :
    (l.flatMap f).length = (l.map g).sum := by
  induction l with
  | nil => simp
  | cons a l ih =>
    simp only [List.flatMap_cons, List.length_append, List.map_cons, List.sum_cons]
    have := ih fun x hx => h x (List.mem_cons_of_mem _ hx)
    have := h a (List.mem_cons_self ..)
    omega

theorem length_filterMap_eq {α β : Type} (f : α → Option β) (l : List α) (h : ∀ x ∈ l, (f x).isSome = true) :
    (l.filterMap f).length = l.length := by
  induction l with
  | nil => rfl
  | cons a l ih =>
    obtain ⟨b, hb⟩ := Option.isSome_iff_exists.1 (h a (List.mem_cons_self ..))
    rw [List.filterMap_cons_some hb, List.length_cons, List.length_cons,
      ih fun x hx => h x (List.mem_cons_of_mem _ hx)]

/-- C86.  `size()` is at least the number of entries the iteration yields, and exactly that number if the
tables hold nothing but well-formed entries. -/
theorem all_groups_size {S : Sys} (hS : S.Good) (pub : Bytes → Bytes) {c : Client} (hc : Reach S c) :
    (c.allGroups pub).length ≤ c.allGroupsSize ∧
    ((∀ pk v, c.get (pathG ++ [pk]) = some v → pk.length = 33 ∧ pk.head? = some 3 ∧ ∃ e, v = .dict e) →
     (∀ pk v, c.get (pathL ++ [pk]) = some v → pk.length = 33 ∧ pk.head? = some 5 ∧ ∃ e, v = .dict e) →
     (∀ b pk, c.get (pathO ++ [b, [35]]) = some (.scalar (.str pk)) → pk.length = 32 ∧ ∃ x, canonUrl b = .ok x) →
     (∀ b r v, c.get (roomPath b r) = some v → (∃ x, canonRoom r = .ok x) ∧
       ∃ e, v = .dict e ∧ ∀ n, maybeStr e [110] = some n → ∃ x, canonRoom n = .ok x) →
     (c.allGroups pub).length = c.allGroupsSize) := by
  obtain ⟨_, _, g3, g4⟩ := group_iter hS pub hc
  obtain ⟨_, _, k3, k4⟩ := legacy_iter hS hc
  have hlen : (c.allGroups pub).length = (c.groups pub).length + c.ucomms.length + c.legacies.length := by
    simp [Client.allGroups, Nat.add_assoc]
  rw [hlen]
  unfold Client.allGroupsSize
  refine ⟨?_, fun hg hl ho hr => ?_⟩
  · have : c.ucomms.length ≤ c.commSize := by
      refine length_flatMap_le _ _ _ fun x _ => ?_
      obtain ⟨b, v⟩ := x
      unfold userverEntry serverSize
      cases v with
      | dict e =>
        dsimp only
        cases hk : maybeStr e [35] with
        | none => exact Nat.zero_le _
        | some pk =>
          cases hR : mget [82] e with
          | none => exact Nat.zero_le _
          | some w =>
            cases w with
            | dict rooms => exact List.length_filterMap_le ..
            | _ => exact Nat.zero_le _
      | _ => exact Nat.zero_le _
    omega
  · have : c.ucomms.length = c.commSize := by
      refine length_flatMap_eq _ _ _ fun x hx => ?_
      obtain ⟨b, v⟩ := x
      have hm := hx
      rw [← mget_iff_mem (table_sorted hS hc pathO), table_mget pathO_ne] at hm
      cases v with
      | dict e =>
        have hsub : ∀ k, c.get (pathO ++ [b, k]) = mget k e := by
          intro k
          have := get_entry (by simp) hm k
          rw [List.append_assoc] at this; exact this
        unfold userverEntry serverSize
        dsimp only
        cases hk : maybeStr e [35] with
        | none => rfl
        | some pk =>
          cases hR : mget [82] e with
          | none => rfl
          | some w =>
            cases w with
            | dict rooms =>
              dsimp only
              have h35 : c.get (pathO ++ [b, [35]]) = some (.scalar (.str pk)) := by
                rw [hsub]
                unfold maybeStr at hk
                split at hk <;> simp_all
              obtain ⟨o1, u, o2⟩ := ho b pk h35
              refine length_filterMap_eq _ _ fun y hy => ?_
              obtain ⟨r, w⟩ := y
              have hrr : c.get (pathO ++ [b, [82]]) = some (.dict rooms) := by rw [hsub, hR]
              have hroom : c.get (roomPath b r) = some w := by
                have := get_entry (by simp) hrr r
                rw [show roomPath b r = pathO ++ [b, [82]] ++ [r] by simp [roomPath], this]
                have hs := table_sorted hS hc (pathO ++ [b, [82]])
                unfold Client.table at hs
                rw [hrr] at hs
                exact (mget_iff_mem hs).2 hy
              obtain ⟨⟨x, hx⟩, d, rfl, hn⟩ := hr b r w hroom
              unfold uroomEntry
              simp only [o2, hx]
              rw [if_pos o1]
              unfold loadComm loadRoom
              cases hd : maybeStr d [110] with
              | none => simp only [hd, Out.bind]; rfl
              | some n =>
                obtain ⟨z, hz⟩ := hn n hd
                simp only [hd, hz, Out.bind]; rfl
            | _ => rfl
      | _ => rfl
    rw [g4 hg, k4 hl, this]; omega

/-! ### Through the C structs (C89) -/

theorem canon_no_nul {b : Bytes} (h : canonUrl b = .ok b) : (0 : UInt8) ∉ b ∧ b.length ≤ 267 := by
  rw [canonical_url_iff] at h
  obtain ⟨p, h, s, n, sl, _, hp, hh, hs, _, hv, hlen⟩ := h
  refine ⟨?_, hlen⟩
  have hc := host_chars hh
  rw [hv]
  intro hm
  rcases List.mem_append.1 hm with hm | hm
  · rcases List.mem_append.1 hm with hm | hm
    · rcases List.mem_append.1 hm with hm | hm
      · rcases hp with hp | hp <;> rw [hp] at hm <;> revert hm <;> decide
      · revert hm; decide
    · rcases hc 0 hm with h | h <;> revert h <;> decide
  · split at hm
    · simp at hm
    · rcases List.mem_cons.1 hm with h | hm
      · revert h; decide
      · have := natDigits_digits n 0 hm
        revert this; decide

theorem room_no_nul {r v : Bytes} (h : canonRoom r = .ok v) : (0 : UInt8) ∉ r ∧ r.length ≤ 64 := by
  rw [canonical_room_iff] at h
  refine ⟨fun hm => ?_, h.2.2.1⟩
  have := h.2.2.2 (lowerC 0) (List.mem_map.2 ⟨0, hm, rfl⟩)
  revert this; decide

/-- C89.  A community of a server with a key, as `get_community` returns it, goes through the C struct
unchanged. -/
theorem ucomm_via_c {c : Client} {base room : Bytes} {x : Comm} (h : c.getUComm base room = .ok (some x))
    (hk : x.pubkey ≠ []) : x.viaC = .ok x := by
  unfold Client.getUComm at h
  cases hb : canonUrl base <;> rw [hb] at h <;> try cases h
  rename_i b
  cases hr : canonRoom room <;> rw [hr] at h <;> try cases h
  rename_i r
  have h : loadComm b room (c.serverKey b) (c.get (roomPath b r)) = .ok (some x) := h
  have hx : x.base = b ∧ x.pubkey = c.serverKey b ∧ ∃ v, canonRoom x.room = .ok v := by
    unfold loadComm at h
    split at h
    · rename_i e _
      unfold loadRoom at h
      cases hn : maybeStr e [110] with
      | none =>
        rw [hn] at h
        have := Option.some.inj (Out.ok.inj h)
        subst this
        exact ⟨rfl, rfl, r, hr⟩
      | some n =>
        rw [hn] at h
        cases hc : canonRoom n <;> simp only [hc] at h <;> try cases h
        exact ⟨rfl, rfl, _, hc⟩
    · cases h
  obtain ⟨x1, x2, v, x3⟩ := hx
  have hb' : canonUrl x.base = .ok x.base := by rw [x1]; exact canonical_url_idem _ _ hb
  obtain ⟨n1, n2⟩ := canon_no_nul hb'
  obtain ⟨m1, m2⟩ := room_no_nul x3
  have hl : x.pubkey.length = 32 := by
    rw [x2] at hk ⊢
    unfold Client.serverKey at hk ⊢
    split at hk
    · split at hk
      · rename_i hl; rw [if_pos hl]; exact hl
      · exact absurd rfl hk
    · exact absurd rfl hk
  unfold Comm.viaC
  have e1 : copyCStr 268 x.base = .ok x.base := by unfold copyCStr; rw [if_pos (by omega)]
  have e2 : copyCStr 65 x.room = .ok x.room := by unfold copyCStr; rw [if_pos (by omega)]
  rw [e1, e2]
  simp only [Out.bind_ok]
  rw [if_neg (by omega), cStr_of_clean n1, cStr_of_clean m1, hb', x3]
  simp only [Out.bind_ok]
  rw [← hl, List.take_length]

/-- C89, what holds.  A group or legacy group with a name of at most 100 bytes without NUL, and whose
keys are as `get` returns them, goes through the C struct unchanged. -/
theorem group_via_c_partial {pub : Bytes → Bytes} (hpub : ∀ s, (pub s).length = 32) {g : Group}
    (hg : g.Sound pub) (hn : g.name.length ≤ 100) (h0 : (0 : UInt8) ∉ g.name) :
    g.viaC = .ok g := by
  have c1 : copyCStr 101 g.name = .ok g.name := by unfold copyCStr; rw [if_pos (by omega)]
  unfold Group.viaC
  rw [c1]
  simp only [Out.bind_ok, cStr_of_clean h0]
  have h1 : (if g.secret.length = 64 then g.secret else []) = g.secret := by
    by_cases hs : g.secret = []
    · rw [hs]; rfl
    · obtain ⟨seed, s1, s2, _⟩ := hg.secret hs
      rw [if_pos]
      rw [s2, List.length_append, s1, hpub]
  have h2 : (if g.auth.length = 100 then g.auth else []) = g.auth := by
    rcases hg.auth with h | h
    · rw [h]; rfl
    · rw [if_pos h]
  rw [h1, h2]

theorem legacy_via_c_partial {g : Legacy} (hg : g.Sound) (hn : g.name.length ≤ 100) (h0 : (0 : UInt8) ∉ g.name) :
    g.viaC = .ok g := by
  have c1 : copyCStr 101 g.name = .ok g.name := by unfold copyCStr; rw [if_pos (by omega)]
  unfold Legacy.viaC
  rw [c1]
  simp only [Out.bind_ok, cStr_of_clean h0]
  rcases hg.pair with ⟨a, b⟩ | ⟨a, b⟩
  · simp [a, b]
  · cases g; simp_all

theorem copyCStr_ok {n : Nat} {s t : Bytes} (h : copyCStr n s = .ok t) : t = s ∧ s.length < n := by
  unfold copyCStr at h
  split at h
  · cases h; exact ⟨rfl, ‹_›⟩
  · cases h

/-- C89, for every record, also one another device stored: what comes back out of the C struct is the same but for what follows
a NUL in the name and for keys of a wrong length. -/
theorem ugroups_via_c_sound :
    (∀ g g' : Group, g.viaC = .ok g' → g'.id = g.id ∧ g'.base = g.base ∧ g'.name = g.name.takeWhile (· ≠ 0) ∧
      (g.secret.length = 64 → g'.secret = g.secret) ∧ (g.secret.length ≠ 64 → g'.secret = []) ∧
      (g.auth.length = 100 → g'.auth = g.auth) ∧ (g.auth.length ≠ 100 → g'.auth = [])) ∧
    (∀ g g' : Legacy, g.viaC = .ok g' → g'.id = g.id ∧ g'.base = g.base ∧ g'.name = g.name.takeWhile (· ≠ 0) ∧
      g'.timer = g.timer ∧ g'.members = g.members ∧
      ((g'.encPub = g.encPub ∧ g'.encSec = g.encSec ∧ g'.encPub.length = 32 ∧ g'.encSec.length = 32) ∨
       (g'.encPub = [] ∧ g'.encSec = [] ∧ ¬ (g.encPub.length = 32 ∧ g.encSec.length = 32)))) := by
  refine ⟨fun g g' h => ?_, fun g g' h => ?_⟩
  · unfold Group.viaC at h
    obtain ⟨n, hn, h⟩ := Out.bind_eq_ok.1 h
    cases h
    obtain ⟨rfl, _⟩ := copyCStr_ok hn
    exact ⟨rfl, rfl, rfl, fun h => if_pos h, fun h => if_neg h, fun h => if_pos h, fun h => if_neg h⟩
  · unfold Legacy.viaC at h
    obtain ⟨n, hn, h⟩ := Out.bind_eq_ok.1 h
    cases h
    obtain ⟨rfl, _⟩ := copyCStr_ok hn
    refine ⟨rfl, rfl, rfl, rfl, rfl, ?_⟩
    by_cases hp : g.encPub.length = 32 ∧ g.encSec.length = 32
    · left; simp [hp.1, hp.2]
    · right
      refine ⟨?_, ?_, hp⟩
      all_goals exact if_neg (by simpa using hp)

/-- C89, what does not hold: a name of more than 100 bytes, which `get` returns if another device stored
it, makes the conversion write out of bounds, and a community of a server without a (32-byte) key makes
it read out of bounds. -/
theorem ugroups_via_c_fails :
    (∀ g : Group, 100 < g.name.length → g.viaC = .ub) ∧
    (∀ g : Legacy, 100 < g.name.length → g.viaC = .ub) ∧
    (∀ x : Comm, x.base.length ≤ 267 → x.room.length ≤ 64 → x.pubkey.length < 32 → x.viaC = .ub) := by
  refine ⟨fun g h => ?_, fun g h => ?_, fun x h1 h2 h3 => ?_⟩
  · unfold Group.viaC
    have : copyCStr 101 g.name = .ub := by unfold copyCStr; rw [if_neg (by omega)]
    rw [this]; rfl
  · unfold Legacy.viaC
    have : copyCStr 101 g.name = .ub := by unfold copyCStr; rw [if_neg (by omega)]
    rw [this]; rfl
  · unfold Comm.viaC
    have e1 : copyCStr 268 x.base = .ok x.base := by unfold copyCStr; rw [if_pos (by omega)]
    have e2 : copyCStr 65 x.room = .ok x.room := by unfold copyCStr; rw [if_pos (by omega)]
    rw [e1, e2]
    simp only [Out.bind_ok]
    rw [if_pos h3]

end Verif
