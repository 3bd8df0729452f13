import Verif.RecTable

/-!
# Groups: C83, C84, C86
-/

namespace Verif

/-! ### The common fields -/

/-- What is stored of the common fields: negative times are dropped. -/
def GroupBase.norm (b : GroupBase) : GroupBase :=
  { b with joined := max 0 b.joined, mute := max 0 b.mute }

/-- No negative times -/
def GroupBase.Valid (b : GroupBase) : Prop := 0 ≤ b.joined ∧ 0 ≤ b.mute

theorem GroupBase.Valid.norm_eq {b : GroupBase} (h : b.Valid) : b.norm = b := by
  unfold GroupBase.norm
  rw [max_eq_right h.1, max_eq_right h.2]

theorem Notify.loadAny_num (n : Notify) : Notify.loadAny (toInt32 (max n.num 0)) = n := by
  cases n <;> decide +kernel

theorem base_load {b : GroupBase} (hr : b.inRange = true) {e : Dict}
    (h : ∀ f ∈ b.fields, mget f.1 e = f.2) : GroupBase.load e = b.norm := by
  simp only [GroupBase.fields, List.mem_cons, List.not_mem_nil, or_false, forall_eq_or_imp,
    forall_eq] at h
  obtain ⟨h1, h2, h3, h4, h5⟩ := h
  simp only [GroupBase.inRange, Bool.and_eq_true] at hr
  have flag : ∀ b : Bool, ((if b then (1 : Int) else 0) != 0) = b := by decide
  unfold GroupBase.load GroupBase.norm
  simp only [read_nonzero h1, read_pos h2, read_pos h3, read_pos h4, read_flag h5, flag,
    toInt32_of_ok hr.1.1, Notify.loadAny_num]
  congr 1
  · omega
  · omega

theorem base_fields_wf {b : GroupBase} (h : b.inRange = true) : ∀ f ∈ b.fields, wfO f.2 = true := by
  simp only [GroupBase.inRange, Bool.and_eq_true] at h
  simp only [GroupBase.fields, List.mem_cons, List.not_mem_nil, or_false, forall_eq_or_imp,
    forall_eq]
  refine ⟨wfO_nonzero (int32_int64 h.1.1), wfO_pos h.1.2, wfO_pos ?_, wfO_pos h.2, wfO_flag _⟩
  cases b.notify <;> decide

/-! ### Groups -/

/-- The secret key of the group: a 32-byte seed followed by its public key, which is the group's id. -/
def Group.Genuine (pub : Bytes → Bytes) (g : Group) : Prop :=
  ∃ seed, seed.length = 32 ∧ g.secret = seed ++ pub seed ∧ lower g.id = toHex (3 :: pub seed)

/-- The second half of the 64-byte secret key is the public key in the group's id. -/
def Group.LooksAdmin (g : Group) : Prop :=
  g.secret.length = 64 ∧ lower g.id = toHex (3 :: g.secret.drop 32)

theorem group_fields_nodup (pk : Bytes) (g : Group) : ((g.fields pk).map (·.1)).Nodup := by
  unfold Group.fields
  simp only [GroupBase.fields]
  split <;> simp only [List.map_cons, List.map_nil, List.map_append] <;> decide

theorem group_fields_wf {g : Group} (h : g.base.inRange = true) (pk : Bytes) :
    ∀ f ∈ g.fields pk, wfO f.2 = true := by
  unfold Group.fields
  intro f hf
  rcases List.mem_append.1 hf with hf | hf
  · exact base_fields_wf h f hf
  · rcases List.mem_cons.1 hf with rfl | hf
    · exact wfO_nestr _
    · split at hf
      · rw [List.mem_singleton] at hf; subst hf; exact wfO_str _
      · rcases List.mem_cons.1 hf with rfl | hf
        · exact wfO_str _
        · rw [List.mem_singleton] at hf; subst hf; exact wfO_if _ rfl

theorem group_fields_K (g : Group) (pk : Bytes) : ∃ s, ([75], some (.scalar (.str s))) ∈ g.fields pk := by
  unfold Group.fields
  split
  · exact ⟨g.secret.take 32, List.mem_append_right _ (by simp)⟩
  · exact ⟨[], List.mem_append_right _ (by simp)⟩

theorem pk_cons {id pk : Bytes} (h : idBytes id pre03 = .ok pk) : pk = 3 :: pk.drop 1 := by
  have := idBytes_head03 h
  cases pk with
  | nil => cases this
  | cons a t => simp only [List.head?_cons, Option.some.injEq] at this; subst this; rfl

theorem lower_id {id pk pre : Bytes} (h : idBytes id pre = .ok pk) : lower id = toHex pk := by
  obtain ⟨e1, e2, _⟩ := idBytes_ok h
  rw [e1, toHex_fromHex _ e2]

theorem toHex_inj {a b : Bytes} (h : toHex a = toHex b) : a = b := by
  rw [← fromHex_toHex a, h, fromHex_toHex]

theorem admin_iff {g : Group} {pk : Bytes} (h : idBytes g.id pre03 = .ok pk) :
    g.admin pk = true ↔ g.LooksAdmin := by
  unfold Group.admin Group.LooksAdmin
  rw [lower_id h, Bool.and_eq_true, beq_iff_eq, beq_iff_eq]
  constructor
  · rintro ⟨h1, h2⟩; exact ⟨h1, by rw [h2, ← pk_cons h]⟩
  · rintro ⟨h1, h2⟩
    refine ⟨h1, ?_⟩
    rw [toHex_inj h2]; rfl

theorem Group.Genuine.looks {pub : Bytes → Bytes} (hpub : ∀ s, (pub s).length = 32) {g : Group}
    (h : g.Genuine pub) : g.LooksAdmin := by
  obtain ⟨seed, h1, h2, h3⟩ := h
  refine ⟨by rw [h2, List.length_append, h1, hpub], ?_⟩
  rw [h3, h2, ← h1, List.drop_left]

/-- C83.  After `set(g)` the group reads back, under every spelling of its id, with

* the common fields, without negative times, and the name, cut to 100 bytes;
* the secret key if it is the group's key *and* the id is asked for in lower case, otherwise none;
* the authentication data given (if it has 100 bytes, otherwise none), unless the secret key ends with
  the group's public key: then the authentication data is what it was before;

every other group, every field that this version does not know, and everything outside the groups is
as before, and there is one group more exactly if it was new. -/
theorem group_set_get {S : Sys} (hS : S.Good) {pub : Bytes → Bytes} (hpub : ∀ s, (pub s).length = 32)
    {c c' : Client} (hc : Reach S c) {g : Group} (hr : g.base.inRange = true)
    (h : c.setGroup S g = (c', .ok ())) :
    Reach S c' ∧
    (∀ id, SameRec pre03 id g.id → ∃ secret auth old,
      c'.getGroup pub id = .ok (some ⟨id, g.base.norm, g.name.take 100, secret, auth⟩) ∧
      c.groupOr pub id = .ok old ∧
      (g.Genuine pub → lower id = id → secret = g.secret) ∧
      (¬ (g.Genuine pub ∧ lower id = id) → secret = []) ∧
      (g.LooksAdmin → auth = old.auth) ∧
      (¬ g.LooksAdmin → g.auth.length = 100 → auth = g.auth) ∧
      (¬ g.LooksAdmin → g.auth.length ≠ 100 → auth = [])) ∧
    (∀ id, ¬ SameRec pre03 id g.id → c'.getGroup pub id = c.getGroup pub id) ∧
    (∀ k, k ∉ [[43], [106], [64], [33], [105], [110], [75], [115]] →
      c'.get (pathG ++ [fromHex g.id] ++ [k]) = c.get (pathG ++ [fromHex g.id] ++ [k])) ∧
    (∀ q, ¬ Nested pathG q → c'.get q = c.get q) ∧
    c'.groupsSize = c.groupsSize + (if (c.get (pathG ++ [fromHex g.id])).isSome then 0 else 1) := by
  obtain ⟨h1, pk, hpk, ⟨e, he, hf⟩, h3, h4, h5, h6⟩ := setRec_spec hS (by simp [pathG])
    (fun pk => group_fields_nodup pk g) (fun pk => group_fields_wf hr pk)
    (fun pk => by obtain ⟨s, hs⟩ := group_fields_K g pk; exact ⟨_, hs, rfl⟩) hc h
  have hpk' := (idBytes_ok hpk).1
  refine ⟨h1, ?_, fun id hid => setRec_other hpk h4 hid, ?_, h5, ?_⟩
  · rintro id ⟨pk', i1, i2⟩
    rw [hpk] at i2; cases i2
    have hlow : lower id = toHex pk := lower_id i1
    have hlg : lower g.id = toHex pk := lower_id hpk
    have hpc := pk_cons hpk
    have hold : c.groupOr pub id = .ok ((loadAt (Group.load pub id) (c.get (pathG ++ [pk]))).getD { id := id }) := by
      unfold Client.groupOr Client.getGroup
      rw [getRec_eq i1]; rfl
    refine ⟨loadSecret pub id e, loadAuth e, _, ?_, hold, ?_⟩
    · unfold Client.getGroup
      rw [getRec_eq i1, he]
      have hb : GroupBase.load e = g.base.norm :=
        base_load hr fun f hm => hf f (by unfold Group.fields; exact List.mem_append_left _ hm)
      have hn : (maybeStr e [110]).getD [] = g.name.take 100 :=
        read_str (hf ([110], fStr (g.name.take 100)) (by unfold Group.fields; simp))
      simp only [loadAt, Group.load, hb, hn]
    · -- the stored seed
      have hKa : g.admin pk = true → maybeStr e [75] = some (g.secret.take 32) := by
        intro ha
        have := hf ([75], some (.scalar (.str (g.secret.take 32)))) (by unfold Group.fields; rw [if_pos ha]; simp)
        rw [maybeStr_of this]; rfl
      have hKn : g.admin pk = false → maybeStr e [75] = some [] := by
        intro ha
        have := hf ([75], some (.scalar (.str []))) (by unfold Group.fields; rw [if_neg (by simp [ha])]; simp)
        rw [maybeStr_of this]; rfl
      have hgen : g.Genuine pub → g.admin pk = true ∧ pub (g.secret.take 32) = pk.drop 1 ∧
          (g.secret.take 32).length = 32 ∧ g.secret = g.secret.take 32 ++ pub (g.secret.take 32) := by
        intro hg
        have hl := (admin_iff hpk).2 (hg.looks hpub)
        obtain ⟨seed, s1, s2, s3⟩ := hg
        have ht : g.secret.take 32 = seed := by rw [s2, ← s1, List.take_left]
        refine ⟨hl, ?_, by rw [ht, s1], by rw [ht, s2]⟩
        rw [ht]
        rw [hlg] at s3
        rw [toHex_inj s3]; rfl
      refine ⟨fun hg hlo => ?_, fun hn => ?_, fun hl => ?_, fun hl ha => ?_, fun hl ha => ?_⟩
      · obtain ⟨g1, g2, g3, g4⟩ := hgen hg
        unfold loadSecret
        rw [hKa g1]
        simp only
        rw [if_pos ⟨g3, by rw [g2, ← hpc, ← hlow, hlo]⟩]
        exact g4.symm
      · unfold loadSecret
        cases ha : g.admin pk with
        | true =>
          rw [hKa ha]
          simp only
          rw [if_neg]
          rintro ⟨k1, k2⟩
          apply hn
          have hid : id = toHex pk := by
            have h2 : lower id = id := by rw [k2, toHex_lower]
            rw [← h2, hlow]
          have hpp : pub (g.secret.take 32) = pk.drop 1 := by
            rw [hid] at k2; rw [toHex_inj k2]; rfl
          refine ⟨⟨g.secret.take 32, k1, ?_, ?_⟩, by rw [hid, toHex_lower]⟩
          · simp only [Group.admin, Bool.and_eq_true, beq_iff_eq] at ha
            rw [hpp, ← ha.2, List.take_append_drop]
          · rw [hlg, hpp, ← hpc]
        | false => rw [hKn ha]; rfl
      · have ha := (admin_iff hpk).2 hl
        have hs := h3 [115] (by
          unfold Group.fields; rw [if_pos ha]
          simp only [GroupBase.fields, List.map_cons, List.map_nil, List.map_append]; decide)
        rw [get_entry (by simp) he] at hs
        unfold loadAuth maybeStr
        rw [hs]
        cases hv : c.get (pathG ++ [pk]) with
        | none =>
          have : c.get (pathG ++ [pk] ++ [[115]]) = none := by
            unfold Client.get at hv ⊢
            rw [valAt_snoc _ _ _ (by simp), hv]; rfl
          rw [this]; rfl
        | some v =>
          cases v with
          | dict e0 => rw [get_entry (by simp) hv]; rfl
          | set s =>
            have : c.get (pathG ++ [pk] ++ [[115]]) = none := by
              unfold Client.get at hv ⊢
              rw [valAt_snoc _ _ _ (by simp), hv]; rfl
            rw [this]; rfl
          | scalar x =>
            have : c.get (pathG ++ [pk] ++ [[115]]) = none := by
              unfold Client.get at hv ⊢
              rw [valAt_snoc _ _ _ (by simp), hv]; rfl
            rw [this]; rfl
      · have hna : ¬ g.admin pk = true := fun hh => hl ((admin_iff hpk).1 hh)
        have := hf ([115], fIf (g.auth.length == 100) (.str g.auth)) (by
          unfold Group.fields; rw [if_neg hna]; simp)
        unfold loadAuth
        rw [maybeStr_of this]
        simp [fIf, ha, strOf]
      · have hna : ¬ g.admin pk = true := fun hh => hl ((admin_iff hpk).1 hh)
        have := hf ([115], fIf (g.auth.length == 100) (.str g.auth)) (by
          unfold Group.fields; rw [if_neg hna]; simp)
        unfold loadAuth
        rw [maybeStr_of this]
        simp [fIf, ha, strOf]
  · intro k hk
    rw [← hpk']
    refine h3 k fun hm => hk ?_
    have : ∀ f ∈ g.fields pk, f.1 ∈ ([[43], [106], [64], [33], [105], [110], [75], [115]] : List Bytes) := by
      unfold Group.fields
      intro f hf
      rcases List.mem_append.1 hf with hf | hf
      · simp only [GroupBase.fields, List.mem_cons, List.not_mem_nil, or_false] at hf
        rcases hf with rfl | rfl | rfl | rfl | rfl <;> simp
      · rcases List.mem_cons.1 hf with rfl | hf
        · simp
        · split at hf
          · rw [List.mem_singleton] at hf; subst hf; simp
          · rcases List.mem_cons.1 hf with rfl | hf
            · simp
            · rw [List.mem_singleton] at hf; subst hf; simp
    obtain ⟨f, hf, rfl⟩ := List.mem_map.1 hm
    exact this f hf
  · unfold Client.groupsSize
    rw [h6, ← hpk']

/-- C83.  `set` throws exactly on an invalid id or (leaving the object as it was) if the object cannot
be modified. -/
theorem group_set_error {S : Sys} (hS : S.Good) {c : Client} (hc : Reach S c) {g : Group}
    (hr : g.base.inRange = true) :
    ((c.setGroup S g).2 ≠ .ok () → (c.setGroup S g).1 = c) ∧
    (checkId g.id pre03 = false → (c.setGroup S g).2 = .err .foreign) ∧
    (checkId g.id pre03 = true → S.env.readonly = false → int64Ok (c.seqno + 1) = true →
      (c.setGroup S g).2 = .ok ()) :=
  setRec_error hS (fun pk => group_fields_wf hr pk) hc

/-- C83.  `erase_group` reports whether the group was there; afterwards it is not; everything else is as
before. -/
theorem group_erase {S : Sys} (hS : S.Good) (pub : Bytes → Bytes) {c c' : Client} (hc : Reach S c)
    {id : Bytes} {b : Bool} (h : c.eraseGroup S id = (c', .ok b)) :
    Reach S c' ∧ (∀ id', SameRec pre03 id' id → c'.getGroup pub id' = .ok none) ∧
    (∀ id', ¬ SameRec pre03 id' id → c'.getGroup pub id' = c.getGroup pub id') ∧
    (∀ q, ¬ Nested pathG q → c'.get q = c.get q) ∧
    (c.getGroup pub id ≠ .ok none → b = true) ∧
    c.groupsSize = c'.groupsSize + (if b then 1 else 0) :=
  eraseRec_spec hS (by simp [pathG]) (Group.load pub) hc h

/-- C83.  A group marked as kicked and set reads back as kicked, whatever was stored before; a group
created with `create_group` and set reads back as it is, if it is new. -/
theorem group_kicked {S : Sys} (hS : S.Good) {pub : Bytes → Bytes} (hpub : ∀ s, (pub s).length = 32)
    {c c' : Client} (hc : Reach S c) {g : Group} (hr : g.base.inRange = true)
    (h : c.setGroup S g.setKicked = (c', .ok ())) :
    ∃ g', c'.getGroup pub g.id = .ok (some g') ∧ g'.kicked = true ∧ g'.base = g.base.norm := by
  obtain ⟨pk, hpk, _⟩ := setRec_ok h
  obtain ⟨_, h2, _⟩ := group_set_get hS hpub hc (g := g.setKicked) hr h
  obtain ⟨sec, auth, old, e1, _, _, e3, _, _, e6⟩ := h2 g.id (SameRec.refl hpk)
  have hl : ¬ g.setKicked.LooksAdmin := by
    rintro ⟨h1, _⟩
    cases h1
  have hs : sec = [] := e3 fun hh => hl (hh.1.looks hpub)
  have ha : auth = [] := e6 hl (by simp [Group.setKicked])
  exact ⟨_, e1, by rw [hs, ha]; rfl, rfl⟩

theorem group_created {S : Sys} (hS : S.Good) {pub : Bytes → Bytes} (hpub : ∀ s, (pub s).length = 32)
    {c c' : Client} (hc : Reach S c) {seed : Bytes} (hs : seed.length = 32)
    (hnew : c.getGroup pub (newGroup pub seed).id = .ok none)
    (h : c.setGroup S (newGroup pub seed) = (c', .ok ())) :
    c'.getGroup pub (newGroup pub seed).id = .ok (some (newGroup pub seed)) ∧
    ∀ s, (newGroup pub s).kicked = false := by
  obtain ⟨pk, hpk, _⟩ := setRec_ok h
  obtain ⟨_, h2, _⟩ := group_set_get hS hpub hc (g := newGroup pub seed) rfl h
  obtain ⟨sec, auth, old, e1, e2, e3, _, e5, _⟩ := h2 _ (SameRec.refl hpk)
  have hg : (newGroup pub seed).Genuine pub := ⟨seed, hs, rfl, toHex_lower _⟩
  rw [e3 hg (toHex_lower _), e5 (hg.looks hpub)] at e1
  have ho : old = { id := (newGroup pub seed).id } := by
    unfold Client.groupOr at e2
    rw [hnew] at e2
    exact (Out.ok.inj e2).symm
  rw [ho] at e1
  refine ⟨e1, fun s => ?_⟩
  unfold Group.kicked newGroup
  have : ∀ l : Bytes, (l ++ pub s).isEmpty = false := by
    intro l
    have h1 := hpub s
    cases hp : l ++ pub s with
    | nil =>
      have := congrArg List.length hp
      rw [List.length_append, h1] at this
      simp at this
    | cons a t => rfl
  simp only [this, Bool.false_and]

/-! ### Legacy groups -/

/-- Every key of the map is a session id (as `insert` makes sure), and the map is a map. -/
def MembersOk (m : Members) : Prop := KSorted m ∧ ∀ x ∈ m, checkId x.1 pre05 = true

theorem insertMember_ok {m m' : Members} {id : Bytes} {adm b : Bool} (hm : MembersOk m)
    (h : insertMember m id adm = .ok (m', b)) : MembersOk m' ∧ mget id m' = some adm ∧
      (∀ id', id' ≠ id → mget id' m' = mget id' m) ∧ (b = true ↔ mget id m ≠ some adm) := by
  unfold insertMember at h
  split at h
  · rename_i hc
    split at h
    · rename_i he
      obtain ⟨rfl, rfl⟩ := Prod.mk.inj (Out.ok.inj h)
      exact ⟨hm, he, fun _ _ => rfl, by simp [he]⟩
    · rename_i he
      obtain ⟨rfl, rfl⟩ := Prod.mk.inj (Out.ok.inj h)
      refine ⟨⟨hm.1.mput _ _, fun x hx => ?_⟩, by rw [mget_mput hm.1, if_pos rfl], fun id' hne => ?_, by simp [he]⟩
      · rcases mem_mput hx with rfl | hx
        · exact hc
        · exact hm.2 x hx
      · rw [mget_mput hm.1, if_neg hne]
  · cases h

theorem eraseMember_ok {m : Members} {id : Bytes} (hm : MembersOk m) :
    MembersOk (eraseMember m id).1 ∧ mget id (eraseMember m id).1 = none ∧
      (∀ id', id' ≠ id → mget id' (eraseMember m id).1 = mget id' m) ∧
      ((eraseMember m id).2 = true ↔ mget id m ≠ none) := by
  unfold eraseMember
  refine ⟨⟨hm.1.mdel _, fun x hx => hm.2 x (mem_mdel hx)⟩, ?_, fun id' hne => ?_, ?_⟩
  · rw [mget_mdel hm.1, if_pos rfl]
  · rw [mget_mdel hm.1, if_neg hne]
  · rw [Option.isSome_iff_ne_none]

theorem emplace_spec {m : Members} (hm : KSorted m) (id : Bytes) (adm : Bool) :
    KSorted (emplace m id adm) ∧ ∀ k, mget k (emplace m id adm) =
      (mget k m).or (if k = id then some adm else none) := by
  unfold emplace
  by_cases hs : (mget id m).isSome = true
  · rw [if_pos hs]
    refine ⟨hm, fun k => ?_⟩
    cases hk : mget k m with
    | some v => rfl
    | none =>
      rw [Option.none_or, if_neg]
      rintro rfl; rw [hk] at hs; cases hs
  · rw [if_neg hs]
    refine ⟨hm.mput _ _, fun k => ?_⟩
    rw [mget_mput hm]
    by_cases hk : k = id
    · subst hk
      rw [Bool.not_eq_true, Option.isSome_eq_false_iff, Option.isNone_iff_eq_none] at hs
      rw [if_pos rfl, if_pos rfl, hs]; rfl
    · rw [if_neg hk, if_neg hk, Option.or_none]

theorem loadSet_spec {m : Members} (hm : KSorted m) (adm : Bool) (s : Option (List Scalar)) :
    KSorted (loadSet m adm s) ∧ ∀ k, mget k (loadSet m adm s) =
      (mget k m).or (if ∃ x ∈ s.getD [], memberId x = some k then some adm else none) := by
  unfold loadSet
  have hex : ∀ k, (∃ x ∈ s.getD [], memberId x = some k) ↔ k ∈ (s.getD []).filterMap memberId := by
    intro k; rw [List.mem_filterMap]
  simp only [hex]
  generalize (s.getD []).filterMap memberId = l
  induction l generalizing m with
  | nil => exact ⟨hm, fun k => by simp⟩
  | cons a t ih =>
    obtain ⟨e1, e2⟩ := emplace_spec hm a adm
    obtain ⟨i1, i2⟩ := ih e1
    refine ⟨i1, fun k => ?_⟩
    rw [List.foldl_cons, i2 k, e2 k]
    cases mget k m with
    | some v => rfl
    | none =>
      rw [Option.none_or, Option.none_or]
      by_cases hk : k = a
      · subst hk; simp
      · rw [if_neg hk, Option.none_or]
        simp [hk]

theorem memberSet_spec (adm : Bool) (m : Members) : SSorted (memberSet adm m) ∧
    ∀ x, x ∈ memberSet adm m ↔ ∃ y ∈ m, y.2 = adm ∧ x = .str (fromHex y.1) := by
  unfold memberSet
  have hex : ∀ x : Scalar, (∃ y ∈ m, y.2 = adm ∧ x = .str (fromHex y.1)) ↔
      ∃ y ∈ m.filter (fun x => x.2 == adm), x = .str (fromHex y.1) := by
    intro x
    constructor
    · rintro ⟨y, h1, h2, h3⟩; exact ⟨y, List.mem_filter.2 ⟨h1, by simp [h2]⟩, h3⟩
    · rintro ⟨y, h1, h3⟩
      obtain ⟨h1, h2⟩ := List.mem_filter.1 h1
      exact ⟨y, h1, by simpa using h2, h3⟩
  simp only [hex]
  generalize m.filter (fun x => x.2 == adm) = l
  have key : ∀ (l : Members) (s : List Scalar), SSorted s →
      SSorted (l.foldl (fun s x => sput (.str (fromHex x.1)) s) s) ∧
      ∀ x, x ∈ l.foldl (fun s x => sput (.str (fromHex x.1)) s) s ↔
        x ∈ s ∨ ∃ y ∈ l, x = .str (fromHex y.1) := by
    intro l
    induction l with
    | nil => intro s hs; exact ⟨hs, fun x => by simp⟩
    | cons a t ih =>
      intro s hs
      obtain ⟨i1, i2⟩ := ih _ (hs.sput (.str (fromHex a.1)))
      refine ⟨i1, fun x => ?_⟩
      rw [List.foldl_cons, i2 x, mem_sput]
      simp only [List.mem_cons, exists_eq_or_imp]
      tauto
  obtain ⟨k1, k2⟩ := key l [] SSorted.nil
  exact ⟨k1, fun x => by rw [k2 x]; simp⟩

theorem wfO_set {s : List Scalar} (h1 : SSorted s) (h2 : ∀ x ∈ s, x.ok = true) : wfO (fSet s) = true := by
  unfold fSet
  split
  · rfl
  · rename_i hne
    simp only [wfO, Val.wf, Val.typed, Val.full, Bool.and_eq_true, decide_eq_true_eq, List.all_eq_true]
    refine ⟨⟨h1, h2⟩, ?_⟩
    cases s with
    | nil => exact absurd rfl hne
    | cons a t => rfl

theorem maybeSet_of {d : Dict} {k : Bytes} {s : List Scalar} (h : mget k d = fSet s) :
    (maybeSet d k).getD [] = s := by
  unfold maybeSet
  rw [h]; unfold fSet
  by_cases hs : s = []
  · rw [if_pos hs, hs]; rfl
  · rw [if_neg hs]; rfl

theorem memberId_hex {id : Bytes} (h : checkId id pre05 = true) : memberId (.str (fromHex id)) = some (lower id) := by
  have hi : idBytes id pre05 = .ok (fromHex id) := by unfold idBytes; rw [if_pos h]
  unfold memberId
  simp only
  rw [if_pos ⟨idBytes_len rfl hi, idBytes_head05 hi⟩, lower_id hi]

/-- Membership after storing: an id is a plain member if some spelling of it was given as a plain
member, otherwise an admin if some spelling was given as an admin. -/
theorem stored_members {m : Members} (hm : ∀ x ∈ m, checkId x.1 pre05 = true) {e : Dict}
    (h1 : mget [109] e = fSet (memberSet false m)) (h2 : mget [97] e = fSet (memberSet true m)) :
    KSorted (loadMembers e) ∧ ∀ k, mget k (loadMembers e) =
      if (∃ x ∈ m, lower x.1 = k ∧ x.2 = false) then some false
      else if (∃ x ∈ m, lower x.1 = k ∧ x.2 = true) then some true else none := by
  have hin : ∀ adm k, (∃ x ∈ memberSet adm m, memberId x = some k) ↔ ∃ x ∈ m, lower x.1 = k ∧ x.2 = adm := by
    intro adm k
    constructor
    · rintro ⟨x, hx, hk⟩
      obtain ⟨y, hy, ha, rfl⟩ := ((memberSet_spec adm m).2 x).1 hx
      rw [memberId_hex (hm y hy)] at hk
      exact ⟨y, hy, Option.some.inj hk, ha⟩
    · rintro ⟨y, hy, hk, ha⟩
      refine ⟨.str (fromHex y.1), ((memberSet_spec adm m).2 _).2 ⟨y, hy, ha, rfl⟩, ?_⟩
      rw [memberId_hex (hm y hy), hk]
  unfold loadMembers
  obtain ⟨a1, a2⟩ := loadSet_spec (m := []) KSorted.nil false (maybeSet e [109])
  obtain ⟨b1, b2⟩ := loadSet_spec a1 true (maybeSet e [97])
  refine ⟨b1, fun k => ?_⟩
  rw [b2 k, a2 k, maybeSet_of h1, maybeSet_of h2]
  simp only [hin]
  show ((none : Option Bool).or _).or _ = _
  rw [Option.none_or]
  by_cases hp : ∃ x ∈ m, lower x.1 = k ∧ x.2 = false
  · simp only [hp, if_true]; rfl
  · simp only [hp, if_false, Option.none_or]

/-- If all ids are given in lower case the members are stored as they are. -/
theorem stored_members_exact {m : Members} (hm : MembersOk m) (hl : ∀ x ∈ m, lower x.1 = x.1) {e : Dict}
    (h1 : mget [109] e = fSet (memberSet false m)) (h2 : mget [97] e = fSet (memberSet true m)) :
    loadMembers e = m := by
  obtain ⟨s1, s2⟩ := stored_members hm.2 h1 h2
  refine map_ext s1 hm.1 fun k => ?_
  rw [s2 k]
  have hg : ∀ adm, (∃ x ∈ m, lower x.1 = k ∧ x.2 = adm) ↔ mget k m = some adm := by
    intro adm
    rw [mget_iff_mem hm.1]
    constructor
    · rintro ⟨x, hx, h3, h4⟩
      rw [hl x hx] at h3
      rw [← h3, ← h4]; exact hx
    · intro hx; exact ⟨_, hx, hl _ hx, rfl⟩
  simp only [hg]
  cases hk : mget k m with
  | none => simp
  | some v => cases v <;> simp

/-- What is stored of a legacy group: name cut to 100 bytes, an incomplete key pair and negative times
dropped.  For the members see `Legacy.SameMembers`. -/
def Legacy.norm (g : Legacy) : Legacy :=
  { g with
    base := g.base.norm
    name := g.name.take 100
    encPub := if g.encPub.length = 32 ∧ g.encSec.length = 32 then g.encPub else []
    encSec := if g.encPub.length = 32 ∧ g.encSec.length = 32 then g.encSec else []
    timer := max 0 g.timer }

/-- A legacy group as the documentation describes it, the ids in lower case -/
structure Legacy.Valid (g : Legacy) : Prop where
  base : g.base.Valid
  name : g.name.length ≤ 100
  pair : (g.encPub.length = 32 ∧ g.encSec.length = 32) ∨ (g.encPub = [] ∧ g.encSec = [])
  timer : 0 ≤ g.timer
  members : ∀ x ∈ g.members, lower x.1 = x.1

theorem Legacy.Valid.norm_eq {g : Legacy} (h : g.Valid) : g.norm = g := by
  unfold Legacy.norm
  rw [h.base.norm_eq, List.take_of_length_le h.name, max_eq_right h.timer]
  rcases h.pair with hp | ⟨h1, h2⟩
  · rw [if_pos hp, if_pos hp]
  · cases g
    simp_all

theorem legacy_fields_nodup (g : Legacy) : (g.fields.map (·.1)).Nodup := by
  unfold Legacy.fields
  simp only [GroupBase.fields, List.map_cons, List.map_nil, List.map_append]
  decide

/-- The range of the C++ types -/
def Legacy.inRange (g : Legacy) : Bool := g.base.inRange && int64Ok g.timer

theorem legacy_fields_wf {g : Legacy} (h : g.inRange = true) : ∀ f ∈ g.fields, wfO f.2 = true := by
  simp only [Legacy.inRange, Bool.and_eq_true] at h
  unfold Legacy.fields
  intro f hf
  rcases List.mem_append.1 hf with hf | hf
  · exact base_fields_wf h.1 f hf
  · have hset : ∀ adm, wfO (fSet (memberSet adm g.members)) = true := by
      intro adm
      obtain ⟨s1, s2⟩ := memberSet_spec adm g.members
      refine wfO_set s1 fun x hx => ?_
      obtain ⟨y, _, _, rfl⟩ := (s2 x).1 hx
      rfl
    simp only [List.mem_cons, List.not_mem_nil, or_false] at hf
    rcases hf with rfl | rfl | rfl | rfl | rfl | rfl
    · exact wfO_str _
    · exact wfO_if _ rfl
    · exact wfO_if _ rfl
    · exact hset _
    · exact hset _
    · exact wfO_pos h.2

theorem legacy_load {g : Legacy} (hr : g.inRange = true) (hm : ∀ x ∈ g.members, checkId x.1 pre05 = true)
    {e : Dict} (hf : ∀ f ∈ g.fields, mget f.1 e = f.2) (id : Bytes) :
    Legacy.load id e = { g.norm with id := id, members := loadMembers e } := by
  simp only [Legacy.inRange, Bool.and_eq_true] at hr
  have hb : GroupBase.load e = g.base.norm :=
    base_load hr.1 fun f hm => hf f (by unfold Legacy.fields; exact List.mem_append_left _ hm)
  have hrest : ∀ f ∈ ([([110], some (.scalar (.str (g.name.take 100)))),
      ([107], fIf (g.encPub.length == 32 && g.encSec.length == 32) (.str g.encPub)),
      ([75], fIf (g.encPub.length == 32 && g.encSec.length == 32) (.str g.encSec)),
      ([69], fPos g.timer)] : List (Bytes × Option Val)), mget f.1 e = f.2 := by
    intro f hm
    refine hf f ?_
    unfold Legacy.fields
    refine List.mem_append_right _ ?_
    simp only [List.mem_cons, List.not_mem_nil, or_false] at hm ⊢
    tauto
  simp only [List.mem_cons, List.not_mem_nil, or_false, forall_eq_or_imp, forall_eq] at hrest
  obtain ⟨r1, r2, r3, r4⟩ := hrest
  have hn : (maybeStr e [110]).getD [] = g.name.take 100 := by rw [maybeStr_of r1]; rfl
  have ht : max 0 ((maybeInt e [69]).getD 0) = max 0 g.timer := by rw [read_pos r4]; omega
  have hp : loadPair e = (if g.encPub.length = 32 ∧ g.encSec.length = 32 then g.encPub else [],
      if g.encPub.length = 32 ∧ g.encSec.length = 32 then g.encSec else []) := by
    unfold loadPair
    rw [maybeStr_of r2, maybeStr_of r3]
    by_cases hc : g.encPub.length = 32 ∧ g.encSec.length = 32
    · simp [fIf, hc.1, hc.2, strOf]
    · have : (g.encPub.length == 32 && g.encSec.length == 32) = false := by
        rw [Bool.and_eq_false_iff]
        by_cases h1 : g.encPub.length = 32
        · right; simp; exact fun h2 => hc ⟨h1, h2⟩
        · left; simp [h1]
      rw [if_neg hc, if_neg hc]
      simp [fIf, this, strOf]
  unfold Legacy.load Legacy.norm
  simp only [hb, hn, ht, hp]

/-- C84.  After `set(g)` the legacy group reads back, as far as it can be stored, under every spelling of
its id, with the same members: an id is a plain member exactly if some spelling of it was one, and an
admin exactly if some spelling of it was an admin and none a plain member.  A valid group reads back
exactly as it is.  Every other legacy group, every field this version does not know, and everything
else is as before, and there is one more exactly if it was new. -/
theorem legacy_set_get {S : Sys} (hS : S.Good) {c c' : Client} (hc : Reach S c) {g : Legacy}
    (hr : g.inRange = true) (hm : MembersOk g.members) (h : c.setLegacy S g = (c', .ok ())) :
    Reach S c' ∧
    (∀ id, SameRec pre05 id g.id → ∃ members,
      c'.getLegacy id = .ok (some { g.norm with id := id, members := members }) ∧ KSorted members ∧
      (∀ k, mget k members = some false ↔ ∃ x ∈ g.members, lower x.1 = k ∧ x.2 = false) ∧
      (∀ k, mget k members = some true ↔ (∃ x ∈ g.members, lower x.1 = k ∧ x.2 = true) ∧
        ¬ ∃ x ∈ g.members, lower x.1 = k ∧ x.2 = false)) ∧
    (g.Valid → c'.getLegacy g.id = .ok (some g)) ∧
    (∀ id, ¬ SameRec pre05 id g.id → c'.getLegacy id = c.getLegacy id) ∧
    (∀ k, k ∉ g.fields.map (·.1) →
      c'.get (pathL ++ [fromHex g.id] ++ [k]) = c.get (pathL ++ [fromHex g.id] ++ [k])) ∧
    (∀ q, ¬ Nested pathL q → c'.get q = c.get q) ∧
    c'.legacySize = c.legacySize + (if (c.get (pathL ++ [fromHex g.id])).isSome then 0 else 1) := by
  obtain ⟨h1, pk, hpk, ⟨e, he, hf⟩, h3, h4, h5, h6⟩ := setRec_spec hS (by simp [pathL])
    (fun _ => legacy_fields_nodup g) (fun _ => legacy_fields_wf hr)
    (fun _ => ⟨([110], some (.scalar (.str (g.name.take 100)))), by unfold Legacy.fields; simp, rfl⟩) hc h
  have hpk' := (idBytes_ok hpk).1
  have m1 : mget [109] e = fSet (memberSet false g.members) := hf ([109], fSet (memberSet false g.members)) (by
    unfold Legacy.fields; exact List.mem_append_right _ (by simp))
  have m2 : mget [97] e = fSet (memberSet true g.members) := hf ([97], fSet (memberSet true g.members)) (by
    unfold Legacy.fields; exact List.mem_append_right _ (by simp))
  have hget : ∀ id, SameRec pre05 id g.id →
      c'.getLegacy id = .ok (some { g.norm with id := id, members := loadMembers e }) := by
    rintro id ⟨pk', i1, i2⟩
    rw [hpk] at i2; cases i2
    unfold Client.getLegacy
    rw [getRec_eq i1, he]
    simp only [loadAt, legacy_load hr hm.2 hf id]
  refine ⟨h1, fun id hid => ⟨loadMembers e, hget id hid, ?_⟩, fun hv => ?_, fun id hid => setRec_other hpk h4 hid,
    fun k hk => by rw [← hpk']; exact h3 k hk, h5, by unfold Client.legacySize; rw [h6, ← hpk']⟩
  · obtain ⟨s1, s2⟩ := stored_members hm.2 m1 m2
    refine ⟨s1, fun k => ?_, fun k => ?_⟩
    · rw [s2 k]
      by_cases hp : ∃ x ∈ g.members, lower x.1 = k ∧ x.2 = false
      · rw [if_pos hp]; simp only [hp]
      · rw [if_neg hp]
        simp only [hp, iff_false]
        split <;> simp
    · rw [s2 k]
      by_cases hp : ∃ x ∈ g.members, lower x.1 = k ∧ x.2 = false
      · rw [if_pos hp]; simp only [hp, not_true, and_false, iff_false]; simp
      · rw [if_neg hp]
        simp only [hp, not_false_eq_true, and_true]
        split
        · rename_i hq; simp only [hq]
        · rename_i hq; simp only [hq, iff_false]; simp
  · rw [hget g.id (SameRec.refl hpk), stored_members_exact hm hv.members m1 m2, hv.norm_eq]

/-- C84.  `set` throws exactly on an invalid id or (leaving the object as it was) if the object cannot
be modified. -/
theorem legacy_set_error {S : Sys} (hS : S.Good) {c : Client} (hc : Reach S c) {g : Legacy}
    (hr : g.inRange = true) :
    ((c.setLegacy S g).2 ≠ .ok () → (c.setLegacy S g).1 = c) ∧
    (checkId g.id pre05 = false → (c.setLegacy S g).2 = .err .foreign) ∧
    (checkId g.id pre05 = true → S.env.readonly = false → int64Ok (c.seqno + 1) = true →
      (c.setLegacy S g).2 = .ok ()) :=
  setRec_error hS (fun _ => legacy_fields_wf hr) hc

/-- C84.  `erase_legacy_group` -/
theorem legacy_erase {S : Sys} (hS : S.Good) {c c' : Client} (hc : Reach S c)
    {id : Bytes} {b : Bool} (h : c.eraseLegacy S id = (c', .ok b)) :
    Reach S c' ∧ (∀ id', SameRec pre05 id' id → c'.getLegacy id' = .ok none) ∧
    (∀ id', ¬ SameRec pre05 id' id → c'.getLegacy id' = c.getLegacy id') ∧
    (∀ q, ¬ Nested pathL q → c'.get q = c.get q) ∧
    (c.getLegacy id ≠ .ok none → b = true) ∧
    c.legacySize = c'.legacySize + (if b then 1 else 0) :=
  eraseRec_spec hS (by simp [pathL]) Legacy.load hc h

/-- The ids with a given flag, and how many there are -/
theorem idsWhere {m : Members} (hm : KSorted m) (p : Bytes × Bool → Bool) {adm : Bool} (hp : ∀ id b, p (id, b) = true ↔ b = adm) :
    ∃ as : List Bytes, as.Nodup ∧ as.length = m.countP p ∧ ∀ id, id ∈ as ↔ mget id m = some adm := by
  refine ⟨(m.filter p).map (·.1), ?_, by rw [List.length_map, List.countP_eq_length_filter], fun id => ?_⟩
  · exact (hm.nodup_keys).sublist (List.filter_sublist.map _)
  · rw [mget_iff_mem hm, List.mem_map]
    constructor
    · rintro ⟨⟨a, b⟩, hx, rfl⟩
      rw [List.mem_filter, hp] at hx
      rw [← hx.2]; exact hx.1
    · intro h
      exact ⟨(id, adm), by rw [List.mem_filter, hp]; exact ⟨h, rfl⟩, rfl⟩

/-- C84.  `insert` and `erase` of members do what they say; `counts` adds up. -/
theorem legacy_members {m : Members} (hm : MembersOk m) (id : Bytes) :
    (∀ adm, checkId id pre05 = true → ∃ m' b, insertMember m id adm = .ok (m', b) ∧ MembersOk m' ∧
      mget id m' = some adm ∧ (∀ id', id' ≠ id → mget id' m' = mget id' m) ∧
      (b = true ↔ mget id m ≠ some adm)) ∧
    (∀ adm, checkId id pre05 = false → insertMember m id adm = .err .foreign) ∧
    (MembersOk (eraseMember m id).1 ∧ mget id (eraseMember m id).1 = none ∧
      (∀ id', id' ≠ id → mget id' (eraseMember m id).1 = mget id' m) ∧
      ((eraseMember m id).2 = true ↔ mget id m ≠ none)) ∧
    (memberCounts m).1 + (memberCounts m).2 = m.length ∧
    (∃ as : List Bytes, as.Nodup ∧ as.length = (memberCounts m).1 ∧ ∀ id, id ∈ as ↔ mget id m = some true) ∧
    (∃ ms : List Bytes, ms.Nodup ∧ ms.length = (memberCounts m).2 ∧ ∀ id, id ∈ ms ↔ mget id m = some false) := by
  refine ⟨fun adm hc => ?_, fun adm hc => ?_, eraseMember_ok hm, ?_, idsWhere hm.1 (fun x => x.2) (by simp),
    idsWhere hm.1 (fun x => !x.2) (by simp)⟩
  · have : ∃ x, insertMember m id adm = .ok x := by
      unfold insertMember
      rw [if_pos hc]
      split <;> exact ⟨_, rfl⟩
    obtain ⟨⟨m', b⟩, hx⟩ := this
    exact ⟨m', b, hx, insertMember_ok hm hx⟩
  · unfold insertMember; rw [if_neg (by rw [hc]; simp)]
  · unfold memberCounts
    clear hm
    induction m with
    | nil => rfl
    | cons a t ih =>
      simp only [List.countP_cons, List.length_cons] at ih ⊢
      cases a.2 <;> simp <;> omega

end Verif
