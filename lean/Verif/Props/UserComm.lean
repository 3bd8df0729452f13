import Verif.Props.UserGroups

/-!
# Communities in the list of groups, iteration, and what is read: C85 - C87
-/

namespace Verif

/-! ### Communities -/

theorem getUComm_eq {c : Client} {base room b r : Bytes} (hb : canonUrl base = .ok b)
    (hr : canonRoom room = .ok r) : c.getUComm base room =
      loadComm b room (c.serverKey b) (c.get (roomPath b r)) := by
  unfold Client.getUComm; rw [hb, hr]; rfl

theorem getUComm_bad {c c' : Client} {base room : Bytes}
    (h : ∀ b r, canonUrl base = .ok b → canonRoom room = .ok r → c'.getUComm base room = c.getUComm base room) :
    c'.getUComm base room = c.getUComm base room := by
  cases hb : canonUrl base with
  | ok b => cases hr : canonRoom room with
    | ok r => exact h b r hb hr
    | err e => unfold Client.getUComm; rw [hr, hb]; rfl
    | hang => unfold Client.getUComm; rw [hr, hb]; rfl
    | ub => unfold Client.getUComm; rw [hr, hb]; rfl
  | err e => unfold Client.getUComm; rw [hb]; rfl
  | hang => unfold Client.getUComm; rw [hb]; rfl
  | ub => unfold Client.getUComm; rw [hb]; rfl

theorem setUComm_ok {S : Sys} {c c' : Client} {x : Comm} (h : c.setUComm S x = (c', .ok ())) :
    ∃ b r, canonUrl x.base = .ok b ∧ canonRoom x.room = .ok r ∧ x.pubkey.length = 32 ∧
      c.writeAll S (x.writes b r) = (c', .ok ()) := by
  unfold Client.setUComm at h
  cases hb : canonUrl x.base <;> rw [hb] at h <;> try cases (Prod.mk.inj h).2
  cases hr : canonRoom x.room <;> rw [hr] at h <;> try cases (Prod.mk.inj h).2
  simp only at h
  split at h
  · rename_i hl
    exact ⟨_, _, rfl, rfl, hl, h⟩
  · cases (Prod.mk.inj h).2

theorem comm_fields_wf {x : Comm} (hx : x.info.inRange = true) :
    ∀ f ∈ x.info.fields ++ [([110], some (.scalar (.str x.room)))], wfO f.2 = true := by
  intro f hf
  rcases List.mem_append.1 hf with hf | hf
  · exact base_fields_wf hx f hf
  · rw [List.mem_singleton] at hf; subst hf; exact wfO_str _

theorem comm_writes_wf {x : Comm} (hx : x.info.inRange = true) (b r : Bytes) :
    ∀ w ∈ x.writes b r, w.1 ≠ [] ∧ wfO w.2 = true := by
  intro w hw
  unfold Comm.writes at hw
  rcases List.mem_cons.1 hw with rfl | hw
  · exact ⟨by simp, wfO_str _⟩
  · exact entries_ok (comm_fields_wf hx) w hw

/-- The key of a server is not inside a room. -/
theorem key_not_room (b b' r' : Bytes) (q : List Bytes) : ¬ Nested (pathO ++ [b, [35]]) (roomPath b' r' ++ q) := by
  intro hn
  rw [roomPath, List.append_assoc, nested_append_left] at hn
  rcases hn with hn | hn
  · have := (List.cons_prefix_cons.1 (List.cons_prefix_cons.1 hn).2).1
    exact absurd this (by decide)
  · have := hn.length_le; simp at this

/-- C85.  After `set` of a community it reads back, under every spelling of its URL and room, with the
room as spelled in `set`, the key and the settings; the key given is now the key of every room of that
server; communities of other servers, the settings of the other rooms, the other groups and everything
else are as before. -/
theorem ucomm_set_get {S : Sys} (hS : S.Good) {c c' : Client} (hc : Reach S c) {x : Comm}
    (hx : x.info.inRange = true) (h : c.setUComm S x = (c', .ok ())) :
    Reach S c' ∧
    (∀ base room, SameComm base room x.base x.room → ∃ b, canonUrl x.base = .ok b ∧
      c'.getUComm base room = .ok (some ⟨b, x.room, x.pubkey, x.info.norm⟩)) ∧
    (∀ base room, SameServer base x.base → ¬ SameComm base room x.base x.room →
      ∀ y, c'.getUComm base room = .ok (some y) ↔
        y.pubkey = x.pubkey ∧ ∃ k, c.getUComm base room = .ok (some { y with pubkey := k })) ∧
    (∀ base room, ¬ SameServer base x.base → c'.getUComm base room = c.getUComm base room) ∧
    (∀ pub id, c'.getGroup pub id = c.getGroup pub id) ∧ (∀ id, c'.getLegacy id = c.getLegacy id) ∧
    (∀ q, ¬ Nested pathO q → c'.get q = c.get q) ∧
    (c.CanonNames → c'.CanonNames) := by
  obtain ⟨b, r, hb, hr, hpk, hw⟩ := setUComm_ok h
  have hpair : (x.writes b r).Pairwise fun a b => ¬ Nested a.1 b.1 := by
    unfold Comm.writes
    rw [List.pairwise_cons]
    refine ⟨fun w hm => ?_, entries_pairwise _ ?_⟩
    · obtain ⟨f, _, rfl⟩ := List.mem_map.1 hm
      exact key_not_room b b r [f.1]
    · simp only [GroupBase.fields, List.map_cons, List.map_nil, List.map_append]; decide
  obtain ⟨w1, w2, w3⟩ := writeAll_get hS _ hc (comm_writes_wf hx b r) hpair hw
  have hkeyval : c'.get (pathO ++ [b, [35]]) = some (.scalar (.str x.pubkey)) :=
    w2 (pathO ++ [b, [35]], _) (by unfold Comm.writes; simp)
  have hfield : ∀ f ∈ x.info.fields ++ [([110], some (.scalar (.str x.room)))],
      c'.get (roomPath b r ++ [f.1]) = f.2 := fun f hf =>
    w2 (roomPath b r ++ [f.1], f.2) (by
      unfold Comm.writes
      exact List.mem_cons_of_mem _ (List.mem_map.2 ⟨f, hf, rfl⟩))
  obtain ⟨e, he, hn⟩ := get_dict (p := roomPath b r) (k := [110]) (by simp [roomPath])
    (hfield ([110], some (.scalar (.str x.room))) (by simp))
  have hload : GroupBase.load e = x.info.norm := base_load hx fun f hf => by
    rw [← get_entry (by simp [roomPath]) he, hfield f (List.mem_append_left _ hf)]
  have hout : ∀ q, ¬ Nested (pathO ++ [b, [35]]) q → ¬ Nested (roomPath b r) q → c'.get q = c.get q := by
    intro q h1 h2
    refine w3 q fun w hm hn => ?_
    unfold Comm.writes at hm
    rcases List.mem_cons.1 hm with rfl | hm
    · exact h1 hn
    · obtain ⟨f, _, rfl⟩ := List.mem_map.1 hm
      exact h2 (nested_trans_left (List.prefix_append _ _) hn)
  have hroom : ∀ b' r', ¬ (b = b' ∧ r = r') → c'.get (roomPath b' r') = c.get (roomPath b' r') := by
    intro b' r' hne
    refine hout _ ?_ fun hn => hne (room_inj hn)
    have := key_not_room b b' r' []
    rwa [List.append_nil] at this
  have hkey : c'.serverKey b = x.pubkey := by
    unfold Client.serverKey
    rw [hkeyval]
    simp only [strOf]
    rw [if_pos hpk]
  have hkey' : ∀ b', b ≠ b' → c'.serverKey b' = c.serverKey b' := by
    intro b' hne
    refine serverKey_congr (hout _ (fun hn => ?_) fun hn => hne (room_server hn))
    rw [nested_append_left] at hn
    exact hne (nested_head hn)
  have houter : ∀ q, ¬ Nested pathO q → c'.get q = c.get q := fun q hq =>
    hout q (fun hn => hq (nested_trans_left (List.prefix_append _ _) hn))
      (fun hn => hq (nested_trans_left (List.prefix_append _ _) hn))
  refine ⟨w1, ?_, ?_, ?_, ?_, ?_, houter, ?_⟩
  · rintro base room ⟨b', r', e1, e2, e3, e4⟩
    rw [hb] at e2; cases e2
    rw [hr] at e4; cases e4
    refine ⟨b, hb, ?_⟩
    rw [getUComm_eq e1 e3, he, hkey]
    have hnm : maybeStr e [110] = some x.room := maybeStr_of hn
    simp only [loadComm, loadRoom, hnm, hr, Out.bind, hload]
  · rintro base room ⟨b', e1, e2⟩ hne y
    rw [hb] at e2; cases e2
    cases hr' : canonRoom room with
    | ok r' =>
      rw [getUComm_eq e1 hr', getUComm_eq e1 hr', hkey,
        hroom b r' fun hh => hne ⟨b, r, e1, hb, by rw [hr', hh.2], hr⟩]
      cases hg : c.get (roomPath b r') with
      | none => simp [loadComm]
      | some v =>
        cases v with
        | dict d =>
          simp only [loadComm]
          cases loadRoom room d with
          | ok n =>
            obtain ⟨y1, y2, y3, y4⟩ := y
            simp only [Out.bind, Out.ok.injEq, Option.some.injEq, Comm.mk.injEq]
            constructor
            · rintro ⟨g1, g2, g3, g4⟩; exact ⟨g3.symm, _, g1, g2, rfl, g4⟩
            · rintro ⟨g3, k, g1, g2, _, g4⟩; exact ⟨g1, g2, g3.symm, g4⟩
          | err e => simp [Out.bind]
          | hang => simp [Out.bind]
          | ub => simp [Out.bind]
        | set s => simp [loadComm]
        | scalar s => simp [loadComm]
    | err e => unfold Client.getUComm; rw [e1, hr']; simp [Out.bind]
    | hang => unfold Client.getUComm; rw [e1, hr']; simp [Out.bind]
    | ub => unfold Client.getUComm; rw [e1, hr']; simp [Out.bind]
  · intro base room hne
    refine getUComm_bad fun b' r' hb' hr' => ?_
    have hbb : b ≠ b' := fun hh => hne ⟨b', hb', by rw [hb, hh]⟩
    rw [getUComm_eq hb' hr', getUComm_eq hb' hr', hkey' b' hbb, hroom b' r' fun hh => hbb hh.1]
  · intro pub id
    refine getRec_congr fun pk' _ => houter _ fun hn => ?_
    exact absurd (nested_head hn) (by decide)
  · intro id
    refine getRec_congr fun pk' _ => houter _ fun hn => ?_
    exact absurd (nested_head hn) (by decide)
  · intro hcn b' r' hg
    by_cases he : b = b' ∧ r = r'
    · obtain ⟨rfl, rfl⟩ := he
      exact ⟨canonical_url_idem _ _ hb, ((canonical_room_case _ _ hr)).2⟩
    · rw [hroom b' r' he] at hg; exact hcn b' r' hg

/-- C85.  `set` throws exactly on an unacceptable URL, room or key or (leaving the object as it was) if
the object cannot be modified. -/
theorem ucomm_set_error {S : Sys} (hS : S.Good) {c : Client} (hc : Reach S c) {x : Comm}
    (hx : x.info.inRange = true) :
    ((c.setUComm S x).2 ≠ .ok () → (c.setUComm S x).1 = c) ∧
    ((c.setUComm S x).2 = .ok () → (∃ b, canonUrl x.base = .ok b) ∧ (∃ r, canonRoom x.room = .ok r) ∧
      x.pubkey.length = 32) ∧
    ((∃ b, canonUrl x.base = .ok b) → (∃ r, canonRoom x.room = .ok r) → x.pubkey.length = 32 →
      S.env.readonly = false → int64Ok (c.seqno + 1) = true → (c.setUComm S x).2 = .ok ()) := by
  refine ⟨fun h => ?_, fun h => ?_, ?_⟩
  · unfold Client.setUComm at h ⊢
    cases hb : canonUrl x.base <;> cases hr : canonRoom x.room <;> try rfl
    simp only [hb, hr] at h ⊢
    split
    · rename_i hl
      rw [if_pos hl] at h
      exact writeAll_error hS _ hc (comm_writes_wf hx _ _) h
    · rfl
  · obtain ⟨b, r, h1, h2, h3, _⟩ := setUComm_ok (c' := (c.setUComm S x).1) (Prod.ext rfl h)
    exact ⟨⟨b, h1⟩, ⟨r, h2⟩, h3⟩
  · rintro ⟨b, hb⟩ ⟨r, hr⟩ hl hro hov
    unfold Client.setUComm
    rw [hb, hr]
    simp only
    rw [if_pos hl]
    obtain ⟨c', hc'⟩ := writeAll_succeeds hS _ hc (comm_writes_wf hx b r) hro hov
    rw [hc']

/-- C85.  `erase_community`: reports whether the room was there; afterwards it is not, under any spelling;
all other communities, with their keys, the groups and everything else are as before. -/
theorem ucomm_erase {S : Sys} (hS : S.Good) {c c' : Client} (hc : Reach S c) {base room : Bytes}
    {res : Bool} (h : c.eraseComm S base room = (c', .ok res)) :
    Reach S c' ∧
    (∀ base' room', SameComm base' room' base room → c'.getUComm base' room' = .ok none) ∧
    (∀ base' room', ¬ SameComm base' room' base room → c'.getUComm base' room' = c.getUComm base' room') ∧
    (c.getUComm base room ≠ .ok none → res = true) ∧
    (∀ pub id, c'.getGroup pub id = c.getGroup pub id) ∧ (∀ id, c'.getLegacy id = c.getLegacy id) ∧
    (∀ q, ¬ Nested pathO q → c'.get q = c.get q) := by
  have hok : ∃ b r, canonUrl base = .ok b ∧ canonRoom room = .ok r := by
    unfold Client.eraseComm at h
    cases hb : canonUrl base <;> rw [hb] at h <;> try cases (Prod.mk.inj h).2
    cases hr : canonRoom room <;> rw [hr] at h <;> try cases (Prod.mk.inj h).2
    exact ⟨_, _, rfl, rfl⟩
  obtain ⟨b, r, hb, hr⟩ := hok
  obtain ⟨h1, h2, h3, h4, h5, h6, h7, h8⟩ := eraseComm_spec hS hc hb hr h
  refine ⟨h1, ?_, ?_, ?_, ?_, ?_, h8⟩
  · rintro base' room' ⟨b', r', e1, e2, e3, e4⟩
    rw [hb] at e2; cases e2
    rw [hr] at e4; cases e4
    rw [getUComm_eq e1 e3, h3]; rfl
  · intro base' room' hne
    refine getUComm_bad fun b' r' e1 e3 => ?_
    have hne' : ¬ (b = b' ∧ r = r') := by
      rintro ⟨rfl, rfl⟩; exact hne ⟨b, r, e1, hb, e3, hr⟩
    have hroom := h4 b' r' hne'
    rw [getUComm_eq e1 e3, getUComm_eq e1 e3, hroom]
    by_cases hg : c.get (roomPath b' r') = none
    · rw [hg]; rfl
    · have : c'.serverKey b' = c.serverKey b' := by
        refine serverKey_congr ?_
        by_cases hbb : b = b'
        · subst hbb
          exact h6 (fun _ => ⟨r', by rw [hroom]; exact hg⟩) _ (by decide)
        · exact h5 b' _ hbb
      rw [this]
  · intro hn
    rw [h2]
    rw [getUComm_eq hb hr] at hn
    by_contra hs
    rw [Bool.not_eq_true, Option.isSome_eq_false_iff, Option.isNone_iff_eq_none] at hs
    rw [hs] at hn
    exact hn rfl
  · intro pub id
    refine getRec_congr fun pk' _ => h8 _ fun hn => ?_
    exact absurd (nested_head hn) (by decide)
  · intro id
    refine getRec_congr fun pk' _ => h8 _ fun hn => ?_
    exact absurd (nested_head hn) (by decide)

/-! ### Iteration -/

/-- C86.  Iterating over the groups yields exactly the groups `get_group` finds, under the lower-case
spelling of their ids, each once, in the order of the ids; `size_groups` is their number if the table
holds nothing but well-formed groups.  The same for legacy groups. -/
theorem group_iter {S : Sys} (hS : S.Good) (pub : Bytes → Bytes) {c : Client} (hc : Reach S c) :
    (∀ g, g ∈ c.groups pub ↔ lower g.id = g.id ∧ c.getGroup pub g.id = .ok (some g)) ∧
    ((c.groups pub).map Group.id).Pairwise (fun a b => fromHex a < fromHex b) ∧
    (c.groups pub).length ≤ c.groupsSize ∧
    ((∀ pk v, c.get (pathG ++ [pk]) = some v → pk.length = 33 ∧ pk.head? = some 3 ∧ ∃ e, v = .dict e) →
      (c.groups pub).length = c.groupsSize) :=
  recs_spec hS hc (by simp [pathG]) (Group.load pub) Group.id (fun _ _ => rfl) idBytes_toHex03
    fun h => ⟨idBytes_len rfl h, idBytes_head03 h⟩

theorem legacy_iter {S : Sys} (hS : S.Good) {c : Client} (hc : Reach S c) :
    (∀ g, g ∈ c.legacies ↔ lower g.id = g.id ∧ c.getLegacy g.id = .ok (some g)) ∧
    (c.legacies.map Legacy.id).Pairwise (fun a b => fromHex a < fromHex b) ∧
    c.legacies.length ≤ c.legacySize ∧
    ((∀ pk v, c.get (pathL ++ [pk]) = some v → pk.length = 33 ∧ pk.head? = some 5 ∧ ∃ e, v = .dict e) →
      c.legacies.length = c.legacySize) :=
  recs_spec hS hc (by simp [pathL]) Legacy.load Legacy.id (fun _ _ => rfl) idBytes_toHex05
    fun h => ⟨idBytes_len rfl h, idBytes_head05 h⟩

theorem mem_ucomms {S : Sys} (hS : S.Good) {c : Client} (hc : Reach S c) (x : Comm) :
    x ∈ c.ucomms ↔ ∃ b r rr, canonUrl b = .ok x.base ∧ canonRoom r = .ok rr ∧
      c.serverKey b = x.pubkey ∧ x.pubkey.length = 32 ∧
      loadComm x.base r x.pubkey (c.get (roomPath b r)) = .ok (some x) := by
  have hs := table_sorted hS hc pathO
  have hsub : ∀ {b e}, c.get (pathO ++ [b]) = some (.dict e) → ∀ k, c.get (pathO ++ [b, k]) = mget k e := by
    intro b e he k
    have := get_entry (by simp) he k
    rw [List.append_assoc] at this; exact this
  have hlc : ∀ {b r pk v y}, loadComm b r pk v = .ok (some y) → y.base = b ∧ y.pubkey = pk := by
    intro b r pk v y h
    unfold loadComm at h
    split at h
    · cases hl : loadRoom r ‹_› <;> rw [hl] at h <;> try cases h
      exact ⟨rfl, rfl⟩
    · cases h
  unfold Client.ucomms
  rw [List.mem_flatMap]
  constructor
  · rintro ⟨⟨b, v⟩, hm, hx⟩
    rw [← mget_iff_mem hs, table_mget pathO_ne] at hm
    unfold userverEntry at hx
    split at hx
    · rename_i e he
      simp only at he; subst he
      split at hx
      · rename_i pk rooms hpk hrooms
        rw [List.mem_filterMap] at hx
        obtain ⟨⟨r, w⟩, hw, hx⟩ := hx
        have hR : c.get (pathO ++ [b, [82]]) = some (.dict rooms) := by rw [hsub hm, hrooms]
        have hRs : KSorted rooms := by
          have := table_sorted hS hc (pathO ++ [b, [82]])
          unfold Client.table at this; rw [hR] at this; exact this
        rw [← mget_iff_mem hRs] at hw
        have hroom : c.get (roomPath b r) = some w := by
          rw [roomsPath, get_entry (by simp) hR r, hw]
        unfold uroomEntry at hx
        split at hx
        · rename_i b' r' hb' hr'
          simp only at hb' hr'
          split at hx
          · rename_i hl
            split at hx
            · rename_i o ho
              subst hx
              obtain ⟨y1, y2⟩ := hlc ho
              refine ⟨b, r, r', by rw [y1]; exact hb', hr', ?_, by rw [y2]; exact hl, ?_⟩
              · unfold Client.serverKey
                rw [hsub hm, show strOf (mget [35] e) = some pk from hpk, y2]
                simp only
                rw [if_pos hl]
              · rw [y1, y2, hroom]; exact ho
            · cases hx
          · cases hx
        · cases hx
      · cases hx
    · cases hx
  · rintro ⟨b, r, rr, h1, h2, h3, h4, h5⟩
    obtain ⟨pk, hpk, hk⟩ : ∃ pk, strOf (c.get (pathO ++ [b, [35]])) = some pk ∧ pk = x.pubkey := by
      unfold Client.serverKey at h3
      split at h3
      · rename_i pk hpk
        split at h3
        · exact ⟨pk, hpk, h3⟩
        · rw [← h3] at h4; cases h4
      · rw [← h3] at h4; cases h4
    subst hk
    obtain ⟨e', he'⟩ : ∃ e, c.get (roomPath b r) = some (.dict e) := by
      cases hg : c.get (roomPath b r) with
      | none => rw [hg] at h5; cases h5
      | some v =>
        rw [hg] at h5
        cases v with
        | dict e => exact ⟨e, rfl⟩
        | set s => cases h5
        | scalar s => cases h5
    obtain ⟨rooms, hR, hr⟩ := get_dict (p := pathO ++ [b, [82]]) (by simp) (by rw [← roomsPath]; exact he')
    obtain ⟨e, hE, hRm⟩ := get_dict (p := pathO ++ [b]) (k := [82]) (by simp) (by
      rw [List.append_assoc]; exact hR)
    refine ⟨(b, .dict e), ?_, ?_⟩
    · rw [← mget_iff_mem hs, table_mget pathO_ne]; exact hE
    · unfold userverEntry
      have e1 : maybeStr e [35] = some x.pubkey := by
        rw [hsub hE] at hpk; exact hpk
      simp only [e1, hRm]
      rw [List.mem_filterMap]
      have hRs : KSorted rooms := by
        have := table_sorted hS hc (pathO ++ [b, [82]])
        unfold Client.table at this; rw [hR] at this; exact this
      refine ⟨(r, .dict e'), (mget_iff_mem hRs).1 hr, ?_⟩
      unfold uroomEntry
      simp only [h1, h2]
      rw [if_pos h4]
      rw [he'] at h5
      rw [h5]

/-- Every community is stored under its canonical URL and room name, with a spelling of that name (as
`set` does). -/
def Client.CanonRooms (c : Client) : Prop :=
  c.CanonNames ∧ ∀ b r e, c.get (roomPath b r) = some (.dict e) →
    ∃ n, maybeStr e [110] = some n ∧ canonRoom n = .ok r

/-- C86.  If all communities are stored as `set` stores them, iterating over them yields exactly those
`get_community` finds with a key. -/
theorem ucomm_iter {S : Sys} (hS : S.Good) {c : Client} (hc : Reach S c) (hcn : c.CanonRooms) (x : Comm) :
    x ∈ c.ucomms ↔ c.getUComm x.base x.room = .ok (some x) ∧ x.pubkey ≠ [] := by
  rw [mem_ucomms hS hc]
  have key32 : ∀ b, c.serverKey b ≠ [] → (c.serverKey b).length = 32 := by
    intro b h
    unfold Client.serverKey at h ⊢
    split
    · split
      · assumption
      · rename_i hpk hl; rw [hpk] at h; simp only at h; rw [if_neg hl] at h; exact absurd rfl h
    · rename_i hpk; rw [hpk] at h; exact absurd rfl h
  have hload : ∀ {b r : Bytes} {base room room' pk e} , c.get (roomPath b r) = some (.dict e) →
      ∃ n, canonRoom n = .ok r ∧ loadComm base room pk (c.get (roomPath b r)) =
        .ok (some ⟨base, n, pk, GroupBase.load e⟩) ∧
        loadComm base room' pk (c.get (roomPath b r)) = .ok (some ⟨base, n, pk, GroupBase.load e⟩) := by
    intro b r base room room' pk e he
    obtain ⟨n, hn, hnr⟩ := hcn.2 b r e he
    refine ⟨n, hnr, ?_, ?_⟩ <;> rw [he] <;> simp only [loadComm, loadRoom, hn, hnr, Out.bind]
  have hdict : ∀ {b room pk p y}, loadComm b room pk (c.get p) = .ok (some y) → ∃ e, c.get p = some (.dict e) := by
    intro b room pk p y h
    cases hg : c.get p with
    | none => rw [hg] at h; cases h
    | some v =>
      rw [hg] at h
      cases v with
      | dict e => exact ⟨e, rfl⟩
      | set s => cases h
      | scalar s => cases h
  constructor
  · rintro ⟨b, r, rr, h1, h2, h3, h4, h5⟩
    obtain ⟨e, he⟩ := hdict h5
    obtain ⟨n1, n2⟩ := hcn.1 b r (by rw [he]; simp)
    rw [n1] at h1
    have e1 := Out.ok.inj h1
    subst e1
    obtain ⟨n, hnr, l1, l2⟩ := hload (base := x.base) (room := r) (room' := x.room) (pk := x.pubkey) he
    rw [l1] at h5
    have hx := Option.some.inj (Out.ok.inj h5)
    have hrm : canonRoom x.room = .ok r := by rw [← hx]; exact hnr
    refine ⟨?_, by intro hh; rw [hh] at h4; cases h4⟩
    rw [getUComm_eq n1 hrm, h3, l2]
    exact congrArg (fun z => Out.ok (some z)) hx
  · rintro ⟨h1, h2⟩
    cases hb : canonUrl x.base with
    | ok b =>
      cases hr : canonRoom x.room with
      | ok r =>
        rw [getUComm_eq hb hr] at h1
        obtain ⟨e, he⟩ := hdict h1
        obtain ⟨n, hnr, l1, l2⟩ := hload (base := b) (room := x.room) (room' := r) (pk := c.serverKey b) he
        rw [l1] at h1
        have hx := Option.some.inj (Out.ok.inj h1)
        have hxb : x.base = b := by rw [← hx]
        have hxp : c.serverKey b = x.pubkey := by rw [← hx]
        refine ⟨b, r, r, ?_, (canonical_room_case _ _ hr).2, hxp, ?_, ?_⟩
        · rw [hxb]; exact canonical_url_idem _ _ hb
        · rw [← hxp] at h2 ⊢; exact key32 b h2
        · rw [hxb, ← hxp, l2]; exact congrArg (fun z => Out.ok (some z)) hx
      | err e => unfold Client.getUComm at h1; rw [hb, hr] at h1; cases h1
      | hang => unfold Client.getUComm at h1; rw [hb, hr] at h1; cases h1
      | ub => unfold Client.getUComm at h1; rw [hb, hr] at h1; cases h1
    | err e => unfold Client.getUComm at h1; rw [hb] at h1; cases h1
    | hang => unfold Client.getUComm at h1; rw [hb] at h1; cases h1
    | ub => unfold Client.getUComm at h1; rw [hb] at h1; cases h1

end Verif
