import Verif.CKeys
import Verif.Props.Promotion
import Verif.Props.CErr
import Verif.Props.CMem
import Verif.Props.CCrypt

/-!
# The group keys through the C interface (C127)
-/

namespace Verif

/-- What is true of an object used through the C interface: a history, all of whose message hashes came as C strings; an error
buffer of 256 bytes; and it belongs to a member, or to an admin -/
structure CKeys.Ok (U : UPrims) (k : CKeys) (log : List (Bytes × Found)) : Prop where
  good : k.G.Good
  reach : GReach k.G k.g log
  who : k.G.MemberDevice U ∨ k.G.e.admin = true
  buf : k.buf.length = 256
  nul : ∀ p ∈ log, (0 : UInt8) ∉ p.1

theorem fail_spec {R : Type} {k : CKeys} (hb : k.buf.length = 256) {what : Bytes} (h0 : (0 : UInt8) ∉ what) :
    ∃ k', k.fail (R := R) what = .ok (k', none) ∧ k'.G = k.G ∧ k'.g = k.g ∧ k'.buf.length = 256 ∧ k'.lastError = some (what.take 255) := by
  obtain ⟨b, h1, h2, h3⟩ := (c_error_fits hb h0).2
  refine ⟨{ k with buf := b, err := true }, ?_, rfl, rfl, h2, ?_⟩
  · unfold CKeys.fail; rw [h1]; rfl
  · unfold CKeys.lastError; rw [if_pos rfl, h3]

/-- The text of the exception of a call -/
def KCall.what : KCall → Bytes
  | .loadAdmin _ w => w
  | .rekey w => w
  | .loadMsg _ _ _ _ w => w
  | .dump => []
  | .supplement _ w => w

/-- **C127.** Every call that returns leaves an object that is `Ok`; one that returns true leaves `last_error` as it was; one that
returns false leaves all three objects of the group as they were, and the first 255 characters of the exception's text in
`last_error`. -/
theorem c_keys_call {U : UPrims} (hU : U.Good) {k k' : CKeys} {log : List (Bytes × Found)} (h : k.Ok U log) (c : KCall)
    (hw : (0 : UInt8) ∉ c.what) {b : Bool} (hc : k.call U c = .ok (k', b)) :
    (∃ log', k'.Ok U log') ∧ (b = true → k'.lastError = k.lastError) ∧
    (b = false → k'.g = k.g ∧ k'.G = k.G ∧ k'.lastError = some (c.what.take 255)) := by
  have hfail : ∀ {R : Type} {r : CKeys × Option R} {k0 : CKeys}, k0.G = k.G → k0.g = k.g → k0.buf = k.buf → k0.fail c.what = .ok r →
      (∃ log', r.1.Ok U log') ∧ (r.2.isSome = true → r.1.lastError = k.lastError) ∧
      (r.2.isSome = false → r.1.g = k.g ∧ r.1.G = k.G ∧ r.1.lastError = some (c.what.take 255)) := by
    intro R r k0 e1 e2 e3 hf
    obtain ⟨k1, f1, f2, f3, f4, f5⟩ := fail_spec (R := R) (k := k0) (by rw [e3]; exact h.buf) hw
    rw [f1] at hf
    cases hf
    refine ⟨⟨log, ?_⟩, (fun hh => by cases hh), fun _ => ⟨f3.trans e2, f2.trans e1, f5⟩⟩
    refine ⟨by rw [f2, e1]; exact h.good, by rw [f2, f3, e1, e2]; exact h.reach, by rw [f2, e1]; exact h.who, f4, h.nul⟩
  cases c with
  | loadAdmin s w =>
    obtain ⟨r, hr, hc⟩ := Out.bind_eq_ok.1 hc
    cases hc
    obtain ⟨s', hs, hr⟩ := Out.bind_eq_ok.1 hr
    cases hl : k.G.loadAdminKey U s' with
    | ok G =>
      rw [hl] at hr
      cases hr
      refine ⟨⟨log, ?_⟩, fun _ => rfl, (fun hh => by cases hh)⟩
      rcases h.who with hm | ha
      · obtain ⟨g1, g2, _, _, _, _, _, g8⟩ := (load_admin_key hU h.good hm s').2 G hl
        exact ⟨g1, g8 _ _ h.reach, .inr (by simp [GEnv.admin, g2.1]), h.buf, h.nul⟩
      · have : G = k.G := by
          unfold GroupSys.loadAdminKey at hl
          cases he : k.G.e.loadAdminKey U s' <;> rw [he] at hl
          · dsimp only at hl
            rw [if_pos ha] at hl
            exact (Out.ok.inj hl).symm
          all_goals cases hl
        subst this
        exact ⟨h.good, h.reach, .inr ha, h.buf, h.nul⟩
    | err x => rw [hl] at hr; exact hfail rfl rfl rfl hr
    | hang => rw [hl] at hr; cases hr
    | ub => rw [hl] at hr; cases hr
  | rekey w =>
    obtain ⟨r, hr, hc⟩ := Out.bind_eq_ok.1 hc
    cases hc
    unfold CKeys.rekey at hr
    have hi := h.reach.inv h.good
    rcases hg : k.g.rekey k.G with ⟨g', o⟩
    rw [hg] at hr
    cases o with
    | ok m =>
      cases hr
      have hre : GReach k.G (k.g.rekey k.G).1 log := .rekey h.reach (by rw [hg]; rfl)
      rw [hg] at hre
      exact ⟨⟨log, h.good, hre, h.who, h.buf, h.nul⟩, fun _ => rfl, (fun hh => by cases hh)⟩
    | err x =>
      have he : g' = k.g := by
        rcases hi.rekey_ok h.good (by rw [hg]; rfl) with ⟨e, _⟩ | ⟨_, _, _, _, _, e, _⟩
        · rw [hg] at e; exact e
        · rw [hg] at e; cases e
      subst he
      exact hfail (k0 := { k with g := k.g }) rfl rfl rfl hr
    | hang => cases hr
    | ub => cases hr
  | loadMsg hash data n ts w =>
    obtain ⟨r, hr, hc⟩ := Out.bind_eq_ok.1 hc
    cases hc
    obtain ⟨d, hd, hr⟩ := Out.bind_eq_ok.1 hr
    have hi := h.reach.inv h.good
    rcases hg : k.g.load k.G (cStr hash) d ts with ⟨g', o⟩
    rw [hg] at hr
    cases o with
    | ok b =>
      cases hr
      have hp : ∃ f, parseKeyMsg k.G.P k.G.e d ts = .ok f := by
        unfold GState.load at hg
        cases hl : k.g.keys.load k.G.P k.G.e (cStr hash) d ts with
        | ok p =>
          obtain ⟨f, hf, _⟩ := Out.bind_eq_ok.1 hl
          exact ⟨f, hf⟩
        | _ => rw [hl] at hg; cases (Prod.mk.inj hg).2
      obtain ⟨f, hf⟩ := hp
      have hre := GReach.load (hash := cStr hash) h.reach hf (by rw [hg]; rfl)
      rw [hg] at hre
      refine ⟨⟨_, h.good, hre, h.who, h.buf, ?_⟩, fun _ => rfl, (fun hh => by cases hh)⟩
      intro p hp
      rcases List.mem_append.1 hp with hp | hp
      · exact h.nul p hp
      · cases List.mem_singleton.1 hp
        exact cStr_no_nul hash
    | err x =>
      have he := (group_load_only_keys h.good h.reach (cStr hash) d ts).2 (by rw [hg]; intro b hb; cases hb)
      rw [hg] at he
      have he : g' = k.g := he
      subst he
      exact hfail (k0 := { k with g := k.g }) rfl rfl rfl hr
    | hang => cases hr
    | ub => cases hr
  | dump =>
    cases hc
    exact ⟨⟨log, h.good, .dump h.reach, h.who, h.buf, h.nul⟩, fun _ => rfl, (fun hh => by cases hh)⟩
  | supplement s w =>
    obtain ⟨r, hr, hc⟩ := Out.bind_eq_ok.1 hc
    cases hc
    unfold CKeys.supplement at hr
    cases hl : k.g.keys.supplement k.G.P k.G.e (s.map cStr) with
    | ok m => rw [hl] at hr; cases hr; exact ⟨⟨log, h⟩, fun _ => rfl, (fun hh => by cases hh)⟩
    | err x => rw [hl] at hr; exact hfail rfl rfl rfl hr
    | hang => rw [hl] at hr; cases hr
    | ub => rw [hl] at hr; cases hr

/-- **C127.** After any program of calls -/
theorem c_keys_run {U : UPrims} (hU : U.Good) : ∀ (l : List KCall) {k k' : CKeys} {log : List (Bytes × Found)}, k.Ok U log →
    (∀ c ∈ l, (0 : UInt8) ∉ c.what) → k.run U l = .ok k' → ∃ log', k'.Ok U log'
  | [], k, k', log, h, _, hr => by cases hr; exact ⟨log, h⟩
  | c :: t, k, k', log, h, hw, hr => by
    obtain ⟨⟨k1, b⟩, h1, h2⟩ := Out.bind_eq_ok.1 hr
    obtain ⟨⟨log1, h3⟩, _⟩ := c_keys_call hU h c (hw c (by simp)) h1
    exact c_keys_run hU t h3 (fun c hc => hw c (by simp [hc])) h2

/-- … and what an application does with the `Info` and `Members` objects in between keeps it so. -/
theorem c_keys_between {U : UPrims} {k : CKeys} {log : List (Bytes × Found)} (h : k.Ok U log) {c : Client} :
    (AppStep k.G.SI k.g.info c → CKeys.Ok U { k with g := { k.g with info := c } } log) ∧
    (AppStep k.G.SM k.g.members c → CKeys.Ok U { k with g := { k.g with members := c } } log) :=
  ⟨fun hs => ⟨h.good, .info h.reach hs, h.who, h.buf, h.nul⟩, fun hs => ⟨h.good, .members h.reach hs, h.who, h.buf, h.nul⟩⟩

/-- **C127.** The keys by index: for every index a pointer to 32 bytes below `groups_keys_size`, null from there on; the keys there are
those all three objects decrypt with, in their order, and the first is the one they encrypt with. -/
theorem c_keys_by_index {U : UPrims} {k : CKeys} {log : List (Bytes × Found)} (h : k.Ok U log) :
    (∀ n, n < k.size → ∃ x, k.getKey n = .ok (some x) ∧ x.length = 32 ∧ k.g.keys.groupKeys[n]? = some x) ∧
    (∀ n, k.size ≤ n → k.getKey n = .ok none) ∧
    (∀ x, (x ∈ k.g.info.keys ↔ ∃ n, k.getKey n = .ok (some x)) ∧ (x ∈ k.g.members.keys ↔ ∃ n, k.getKey n = .ok (some x))) ∧
    (∀ x, k.getKey 0 = .ok (some x) ↔ k.g.keys.groupEncKey = .ok x) := by
  have hi := h.reach.inv h.good
  have hl := groupKeys_len h.good.p hi.k
  have hsz : k.size = k.g.keys.groupKeys.length := (keys_listed h.good.p hi.k).2.2
  have h1 : ∀ n, n < k.size → ∃ x, k.getKey n = .ok (some x) ∧ x.length = 32 ∧ k.g.keys.groupKeys[n]? = some x := by
    intro n hn
    rw [hsz] at hn
    have hx : k.g.keys.groupKeys[n]? = some k.g.keys.groupKeys[n] := List.getElem?_eq_getElem hn
    have hx32 := hl _ (List.getElem_mem hn)
    refine ⟨_, ?_, hx32, hx⟩
    unfold CKeys.getKey
    rw [if_neg (by omega), hx]
    dsimp only
    rw [readN_exact (by omega)]
    show Out.ok _ = _
    rw [List.take_of_length_le (by omega)]
  have h2 : ∀ n, k.size ≤ n → k.getKey n = .ok none := by
    intro n hn
    unfold CKeys.getKey
    rw [if_pos (by omega)]
  have h3 : ∀ x n, k.getKey n = .ok (some x) ↔ k.g.keys.groupKeys[n]? = some x := by
    intro x n
    by_cases hn : n < k.size
    · obtain ⟨y, y1, _, y3⟩ := h1 n hn
      rw [y1, y3]; simp
    · rw [h2 n (by omega), List.getElem?_eq_none (by omega)]; simp
  obtain ⟨s1, _, _, s4, s5⟩ := group_keys_in_step h.good h.reach
  refine ⟨h1, h2, fun x => ?_, fun x => ?_⟩
  · rw [← s1, s4]
    simp only [h3, List.mem_iff_getElem?]
    exact ⟨trivial, trivial⟩
  · rw [h3, encKey_head, List.head?_eq_getElem?]

/-- **C127.** `groups_keys_current_hashes`, in whatever order: in the block of the size computed a C program reads exactly the
hashes of the messages to keep, each of them complete. -/
theorem c_keys_hashes {U : UPrims} {k : CKeys} {log : List (Bytes × Found)} (h : k.Ok U log) (ord : List Bytes)
    (ho : ∀ x, x ∈ ord ↔ k.g.keys.isCurrentHash x) (b : Blk) (hb : b.mem.length = listSize ord) (hm : b.base + b.mem.length < 2 ^ 64) :
    ∃ b', CKeys.hashes ord b = .ok b' ∧ readList b' = .ok ord := by
  obtain ⟨b', h1, _, h3⟩ := make_string_list_ok ord b hb hm
  refine ⟨b', h1, h3.trans ?_⟩
  congr 1
  have hi := h.reach.inv h.good
  have : ∀ x ∈ ord, upToNul x = x := by
    intro x hx
    obtain ⟨f, hf⟩ := (current_hashes_cover h.good.p hi.k).1 x ((ho x).1 hx)
    have := h.nul _ hf
    unfold upToNul
    rw [List.takeWhile_eq_self_iff]
    intro a ha
    simpa using fun (e : a = 0) => this (e ▸ ha)
  conv_rhs => rw [← List.map_id ord]
  exact List.map_congr_left this

/-- **C127.** Through a dump and a restart with `groups_keys_init`, for `Info` and `Members` objects in whatever state: the new object
has the same keys at the same indices, generation, pending message and hashes to keep, and no need for a dump. -/
theorem c_keys_restart {U : UPrims} {k : CKeys} {log : List (Bytes × Found)} (h : k.Ok U log) (info members : Client)
    (buf error what : Bytes) :
    ∃ d k', (k.dump true).2.ptr = some d ∧ (k.dump true).2.len = d.length ∧
      cKeysInit k.G info members (some d) buf error what = .ok (.inl k') ∧ k'.lastError = none ∧
      (∀ n, k'.getKey n = k.getKey n) ∧ k'.size = k.size ∧ k'.generation = k.generation ∧ k'.pending = k.pending ∧
      (∀ x, k'.g.keys.isCurrentHash x ↔ k.g.keys.isCurrentHash x) ∧ k'.isAdmin = k.isAdmin ∧ k'.needsRekey = k.needsRekey ∧
      k'.needsDump = false ∧ k'.g.info.content = info.content ∧ k'.g.members.content = members.content := by
  have hi := h.reach.inv h.good
  obtain ⟨s, h1, h2, h3, h4, h5, h6, h7, h8, h9, _, _, h12⟩ := keys_restore h.good.p hi.k
  have hr : KReach k.G.P s log := .restore hi.k h1
  have hlen := groupKeys_len h.good.p hr
  have hne : k.g.keys.dump.2 ≠ [] := by
    intro h0
    rw [h0, show loadDump [] = .err .foreign from by rfl] at h1
    cases h1
  have hrest : GState.restore k.G k.g.keys.dump.2 info members =
      .ok ⟨s, { info with keys := dedupKeys s.groupKeys [] }, { members with keys := dedupKeys s.groupKeys [] }⟩ := by
    unfold GState.restore
    rw [h1]
    show Out.bind (GState.giveKeys k.G ⟨s, info, members⟩ false).2 (fun _ => .ok (GState.giveKeys k.G ⟨s, info, members⟩ false).1) = _
    rw [giveKeys_false k.G (g := ⟨s, info, members⟩) hlen]
    rfl
  refine ⟨k.g.keys.dump.2, ⟨k.G, ⟨s, { info with keys := dedupKeys s.groupKeys [] },
    { members with keys := dedupKeys s.groupKeys [] }⟩, buf, false⟩, ?_, rfl, ?_, rfl, ?_, h7, ?_, h4, h8, rfl, h9 _, h12, rfl, rfl⟩
  · unfold CKeys.dump toCBuf
    dsimp only
    rw [if_neg (by simp)]
  · unfold cKeysInit
    generalize k.g.keys.dump.2 = d at hne hrest
    cases d with
    | nil => exact absurd rfl hne
    | cons x t =>
      dsimp only
      rw [hrest]
  · intro n
    unfold CKeys.getKey
    dsimp only
    rw [h5]
  · unfold CKeys.generation
    dsimp only
    rw [h2]

/-- **C127.** A rekey made by an admin through the C interface gives the message to upload, and it is what `groups_keys_pending_config`
then returns.  Loaded through the C interface — from a buffer that may be longer than it — by another admin with no newer pending rekey,
or by a member of the group, who holds no generation that the admin has not seen: it succeeds, and both then have the same key at
index 0. -/
theorem c_rekey_reaches {U : UPrims} {k k' t : CKeys} {log log' : List (Bytes × Found)} (hk : k.Ok U log) (ht : t.Ok U log')
    {si sm : Option (Bytes → Bytes)} (hGD : SameGroup k.G t.G si sm) {sk : Bytes} (hown : OwnKey k.G.P k.G.e sk)
    {w w' msg : Bytes} (hr : k.rekey w = .ok (k', some msg)) (hgen : ∀ x, Got log x → 0 ≤ x.gen)
    (hwho : (t.G.e.groupSk = some sk ∧ (t.pending = none ∨ t.g.keys.pendingGen < k'.g.keys.pendingGen ∨
        t.g.keys.pendingKey = k'.g.keys.pendingKey)) ∨
      (t.G.e.groupSk = none ∧ (∃ x, k.g.members.getMember (t.G.e.sessionId t.G.P) = .ok (some x)) ∧
        ∀ K nonce ms, SharedKey k.G.P.toMPrims (k.G.P.xsk sk) (k.G.P.xsk t.G.e.userSk) kMember K → nonce.length = 24 →
          k.g.members.members = .ok ms → NoConfusion k.G.P K nonce k'.g.keys.pendingKey (ms.map GMember.id) sk))
    (hseen : ∀ x, Got log' x → ∃ y, Got log y ∧ x.gen ≤ y.gen) (hash more : Bytes) {ts : Int} (hts : tsOk ts = true) :
    k'.pending = some msg ∧
    ∃ t' x, t.loadMsg hash (msg ++ more) msg.length ts w' = .ok (t', some ()) ∧
      t'.getKey 0 = .ok (some x) ∧ k'.getKey 0 = .ok (some x) ∧ t'.lastError = t.lastError := by
  unfold CKeys.rekey at hr
  rcases hg : k.g.rekey k.G with ⟨g', o⟩
  rw [hg] at hr
  cases o with
  | err x =>
    exfalso
    obtain ⟨b, _, hb⟩ := Out.bind_eq_ok.1 hr
    cases hb
  | hang => cases hr
  | ub => cases hr
  | ok m =>
  cases hr
  obtain ⟨e1, e2⟩ := group_rekey_effects hk.good hk.reach hg
  have hk' : CKeys.Ok U { k with g := g' } log := ⟨hk.good, e1, hk.who, hk.buf, hk.nul⟩
  obtain ⟨t', l1, ⟨f, l2⟩, l3, _⟩ := group_rekey_reaches hk.good ht.good hGD hown hk.reach hg hgen ht.reach hwho hseen (cStr hash) hts
  have ht' : ∃ log'', CKeys.Ok U { t with g := t' } log'' := by
    refine ⟨_, ht.good, l2, ht.who, ht.buf, ?_⟩
    intro p hp
    rcases List.mem_append.1 hp with hp | hp
    · exact ht.nul p hp
    · cases List.mem_singleton.1 hp
      exact cStr_no_nul hash
  obtain ⟨log'', ht'⟩ := ht'
  have i1 := (c_keys_by_index hk').2.2.2
  have i2 := (c_keys_by_index ht').2.2.2
  refine ⟨?_, { t with g := t' }, g'.keys.pendingKey, ?_, ?_, ?_, rfl⟩
  · exact e2.1
  · unfold CKeys.loadMsg
    rw [readN_append]
    show (match t.g.load t.G (cStr hash) msg ts with
      | (g, .ok _) => Out.ok ({ t with g := g }, some ())
      | (g, .err _) => { t with g := g }.fail w'
      | (_, .hang) => .hang
      | (_, .ub) => .ub) = _
    rw [l1]
  · rw [i2]
    exact l3.trans e2.2.2.2.1
  · rw [i1]
    exact e2.2.2.2.1

/-- **C127, a part.** `groups_keys_current_generation` is that of the newest key the device was given, and 0 before the first — as long
as it fits an `int`: `current_generation` converts it (see `c_keys_generation_wraps`). -/
theorem c_keys_generation_partial {U : UPrims} {k : CKeys} {log : List (Bytes × Found)} (h : k.Ok U log) (hone : SameTimes log) :
    ((∀ x, ¬ Got log x) → k.generation = 0) ∧
    ((∃ x, Got log x) → ∃ m, Got log m ∧ (∀ x, Got log x → x.gen ≤ m.gen) ∧ (int32Ok m.gen = true → k.generation = m.gen)) := by
  have hr := (h.reach.inv h.good).k
  obtain ⟨hi, _⟩ := hr.inv h.good.p
  constructor
  · intro hno
    unfold CKeys.generation
    cases hl : k.g.keys.keys.getLast? with
    | none => rfl
    | some m =>
      exfalso
      obtain ⟨y, hy, _⟩ := hi.alive m (getLast_mem hl)
      exact hno m ⟨y, hy⟩
  · rintro ⟨x, z, hz⟩
    obtain ⟨m, hm, _⟩ := hi.top (sameTimes_oneTime hone) z x hz
    obtain ⟨y, hy, _⟩ := hi.alive m (getLast_mem hm)
    refine ⟨m, ⟨y, hy⟩, ?_, ?_⟩
    · rintro k' ⟨z, hz⟩
      obtain ⟨m', hm', hle⟩ := hi.top (sameTimes_oneTime hone) z k' hz
      rw [hm] at hm'
      cases hm'
      rcases notOlder_iff.2 hle with h | h
      · omega
      · omega
    · intro hm32
      unfold CKeys.generation
      rw [hm]
      exact toInt32_of_ok hm32

/-- A new object, of an admin and of a member -/
def cNew (G : GroupSys) : CKeys := ⟨G, GState.new G, List.replicate 256 0, false⟩

theorem cNew_init (G : GroupSys) (error what : Bytes) :
    cKeysInit G (GState.new G).info (GState.new G).members none (List.replicate 256 0) error what = .ok (.inl (cNew G)) := rfl

theorem cNew_ok {U : UPrims} {G : GroupSys} (hG : G.Good) (hw : G.MemberDevice U ∨ G.e.admin = true) : (cNew G).Ok U [] :=
  ⟨hG, .new, hw, List.length_replicate .., by simp⟩

/-- **C127.** … and beyond that it is something else: an admin who loads a message with a key of generation 2^31 has it as the key to
encrypt with, and is told by the C interface that the generation is negative. -/
theorem c_keys_generation_wraps : ∃ data k' log, (cNew gG).loadMsg [1, 0] data data.length 1000 [] = .ok (k', some ()) ∧ k'.Ok toyU log ∧
    k'.size = 1 ∧ k'.getKey 0 = .ok (some gKeyA) ∧ (∀ x, Got log x → x.gen = 2 ^ 31) ∧ k'.generation = -2 ^ 31 := by
  obtain ⟨data, hd⟩ := message_exists toyG_good gAdmin_own (k := ⟨2 ^ 31, 1000, gKeyA⟩) (by decide +kernel) (by decide)
  have hp : parseKeyMsg gG.P gG.e data 1000 = .ok ⟨[⟨2 ^ 31, 1000, gKeyA⟩], none⟩ := hd
  have hl : GKeys.init.load gG.P gG.e [1] data 1000 = .ok (GKeys.init.apply true [1] ⟨[⟨2 ^ 31, 1000, gKeyA⟩], none⟩) := by
    unfold GKeys.load
    rw [hp, Out.bind_ok]
    rfl
  have hap : GKeys.init.apply true [1] ⟨[⟨2 ^ 31, 1000, gKeyA⟩], none⟩ =
      ((GKeys.init.apply true [1] ⟨[⟨2 ^ 31, 1000, gKeyA⟩], none⟩).1, true) := by rfl
  rw [hap] at hl
  obtain ⟨hh1, hh2⟩ := ((GReach.new : GReach gG (GState.new gG) []).inv gG_good).load_ok gG_good hl
  have hre := GReach.load (hash := [1]) (GReach.new : GReach gG (GState.new gG) []) hp (by rw [hh1]; rfl)
  rw [hh2] at hre
  refine ⟨data, ⟨gG, ⟨_, _, _⟩, List.replicate 256 0, false⟩, _, ?_, ⟨gG_good, hre, .inr rfl, List.length_replicate .., by simp⟩,
    by decide +kernel, by decide +kernel, ?_, by decide +kernel⟩
  · unfold CKeys.loadMsg
    rw [readN_exact (Nat.le_refl _), List.take_length]
    have hpair : (GState.new gG).load gG [1] data 1000 = (_, _) := Prod.ext hh2 hh1
    have hc : cStr [1, 0] = [1] := by decide
    rw [hc]
    show (match (GState.new gG).load gG [1] data 1000 with
      | (g, .ok _) => Out.ok ({ cNew gG with g := g }, some ())
      | (g, .err _) => { cNew gG with g := g }.fail []
      | (_, .hang) => .hang
      | (_, .ub) => .ub) = _
    rw [hpair]
    rfl
  · rintro x ⟨y, f, hf, hx⟩
    simp only [List.nil_append, List.mem_singleton, Prod.mk.injEq] at hf
    obtain ⟨rfl, rfl⟩ := hf
    rw [List.mem_singleton.1 hx]

/-- A member's device, in a history: it loads an admin's rekey, is told of a wrong admin key, takes the right one, and rekeys -/
def exKCalls : List KCall :=
  [.loadMsg [1, 0] (gMmsg ++ [7]) gMmsg.length 1000 [], .loadAdmin (List.replicate 32 8) [98, 97, 100], .loadAdmin gSk [], .dump]

example : ((cNew gMD).run toyU exKCalls).isOk = true ∧
    (((cNew gMD).run toyU exKCalls).toOption.map fun k => (k.isAdmin, k.size, k.lastError, k.needsDump, k.generation)) =
      some (true, 1, some [98, 97, 100], false, 0) := by
  decide +kernel

/-- C127 applied to it. -/
example : ∃ k' log', (cNew gMD).run toyU exKCalls = .ok k' ∧ k'.Ok toyU log' ∧ (∃ x, k'.getKey 0 = .ok (some x) ∧ x.length = 32) := by
  have h1 : ((cNew gMD).run toyU exKCalls).isOk = true := by decide +kernel
  have h2 : (((cNew gMD).run toyU exKCalls).toOption.map fun k => k.size) = some 1 := by decide +kernel
  cases h : (cNew gMD).run toyU exKCalls with
  | err _ => rw [h] at h1; cases h1
  | hang => rw [h] at h1; cases h1
  | ub => rw [h] at h1; cases h1
  | ok k' =>
    rw [h] at h2
    obtain ⟨log', hok⟩ := c_keys_run toyU_good exKCalls (cNew_ok gMD_good (.inl gMD_member)) (by decide) h
    have hsz : k'.size = 1 := Option.some.inj h2
    obtain ⟨x, x1, x2, _⟩ := (c_keys_by_index hok).1 0 (by omega)
    exact ⟨k', log', rfl, hok, x, x1, x2⟩

/-- The admin of that group, before the rekey -/
def gMA0 : GState := ⟨.init, Client.new gMA.SI, gMms⟩

theorem gMA_good : gMA.Good := by
  have h := ((load_admin_key toyU_good gMD_good gMD_member gSk).2 gMP gMP_eq).1
  exact ⟨h.p, h.i, h.m, rfl, rfl⟩

theorem gMA0_reach : GReach gMA gMA0 [] := by
  have h1 : GReach gMA (GState.new gMA) [] := .new
  have a1 : (Client.new gMA.SM).setMember gMA.SM gm1 = (((Client.new gMA.SM).setMember gMA.SM gm1).1, .ok ()) := pair_ok (by decide +kernel)
  have a2 : ((Client.new gMA.SM).setMember gMA.SM gm1).1.setMember gMA.SM gm2 = (gMms, .ok ()) := pair_ok (by decide +kernel)
  have hm1 : Reach gMA.SM (Client.new gMA.SM) := (h1.inv gMA_good).m
  have e1 := setRec_edits gMA_good.m hm1 (fun _ => gmember_fields_wf (m := gm1) (by decide)) a1
  have hm2 := (gmember_set_get gMA_good.m hm1 (m := gm1) (by decide) a1).1
  have e2 := setRec_edits gMA_good.m hm2 (fun _ => gmember_fields_wf (m := gm2) (by decide)) a2
  exact h1.editMembers (e1.trans e2)

/-- `c_rekey_reaches` applied to it. -/
example : ∃ k' msg t' x, CKeys.rekey ⟨gMA, gMA0, List.replicate 256 0, false⟩ [] = .ok (k', some msg) ∧
    (cNew gMD).loadMsg [1, 0] (msg ++ [7]) msg.length 1000 [] = .ok (t', some ()) ∧
    t'.getKey 0 = .ok (some x) ∧ k'.getKey 0 = .ok (some x) := by
  have hr : gMA0.rekey gMA = ((gMA0.rekey gMA).1, .ok gMmsg) :=
    Prod.ext rfl (by decide +kernel : (gMA0.rekey gMA).2 = .ok gMmsg)
  have hrc : CKeys.rekey ⟨gMA, gMA0, List.replicate 256 0, false⟩ [] =
      .ok (⟨gMA, (gMA0.rekey gMA).1, List.replicate 256 0, false⟩, some gMmsg) := by
    unfold CKeys.rekey
    dsimp only
    rw [hr]
  obtain ⟨_, t', x, l1, l2, l3, _⟩ := c_rekey_reaches (U := toyU) (k := ⟨gMA, gMA0, List.replicate 256 0, false⟩) (t := cNew gMD)
    ⟨gMA_good, gMA0_reach, .inr rfl, List.length_replicate .., by simp⟩ (cNew_ok gMD_good (.inl gMD_member))
    (si := none) (sm := none) ⟨rfl, rfl, rfl, rfl⟩ (sk := gSk) ⟨rfl, rfl⟩ hrc (by rintro x ⟨_, _, hx, _⟩; cases hx)
    (.inr ⟨rfl, ⟨gm1, by decide +kernel⟩, fun K nonce ms hK hn hms =>
      noConfusion_toy (u := gU1) (v := gU2) hn (by decide +kernel) hK (by
        have : gMA0.members.members = .ok [gm1, gm2] := by decide +kernel
        have hms : gMA0.members.members = .ok ms := hms
        rw [this] at hms
        cases hms
        simp only [List.map_cons, List.map_nil, List.mem_cons, List.not_mem_nil, or_false]
        rintro x (rfl | rfl)
        · exact .inl rfl
        · exact .inr rfl)⟩)
    (by rintro x ⟨_, _, hx, _⟩; cases hx) [1, 0] [7] (ts := 1000) (w' := []) (by decide +kernel)
  exact ⟨_, gMmsg, t', x, hrc, l1, l2, l3⟩

/-- **C127.** `groups_keys_load_admin_key` on a member's device, given a pointer to 32 bytes, whatever follows them: it returns true
exactly if they are the seed of the group's key.  Then the device is an admin's with that key, and the three objects hold what they held
before; otherwise it is still a member's, and the exception's text is in `last_error`. -/
theorem c_load_admin {U : UPrims} (hU : U.Good) {k : CKeys} {log : List (Bytes × Found)} (h : k.Ok U log) (hm : k.G.MemberDevice U)
    {seed : Bytes} (hs : seed.length = 32) (more : Bytes) {what : Bytes} (h0 : (0 : UInt8) ∉ what) :
    ∃ k' b, k.call U (.loadAdmin (seed ++ more) what) = .ok (k', b) ∧
      (b = true ↔ U.edPub (U.keypair seed) = k.G.e.groupPk) ∧ k'.g = k.g ∧ k'.isAdmin = b ∧
      (b = true → OwnKey k'.G.P k'.G.e (U.keypair seed) ∧ k'.lastError = k.lastError) ∧
      (b = false → k'.G = k.G ∧ k'.lastError = some (what.take 255)) := by
  have hb1 : ∀ {α β : Type} (a : α) (f : α → Out β), Out.bind (.ok a) f = f a := fun _ _ => rfl
  have hrd : readN (seed ++ more) 32 = .ok seed := by
    have := readN_append seed more
    rwa [hs] at this
  have htk : seed.take 32 = seed := List.take_of_length_le (by omega)
  have hna : k.G.e.admin = false := by simp [GEnv.admin, hm.k]
  obtain ⟨l1, l2⟩ := load_admin_key hU h.good hm seed
  rw [htk] at l1 l2
  have hcall : ∀ o, k.G.loadAdminKey U seed = o → k.call U (.loadAdmin (seed ++ more) what) =
      Out.bind (match (motive := Out GroupSys → Out (CKeys × Option Unit)) o with
        | .ok G => .ok ({ k with G := G }, some ())
        | .err _ => k.fail what
        | .hang => .hang
        | .ub => .ub) fun r => .ok (r.1, r.2.isSome) := by
    intro o ho
    show Out.bind (Out.bind (readN (seed ++ more) 32) _) _ = _
    rw [hrd, hb1, ho]
    cases o <;> rfl
  by_cases hpk : U.edPub (U.keypair seed) = k.G.e.groupPk
  · obtain ⟨G', hG'⟩ := l1.2 ⟨.inl hs, hpk⟩
    obtain ⟨_, g2, _⟩ := l2 G' hG'
    refine ⟨{ k with G := G' }, true, hcall _ hG', by simp [hpk], rfl, ?_, fun _ => ⟨g2, rfl⟩, (fun hh => by cases hh)⟩
    simp [CKeys.isAdmin, GEnv.admin, g2.1]
  · obtain ⟨k', f1, f2, f3, _, f5⟩ := fail_spec (R := Unit) h.buf h0
    obtain ⟨x, hx⟩ : ∃ x, k.G.loadAdminKey U seed = .err x := by
      refine ⟨.foreign, ?_⟩
      have he : k.G.e.loadAdminKey U seed = .err .foreign := by
        unfold GEnv.loadAdminKey
        rw [if_neg (by simp [hna]), if_neg (by omega)]
        dsimp only
        rw [htk, if_pos (fun hh => hpk hh.symm)]
      unfold GroupSys.loadAdminKey
      rw [he]
    refine ⟨k', false, ?_, by simp [hpk], f3, ?_, (fun hh => by cases hh), fun _ => ⟨f2, f5⟩⟩
    · rw [hcall _ hx, f1]; rfl
    · unfold CKeys.isAdmin; rw [f2]; exact hna

/-- C127 for an example. -/
example : ∃ k' b, (cNew gMD).call toyU (.loadAdmin (List.replicate 32 8 ++ [1, 2]) [98]) = .ok (k', b) ∧ k'.isAdmin = b := by
  obtain ⟨k', b, h1, _, _, h4, _⟩ := c_load_admin toyU_good (cNew_ok gMD_good (.inl gMD_member)) gMD_member
    (seed := List.replicate 32 8) (by simp) [1, 2] (what := [98]) (by decide)
  exact ⟨k', b, h1, h4⟩

end Verif
