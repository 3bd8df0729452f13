import Verif.Props.Concurrent
/-!
C142: merging and updating follow the procedure of docs/config-merge-logic.md ("Non-conflicting updates",
"Conflict resolution").
-/
namespace Verif

/-! ## The documented procedure -/

/-- A recorded change: its rank (seqno, hash), the full data of the message that records it, what it says. -/
abbrev Recorded : Type := SH × (Dict × BtDict)

/-- Steps 4 and 5. The replay set of the messages `cur`, in order of rank: the own diff of every message, and of the
past diffs recent enough those that are not the own diff of one of the messages, each taken from the highest message that
records it. -/
structure ReplaySet (cur : Msg → Prop) (recent : Int → Prop) (rs : List Recorded) : Prop where
  order : rs.Pairwise (fun a b => a.1 < b.1)
  made_of : ∀ s src df, (s, (src, df)) ∈ rs ↔ ∃ m, cur m ∧ src = m.data ∧
    ((s = m.sh ∧ df = m.diff) ∨
      ((s, df) ∈ m.lagged ∧ recent s.1 ∧ (∀ m', cur m' → m'.sh ≠ s) ∧
        ∀ m', cur m' → m.sh < m'.sh → ∀ df', (s, df') ∉ m'.lagged))

/-- Step 6. Replaying the changes in order on top of `start`: the last change that says something about a
leaf (a scalar at a path, an element of a set at a path) decides it, other leaves stay; nothing empty is left. -/
structure Replayed (rs : List Recorded) (start result : Dict) : Prop where
  scalar_last : ∀ p c v, c ∈ rs → effScalar c.2.2 c.2.1 p = some v →
    (∀ e ∈ rs, c.1 < e.1 → effScalar e.2.2 e.2.1 p = none) → scalarAt result p = v
  scalar_kept : ∀ p, (∀ e ∈ rs, effScalar e.2.2 e.2.1 p = none) → scalarAt result p = scalarAt start p
  member_last : ∀ p x c v, c ∈ rs → effMember c.2.2 c.2.1 p x = some v →
    (∀ e ∈ rs, c.1 < e.1 → effMember e.2.2 e.2.1 p x = none) → memberAt result p x = v
  member_kept : ∀ p x, (∀ e ∈ rs, effMember e.2.2 e.2.1 p x = none) → memberAt result p x = memberAt start p x
  pruned : wfD result = true

/-- The whole procedure, for the messages `cur`, the replay set being cut off by `recent` (given the new seqno). -/
structure Procedure (cur : Msg → Prop) (recent : Int → Int → Prop) (highest : Msg) (rs : List Recorded) (R : Msg) : Prop where
  top : cur highest ∧ ∀ m, cur m → m.sh ≤ highest.sh
  seqno : R.seqno = highest.seqno + 1
  replay : ReplaySet cur (recent R.seqno) rs
  data : Replayed rs highest.data R.data
  lagged : R.lagged = rs.map fun c => (c.1, c.2.2)
  diff : R.diff = []

/-- The documented cutoff, and none. -/
def within (lag : Int) : Int → Int → Prop := fun new s => new - lag ≤ s
def anyAge : Int → Int → Prop := fun _ _ => True

/-! ## The procedure determines the result -/

theorem replaySet_unique {cur : Msg → Prop} {recent : Int → Prop} {rs rs' : List Recorded} (h : ReplaySet cur recent rs)
    (h' : ReplaySet cur recent rs') : rs = rs' := by
  have k : KSorted rs := h.order
  have k' : KSorted rs' := h'.order
  refine map_ext k k' fun s => ?_
  have hiff : ∀ e, mget s rs = some e ↔ mget s rs' = some e := fun e => by
    rw [mget_iff_mem k, mget_iff_mem k']
    exact (h.made_of s e.1 e.2).trans (h'.made_of s e.1 e.2).symm
  exact Option.ext fun e => by simpa using hiff e

theorem replayed_unique {rs : List Recorded} (hs : rs.Pairwise (fun a b => a.1 < b.1)) {start a b : Dict}
    (ha : Replayed rs start a) (hb : Replayed rs start b) : a = b := by
  refine content_ext ha.pruned hb.pruned (fun p => ?_) fun p x => ?_
  · cases hl : lastScalar p rs with
    | none =>
      have := lastScalar_eq_none.1 hl
      rw [ha.scalar_kept p this, hb.scalar_kept p this]
    | some v =>
      obtain ⟨c, h1, h2, h3⟩ := lastScalar_some hs hl
      rw [ha.scalar_last p c v h1 h2 h3, hb.scalar_last p c v h1 h2 h3]
  · cases hl : lastMember p x rs with
    | none =>
      have := lastMember_eq_none.1 hl
      rw [ha.member_kept p x this, hb.member_kept p x this]
    | some v =>
      obtain ⟨c, h1, h2, h3⟩ := lastMember_some hs hl
      rw [ha.member_last p x c v h1 h2 h3, hb.member_last p x c v h1 h2 h3]

/-- **The procedure leaves nothing open**: two results obtained from the same messages have the same seqno, data,
history and diff. -/
theorem procedure_unique {cur : Msg → Prop} (hn : ∀ a b, cur a → cur b → a.sh = b.sh → a = b) {recent : Int → Int → Prop} {t t' : Msg}
    {rs rs' : List Recorded} {R R' : Msg} (h : Procedure cur recent t rs R) (h' : Procedure cur recent t' rs' R') :
    R.seqno = R'.seqno ∧ R.data = R'.data ∧ R.lagged = R'.lagged ∧ R.diff = R'.diff := by
  have ht : t = t' := hn _ _ h.top.1 h'.top.1 (le_antisymm (h'.top.2 _ h.top.1) (h.top.2 _ h'.top.1))
  subst ht
  have hq : R.seqno = R'.seqno := h.seqno.trans h'.seqno.symm
  have hrs : rs = rs' := replaySet_unique h.replay (by rw [hq]; exact h'.replay)
  subst hrs
  exact ⟨hq, replayed_unique h.replay.order h.data h'.data, h.lagged.trans h'.lagged.symm, h.diff.trans h'.diff.symm⟩

/-! ## The code follows it -/

theorem applyReplay_replayed {rp : List Recorded} (hs : KSorted rp) {d r : Dict} (hd : typedD d = true)
    (hr : ∀ e ∈ rp, typedD e.2.1 = true ∧ loadD none e.2.2 = .ok e.2.2) (h : applyReplay rp d = .ok r) :
    Replayed rp d (pruneD r) := by
  obtain ⟨h1, h2, h3⟩ := applyReplay_spec hd hr h
  refine ⟨fun p c v hc hv hh => ?_, fun p hn => ?_, fun p x c v hc hv hh => ?_, fun p x hn => ?_, pruneD_wf h1⟩
  · rw [scalarAt_pruneD p r h1, h2, lastScalar_eq hs hc hv hh]; rfl
  · rw [scalarAt_pruneD p r h1, h2, lastScalar_eq_none.2 hn]; rfl
  · rw [memberAt_pruneD p r h1 x, h3, lastMember_eq hs hc hv hh]; rfl
  · rw [memberAt_pruneD p r h1 x, h3, lastMember_eq_none.2 hn]; rfl

theorem replayOf_set {lag : Int} {cs ms : List Msg} (hd : ms.Pairwise (fun a b => b.sh < a.sh))
    (hk : ∀ c, c ∈ ms ↔ Current lag cs c) (hw : ∀ m ∈ ms, MsgWF m) :
    ReplaySet (Current lag cs) (fun _ => True) (replayOf ms) := by
  obtain ⟨hs, hm⟩ := replayOf_spec (ms := ms) fun m hm => (hw m hm).lagS
  refine ⟨hs, fun s src df => ?_⟩
  rw [← mget_iff_mem hs, hm, List.findSome?_eq_some_iff]
  constructor
  · rintro ⟨l1, m, l2, rfl, he, hno⟩
    have hcur : Current lag cs m := (hk m).1 (by simp)
    obtain ⟨e1, e2⟩ := entry_cases he
    refine ⟨m, hcur, e1, ?_⟩
    rcases e2 with e2 | e2
    · exact .inl e2
    · have hmem := mem_of_mget e2
      refine .inr ⟨hmem, trivial, fun m' hm' hsh => hm'.2.1 m hcur.1 _ hmem hsh.symm, fun m' hm' hlt df' hdf => ?_⟩
      have hm1 : m' ∈ l1 := by
        rcases List.mem_append.1 ((hk m').2 hm') with h | h
        · exact h
        · rcases List.mem_cons.1 h with rfl | h
          · exact absurd hlt (lt_irrefl _)
          · have := List.rel_of_pairwise_cons (List.pairwise_append.1 hd).2.1 h
            exact absurd (lt_trans hlt this) (lt_irrefl _)
      have hnone := hno m' hm1
      have hsome := entry_some_of (c := m') (s := s) (.inr ⟨_, hdf, rfl⟩)
      rw [hnone] at hsome; cases hsome
  · rintro ⟨m, hcur, rfl, hcase⟩
    obtain ⟨l1, l2, rfl⟩ := List.append_of_mem ((hk m).2 hcur)
    have hhi : ∀ x ∈ l1, Current lag cs x ∧ m.sh < x.sh := fun x hx =>
      ⟨(hk x).1 (by simp [hx]), (List.pairwise_append.1 hd).2.2 x hx m (by simp)⟩
    refine ⟨l1, m, l2, rfl, ?_, fun x hx => ?_⟩
    · unfold Msg.entry
      rcases hcase with ⟨rfl, rfl⟩ | ⟨hmem, _, hown, _⟩
      · rw [if_pos rfl]
      · rw [if_neg (hown m hcur).symm, mget_of_mem (hw m (by simp)).lagS hmem]; rfl
    · obtain ⟨hxc, hxl⟩ := hhi x hx
      unfold Msg.entry
      rcases hcase with ⟨rfl, rfl⟩ | ⟨hmem, _, hown, hno⟩
      · rw [if_neg (ne_of_lt hxl)]
        cases hg : mget m.sh x.lagged with
        | none => rfl
        | some df' => exact absurd rfl (hcur.2.1 x hxc.1 _ (mem_of_mget hg))
      · rw [if_neg (hown x hxc).symm]
        cases hg : mget s x.lagged with
        | none => rfl
        | some df' => exact absurd (mem_of_mget hg) (hno x hxc hxl df')

/-- **Merging follows the documented procedure, without its cutoff** (C142, as far as it holds). Whenever messages are really merged
(not just the highest taken), the result is that of the procedure for the messages that are current in the batch, except that past
diffs are replayed however old they are. -/
theorem merge_follows_procedure_partial {env : Env} (hlag : 1 ≤ env.lag) {inputs : List Bytes} (hc : NoCollision env inputs) {R : Msg}
    {bad : List Nat} (h : mergeMsgs env inputs = .ok (R, bad)) (hreal : R.unmerged = -1) :
    ∃ highest rs, Procedure (Current env.lag (validOf env inputs)) anyAge highest rs R := by
  obtain ⟨_, hp⟩ := mergeMsgs_ok_iff.1 ⟨bad, h⟩
  obtain ⟨hne, ho⟩ := mergeParsed_pre hp
  have hg := goodBatch_of hc
  obtain ⟨top, ht, hmax, hcase⟩ := mergeParsed_cases hlag hne hg ho
  rcases hcase with ⟨_, i, _, hR⟩ | ⟨_, rest, hsort, hR⟩
  · rw [hR] at hp; cases hp; simp only at hreal; omega
  rw [hR] at hp
  obtain ⟨_, d, hd, r1, r2, r3, _, r5, _⟩ := mergeKept_ok hp
  obtain ⟨k1, k2⟩ := keptSorted_spec (lag := env.lag) hg
  rw [hsort] at k1
  have hkept : ∀ m, m ∈ top :: rest ↔ Current env.lag (validOf env inputs) m := fun m => by
    rw [← hsort]; exact k2 m
  have hwf : ∀ m ∈ top :: rest, MsgWF m := fun m hm => valid_wf m ((hkept m).1 hm).1
  have hset := replayOf_set k1 hkept hwf
  refine ⟨top, replayOf (top :: rest), ⟨(hkept top).1 List.mem_cons_self, fun m hm => hmax m hm.1⟩, ?_, hset, ?_, r3, r2⟩
  · rw [r5, ← max_seqno_eq hg.range ht hmax]
  · rw [r1]
    exact applyReplay_replayed hset.order (wfD_typed (hwf top List.mem_cons_self).data) (replay_typed hwf) hd

theorem ReplaySet.weaken {cur : Msg → Prop} {recent : Int → Prop} {rs : List Recorded} (h : ReplaySet cur (fun _ => True) rs)
    (hr : ∀ m, cur m → ∀ p ∈ m.lagged, recent p.1.1) : ReplaySet cur recent rs := by
  refine ⟨h.order, fun s src df => (h.made_of s src df).trans ⟨?_, ?_⟩⟩
  · rintro ⟨m, h1, h2, h3 | ⟨h3, _, h4⟩⟩
    · exact ⟨m, h1, h2, .inl h3⟩
    · exact ⟨m, h1, h2, .inr ⟨h3, hr m h1 _ h3, h4⟩⟩
  · rintro ⟨m, h1, h2, h3 | ⟨h3, _, h4⟩⟩
    · exact ⟨m, h1, h2, .inl h3⟩
    · exact ⟨m, h1, h2, .inr ⟨h3, trivial, h4⟩⟩

/-- **Merging follows the documented procedure** when no current message records a change older than the
cutoff; -/
theorem merge_documented_partial {env : Env} (hlag : 1 ≤ env.lag) {inputs : List Bytes} (hc : NoCollision env inputs) {R : Msg}
    {bad : List Nat} (h : mergeMsgs env inputs = .ok (R, bad)) (hreal : R.unmerged = -1)
    (hnew : ∀ m, Current env.lag (validOf env inputs) m → ∀ p ∈ m.lagged, R.seqno - env.lag ≤ p.1.1) :
    ∃ highest rs, Procedure (Current env.lag (validOf env inputs)) (within env.lag) highest rs R := by
  obtain ⟨t, rs, hp⟩ := merge_follows_procedure_partial hlag hc h hreal
  exact ⟨t, rs, hp.top, hp.seqno, hp.replay.weaken hnew, hp.data, hp.lagged, hp.diff⟩

/-- in particular when all current messages have the same seqno, the usual conflict. -/
theorem merge_same_seqno_documented {env : Env} (hlag : 1 ≤ env.lag) {inputs : List Bytes} (hc : NoCollision env inputs) {R : Msg}
    {bad : List Nat} (h : mergeMsgs env inputs = .ok (R, bad)) (hreal : R.unmerged = -1)
    (hsame : ∀ a b, Current env.lag (validOf env inputs) a → Current env.lag (validOf env inputs) b → a.seqno = b.seqno) :
    ∃ highest rs, Procedure (Current env.lag (validOf env inputs)) (within env.lag) highest rs R := by
  obtain ⟨t, rs, hp⟩ := merge_follows_procedure_partial hlag hc h hreal
  refine ⟨t, rs, hp.top, hp.seqno, hp.replay.weaken fun m hm p hpm => ?_, hp.data, hp.lagged, hp.diff⟩
  obtain ⟨b, _, hb⟩ := mem_validOf.1 hm.1
  have := (accepted_lag_window hb p hpm).1
  have := hsame m t hm hp.top.1
  have := hp.seqno
  show R.seqno - env.lag ≤ p.1.1
  omega

/-- Steps 7 and 8: what others read once the merge is published, with the changes `d` made on top of it (none:
`d = R.data`). -/
theorem merge_published {env : Env} (hs : env.Sane) {inputs : List Bytes} {R : Msg} {bad : List Nat}
    (h : mergeMsgs env inputs = .ok (R, bad)) (hreal : R.unmerged = -1) {d : Dict} (hd : typedD d = true)
    (hub : int64Ok (R.seqno - env.lag) = true) {c : Conf} (hcc : c = ⟨{ R with data := d }, some R.data⟩)
    (hv : ∀ v, env.verifier = some v → ∃ s, c.refresh.m.sig env true = some s ∧ v (c.refresh.m.body env.lag) s = true) :
    ∃ r, parseMsg env false (c.ser env true) = .ok r ∧ r.seqno = R.seqno ∧ r.data = pruneD d ∧
      r.diff = diffD R.data (pruneD d) ∧
      ∀ p, p ∈ r.lagged ↔ p ∈ R.lagged ∧ R.seqno - env.lag < p.1.1 ∧ p.1.1 < R.seqno := by
  have hm : Made env (mutFromMerge env R) := Made.mergedMut h hreal
  have he : mutFromMerge env R = ⟨R, some R.data⟩ := by unfold mutFromMerge; rw [if_pos hreal]
  rw [he] at hm
  have hm2 : Made env c := by rw [hcc]; exact Made.edit hm rfl hd
  obtain ⟨r, h1, h2, h3, h4, _, h6, _⟩ := config_roundtrip hs hm2 false (by rw [hcc]; exact hub) hv
  refine ⟨r, h1, ?_, ?_, ?_, ?_⟩
  · rw [h4, hcc]
  · rw [h2, hcc]
  · rw [h3, hcc]
  · intro p; rw [h6 p, hcc]

/-- **A plain update follows the documented procedure** ("Non-conflicting updates"): starting from one accepted message `m` and
writing the content `d`, what others read has the next seqno; as past diffs those of `m` and `m`'s own, with its rank, less
those that are too old; and as diff the differences from `m`. -/
theorem update_follows_procedure {env : Env} (hs : env.Sane) {bs : Bytes} {m : Msg} (hm : parseMsg env false bs = .ok m)
    (hn : int64Ok (m.seqno + 1) = true) (hub : int64Ok (m.seqno + 1 - env.lag) = true) {d : Dict} (hd : typedD d = true) {c : Conf}
    (hcc : c = { Conf.increment env ⟨m, none⟩ with m := { (Conf.increment env ⟨m, none⟩).m with data := d } })
    (hv : ∀ v, env.verifier = some v → ∃ s, c.refresh.m.sig env true = some s ∧ v (c.refresh.m.body env.lag) s = true) :
    ∃ r, parseMsg env false (c.ser env true) = .ok r ∧ r.seqno = m.seqno + 1 ∧ r.data = pruneD d ∧ r.diff = diffD m.data (pruneD d) ∧
      KSorted r.lagged ∧
      ∀ p, p ∈ r.lagged ↔ (p ∈ m.lagged ∨ p = (m.sh, m.diff)) ∧ m.seqno + 1 - env.lag < p.1.1 := by
  have h0 : Made env ⟨m, none⟩ := Made.parsed hm
  have hw := h0.wf hs
  have hinc : (Conf.increment env ⟨m, none⟩).m.lagged = lagsForNext m.seqno env.lag m.lagged ++ [(m.sh, m.diff)] :=
    memplace_last (fun p hp => sh_lt_of_fst (hw.window p ((lagsForNext_sublist _ _ _).subset hp))) _
  have h1 : Made env (Conf.increment env ⟨m, none⟩) := Made.increment h0 hn
  have h2 : Made env c := by rw [hcc]; exact Made.edit h1 rfl hd
  obtain ⟨r, a1, a2, a3, a4, _, a6, a7, _⟩ := config_roundtrip hs h2 false (by rw [hcc]; exact hub) hv
  refine ⟨r, a1, ?_, ?_, ?_, a7, fun p => ?_⟩
  · rw [a4, hcc]; rfl
  · rw [a2, hcc]
  · rw [a3, hcc]; rfl
  · rw [a6 p, hcc]
    show p ∈ (Conf.increment env ⟨m, none⟩).m.lagged ∧ m.seqno + 1 - env.lag < p.1.1 ∧ p.1.1 < m.seqno + 1 ↔ _
    rw [hinc, List.mem_append, List.mem_singleton]
    have hmem : ∀ p, p ∈ lagsForNext m.seqno env.lag m.lagged ↔ p ∈ m.lagged ∧ m.seqno - env.lag < p.1.1 :=
      fun p => mem_lagsForNext hw.lagS hw.window
    rw [hmem]
    constructor
    · rintro ⟨h | h, h3, h4⟩
      · exact ⟨.inl h.1, h3⟩
      · exact ⟨.inr h, h3⟩
    · rintro ⟨h | h, h3⟩
      · have := hw.window p h
        have h5 : p.1.1 < m.seqno := this
        exact ⟨.inl ⟨h, by omega⟩, h3, by omega⟩
      · refine ⟨.inr h, h3, ?_⟩
        rw [h]; show m.seqno < m.seqno + 1; omega

/-! ## The documented cutoff is not applied -/

/-- One more update of a config, writing `d`. -/
def exNext (c : Conf) (d : Dict) : Conf :=
  let c := c.increment exEnvH
  { c with m := { c.m with data := d } }

/-- Two devices go on from `exConf` (seqno 3) without seeing each other: both set `a` in update 4 (one to 1, one to 2);
one then makes one more update, the other five. -/
def exSlow4 : Conf := exNext exConf [([97], .scalar (.int 1))]
def exSlow5 : Conf := exNext exSlow4 [([97], .scalar (.int 1)), ([98], .scalar (.int 1))]
def exFast4 : Conf := exNext exConf [([97], .scalar (.int 2))]
def exFast5 : Conf := exNext exFast4 [([97], .scalar (.int 2)), ([99], .scalar (.int 5))]
def exFast6 : Conf := exNext exFast5 [([97], .scalar (.int 2)), ([99], .scalar (.int 6))]
def exFast7 : Conf := exNext exFast6 [([97], .scalar (.int 2)), ([99], .scalar (.int 7))]
def exFast8 : Conf := exNext exFast7 [([97], .scalar (.int 2)), ([99], .scalar (.int 8))]
def exFast9 : Conf := exNext exFast8 [([97], .scalar (.int 2)), ([99], .scalar (.int 9))]
def exForked : List Bytes := [exSlow5.ser exEnvH true, exFast9.ser exEnvH true]

theorem exForked_made : Made exEnvH exSlow5 ∧ Made exEnvH exFast9 := by
  have step : ∀ {c : Conf} {d : Dict}, Made exEnvH c → int64Ok (c.m.seqno + 1) = true → typedD d = true →
      Made exEnvH (exNext c d) := fun hc hn hd => Made.edit (Made.increment hc hn) rfl hd
  have s4 : Made exEnvH exSlow4 := step exConf_madeH (by decide) (by decide)
  have f4 : Made exEnvH exFast4 := step exConf_madeH (by decide) (by decide)
  have f5 : Made exEnvH exFast5 := step f4 (by decide +kernel) (by decide)
  have f6 : Made exEnvH exFast6 := step f5 (by decide +kernel) (by decide)
  have f7 : Made exEnvH exFast7 := step f6 (by decide +kernel) (by decide)
  have f8 : Made exEnvH exFast8 := step f7 (by decide +kernel) (by decide)
  exact ⟨step s4 (by decide +kernel) (by decide), step f8 (by decide +kernel) (by decide)⟩

/-- What the two messages parse to. -/
def exPair : List Msg := validOf exEnvH exForked
/-- In both messages every change that is recent enough to be replayed after update 10 leaves `a` alone. -/
theorem exPair_quiet : exPair.all (fun m => decide (effScalar m.diff m.data [[97]] = none) &&
    m.lagged.all fun p => decide (p.1.1 < 5) || decide (effScalar p.2 m.data [[97]] = none)) = true := by decide +kernel
theorem exPair_top : exPair.all (fun m => decide (m.seqno ≠ 9) || decide (scalarAt m.data [[97]] = some (.int 2))) = true := by
  decide +kernel
theorem exForked_merge : ((mergeMsgs exEnvH exForked).toOption.map fun r => (r.1.unmerged, r.1.seqno, scalarAt r.1.data [[97]])) =
    some (-1, 10, some (.int 1)) := by decide +kernel
theorem exForked_collide : NoCollision exEnvH exForked := by unfold NoCollision; decide +kernel

/-- The full claim is false of the code: two devices that went separate ways honestly; the merge sets `a` back to the value of the
slower one, because it replays its update 4, although by the document only updates from 5 on are replayed. -/
theorem old_changes_replayed : ∃ R bad, mergeMsgs exEnvH exForked = .ok (R, bad) ∧ R.unmerged = -1 ∧
    scalarAt R.data [[97]] = some (.int 1) ∧
    ¬ ∃ highest rs, Procedure (Current exEnvH.lag (validOf exEnvH exForked)) (within exEnvH.lag) highest rs R := by
  have hm := exForked_merge
  cases hR : mergeMsgs exEnvH exForked with
  | ok x =>
    obtain ⟨R, bad⟩ := x
    rw [hR] at hm
    simp only [Out.toOption, Option.map_some, Option.some.injEq, Prod.mk.injEq] at hm
    obtain ⟨h1, h2, h3⟩ := hm
    refine ⟨R, bad, rfl, h1, h3, ?_⟩
    rintro ⟨t, rs, hp⟩
    have hq := exPair_quiet
    simp only [List.all_eq_true, Bool.and_eq_true, Bool.or_eq_true, decide_eq_true_eq] at hq
    have hnone : ∀ e ∈ rs, effScalar e.2.2 e.2.1 [[97]] = none := by
      rintro ⟨s, src, df⟩ he
      obtain ⟨m, hc, rfl, hcase⟩ := (hp.replay.made_of s src df).1 he
      rcases hcase with ⟨rfl, rfl⟩ | ⟨hl, hw, _⟩
      · exact (hq m hc.1).1
      · rcases (hq m hc.1).2 _ hl with hlt | hn
        · have hw' : R.seqno - 5 ≤ s.1 := hw
          have hlt' : s.1 < 5 := hlt
          omega
        · exact hn
    have h4 := hp.data.scalar_kept [[97]] hnone
    have ht := exPair_top
    simp only [List.all_eq_true, Bool.or_eq_true, decide_eq_true_eq] at ht
    have h9 : t.seqno = 9 := by have := hp.seqno; omega
    rcases ht t hp.top.1.1 with h5 | h5
    · exact h5 h9
    · rw [h3, h5] at h4
      exact absurd h4 (by decide)
  | err e => rw [hR] at hm; cases hm
  | ub => rw [hR] at hm; cases hm
  | hang => rw [hR] at hm; cases hm

private theorem exUsual : (validOf exEnvH [exA, exB, exBase]).all (fun m => decide (m.seqno = 4) ||
    (validOf exEnvH [exA, exB, exBase]).any fun m' => m'.lagged.any fun p => decide (p.1 = m.sh)) = true := by decide +kernel

/-- The hypotheses of the theorems above are met: in the usual conflict of two updates the documented procedure is followed. -/
example : ∃ R bad, mergeMsgs exEnvH [exA, exB, exBase] = .ok (R, bad) ∧ R.unmerged = -1 ∧
    ∃ highest rs, Procedure (Current exEnvH.lag (validOf exEnvH [exA, exB, exBase])) (within exEnvH.lag) highest rs R := by
  have hm : ((mergeMsgs exEnvH [exA, exB, exBase]).toOption.map fun r => r.1.unmerged) = some (-1) := by decide +kernel
  have h4 : ∀ m, Current exEnvH.lag (validOf exEnvH [exA, exB, exBase]) m → m.seqno = 4 := by
    intro m hc
    have hu := exUsual
    simp only [List.all_eq_true, List.any_eq_true, Bool.or_eq_true, decide_eq_true_eq] at hu
    rcases hu m hc.1 with h | ⟨m', h1, p, h2, h3⟩
    · exact h
    · exact absurd h3 (hc.2.1 m' h1 p h2)
  cases hR : mergeMsgs exEnvH [exA, exB, exBase] with
  | ok x =>
    obtain ⟨R, bad⟩ := x
    rw [hR] at hm
    simp only [Out.toOption, Option.map_some, Option.some.injEq] at hm
    exact ⟨R, bad, rfl, hm, merge_same_seqno_documented (by decide) (by unfold NoCollision; decide +kernel) hR hm
      fun a b ha hb => (h4 a ha).trans (h4 b hb).symm⟩
  | err e => rw [hR] at hm; cases hm
  | ub => rw [hR] at hm; cases hm
  | hang => rw [hR] at hm; cases hm

end Verif
