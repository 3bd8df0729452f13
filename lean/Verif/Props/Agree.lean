import Verif.Props.World

/-!
# Merging what the devices of an account publish (C133–C135)
-/

namespace Verif

/-! ## C133: it never fails -/

/-- Every set change listed by the config consists of strings and integers. -/
structure DiffsOk (cf : Conf) : Prop where
  lagged : ∀ p ∈ cf.m.lagged, elemsOkD p.2 = true
  diff : elemsOkD cf.refresh.m.diff = true

theorem refresh_diff_some {cf : Conf} (hw : ConfWF cf) (h : cf.orig.isSome = true) :
    elemsOkD cf.refresh.m.diff = true := by
  obtain ⟨o, ho⟩ := Option.isSome_iff_exists.1 h
  unfold Conf.refresh
  rw [ho]
  exact elemsOk_diffD o _ ((Bool.and_eq_true_iff.1 (hw.orig o ho)).1) (pruneD_typed _ hw.data)

theorem refresh_immut {cf : Conf} (h : cf.orig = none) : cf.refresh = cf := by
  unfold Conf.refresh; rw [h]

theorem DiffsOk.refresh {cf : Conf} (hw : ConfWF cf) (h : DiffsOk cf) : DiffsOk cf.refresh :=
  ⟨by rw [refresh_lagged]; exact h.lagged, by rw [refresh_refresh _ hw]; exact h.diff⟩

theorem lagsForNext_mem {q lag : Int} {l : List (SH × BtDict)} {p : SH × BtDict}
    (h : p ∈ lagsForNext q lag l) : p ∈ l := (lagsForNext_sublist _ _ _).subset h

theorem incr_lagged_ok {lag : Int} {m : Msg} (hw : ∀ p ∈ m.lagged, p.1.1 < m.seqno)
    (h1 : ∀ p ∈ m.lagged, elemsOkD p.2 = true) (h2 : elemsOkD m.diff = true) :
    ∀ p ∈ (incrementImpl lag m).m.lagged, elemsOkD p.2 = true := by
  have hl : (incrementImpl lag m).m.lagged =
      memplace m.sh m.diff (lagsForNext m.seqno lag m.lagged) := rfl
  intro p hp
  rw [hl, memplace_last (fun p hp => sh_lt_of_fst (hw p (lagsForNext_mem hp))), List.mem_append,
    List.mem_singleton] at hp
  rcases hp with hp | rfl
  · exact h1 p (lagsForNext_mem hp)
  · exact h2

theorem hashed_diff (env : Env) (cf : Conf) : (cf.hashed env).m.diff = cf.refresh.m.diff := by
  unfold Conf.hashed
  cases ho : cf.orig with
  | none => rw [refresh_immut ho]
  | some o => rfl

theorem own_diffsOk {S : Sys} {c : Client} (h : DiffsOk c.conf) :
    elemsOkD (c.ownMsg S).diff = true ∧ ∀ p ∈ (c.ownMsg S).lagged, elemsOkD p.2 = true :=
  ⟨h.diff, fun p hp => h.lagged p (own_window S c p hp).1⟩

theorem Peer.diffsOk {S : Sys} (hS : S.Good) (hro : S.env.readonly = false) {c : Client}
    (h : Peer S c) : DiffsOk c.conf := by
  induction h with
  | new => exact ⟨fun p hp => (by cases hp), rfl⟩
  | @step c c' hc hs ih =>
    have hci := (hc.inv hS hro).reach.inv hS
    have hci' := ((Peer.step hc hs).inv hS hro).reach.inv hS
    cases hs.move with
    | keep h1 _ =>
      rcases h1 with h1 | h1
      · rw [h1]; exact ih
      · rw [h1]; exact ih.refresh hci.wf
    | inc h1 _ h2 =>
      refine ⟨?_, refresh_diff_some hci'.wf (hci'.isMut h2)⟩
      rw [h1]
      have hwf := hci.wf.hashed hS.sane (env := S.env)
      exact incr_lagged_ok hwf.window (by rw [hashed_lagged]; exact ih.lagged)
        (by rw [hashed_diff]; exact ih.diff)
    | mod _ h1 _ h2 =>
      exact ⟨by rw [h1]; exact ih.lagged, refresh_diff_some hci'.wf (hci'.isMut h2)⟩
  | @merge c configs src hc h1 h2 h3 h4 ih ihs =>
    have hi := hc.inv hS hro
    have hci := hi.reach.inv hS
    have hi' := (Peer.merge src hc h1 h2 h3 h4).inv hS hro
    have hci' := hi'.reach.inv hS
    have hfair : ∀ p ∈ gather S c.keys configs, Fair S.env p.2 := by
      intro p hpm m hm
      have := ((h1 p hpm ⟨m, hm⟩).inv hS hro).own_fair hS hro
      rw [← h2 p hpm ⟨m, hm⟩] at this
      exact this m hm
    have hsrc : ∀ m ∈ validOf S.env ((c.allConfs S.env (gather S c.keys configs)).map (·.2)),
        elemsOkD m.diff = true ∧ ∀ p ∈ m.lagged, elemsOkD p.2 = true := by
      intro m hm
      rw [hci.valid_all hS, List.mem_append] at hm
      rcases hm with hm | hm
      · split at hm
        · rw [List.mem_singleton] at hm
          rw [hm]; exact own_diffsOk ih
        · cases hm
      · obtain ⟨b, hb, hpm⟩ := mem_validOf.1 hm
        obtain ⟨p, hp, rfl⟩ := List.mem_map.1 hb
        have hrd := ((h1 p hp ⟨m, hpm⟩).inv hS hro).read hS hro
        rw [← h2 p hp ⟨m, hpm⟩, hpm] at hrd
        rw [Out.ok.inj hrd]
        exact own_diffsOk (ihs p hp ⟨m, hpm⟩)
    have hkeep : ∀ x : Client, (x.conf = c.conf ∨ x.conf = c.conf.refresh) → DiffsOk x.conf := by
      intro x hx
      rcases hx with hx | hx
      · rw [hx]; exact ih
      · rw [hx]; exact ih.refresh hci.wf
    rcases merge_cases h4 with ⟨e, _, hx | hx⟩ | ⟨R, bad, _, hR, hm⟩
    · rw [hx]; exact ih
    · rw [hx]; exact hkeep { c with conf := if c.hasMine then c.conf.refresh else c.conf }
        (by dsimp only; split; exact .inr rfl; exact .inl rfl)
    have hm1 : (c.merge S configs).1 = (c.absorb S (c.allConfs S.env (gather S c.keys configs)) R bad).1 := by
      rw [hm]
    rcases (absorb_cases hS hci hfair h3 hR).2 with hx | ⟨hu, _, hlt, _, hx⟩ |
        ⟨top, i, x, y, hgi, hmax, hone, hRe, _, hlt, _, hx⟩
    · rw [hm1, hx]
      refine hkeep (c.noted _ R bad) ?_
      unfold Client.noted; dsimp only
      split
      · exact .inr rfl
      · exact .inl rfl
    · have e1 : (c.mergedConf S R).m = R := by
        unfold Client.mergedConf Client.newConf
        by_cases hd : c.st = .dirty
        · rw [if_pos hd, if_pos hd]; unfold mutFromMerge; rw [if_pos hu]
        · rw [if_neg hd, if_neg hd]; rfl
      refine ⟨?_, refresh_diff_some hci'.wf (hci'.isMut (by rw [hm1, hx]; rfl))⟩
      rw [hm1, hx, setState_conf]
      dsimp only
      rw [e1]
      obtain ⟨_, hpp⟩ := mergeMsgs_ok_iff.1 ⟨bad, hR⟩
      obtain ⟨hne, ho⟩ := mergeParsed_pre hpp
      have hg := goodBatch_of h3
      obtain ⟨top, htop, hmax, hcase⟩ := mergeParsed_cases hS.lag1 hne hg ho
      rcases hcase with ⟨_, i, _, hRR⟩ | ⟨hro, rest, hsort, hRR⟩
      · rw [hRR] at hpp; cases hpp; simp only at hu; omega
      rw [hRR] at hpp
      obtain ⟨_, d, _, _, _, r3, _⟩ := mergeKept_ok hpp
      have hkept : ∀ m, m ∈ top :: rest ↔ Current S.env.lag (validOf S.env _) m := fun m => by
        rw [← hsort]; exact (keptSorted_spec hg).2 m
      rw [r3]
      intro p hp
      obtain ⟨e, he, rfl⟩ := List.mem_map.1 hp
      obtain ⟨m, hmm, _, _, hcs⟩ := replay_mem (fun m hm => valid_wf m ((hkept m).1 hm).1) he
      have := hsrc m ((hkept m).1 hmm).1
      rcases hcs with ⟨_, h1⟩ | h1
      · rw [h1]; exact this.1
      · exact this.2 _ h1
    · have htm := List.mem_of_getElem? hgi
      have hto := hsrc top htm
      have hcf : (c.merge S configs).1.conf = c.newConf S R := by rw [hm1, hx]
      rw [hcf]
      unfold Client.newConf
      by_cases hd : c.st = .dirty
      · rw [if_pos hd]
        have hune : R.unmerged ≠ -1 := by rw [hRe]; simp only; omega
        have hcf' : (c.merge S configs).1.conf = incrementImpl S.env.lag R := by
          rw [hcf]; unfold Client.newConf; rw [if_pos hd]; unfold mutFromMerge; rw [if_neg hune]
        unfold mutFromMerge
        rw [if_neg hune]
        have hl : R.lagged = top.lagged := by rw [hRe]
        have hs : R.seqno = top.seqno := by rw [hRe]
        have hdf : R.diff = top.diff := by rw [hRe]
        refine ⟨incr_lagged_ok ?_ (by rw [hl]; exact hto.2) (by rw [hdf]; exact hto.1), ?_⟩
        · rw [hl, hs]; exact (goodBatch_of h3).window top htm
        · have := hci'.wf
          rw [hcf'] at this
          exact refresh_diff_some this rfl
      · rw [if_neg hd]
        refine ⟨?_, ?_⟩
        · show ∀ p ∈ R.lagged, _
          rw [hRe]; exact hto.2
        · show elemsOkD R.diff = true
          rw [hRe]; exact hto.1
  | @restore c c' ord hc hv hsg hord hr ih =>
    have hi := hc.inv hS hro
    have hci := hi.reach.inv hS
    have hci' := ((Peer.restore hc hv hsg hord hr).inv hS hro).reach.inv hS
    have hn : ord.Nodup := by
      rw [hord.nodup_iff]
      split
      · exact List.nodup_nil
      · exact hci.old
    have hdm : ∀ t, (∀ p ∈ (dumpedMsg S.env c.conf t).lagged, elemsOkD p.2 = true ∧
        p.1.1 < (dumpedMsg S.env c.conf t).seqno) ∧ elemsOkD (dumpedMsg S.env c.conf t).diff = true := by
      intro t
      refine ⟨fun p hp => ?_, ih.diff⟩
      have hp : p ∈ c.conf.refresh.m.lagged.filter (lagLive c.conf.refresh.m.seqno S.env.unsigned.lag) := hp
      rw [mem_lagLive, refresh_lagged] at hp
      exact ⟨ih.lagged p hp.1, hp.2.2⟩
    obtain ⟨rfl, _⟩ := restore_inv hS hci hn hr
    by_cases hd : c.st = .dirty
    · have hcf : (c.reloaded S ord).conf =
          incrementImpl S.env.lag { dumpedMsg S.env c.conf false with unmerged := 0 } := by
        unfold Client.reloaded; simp only [if_pos hd]
      refine ⟨?_, ?_⟩
      · rw [hcf]
        exact incr_lagged_ok (m := { dumpedMsg S.env c.conf false with unmerged := 0 })
          (fun p hp => ((hdm false).1 p hp).2) (fun p hp => ((hdm false).1 p hp).1) (hdm false).2
      · exact refresh_diff_some hci'.wf (by rw [hcf]; rfl)
    · have hcf : (c.reloaded S ord).conf = ⟨dumpedMsg S.env c.conf true, none⟩ := by
        unfold Client.reloaded; simp only [if_neg hd]
      rw [hcf]
      exact ⟨fun p hp => ((hdm true).1 p hp).1, (hdm true).2⟩

/-- Bytes that the parser of config messages refuses (by an exception that a merge survives). -/
def Refused (env : Env) (b : Bytes) : Prop := ∃ e, parseMsg env false b = .err e ∧ e ≠ .foreign

/-- The hashes given along with those of the received messages that are config messages. -/
def Client.usable (S : Sys) (c : Client) (configs : List (Bytes × Bytes)) : List Bytes :=
  ((gather S c.keys configs).filter fun p => (parseMsg S.env false p.2).isOk).map (·.1)

theorem merge_eq_absorb {S : Sys} {c : Client} {configs : List (Bytes × Bytes)} (hk : c.keys ≠ [])
    {R : Msg} {bad : List Nat}
    (hR : mergeMsgs S.env ((c.allConfs S.env (gather S c.keys configs)).map (·.2)) = .ok (R, bad)) :
    c.merge S configs = c.absorb S (c.allConfs S.env (gather S c.keys configs)) R bad := by
  unfold Client.merge
  rw [if_neg hk]
  unfold Client.mergeCore
  dsimp only
  rw [hR]

theorem mem_allConfs {S : Sys} {c : Client} {inc : List (Bytes × Bytes)} {b : Bytes}
    (h : b ∈ (c.allConfs S.env inc).map (·.2)) : (c.hasMine = true ∧ b = c.plain S) ∨ ∃ p ∈ inc, p.2 = b := by
  unfold Client.allConfs at h
  rw [List.map_append, List.mem_append] at h
  rcases h with h | h
  · split at h
    · rename_i hm
      simp only [List.map_cons, List.map_nil, List.mem_singleton] at h
      exact .inl ⟨hm, h⟩
    · cases h
  · obtain ⟨p, hp, rfl⟩ := List.mem_map.1 h
    exact .inr ⟨p, hp, rfl⟩

/-- C133.  Merging what devices of the account published never fails, however the messages were
produced (any edits, merges, restarts on any number of devices): the merge returns the hashes of
exactly the messages that are config messages.  Bytes that cannot be decrypted or parsed may be mixed
in. -/
theorem merge_never_fails {S : Sys} (hS : S.Good) (hro : S.env.readonly = false) {c : Client}
    (hc : Peer S c) (hk : c.keys ≠ []) {configs : List (Bytes × Bytes)}
    (hfrom : ∀ p ∈ gather S c.keys configs,
      (∃ e, Peer S e ∧ p.2 = e.plain S ∧ int64Ok (e.seqno + S.env.lag) = true) ∨ Refused S.env p.2)
    (hcol : NoCollision S.env ((c.allConfs S.env (gather S c.keys configs)).map (·.2)))
    (hsome : c.seqno ≠ 0 ∨ ∃ p ∈ gather S c.keys configs, ∃ e, Peer S e ∧ p.2 = e.plain S)
    (hov : int64Ok (c.seqno + S.env.lag) = true) :
    (c.merge S configs).2 = .ok (c.usable S configs) := by
  have hi := hc.inv hS hro
  have hci := hi.reach.inv hS
  have hval : ∀ m ∈ validOf S.env ((c.allConfs S.env (gather S c.keys configs)).map (·.2)),
      ∃ e, Peer S e ∧ m = e.ownMsg S ∧ int64Ok (e.seqno + S.env.lag) = true := by
    intro m hm
    obtain ⟨b, hb, hpm⟩ := mem_validOf.1 hm
    rcases mem_allConfs hb with ⟨_, rfl⟩ | ⟨p, hp, rfl⟩
    · rw [hi.read hS hro] at hpm
      exact ⟨c, hc, (Out.ok.inj hpm).symm, hov⟩
    · rcases hfrom p hp with ⟨e, he, hpe, hoe⟩ | ⟨e, he, _⟩
      · rw [hpe, (he.inv hS hro).read hS hro] at hpm
        exact ⟨e, he, (Out.ok.inj hpm).symm, hoe⟩
      · rw [he] at hpm; cases hpm
  have hfair : ∀ p ∈ gather S c.keys configs, Fair S.env p.2 := by
    intro p hp
    rcases hfrom p hp with ⟨e, he, hpe, _⟩ | ⟨e, he, _⟩
    · rw [hpe]; exact (he.inv hS hro).own_fair hS hro
    · intro m hm; rw [he] at hm; cases hm
  obtain ⟨R, bad, hR⟩ := merge_succeeds_partial hS.lag1 hcol (fun b hb => by
      rcases mem_allConfs hb with ⟨_, rfl⟩ | ⟨p, hp, rfl⟩
      · exact .inl ⟨_, hi.read hS hro⟩
      · rcases hfrom p hp with ⟨e, he, hpe, _⟩ | h
        · rw [hpe]; exact .inl ⟨_, (he.inv hS hro).read hS hro⟩
        · exact .inr h)
    (by
      rcases hsome with h0 | ⟨p, hp, e, he, hpe⟩
      · have hmine : c.hasMine = true := by unfold Client.hasMine; unfold Client.seqno at h0; simp [h0]
        exact List.ne_nil_of_mem (own_mem hS hci hmine _)
      · refine List.ne_nil_of_mem (a := e.ownMsg S) (mem_validOf.2 ⟨p.2, ?_, ?_⟩)
        · unfold Client.allConfs
          rw [List.map_append]
          exact List.mem_append_right _ (List.mem_map.2 ⟨p, hp, rfl⟩)
        · rw [hpe]; exact (he.inv hS hro).read hS hro)
    (fun m hm => by
      obtain ⟨e, _, rfl, ho⟩ := hval m hm
      rw [ownMsg_seqno]; exact ho)
    (fun m hm => by
      obtain ⟨e, he, rfl, _⟩ := hval m hm
      exact own_diffsOk (he.diffsOk hS hro))
  rw [merge_eq_absorb hk hR, (absorb_cases hS hci hfair hcol hR).1, goodHashes_eq hR]
  rfl

/-! ## C134: what is known changes nothing -/

theorem Follows.le {lag : Int} (hlag : 1 ≤ lag) {s : SH} {m : Msg} (hw : ∀ p ∈ m.lagged, p.1.1 < m.seqno)
    (h : Follows lag s m) : s.1 ≤ m.seqno := by
  rcases h with h | ⟨p, hp, h⟩ | h
  · rw [← h]; exact le_refl _
  · have := hw p hp; rw [h] at this; omega
  · omega

/-- Merging messages that the config of the object follows changes nothing. -/
theorem merge_known {S : Sys} (hS : S.Good) (hro : S.env.readonly = false) {c : Client} (h : CInv S c)
    (hmine : c.hasMine = true) (hk : c.keys ≠ []) {configs : List (Bytes × Bytes)}
    (htol : ∀ p ∈ gather S c.keys configs, Tolerable S.env p.2)
    (hcol : NoCollision S.env ((c.allConfs S.env (gather S c.keys configs)).map (·.2)))
    (hov : int64Ok (c.seqno + S.env.lag) = true)
    (hfol : ∀ p ∈ gather S c.keys configs, ∀ m, parseMsg S.env false p.2 = .ok m →
      Follows S.env.lag m.sh (c.ownMsg S)) :
    (c.merge S configs).2 = .ok (c.usable S configs) ∧ (c.merge S configs).1.conf = c.conf.refresh ∧
      (c.merge S configs).1.st = c.st ∧ (c.merge S configs).1.curr = c.curr ∧
      (c.merge S configs).1.keys = c.keys := by
  have hg := goodBatch_of hcol
  have hown := own_mem hS h hmine (gather S c.keys configs)
  have hall : ∀ m ∈ validOf S.env ((c.allConfs S.env (gather S c.keys configs)).map (·.2)),
      Follows S.env.lag m.sh (c.ownMsg S) := by
    intro m hm
    obtain ⟨b, hb, hpm⟩ := mem_validOf.1 hm
    rcases mem_allConfs hb with ⟨_, rfl⟩ | ⟨p, hp, rfl⟩
    · have := h.parse_own hS hmine
      rw [show parseMsg S.env false (c.plain S) = _ from this] at hpm
      rw [← Out.ok.inj hpm]; exact .inl rfl
    · exact hfol p hp m hpm
  have hcur : ∀ m, Current S.env.lag (validOf S.env ((c.allConfs S.env (gather S c.keys configs)).map (·.2))) m →
      m = c.ownMsg S := by
    rintro m ⟨hm, hm1, hm2⟩
    rcases hall m hm with he | ⟨p, hp, he⟩ | hl
    · exact (hg.nodupsh _ hown _ hm he).symm
    · exact absurd he (hm1 _ hown p hp)
    · have := hm2 _ hown
      have h1 : m.sh.1 = m.seqno := rfl
      rw [h1] at hl; omega
  have hovs : ∀ m ∈ validOf S.env ((c.allConfs S.env (gather S c.keys configs)).map (·.2)),
      int64Ok (m.seqno + S.env.lag) = true := by
    intro m hm
    have h1 := (hall m hm).le hS.lag1 (hg.window _ hown)
    have h2 := hg.range m hm
    have h3 := hS.lag1
    rw [ownMsg_seqno] at h1
    have h1 : m.seqno ≤ c.seqno := h1
    simp only [int64Ok, Bool.and_eq_true, decide_eq_true_eq] at h2 hov ⊢
    omega
  obtain ⟨top, ht, hmax, hcase⟩ := mergeParsed_cases hS.lag1 (List.ne_nil_of_mem hown) hg hovs
  have htop := hcur top (max_current hS.lag1 hg ht hmax)
  rcases hcase with ⟨_, i, hi, hres⟩ | ⟨⟨_, x, hx, hne⟩, _⟩
  swap
  · exact absurd ((hcur x hx).trans htop.symm) hne
  obtain ⟨bad, hR⟩ := mergeMsgs_ok_iff.2 ⟨fun b hb => by
    rcases mem_allConfs hb with ⟨_, rfl⟩ | ⟨p, hp, rfl⟩
    · exact .inl ⟨_, h.parse_own hS hmine⟩
    · exact htol p hp, hres⟩
  have hts : top.seqno = c.conf.m.seqno := by rw [htop, ownMsg_seqno]
  have hi0 : i = 0 := by
    rcases merge_outcome hS h hcol hR with ⟨top', i', _, _, hone, hRe, hz⟩ | ⟨_, _, _, _, _, hu, _⟩
    · have e1 : i = i' := by
        have := congrArg Msg.unmerged hRe
        simp only at this; omega
      have e2 : top.sh = top'.sh := by
        have h1 := congrArg Msg.seqno hRe
        have h2 := congrArg Msg.hash hRe
        simp only at h1 h2
        unfold Msg.sh; rw [h1, h2]
      rw [e1]
      refine hz hmine ?_ hro
      rcases hone with hone | hone
      · rw [hro] at hone; cases hone
      · exact (hone _ (by rw [← htop]; exact max_current hS.lag1 hg ht hmax)).symm
    · simp only at hu; omega
  have hab : c.merge S configs = (c.noted (c.allConfs S.env (gather S c.keys configs))
      { top with unmerged := (i : Int) } bad,
      .ok (goodHashes (c.allConfs S.env (gather S c.keys configs)) c.hasMine bad)) := by
    rw [merge_eq_absorb hk hR]
    unfold Client.absorb
    dsimp only
    have hns := newConf_seqno (S := S) (c := c) (R := { top with unmerged := (i : Int) })
    by_cases hd : c.st = .dirty
    · have hq : (c.newConf S { top with unmerged := (i : Int) }).m.seqno = c.conf.m.seqno + 1 := by
        rw [hns, if_pos ⟨hd, by simp only; omega⟩]
        simp only; omega
      rw [if_neg (by omega), if_neg (by omega), if_pos ⟨hd, by rw [hi0]; rfl, hq⟩]
    · have hq : (c.newConf S { top with unmerged := (i : Int) }).m.seqno = c.conf.m.seqno := by
        rw [hns, if_neg (by rintro ⟨h1, _⟩; exact hd h1)]
        exact hts
      rw [if_pos hq]
  rw [hab]
  refine ⟨?_, ?_, rfl, rfl, rfl⟩
  · rw [goodHashes_eq hR]; rfl
  · unfold Client.noted
    dsimp only
    rw [if_pos hmine]

/-- After a merge the object follows every message that took part in it.  (If the object has pending
modifications, a message that happens to be the same as its own unpublished config is an exception:
the object goes on modifying that one.) -/
theorem merge_after_any {S : Sys} (hS : S.Good) (hro : S.env.readonly = false) {c : Client}
    {configs : List (Bytes × Bytes)} (h : CInv S c) (hnew : PInv S (c.merge S configs).1)
    (hfair : ∀ p ∈ gather S c.keys configs, Fair S.env p.2)
    (hcol : NoCollision S.env ((c.allConfs S.env (gather S c.keys configs)).map (·.2)))
    (hok : (c.merge S configs).2.isOk = true)
    (hcl : HistoryClosed S.env.lag (validOf S.env ((c.allConfs S.env (gather S c.keys configs)).map (·.2))))
    {m : Msg} (hm : m ∈ validOf S.env ((c.allConfs S.env (gather S c.keys configs)).map (·.2)))
    (hm0 : m.seqno ≠ 0) (hne : c.st ≠ .dirty ∨ m.sh ≠ (c.ownMsg S).sh) :
    After S m.sh (c.merge S configs).1 := by
  have hsafe : (c.merge S configs).2.safe = true := by
    cases hh : (c.merge S configs).2 with
    | ok _ => rfl
    | err _ => rfl
    | hang => rw [hh] at hok; cases hok
    | ub => rw [hh] at hok; cases hok
  rcases merge_cases hsafe with ⟨e, he, _⟩ | ⟨R, bad, _, hR, hmm⟩
  · rw [he] at hok; cases hok
  rw [hmm] at hnew ⊢
  have hg := goodBatch_of hcol
  have hmpos : 0 < m.seqno := by
    obtain ⟨b, hb, hpm⟩ := mem_validOf.1 hm
    have := (h.all_fair hS hfair b hb m hpm).1
    omega
  obtain ⟨m0, hcur, hfol⟩ := follows_current hS.lag1 hg hcl hm (.inl rfl)
  rcases merge_outcome hS h hcol hR with ⟨top, i, hi, hmax, hone, hRe, hz⟩ |
      ⟨top, ht, hmax, _, hex, hu, hseq, _, _⟩
  · have hmt : m0 = top := by
      rcases hone with hone | hone
      · rw [hro] at hone; cases hone
      · exact hone m0 hcur
    subst hmt
    have hw := hg.window m0 hcur.1
    have hle := hfol.le hS.lag1 hw
    have hle : m.seqno ≤ m0.seqno := hle
    have hune : R.unmerged ≠ -1 := by rw [hRe]; simp only; omega
    have hRs : R.seqno = m0.seqno := by rw [hRe]
    by_cases htop : c.hasMine = true ∧ m0 = c.ownMsg S
    · obtain ⟨hmine, rfl⟩ := htop
      have hab : (c.absorb S (c.allConfs S.env (gather S c.keys configs)) R bad).1 =
          c.noted (c.allConfs S.env (gather S c.keys configs)) R bad := by
        rcases (absorb_cases hS h hfair hcol hR).2 with h1 | ⟨hu, _⟩ | ⟨top, j, x, y, hj, hmax', _, _, hnt, _⟩
        · exact h1
        · exact absurd hu hune
        · exfalso
          refine hnt hmine ?_
          exact (hg.nodupsh _ (List.mem_of_getElem? hj) _ hcur.1
            (le_antisymm (hmax _ (List.mem_of_getElem? hj)) (hmax' _ hcur.1)))
      rw [hab]
      have hc' : (c.noted (c.allConfs S.env (gather S c.keys configs)) R bad).conf = c.conf.refresh := by
        unfold Client.noted; dsimp only; rw [if_pos hmine]
      rcases hfol with hf | hf
      · left
        refine ⟨hne.resolve_right fun hh => hh hf.symm, ?_⟩
        rw [ownMsg_congr h.wf (.inr hc')]; exact hf
      · right
        rw [hc', refresh_seqno, refresh_lagged]
        refine Past.of_own ⟨?_, hf⟩
        show m.seqno < _
        rcases hf with ⟨p, hp, he⟩ | hf
        · have := hw p hp
          rw [he] at this; exact this
        · have := hS.lag1
          have hf : m.seqno + S.env.lag ≤ (c.ownMsg S).seqno := hf
          omega
    · have hlt : c.conf.m.seqno < m0.seqno := by
        cases hmine : c.hasMine with
        | false =>
          have := (hasMine_false hmine).1
          omega
        | true =>
          have hown := own_mem hS h hmine (gather S c.keys configs)
          have hle0 : c.conf.m.seqno ≤ m0.seqno := by
            have := sh_le_seqno (hmax _ hown); rwa [ownMsg_seqno] at this
          by_contra hge
          apply htop
          refine ⟨hmine, ?_⟩
          have hone' : ∀ m', Current S.env.lag _ m' → m' = m0 := hone.resolve_left (by rw [hro]; simp)
          refine (hone' _ ⟨hown, fun c2 h2 p hp hpe => ?_, fun c2 h2 => ?_⟩).symm
          · have w := hg.window c2 h2 p hp
            rw [hpe] at w
            have w' : (c.ownMsg S).seqno < c2.seqno := w
            have := sh_le_seqno (hmax _ h2)
            rw [ownMsg_seqno] at w'; omega
          · have := sh_le_seqno (hmax _ h2)
            have := hS.lag1
            rw [ownMsg_seqno]; omega
      have hns := newConf_seqno (S := S) (c := c) (R := R)
      have hcf : (c.absorb S (c.allConfs S.env (gather S c.keys configs)) R bad).1.conf = c.newConf S R ∧
          (c.absorb S (c.allConfs S.env (gather S c.keys configs)) R bad).1.st = .clean := by
        rcases (absorb_cases hS h hfair hcol hR).2 with h1 | ⟨hu, _⟩ | ⟨top, j, x, y, hj, hmax', _, _, hnt, _, _, h1⟩
        · exfalso
          have h2 : (c.absorb S (c.allConfs S.env (gather S c.keys configs)) R bad).1.conf.m.seqno =
              c.conf.m.seqno := by rw [h1]; exact (noted_conf h.wf _ R bad S.env).1
          have hlen : i < (c.allConfs S.env (gather S c.keys configs)).length := by
            have h1 : i < (validOf S.env ((c.allConfs S.env (gather S c.keys configs)).map (·.2))).length := by
              by_contra hge
              rw [List.getElem?_eq_none (by omega)] at hi; cases hi
            have h2 := validOf_length_le S.env ((c.allConfs S.env (gather S c.keys configs)).map (·.2))
            rw [List.length_map] at h2; omega
          obtain ⟨⟨x, y⟩, hxy⟩ : ∃ a, (c.allConfs S.env (gather S c.keys configs))[i]? = some a :=
            ⟨_, List.getElem?_eq_getElem hlen⟩
          have huni : R.unmerged.toNat = i := by rw [hRe]; simp
          have hge : R.seqno ≤ (c.newConf S R).m.seqno ∧ (c.st = .dirty → (c.newConf S R).m.seqno = R.seqno + 1) := by
            rw [hns]
            constructor
            · split <;> omega
            · intro hd; rw [if_pos ⟨hd, hune⟩]
          unfold Client.absorb at h2
          dsimp only at h2
          rw [if_neg (by omega), if_neg hune, if_neg (by rintro ⟨hd, _, h3⟩; have := hge.2 hd; omega), huni,
            hxy] at h2
          dsimp only at h2
          omega
        · exact absurd hu hune
        · rw [h1]; exact ⟨rfl, rfl⟩
      by_cases hd : c.st = .dirty
      · have hmf : c.newConf S R = incrementImpl S.env.lag R := by
          unfold Client.newConf; rw [if_pos hd]; unfold mutFromMerge; rw [if_neg hune]
        right
        rw [hcf.1, hmf]
        have hwf := valid_wf m0 hcur.1
        have hl : R.lagged = m0.lagged := by rw [hRe]
        have hsh : R.sh = m0.sh := by rw [hRe]; rfl
        refine ⟨?_, ?_⟩
        · show m.seqno < R.seqno + 1; omega
        show Lists (incrementImpl S.env.lag R).m.lagged m.sh ∨ m.seqno + S.env.lag ≤ R.seqno + 1
        rw [lists_incr (by rw [hl]; exact hwf.lagS) (by rw [hl, hRs]; exact hw), hl, hsh, hRs]
        rcases hfol with hf | hf | hf
        · exact .inl (.inr hf.symm)
        · by_cases hx : m0.seqno - S.env.lag < m.sh.1
          · exact .inl (.inl ⟨hf, hx⟩)
          · right
            have hx : ¬ m0.seqno - S.env.lag < m.seqno := hx
            omega
        · right
          have hf : m.seqno + S.env.lag ≤ m0.seqno := hf
          omega
      · have hnc : c.newConf S R = ⟨R, none⟩ := by unfold Client.newConf; rw [if_neg hd]
        rw [hnc] at hcf
        have hl : R.lagged = m0.lagged := by rw [hRe]
        rcases hfol with hf | hf
        · left
          refine ⟨by rw [hcf.2]; exact fun hh => CState.noConfusion hh, ?_⟩
          have hs0 : (c.absorb S (c.allConfs S.env (gather S c.keys configs)) R bad).1.seqno = m0.seqno := by
            unfold Client.seqno; rw [hcf.1]; exact hRs
          have hh := hnew.hashed_hash (by rw [hs0]; omega)
          rw [hcf.1] at hh
          have hh : R.hash = _ := hh
          rw [← hf]
          unfold Msg.sh
          rw [ownMsg_seqno, hcf.1]
          show toLex (R.seqno, S.env.H ((c.absorb S _ R bad).1.plain S)) = _
          rw [← hh, hRs]
          congr 2
          rw [hRe]
        · right
          rw [hcf.1]
          show m.seqno < R.seqno ∧ ((∃ p ∈ R.lagged, p.1 = m.sh) ∨ m.sh.1 + S.env.lag ≤ R.seqno)
          rw [hl, hRs]
          refine ⟨?_, hf⟩
          rcases hf with ⟨p, hp, he⟩ | hf
          · have := hw p hp
            rw [he] at this; exact this
          · have := hS.lag1
            have hf : m.seqno + S.env.lag ≤ m0.seqno := hf
            omega
  · have hlt : c.conf.m.seqno < R.seqno := by
      cases hmine : c.hasMine with
      | false =>
        have := (hasMine_false hmine).1
        have := sh_le_seqno (hmax m hm)
        omega
      | true =>
        have := sh_le_seqno (hmax _ (own_mem hS h hmine (gather S c.keys configs)))
        rw [ownMsg_seqno] at this
        omega
    rcases (absorb_cases hS h hfair hcol hR).2 with h1 | ⟨_, _, _, _, h1⟩ | ⟨_, j, _, _, _, _, _, hRe, _⟩
    · exfalso
      have h2 : (c.absorb S (c.allConfs S.env (gather S c.keys configs)) R bad).1.conf.m.seqno =
          c.conf.m.seqno := by rw [h1]; exact (noted_conf h.wf _ R bad S.env).1
      have hns : (c.newConf S R).m.seqno = R.seqno := by rw [newConf_seqno]; simp [hu]
      have e1 : (c.mergedConf S R).m = R := by
        unfold Client.mergedConf Client.newConf
        by_cases hd : c.st = .dirty
        · rw [if_pos hd, if_pos hd]; unfold mutFromMerge; rw [if_pos hu]
        · rw [if_neg hd, if_neg hd]; rfl
      unfold Client.absorb at h2
      dsimp only at h2
      rw [if_neg (by omega), if_pos hu, hro] at h2
      simp only [Bool.false_eq_true, if_false, setState_conf, e1] at h2
      omega
    · right
      rw [h1, setState_conf]
      have e1 : (c.mergedConf S R).m = R := by
        unfold Client.mergedConf Client.newConf
        by_cases hd : c.st = .dirty
        · rw [if_pos hd, if_pos hd]; unfold mutFromMerge; rw [if_pos hu]
        · rw [if_neg hd, if_neg hd]; rfl
      dsimp only
      rw [e1]
      have hle := sh_le_seqno (hmax m hm)
      refine ⟨by show m.seqno < _; omega, ?_⟩
      rcases hfol with hf | hf | hf
      · exact .inl (merged_lists hS.lag1 hR hu hcol hcur (.inl hf.symm))
      · exact .inl (merged_lists hS.lag1 hR hu hcol hcur (.inr hf))
      · right
        have := sh_le_seqno (hmax m0 hcur.1)
        omega
    · exfalso
      rw [hRe] at hu; simp only at hu; omega

/-- A batch of messages as a device of the account gets it: what it can decrypt was published by a device of
the account, or is refused by the parser. -/
structure Ours (S : Sys) (W : Bytes → Prop) (c : Client) (configs : List (Bytes × Bytes)) : Prop where
  world : ∀ p ∈ gather S c.keys configs, W p.2
  source : ∀ p ∈ gather S c.keys configs,
    (∃ e, Node S W e ∧ p.2 = e.plain S ∧ int64Ok (e.seqno + S.env.lag) = true) ∨ Refused S.env p.2

theorem Ours.src {S : Sys} {W : Bytes → Prop} {c : Client} {configs : List (Bytes × Bytes)}
    (h : Ours S W c configs) : ∃ src : Bytes → Client,
    (∀ p ∈ gather S c.keys configs, (∃ m, parseMsg S.env false p.2 = .ok m) → Node S W (src p.2)) ∧
    (∀ p ∈ gather S c.keys configs, (∃ m, parseMsg S.env false p.2 = .ok m) → p.2 = (src p.2).plain S) := by
  classical
  have key : ∀ b : Bytes, ∃ x : Client, (∃ e, Node S W e ∧ b = e.plain S) → Node S W x ∧ b = x.plain S := by
    intro b
    by_cases hb : ∃ e, Node S W e ∧ b = e.plain S
    · obtain ⟨e, he⟩ := hb
      exact ⟨e, fun _ => he⟩
    · exact ⟨c, fun hh => absurd hh hb⟩
  choose src hsrc using key
  have hx : ∀ p ∈ gather S c.keys configs, (∃ m, parseMsg S.env false p.2 = .ok m) →
      ∃ e, Node S W e ∧ p.2 = e.plain S := by
    rintro p hp ⟨m, hm⟩
    rcases h.source p hp with ⟨e, he, hpe, _⟩ | ⟨e, he, _⟩
    · exact ⟨e, he, hpe⟩
    · rw [he] at hm; cases hm
  exact ⟨src, fun p hp hm => (hsrc _ (hx p hp hm)).1, fun p hp hm => (hsrc _ (hx p hp hm)).2⟩

theorem Node.merge_ours {S : Sys} {W : Bytes → Prop} {c : Client} {configs : List (Bytes × Bytes)}
    (hc : Node S W c) (h : Ours S W c configs) (hs : (c.merge S configs).2.safe = true)
    (hw : W ((c.merge S configs).1.plain S)) : Node S W (c.merge S configs).1 := by
  obtain ⟨src, h1, h2⟩ := h.src
  exact .merge src hc h1 h2 h.world hs hw

theorem Ours.closed {S : Sys} (hS : S.Good) (hro : S.env.readonly = false) {W : Bytes → Prop}
    (hW : Collisionless S W) {c : Client} {configs : List (Bytes × Bytes)} (hc : Node S W c)
    (h : Ours S W c configs) : HistoryClosed S.env.lag
      (validOf S.env ((c.allConfs S.env (gather S c.keys configs)).map (·.2))) := by
  refine histories_closed hS hro hW fun b hb hm => ?_
  rcases mem_allConfs hb with ⟨_, rfl⟩ | ⟨p, hp, rfl⟩
  · exact ⟨c, hc, rfl⟩
  · obtain ⟨m, hm⟩ := hm
    rcases h.source p hp with ⟨e, he, hpe, _⟩ | ⟨e, he, _⟩
    · exact ⟨e, he, hpe⟩
    · rw [he] at hm; cases hm

theorem Ours.fair {S : Sys} (hS : S.Good) (hro : S.env.readonly = false) {W : Bytes → Prop}
    (hW : Collisionless S W) {c : Client} {configs : List (Bytes × Bytes)} (h : Ours S W c configs) :
    ∀ p ∈ gather S c.keys configs, Fair S.env p.2 := by
  intro p hp
  rcases h.source p hp with ⟨e, he, hpe, _⟩ | ⟨e, he, _⟩
  · rw [hpe]; exact ((he.peer hW).inv hS hro).own_fair hS hro
  · intro m hm; rw [he] at hm; cases hm

theorem Ours.tolerable {S : Sys} (hS : S.Good) (hro : S.env.readonly = false) {W : Bytes → Prop}
    (hW : Collisionless S W) {c : Client} {configs : List (Bytes × Bytes)} (h : Ours S W c configs) :
    ∀ p ∈ gather S c.keys configs, Tolerable S.env p.2 := by
  intro p hp
  rcases h.source p hp with ⟨e, he, hpe, _⟩ | he
  · rw [hpe]; exact .inl ⟨_, ((he.peer hW).inv hS hro).read hS hro⟩
  · exact .inr he

/-- What an object follows it goes on following. -/
theorem Onward.after {S : Sys} (hS : S.Good) (hro : S.env.readonly = false) {W : Bytes → Prop}
    (hW : Collisionless S W) {c0 c : Client} (h : Onward S W c0 c) (h0 : Node S W c0) {s : SH}
    (hs : 0 < s.1) (ha : After S s c0) : After S s c := by
  have hpos : ∀ {x : Client}, After S s x → x.seqno ≠ 0 := by
    intro x hx
    have := hx.le
    unfold Client.seqno; omega
  induction h with
  | start => exact ha
  | call hl hstep hw ih =>
    exact hstep.move.after hS ((hl.node h0).peer hW |>.inv hS hro) (hpos ih) ih
  | @merge c configs src hl h1 h2 h3 h4 hw ih =>
    have hN := hl.node h0
    have hfair : ∀ p ∈ gather S c.keys configs, Fair S.env p.2 := by
      intro p hpm m hm
      have := (((h1 p hpm ⟨m, hm⟩).peer hW).inv hS hro).own_fair hS hro
      rw [← h2 p hpm ⟨m, hm⟩] at this
      exact this m hm
    refine merge_after hS hro ((hN.peer hW).inv hS hro |>.reach.inv hS) (hpos ih) hfair
      (hW.batch (allConfs_W hN.held h3)) h4 (histories_closed hS hro hW fun b hb hm => ?_) ih
    rcases mem_allConfs hb with ⟨_, rfl⟩ | ⟨p, hp, rfl⟩
    · exact ⟨c, hN, rfl⟩
    · exact ⟨src p.2, h1 p hp hm, h2 p hp hm⟩
  | restart hl h1 h2 h3 h4 hw ih =>
    exact restore_after hS ((hl.node h0).peer hW |>.inv hS hro) h1 h2 h3 h4 ih

/-- The config `b` was held by the device, without pending modifications, or merged by it, at some time
before it came to the state `c`. -/
inductive Known (S : Sys) (W : Bytes → Prop) (b : Bytes) (c : Client) : Prop
  | held {c0 : Client} : Node S W c0 → c0.st ≠ .dirty → c0.seqno ≠ 0 → b = c0.plain S →
      Onward S W c0 c → Known S W b c
  | merged {c0 e : Client} {configs : List (Bytes × Bytes)} : Node S W c0 → Ours S W c0 configs →
      (c0.merge S configs).2.isOk = true → W ((c0.merge S configs).1.plain S) →
      (∃ h, (h, b) ∈ gather S c0.keys configs) → Node S W e → e.seqno ≠ 0 → b = e.plain S →
      (c0.st ≠ .dirty ∨ b ≠ c0.plain S) → Onward S W (c0.merge S configs).1 c → Known S W b c

theorem isOk_safe {α : Type} {o : Out α} (h : o.isOk = true) : o.safe = true := by
  cases o with
  | ok _ => rfl
  | err _ => rfl
  | hang => cases h
  | ub => cases h

theorem Peer.pos {S : Sys} (hS : S.Good) (hro : S.env.readonly = false) {e : Client} (h : Peer S e)
    (h0 : e.seqno ≠ 0) : 0 < (e.ownMsg S).sh.1 := by
  rw [own_sh_fst]
  have := ((h.inv hS hro).reach.inv hS).seq
  unfold Client.seqno at h0
  omega

/-- A device follows every config of the account that took part in one of its merges. -/
theorem merged_after {S : Sys} (hS : S.Good) (hro : S.env.readonly = false) {W : Bytes → Prop}
    (hW : Collisionless S W) {c e : Client} {configs : List (Bytes × Bytes)} (hc : Node S W c)
    (ho : Ours S W c configs) (hok : (c.merge S configs).2.isOk = true)
    (hw : W ((c.merge S configs).1.plain S)) (he : Node S W e) (he0 : e.seqno ≠ 0)
    (hin : (∃ h, (h, e.plain S) ∈ gather S c.keys configs) ∨ (c.hasMine = true ∧ e.plain S = c.plain S))
    (hne : c.st ≠ .dirty ∨ e.plain S ≠ c.plain S) : After S (e.ownMsg S).sh (c.merge S configs).1 := by
  have hN := hc.merge_ours ho (isOk_safe hok) hw
  refine merge_after_any hS hro ((hc.peer hW).inv hS hro |>.reach.inv hS) ((hN.peer hW).inv hS hro)
    (ho.fair hS hro hW) (hW.batch (allConfs_W hc.held ho.world)) hok (ho.closed hS hro hW hc)
    (mem_validOf.2 ⟨e.plain S, ?_, ((he.peer hW).inv hS hro).read hS hro⟩) ?_ ?_
  · unfold Client.allConfs
    rw [List.map_append]
    rcases hin with ⟨h, hp⟩ | ⟨hm, hp⟩
    · exact List.mem_append_right _ (List.mem_map.2 ⟨_, hp, rfl⟩)
    · rw [hm, hp]; exact List.mem_append_left _ (by simp [Client.plain])
  · rw [ownMsg_seqno]; exact he0
  · refine hne.imp id fun hh hs => hh ?_
    exact hW _ _ he.held hc.held (congrArg (fun x : SH => x.2) hs)

theorem Known.follows {S : Sys} (hS : S.Good) (hro : S.env.readonly = false) {W : Bytes → Prop}
    (hW : Collisionless S W) {b : Bytes} {c : Client} (h : Known S W b c) {m : Msg}
    (hm : parseMsg S.env false b = .ok m) : Follows S.env.lag m.sh (c.ownMsg S) := by
  cases h with
  | @held c0 hc0 hd h0 hb hon =>
    rw [hb, ((hc0.peer hW).inv hS hro).read hS hro] at hm
    rw [← Out.ok.inj hm]
    exact (hon.after hS hro hW hc0 ((hc0.peer hW).pos hS hro h0) (.inl ⟨hd, rfl⟩)).follows
  | @merged c0 e configs hc0 ho hok hw hin he he0 hb hne hon =>
    rw [hb, ((he.peer hW).inv hS hro).read hS hro] at hm
    rw [← Out.ok.inj hm]
    subst hb
    exact (hon.after hS hro hW (hc0.merge_ours ho (isOk_safe hok) hw) ((he.peer hW).pos hS hro he0)
      (merged_after hS hro hW hc0 ho hok hw he he0 (.inl hin) hne)).follows

theorem Known.tolerable {S : Sys} (hS : S.Good) (hro : S.env.readonly = false) {W : Bytes → Prop}
    (hW : Collisionless S W) {b : Bytes} {c : Client} (h : Known S W b c) : W b ∧ Tolerable S.env b := by
  cases h with
  | @held c0 hc0 hd h0 hb hon =>
    rw [hb]; exact ⟨hc0.held, .inl ⟨_, ((hc0.peer hW).inv hS hro).read hS hro⟩⟩
  | @merged c0 e configs hc0 ho hok hw hin he he0 hb hne hon =>
    rw [hb]; exact ⟨he.held, .inl ⟨_, ((he.peer hW).inv hS hro).read hS hro⟩⟩

/-- What a merge that changes nothing leaves. -/
structure Unmoved (S : Sys) (c c' : Client) : Prop where
  content : c'.content = c.content
  seqno : c'.seqno = c.seqno
  plain : c'.plain S = c.plain S
  needsPush : c'.needsPush = c.needsPush
  hashes : c'.currentHashes = c.currentHashes
  keys : c'.keys = c.keys

theorem unmoved_of {S : Sys} {c c' : Client} (hw : ConfWF c.conf) (h1 : c'.conf = c.conf.refresh)
    (h2 : c'.st = c.st) (h3 : c'.curr = c.curr) (h4 : c'.keys = c.keys) : Unmoved S c c' := by
  refine ⟨?_, ?_, ?_, ?_, ?_, h4⟩
  · show pruneD c'.conf.m.data = pruneD c.conf.m.data
    rw [h1, refresh_data_eq hw, pruneD_of_wf (pruneD_wf hw.data)]
  · show c'.conf.m.seqno = _
    rw [h1, refresh_seqno]; rfl
  · show c'.conf.ser S.env true = c.conf.ser S.env true
    rw [h1, ser_refresh hw]
  · unfold Client.needsPush; rw [h2]
  · unfold Client.currentHashes; rw [h3]

/-- C134.  Messages that the device has merged before, or that it published itself, change nothing when
they arrive again, whatever the device did in between (edits, pending or pushed, merges, restarts):
content, seqno, what would be pushed and whether it must be pushed stay the same. -/
theorem redelivery_changes_nothing_partial {S : Sys} (hS : S.Good) (hro : S.env.readonly = false)
    {W : Bytes → Prop} (hW : Collisionless S W) {c : Client} (hc : Node S W c) (h0 : c.seqno ≠ 0)
    (hk : c.keys ≠ []) (hov : int64Ok (c.seqno + S.env.lag) = true) {configs : List (Bytes × Bytes)}
    (hkn : ∀ p ∈ gather S c.keys configs, Known S W p.2 c ∨ (W p.2 ∧ Refused S.env p.2)) :
    (c.merge S configs).2 = .ok (c.usable S configs) ∧ Unmoved S c (c.merge S configs).1 := by
  have hci := ((hc.peer hW).inv hS hro).reach.inv hS
  have hmine : c.hasMine = true := by unfold Client.hasMine; unfold Client.seqno at h0; simp [h0]
  obtain ⟨m1, m2, m3, m4, m5⟩ := merge_known hS hro hci hmine hk (configs := configs)
    (fun p hp => by
      rcases hkn p hp with h | h
      · exact (h.tolerable hS hro hW).2
      · exact .inr h.2)
    (hW.batch (allConfs_W hc.held fun p hp => by
      rcases hkn p hp with h | h
      · exact (h.tolerable hS hro hW).1
      · exact h.1)) hov
    (fun p hp m hm => by
      rcases hkn p hp with h | ⟨_, e, he, _⟩
      · exact h.follows hS hro hW hm
      · rw [he] at hm; cases hm)
  exact ⟨m1, unmoved_of hci.wf m2 m3 m4 m5⟩

/-! ## C135: devices that stop editing agree -/

/-- A round: the device gets what every device of `D` holds (its own need not be there), in any order and any
number of times, and otherwise only what it cannot decrypt. -/
structure Round (S : Sys) (D : Client → Prop) (c : Client) (configs : List (Bytes × Bytes)) : Prop where
  only : ∀ p ∈ configs, ∀ b, receive S c.keys p.2 = some b → ∃ d, D d ∧ b = d.plain S
  all : ∀ d, D d → d ≠ c → ∃ p ∈ configs, receive S c.keys p.2 = some (d.plain S)

/-- Devices of an account, none of which has unpublished modifications. -/
structure Settled (S : Sys) (W : Bytes → Prop) (D : Client → Prop) : Prop where
  node : ∀ c, D c → Node S W c
  published : ∀ c, D c → c.st ≠ .dirty
  seqno : ∀ c, D c → c.seqno ≠ 0
  range : ∀ c, D c → int64Ok (c.seqno + S.env.lag) = true

theorem mem_gather {S : Sys} {keys : List Bytes} {configs : List (Bytes × Bytes)} {p : Bytes × Bytes} :
    p ∈ gather S keys configs ↔ ∃ q ∈ configs, q.1 = p.1 ∧ receive S keys q.2 = some p.2 := by
  unfold gather
  rw [List.mem_filterMap]
  constructor
  · rintro ⟨q, hq, he⟩
    cases hr : receive S keys q.2 with
    | none => rw [hr] at he; cases he
    | some b => rw [hr] at he; cases he; exact ⟨q, hq, rfl, hr⟩
  · rintro ⟨q, hq, h1, h2⟩
    refine ⟨q, hq, ?_⟩
    rw [h2, h1]; rfl

theorem Round.ours {S : Sys} {W : Bytes → Prop} {D : Client → Prop} (hD : Settled S W D) {c : Client}
    {configs : List (Bytes × Bytes)} (h : Round S D c configs) : Ours S W c configs := by
  have hx : ∀ p ∈ gather S c.keys configs, ∃ d, D d ∧ p.2 = d.plain S := by
    intro p hp
    obtain ⟨q, hq, _, hr⟩ := mem_gather.1 hp
    exact h.only q hq _ hr
  refine ⟨fun p hp => ?_, fun p hp => ?_⟩
  · obtain ⟨d, hd, he⟩ := hx p hp
    rw [he]; exact (hD.node d hd).held
  · obtain ⟨d, hd, he⟩ := hx p hp
    exact .inl ⟨d, hD.node d hd, he, hD.range d hd⟩

theorem Round.merges {S : Sys} (hS : S.Good) (hro : S.env.readonly = false) {W : Bytes → Prop}
    (hW : Collisionless S W) {D : Client → Prop} (hD : Settled S W D) {c : Client} (hc : D c)
    (hk : c.keys ≠ []) {configs : List (Bytes × Bytes)} (h : Round S D c configs) :
    (c.merge S configs).2 = .ok (c.usable S configs) := by
  have ho := h.ours hD
  refine merge_never_fails hS hro ((hD.node c hc).peer hW) hk (fun p hp => ?_)
    (hW.batch (allConfs_W (hD.node c hc).held ho.world)) (.inl (hD.seqno c hc)) (hD.range c hc)
  rcases ho.source p hp with ⟨e, he, h1, h2⟩ | h
  · exact .inl ⟨e, he.peer hW, h1, h2⟩
  · exact .inr h

theorem Round.valid {S : Sys} (hS : S.Good) (hro : S.env.readonly = false) {W : Bytes → Prop}
    (hW : Collisionless S W) {D : Client → Prop} (hD : Settled S W D) {c : Client} (hc : D c)
    {configs : List (Bytes × Bytes)} (h : Round S D c configs) (M : Msg) :
    M ∈ validOf S.env (c.plain S :: (gather S c.keys configs).map (·.2)) ↔ ∃ d, D d ∧ M = d.ownMsg S := by
  have hrd : ∀ d, D d → parseMsg S.env false (d.plain S) = .ok (d.ownMsg S) := fun d hd =>
    (((hD.node d hd).peer hW).inv hS hro).read hS hro
  rw [mem_validOf]
  constructor
  · rintro ⟨b, hb, hm⟩
    rw [List.mem_cons] at hb
    rcases hb with rfl | hb
    · rw [hrd c hc] at hm
      exact ⟨c, hc, (Out.ok.inj hm).symm⟩
    · obtain ⟨p, hp, rfl⟩ := List.mem_map.1 hb
      obtain ⟨q, hq, _, hr⟩ := mem_gather.1 hp
      obtain ⟨d, hd, he⟩ := h.only q hq _ hr
      rw [he, hrd d hd] at hm
      exact ⟨d, hd, (Out.ok.inj hm).symm⟩
  · rintro ⟨d, hd, rfl⟩
    refine ⟨d.plain S, ?_, hrd d hd⟩
    by_cases hdc : d = c
    · rw [hdc]; exact List.mem_cons_self
    · obtain ⟨p, hp, hr⟩ := h.all d hd hdc
      exact List.mem_cons_of_mem _ (List.mem_map.2 ⟨(p.1, d.plain S), mem_gather.2 ⟨p, hp, rfl, hr⟩, rfl⟩)

/-- After its merge a device follows what every device held. -/
theorem Round.after {S : Sys} (hS : S.Good) (hro : S.env.readonly = false) {W : Bytes → Prop}
    (hW : Collisionless S W) {D : Client → Prop} (hD : Settled S W D) {c : Client} (hc : D c)
    (hk : c.keys ≠ []) {configs : List (Bytes × Bytes)} (h : Round S D c configs)
    (hw : W ((c.merge S configs).1.plain S)) {d : Client} (hd : D d) :
    After S (d.ownMsg S).sh (c.merge S configs).1 := by
  have hok : (c.merge S configs).2.isOk = true := by rw [h.merges hS hro hW hD hc hk]; rfl
  refine merged_after hS hro hW (hD.node c hc) (h.ours hD) hok hw (hD.node d hd) (hD.seqno d hd) ?_
    (.inl (hD.published c hc))
  by_cases hdc : d = c
  · right
    have h0 := hD.seqno c hc
    refine ⟨?_, by rw [hdc]⟩
    unfold Client.hasMine; unfold Client.seqno at h0; simp [h0]
  · left
    obtain ⟨p, hp, hr⟩ := h.all d hd hdc
    exact ⟨p.1, mem_gather.2 ⟨p, hp, rfl, hr⟩⟩

/-- C135.  Devices (any number) that have published their modifications and then merge what the others
published agree: none of the merges fails, and any two end up with the same content and seqno, and would
publish the same bytes. -/
theorem one_round_agrees {S : Sys} (hS : S.Good) (hro : S.env.readonly = false) {W : Bytes → Prop}
    (hW : Collisionless S W) {D : Client → Prop} (hD : Settled S W D) {a b : Client} (ha : D a) (hb : D b)
    (hka : a.keys ≠ []) (hkb : b.keys ≠ []) {xs ys : List (Bytes × Bytes)} (hxs : Round S D a xs)
    (hys : Round S D b ys) (hwa : W ((a.merge S xs).1.plain S)) (hwb : W ((b.merge S ys).1.plain S)) :
    (a.merge S xs).2 = .ok (a.usable S xs) ∧ (b.merge S ys).2 = .ok (b.usable S ys) ∧
    (a.merge S xs).1.content = (b.merge S ys).1.content ∧
    (a.merge S xs).1.seqno = (b.merge S ys).1.seqno ∧
    (a.merge S xs).1.plain S = (b.merge S ys).1.plain S ∧
    ((a.merge S xs).1.st = .dirty ↔ (b.merge S ys).1.st = .dirty) := by
  have oka := hxs.merges hS hro hW hD ha hka
  have okb := hys.merges hS hro hW hD hb hkb
  have oa := hxs.ours hD
  have ob := hys.ours hD
  have hoka : (a.merge S xs).2.isOk = true := by rw [oka]; rfl
  have hokb : (b.merge S ys).2.isOk = true := by rw [okb]; rfl
  obtain ⟨c1, c2, c3, c4⟩ := convergence hS (((hD.node a ha).peer hW).inv hS hro).reach
    (((hD.node b hb).peer hW).inv hS hro).reach hro (hD.published a ha) (hD.published b hb)
    (hD.seqno a ha) (hD.seqno b hb) (oa.fair hS hro hW) (ob.fair hS hro hW)
    (hW.batch (allConfs_W (hD.node a ha).held oa.world))
    (hW.batch (allConfs_W (hD.node b hb).held ob.world))
    (fun M => (hxs.valid hS hro hW hD ha M).trans (hys.valid hS hro hW hD hb M).symm) hoka hokb
  refine ⟨oka, okb, c1, c2, ?_, c3⟩
  by_cases hd : (a.merge S xs).1.st = .dirty
  · exact c4 hd
  · have hd' : (b.merge S ys).1.st ≠ .dirty := fun hh => hd (c3.2 hh)
    -- both hold the highest of the configs
    have key : ∀ {c : Client} {zs : List (Bytes × Bytes)}, D c → c.keys ≠ [] → Round S D c zs →
        W ((c.merge S zs).1.plain S) → (c.merge S zs).1.st ≠ .dirty →
        ∃ d, D d ∧ ((c.merge S zs).1.ownMsg S).sh = (d.ownMsg S).sh := by
      intro c zs hc hkc hz hwc hdc
      have oc := hz.ours hD
      have hokc : (c.merge S zs).2.isOk = true := by rw [hz.merges hS hro hW hD hc hkc]; rfl
      rcases merge_cases (isOk_safe hokc) with ⟨e, he, _⟩ | ⟨R, bad, _, hR, hmm⟩
      · rw [he] at hokc; cases hokc
      have hinv := (((hD.node c hc).peer hW).inv hS hro).reach.inv hS
      have hcol := hW.batch (allConfs_W (hD.node c hc).held oc.world)
      have hmine : c.hasMine = true := by
        have h0 := hD.seqno c hc
        unfold Client.hasMine; unfold Client.seqno at h0; simp [h0]
      obtain ⟨r1, r2, r3, r4⟩ := absorb_result hS hinv (hD.published c hc) (hD.seqno c hc) hro
        (oc.fair hS hro hW) hcol hR
      rw [← hmm] at r2 r4
      rcases merge_outcome hS hinv hcol hR with ⟨top, i, hi, hmax, hone, hRe, _⟩ |
          ⟨top, _, _, _, _, hu, _⟩
      · have ht := List.mem_of_getElem? hi
        have hat : (c.allConfs S.env (gather S c.keys zs)).map (·.2) =
            c.plain S :: (gather S c.keys zs).map (·.2) := by
          unfold Client.allConfs; rw [hmine]; rfl
        rw [hat] at ht
        obtain ⟨d, hd, rfl⟩ := (hz.valid hS hro hW hD hc top).1 ht
        refine ⟨d, hd, ?_⟩
        rcases hz.after hS hro hW hD hc hkc hwc hd with ⟨_, h1⟩ | h1
        · exact h1
        · exfalso
          have h2 := h1.1
          have h3 : (c.merge S zs).1.conf.m.seqno = R.seqno := r2
          have h4 : R.seqno = (d.ownMsg S).seqno := by rw [hRe]
          have h5 : (d.ownMsg S).sh.1 = (d.ownMsg S).seqno := rfl
          omega
      · exact absurd (r4 hu).1 hdc
    obtain ⟨d1, hd1, he1⟩ := key ha hka hxs hwa hd
    obtain ⟨d2, hd2, he2⟩ := key hb hkb hys hwb hd'
    have s1 : d2.conf.m.seqno ≤ d1.conf.m.seqno := by
      have := (hxs.after hS hro hW hD ha hka hwa hd2).le
      rw [own_sh_fst] at this
      have h3 : ((a.merge S xs).1.ownMsg S).sh.1 = d1.conf.m.seqno := by rw [he1, own_sh_fst]
      rw [own_sh_fst] at h3
      omega
    have s2 : d1.conf.m.seqno ≤ d2.conf.m.seqno := by
      have := (hys.after hS hro hW hD hb hkb hwb hd1).le
      rw [own_sh_fst] at this
      have h3 : ((b.merge S ys).1.ownMsg S).sh.1 = d2.conf.m.seqno := by rw [he2, own_sh_fst]
      rw [own_sh_fst] at h3
      omega
    have hse : ((a.merge S xs).1.ownMsg S).sh = (d2.ownMsg S).sh := by
      rcases hxs.after hS hro hW hD ha hka hwa hd2 with ⟨_, h1⟩ | h1
      · exact h1
      · exfalso
        have h2 := h1.1
        rw [own_sh_fst] at h2
        have h3 : ((a.merge S xs).1.ownMsg S).sh.1 = d1.conf.m.seqno := by rw [he1, own_sh_fst]
        rw [own_sh_fst] at h3
        omega
    exact hW _ _ hwa hwb (congrArg (fun x : SH => x.2) (hse.trans he2.symm))

/-- What is pushed is determined by the config and the key. -/
theorem push_same {S : Sys} {a b : Client} {s t : Int} {m n : Bytes} {o p : List Bytes}
    (ha : (a.push S).2 = .ok (s, m, o)) (hb : (b.push S).2 = .ok (t, n, p))
    (hp : a.plain S = b.plain S) (hs : a.seqno = b.seqno) (hk : a.keys.head? = b.keys.head?) :
    m = n ∧ s = t := by
  obtain ⟨a1, _, _, _, _, _, k, ks, hka, hm, _⟩ := push_state ha
  obtain ⟨b1, _, _, _, _, _, l, ls, hkb, hn, _⟩ := push_state hb
  rw [hka, hkb] at hk
  cases hk
  rw [← hp, ← hs, hm] at hn
  exact ⟨Out.ok.inj hn, by rw [a1, b1, hs]⟩

/-- C135.  After that nothing changes any more: let a device hold what the devices agreed on (whatever it
did: pushed it, had the push confirmed, restarted); then merging any of the messages of the round, and what
the devices agreed on (which is what all of them push now), changes nothing. -/
theorem then_silence {S : Sys} (hS : S.Good) (hro : S.env.readonly = false) {W : Bytes → Prop}
    (hW : Collisionless S W) {D : Client → Prop} (hD : Settled S W D) {a c : Client} (ha : D a)
    (hka : a.keys ≠ []) {xs : List (Bytes × Bytes)} (hxs : Round S D a xs)
    (hwa : W ((a.merge S xs).1.plain S)) (hc : Node S W c) (hkc : c.keys ≠ [])
    (hsame : c.plain S = (a.merge S xs).1.plain S) (hov : int64Ok (c.seqno + S.env.lag) = true)
    {zs : List (Bytes × Bytes)}
    (hzs : ∀ p ∈ zs, ∀ b, receive S c.keys p.2 = some b →
      b = (a.merge S xs).1.plain S ∨ ∃ d, D d ∧ b = d.plain S) :
    (c.merge S zs).2 = .ok (c.usable S zs) ∧ Unmoved S c (c.merge S zs).1 := by
  have oka := hxs.merges hS hro hW hD ha hka
  have hN := (hD.node a ha).merge_ours (hxs.ours hD) (by rw [oka]; rfl) hwa
  have hi := (hc.peer hW).inv hS hro
  have hci := hi.reach.inv hS
  have hrd := ((hN.peer hW).inv hS hro).read hS hro
  have hown : c.ownMsg S = (a.merge S xs).1.ownMsg S := by
    have h1 := hi.read hS hro
    rw [hsame, hrd] at h1
    exact (Out.ok.inj h1).symm
  have haft := fun {d : Client} (hd : D d) => hxs.after hS hro hW hD ha hka hwa hd
  have h0 : c.seqno ≠ 0 := by
    have h1 := (haft ha).le
    have h2 := ((hD.node a ha).peer hW).pos hS hro (hD.seqno a ha)
    have h3 := congrArg Msg.seqno hown
    rw [ownMsg_seqno, ownMsg_seqno] at h3
    unfold Client.seqno; omega
  have hmine : c.hasMine = true := by unfold Client.hasMine; unfold Client.seqno at h0; simp [h0]
  have hx : ∀ p ∈ gather S c.keys zs, p.2 = (a.merge S xs).1.plain S ∨ ∃ d, D d ∧ p.2 = d.plain S := by
    intro p hp
    obtain ⟨q, hq, _, hr⟩ := mem_gather.1 hp
    exact hzs q hq _ hr
  obtain ⟨m1, m2, m3, m4, m5⟩ := merge_known hS hro hci hmine hkc (configs := zs)
    (fun p hp => by
      rcases hx p hp with he | ⟨d, hd, he⟩
      · rw [he]; exact .inl ⟨_, hrd⟩
      · rw [he]; exact .inl ⟨_, (((hD.node d hd).peer hW).inv hS hro).read hS hro⟩)
    (hW.batch (allConfs_W hc.held fun p hp => by
      rcases hx p hp with he | ⟨d, hd, he⟩
      · rw [he]; exact hwa
      · rw [he]; exact (hD.node d hd).held)) hov
    (fun p hp m hm => by
      rcases hx p hp with he | ⟨d, hd, he⟩
      · rw [he, hrd] at hm
        rw [← Out.ok.inj hm, hown]; exact .inl rfl
      · rw [he, (((hD.node d hd).peer hW).inv hS hro).read hS hro] at hm
        rw [← Out.ok.inj hm, hown]
        exact (haft hd).follows)
  exact ⟨m1, unmoved_of hci.wf m2 m3 m4 m5⟩

/-- The messages the devices push make up a round, if all encrypt with the same key. -/
theorem round_of_pushes {S : Sys} (hS : S.Good) (hro : S.env.readonly = false) {W : Bytes → Prop}
    (hW : Collisionless S W) {D : Client → Prop} (hD : Settled S W D) {k : Bytes}
    (hkey : ∀ d, D d → d.keys.head? = some k) {out : Client → Bytes}
    (hout : ∀ d, D d → ∃ s o, (d.push S).2 = .ok (s, out d, o)) {c : Client} (hc : D c)
    {xs : List (Bytes × Bytes)} (hall : ∀ d, D d → d ≠ c → ∃ h, (h, out d) ∈ xs)
    (honly : ∀ p ∈ xs, (∃ d, D d ∧ p.2 = out d) ∨ receive S c.keys p.2 = none) : Round S D c xs := by
  have hrec : ∀ d, D d → receive S c.keys (out d) = some (d.plain S) := by
    intro d hd
    obtain ⟨s, o, hp⟩ := hout d hd
    exact push_received hS (sg := S.env.signer) hS (((hD.node d hd).peer hW).inv hS hro).reach hp
      (by rw [hkey c hc, hkey d hd])
  refine ⟨fun p hp b hb => ?_, fun d hd hne => ?_⟩
  · rcases honly p hp with ⟨d, hd, he⟩ | hn
    · rw [he, hrec d hd] at hb
      exact ⟨d, hd, (Option.some.inj hb).symm⟩
    · rw [hn] at hb; cases hb
  · obtain ⟨h, hp⟩ := hall d hd hne
    exact ⟨_, hp, hrec d hd⟩

/-! ### Concrete cases -/

theorem exE4_node : Node exSys exWorld exE4 := exE4_onward.node exC3_node
theorem exQ_node : Node exSys exWorld exQ := .step exD2_node (.push _) (inWorld (by decide +kernel))
theorem exE5_node : Node exSys exWorld exE5 := exE5_onward.node exC3_node

theorem source_of {S : Sys} {W : Bytes → Prop} {e : Client} {b : Bytes} (h : Node S W e)
    (hb : decide (b = e.plain S) = true) (ho : int64Ok (e.seqno + S.env.lag) = true) :
    ∃ e, Node S W e ∧ b = e.plain S ∧ int64Ok (e.seqno + S.env.lag) = true :=
  ⟨e, h, of_decide_eq_true hb, ho⟩

/-- C133: the hypotheses, with two conflicting messages and one that does not decrypt. -/
example : Peer exSys exE4 ∧ exE4.keys ≠ [] ∧
    gather exSys exE4.keys [([1], exM2), ([2], [7])] = [([1], exQ.plain exSys)] ∧
    (∃ e, Node exSys exWorld e ∧ exQ.plain exSys = e.plain exSys ∧
      int64Ok (e.seqno + exSys.env.lag) = true) ∧
    exE4.seqno = 2 ∧ exE4.usable exSys [([1], exM2), ([2], [7])] = [[1]] :=
  ⟨exE4_node.peer exWorld_free, by decide +kernel, by decide +kernel,
    source_of exQ_node (by decide +kernel) (by decide +kernel), by decide +kernel, by decide +kernel⟩

/-- Two devices. -/
def Two (a b c : Client) : Prop := c = a ∨ c = b

theorem two_settled {S : Sys} {W : Bytes → Prop} {a b : Client} (ha : Node S W a) (hb : Node S W b)
    (h : (decide (a.st ≠ .dirty) && decide (b.st ≠ .dirty) && decide (a.seqno ≠ 0) && decide (b.seqno ≠ 0) &&
      int64Ok (a.seqno + S.env.lag) && int64Ok (b.seqno + S.env.lag)) = true) : Settled S W (Two a b) := by
  simp only [Bool.and_eq_true, decide_eq_true_eq] at h
  obtain ⟨⟨⟨⟨⟨h1, h2⟩, h3⟩, h4⟩, h5⟩, h6⟩ := h
  refine ⟨?_, ?_, ?_, ?_⟩
  all_goals rintro c (rfl | rfl)
  all_goals assumption

def pushedMsg (S : Sys) (c : Client) : Bytes := match (c.push S).2 with
  | .ok (_, m, _) => m
  | _ => []

theorem pushedMsg_ok {S : Sys} {c : Client} (h : (c.push S).2.isOk = true) :
    ∃ s o, (c.push S).2 = .ok (s, pushedMsg S c, o) := by
  unfold pushedMsg
  cases hp : (c.push S).2 with
  | ok x => obtain ⟨s, m, o⟩ := x; exact ⟨s, o, rfl⟩
  | err _ => rw [hp] at h; cases h
  | hang => rw [hp] at h; cases h
  | ub => rw [hp] at h; cases h

theorem two_rounds {S : Sys} (hS : S.Good) (hro : S.env.readonly = false) {W : Bytes → Prop}
    (hW : Collisionless S W) {a b : Client} (hD : Settled S W (Two a b)) {k : Bytes}
    (hk : a.keys.head? = some k ∧ b.keys.head? = some k)
    (ho : (a.push S).2.isOk = true ∧ (b.push S).2.isOk = true) {j : Bytes}
    (hj : receive S b.keys j = none) : Round S (Two a b) a [([1], pushedMsg S b)] ∧
      Round S (Two a b) b [([3], j), ([2], pushedMsg S a), ([2], pushedMsg S b)] := by
  have hk' : ∀ d, Two a b d → d.keys.head? = some k := by
    rintro d (rfl | rfl)
    · exact hk.1
    · exact hk.2
  have hout : ∀ d, Two a b d → ∃ s o, (d.push S).2 = .ok (s, pushedMsg S d, o) := by
    rintro d (rfl | rfl)
    · exact pushedMsg_ok ho.1
    · exact pushedMsg_ok ho.2
  refine ⟨round_of_pushes hS hro hW hD hk' hout (.inl rfl) ?_ ?_,
    round_of_pushes hS hro hW hD hk' hout (.inr rfl) ?_ ?_⟩
  · rintro d (rfl | rfl) hne
    · exact absurd rfl hne
    · exact ⟨[1], by simp⟩
  · intro p hp
    rw [List.mem_singleton] at hp
    rw [hp]; exact .inl ⟨b, .inr rfl, rfl⟩
  · rintro d (rfl | rfl) hne
    · exact ⟨[2], by simp⟩
    · exact absurd rfl hne
  · intro p hp
    simp only [List.mem_cons, List.not_mem_nil, or_false] at hp
    rcases hp with rfl | rfl | rfl
    · exact .inr hj
    · exact .inl ⟨a, .inl rfl, rfl⟩
    · exact .inl ⟨b, .inr rfl, rfl⟩

theorem exPair_settled : Settled exSys exWorld (Two exE4 exQ) :=
  two_settled exE4_node exQ_node (by decide +kernel)

theorem exRounds : Round exSys (Two exE4 exQ) exE4 [([1], pushedMsg exSys exQ)] ∧
    Round exSys (Two exE4 exQ) exQ
      [([3], [7]), ([2], pushedMsg exSys exE4), ([2], pushedMsg exSys exQ)] :=
  two_rounds exSys_good (by decide +kernel) exWorld_free exPair_settled (k := exKey) (by decide +kernel)
    (by decide +kernel) (by decide +kernel)

/-- C135: two devices that edited the same config; each merges what the other pushed (one of them gets junk
and its own message as well); the conflict gives a new version, the same for both, which both must push. -/
example : Settled exSys exWorld (Two exE4 exQ) ∧
    Round exSys (Two exE4 exQ) exE4 [([1], pushedMsg exSys exQ)] ∧
    Round exSys (Two exE4 exQ) exQ
      [([3], [7]), ([2], pushedMsg exSys exE4), ([2], pushedMsg exSys exQ)] ∧
    exWorld ((exE4.merge exSys [([1], pushedMsg exSys exQ)]).1.plain exSys) ∧
    exWorld ((exQ.merge exSys [([3], [7]), ([2], pushedMsg exSys exE4), ([2], pushedMsg exSys exQ)]).1.plain
      exSys) ∧
    exE4.content ≠ exQ.content ∧ (exE4.merge exSys [([1], pushedMsg exSys exQ)]).1.st = .dirty ∧
    (exE4.merge exSys [([1], pushedMsg exSys exQ)]).1.seqno = 3 :=
  ⟨exPair_settled, exRounds.1, exRounds.2, inWorld (by decide +kernel), inWorld (by decide +kernel),
    by decide +kernel, by decide +kernel, by decide +kernel⟩

theorem ours_one {S : Sys} {W : Bytes → Prop} {c e : Client} {configs : List (Bytes × Bytes)} {h : Bytes}
    (he : Node S W e) (ho : int64Ok (e.seqno + S.env.lag) = true)
    (hg : gather S c.keys configs = [(h, e.plain S)]) : Ours S W c configs := by
  refine ⟨fun p hp => ?_, fun p hp => ?_⟩ <;> rw [hg, List.mem_singleton] at hp <;> rw [hp]
  · exact he.held
  · exact .inl ⟨e, he, rfl, ho⟩

theorem known_merged {S : Sys} {W : Bytes → Prop} {c e : Client} {configs : List (Bytes × Bytes)} {h : Bytes}
    (hc : Node S W c) (he : Node S W e) (hg : gather S c.keys configs = [(h, e.plain S)])
    (hw : W ((c.merge S configs).1.plain S))
    (hx : ((c.merge S configs).2.isOk && decide (e.seqno ≠ 0) && decide (c.st ≠ .dirty) &&
      int64Ok (e.seqno + S.env.lag)) = true) : Known S W (e.plain S) (c.merge S configs).1 := by
  simp only [Bool.and_eq_true, decide_eq_true_eq] at hx
  obtain ⟨⟨⟨h1, h2⟩, h3⟩, h4⟩ := hx
  exact .merged hc (ours_one he h4 hg) h1 hw ⟨h, by rw [hg]; exact List.mem_singleton.2 rfl⟩ he h2 rfl
    (.inl h3) .start

theorem known_held {S : Sys} {W : Bytes → Prop} {c e : Client} {configs : List (Bytes × Bytes)} {h : Bytes}
    (hc : Node S W c) (he : Node S W e) (hg : gather S c.keys configs = [(h, e.plain S)])
    (hw : W ((c.merge S configs).1.plain S))
    (hx : ((c.merge S configs).2.isOk && decide (c.seqno ≠ 0) && decide (c.st ≠ .dirty)) = true) :
    Known S W (c.plain S) (c.merge S configs).1 := by
  simp only [Bool.and_eq_true, decide_eq_true_eq] at hx
  obtain ⟨⟨h1, h2⟩, h3⟩ := hx
  refine .held hc h3 h2 rfl (.merge (fun _ => e) .start (fun _ _ _ => he) (fun p hp _ => ?_) (fun p hp => ?_)
    (isOk_safe h1) hw) <;> rw [hg, List.mem_singleton] at hp <;> rw [hp]
  exact he.held

/-- C134, C135: afterwards the device `exE5` (which merged) gets the messages of the round again, and what
it pushes itself. -/
example : Node exSys exWorld exE5 ∧ exE5.keys ≠ [] ∧ exE5.seqno = 3 ∧
    gather exSys exE5.keys [([1], exM2), ([2], pushedMsg exSys exE4), ([9], pushedMsg exSys exE5)] =
      [([1], exQ.plain exSys), ([2], exE4.plain exSys), ([9], exE5.plain exSys)] ∧
    Known exSys exWorld (exQ.plain exSys) exE5 ∧ Known exSys exWorld (exE4.plain exSys) exE5 :=
  ⟨exE5_node, by decide +kernel, by decide +kernel, by decide +kernel,
    known_merged (h := [1]) exE4_node exQ_node (by decide +kernel) (inWorld (by decide +kernel)) (by decide +kernel),
    known_held (h := [1]) exE4_node exQ_node (by decide +kernel) (inWorld (by decide +kernel)) (by decide +kernel)⟩

/-- The other device makes the same edit as `exE4` did, receives that message, then takes its edit back. -/
def exTwin : Client := (exD1.edit exSys [([97], .scalar (.int 6))]).1
def exTwin2 : Client := (exTwin.merge exSys [([1], pushedMsg exSys exE4)]).1
def exTwin3 : Client := ((exTwin2.edit exSys [([97], .scalar (.int 5))]).1.push exSys).1

/-- C134 is false of the code in the excepted case: the message was merged while the unpublished config of
the device was the same; the device modified that further and pushed; the same message arrives again and
undoes the modification. -/
theorem twin_edit_revived :
    exTwin.st = .dirty ∧ exTwin.plain exSys = exE4.plain exSys ∧
    (exTwin.merge exSys [([1], pushedMsg exSys exE4)]).2 = .ok [[1]] ∧
    exTwin3.content = [([97], .scalar (.int 5))] ∧ exTwin3.st = .waiting ∧
    (exTwin3.merge exSys [([1], pushedMsg exSys exE4)]).1.content = [([97], .scalar (.int 6))] ∧
    (exTwin3.merge exSys [([1], pushedMsg exSys exE4)]).1.seqno = 3 := by decide +kernel

end Verif
