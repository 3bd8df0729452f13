import Verif.Props.UserGroupsWitness

/-!
# Histories without concurrent edits (C59, C90)

As long as no two devices have edited the same version, every device has the history of a single line of versions.  Then edits
made at the same time for the first time combine without exception: also elements of sets that nobody has stay away.
-/

namespace Verif

/-- The states of the devices of one account as in `Peer`, up to the first real merge: every merge has left the version number as
it was, or the object is not dirty afterwards (it has taken over one of the messages as it is). -/
inductive Line (S : Sys) : Client → Prop
  | new : Line S (Client.new S)
  | step {c c' : Client} : Line S c → LocalStep S c c' → Line S c'
  | merge {c : Client} {configs : List (Bytes × Bytes)} (src : Bytes → Client) : Line S c →
      (∀ p ∈ gather S c.keys configs, (∃ m, parseMsg S.env false p.2 = .ok m) → Line S (src p.2)) →
      (∀ p ∈ gather S c.keys configs, (∃ m, parseMsg S.env false p.2 = .ok m) → p.2 = (src p.2).plain S) →
      NoCollision S.env ((c.allConfs S.env (gather S c.keys configs)).map (·.2)) →
      (c.merge S configs).2.safe = true →
      ((c.merge S configs).1.st = .dirty → (c.merge S configs).1.seqno = c.seqno) → Line S (c.merge S configs).1
  | restore {c c' : Client} {ord : List Bytes} : Line S c → S.env.verifier = none → S.env.signer = none →
      ord.Perm (if S.env.readonly then [] else c.old) → Client.restore S (c.dumpBytes S ord) = .ok c' → Line S c'

theorem Line.peer {S : Sys} {c : Client} (h : Line S c) : Peer S c := by
  induction h with
  | new => exact .new
  | step _ hs ih => exact .step ih hs
  | merge src _ _ hpl hcol hsafe _ ih ihs => exact .merge src ih ihs hpl hcol hsafe
  | restore _ hv hsg hord hr ih => exact .restore ih hv hsg hord hr

/-- A property of configs that editing keeps. -/
structure Kept (S : Sys) (Q : Conf → Prop) : Prop where
  refresh : ∀ {cf : Conf}, Q cf → Q cf.refresh
  increment : ∀ {cf : Conf}, Q cf → int64Ok (cf.m.seqno + 1) = true → Q (cf.increment S.env)
  setData : ∀ {cf : Conf} {d : Dict}, Q cf → cf.orig.isSome = true → typedD d = true →
    Q { cf with m := { cf.m with data := d } }

variable {S : Sys} {Q : Conf → Prop}

theorem Kept.dirty (hQ : Kept S Q) {c : Client} (h : Q c.conf) : Q (c.dirty S).1.conf := by
  unfold Client.dirty
  by_cases h1 : c.st = .dirty
  · rw [if_pos h1]; split <;> exact h
  rw [if_neg h1]
  by_cases h2 : S.env.readonly = true
  · rw [if_pos h2]; exact h
  rw [if_neg h2]
  by_cases h3 : int64Ok (c.conf.m.seqno + 1) = true
  · rw [if_neg (by simp [h3])]; exact hQ.increment h h3
  · rw [if_pos (by simpa using h3)]; exact h

theorem Kept.edit (hQ : Kept S Q) {c : Client} (h : Q c.conf) {d : Dict} (hd : typedD d = true) :
    Q (c.edit S d).1.conf := by
  by_cases he : (c.dirty S).2 = .ok ()
  · rw [edit_eq_ok he]
    exact hQ.setData (hQ.dirty h) (dirty_ok he).2.1 hd
  · rw [edit_eq_err he]; exact (hQ.dirty h)

theorem Kept.removeKey (hQ : Kept S Q) {c : Client} (h : Q c.conf) (k : Bytes) (n : Nat) (d : Bool) :
    Q (c.removeKey S k n d).1.conf := by
  unfold Client.removeKey
  split
  · exact h
  split
  · exact h
  dsimp only
  split
  · have := hQ.dirty (c := { c with keys := c.keys.take n ++ (c.keys.drop n).filter (· ≠ k) }) h
    split <;> rename_i he <;> rw [he] at this <;> exact this
  · exact h

theorem Kept.addKey (hQ : Kept S Q) {c : Client} (h : Q c.conf) (k : Bytes) (hi d : Bool) :
    Q (c.addKey S k hi d).1.conf := by
  unfold Client.addKey
  split
  · exact h
  split
  · exact h
  split
  · exact h
  dsimp only
  cases hi with
  | true =>
    simp only [if_true]
    have h1 := (hQ.removeKey h) k 1 false
    split
    · exact hQ.dirty (c := { (c.removeKey S k 1 false).1 with keys := _ }) h1
    · exact h1
  | false =>
    simp only [Bool.false_eq_true, if_false]
    split
    · exact hQ.dirty (c := { c with keys := _ }) h
    · exact h

theorem Kept.clearKeys (hQ : Kept S Q) {c : Client} (h : Q c.conf) (d : Bool) :
    Q (c.clearKeys S d).1.conf := by
  unfold Client.clearKeys
  dsimp only
  split
  · exact hQ.dirty (c := { c with keys := [] }) h
  · exact h

theorem Kept.replaceKeys (hQ : Kept S Q) {c : Client} (h : Q c.conf) (ks : List Bytes) (d : Bool) :
    Q (c.replaceKeys S ks d).1.conf := by
  unfold Client.replaceKeys
  split
  · split
    · exact h
    · exact (hQ.clearKeys h) d
  split
  · exact h
  dsimp only
  rename_i k ks _
  have h1 : ∀ (l : List Bytes) (c : Client), Q c.conf →
      Q (l.foldl (fun c k => (c.addKey S k false false).1) c).conf := by
    intro l
    induction l with
    | nil => exact fun c h => h
    | cons a t ih => exact fun c h => ih _ ((hQ.addKey h) a false false)
  have := h1 (k :: ks) { c with keys := [] } h
  split
  · exact hQ.dirty this
  · exact this

theorem Kept.push (hQ : Kept S Q) {c : Client} (h : Q c.conf) : Q (c.push S).1.conf := by
  unfold Client.push
  split
  · exact h
  split
  · split
    · exact hQ.refresh h
    · dsimp only
      split
      · rw [setState_conf]; exact hQ.refresh h
      · exact hQ.refresh h
  · exact hQ.refresh h
  · exact h
  · exact h

theorem Kept.local (hQ : Kept S Q) {c c' : Client} (h : Q c.conf) (hs : LocalStep S c c') :
    Q c'.conf := by
  cases hs with
  | edit d h1 h2 => exact (hQ.edit h) h1
  | push => exact (hQ.push h)
  | confirm s x =>
    unfold Client.confirm
    split
    · show Q (Client.setState _ .clean).conf
      rw [setState_conf]; exact h
    · exact h
  | dump => exact hQ.refresh h
  | addKey k hi d _ => exact (hQ.addKey h) k hi d
  | removeKey k n d _ => exact (hQ.removeKey h) k n d
  | clearKeys d _ => exact (hQ.clearKeys h) d
  | replaceKeys ks d _ => exact (hQ.replaceKeys h) ks d


/-- The histories of single lines of versions: the last word on every element is what the content has. -/
theorem kept_line (hS : S.Good) : Kept S fun cf => PConf S cf ∧ HistConf True cf where
  refresh := by
    rintro cf ⟨h1, h2⟩
    refine ⟨h1.refresh, ?_⟩
    obtain ⟨m, o⟩ := cf
    cases o <;> exact h2
  increment := by
    rintro cf ⟨h1, h2⟩ hi
    have hw := h1.honest.made.wf hS.sane
    have hw' := hw.hashed hS.sane (env := S.env)
    exact ⟨h1.increment hi, (incrementImpl_hist (lag := S.env.lag) hw'.lagS hw'.window (hashed_hist hw h2)).2⟩
  setData := by
    rintro cf d ⟨h1, h2⟩ ho hd
    refine ⟨h1.setData ho hd, ?_⟩
    obtain ⟨m, o⟩ := cf
    cases o with
    | none => cases ho
    | some o => exact h2

theorem hist_new (H : Bytes → Bytes) : HistConf True ⟨newMsg H, none⟩ := by
  refine ⟨fun p b hb => ?_, fun p x b hb => ?_⟩
  · have e0 : sayS [] p = none := by rcases p with _ | ⟨k, _ | ⟨k2, ps⟩⟩ <;> rfl
    simp [newMsg, Msg.hist, Msg.empty, lastBy, e0] at hb
  · have e0 : sayM [] p x = none := by rcases p with _ | ⟨k, _ | ⟨k2, ps⟩⟩ <;> rfl
    simp [newMsg, Msg.hist, Msg.empty, lastBy, e0] at hb

/-- What a device publishes has the history of the device. -/
theorem own_hist (hS : S.Good) (hro : S.env.readonly = false) {c : Client} (h : PInv S c) (hh : HistConf True c.conf) :
    LagOk True (c.ownMsg S).hist (c.ownMsg S).data :=
  loaded_hist hS.sane (h.reach.inv hS).wf hh ((h.reach.inv hS).published_rw hS hro) (h.read hS hro)

theorem line_merge (hS : S.Good) (hro : S.env.readonly = false) {c : Client} {configs : List (Bytes × Bytes)}
    {src : Bytes → Client} (h : PInv S c) (hh : HistConf True c.conf)
    (hsrc : ∀ p ∈ gather S c.keys configs, (∃ m, parseMsg S.env false p.2 = .ok m) →
      PInv S (src p.2) ∧ HistConf True (src p.2).conf)
    (hpl : ∀ p ∈ gather S c.keys configs, (∃ m, parseMsg S.env false p.2 = .ok m) → p.2 = (src p.2).plain S)
    (hcol : NoCollision S.env ((c.allConfs S.env (gather S c.keys configs)).map (·.2)))
    (hsafe : (c.merge S configs).2.safe = true)
    (hline : (c.merge S configs).1.st = .dirty → (c.merge S configs).1.seqno = c.seqno) :
    HistConf True (c.merge S configs).1.conf := by
  have hfair : ∀ p ∈ gather S c.keys configs, Fair S.env p.2 := by
    intro p hp m hm
    have := (hsrc p hp ⟨m, hm⟩).1.own_fair hS hro
    rw [← hpl p hp ⟨m, hm⟩] at this
    exact this m hm
  have hK := kept_line hS
  rcases merge_cases hsafe with ⟨e, _, h2 | h2⟩ | ⟨R, bad, _, hR, hm⟩
  · rw [h2]; exact hh
  · rw [h2]; dsimp only; split
    · exact (hK.refresh ⟨h.conf, hh⟩).2
    · exact hh
  rw [hm] at hline ⊢
  have hci := h.reach.inv hS
  rcases (absorb_cases hS hci hfair hcol hR).2 with h1 | ⟨hu, _, hlt, _, h1⟩ |
      ⟨top, i, x, y, hi, _, _, hRe, _, _, _, h1⟩
  · rw [h1]
    unfold Client.noted
    dsimp only
    split
    · exact (hK.refresh ⟨h.conf, hh⟩).2
    · exact hh
  · exfalso
    rw [h1] at hline
    have h3 := hline (setState_st _ _)
    unfold Client.seqno at h3
    rw [setState_conf] at h3
    dsimp only at h3
    have h4 : (c.mergedConf S R).m.seqno = R.seqno := by
      unfold Client.mergedConf Client.newConf
      by_cases hd : c.st = .dirty
      · rw [if_pos hd, if_pos hd]; unfold mutFromMerge; rw [if_pos hu]
      · rw [if_neg hd, if_neg hd]; rfl
    omega
  · rw [h1]
    dsimp only
    have hmem := List.mem_of_getElem? hi
    obtain ⟨b, hb, hpm⟩ := mem_validOf.1 hmem
    have htop : LagOk True top.hist top.data := by
      by_cases hbc : b = c.plain S
      · have := h.read hS hro
        rw [← hbc, hpm] at this
        rw [Out.ok.inj this]
        exact own_hist hS hro h hh
      · unfold Client.allConfs at hb
        rw [List.map_append, List.mem_append] at hb
        rcases hb with hb | hb
        · split at hb
          · simp only [List.map_cons, List.map_nil, List.mem_singleton] at hb
            exact absurd hb hbc
          · cases hb
        · obtain ⟨p, hp, rfl⟩ := List.mem_map.1 hb
          obtain ⟨g1, g2⟩ := hsrc p hp ⟨_, hpm⟩
          have := g1.read hS hro
          rw [← hpl p hp ⟨_, hpm⟩, hpm] at this
          rw [Out.ok.inj this]
          exact own_hist hS hro g1 g2
    have hRh : LagOk True R.hist R.data := by rw [hRe]; exact htop
    unfold Client.newConf
    split
    · have hune : R.unmerged ≠ -1 := by rw [hRe]; simp only; omega
      have hw := mergeMsgs_wf hS.sane hR
      unfold mutFromMerge
      rw [if_neg hune]
      exact (incrementImpl_hist (lag := S.env.lag) hw.lagS hw.window hRh).2
    · exact hRh

theorem line_restore (hS : S.Good) {c c' : Client} {ord : List Bytes} (h : PInv S c) (hh : HistConf True c.conf)
    (hv : S.env.verifier = none) (_ : S.env.signer = none) (hord : ord.Perm (if S.env.readonly then [] else c.old))
    (hr : Client.restore S (c.dumpBytes S ord) = .ok c') : HistConf True c'.conf := by
  have hci := h.reach.inv hS
  have hn : ord.Nodup := by
    rw [hord.nodup_iff]
    split
    · exact List.nodup_nil
    · exact hci.old
  have hro : S.env.readonly = false := by simp [Env.readonly, hv]
  have hw := hci.wf
  have hdl : ∀ t, LagOk True (dumpedMsg S.env c.conf t).hist (dumpedMsg S.env c.conf t).data := by
    intro t
    have hr := hw.refresh
    exact reparsed_hist hr.lagS hr.window (hh.refresh hw)
  obtain ⟨rfl, hov⟩ := restore_inv hS hci hn hr
  unfold Client.reloaded
  dsimp only
  split
  · have hwd := (parseMsg_ok (parse_dumped hS hci false)).wf
    exact (incrementImpl_hist (lag := S.env.lag) (m := { dumpedMsg S.env c.conf false with unmerged := 0 }) hwd.lagS
      (fun p hp => hw.refresh.window p (List.mem_of_mem_filter hp)) (hdl false)).2
  · exact hdl _

theorem Line.hist (hS : S.Good) (hro : S.env.readonly = false) {c : Client} (h : Line S c) : HistConf True c.conf := by
  induction h with
  | new => exact hist_new _
  | step hc hs ih => exact ((kept_line hS).local ⟨(hc.peer.inv hS hro).conf, ih⟩ hs).2
  | merge src hc hsrc hpl hcol hsafe hl ih ihs =>
    exact line_merge hS hro (hc.peer.inv hS hro) ih (fun p hp hm => ⟨(hsrc p hp hm).peer.inv hS hro, ihs p hp hm⟩)
      hpl hcol hsafe hl
  | restore hc hv hsg hord hr ih => exact line_restore hS (hc.peer.inv hS hro) ih hv hsg hord hr

/-- C59.  As `edits_combine`, for devices that share the history of a single line of versions: also the elements that the set of
the common config does not have, and that all devices left alone, are not in the result. -/
theorem edits_combine_line (hS : S.Good) (hro : S.env.readonly = false) {B : Client}
    (hB : Line S B) {team : List (Client × Client)} (hteam : ∀ e ∈ team, Editor S B e)
    {x : Client × Client} (hx : x ∈ team) {s : Int} {msg : Bytes} {obs : List Bytes}
    (hpush : (x.2.push S).2 = .ok (s, msg, obs)) {configs : List (Bytes × Bytes)}
    (hall : ∀ e ∈ team, e.2.plain S = x.2.plain S ∨
      ∃ p ∈ gather S x.2.keys configs, p.2 = e.2.plain S)
    (hknown : ∀ p ∈ gather S x.2.keys configs, (∃ m, parseMsg S.env false p.2 = .ok m) →
      (∃ e ∈ team, p.2 = e.2.plain S) ∨ (B.seqno ≠ 0 ∧ p.2 = B.plain S))
    (hcol : NoCollision S.env (x.2.plain S :: (gather S x.2.keys configs).map (·.2)))
    (hok : ((x.2.push S).1.merge S configs).2.isOk = true) (p : List Bytes) (hp : p ≠ []) (y : Scalar)
    (hy : ∀ e ∈ team, agreeOn B.content e.2.content p y) :
    memberAt ((x.2.push S).1.merge S configs).1.content p y = memberAt B.content p y :=
  (edits_combine_hist hS hro hB.peer (hB.hist hS hro) hteam hx hpush hall hknown hcol hok p hp).2.2.2 y hy (.inr trivial)

/-- C90.  As `legacy_members_combine`, for devices that share the history of a single line of versions: for every id `k`,

1. if exactly one device changed the status of `k` (member, admin or neither), the status is what that device made of it;
2. if no device changed it, it is what it was. -/
theorem legacy_members_line (hS : S.Good) (hro : S.env.readonly = false) {B : Client}
    (hB : Line S B) {gB : Legacy} (hst : StoredLegacy B gB) {team : List (Client × Legacy × Client)}
    (hteam : ∀ e ∈ team, LegacyEdit S B e.1 e.2.1 e.2.2 ∧ SameRec pre05 e.2.1.id gB.id)
    {x : Client × Legacy × Client} (hx : x ∈ team) {s : Int} {msg : Bytes} {obs : List Bytes}
    (hpush : (x.2.2.push S).2 = .ok (s, msg, obs)) {configs : List (Bytes × Bytes)}
    (hall : ∀ e ∈ team, e.2.2.plain S = x.2.2.plain S ∨
      ∃ p ∈ gather S x.2.2.keys configs, p.2 = e.2.2.plain S)
    (hknown : ∀ p ∈ gather S x.2.2.keys configs, (∃ m, parseMsg S.env false p.2 = .ok m) →
      (∃ e ∈ team, p.2 = e.2.2.plain S) ∨ (B.seqno ≠ 0 ∧ p.2 = B.plain S))
    (hcol : NoCollision S.env (x.2.2.plain S :: (gather S x.2.2.keys configs).map (·.2)))
    (hok : ((x.2.2.push S).1.merge S configs).2.isOk = true)
    (hkeep : ∀ e ∈ team, ∀ adm, (∃ y ∈ e.2.1.members, y.2 = adm) ∨ ¬ ∃ y ∈ gB.members, y.2 = adm) :
    ∃ r, ((x.2.2.push S).1.merge S configs).1.getLegacy gB.id = .ok (some r) ∧
    ∀ k, checkId k pre05 = true → lower k = k →
      (∀ t ∈ team, mget k t.2.1.members ≠ mget k gB.members →
        (∀ e ∈ team, e ≠ t → mget k e.2.1.members = mget k gB.members) →
        mget k r.members = mget k t.2.1.members) ∧
      ((∀ e ∈ team, mget k e.2.1.members = mget k gB.members) → mget k r.members = mget k gB.members) := by
  obtain ⟨r, hr, hmem⟩ := legacy_read_merged hS hro hB.peer hst hteam hx hpush hall hknown hcol hok
  refine ⟨r, hr, ?_⟩
  let team' : List (Client × Client) := team.map fun e => (e.1, e.2.2)
  have hteam' : ∀ e ∈ team', Editor S B e := by
    intro e he
    obtain ⟨e0, he0, rfl⟩ := List.mem_map.1 he
    exact (hteam e0 he0).1.editor hS hro
  have hx' : (x.1, x.2.2) ∈ team' := List.mem_map.2 ⟨x, hx, rfl⟩
  have hall' : ∀ e ∈ team', e.2.plain S = x.2.2.plain S ∨
      ∃ p ∈ gather S x.2.2.keys configs, p.2 = e.2.plain S := by
    intro e he
    obtain ⟨e0, he0, rfl⟩ := List.mem_map.1 he
    exact hall e0 he0
  have hknown' : ∀ p ∈ gather S x.2.2.keys configs, (∃ m, parseMsg S.env false p.2 = .ok m) →
      (∃ e ∈ team', p.2 = e.2.plain S) ∨ (B.seqno ≠ 0 ∧ p.2 = B.plain S) := by
    intro p hp hm
    rcases hknown p hp hm with ⟨e, he, h⟩ | h
    · exact .inl ⟨(e.1, e.2.2), List.mem_map.2 ⟨e, he, rfl⟩, h⟩
    · exact .inr h
  have hpeer := team_peer hS hro hB.peer hteam' hx' hpush hknown' hcol hok
  have hrty := ((hpeer.inv hS hro).reach.inv hS).wf.data
  have hBty := ((hB.peer.inv hS hro).reach.inv hS).wf.data
  have hety : ∀ e ∈ team, typedD e.2.2.conf.m.data = true := fun e he =>
    ((hteam' _ (List.mem_map.2 ⟨e, he, rfl⟩)).result).2.2.1
  have hids : ∀ e ∈ team, fromHex e.2.1.id = fromHex gB.id := by
    intro e he
    obtain ⟨pk, i1, i2⟩ := (hteam e he).2
    rw [← (idBytes_ok i1).1, ← (idBytes_ok i2).1]
  have hstored : ∀ e ∈ team, StoredLegacy e.2.2 e.2.1 := fun e he => (hteam e he).1.stored hS hro
  have hrole : ∀ e ∈ team, ∀ adm, rolePath e.2.1.id adm = rolePath gB.id adm := by
    intro e he adm; unfold rolePath; rw [hids e he]
  intro k hk lk
  rw [hmem k hk lk]
  have hBm := fun adm => stored_member hBty hst hk lk adm
  have hem : ∀ e ∈ team, ∀ adm, memberAt e.2.2.content (rolePath gB.id adm) (.str (fromHex k)) = true ↔
      mget k e.2.1.members = some adm := by
    intro e he adm
    rw [← hrole e he adm]
    exact stored_member (hety e he) (hstored e he) hk lk adm
  have hagree : ∀ e ∈ team, ∀ adm, (mget k e.2.1.members = some adm ↔ mget k gB.members = some adm) →
      agreeOn B.content e.2.2.content (rolePath gB.id adm) (.str (fromHex k)) := fun e he adm heq =>
    stored_agree hBty (hety e he) hst (hstored e he) (hids e he) hk lk adm heq (hkeep e he adm)
  have hread : ∀ o : Option Bool, (∀ adm, memberAt ((x.2.2.push S).1.merge S configs).1.content (rolePath gB.id adm)
      (.str (fromHex k)) = true ↔ o = some adm) →
      (if memberAt ((x.2.2.push S).1.merge S configs).1.content (rolePath gB.id false) (.str (fromHex k)) then some false
       else if memberAt ((x.2.2.push S).1.merge S configs).1.content (rolePath gB.id true) (.str (fromHex k)) then some true
       else none) = o := by
    intro o ho
    rcases o with _ | _ | _
    · rw [if_neg (fun h => by cases (ho false).1 h), if_neg (fun h => by cases (ho true).1 h)]
    · rw [if_pos ((ho false).2 rfl)]
    · rw [if_neg (fun h => by cases (ho false).1 h), if_pos ((ho true).2 rfl)]
  constructor
  · intro t ht hch hoth
    refine hread _ fun adm => ?_
    by_cases hd : mget k t.2.1.members = some adm ↔ mget k gB.members = some adm
    · rw [edits_combine_line hS hro hB hteam' hx' hpush hall' hknown' hcol hok (rolePath gB.id adm) (by simp [rolePath])
        (.str (fromHex k)) fun e he => ?_]
      · rw [hBm adm, hd]
      · obtain ⟨e0, he0, rfl⟩ := List.mem_map.1 he
        by_cases h : e0 = t
        · subst h; exact hagree _ he0 adm hd
        · exact hagree _ he0 adm (by rw [hoth e0 he0 h])
    · rw [(edits_combine hS hro hB.peer hteam' hx' hpush hall' hknown' hcol hok (rolePath gB.id adm) (by simp [rolePath])).2.1
        (t.1, t.2.2) (List.mem_map.2 ⟨t, ht, rfl⟩) (.str (fromHex k)) ?_ fun e' he' hlt => ?_]
      · exact hem t ht adm
      · intro heq
        have h1 := hBm adm
        have h2 := hem t ht adm
        rw [heq] at h1
        exact hd (h2.symm.trans h1)
      · obtain ⟨e0, he0, rfl⟩ := List.mem_map.1 he'
        by_cases h : e0 = t
        · subst h; exact absurd hlt (lt_irrefl _)
        · exact hagree e0 he0 adm (by rw [hoth e0 he0 h])
  · intro heq
    refine hread _ fun adm => ?_
    rw [edits_combine_line hS hro hB hteam' hx' hpush hall' hknown' hcol hok (rolePath gB.id adm) (by simp [rolePath])
      (.str (fromHex k)) fun e he => ?_]
    · exact hBm adm
    · obtain ⟨e0, he0, rfl⟩ := List.mem_map.1 he
      exact hagree _ he0 adm (by rw [heq e0 he0])

/-! ### Concrete cases -/

theorem Edits.line {a b : Client} (h : Edits S a b) (ha : Line S a) : Line S b := by
  induction h with
  | refl => exact ha
  | tail _ h1 h2 ih => exact .step ih (.edit _ _ h1 (by rw [h2]; rfl))

theorem exC0_line : Line exSys exC0 := .step .new (.addKey _ _ _ _ (by decide +kernel))
theorem exC1_line : Line exSys exC1 := .step exC0_line (.edit _ _ (by decide +kernel) (by decide +kernel))

/-- A device that has received the config of another: with a merge, but still a single line of versions. -/
theorem exD1_line : Line exSys exD1 := by
  have h1 : gather exSys exC0.keys [([104], exM1)] = [([104], exC1.plain exSys)] := by decide +kernel
  have h2 : (exC0.allConfs exSys.env (gather exSys exC0.keys [([104], exM1)])).map (·.2) =
      [exC1.plain exSys] := by decide +kernel
  refine .merge (src := fun _ => exC1) exC0_line (fun _ _ _ => exC1_line) (fun p hp _ => ?_) ?_
    (by decide +kernel) (fun h => ?_)
  · rw [h1] at hp; rw [List.mem_singleton.1 hp]
  · rw [h2]; intro b1 hb1 b2 hb2 _
    rw [List.mem_singleton.1 hb1, List.mem_singleton.1 hb2]
  · have : (exC0.merge exSys [([104], exM1)]).1.st ≠ .dirty := by decide +kernel
    exact absurd h this

/-- The object of the example of `legacy_members_combine` (two devices change the members of a legacy group) has such a history;
its other hypotheses are shown there. -/
theorem exLB_line : Line exSysK exLB := by
  unfold exLB
  refine .step (.step ?_ (.push _)) (.confirm _ _ _)
  have h : exK0.setLegacy exSysK exLegacy = ((exK0.setLegacy exSysK exLegacy).1, .ok ()) := pair_ok (by decide +kernel)
  exact (setRec_edits exSysK_good exK0_reach (fun _ => legacy_fields_wf (g := exLegacy) (by decide +kernel)) h).line
    (.step .new (.addKey _ _ _ _ (by decide +kernel)))

end Verif
