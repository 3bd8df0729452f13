import Verif.Props.ClientNet
import Verif.Props.Concurrent

/-!
# Devices that share a config (C59)
-/

namespace Verif

/-- A call of the application other than `merge`. -/
inductive LocalStep (S : Sys) : Client → Client → Prop
  | edit (c : Client) (d : Dict) : typedD d = true → (c.edit S d).2.safe = true →
      LocalStep S c (c.edit S d).1
  | push (c : Client) : LocalStep S c (c.push S).1
  | confirm (c : Client) (s : Int) (h : Bytes) : LocalStep S c (c.confirm s h)
  | dump (c : Client) : LocalStep S c (c.dumped S)
  | addKey (c : Client) (k : Bytes) (hi d : Bool) : (c.addKey S k hi d).2.safe = true →
      LocalStep S c (c.addKey S k hi d).1
  | removeKey (c : Client) (k : Bytes) (n : Nat) (d : Bool) : (c.removeKey S k n d).2.safe = true →
      LocalStep S c (c.removeKey S k n d).1
  | clearKeys (c : Client) (d : Bool) : (c.clearKeys S d).2.safe = true →
      LocalStep S c (c.clearKeys S d).1
  | replaceKeys (c : Client) (ks : List Bytes) (d : Bool) : (c.replaceKeys S ks d).2.safe = true →
      LocalStep S c (c.replaceKeys S ks d).1

/-- The states of the devices of one account, all running this library: a new device; any call of the
application; a merge, in which every accepted message is one that a device published (a device's
state at the time of publishing is given by `src`); a restart from a dump (of a config that is not
signed). -/
inductive Peer (S : Sys) : Client → Prop
  | new : Peer S (Client.new S)
  | step {c c' : Client} : Peer S c → LocalStep S c c' → Peer S c'
  | merge {c : Client} {configs : List (Bytes × Bytes)} (src : Bytes → Client) : Peer S c →
      (∀ p ∈ gather S c.keys configs, (∃ m, parseMsg S.env false p.2 = .ok m) → Peer S (src p.2)) →
      (∀ p ∈ gather S c.keys configs, (∃ m, parseMsg S.env false p.2 = .ok m) →
        p.2 = (src p.2).plain S) →
      NoCollision S.env ((c.allConfs S.env (gather S c.keys configs)).map (·.2)) →
      (c.merge S configs).2.safe = true → Peer S (c.merge S configs).1
  | restore {c c' : Client} {ord : List Bytes} : Peer S c → S.env.verifier = none →
      S.env.signer = none → ord.Perm (if S.env.readonly then [] else c.old) →
      Client.restore S (c.dumpBytes S ord) = .ok c' → Peer S c'

theorem LocalStep.step {S : Sys} {c c' : Client} (h : LocalStep S c c') : Step S c c' := by
  cases h with
  | edit d h1 h2 => exact .edit _ d h1 h2
  | push => exact .push _
  | confirm => exact .confirm _ _ _
  | dump => exact .dump _
  | addKey k hi d h => exact .addKey _ _ _ _ h
  | removeKey k n d h => exact .removeKey _ _ _ _ h
  | clearKeys d h => exact .clearKeys _ _ h
  | replaceKeys ks d h => exact .replaceKeys _ _ _ h

/-- Whatever an object that can sign holds, it can publish. -/
theorem CInv.published_rw {S : Sys} (hS : S.Good) (hro : S.env.readonly = false) {c : Client}
    (h : CInv S c) : Published S.env c.conf (c.plain S) := by
  refine ⟨rfl, range_of_nonneg hS h.seq h.wf.seq, fun v hv => ?_⟩
  cases hf : S.env.signer with
  | none => simp [Env.readonly, hv, hf] at hro
  | some f =>
    unfold Msg.sig
    cases ho : c.conf.orig with
    | none =>
      rw [refresh_of_none ho]
      cases hsig : c.conf.m.vsig with
      | some s => exact ⟨s, rfl, h.vs ho v hv s hsig⟩
      | none => rw [hf]; exact ⟨_, rfl, hS.sig v f hv hf _⟩
    | some o =>
      rw [refresh_vsig_some (by rw [ho]; rfl), hf]
      exact ⟨_, rfl, hS.sig v f hv hf _⟩

/-- A message read back is written as the same bytes (if there is no verifier, it must not carry a
signature). -/
theorem reparsed_ser (env : Env) (m : Msg) (hv : env.verifier = none → m.vsig = none) :
    (m.reparsed env false (m.ser env true) (m.sig env true)).ser env true = m.ser env true := by
  have htop : (m.reparsed env false (m.ser env true) (m.sig env true)).top env.lag = m.top env.lag := by
    simp only [Msg.top, Msg.reparsed, lagLive_filter_idem]
  have hsig : (m.reparsed env false (m.ser env true) (m.sig env true)).sig env true = m.sig env true := by
    have hb := body_reparsed env false (m.ser env true) (m.sig env true) m
    unfold Msg.sig at hb ⊢
    rw [hb]
    cases hver : env.verifier with
    | none =>
      rw [hv hver]
      simp [Msg.reparsed, hver]
    | some v =>
      simp only [Msg.reparsed, hver, Option.isSome_some, Bool.true_or, if_true]
      cases m.vsig with
      | some s => rfl
      | none => cases env.signer <;> rfl
  rw [ser_eq env (m.reparsed env false (m.ser env true) (m.sig env true)), htop, hsig, ← ser_eq]

/-- What holds of every device's config. -/
structure PConf (S : Sys) (cf : Conf) : Prop where
  honest : Honest S.env false cf
  hash : cf.orig = none → cf = ⟨newMsg S.env.H, none⟩ ∨ cf.m.hash = S.env.H (cf.ser S.env true)
  vs : S.env.verifier = none → cf.m.vsig = none

theorem PConf.new (S : Sys) : PConf S ⟨newMsg S.env.H, none⟩ :=
  ⟨.new, fun _ => .inl rfl, fun _ => rfl⟩

theorem PConf.refresh {S : Sys} {cf : Conf} (h : PConf S cf) : PConf S cf.refresh := by
  obtain ⟨m, o⟩ := cf
  cases o with
  | none => exact h
  | some o => exact ⟨h.honest.refresh, fun hh => (by cases hh), fun _ => rfl⟩

theorem PConf.increment {S : Sys} {cf : Conf} (h : PConf S cf) (hi : int64Ok (cf.m.seqno + 1) = true) :
    PConf S (cf.increment S.env) := by
  refine ⟨h.honest.increment hi, fun hh => (by cases hh), fun hv => ?_⟩
  obtain ⟨m, o⟩ := cf
  cases o with
  | none => exact h.vs hv
  | some o => rfl

theorem PConf.setData {S : Sys} {cf : Conf} (h : PConf S cf) (ho : cf.orig.isSome = true) {d : Dict}
    (hd : typedD d = true) : PConf S { cf with m := { cf.m with data := d } } :=
  ⟨h.honest.edit ho hd, fun hh => (by simp only at hh; rw [hh] at ho; cases ho), h.vs⟩

theorem PConf.dirty {S : Sys} {c : Client} (h : PConf S c.conf) : PConf S (c.dirty S).1.conf := by
  unfold Client.dirty
  by_cases h1 : c.st = .dirty
  · rw [if_pos h1]; split <;> exact h
  rw [if_neg h1]
  by_cases h2 : S.env.readonly = true
  · rw [if_pos h2]; exact h
  rw [if_neg h2]
  by_cases h3 : int64Ok (c.conf.m.seqno + 1) = true
  · rw [if_neg (by simp [h3])]; exact h.increment h3
  · rw [if_pos (by simpa using h3)]; exact h

theorem PConf.edit {S : Sys} {c : Client} (h : PConf S c.conf) {d : Dict} (hd : typedD d = true) :
    PConf S (c.edit S d).1.conf := by
  by_cases he : (c.dirty S).2 = .ok ()
  · rw [edit_eq_ok he]
    exact h.dirty.setData (dirty_ok he).2.1 hd
  · rw [edit_eq_err he]; exact h.dirty

theorem PConf.removeKey {S : Sys} {c : Client} (h : PConf S c.conf) (k : Bytes) (n : Nat) (d : Bool) :
    PConf S (c.removeKey S k n d).1.conf := by
  unfold Client.removeKey
  split
  · exact h
  split
  · exact h
  dsimp only
  split
  · have := PConf.dirty (S := S) (c := { c with keys := c.keys.take n ++ (c.keys.drop n).filter (· ≠ k) }) h
    split <;> rename_i he <;> rw [he] at this <;> exact this
  · exact h

theorem PConf.addKey {S : Sys} {c : Client} (h : PConf S c.conf) (k : Bytes) (hi d : Bool) :
    PConf S (c.addKey S k hi d).1.conf := by
  unfold Client.addKey
  split
  · exact h
  split
  · exact h
  split
  · exact h
  dsimp only
  cases hi with
  | true =>
    simp only [if_true]
    have h1 := h.removeKey k 1 false
    split
    · exact PConf.dirty (c := { (c.removeKey S k 1 false).1 with keys := _ }) h1
    · exact h1
  | false =>
    simp only [Bool.false_eq_true, if_false]
    split
    · exact PConf.dirty (c := { c with keys := _ }) h
    · exact h

theorem PConf.clearKeys {S : Sys} {c : Client} (h : PConf S c.conf) (d : Bool) :
    PConf S (c.clearKeys S d).1.conf := by
  unfold Client.clearKeys
  dsimp only
  split
  · exact PConf.dirty (c := { c with keys := [] }) h
  · exact h

theorem PConf.replaceKeys {S : Sys} {c : Client} (h : PConf S c.conf) (ks : List Bytes) (d : Bool) :
    PConf S (c.replaceKeys S ks d).1.conf := by
  unfold Client.replaceKeys
  split
  · split
    · exact h
    · exact h.clearKeys d
  split
  · exact h
  dsimp only
  rename_i k ks _
  have h1 : ∀ (l : List Bytes) (c : Client), PConf S c.conf →
      PConf S (l.foldl (fun c k => (c.addKey S k false false).1) c).conf := by
    intro l
    induction l with
    | nil => exact fun c h => h
    | cons a t ih => exact fun c h => ih _ (h.addKey a false false)
  have := h1 (k :: ks) { c with keys := [] } h
  split
  · exact this.dirty
  · exact this

theorem PConf.push {S : Sys} {c : Client} (h : PConf S c.conf) : PConf S (c.push S).1.conf := by
  unfold Client.push
  split
  · exact h
  split
  · split
    · exact h.refresh
    · dsimp only
      split
      · rw [setState_conf]; exact h.refresh
      · exact h.refresh
  · exact h.refresh
  · exact h
  · exact h

theorem PConf.local {S : Sys} {c c' : Client} (h : PConf S c.conf) (hs : LocalStep S c c') :
    PConf S c'.conf := by
  cases hs with
  | edit d h1 h2 => exact h.edit h1
  | push => exact h.push
  | confirm s x =>
    unfold Client.confirm
    split
    · show PConf S (Client.setState _ .clean).conf
      rw [setState_conf]; exact h
    · exact h
  | dump => exact h.refresh
  | addKey k hi d _ => exact h.addKey k hi d
  | removeKey k n d _ => exact h.removeKey k n d
  | clearKeys d _ => exact h.clearKeys d
  | replaceKeys ks d _ => exact h.replaceKeys ks d

/-- What holds of every device. -/
structure PInv (S : Sys) (c : Client) : Prop where
  reach : Reach S c
  conf : PConf S c.conf

/-- What a device publishes, as it is read. -/
theorem PInv.read {S : Sys} (hS : S.Good) (hro : S.env.readonly = false) {c : Client} (h : PInv S c) :
    parseMsg S.env false (c.plain S) = .ok (c.ownMsg S) :=
  ((h.reach.inv hS).published_rw hS hro).parse hS.sane (h.reach.inv hS).wf false

theorem PInv.own_ser {S : Sys} {c : Client} (h : PInv S c) : (c.ownMsg S).ser S.env true = c.plain S :=
  reparsed_ser S.env _ h.conf.refresh.vs

theorem PInv.own_vsig {S : Sys} (c : Client) (hv : S.env.verifier = none) : (c.ownMsg S).vsig = none := by
  simp [Client.ownMsg, Msg.reparsed, hv]

theorem PInv.own_fair {S : Sys} (hS : S.Good) (hro : S.env.readonly = false) {c : Client} (h : PInv S c) :
    Fair S.env (c.plain S) :=
  ((h.reach.inv hS).published_rw hS hro).fair hS.sane (h.reach.inv hS).wf (h.reach.inv hS).seq

theorem PInv.merge {S : Sys} (hS : S.Good) (hro : S.env.readonly = false) {c : Client}
    {configs : List (Bytes × Bytes)} {src : Bytes → Client} (h : PInv S c)
    (hsrc : ∀ p ∈ gather S c.keys configs, (∃ m, parseMsg S.env false p.2 = .ok m) → PInv S (src p.2))
    (hpl : ∀ p ∈ gather S c.keys configs, (∃ m, parseMsg S.env false p.2 = .ok m) →
      p.2 = (src p.2).plain S)
    (hcol : NoCollision S.env ((c.allConfs S.env (gather S c.keys configs)).map (·.2)))
    (hsafe : (c.merge S configs).2.safe = true) : PInv S (c.merge S configs).1 := by
  have hfair : ∀ p ∈ gather S c.keys configs, Fair S.env p.2 := by
    intro p hp m hm
    have := (hsrc p hp ⟨m, hm⟩).own_fair hS hro
    rw [← hpl p hp ⟨m, hm⟩] at this
    exact this m hm
  refine ⟨.step h.reach (.merge _ _ hfair hcol hsafe), ?_⟩
  rcases merge_cases hsafe with ⟨e, _, h2 | h2⟩ | ⟨R, bad, _, hR, hm⟩
  · rw [h2]; exact h.conf
  · rw [h2]; dsimp only; split
    · exact h.conf.refresh
    · exact h.conf
  rw [hm]
  have hci := h.reach.inv hS
  set f : Bytes → Client := fun b => if b = c.plain S then c else src b with hf
  have hall : ∀ b ∈ (c.allConfs S.env (gather S c.keys configs)).map (·.2),
      ∀ m, parseMsg S.env false b = .ok m → PInv S (f b) ∧ b = (f b).plain S := by
    intro b hb m hpm
    by_cases hbc : b = c.plain S
    · rw [hf]; simp only [hbc, if_true]; exact ⟨h, trivial⟩
    · rw [hf]; simp only [hbc, if_false]
      unfold Client.allConfs at hb
      rw [List.map_append, List.mem_append] at hb
      rcases hb with hb | hb
      · split at hb
        · simp only [List.map_cons, List.map_nil, List.mem_singleton] at hb
          exact absurd hb hbc
        · cases hb
      · obtain ⟨p, hp, rfl⟩ := List.mem_map.1 hb
        exact ⟨hsrc p hp ⟨m, hpm⟩, hpl p hp ⟨m, hpm⟩⟩
  have hH : Honest S.env false ⟨R, none⟩ := by
    refine Honest.merged (src := fun b => (f b).conf) rfl (fun b hb m hpm => (hall b hb m hpm).1.conf.honest)
      (fun b hb m hpm => ?_) hR
    have h1 := (hall b hb m hpm)
    have h2 := (h1.1.reach.inv hS).published_rw hS hro
    rw [← h1.2] at h2
    exact h2
  rcases (absorb_cases hS hci hfair hcol hR).2 with h1 | ⟨hu, _, _, _, h1⟩ |
      ⟨top, i, x, y, hi, _, _, hRe, _, _, _, h1⟩
  · rw [h1]
    unfold Client.noted
    dsimp only
    split
    · exact h.conf.refresh
    · exact h.conf
  · rw [h1, setState_conf]
    dsimp only
    have hvs : R.vsig = none := by
      rcases mergeMsgs_forms hR with ⟨m, i, _, hh⟩ | ⟨_, _, hh, _⟩
      · rw [hh] at hu; simp only at hu; omega
      · exact hh
    unfold Client.mergedConf Client.newConf
    by_cases hd : c.st = .dirty
    · rw [if_pos hd, if_pos hd]
      refine ⟨Honest.mergedMut (src := fun b => (f b).conf) rfl
        (fun b hb m hpm => (hall b hb m hpm).1.conf.honest) (fun b hb m hpm => ?_) hR hu, ?_, ?_⟩
      · have h1 := (hall b hb m hpm)
        have h2 := (h1.1.reach.inv hS).published_rw hS hro
        rw [← h1.2] at h2
        exact h2
      · intro hh
        have := mutFromMerge_orig S.env R
        rw [hh] at this; cases this
      · intro _
        unfold mutFromMerge
        rw [if_pos hu]; exact hvs
    · rw [if_neg hd, if_neg hd]
      exact ⟨hH.retain rfl, fun hh => (by cases hh), fun _ => hvs⟩
  · rw [h1]
    dsimp only
    have hmem := List.mem_of_getElem? hi
    obtain ⟨b, hb, hpm⟩ := mem_validOf.1 hmem
    obtain ⟨hP, hbe⟩ := hall b hb top hpm
    have htop : top = (f b).ownMsg S := by
      have := hP.read hS hro
      rw [← hbe, hpm] at this
      exact Out.ok.inj this
    have hPR : PConf S ⟨R, none⟩ := by
      refine ⟨hH, fun _ => .inr ?_, fun hv => ?_⟩
      · have h1 : (⟨R, none⟩ : Conf).ser S.env true = top.ser S.env true := by rw [hRe]; rfl
        rw [h1, htop, hP.own_ser, hRe]
        show top.hash = _
        rw [htop]; rfl
      · rw [hRe]; show top.vsig = none
        rw [htop]; exact PInv.own_vsig _ hv
    unfold Client.newConf
    split
    · rename_i hd
      have hune : R.unmerged ≠ -1 := by rw [hRe]; simp only; omega
      have h64 := (mergeMsgs_bounds hS (hci.all_fair hS hfair) hR).2.1 hune
      have : mutFromMerge S.env R = (⟨R, none⟩ : Conf).increment S.env := by
        unfold mutFromMerge
        rw [if_neg hune]; rfl
      rw [this]
      exact hPR.increment h64
    · exact hPR

theorem PInv.restore {S : Sys} (hS : S.Good) {c c' : Client} {ord : List Bytes} (h : PInv S c)
    (hv : S.env.verifier = none) (hsg : S.env.signer = none)
    (hord : ord.Perm (if S.env.readonly then [] else c.old))
    (hr : Client.restore S (c.dumpBytes S ord) = .ok c') : PInv S c' := by
  refine ⟨.restore h.reach hord hr, ?_⟩
  have hci := h.reach.inv hS
  have hn : ord.Nodup := by
    rw [hord.nodup_iff]
    split
    · exact List.nodup_nil
    · exact hci.old
  have henv : S.env.unsigned = S.env := by
    unfold Env.unsigned
    rw [← hv, ← hsg]
  have hro : S.env.readonly = false := by simp [Env.readonly, hv]
  have hpub := hci.published_rw hS hro
  have hdm : ∀ t, dumpedMsg S.env c.conf t = c.ownMsg S := by
    intro t
    have h1 := parse_dumped hS hci t
    have h2 := hpub.parse hS.sane hci.wf t
    have h3 : c.conf.ser S.env false = c.plain S := by
      unfold Client.plain Conf.ser
      rw [ser_unsigned, henv]
    rw [henv, h3] at h1
    rw [h1] at h2
    rw [Out.ok.inj h2]
    have : c.conf.refresh.m.sig S.env true = none := by
      rw [← henv, sig_unsigned]; exact h.conf.refresh.vs hv
    unfold Client.ownMsg
    rw [this]
    unfold Msg.reparsed Client.plain
    simp
  have hH : Honest S.env false ⟨c.ownMsg S, none⟩ := .loaded h.conf.honest hpub (h.read hS hro)
  have hP : ∀ i, Honest S.env false ⟨{ c.ownMsg S with unmerged := i }, none⟩ →
      PConf S ⟨{ c.ownMsg S with unmerged := i }, none⟩ := fun i hi => by
    refine ⟨hi, fun _ => .inr ?_, fun _ => PInv.own_vsig c hv⟩
    have h1 : (⟨{ c.ownMsg S with unmerged := i }, none⟩ : Conf).ser S.env true =
      (c.ownMsg S).ser S.env true := rfl
    rw [h1, h.own_ser]; rfl
  obtain ⟨rfl, hov⟩ := restore_inv hS hci hn hr
  unfold Client.reloaded
  dsimp only
  split
  · rename_i hd
    rw [hdm]
    have hov := hov hd
    have hR := mergeMsgs_single hS.lag1 (h.read hS hro) (by rw [ownMsg_seqno]; exact hov)
    have h0 : Honest S.env false ⟨{ c.ownMsg S with unmerged := 0 }, none⟩ := by
      refine Honest.merged (src := fun _ => c.conf) rfl (fun b hb m hpm => h.conf.honest)
        (fun b hb m hpm => ?_) hR
      rw [List.mem_singleton.1 hb]; exact hpub
    have := (hP 0 h0).increment (by
      show int64Ok ((c.ownMsg S).seqno + 1) = true
      rw [ownMsg_seqno]
      have := hS.lag1
      have := hci.wf.seq
      simp only [int64Ok, Bool.and_eq_true, decide_eq_true_eq] at *
      omega)
    exact this
  · rw [hdm]
    exact hP (-1) hH

theorem Peer.inv {S : Sys} (hS : S.Good) (hro : S.env.readonly = false) {c : Client} (h : Peer S c) :
    PInv S c := by
  induction h with
  | new => exact ⟨.new, PConf.new S⟩
  | step _ hs ih => exact ⟨.step ih.reach hs.step, ih.conf.local hs⟩
  | merge src _ _ hpl hcol hsafe ih ihs => exact ih.merge hS hro ihs hpl hcol hsafe
  | restore _ hv hsg hord hr ih => exact ih.restore hS hv hsg hord hr

/-! ### Increments of the same config -/

theorem lagsForNext_eq {s lag : Int} {l : List (SH × BtDict)} (hs : KSorted l)
    (hw : ∀ p ∈ l, p.1.1 < s) : lagsForNext s lag l = l.filter (lagLive s lag) := by
  have h1 : KSorted (lagsForNext s lag l) := List.Pairwise.sublist (lagsForNext_sublist _ _ _) hs
  have h2 : KSorted (l.filter (lagLive s lag)) := List.Pairwise.sublist List.filter_sublist hs
  refine map_ext h1 h2 fun k => Option.ext fun v => ?_
  rw [mget_iff_mem h1, mget_iff_mem h2, mem_lagsForNext hs hw, mem_lagLive]
  constructor
  · rintro ⟨a, b⟩; exact ⟨a, b, hw _ a⟩
  · rintro ⟨a, b, _⟩; exact ⟨a, b⟩

theorem incrementImpl_congr {env : Env} {ma mb : Msg} {d : Dict} (h1 : ma.data = mb.data)
    (h2 : ma.diff = mb.diff) (h3 : ma.unknown = mb.unknown) (h4 : ma.seqno = mb.seqno)
    (h5 : ma.hash = mb.hash) (h6 : lagsForNext ma.seqno env.lag ma.lagged =
      lagsForNext mb.seqno env.lag mb.lagged) :
    ({ incrementImpl env.lag ma with m := { (incrementImpl env.lag ma).m with data := d } } : Conf).ser
        env true =
      ({ incrementImpl env.lag mb with m := { (incrementImpl env.lag mb).m with data := d } } : Conf).ser
        env true := by
  obtain ⟨da, fa, la, ua, sa, ha, va, na⟩ := ma
  obtain ⟨db, fb, lb, ub, sb, hb, vb, nb⟩ := mb
  simp only at h1 h2 h3 h4 h5 h6
  subst h1 h2 h3 h4 h5
  unfold Conf.ser Conf.refresh incrementImpl
  simp only [Msg.sh, h6]
  rfl

/-- Two devices hold the same config: what they would publish is the same, or neither has any config
yet. -/
def SameConfig (S : Sys) (a b : Client) : Prop :=
  (a.seqno ≠ 0 ∧ a.plain S = b.plain S) ∨
    (a.conf = (Client.new S).conf ∧ b.conf = (Client.new S).conf)

theorem hashed_fields (env : Env) (c : Conf) : (c.hashed env).m.data = c.refresh.m.data ∧
    (c.hashed env).m.diff = c.refresh.m.diff ∧ (c.hashed env).m.unknown = c.refresh.m.unknown ∧
    (c.hashed env).m.seqno = c.refresh.m.seqno ∧ (c.hashed env).m.lagged = c.refresh.m.lagged := by
  obtain ⟨m, o⟩ := c; cases o <;> exact ⟨rfl, rfl, rfl, rfl, rfl⟩

theorem PInv.hashed_hash {S : Sys} {c : Client} (h : PInv S c) (h0 : c.seqno ≠ 0) :
    (c.conf.hashed S.env).m.hash = S.env.H (c.plain S) := by
  cases ho : c.conf.orig with
  | none =>
    rcases h.conf.hash ho with he | he
    · exact absurd (by unfold Client.seqno; rw [he]; rfl) h0
    · rw [← show c.conf.m.hash = S.env.H (c.plain S) from he]
      unfold Conf.hashed; rw [ho]
  | some o => unfold Conf.hashed; rw [ho]; rfl

/-- Devices that hold the same config read it alike. -/
theorem SameConfig.own {S : Sys} (hS : S.Good) (hro : S.env.readonly = false) {a b : Client}
    (h : SameConfig S a b) (ha : PInv S a) (hb : PInv S b) : a.ownMsg S = b.ownMsg S := by
  rcases h with ⟨_, h⟩ | ⟨h1, h2⟩
  · have h1 := ha.read hS hro
    rw [h, hb.read hS hro] at h1
    exact (Out.ok.inj h1).symm
  · unfold Client.ownMsg; rw [h1, h2]

theorem own_content {S : Sys} (c : Client) : (c.ownMsg S).data = c.conf.content := rfl

/-- An update to given content is the same message, whichever of the devices makes it. -/
theorem SameConfig.child {S : Sys} (hS : S.Good) (hro : S.env.readonly = false) {a b : Client}
    (h : SameConfig S a b) (ha : PInv S a) (hb : PInv S b) (d : Dict) :
    (childOf S.env a.conf d).ser S.env true = (childOf S.env b.conf d).ser S.env true := by
  rcases id h with ⟨h0, hp⟩ | ⟨h1, h2⟩
  · have ho := h.own hS hro ha hb
    obtain ⟨a1, a2, a3, a4, a5⟩ := hashed_fields S.env a.conf
    obtain ⟨b1, b2, b3, b4, b5⟩ := hashed_fields S.env b.conf
    have hs : a.conf.m.seqno = b.conf.m.seqno := by
      rw [← ownMsg_seqno S a, ho, ownMsg_seqno]
    have wa := (ha.reach.inv hS).wf.hashed hS.sane (env := S.env)
    have wb := (hb.reach.inv hS).wf.hashed hS.sane (env := S.env)
    unfold childOf Conf.increment
    refine incrementImpl_congr ?_ ?_ ?_ ?_ ?_ ?_
    · rw [a1, b1]; have e := congrArg Msg.data ho; exact e
    · rw [a2, b2]; have e := congrArg Msg.diff ho; exact e
    · rw [a3, b3]; have e := congrArg Msg.unknown ho; exact e
    · rw [hashed_seqno, hashed_seqno, hs]
    · rw [ha.hashed_hash h0, hb.hashed_hash (by unfold Client.seqno at h0 ⊢; rw [← hs]; exact h0), hp]
    · rw [lagsForNext_eq wa.lagS wa.window, lagsForNext_eq wb.lagS wb.window, a4, b4, a5, b5]
      exact congrArg Msg.lagged ho
  · rw [h1, h2]

/-! ### Edits -/

/-- Any number of modifications of the data. -/
inductive Edits (S : Sys) : Client → Client → Prop
  | refl (c : Client) : Edits S c c
  | tail {a b : Client} {d : Dict} : Edits S a b → typedD d = true → (b.edit S d).2 = .ok () →
      Edits S a (b.edit S d).1

theorem Edits.trans {S : Sys} {a b c : Client} (h : Edits S a b) (h' : Edits S b c) : Edits S a c := by
  induction h' with
  | refl => exact h
  | tail _ h1 h2 ih => exact .tail ih h1 h2

theorem Edits.peer {S : Sys} {a b : Client} (h : Edits S a b) (ha : Peer S a) : Peer S b := by
  induction h with
  | refl => exact ha
  | tail _ h1 h2 ih => exact .step ih (.edit _ _ h1 (by rw [h2]; rfl))

/-- After edits: nothing happened, or the config is an update of what it was. -/
theorem Edits.result {S : Sys} {a b : Client} (h : Edits S a b) (hd : a.st ≠ .dirty) :
    b = a ∨ (b.st = .dirty ∧ b.keys = a.keys ∧ int64Ok (a.conf.m.seqno + 1) = true ∧
      typedD b.conf.m.data = true ∧ b.conf = childOf S.env a.conf b.conf.m.data) := by
  induction h with
  | refl => exact .inl rfl
  | @tail b d _ h1 h2 ih =>
    right
    have hde : (b.dirty S).2 = .ok () := by
      by_contra hne
      rw [edit_eq_err hne] at h2
      exact hne h2
    rw [edit_eq_ok hde]
    rcases ih with rfl | ⟨i1, i2, i3, i4, i5⟩
    · rcases dirty_fst (S := S) (c := b) with he | ⟨_, hro, _, he⟩
      · unfold Client.dirty at he hde
        rw [if_neg hd] at he hde
        by_cases h2 : S.env.readonly = true
        · rw [if_pos h2] at hde; cases hde
        rw [if_neg h2] at he hde
        by_cases h3 : int64Ok (b.conf.m.seqno + 1) = true
        · rw [if_neg (by simp [h3])] at he
          have := congrArg Client.st he
          exact absurd this.symm hd
        · rw [if_pos (by simpa using h3)] at hde; cases hde
      · rw [he]
        refine ⟨rfl, by simp, ?_, h1, rfl⟩
        by_contra h3
        unfold Client.dirty at hde
        rw [if_neg hd, if_neg (by simp [hro]), if_pos (by simpa using h3)] at hde
        cases hde
    · have hbb : (b.dirty S).1 = b := by
        unfold Client.dirty
        rw [if_pos i1]; split <;> rfl
      rw [hbb]
      refine ⟨i1, i2, i3, h1, ?_⟩
      dsimp only
      rw [i5]; rfl

theorem published_mut {S : Sys} (hS : S.Good) (hro : S.env.readonly = false) {cf : Conf}
    (hw : ConfWF cf) (h0 : 0 ≤ cf.m.seqno) (ho : cf.orig.isSome = true) :
    Published S.env cf (cf.ser S.env true) := by
  refine ⟨rfl, range_of_nonneg hS h0 hw.seq, fun v hv => ?_⟩
  cases hf : S.env.signer with
  | none => simp [Env.readonly, hv, hf] at hro
  | some f =>
    unfold Msg.sig
    rw [refresh_vsig_some ho, hf]
    exact ⟨_, rfl, hS.sig v f hv hf _⟩

/-- A device before and after its edits. -/
structure Editor (S : Sys) (B : Client) (e : Client × Client) : Prop where
  peer : Peer S e.1
  idle : e.1.st ≠ .dirty
  same : SameConfig S e.1 B
  edits : Edits S e.1 e.2
  pending : e.2.st = .dirty

theorem Editor.result {S : Sys} {B : Client} {e : Client × Client} (h : Editor S B e) :
    e.2.keys = e.1.keys ∧ int64Ok (e.1.conf.m.seqno + 1) = true ∧ typedD e.2.conf.m.data = true ∧
      e.2.conf = childOf S.env e.1.conf e.2.conf.m.data := by
  rcases h.edits.result h.idle with he | ⟨_, h2, h3, h4, h5⟩
  · exact absurd (by rw [← he]; exact h.pending) h.idle
  · exact ⟨h2, h3, h4, h5⟩

/-- The editor's message, as an update of the common config. -/
theorem Editor.kid {S : Sys} (hS : S.Good) (hro : S.env.readonly = false) {B : Client} (hB : Peer S B)
    {e : Client × Client} (h : Editor S B e) :
    e.2.plain S = (childOf S.env B.conf e.2.conf.m.data).ser S.env true ∧
      e.1.conf.m.seqno = B.conf.m.seqno := by
  have h1 := h.peer.inv hS hro
  have h2 := hB.inv hS hro
  refine ⟨?_, ?_⟩
  · rw [← h.same.child hS hro h1 h2, ← h.result.2.2.2]; rfl
  · rw [← ownMsg_seqno S e.1, h.same.own hS hro h1 h2, ownMsg_seqno]

/-- The batch a device merges that has published its own edits. -/
theorem team_concurrent {S : Sys} (hS : S.Good) (hro : S.env.readonly = false) {B : Client}
    (hB : Peer S B) {team : List (Client × Client)} (hteam : ∀ e ∈ team, Editor S B e)
    (hne : team ≠ []) {inputs : List Bytes}
    (hall : ∀ e ∈ team, e.2.plain S ∈ inputs)
    (hknown : ∀ b ∈ inputs, (∃ m, parseMsg S.env false b = .ok m) →
      (∃ e ∈ team, b = e.2.plain S) ∨ (B.seqno ≠ 0 ∧ b = B.plain S))
    (hcol : NoCollision S.env inputs) {R : Msg} {bad : List Nat}
    (hR : mergeMsgs S.env inputs = .ok (R, bad)) :
    Concurrent S.env B.conf (team.map fun e => e.2.conf.m.data) inputs := by
  have hBi := hB.inv hS hro
  have hBc := hBi.reach.inv hS
  have hpub : ∀ e ∈ team, Published S.env (childOf S.env B.conf e.2.conf.m.data) (e.2.plain S) := by
    intro e he
    have h := hteam e he
    obtain ⟨k1, k2⟩ := h.kid hS hro hB
    rw [k1]
    have h64 := h.result.2.1
    rw [k2] at h64
    refine published_mut hS hro ((childOf_made hBi.conf.honest.made h64 h.result.2.2.1).wf hS.sane) ?_ rfl
    show 0 ≤ (B.conf.hashed S.env).m.seqno + 1
    rw [hashed_seqno]
    have := hBc.seq
    omega
  obtain ⟨x, hx⟩ := List.exists_mem_of_ne_nil _ hne
  have hxr := (hteam x hx).result
  have hxk := (hteam x hx).kid hS hro hB
  have hb1 : int64Ok (B.conf.m.seqno + 1) = true := by rw [← hxk.2]; exact hxr.2.1
  refine ⟨by simpa using hne, ?_, ⟨hb1, ?_⟩, ?_, ?_, hcol⟩
  · intro d hd
    obtain ⟨e, he, rfl⟩ := List.mem_map.1 hd
    exact (hteam e he).result.2.2.1
  · have hpre := (mergeParsed_pre (mergeMsgs_ok_iff.1 ⟨bad, hR⟩).2).2
    have hmem : x.2.ownMsg S ∈ validOf S.env inputs :=
      mem_validOf.2 ⟨_, hall x hx, (((hteam x hx).edits.peer (hteam x hx).peer).inv hS hro).read hS hro⟩
    have := hpre _ hmem
    rw [ownMsg_seqno, hxr.2.2.2] at this
    have hsq : (childOf S.env x.1.conf x.2.conf.m.data).m.seqno = B.conf.m.seqno + 1 := by
      show (x.1.conf.hashed S.env).m.seqno + 1 = _
      rw [hashed_seqno, hxk.2]
    rw [hsq] at this
    exact this
  · intro d hd
    obtain ⟨e, he, rfl⟩ := List.mem_map.1 hd
    exact ⟨_, hall e he, hpub e he⟩
  · intro b hb hm
    rcases hknown b hb hm with ⟨e, he, rfl⟩ | ⟨h0, rfl⟩
    · exact .inl ⟨_, List.mem_map_of_mem he, hpub e he⟩
    · refine .inr ⟨B.conf, hBi.conf.honest.made, .inl rfl, ?_⟩
      cases ho : B.conf.orig with
      | some o => exact .inl ⟨by rw [ho]; rfl, hBc.published_rw hS hro⟩
      | none =>
        refine .inr ⟨ho, _, hBi.read hS hro, ?_⟩
        have := hBi.hashed_hash h0
        unfold Conf.hashed at this
        rw [ho] at this
        unfold Msg.sh
        rw [ownMsg_seqno, show B.conf.m.hash = _ from this]; rfl

/-- `edits_combine`, and elements that nobody has if the history of the common config is strict. -/
theorem edits_combine_hist {S : Sys} (hS : S.Good) (hro : S.env.readonly = false) {B : Client}
    (hB : Peer S B) {strict : Prop} (hstrict : HistConf strict B.conf) {team : List (Client × Client)} (hteam : ∀ e ∈ team, Editor S B e)
    {x : Client × Client} (hx : x ∈ team) {s : Int} {msg : Bytes} {obs : List Bytes}
    (hpush : (x.2.push S).2 = .ok (s, msg, obs)) {configs : List (Bytes × Bytes)}
    (hall : ∀ e ∈ team, e.2.plain S = x.2.plain S ∨
      ∃ p ∈ gather S x.2.keys configs, p.2 = e.2.plain S)
    (hknown : ∀ p ∈ gather S x.2.keys configs, (∃ m, parseMsg S.env false p.2 = .ok m) →
      (∃ e ∈ team, p.2 = e.2.plain S) ∨ (B.seqno ≠ 0 ∧ p.2 = B.plain S))
    (hcol : NoCollision S.env (x.2.plain S :: (gather S x.2.keys configs).map (·.2)))
    (hok : ((x.2.push S).1.merge S configs).2.isOk = true) (p : List Bytes) (hp : p ≠ []) :
    (∀ e ∈ team, sameAt B.content e.2.content p = false →
      (∀ e' ∈ team, S.env.H (e.2.plain S) < S.env.H (e'.2.plain S) →
        sameAt B.content e'.2.content p = true) →
      scalarAt ((x.2.push S).1.merge S configs).1.content p = scalarAt e.2.content p) ∧
    (∀ e ∈ team, ∀ y, memberAt B.content p y ≠ memberAt e.2.content p y →
      (∀ e' ∈ team, S.env.H (e.2.plain S) < S.env.H (e'.2.plain S) →
        agreeOn B.content e'.2.content p y) →
      memberAt ((x.2.push S).1.merge S configs).1.content p y = memberAt e.2.content p y) ∧
    ((∀ e ∈ team, sameAt B.content e.2.content p = true) →
      scalarAt ((x.2.push S).1.merge S configs).1.content p = scalarAt B.content p) ∧
    (∀ y, (∀ e ∈ team, agreeOn B.content e.2.content p y) → memberAt B.content p y = true ∨ strict →
      memberAt ((x.2.push S).1.merge S configs).1.content p y = memberAt B.content p y) := by
  obtain ⟨_, hst, hconf, _, hkeys, _, _⟩ := push_state hpush
  have hxe := hteam x hx
  have hx2 : Peer S x.2 := hxe.edits.peer hxe.peer
  have hxP : Peer S (x.2.push S).1 := .step hx2 (.push _)
  have hxi := hxP.inv hS hro
  have hxc := hxi.reach.inv hS
  have hx2c := (hx2.inv hS hro).reach.inv hS
  have hBi := hB.inv hS hro
  have hplain : (x.2.push S).1.plain S = x.2.plain S := by
    unfold Client.plain; rw [hconf, ser_refresh hx2c.wf]
  obtain ⟨k1, k2⟩ := hxe.kid hS hro hB
  have hseq : ∀ e ∈ team, e.2.conf.m.seqno = B.conf.m.seqno + 1 := by
    intro e he
    have := (hteam e he).kid hS hro hB
    rw [(hteam e he).result.2.2.2]
    show (e.1.conf.hashed S.env).m.seqno + 1 = _
    rw [hashed_seqno, this.2]
  have hB0 : 0 ≤ B.conf.m.seqno := (hBi.reach.inv hS).seq
  have hne0 : (x.2.push S).1.conf.m.seqno ≠ 0 := by
    rw [hconf, refresh_seqno, hseq x hx]; omega
  have hmine : (x.2.push S).1.hasMine = true := by unfold Client.hasMine; simp [hne0]
  have hconfs : ((x.2.push S).1.allConfs S.env (gather S x.2.keys configs)).map (·.2) =
      x.2.plain S :: (gather S x.2.keys configs).map (·.2) := by
    unfold Client.allConfs
    rw [if_pos hmine, ← hplain]; rfl
  -- sources of the messages
  have hfair : ∀ q ∈ gather S x.2.keys configs, Fair S.env q.2 := by
    intro q hq m hm
    rcases hknown q hq ⟨m, hm⟩ with ⟨e, he, h1⟩ | ⟨_, h1⟩
    · have := (((hteam e he).edits.peer (hteam e he).peer).inv hS hro).own_fair hS hro
      rw [← h1] at this; exact this m hm
    · have := hBi.own_fair hS hro
      rw [← h1] at this; exact this m hm
  have hsafe : ((x.2.push S).1.merge S configs).2.safe = true := by
    cases hh : ((x.2.push S).1.merge S configs).2 with
    | ok _ => rfl
    | err _ => rfl
    | hang => rw [hh] at hok; cases hok
    | ub => rw [hh] at hok; cases hok
  rcases merge_cases hsafe with ⟨e, he, _⟩ | ⟨R, bad, _, hR, hm⟩
  · rw [he] at hok; cases hok
  rw [hkeys] at hR hm
  have hcol' := hcol
  rw [← hconfs] at hcol'
  have hres := (absorb_result hS hxc hst hne0 hro hfair hcol' hR).1
  rw [← hm] at hres
  rw [hconfs] at hR
  have hconc := team_concurrent hS hro hB hteam (List.ne_nil_of_mem hx)
    (inputs := x.2.plain S :: (gather S x.2.keys configs).map (·.2))
    (fun e he => by
      rcases hall e he with h | ⟨q, hq, h⟩
      · rw [h]; exact List.mem_cons_self
      · rw [← h]; exact List.mem_cons_of_mem _ (List.mem_map_of_mem hq))
    (fun b hb hm => by
      rcases List.mem_cons.1 hb with rfl | hb
      · exact .inl ⟨x, hx, rfl⟩
      · obtain ⟨q, hq, rfl⟩ := List.mem_map.1 hb
        exact hknown q hq hm)
    hcol hR
  have hBcont : B.conf.content = B.content := refresh_data_eq (hBi.reach.inv hS).wf
  obtain ⟨c1, c2, c3, c4⟩ := concurrent_updates_hist hS.sane hS.lag1 hro hBi.conf.honest.made hstrict hconc hR p hp
  rw [hBcont] at c1 c2 c3 c4
  have hRty : typedD R.data = true := by
    exact ((Made.merged hR).wf hS.sane).data
  have hsh : ∀ e ∈ team, ∀ e' ∈ team, (kidMsg S.env B.conf e.2.conf.m.data).sh <
      (kidMsg S.env B.conf e'.2.conf.m.data).sh → S.env.H (e.2.plain S) < S.env.H (e'.2.plain S) := by
    intro e he e' he' hlt
    rw [((hteam e he).kid hS hro hB).1, ((hteam e' he').kid hS hro hB).1]
    rcases Prod.Lex.lt_iff.1 hlt with h | ⟨_, h⟩
    · have h : (kidMsg S.env B.conf e.2.conf.m.data).seqno < (kidMsg S.env B.conf e'.2.conf.m.data).seqno := h
      rw [kid_seqno, kid_seqno] at h; omega
    · exact h
  rw [hres]
  rw [scalarAt_pruneD p _ hRty]
  refine ⟨fun e he hch hhi => ?_, fun e he y hch hhi => ?_, fun h => ?_, fun y h hy => ?_⟩
  · refine c1 _ (List.mem_map_of_mem he) hch fun d' hd' hlt => ?_
    obtain ⟨e', he', rfl⟩ := List.mem_map.1 hd'
    exact hhi e' he' (hsh e he e' he' hlt)
  · rw [memberAt_pruneD p _ hRty]
    refine c2 _ (List.mem_map_of_mem he) y hch fun d' hd' hlt => ?_
    obtain ⟨e', he', rfl⟩ := List.mem_map.1 hd'
    exact hhi e' he' (hsh e he e' he' hlt)
  · refine c3 fun d hd => ?_
    obtain ⟨e, he, rfl⟩ := List.mem_map.1 hd
    exact h e he
  · rw [memberAt_pruneD p _ hRty]
    rw [c4 y (fun d hd => ?_) hy]
    obtain ⟨e, he, rfl⟩ := List.mem_map.1 hd
    exact h e he

/-- C59.  Let any number of devices (`team`: each before and after its edits) that hold the same
config, that of `B`, edit it, and let one of them, `x`, having pushed its own version, merge the
messages of all the others (in any order, any number of times, with the common config itself and
unusable messages mixed in).  Then `x` holds, at every path `p`:

1. if the device `e` changed what is at `p`: the scalar that `e` put there (none if it put none), if
   all devices that published a version with a greater hash left `p` alone;
2. for an element of a set that `e` inserted or removed: the same;
3. the scalar of the common config, if all devices left `p` alone;
4. the elements of the set of the common config that all devices left alone. -/
theorem edits_combine {S : Sys} (hS : S.Good) (hro : S.env.readonly = false) {B : Client}
    (hB : Peer S B) {team : List (Client × Client)} (hteam : ∀ e ∈ team, Editor S B e)
    {x : Client × Client} (hx : x ∈ team) {s : Int} {msg : Bytes} {obs : List Bytes}
    (hpush : (x.2.push S).2 = .ok (s, msg, obs)) {configs : List (Bytes × Bytes)}
    (hall : ∀ e ∈ team, e.2.plain S = x.2.plain S ∨
      ∃ p ∈ gather S x.2.keys configs, p.2 = e.2.plain S)
    (hknown : ∀ p ∈ gather S x.2.keys configs, (∃ m, parseMsg S.env false p.2 = .ok m) →
      (∃ e ∈ team, p.2 = e.2.plain S) ∨ (B.seqno ≠ 0 ∧ p.2 = B.plain S))
    (hcol : NoCollision S.env (x.2.plain S :: (gather S x.2.keys configs).map (·.2)))
    (hok : ((x.2.push S).1.merge S configs).2.isOk = true) (p : List Bytes) (hp : p ≠ []) :
    (∀ e ∈ team, sameAt B.content e.2.content p = false →
      (∀ e' ∈ team, S.env.H (e.2.plain S) < S.env.H (e'.2.plain S) →
        sameAt B.content e'.2.content p = true) →
      scalarAt ((x.2.push S).1.merge S configs).1.content p = scalarAt e.2.content p) ∧
    (∀ e ∈ team, ∀ y, memberAt B.content p y ≠ memberAt e.2.content p y →
      (∀ e' ∈ team, S.env.H (e.2.plain S) < S.env.H (e'.2.plain S) →
        agreeOn B.content e'.2.content p y) →
      memberAt ((x.2.push S).1.merge S configs).1.content p y = memberAt e.2.content p y) ∧
    ((∀ e ∈ team, sameAt B.content e.2.content p = true) →
      scalarAt ((x.2.push S).1.merge S configs).1.content p = scalarAt B.content p) ∧
    (∀ y, (∀ e ∈ team, agreeOn B.content e.2.content p y) → memberAt B.content p y = true →
      memberAt ((x.2.push S).1.merge S configs).1.content p y = true) := by
  obtain ⟨h1, h2, h3, h4⟩ := edits_combine_hist hS hro hB ((hB.inv hS hro).conf.honest.hist hS.sane) hteam hx hpush hall hknown hcol hok p hp
  exact ⟨h1, h2, h3, fun y hy hb => by rw [h4 y hy (.inl hb), hb]⟩

/-- The device that has merged the messages of the others is again one of the devices of the
account. -/
theorem team_peer {S : Sys} (hS : S.Good) (hro : S.env.readonly = false) {B : Client}
    (hB : Peer S B) {team : List (Client × Client)} (hteam : ∀ e ∈ team, Editor S B e)
    {x : Client × Client} (hx : x ∈ team) {s : Int} {msg : Bytes} {obs : List Bytes}
    (hpush : (x.2.push S).2 = .ok (s, msg, obs)) {configs : List (Bytes × Bytes)}
    (hknown : ∀ p ∈ gather S x.2.keys configs, (∃ m, parseMsg S.env false p.2 = .ok m) →
      (∃ e ∈ team, p.2 = e.2.plain S) ∨ (B.seqno ≠ 0 ∧ p.2 = B.plain S))
    (hcol : NoCollision S.env (x.2.plain S :: (gather S x.2.keys configs).map (·.2)))
    (hok : ((x.2.push S).1.merge S configs).2.isOk = true) :
    Peer S ((x.2.push S).1.merge S configs).1 := by
  have hxe := hteam x hx
  have hx2 : Peer S x.2 := hxe.edits.peer hxe.peer
  have hx2c := (hx2.inv hS hro).reach.inv hS
  obtain ⟨_, _, hconf, _, hkeys, _, _⟩ := push_state hpush
  have hplain : (x.2.push S).1.plain S = x.2.plain S := by
    unfold Client.plain; rw [hconf, ser_refresh hx2c.wf]
  classical
  refine .merge (src := fun b => if h : ∃ e ∈ team, b = e.2.plain S then h.choose.2 else B)
    (.step hx2 (.push _)) (fun p hp hm => ?_) (fun p hp hm => ?_) ?_ ?_
  · by_cases h : ∃ e ∈ team, p.2 = e.2.plain S
    · rw [dif_pos h]
      have := h.choose_spec.1
      exact (hteam _ this).edits.peer (hteam _ this).peer
    · rw [dif_neg h]; exact hB
  · rw [hkeys] at hp
    by_cases h : ∃ e ∈ team, p.2 = e.2.plain S
    · rw [dif_pos h]; exact h.choose_spec.2
    · rw [dif_neg h]
      rcases hknown p hp hm with h' | h'
      · exact absurd h' h
      · exact h'.2
  · rw [hkeys]
    intro a ha b hb
    have hsub : ∀ a ∈ ((x.2.push S).1.allConfs S.env (gather S x.2.keys configs)).map (·.2),
        a ∈ x.2.plain S :: (gather S x.2.keys configs).map (·.2) := by
      intro a ha
      unfold Client.allConfs at ha
      rw [List.map_append, List.mem_append] at ha
      rcases ha with ha | ha
      · split at ha
        · rw [← hplain]
          simp only [List.map_cons, List.map_nil, List.mem_singleton] at ha
          rw [ha]; exact List.mem_cons_self
        · cases ha
      · exact List.mem_cons_of_mem _ ha
    exact hcol a (hsub a ha) b (hsub b hb)
  · cases hh : ((x.2.push S).1.merge S configs).2 with
    | ok _ => rfl
    | err _ => rfl
    | hang => rw [hh] at hok; cases hok
    | ub => rw [hh] at hok; cases hok

theorem child_prune (env : Env) (b : Conf) {d d' : Dict} (h : pruneD d = pruneD d') :
    (childOf env b d).ser env true = (childOf env b d').ser env true := by
  have : ∀ d, (childOf env b d).refresh.m = { (b.increment env).m with
      vsig := none, data := pruneD d, diff := diffD (b.hashed env).m.data (pruneD d) } := fun d => rfl
  unfold Conf.ser
  rw [this, this, h]

/-- C59, the usual case: what one device changed and no other device touched is as that device has
it. -/
theorem edit_survives {S : Sys} (hS : S.Good) (hro : S.env.readonly = false) {B : Client}
    (hB : Peer S B) {team : List (Client × Client)} (hteam : ∀ e ∈ team, Editor S B e)
    {x : Client × Client} (hx : x ∈ team) {s : Int} {msg : Bytes} {obs : List Bytes}
    (hpush : (x.2.push S).2 = .ok (s, msg, obs)) {configs : List (Bytes × Bytes)}
    (hall : ∀ e ∈ team, e.2.plain S = x.2.plain S ∨
      ∃ p ∈ gather S x.2.keys configs, p.2 = e.2.plain S)
    (hknown : ∀ p ∈ gather S x.2.keys configs, (∃ m, parseMsg S.env false p.2 = .ok m) →
      (∃ e ∈ team, p.2 = e.2.plain S) ∨ (B.seqno ≠ 0 ∧ p.2 = B.plain S))
    (hcol : NoCollision S.env (x.2.plain S :: (gather S x.2.keys configs).map (·.2)))
    (hok : ((x.2.push S).1.merge S configs).2.isOk = true) {p : List Bytes} (hp : p ≠ [])
    {e : Client × Client} (he : e ∈ team)
    (hoth : ∀ e' ∈ team, e'.2.content = e.2.content ∨ sameAt B.content e'.2.content p = true) :
    scalarAt ((x.2.push S).1.merge S configs).1.content p = scalarAt e.2.content p := by
  obtain ⟨c1, _, c3, _⟩ := edits_combine hS hro hB hteam hx hpush hall hknown hcol hok p hp
  cases hs : sameAt B.content e.2.content p with
  | true =>
    rw [c3 fun e' he' => ?_, (sameAt_leaf hs).1]
    rcases hoth e' he' with h | h
    · rw [h]; exact hs
    · exact h
  | false =>
    refine c1 e he hs fun e' he' hlt => ?_
    rcases hoth e' he' with h | h
    · have : e'.2.plain S = e.2.plain S := by
        rw [((hteam e he).kid hS hro hB).1, ((hteam e' he').kid hS hro hB).1]
        exact child_prune _ _ h
      rw [this] at hlt
      exact absurd hlt (lt_irrefl _)
    · exact h


/-! ### A concrete case -/

theorem exC0_peer : Peer exSys exC0 := .step .new (.addKey _ _ _ _ (by decide +kernel))
theorem exC1_peer : Peer exSys exC1 :=
  .step exC0_peer (.edit _ _ (by decide +kernel) (by decide +kernel))
theorem exC3_peer : Peer exSys exC3 :=
  .step (.step exC1_peer (.push _)) (.confirm _ _ _)

theorem exD1_peer : Peer exSys exD1 := by
  have h1 : gather exSys exC0.keys [([104], exM1)] = [([104], exC1.plain exSys)] := by decide +kernel
  have h2 : (exC0.allConfs exSys.env (gather exSys exC0.keys [([104], exM1)])).map (·.2) =
      [exC1.plain exSys] := by decide +kernel
  refine .merge (src := fun _ => exC1) exC0_peer (fun _ _ _ => exC1_peer) (fun p hp _ => ?_) ?_
    (by decide +kernel)
  · rw [h1] at hp; rw [List.mem_singleton.1 hp]
  · rw [h2]; intro b1 hb1 b2 hb2 _
    rw [List.mem_singleton.1 hb1, List.mem_singleton.1 hb2]

theorem Editor.mk' {S : Sys} {B c c' : Client} (h1 : Peer S c) (h2 : c.st ≠ .dirty)
    (h3 : SameConfig S c B) {d : Dict} (h4 : typedD d = true) (h5 : (c.edit S d).2 = .ok ())
    (h6 : c' = (c.edit S d).1) (h7 : c'.st = .dirty) : Editor S B (c, c') :=
  ⟨h1, h2, h3, by rw [h6]; exact .tail (.refl c) h4 h5, h7⟩

theorem exC_editor : Editor exSys exC3 (exC3, exC4) :=
  Editor.mk' (d := [([97], .scalar (.int 6))]) exC3_peer (by decide +kernel) (.inl (by decide +kernel))
    (by decide +kernel) (by decide +kernel) (by unfold exC4; rfl) (by decide +kernel)

theorem exD_editor : Editor exSys exC3 (exD1, exD2) :=
  Editor.mk' (d := [([97], .scalar (.int 5)), ([122], .scalar (.int 1))]) exD1_peer (by decide +kernel)
    (.inl (by decide +kernel)) (by decide +kernel) (by decide +kernel) (by unfold exD2; rfl)
    (by decide +kernel)

/-- C59: the device that made the config and one that received it both edit it; the first pushes its
version and merges that of the other.  Both changed [97]; only the second set [122]; the first changed
the set at [98] etc. by dropping everything else. -/
example : exSys.Good ∧ exSys.env.readonly = false ∧ Peer exSys exC3 ∧
    (∀ e ∈ [(exC3, exC4), (exD1, exD2)], Editor exSys exC3 e) ∧
    (exC4.push exSys).2.isOk = true ∧
    gather exSys exC4.keys [([1], exM2), ([3], [7])] = [([1], exD2.plain exSys)] ∧
    exC4.plain exSys ≠ exD2.plain exSys ∧
    NoCollision exSys.env [exC4.plain exSys, exD2.plain exSys] ∧
    ((exC4.push exSys).1.merge exSys [([1], exM2), ([3], [7])]).2.isOk = true ∧
    sameAt exC3.content exC4.content [[122]] = true ∧
    sameAt exC3.content exD2.content [[122]] = false ∧
    sameAt exC3.content exC4.content [[97]] = false ∧
    scalarAt ((exC4.push exSys).1.merge exSys [([1], exM2), ([3], [7])]).1.content [[122]] =
      some (.int 1) := by
  refine ⟨exSys_good, by decide +kernel, exC3_peer, ?_, by decide +kernel, by decide +kernel,
    by decide +kernel, by unfold NoCollision; decide +kernel, by decide +kernel⟩
  intro e he
  simp only [List.mem_cons, List.not_mem_nil, or_false] at he
  rcases he with rfl | rfl
  · exact exC_editor
  · exact exD_editor

end Verif
