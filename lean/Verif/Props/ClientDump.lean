import Verif.Props.ClientHash
import Verif.Props.Concurrent

/-!
# Dumping and reloading, encryption keys
-/

namespace Verif

/-! ## C38 -/

theorem reloaded_content {S : Sys} {c : Client} (h : CInv S c) (ord : List Bytes) :
    (c.reloaded S ord).content = c.content := by
  unfold Client.content Client.reloaded
  dsimp only
  split
  · show pruneD (dumpedMsg S.env c.conf false).data = _
    rw [dumpedMsg_data h.wf]; exact pruneD_of_wf (pruneD_wf h.wf.data)
  · show pruneD (dumpedMsg S.env c.conf true).data = _
    rw [dumpedMsg_data h.wf]; exact pruneD_of_wf (pruneD_wf h.wf.data)

theorem reloaded_plain {S : Sys} {c : Client} (hd : c.st ≠ .dirty) (ord : List Bytes) :
    (c.reloaded S ord).plain S = c.plain S := by
  unfold Client.plain Client.reloaded
  dsimp only
  rw [if_neg hd]
  show (dumpedMsg S.env c.conf true).ser S.env true = c.conf.refresh.m.ser S.env true
  have hb := dumpedMsg_body S.env c.conf true
  have hv := dumpedMsg_vsig S.env c.conf
  unfold Msg.ser Msg.sig
  rw [hb, hv]

/-- C38.  In every reachable state the dump of an object can be loaded again (unless the seqno is
within `lag` of the largest 64-bit number): the new object has the same content, the same pending
state, the same current and obsolete hashes; if nothing was being edited it also has the same seqno and
publishes the same bytes. -/
theorem dump_roundtrip {S : Sys} (hS : S.Good) {c : Client} (hr : Reach S c) {ord : List Bytes}
    (hord : ord.Perm (if S.env.readonly then [] else c.old))
    (hov : int64Ok (c.seqno + S.env.lag) = true) :
    ∃ c', Client.restore S (c.dumpBytes S ord) = .ok c' ∧ c'.content = c.content ∧ c'.st = c.st ∧
      c'.needsPush = c.needsPush ∧ c'.currentHashes = c.currentHashes ∧ c'.old = ord ∧
      c'.needsDump = false ∧
      (c.st ≠ .dirty → c'.seqno = c.seqno ∧ c'.plain S = c.plain S) := by
  have hinv := hr.inv hS
  have hn : ord.Nodup := by
    rw [hord.nodup_iff]; split
    · exact List.nodup_nil
    · exact hinv.old
  refine ⟨_, load_dump hS hinv hn hov, reloaded_content hinv ord, rfl, rfl, rfl, rfl, rfl, fun hd => ⟨?_, reloaded_plain hd ord⟩⟩
  have := seqno_restored hS hr hn (load_dump hS hinv hn hov)
  rw [if_neg hd] at this; exact this

example : Reach exSys exC2 ∧ exC2.st = .waiting ∧ int64Ok (exC2.seqno + exSys.env.lag) = true ∧
    ((Client.restore exSys (exC2.dumpBytes exSys [])).toOption.map fun c =>
      decide (c.seqno = 1 ∧ c.st = .waiting ∧ c.content = exC1.content)) = some true ∧
    ((Client.restore exSys (exC4.dumpBytes exSys [[104]])).toOption.map fun c =>
      decide (c.seqno = 3 ∧ c.st = .dirty ∧ c.content = [([97], .scalar (.int 6))] ∧ c.old = [[104]])) =
      some true :=
  ⟨exC2_reach, by decide +kernel⟩

/-! ## C39 -/

/-- `dump()` leaves nothing to be dumped. -/
theorem dumped_needsDump (S : Sys) (c : Client) : (c.dumped S).needsDump = false := rfl

theorem setState_nd_true {c c' : Client} {s : CState} (h : c'.needsDump = (c.setState s).needsDump) :
    c'.needsDump = true := h

/-- What a call that does not request a dump may change. -/
structure Quiet (S : Sys) (c c' : Client) : Prop where
  st : c'.st = c.st
  curr : c'.curr = c.curr
  seqno : c'.seqno = c.seqno
  content : c.st ≠ .dirty → c'.content = c.content ∧ c'.plain S = c.plain S

theorem Quiet.refl (S : Sys) (c : Client) : Quiet S c c := ⟨rfl, rfl, rfl, fun _ => ⟨rfl, rfl⟩⟩

theorem Quiet.keys {S : Sys} {c c' : Client} (ks ks' : List Bytes) (h : Quiet S { c with keys := ks } c') :
    Quiet S c { c' with keys := ks' } := ⟨h.st, h.curr, h.seqno, h.content⟩

theorem Quiet.trans {S : Sys} {a b c : Client} (h1 : Quiet S a b) (h2 : Quiet S b c) : Quiet S a c := by
  refine ⟨h2.st.trans h1.st, h2.curr.trans h1.curr, h2.seqno.trans h1.seqno, fun hd => ?_⟩
  obtain ⟨x1, x2⟩ := h1.content hd
  obtain ⟨y1, y2⟩ := h2.content (by rw [h1.st]; exact hd)
  exact ⟨y1.trans x1, y2.trans x2⟩

theorem dirty_quiet (S : Sys) (c : Client) : (c.dirty S).1.needsDump = true ∨ (c.dirty S).1 = c := by
  rcases dirty_fst (S := S) (c := c) with h | ⟨_, _, _, h⟩
  · exact .inr h
  · left; rw [h]; rfl

/-- Any call either asks for a dump or is quiet. -/
theorem step_quiet {S : Sys} (hS : S.Good) {c c' : Client} (h : CInv S c) (hs : Step S c c')
    (hn : c'.needsDump = false) : Quiet S c c' := by
  have hdq : ∀ c : Client, (c.dirty S).1.needsDump = false → Quiet S c (c.dirty S).1 := fun c hc => by
    rcases dirty_quiet S c with h | h
    · rw [h] at hc; cases hc
    · rw [h]; exact .refl S c
  have ht : Quiet S c c.touched := by
    refine ⟨rfl, rfl, refresh_seqno _, fun _ => ⟨?_, ser_refresh h.wf _ _⟩⟩
    show pruneD c.conf.refresh.m.data = _
    rw [refresh_data_eq h.wf]; exact pruneD_of_wf (pruneD_wf h.wf.data)
  cases hs with
  | edit d hd _ =>
    by_cases hk : (c.dirty S).2 = .ok ()
    · rw [edit_eq_ok hk] at hn ⊢
      have hst := (dirty_ok hk).1
      rcases dirty_quiet S c with h1 | h1
      · have : (c.dirty S).1.needsDump = false := hn
        rw [h1] at this; cases this
      · rw [h1] at hst ⊢
        exact ⟨rfl, rfl, rfl, fun hnd => absurd hst hnd⟩
    · rw [edit_eq_err hk] at hn ⊢; exact hdq c hn
  | merge configs hf hc hsafe =>
    rcases merge_cases hsafe with ⟨e, he, h1 | h1⟩ | ⟨R, bad, hk, hR, h1⟩
    · rw [h1]; exact .refl S c
    · rw [h1]
      cases hm : c.hasMine with
      | false => exact .refl S c
      | true => exact ht
    · rw [h1] at hn ⊢
      obtain ⟨_, h2 | ⟨hu, hro, hlt, _, h2⟩ | ⟨top, i, x, y, hi, hmax, hcur, hRe, hne, hlt, hx, h2⟩⟩ :=
        absorb_cases hS h hf hc hR
      · rw [h2]
        obtain ⟨a1, a2, a3⟩ := noted_conf h.wf (c.allConfs S.env (gather S c.keys configs)) R bad S.env
        exact ⟨rfl, rfl, a1, fun _ => ⟨a3, a2⟩⟩
      · rw [h2] at hn; cases hn
      · rw [h2] at hn; cases hn
  | push =>
    cases hp : (c.push S).2 with
    | ok r =>
      obtain ⟨s, m, obs⟩ := r
      obtain ⟨_, _, _, h4⟩ := push_eq hp
      rw [h4] at hn ⊢
      by_cases hd : c.st = .dirty
      · rw [if_pos hd] at hn; cases hn
      · rw [if_neg hd]
        exact ⟨ht.st, ht.curr, ht.seqno, ht.content⟩
    | err e =>
      have : (c.push S).1 = c ∨ (c.push S).1 = c.touched := by
        unfold Client.push at hp ⊢
        split
        · exact .inl rfl
        · split
          · split
            · exact .inr rfl
            · rename_i hk _ m hm hl
              rw [hk] at hp
              simp only [hm, if_neg hl] at hp
              cases hp
          · exact .inr rfl
          · exact .inl rfl
          · exact .inl rfl
      rcases this with h1 | h1
      · rw [h1]; exact .refl S c
      · rw [h1]; exact ht
    | hang =>
      have : (c.push S).1 = c := by
        unfold Client.push at hp ⊢
        split
        · rfl
        · rename_i hk
          rw [hk] at hp
          simp only at hp
          split
          · rename_i hm
            rw [hm] at hp
            simp only at hp
            split at hp <;> cases hp
          · rename_i hm
            rw [hm] at hp; cases hp
          · rfl
          · rfl
      rw [this]; exact .refl S c
    | ub =>
      have : (c.push S).1 = c := by
        unfold Client.push at hp ⊢
        split
        · rfl
        · rename_i hk
          rw [hk] at hp
          simp only at hp
          split
          · rename_i hm
            rw [hm] at hp
            simp only at hp
            split at hp <;> cases hp
          · rename_i hm
            rw [hm] at hp; cases hp
          · rfl
          · rfl
      rw [this]; exact .refl S c
  | confirm s x =>
    unfold Client.confirm at hn ⊢
    split at hn
    · cases hn
    · rename_i hh; rw [if_neg hh]; exact .refl S c
  | dump => exact ⟨ht.st, ht.curr, ht.seqno, ht.content⟩
  | addKey k hi d _ =>
    unfold Client.addKey at hn ⊢
    split
    · exact .refl S c
    split
    · exact .refl S c
    split
    · exact .refl S c
    rename_i h1 h2 h3
    rw [if_neg h1, if_neg h2, if_neg h3] at hn
    cases hi with
    | true =>
      have hc : (c.removeKey S k 1 false).1 = { c with keys := (c.removeKey S k 1 false).1.keys } := by
        unfold Client.removeKey
        split
        · rfl
        · split <;> simp
      simp only [if_true] at hn ⊢
      rw [hc] at hn ⊢
      split
      · rename_i hb
        rw [if_pos hb] at hn
        exact (hdq { c with keys := k :: (c.removeKey S k 1 false).1.keys } hn).keys _ _
      · exact (Quiet.refl S { c with keys := _ }).keys _ _
    | false =>
      simp only [Bool.false_eq_true, if_false] at hn ⊢
      split
      · rename_i hb
        rw [if_pos hb] at hn
        exact (hdq { c with keys := c.keys ++ [k] } hn).keys _ _
      · exact (Quiet.refl S { c with keys := _ }).keys _ _
  | removeKey k n d _ =>
    unfold Client.removeKey at hn ⊢
    split
    · exact .refl S c
    · rename_i front tl hk
      rw [hk] at hn
      simp only at hn ⊢
      split
      · exact .refl S c
      · rename_i hl
        rw [hk] at hl
        rw [if_neg hl] at hn
        rw [hk]
        split
        · rename_i hb
          rw [if_pos hb] at hn
          have h2 := hdq { c with keys := (front :: tl).take n ++ ((front :: tl).drop n).filter (· ≠ k) }
          split <;> (rename_i he; rw [he] at hn h2; exact (h2 hn).keys _ _)
        · exact (Quiet.refl S { c with keys := _ }).keys _ _
  | clearKeys d _ =>
    unfold Client.clearKeys at hn ⊢
    dsimp only at hn ⊢
    split
    · rename_i hb
      rw [if_pos hb] at hn
      exact (hdq { c with keys := [] } hn).keys _ _
    · exact (Quiet.refl S { c with keys := _ }).keys _ _
  | replaceKeys ks d _ =>
    unfold Client.replaceKeys at hn ⊢
    split
    · simp only at hn
      split
      · exact .refl S c
      · rename_i hb
        rw [if_neg hb] at hn
        unfold Client.clearKeys at hn ⊢
        dsimp only at hn ⊢
        split
        · rename_i hb2
          rw [if_pos hb2] at hn
          exact (hdq { c with keys := [] } hn).keys _ _
        · exact (Quiet.refl S { c with keys := _ }).keys _ _
    · simp only at hn
      split
      · exact .refl S c
      · rename_i hb
        rw [if_neg hb] at hn
        dsimp only
        rw [addKeys_conf] at hn ⊢
        split
        · rename_i hb2
          rw [if_pos hb2] at hn
          exact (hdq { c with keys := _ } hn).keys _ _
        · exact (Quiet.refl S { c with keys := _ }).keys _ _

/-- Calls after each of which `needs_dump()` is false. -/
inductive QuietSteps (S : Sys) : Client → Client → Prop
  | refl (c : Client) : QuietSteps S c c
  | tail {a b c : Client} : QuietSteps S a b → Step S b c → c.needsDump = false → QuietSteps S a c

theorem QuietSteps.steps {S : Sys} {a b : Client} (h : QuietSteps S a b) : Steps S a b := by
  induction h with
  | refl => exact .refl _
  | tail _ hs _ ih => exact .tail ih hs

/-- C39 (partial).  As long as `needs_dump()` stays false after a dump, reloading that dump gives the
current pending state and the current hash, and - if no edits were pending when it was made - the current
seqno, content and published bytes.  Missing: the content while edits are pending, and obsolete hashes
(`needs_dump_misses_edit`, `needs_dump_misses_obsolete`). -/
theorem needs_dump_partial {S : Sys} (hS : S.Good) {c c' d : Client} (hr : Reach S c)
    (hq : QuietSteps S (c.dumped S) c') {ord : List Bytes}
    (hord : ord.Perm (if S.env.readonly then [] else c.old))
    (hd : Client.restore S (c.dumpBytes S ord) = .ok d) :
    d.st = c'.st ∧ d.needsPush = c'.needsPush ∧ d.currentHashes = c'.currentHashes ∧
      (c'.st ≠ .dirty → d.seqno = c'.seqno ∧ d.content = c'.content ∧ d.plain S = c'.plain S) := by
  have hinv := hr.inv hS
  have hn : ord.Nodup := by
    rw [hord.nodup_iff]; split
    · exact List.nodup_nil
    · exact hinv.old
  have hQ : Quiet S c c' := by
    have h0 : Quiet S c (c.dumped S) := step_quiet hS hinv (.dump c) rfl
    have hr0 : Reach S (c.dumped S) := hr.step (.dump c)
    generalize c.dumped S = d0 at hq h0 hr0
    induction hq with
    | refl => exact h0
    | tail h1 h2 h3 ih =>
      exact ih.trans (step_quiet hS ((hr0.steps h1.steps).inv hS) h2 h3)
  obtain ⟨rfl, _⟩ := restore_inv hS hinv hn hd
  refine ⟨hQ.st.symm, ?_, ?_, fun hnd => ?_⟩
  · unfold Client.needsPush; rw [hQ.st]; rfl
  · unfold Client.currentHashes; rw [hQ.curr]; rfl
  · have hnd' : c.st ≠ .dirty := by rw [← hQ.st]; exact hnd
    obtain ⟨x1, x2⟩ := hQ.content hnd'
    have := seqno_restored hS hr hn hd
    rw [if_neg hnd'] at this
    exact ⟨this.trans hQ.seqno.symm, (reloaded_content hinv ord).trans x1.symm,
      (reloaded_plain hnd' ord).trans x2.symm⟩

example : (exC2.dumped exSys).needsDump = false ∧ exC2.needsDump = true ∧
    QuietSteps exSys (exC2.dumped exSys) ((exC2.dumped exSys).push exSys).1 ∧
    ((exC2.dumped exSys).confirm 1 [104]).needsDump = true :=
  ⟨rfl, by decide +kernel, .tail (.refl _) (.push _) (by decide +kernel), by decide +kernel⟩

/-- C39 is false of the code: editing, dumping and editing again leaves `needs_dump()` false although
the second edit is not in the dump. -/
theorem needs_dump_misses_edit :
    let c := exC1.dumped exSys
    let c' := (c.edit exSys [([97], .scalar (.int 7))]).1
    Reach exSys exC1 ∧ (c.edit exSys [([97], .scalar (.int 7))]).2 = .ok () ∧ c'.needsDump = false ∧
      c'.content = [([97], .scalar (.int 7))] ∧
      ((Client.restore exSys (exC1.dumpBytes exSys [])).toOption.map fun d =>
        decide (d.content = exC1.content ∧ d.content ≠ c'.content)) = some true :=
  ⟨exC1_reach, by decide +kernel⟩

/-- C39: neither does a merge that only adds obsolete hashes ask for a dump: after a crash those
messages are never deleted. -/
theorem needs_dump_misses_obsolete :
    let c := (exC2.dumped exSys)
    let c' := (c.merge exSys [([104], exM1)]).1
    c'.needsDump = false ∧ c'.old = [[104]] ∧
      ((Client.restore exSys (exC2.dumpBytes exSys [])).toOption.map fun d => d.old) = some [] := by
  decide +kernel

/-! ## C40: updates after a reload -/

/-- What an object publishes next lists, in its history, what it published before. -/
def ListsPrevious (S : Sys) (c : Client) (s : Int) (b : Bytes) : Prop :=
  ∃ M, parseMsg S.env false (c.plain S) = .ok M ∧ ∃ p ∈ M.lagged, p.1 = toLex (s, S.env.H b)

theorem edit_lists {S : Sys} (hS : S.Good) (hlag : 2 ≤ S.env.lag) {c : Client} (h : CInv S c)
    (hd : c.st ≠ .dirty) {d : Dict} (ht : typedD d = true) (he : (c.edit S d).2 = .ok ())
    (hh : (c.conf.hashed S.env).m.hash = S.env.H (c.plain S)) :
    ListsPrevious S (c.edit S d).1 c.seqno (c.plain S) := by
  have hk : (c.dirty S).2 = .ok () := by
    by_contra hk
    rw [edit_eq_err hk] at he; exact hk he
  have hinv := h.edit hS ht (d := d)
  have hst : (c.edit S d).1.st = .dirty := by rw [edit_eq_ok hk]; exact (dirty_ok hk).1
  have hmine : (c.edit S d).1.hasMine = true := by unfold Client.hasMine; simp [hst]
  refine ⟨_, hinv.parse_own hS hmine, ?_⟩
  have hconf : (c.edit S d).1.conf =
      { (c.conf.increment S.env) with m := { (c.conf.increment S.env).m with data := d } } := by
    rw [edit_eq_ok hk]
    rcases dirty_fst (S := S) (c := c) with h1 | ⟨_, _, _, h1⟩
    · exfalso
      have := (dirty_ok hk).1
      rw [h1] at this; exact hd this
    · rw [h1]
  obtain ⟨p, hp, hpe⟩ := (increment_lists hS.sane h.wf hS.lag1).1
  have hps : p.1 = toLex (c.seqno, S.env.H (c.plain S)) := by
    rw [hpe]
    show toLex ((c.conf.hashed S.env).m.seqno, (c.conf.hashed S.env).m.hash) = _
    rw [hh, hashed_seqno]; rfl
  refine ⟨p, ?_, hps⟩
  show p ∈ (c.edit S d).1.conf.refresh.m.lagged.filter (lagLive (c.edit S d).1.conf.refresh.m.seqno S.env.lag)
  rw [mem_lagLive]
  have hl : (c.edit S d).1.conf.refresh.m.lagged = (c.conf.increment S.env).m.lagged := by
    rw [hconf]; rfl
  have hq : (c.edit S d).1.conf.refresh.m.seqno = c.seqno + 1 := by
    rw [refresh_seqno, hconf]; exact increment_seqno _ _
  rw [hl, hq, hps]
  refine ⟨hp, ?_, ?_⟩
  · show c.seqno + 1 - S.env.lag < c.seqno; omega
  · show c.seqno < c.seqno + 1; omega

/-- C40.  An edit made after a push, on the same object, publishes a config that lists the pushed one in
its history (so that objects holding the pushed one take it over without a merge: `delivery`). -/
theorem next_lists_pushed {S : Sys} (hS : S.Good) (hlag : 2 ≤ S.env.lag) {c : Client} (hr : Reach S c)
    {s : Int} {m : Bytes} {obs : List Bytes} (hp : (c.push S).2 = .ok (s, m, obs))
    (hd : c.st = .dirty) {d : Dict} (ht : typedD d = true) (he : ((c.push S).1.edit S d).2 = .ok ()) :
    ListsPrevious S ((c.push S).1.edit S d).1 s (c.plain S) := by
  have hinv := hr.inv hS
  have hinv1 := (hr.step (.push c)).inv hS
  obtain ⟨e1, d1, g1, _⟩ := push_state hp
  have hq : (c.push S).1.seqno = s := by
    show (c.push S).1.conf.m.seqno = _; rw [g1, e1]; exact refresh_seqno _
  have hpl : (c.push S).1.plain S = c.plain S := by
    show (c.push S).1.conf.ser S.env true = _; rw [g1]; exact ser_refresh hinv.wf _ _
  have := edit_lists hS hlag hinv1 d1 ht he (by
    have ho : (c.push S).1.conf.orig.isSome = true := by
      rw [g1, refresh_orig]; exact hinv.isMut hd
    obtain ⟨o, ho⟩ := Option.isSome_iff_exists.1 ho
    unfold Conf.hashed
    rw [ho]; rfl)
  rwa [hq, hpl] at this

/-- C40 (partial).  The same after reloading a dump in between, for configs that are not signed.
Missing: signed configs, for which it is false (`reload_forgets_signed_push`). -/
theorem next_lists_reloaded_partial {S : Sys} (hS : S.Good) (hlag : 2 ≤ S.env.lag) {c c' : Client}
    (hr : Reach S c) (hsig : S.env.signer = none) (hd : c.st ≠ .dirty) {ord : List Bytes}
    (hord : ord.Perm (if S.env.readonly then [] else c.old))
    (hl : Client.restore S (c.dumpBytes S ord) = .ok c') {d : Dict} (ht : typedD d = true)
    (he : (c'.edit S d).2 = .ok ()) : ListsPrevious S (c'.edit S d).1 c.seqno (c.plain S) := by
  have hinv := hr.inv hS
  have hn : ord.Nodup := by
    rw [hord.nodup_iff]; split
    · exact List.nodup_nil
    · exact hinv.old
  have hinv' := (Reach.restore hr hord hl).inv hS
  have hq := seqno_restored hS hr hn hl
  rw [if_neg hd] at hq
  obtain ⟨rfl, _⟩ := restore_inv hS hinv hn hl
  have hpl := reloaded_plain (S := S) hd ord
  have := edit_lists hS hlag hinv' (c := c.reloaded S ord) hd ht he (by
    rw [hpl]
    have hc : (c.reloaded S ord).conf = ⟨dumpedMsg S.env c.conf true, none⟩ := by
      unfold Client.reloaded; simp only [if_neg hd]
    rw [hc]
    show S.env.H (c.conf.ser S.env false) = S.env.H (c.conf.ser S.env true)
    congr 1
    unfold Conf.ser Msg.ser Msg.sig
    rw [hsig])
  rwa [hq, hpl] at this

/-- The unsigned variant of the example. -/
def exSysU : Sys := { exSys with env := exEnvH.unsigned }
def exU1 : Client := (((Client.new exSysU).addKey exSysU exKey true false).1.edit exSysU exData).1

example : exSysU.env.signer = none ∧ (exU1.push exSysU).1.st = .waiting ∧ 2 ≤ exSysU.env.lag ∧
    ((Client.restore exSysU ((exU1.push exSysU).1.dumpBytes exSysU [])).toOption.map fun c =>
      decide ((c.edit exSysU []).2 = .ok ()) &&
      (((parseMsg exSysU.env false ((c.edit exSysU []).1.plain exSysU)).toOption.map fun M =>
        decide (∃ p ∈ M.lagged, p.1 = toLex (1, exSysU.env.H (exU1.plain exSysU)))) == some true)) =
      some true := by
  decide +kernel

/-- The signed example with a hash that also depends on the end of the message. -/
def exSysE : Sys := { exSys with env := { exEnvH with
  H := fun b => ((b.drop 8 ++ List.replicate 16 0).take 16) ++ (b.reverse ++ List.replicate 16 0).take 16 } }
def exE2 : Client :=
  ((((Client.new exSysE).addKey exSysE exKey true false).1.edit exSysE exData).1.push exSysE).1

/-- C40 is false of the code for signed configs (groups): the dump does not contain the signature, so
after a reload the hash of the pushed config is computed from other bytes, and the next update does not
list it: objects holding the pushed config see a conflict. -/
theorem reload_forgets_signed_push :
    ((Client.restore exSysE (exE2.dumpBytes exSysE [])).toOption.map fun c =>
      decide ((c.edit exSysE []).2 = .ok ()) &&
      (((parseMsg exSysE.env false ((c.edit exSysE []).1.plain exSysE)).toOption.map fun M =>
        decide (∃ p ∈ M.lagged, p.1 = toLex (exE2.seqno, exSysE.env.H (exE2.plain exSysE)))) ==
          some false)) = some true := by decide +kernel

end Verif
