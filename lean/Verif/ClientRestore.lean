import Verif.ClientInv

/-!
# Reloading a dump
-/

namespace Verif

theorem ser_unsigned (env : Env) (m : Msg) : m.ser env false = m.ser env.unsigned true := by
  unfold Msg.ser Msg.sig
  cases m.vsig with
  | some s => rfl
  | none => cases env.signer <;> rfl

theorem sig_unsigned (env : Env) (m : Msg) : m.sig env.unsigned true = m.vsig := by
  unfold Msg.sig
  cases m.vsig with
  | some s => rfl
  | none => rfl

/-- The message read back from a dump. -/
def dumpedMsg (env : Env) (c : Conf) (trust : Bool) : Msg :=
  c.refresh.m.reparsed env.unsigned trust (c.ser env false) c.refresh.m.vsig

theorem parse_dumped {S : Sys} (hS : S.Good) {c : Client} (h : CInv S c) (trust : Bool) :
    parseMsg S.env.unsigned trust (c.conf.ser S.env false) = .ok (dumpedMsg S.env c.conf trust) := by
  have hw := h.wf.refresh_msg
  have := parseMsg_ser S.env.unsigned trust true c.conf.refresh.m hw
    (by rw [refresh_seqno]; exact range_of_nonneg hS h.seq h.wf.seq)
    (by rw [sig_unsigned]; exact hw.vsig) (by intro v hv; cases hv)
  rw [sig_unsigned, ← ser_unsigned] at this
  exact this

theorem hinsertAll_nodup_nil {l s : List Bytes} (h : (s ++ l).Nodup) : hinsertAll l s = s ++ l := by
  unfold hinsertAll
  induction l generalizing s with
  | nil => simp
  | cons a t ih =>
    have hn : a ∉ s := by
      rw [List.nodup_append] at h
      intro ha
      exact h.2.2 a ha a List.mem_cons_self rfl
    rw [List.foldl_cons]
    have : hinsert a s = s ++ [a] := by unfold hinsert; rw [if_neg hn]
    rw [this, ih (by simpa using h)]
    simp

theorem readHashes_str (l s : List Bytes) : readHashes (l.map .str) s = .ok (hinsertAll l s) := by
  induction l generalizing s with
  | nil => rfl
  | cons a t ih => simp only [List.map_cons, readHashes, ih]; rfl

/-- A dumped object read back. -/
def Client.reloaded (S : Sys) (c : Client) (ord : List Bytes) : Client :=
  { conf := if c.st = .dirty then
        incrementImpl S.env.lag { dumpedMsg S.env c.conf false with unmerged := 0 }
      else ⟨dumpedMsg S.env c.conf true, none⟩,
    st := c.st, curr := c.curr, old := ord, needsDump := false, keys := [] }

theorem mergeMsgs_single {env : Env} (hlag : 1 ≤ env.lag) {b : Bytes} {m : Msg}
    (hp : parseMsg env false b = .ok m) (hr : int64Ok (m.seqno + env.lag) = true) :
    mergeMsgs env [b] = .ok ({ m with unmerged := 0 }, []) := by
  have hk : kept env.lag [m] = [(m, 0)] := by
    have : redundantAt env.lag [m] 0 m = false := by
      simp [redundantAt, maxSeq]
      have := (parseMsg_ok hp).wf.seq
      simp only [int64Ok, Bool.and_eq_true, decide_eq_true_eq] at this
      omega
    simp [kept, flagged, this]
  simp [mergeMsgs, parseAll, hp, mergeParsed, hr, hk]

theorem load_conf {S : Sys} (hS : S.Good) {c : Client} (h : CInv S c) {ord : List Bytes}
    (hov : int64Ok (c.conf.m.seqno + S.env.lag) = true) :
    loadConf S.env c.st (c.conf.ser S.env false) = .ok (c.reloaded S ord).conf := by
  unfold loadConf Client.reloaded
  by_cases hd : c.st = .dirty
  · have hseq : (dumpedMsg S.env c.conf false).seqno = c.conf.m.seqno := refresh_seqno c.conf
    have hl : S.env.unsigned.lag = S.env.lag := rfl
    have h1 := mergeMsgs_single (env := S.env.unsigned) (by rw [hl]; exact hS.lag1)
      (parse_dumped hS h false) (by rw [hl, hseq]; exact hov)
    rw [if_pos hd, h1]
    simp only [hd, if_true, mutFromMerge, hl]
    rw [if_neg (by decide)]
  · rw [if_neg hd, parse_dumped hS h true]
    simp only [hd, if_false, Out.bind_ok]

theorem restore_eq (S : Sys) (c : Client) {ord : List Bytes} (hord : ord.Nodup) :
    Client.restore S (c.dumpBytes S ord) =
      (loadConf S.env c.st (c.conf.ser S.env false) >>= fun conf =>
        .ok { conf := conf, st := c.st, curr := c.curr, old := ord, needsDump := false, keys := [] }) := by
  have hdec := decTop_encD [([33], .int c.st.code), ([36], .str (c.conf.ser S.env false)),
      ([40], .str c.curr), ([41], .list (ord.map .str))]
    ((encD [([33], .int c.st.code), ([36], .str (c.conf.ser S.env false)),
      ([40], .str c.curr), ([41], .list (ord.map .str))] ++ [101]).length) 1 []
    (by
      have : Bt.okL (ord.map Bt.str) = true := by
        rw [okL_iff]; intro p hp
        obtain ⟨x, _, rfl⟩ := List.mem_map.1 hp; rfl
      have hc : intOk c.st.code = true := by cases c.st <;> decide
      simp [Bt.okD, Bt.ok, this, hc]) (by simp)
  unfold Client.restore Client.dumpBytes
  simp only [hdec, topEntries]
  have k1 : ¬ (([33] : Bytes) < [33]) := by decide
  have k2 : ¬ (([36] : Bytes) < [36]) := by decide
  have k3 : ¬ (([40] : Bytes) < [40]) := by decide
  have k4 : ¬ (([41] : Bytes) < [41]) := by decide
  simp only [skipUntil, List.dropWhile, loadHashes, k1, k2, k3, k4, decide_false]
  have hst : (if c.st.code = 0 then CState.clean else if c.st.code = 1 then CState.dirty
      else CState.waiting) = c.st := by cases c.st <;> rfl
  have hcode : c.st.code = 0 ∨ c.st.code = 1 ∨ c.st.code = 2 := by cases c.st <;> simp [CState.code]
  simp only [ne_eq, not_true_eq_false, if_false, if_true, hcode, hst, readHashes_str,
    Out.bind_ok, hinsertAll_nodup_nil (s := []) (l := ord) (by simpa using hord), List.nil_append]

theorem load_dump {S : Sys} (hS : S.Good) {c : Client} (h : CInv S c) {ord : List Bytes}
    (hord : ord.Nodup) (hov : int64Ok (c.conf.m.seqno + S.env.lag) = true) :
    Client.restore S (c.dumpBytes S ord) = .ok (c.reloaded S ord) := by
  rw [restore_eq S c hord, load_conf hS h (ord := ord) hov]
  rfl

theorem restore_inv {S : Sys} (hS : S.Good) {c c' : Client} (h : CInv S c) {ord : List Bytes}
    (hord : ord.Nodup) (hr : Client.restore S (c.dumpBytes S ord) = .ok c') :
    c' = c.reloaded S ord ∧ (c.st = .dirty → int64Ok (c.conf.m.seqno + S.env.lag) = true) := by
  by_cases hd : c.st = .dirty
  · have hov : int64Ok (c.conf.m.seqno + S.env.lag) = true := by
      rw [restore_eq S c hord] at hr
      obtain ⟨cf, h1, _⟩ := Out.bind_eq_ok.1 hr
      unfold loadConf at h1
      rw [if_pos hd] at h1
      split at h1
      · rename_i R bad hR
        obtain ⟨_, hp⟩ := mergeMsgs_ok_iff.1 ⟨_, hR⟩
        have := (mergeParsed_pre hp).2 (dumpedMsg S.env c.conf false)
          (mem_validOf.2 ⟨_, List.mem_singleton.2 rfl, parse_dumped hS h false⟩)
        rw [show (dumpedMsg S.env c.conf false).seqno = c.conf.m.seqno from refresh_seqno c.conf] at this
        exact this
      all_goals cases h1
    refine ⟨?_, fun _ => hov⟩
    rw [load_dump hS h hord hov] at hr
    exact (Out.ok.inj hr).symm
  · refine ⟨?_, fun h' => absurd h' hd⟩
    rw [restore_eq S c hord] at hr
    unfold loadConf at hr
    rw [if_neg hd, parse_dumped hS h true] at hr
    simp only [Out.bind_ok] at hr
    rw [← Out.ok.inj hr]
    simp only [Client.reloaded, hd, if_false]

theorem dumpedMsg_wf {S : Sys} (hS : S.Good) {c : Client} (h : CInv S c) (t : Bool) :
    ConfWF ⟨dumpedMsg S.env c.conf t, none⟩ := by
  have a := parseMsg_ok (parse_dumped hS h t)
  refine a.wf.conf (fun p hp => (a.window p hp).2) ?_
  rw [a.hash]; exact hS.sane.hash _

theorem dumpedMsg_seqno (env : Env) (c : Conf) (t : Bool) : (dumpedMsg env c t).seqno = c.m.seqno :=
  refresh_seqno c

theorem dumpedMsg_data {env : Env} {c : Conf} (h : ConfWF c) (t : Bool) :
    (dumpedMsg env c t).data = pruneD c.m.data := refresh_data_eq h

theorem dumpedMsg_vsig (env : Env) (c : Conf) : (dumpedMsg env c true).vsig = c.refresh.m.vsig := by
  simp [dumpedMsg, Msg.reparsed]

theorem dumpedMsg_body (env : Env) (c : Conf) (t : Bool) :
    (dumpedMsg env c t).body env.lag = c.refresh.m.body env.lag :=
  body_reparsed env.unsigned t _ _ _

theorem refresh_of_none {c : Conf} (h : c.orig = none) : c.refresh = c := by
  obtain ⟨m, o⟩ := c; simp only at h; subst h; rfl

theorem refresh_vsig_some {c : Conf} (h : c.orig.isSome = true) : c.refresh.m.vsig = none := by
  obtain ⟨m, o⟩ := c
  cases o with
  | none => cases h
  | some o => rfl

theorem CInv.reloaded {S : Sys} (hS : S.Good) {c : Client} (h : CInv S c) {ord : List Bytes}
    (hord : ord.Nodup) (hov : c.st = .dirty → int64Ok (c.conf.m.seqno + S.env.lag) = true) :
    CInv S (c.reloaded S ord) := by
  by_cases hd : c.st = .dirty
  · have hw := dumpedMsg_wf hS h false
    have hn : int64Ok ((dumpedMsg S.env c.conf false).seqno + 1) = true := by
      have h1 := hov hd
      have h2 := hS.lag1
      have h3 := h.seq
      rw [dumpedMsg_seqno]
      simp only [int64Ok, Bool.and_eq_true, decide_eq_true_eq] at h1 ⊢
      omega
    have e : (c.reloaded S ord).conf = incrementImpl S.env.lag { dumpedMsg S.env c.conf false with unmerged := 0 } := by
      simp [Client.reloaded, hd]
    refine ⟨?_, ?_, ?_, h.curr, hord, by simp [Client.reloaded], List.nodup_nil, ?_, ?_⟩
    · rw [e]
      exact incrementImpl_wf ((hw.msg rfl).setUnmerged 0) hw.hash hw.window hn
    · rw [e]
      show (0 : Int) ≤ (dumpedMsg S.env c.conf false).seqno + 1
      rw [dumpedMsg_seqno]; have := h.seq; omega
    · intro _; rw [e]; rfl
    · intro hr; have := (h.ro hr).1; rw [hd] at this; cases this
    · intro ho; rw [e] at ho; cases ho
  · have hw := dumpedMsg_wf hS h true
    have e : (c.reloaded S ord).conf = ⟨dumpedMsg S.env c.conf true, none⟩ := by
      simp [Client.reloaded, hd]
    refine ⟨by rw [e]; exact hw, ?_, fun h' => absurd h' hd, h.curr, hord, by simp [Client.reloaded],
      List.nodup_nil, ?_, ?_⟩
    · rw [e]; show (0 : Int) ≤ (dumpedMsg S.env c.conf true).seqno
      rw [dumpedMsg_seqno]; exact h.seq
    · intro hr
      obtain ⟨h1, h2, h3⟩ := h.ro hr
      rw [e]
      refine ⟨h1, rfl, fun hs => ?_⟩
      rw [dumpedMsg_vsig, refresh_of_none h2]
      refine h3 ?_
      rw [← dumpedMsg_seqno S.env c.conf true]; exact hs
    · intro _ v hv s hs
      rw [e] at hs ⊢
      simp only at hs ⊢
      rw [dumpedMsg_vsig] at hs
      rw [dumpedMsg_body]
      cases ho : c.conf.orig with
      | none =>
        rw [refresh_of_none ho] at hs ⊢
        exact h.vs ho v hv s hs
      | some o =>
        rw [refresh_vsig_some (by rw [ho]; rfl)] at hs; cases hs

/-- What holds around the object with a signing key held before. -/
theorem Sys.Good.demote {S : Sys} {f : Bytes → Bytes} (h : (S.as (some f)).Good)
    (hro : S.env.readonly = true) : S.Good := by
  have hs : S.env.signer = none := by
    simp only [Env.readonly, Bool.and_eq_true] at hro
    simpa using hro.2
  refine ⟨⟨h.sane.hash, fun g hg => ?_⟩, h.lag1, h.lagU, h.prims, h.dom, h.zip, fun v g _ hg => ?_, h.proto⟩
  · rw [hs] at hg; cases hg
  · rw [hs] at hg; cases hg

/-- A signing key changes nothing of the invariant. -/
theorem CInv.promote {S : Sys} {f : Bytes → Bytes} {c : Client} (h : CInv S c) : CInv (S.as (some f)) c :=
  ⟨h.wf, h.seq, h.isMut, h.curr, h.old, h.keyLen, h.keyNodup,
    fun hr => by simp [Env.readonly, Sys.as] at hr, h.vs⟩

/-- Dumps do not depend on the signing key: what is not signed yet is not signed in a dump. -/
theorem dumpBytes_as (S : Sys) (sg : Option (Bytes → Bytes)) (c : Client) (ord : List Bytes) :
    c.dumpBytes (S.as sg) ord = c.dumpBytes S ord := by
  have : c.conf.ser (S.as sg).env false = c.conf.ser S.env false := by
    unfold Conf.ser Msg.ser
    have : ∀ m : Msg, m.sig (S.as sg).env false = m.sig S.env false := by
      intro m
      unfold Msg.sig Sys.as
      cases m.vsig with
      | some s => rfl
      | none => cases sg <;> cases S.env.signer <;> rfl
    simp only [this]
    rfl
  unfold Client.dumpBytes
  rw [this]

/-- Every reachable object satisfies the invariant. -/
theorem Reach.inv {S : Sys} (hS : S.Good) {c : Client} (h : Reach S c) : CInv S c := by
  induction h with
  | new => exact CInv.new hS
  | step _ hs ih => exact (ih hS).step hS hs
  | @restore S c c' ord _ hperm hr ih =>
    have hord : ord.Nodup := by
      rw [hperm.nodup_iff]
      split
      · exact List.nodup_nil
      · exact (ih hS).old
    obtain ⟨rfl, hov⟩ := restore_inv hS (ih hS) hord hr
    exact (ih hS).reloaded hS hord hov
  | promote _ hro ih => exact (ih (hS.demote hro)).promote
  | @revive S c c' f _ hro hr ih =>
    have hi : CInv (S.as (some f)) c := (ih (hS.demote hro)).promote
    rw [← dumpBytes_as] at hr
    obtain ⟨rfl, hov⟩ := restore_inv hS hi List.nodup_nil hr
    exact hi.reloaded hS List.nodup_nil hov

end Verif
