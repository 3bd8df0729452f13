import Verif.MergeResult

/-!
# Reachable config messages

`Made env c`: the message object `c` can be obtained through the public constructors and operations
of `ConfigMessage` / `MutableConfigMessage` from arbitrary inputs.  The lemmas show that everything
reachable is well formed.
-/

namespace Verif

/-- Library facts about the parameters: BLAKE2b-256 returns 32 bytes (src/config.cpp:351-355), Ed25519
signatures have 64 bytes (src/config/base.cpp:549-556). -/
structure Env.Sane (env : Env) : Prop where
  hash : ∀ b, (env.H b).length = 32
  sig : ∀ f, env.signer = some f → ∀ b, (f b).length = 64

/-- Objects obtainable from the API, from any byte strings and any modifications. -/
inductive Made (env : Env) : Conf → Prop
  /-- `ConfigMessage()` (src/config.cpp:525-527) -/
  | new : Made env ⟨newMsg env.H, none⟩
  /-- `MutableConfigMessage(seqno, lag, signer)` (include/session/config.hpp:266-271) -/
  | newMut (s : Int) : int64Ok s = true → Made env ⟨{ Msg.empty with seqno := s }, some []⟩
  /-- `ConfigMessage(serialized, ...)` (src/config.cpp:529-565) -/
  | parsed {trust : Bool} {bs : Bytes} {m : Msg} : parseMsg env trust bs = .ok m →
      Made env ⟨m, none⟩
  /-- `ConfigMessage(vector, ...)` (src/config.cpp:567-694) -/
  | merged {inputs : List Bytes} {m : Msg} {bad : List Nat} :
      mergeMsgs env inputs = .ok (m, bad) → Made env ⟨m, none⟩
  /-- `MutableConfigMessage(vector, ...)` (src/config.cpp:696-710) when a merge took place -/
  | mergedMut {inputs : List Bytes} {m : Msg} {bad : List Nat} :
      mergeMsgs env inputs = .ok (m, bad) → m.unmerged = -1 → Made env (mutFromMerge env m)
  /-- any modification through `data()` of a mutable message (include/session/config.hpp:329-332) -/
  | edit {c : Conf} {d : Dict} : Made env c → c.orig.isSome = true → typedD d = true →
      Made env { c with m := { c.m with data := d } }
  /-- `diff()` / `serialize()` (src/config.cpp:721-736) -/
  | refresh {c : Conf} : Made env c → Made env c.refresh
  /-- `hash()` (src/config.cpp:789-794) -/
  | hashed {c : Conf} : Made env c → Made env (c.hashed env)
  /-- `increment()`, and the `increment_seqno` constructors (src/config.cpp:459-491,504-523) -/
  | increment {c : Conf} : Made env c → int64Ok (c.m.seqno + 1) = true →
      Made env (c.increment env)
  /-- the `retain_seqno` constructor (src/config.cpp:493-502) -/
  | retain {c : Conf} : Made env c → Made env c.retain

/-- Invariant of reachable message objects. -/
structure ConfWF (c : Conf) : Prop where
  data : typedD c.m.data = true
  pruned : c.orig = none → wfD c.m.data = true
  orig : ∀ o, c.orig = some o → wfD o = true
  diff : diffOk c.m.diff
  lagS : KSorted c.m.lagged
  lagRows : ∀ p ∈ c.m.lagged, int64Ok p.1.1 = true ∧ p.1.2.length = 32 ∧ diffOk p.2
  window : ∀ p ∈ c.m.lagged, p.1.1 < c.m.seqno
  unkS : KSorted c.m.unknown
  unkKeys : ∀ p ∈ c.m.unknown, unkKeyOk p.1 = true ∧ norm p.2 = p.2 ∧ p.2.ok = true
  seq : int64Ok c.m.seqno = true
  vsig : ∀ s, c.m.vsig = some s → s.length = 64
  hash : c.m.hash.length = 32

theorem scalarBtOk_ok {b : Bt} (h : scalarBtOk b = true) : b.ok = true := by
  cases b with
  | int i => exact int64_intOk h
  | str s => rfl
  | list l => simp [scalarBtOk] at h
  | dict l => simp [scalarBtOk] at h

mutual
theorem ok_of_elems : ∀ b : Bt, loadV b = .ok b → elemsOk b = true → b.ok = true
  | .int i, h, _ => by simp [loadV] at h
  | .str s, _, _ => rfl
  | .list l, h, he => by
    simp only [Bt.ok, okL_iff]
    simp only [elemsOk, List.all_eq_true] at he
    intro p hp
    have := he p hp
    cases p with
    | list e =>
      simp only [List.all_eq_true] at this
      simp only [Bt.ok, okL_iff]
      exact fun q hq => scalarBtOk_ok (this q hq)
    | int i => simp at this
    | str i => simp at this
    | dict i => simp at this
  | .dict d, h, he => by
    simp only [loadV] at h
    obtain ⟨r, hr, h⟩ := Out.bind_eq_ok.1 h
    simp only [Out.ok.injEq, Bt.dict.injEq] at h
    rw [h] at hr
    have := okD_of_elems d (fun p hp => loadD_mem hr (mget_of_mem (loadD_sorted hr) hp))
      (by simpa [elemsOk] using he)
    simpa only [Bt.ok] using this
theorem okD_of_elems : ∀ d : BtDict, (∀ p ∈ d, loadV p.2 = .ok p.2) → elemsOkD d = true →
    Bt.okD d = true
  | [], _, _ => rfl
  | (k, v) :: t, h, he => by
    simp only [elemsOkD, Bool.and_eq_true] at he
    simp [Bt.okD, ok_of_elems v (h (k, v) List.mem_cons_self) he.1,
      okD_of_elems t (fun p hp => h p (List.mem_cons_of_mem _ hp)) he.2]
end

theorem diffOk_diff {o d : Dict} (ho : typedD o = true) (hd : typedD d = true) :
    diffOk (diffD o d) := by
  have h := loadD_diff ho hd
  exact ⟨h, okD_of_elems _ (fun p hp => loadD_mem h (mget_of_mem (loadD_sorted h) hp))
    (elemsOk_diffD o d ho hd)⟩

theorem ConfWF.msg {c : Conf} (h : ConfWF c) (ho : c.orig = none) : MsgWF c.m :=
  ⟨h.pruned ho, h.diff, h.lagS, h.lagRows, h.unkS, h.unkKeys, h.seq, h.vsig⟩

theorem MsgWF.conf {m : Msg} (h : MsgWF m) (hw : ∀ p ∈ m.lagged, p.1.1 < m.seqno)
    (hh : m.hash.length = 32) : ConfWF ⟨m, none⟩ :=
  ⟨wfD_typed h.data, fun _ => h.data, by simp, h.diff, h.lagS, h.lagRows, hw, h.unkS, h.unkKeys,
    h.seq, h.vsig, hh⟩

@[simp] theorem refresh_some (m : Msg) (o : Dict) :
    (Conf.mk m (some o)).refresh = ⟨{ m with vsig := none, data := pruneD m.data, diff := diffD o (pruneD m.data) }, some o⟩ := rfl
@[simp] theorem refresh_none (m : Msg) : (Conf.mk m none).refresh = ⟨m, none⟩ := rfl
@[simp] theorem hashed_none (env : Env) (m : Msg) : (Conf.mk m none).hashed env = ⟨m, none⟩ := rfl

theorem ConfWF.refresh {c : Conf} (h : ConfWF c) : ConfWF c.refresh := by
  obtain ⟨m, o⟩ := c
  cases o with
  | none => exact h
  | some o =>
    have hp := pruneD_wf h.data
    exact ⟨wfD_typed hp, by simp, h.orig, diffOk_diff (wfD_typed (h.orig o rfl)) (wfD_typed hp),
      h.lagS, h.lagRows, h.window, h.unkS, h.unkKeys, h.seq, by simp, h.hash⟩

/-- What is published is always a well-formed message. -/
theorem ConfWF.refresh_msg {c : Conf} (h : ConfWF c) : MsgWF c.refresh.m := by
  have hr := h.refresh
  obtain ⟨m, o⟩ := c
  cases o with
  | none => exact hr.msg rfl
  | some o =>
    exact ⟨pruneD_wf h.data, hr.diff, hr.lagS, hr.lagRows, hr.unkS, hr.unkKeys, hr.seq, hr.vsig⟩

theorem ConfWF.hashed {env : Env} (hs : env.Sane) {c : Conf} (h : ConfWF c) :
    ConfWF (c.hashed env) := by
  obtain ⟨m, o⟩ := c
  cases o with
  | none => exact h
  | some o =>
    have hr := h.refresh
    exact ⟨hr.data, by simp [Conf.hashed], hr.orig, hr.diff, hr.lagS, hr.lagRows, hr.window,
      hr.unkS, hr.unkKeys, hr.seq, hr.vsig, hs.hash _⟩

theorem hashed_wf_data {env : Env} {c : Conf} (h : ConfWF c) : wfD (c.hashed env).m.data = true := by
  obtain ⟨m, o⟩ := c
  cases o with
  | none => exact h.pruned rfl
  | some o => exact pruneD_wf h.data

theorem hashed_seqno {env : Env} {c : Conf} : (c.hashed env).m.seqno = c.m.seqno := by
  obtain ⟨m, o⟩ := c
  cases o <;> rfl

theorem hashed_lagged {env : Env} {c : Conf} : (c.hashed env).m.lagged = c.m.lagged := by
  obtain ⟨m, o⟩ := c
  cases o <;> rfl

theorem hashed_unknown {env : Env} {c : Conf} : (c.hashed env).m.unknown = c.m.unknown := by
  obtain ⟨m, o⟩ := c
  cases o <;> rfl

theorem lagsForNext_sublist (s l : Int) (x : List (SH × BtDict)) :
    (lagsForNext s l x).Sublist x := by
  unfold lagsForNext
  simp only
  refine List.Sublist.trans ?_ (List.dropWhile_sublist fun p : SH × BtDict => decide (p.1.1 ≤ s - l))
  have := List.Sublist.reverse (List.dropWhile_sublist (fun p : SH × BtDict => decide (p.1.1 ≥ s))
    (l := (x.dropWhile fun p => decide (p.1.1 ≤ s - l)).reverse))
  simpa using this

theorem sh_fst (m : Msg) : m.sh.1 = m.seqno := rfl
theorem sh_snd (m : Msg) : m.sh.2 = m.hash := rfl

theorem incrementImpl_wf {lag : Int} {m : Msg} (h : MsgWF m) (hh : m.hash.length = 32)
    (hw : ∀ p ∈ m.lagged, p.1.1 < m.seqno)
    (hn : int64Ok (m.seqno + 1) = true) : ConfWF (incrementImpl lag m) := by
  have hsub := lagsForNext_sublist m.seqno lag m.lagged
  have hmem : ∀ p ∈ (incrementImpl lag m).m.lagged, p = (m.sh, m.diff) ∨ p ∈ m.lagged := by
    intro p hp
    rcases mem_memplace hp with hp | hp
    · exact .inl hp
    · exact .inr (hsub.subset hp)
  refine ⟨wfD_typed h.data, by simp [incrementImpl], ?_, diffOk_nil,
    KSorted.memplace (List.Pairwise.sublist hsub h.lagS) _ _, ?_, ?_, h.unkS, h.unkKeys, hn,
    h.vsig, by simp [incrementImpl]⟩
  · intro o ho
    simp only [incrementImpl, Option.some.injEq] at ho
    subst ho; exact h.data
  · intro p hp
    rcases hmem p hp with rfl | hp
    · exact ⟨h.seq, hh, h.diff⟩
    · exact h.lagRows p hp
  · intro p hp
    show p.1.1 < m.seqno + 1
    rcases hmem p hp with rfl | hp
    · show m.seqno < m.seqno + 1
      omega
    · have := hw p hp; omega

theorem ConfWF.increment {env : Env} (hs : env.Sane) {c : Conf} (h : ConfWF c)
    (hn : int64Ok (c.m.seqno + 1) = true) : ConfWF (c.increment env) := by
  have h' := h.hashed hs (env := env)
  refine incrementImpl_wf ⟨hashed_wf_data h, h'.diff, h'.lagS, h'.lagRows, h'.unkS, h'.unkKeys,
    h'.seq, h'.vsig⟩ h'.hash h'.window (by rw [hashed_seqno]; exact hn)

theorem ConfWF.retain {c : Conf} (h : ConfWF c) : ConfWF c.retain := by
  obtain ⟨m, o⟩ := c
  cases o with
  | some o => exact h
  | none =>
    refine ⟨h.data, by simp [Conf.retain], ?_, h.diff, h.lagS, h.lagRows, h.window, h.unkS,
      h.unkKeys, h.seq, h.vsig, h.hash⟩
    intro o ho
    simp only [Conf.retain, Option.some.injEq] at ho
    subst ho; rfl

/-! ### batches -/

/-- Every parsed message comes from one of the inputs. -/
theorem parseAll_mem {env : Env} {inputs : List Bytes} {i : Nat} {cs : List Msg} {bad : List Nat}
    (h : parseAll env i inputs = .ok (cs, bad)) :
    ∀ m ∈ cs, ∃ bs ∈ inputs, parseMsg env false bs = .ok m := by
  induction inputs generalizing i cs bad with
  | nil =>
    simp only [parseAll, Out.ok.injEq, Prod.mk.injEq] at h
    simp [← h.1]
  | cons b t ih =>
    simp only [parseAll] at h
    split at h
    · rename_i m hm
      obtain ⟨⟨cs', bad'⟩, h1, h⟩ := Out.bind_eq_ok.1 h
      simp only [Out.ok.injEq, Prod.mk.injEq] at h
      obtain ⟨rfl, rfl⟩ := h
      intro x hx
      rcases List.mem_cons.1 hx with rfl | hx
      · exact ⟨b, List.mem_cons_self, hm⟩
      · obtain ⟨bs, h2, h3⟩ := ih h1 x hx
        exact ⟨bs, List.mem_cons_of_mem _ h2, h3⟩
    · cases h
    · obtain ⟨⟨cs', bad'⟩, h1, h⟩ := Out.bind_eq_ok.1 h
      simp only [Out.ok.injEq, Prod.mk.injEq] at h
      obtain ⟨rfl, rfl⟩ := h
      intro x hx
      obtain ⟨bs, h2, h3⟩ := ih h1 x hx
      exact ⟨bs, List.mem_cons_of_mem _ h2, h3⟩
    · cases h
    · cases h

/-- The result of a merge is one of the messages, or a real merge of some of them. -/
theorem mergeParsed_forms {env : Env} {cs : List Msg} {R : Msg} (h : mergeParsed env cs = .ok R) :
    (∃ c ∈ cs, ∃ i : Nat, cs[i]? = some c ∧ R = { c with unmerged := i }) ∨
    (env.readonly = false ∧ ∃ top rest, (∀ m ∈ top :: rest, m ∈ cs) ∧
      sortDesc ((kept env.lag cs).map (·.1)) = top :: rest ∧
      mergeKept env (maxSeq cs) (top :: rest) = .ok R) := by
  unfold mergeParsed at h
  split at h
  · cases h
  split at h
  · cases h
  split at h
  · rename_i m i hk
    simp only [Out.ok.injEq] at h
    have := (mem_kept.1 (hk ▸ List.mem_singleton.2 rfl : (m, i) ∈ kept env.lag cs)).1
    exact .inl ⟨m, List.mem_of_getElem? this, i, this, h.symm⟩
  · split at h
    · split at h
      · rename_i m i r hme
        simp only [Out.ok.injEq] at h
        have := (mem_flagged.1 (maxElem_spec hme).1).1
        exact .inl ⟨m, List.mem_of_getElem? this, i, this, h.symm⟩
      · cases h
    · rename_i hro
      right
      refine ⟨by unfold Env.readonly; exact Bool.eq_false_iff.2 hro, ?_⟩
      cases hs : sortDesc ((kept env.lag cs).map (·.1)) with
      | nil => rw [hs] at h; simp [mergeKept] at h
      | cons top rest =>
        rw [hs] at h
        refine ⟨top, rest, fun m hm => ?_, rfl, h⟩
        rw [← hs] at hm
        obtain ⟨⟨m', i⟩, hk, rfl⟩ := List.mem_map.1 (mem_sortDesc.1 hm)
        exact List.mem_of_getElem? (mem_kept.1 hk).1

theorem MsgWF.setUnmerged {m : Msg} (h : MsgWF m) (i : Int) : MsgWF { m with unmerged := i } :=
  ⟨h.data, h.diff, h.lagS, h.lagRows, h.unkS, h.unkKeys, h.seq, h.vsig⟩

theorem replay_le {ms : List Msg} (hw : ∀ m ∈ ms, MsgWF m)
    (hwin : ∀ m ∈ ms, ∀ p ∈ m.lagged, p.1.1 < m.seqno) {S : Int} (hS : ∀ m ∈ ms, m.seqno ≤ S) :
    ∀ e ∈ replayOf ms, e.1.1 ≤ S := by
  intro e he
  obtain ⟨m, hm, _, _, h2⟩ := replay_mem hw he
  rcases h2 with ⟨h3, _⟩ | h2
  · rw [h3]; exact hS m hm
  · have := hwin m hm _ h2
    have := hS m hm
    simp only at *
    omega

theorem mergeParsed_wf {env : Env} (hs : env.Sane) {cs : List Msg} {R : Msg}
    (hw : ∀ m ∈ cs, MsgWF m) (hh : ∀ m ∈ cs, m.hash.length = 32)
    (hwin : ∀ m ∈ cs, ∀ p ∈ m.lagged, p.1.1 < m.seqno)
    (h : mergeParsed env cs = .ok R) : ConfWF ⟨R, none⟩ := by
  rcases mergeParsed_forms h with ⟨c, hc, i, _, rfl⟩ | ⟨_, top, rest, hsub, _, h⟩
  · exact MsgWF.conf ((hw c hc).setUnmerged _) (hwin c hc) (hh c hc)
  · have hw' := mergeKept_wf (fun m hm => hw m (hsub m hm)) (fun m hm => hh m (hsub m hm)) h
    obtain ⟨h1, d, hd, r1, r2, r3, r4, r5, r6, r7, r8⟩ := mergeKept_ok h
    refine MsgWF.conf hw' ?_ (by rw [r8]; exact hs.hash _)
    rw [r3, r5]
    intro p hp
    obtain ⟨e, he, rfl⟩ := List.mem_map.1 hp
    have := replay_le (fun m hm => hw m (hsub m hm)) (fun m hm => hwin m (hsub m hm))
      (S := maxSeq cs) (fun m hm => le_maxSeq (hsub m hm)) e he
    simp only
    omega

theorem mergeMsgs_wf {env : Env} (hs : env.Sane) {inputs : List Bytes} {R : Msg} {bad : List Nat}
    (h : mergeMsgs env inputs = .ok (R, bad)) : ConfWF ⟨R, none⟩ := by
  unfold mergeMsgs at h
  obtain ⟨⟨cs, b⟩, h1, h⟩ := Out.bind_eq_ok.1 h
  obtain ⟨m, h2, h⟩ := Out.bind_eq_ok.1 h
  simp only [Out.ok.injEq, Prod.mk.injEq] at h
  obtain ⟨rfl, rfl⟩ := h
  have ha : ∀ m ∈ cs, ∃ bs, Accepted env false bs m := fun m hm => by
    obtain ⟨bs, _, hb⟩ := parseAll_mem h1 m hm
    exact ⟨bs, parseMsg_ok hb⟩
  refine mergeParsed_wf hs (fun m hm => ?_) (fun m hm => ?_) (fun m hm => ?_) h2
  · obtain ⟨bs, a⟩ := ha m hm; exact a.wf
  · obtain ⟨bs, a⟩ := ha m hm; rw [a.hash]; exact hs.hash _
  · obtain ⟨bs, a⟩ := ha m hm; exact fun p hp => (a.window p hp).2

theorem empty_wf (s : Int) (hs : int64Ok s = true) : MsgWF { Msg.empty with seqno := s } :=
  ⟨rfl, diffOk_nil, by simp [Msg.empty], by simp [Msg.empty], by simp [Msg.empty],
    by simp [Msg.empty], hs, by simp [Msg.empty]⟩

theorem newMsg_wf (H : Bytes → Bytes) : MsgWF (newMsg H) :=
  ⟨rfl, diffOk_nil, by simp [newMsg, Msg.empty], by simp [newMsg, Msg.empty],
    by simp [newMsg, Msg.empty], by simp [newMsg, Msg.empty], rfl, by simp [newMsg, Msg.empty]⟩

/-- Everything reachable through the API satisfies the invariant. -/
theorem Made.wf {env : Env} (hs : env.Sane) {c : Conf} (h : Made env c) : ConfWF c := by
  induction h with
  | new => exact (newMsg_wf _).conf (by simp [newMsg, Msg.empty]) (hs.hash _)
  | newMut s h =>
    have := empty_wf s h
    exact ⟨rfl, by simp, by simp [wfD_nil], this.diff, this.lagS, this.lagRows,
      by simp [Msg.empty], this.unkS, this.unkKeys, h, this.vsig, by simp [Msg.empty]⟩
  | parsed h =>
    have a := parseMsg_ok h
    exact a.wf.conf (fun p hp => (a.window p hp).2) (by rw [a.hash]; exact hs.hash _)
  | merged h => exact mergeMsgs_wf hs h
  | mergedMut h hu =>
    have := mergeMsgs_wf hs h
    simp only [mutFromMerge, hu, if_true]
    exact ⟨this.data, by simp, by simpa using this.pruned rfl, this.diff, this.lagS, this.lagRows,
      this.window, this.unkS, this.unkKeys, this.seq, this.vsig, this.hash⟩
  | edit h ho hd ih =>
    exact ⟨hd, fun h0 => by rw [show _ = none from h0] at ho; simp at ho, ih.orig, ih.diff, ih.lagS,
      ih.lagRows, ih.window, ih.unkS, ih.unkKeys, ih.seq, ih.vsig, ih.hash⟩
  | refresh _ ih => exact ih.refresh
  | hashed _ ih => exact ih.hashed hs
  | increment _ hn ih => exact ih.increment hs hn
  | retain _ ih => exact ih.retain

end Verif
