import Verif.ReplayLemmas

/-! Helper lemmas: the outcome of a merge. -/

namespace Verif

/-- A client that checks signatures but cannot produce them. -/
def Env.readonly (env : Env) : Bool := env.verifier.isSome && env.signer.isNone

/-- `seqno + lag` does not overflow for any message of the batch. -/
def NoOverflow (lag : Int) (cs : List Msg) : Prop := ∀ c ∈ cs, int64Ok (c.seqno + lag) = true

theorem mergeParsed_step {env : Env} {cs : List Msg} (hne : cs ≠ []) (ho : NoOverflow env.lag cs) :
    mergeParsed env cs = match kept env.lag cs with
    | [(m, i)] => .ok { m with unmerged := i }
    | ks =>
      if env.readonly then
        match maxElem (flagged env.lag cs) with
        | some (m, i, _) => .ok { m with unmerged := i }
        | none => .ub
      else mergeKept env (maxSeq cs) (sortDesc (ks.map (·.1))) := by
  unfold mergeParsed
  rw [if_neg (by simpa using hne), if_neg]
  · rfl
  · simp only [List.any_eq_true, not_exists, not_and, Bool.not_eq_true', Bool.not_eq_false]
    intro c hc; exact ho c hc

/-- The highest message and the two possible kinds of outcome. -/
theorem mergeParsed_cases {env : Env} {cs : List Msg} (hlag : 1 ≤ env.lag) (hne : cs ≠ [])
    (hg : GoodBatch cs) (ho : NoOverflow env.lag cs) :
    ∃ top ∈ cs, (∀ d ∈ cs, d.sh ≤ top.sh) ∧
      (((env.readonly = true ∨ ∀ c, Current env.lag cs c → c = top) ∧
          ∃ i : Nat, cs[i]? = some top ∧
            mergeParsed env cs = .ok { top with unmerged := i }) ∨
        ((env.readonly = false ∧ ∃ c, Current env.lag cs c ∧ c ≠ top) ∧
          ∃ rest, sortDesc ((kept env.lag cs).map (·.1)) = top :: rest ∧
            mergeParsed env cs = mergeKept env (maxSeq cs) (top :: rest))) := by
  obtain ⟨top, htop, hmax⟩ := exists_max_sh hne
  have hcur := max_current hlag hg htop hmax
  obtain ⟨⟨top', i⟩, hk, he⟩ := List.mem_map.1 ((mem_kept_fst hg top).2 hcur)
  simp only at he
  subst he
  refine ⟨top', htop, hmax, ?_⟩
  rw [mergeParsed_step hne ho]
  split
  · rename_i m j hkept
    rw [hkept, List.mem_singleton] at hk
    cases hk
    left
    refine ⟨.inr fun c hc => ?_, i, (mem_kept.1 (hkept ▸ List.mem_singleton.2 rfl)).1, rfl⟩
    have := (mem_kept_fst hg c).2 hc
    rw [hkept] at this
    simpa using this
  · rename_i hnot
    by_cases hro : env.readonly = true
    · left
      refine ⟨.inl hro, ?_⟩
      rw [if_pos hro]
      obtain ⟨⟨m, j, r⟩, hme⟩ := maxElem_isSome (l := flagged env.lag cs) (by
        intro h0
        have hm := mem_kept.1 hk
        have := mem_flagged.2 (⟨hm.1, rfl⟩ : cs[i]? = some top' ∧ _ = redundantAt env.lag cs i top')
        rw [h0] at this
        simp at this)
      obtain ⟨hj, hm⟩ := maxElem_flagged hlag hg hme
      have : m = top' := hg.nodupsh _ (List.mem_of_getElem? hj) _ htop
        (le_antisymm (hmax _ (List.mem_of_getElem? hj)) (hm _ htop))
      subst this
      exact ⟨j, hj, by rw [hme]⟩
    · right
      rw [if_neg hro]
      have hsp := keptSorted_spec (lag := env.lag) hg
      constructor
      · refine ⟨by simpa using hro, ?_⟩
        by_contra hcon
        push Not at hcon
        have hall : ∀ x ∈ (kept env.lag cs).map (·.1), x = top' := fun x hx =>
          hcon x ((mem_kept_fst hg x).1 hx)
        have hnd := kept_nodup (lag := env.lag) hg
        rcases hkk : kept env.lag cs with _ | ⟨a, _ | ⟨b, t⟩⟩
        · rw [hkk] at hk; simp at hk
        · obtain ⟨am, ai⟩ := a
          exact hnot am ai hkk
        · rw [hkk] at hall hnd
          have h1 := hall a.1 (by simp)
          have h2 := hall b.1 (by simp)
          simp only [List.map_cons, List.pairwise_cons] at hnd
          exact hnd.1 b.1 (by simp) (by rw [h1, h2])
      · cases hs : sortDesc ((kept env.lag cs).map (·.1)) with
        | nil =>
          have := (hsp.2 top').2 hcur
          rw [hs] at this; simp at this
        | cons a t =>
          have ha : a = top' := by
            have ham : Current env.lag cs a := (hsp.2 a).1 (by rw [hs]; simp)
            have htm := (hsp.2 top').2 hcur
            rw [hs] at htm
            rcases List.mem_cons.1 htm with h | h
            · exact h.symm
            · have hp := hsp.1
              rw [hs] at hp
              have := (List.pairwise_cons.1 hp).1 _ h
              exact absurd (lt_of_lt_of_le this (hmax a ham.1)) (lt_irrefl _)
          subst ha
          exact ⟨t, rfl, rfl⟩

/-- Unfolding a successful merge. -/
theorem mergeKept_ok {env : Env} {maxS : Int} {top : Msg} {rest : List Msg} {R : Msg}
    (h : mergeKept env maxS (top :: rest) = .ok R) :
    int64Ok (maxS + 1) = true ∧ ∃ d, applyReplay (replayOf (top :: rest)) top.data = .ok d ∧
      R.data = pruneD d ∧ R.diff = [] ∧
      R.lagged = (replayOf (top :: rest)).map (fun p => (p.1, p.2.2)) ∧ R.unknown = [] ∧
      R.seqno = maxS + 1 ∧ R.vsig = none ∧ R.unmerged = -1 ∧
      R.hash = env.H (R.ser env true) := by
  unfold mergeKept at h
  simp only at h
  split at h
  · cases h
  · rename_i hi
    obtain ⟨d, hd, h⟩ := Out.bind_eq_ok.1 h
    cases h
    refine ⟨by simpa using hi, d, hd, rfl, rfl, rfl, rfl, rfl, rfl, rfl, rfl⟩

theorem mget_lagged_of_replay (rp : List (SH × (Dict × BtDict))) (s : SH) :
    mget s (rp.map fun p => (p.1, p.2.2)) = (mget s rp).map fun q => q.2 := by
  induction rp with
  | nil => simp [mget]
  | cons a t ih =>
    obtain ⟨k, v⟩ := a
    simp only [List.map_cons, mget, ih]
    split <;> simp

theorem entry_cases {m : Msg} {s : SH} {e : Dict × BtDict} (h : m.entry s = some e) :
    e.1 = m.data ∧ ((s = m.sh ∧ e.2 = m.diff) ∨ mget s m.lagged = some e.2) := by
  unfold Msg.entry at h
  split at h
  · rename_i hs; cases h; exact ⟨rfl, .inl ⟨hs, rfl⟩⟩
  · obtain ⟨d, hd, rfl⟩ := Option.map_eq_some_iff.1 h
    exact ⟨rfl, .inr hd⟩

/-- What is known of each entry of the replay of well-formed messages. -/
theorem replay_mem {ms : List Msg} (hw : ∀ m ∈ ms, MsgWF m) {e : SH × (Dict × BtDict)}
    (he : e ∈ replayOf ms) : ∃ m ∈ ms, m.entry e.1 = some e.2 ∧ e.2.1 = m.data ∧
      ((e.1 = m.sh ∧ e.2.2 = m.diff) ∨ (e.1, e.2.2) ∈ m.lagged) := by
  obtain ⟨hs, hm⟩ := replayOf_spec (ms := ms) fun m hm => (hw m hm).lagS
  have := hm e.1
  rw [mget_of_mem hs he] at this
  obtain ⟨m, hmm, hme⟩ := List.exists_of_findSome?_eq_some this.symm
  obtain ⟨h1, h2⟩ := entry_cases hme
  refine ⟨m, hmm, hme, h1, ?_⟩
  rcases h2 with h2 | h2
  · exact .inl h2
  · exact .inr (mem_of_mget h2)

theorem replay_typed {ms : List Msg} (hw : ∀ m ∈ ms, MsgWF m) :
    ∀ e ∈ replayOf ms, typedD e.2.1 = true ∧ loadD none e.2.2 = .ok e.2.2 := by
  intro e he
  obtain ⟨m, hm, _, h1, h2⟩ := replay_mem hw he
  have hwm := hw m hm
  refine ⟨by rw [h1]; exact wfD_typed hwm.data, ?_⟩
  rcases h2 with ⟨_, h2⟩ | h2
  · rw [h2]; exact hwm.diff.1
  · exact (hwm.lagRows _ h2).2.2.1

theorem diffOk_nil : diffOk [] := ⟨rfl, rfl⟩

/-- The result of a real merge is well formed. -/
theorem mergeKept_wf {env : Env} {maxS : Int} {top : Msg} {rest : List Msg} {R : Msg}
    (hw : ∀ m ∈ top :: rest, MsgWF m) (hh : ∀ m ∈ top :: rest, m.hash.length = 32)
    (h : mergeKept env maxS (top :: rest) = .ok R) : MsgWF R := by
  obtain ⟨h1, d, hd, r1, r2, r3, r4, r5, r6, r7, r8⟩ := mergeKept_ok h
  have ht := replay_typed hw
  obtain ⟨t1, _, _⟩ := applyReplay_spec (wfD_typed (hw top List.mem_cons_self).data) ht hd
  obtain ⟨hs, _⟩ := replayOf_spec (ms := top :: rest) fun m hm => (hw m hm).lagS
  refine ⟨?_, ?_, ?_, ?_, ?_, ?_, ?_, ?_⟩
  · rw [r1]; exact pruneD_wf t1
  · rw [r2]; exact diffOk_nil
  · rw [r3]; exact List.pairwise_map.2 hs
  · rw [r3]
    intro p hp
    obtain ⟨e, he, rfl⟩ := List.mem_map.1 hp
    obtain ⟨m, hm, _, _, h2⟩ := replay_mem hw he
    have hwm := hw m hm
    rcases h2 with ⟨h3, h4⟩ | h2
    · simp only
      rw [h3, h4]
      exact ⟨hwm.seq, hh m hm, hwm.diff⟩
    · exact hwm.lagRows _ h2
  · rw [r4]; simp
  · rw [r4]; simp
  · rw [r5]; exact h1
  · rw [r6]; simp

end Verif
