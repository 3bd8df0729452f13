import Verif.Props.Network
import Verif.Props.ClientKeys
import Verif.Props.ClientDump

/-!
# Recovery from an old dump (C130)
-/

namespace Verif

/-! ## Histories -/

/-- The message `m` is, or lists, the message with the given seqno and hash, or is `lag` or more
ahead of it. -/
def Follows (lag : Int) (s : SH) (m : Msg) : Prop :=
  m.sh = s ∨ (∃ p ∈ m.lagged, p.1 = s) ∨ s.1 + lag ≤ m.seqno

/-- Of a batch in which one follows `s`, one of the messages that are not superseded does. -/
theorem follows_current {lag : Int} (hlag : 1 ≤ lag) {cs : List Msg} (hg : GoodBatch cs)
    (hcl : HistoryClosed lag cs) {s : SH} {m : Msg} (hm : m ∈ cs) (hf : Follows lag s m) :
    ∃ c, Current lag cs c ∧ Follows lag s c := by
  classical
  have hne : (cs.filter fun c => decide (Follows lag s c)) ≠ [] := by
    intro he
    have : m ∈ cs.filter fun c => decide (Follows lag s c) := List.mem_filter.2 ⟨hm, by simpa using hf⟩
    rw [he] at this; cases this
  obtain ⟨c, hc, hmax⟩ := exists_max_sh hne
  obtain ⟨hcm, hcf⟩ := List.mem_filter.1 hc
  have hcf : Follows lag s c := by simpa using hcf
  have hmax' : ∀ d ∈ cs, Follows lag s d → d.sh ≤ c.sh := fun d hd hdf =>
    hmax d (List.mem_filter.2 ⟨hd, by simpa using hdf⟩)
  have hseq : s.1 ≤ c.seqno := by
    rcases hcf with h | ⟨p, hp, h⟩ | h
    · rw [← h]; exact le_refl _
    · have := hg.window c hcm p hp
      rw [h] at this; omega
    · omega
  refine ⟨c, ⟨hcm, ?_, ?_⟩, hcf⟩
  · intro c2 h2 p hp he
    have hw := hg.window c2 h2 p hp
    rw [he] at hw
    have hw : c.seqno < c2.seqno := hw
    have hc2 : Follows lag s c2 := by
      rcases hcf with h | ⟨q, hq, h⟩ | h
      · exact .inr (.inl ⟨p, hp, he.trans h⟩)
      · by_cases hl : c2.seqno - lag < q.1.1
        · obtain ⟨p', hp', he'⟩ := hcl c2 h2 c hcm ⟨p, hp, he⟩ q hq hl
          exact .inr (.inl ⟨p', hp', he'.trans h⟩)
        · right; right; rw [← h]; omega
      · right; right; omega
    have := sh_le_seqno (hmax' c2 h2 hc2)
    omega
  · intro c2 h2
    by_contra hge
    have := sh_le_seqno (hmax' c2 h2 (.inr (.inr (by omega))))
    omega

/-- The messages that follow `s` strictly. -/
def Past (lag : Int) (s : SH) (q : Int) (l : List (SH × BtDict)) : Prop :=
  s.1 < q ∧ ((∃ p ∈ l, p.1 = s) ∨ s.1 + lag ≤ q)

theorem Past.own {S : Sys} {s : SH} {c : Client} (h : Past S.env.lag s c.conf.m.seqno c.conf.m.lagged) :
    Past S.env.lag s (c.ownMsg S).seqno (c.ownMsg S).lagged := by
  refine ⟨by rw [ownMsg_seqno]; exact h.1, ?_⟩
  rw [ownMsg_seqno]
  rcases h.2 with ⟨p, hp, he⟩ | h2
  · by_cases hl : c.conf.m.seqno - S.env.lag < s.1
    · left
      refine ⟨p, ?_, he⟩
      show p ∈ c.conf.refresh.m.lagged.filter (lagLive c.conf.refresh.m.seqno S.env.lag)
      rw [mem_lagLive, refresh_lagged, refresh_seqno, he]
      exact ⟨hp, hl, h.1⟩
    · right; omega
  · exact .inr h2

theorem Past.of_own {S : Sys} {s : SH} {c : Client}
    (h : Past S.env.lag s (c.ownMsg S).seqno (c.ownMsg S).lagged) :
    Past S.env.lag s c.conf.m.seqno c.conf.m.lagged := by
  rw [ownMsg_seqno] at h
  refine ⟨h.1, h.2.imp (fun ⟨p, hp, he⟩ => ⟨p, ?_, he⟩) id⟩
  have hp : p ∈ c.conf.refresh.m.lagged.filter (lagLive c.conf.refresh.m.seqno S.env.lag) := hp
  rw [mem_lagLive, refresh_lagged] at hp
  exact hp.1

/-- The object holds the config `s`, without pending modifications, or one that follows it. -/
def After (S : Sys) (s : SH) (c : Client) : Prop :=
  (c.st ≠ .dirty ∧ (c.ownMsg S).sh = s) ∨ Past S.env.lag s c.conf.m.seqno c.conf.m.lagged

theorem After.follows {S : Sys} {s : SH} {c : Client} (h : After S s c) :
    Follows S.env.lag s (c.ownMsg S) := by
  rcases h with ⟨_, h⟩ | h
  · exact .inl h
  · exact .inr h.own.2

theorem After.le {S : Sys} {s : SH} {c : Client} (h : After S s c) : s.1 ≤ c.conf.m.seqno := by
  rcases h with ⟨_, h⟩ | h
  · rw [← h, ← ownMsg_seqno S c]; exact le_refl _
  · exact le_of_lt h.1

theorem ownMsg_congr {S : Sys} {c c' : Client} (hw : ConfWF c.conf)
    (h : c'.conf = c.conf ∨ c'.conf = c.conf.refresh) : c'.ownMsg S = c.ownMsg S := by
  unfold Client.ownMsg
  rcases h with h | h
  · rw [h]
  · rw [h, refresh_refresh _ hw, ser_refresh hw]

/-- How a call of the application changes the config. -/
inductive Move (S : Sys) (c c' : Client) : Prop
  | keep : (c'.conf = c.conf ∨ c'.conf = c.conf.refresh) → (c.st ≠ .dirty → c'.st ≠ .dirty) → Move S c c'
  | inc : c'.conf.m.lagged = (c.conf.increment S.env).m.lagged →
      c'.conf.m.seqno = c.conf.m.seqno + 1 → c'.st = .dirty → Move S c c'
  | mod : c.st = .dirty → c'.conf.m.lagged = c.conf.m.lagged → c'.conf.m.seqno = c.conf.m.seqno →
      c'.st = .dirty → Move S c c'

theorem Past.increment {S : Sys} (hS : S.Good) {s : SH} {c : Client} (h : CInv S c)
    (hp : Past S.env.lag s c.conf.m.seqno c.conf.m.lagged) :
    Past S.env.lag s (c.conf.m.seqno + 1) (c.conf.increment S.env).m.lagged := by
  refine ⟨by have := hp.1; omega, ?_⟩
  rcases hp.2 with ⟨p, hpm, he⟩ | h2
  · rcases (increment_lists hS.sane h.wf hS.lag1).2 p hpm with ⟨q, hq, hqe⟩ | h3
    · exact .inl ⟨q, hq, hqe.trans he⟩
    · right; rw [he] at h3; omega
  · right; omega

theorem Move.after {S : Sys} (hS : S.Good) {s : SH} {c c' : Client} (h : PInv S c) (h0 : c.seqno ≠ 0)
    (ha : After S s c) (hm : Move S c c') : After S s c' := by
  have hinv := h.reach.inv hS
  cases hm with
  | keep hc hst =>
    rcases ha with ⟨h1, h2⟩ | hp
    · exact .inl ⟨hst h1, by rw [ownMsg_congr hinv.wf hc]; exact h2⟩
    · right
      rcases hc with hc | hc
      · rw [hc]; exact hp
      · rw [hc, refresh_seqno, refresh_lagged]; exact hp
  | inc hl hq _ =>
    right
    rw [hl, hq]
    rcases ha with ⟨_, h2⟩ | hp
    · have e1 : s = toLex (c.conf.m.seqno, S.env.H (c.plain S)) := by
        rw [← h2, ← ownMsg_seqno S c]; rfl
      refine ⟨by rw [e1]; show c.conf.m.seqno < _; omega, .inl ?_⟩
      obtain ⟨p, hp, he⟩ := (increment_lists hS.sane hinv.wf hS.lag1).1
      refine ⟨p, hp, ?_⟩
      rw [he, e1]
      show toLex ((c.conf.hashed S.env).m.seqno, (c.conf.hashed S.env).m.hash) = _
      rw [h.hashed_hash h0, hashed_seqno]
    · exact hp.increment hS hinv
  | mod hd hl hq _ =>
    right
    rw [hl, hq]
    exact ha.resolve_left fun hh => hh.1 hd

theorem dirty_move (S : Sys) (c : Client) : Move S c (c.dirty S).1 := by
  rcases dirty_fst (S := S) (c := c) with h | ⟨_, _, _, h⟩
  · rw [h]; exact .keep (.inl rfl) id
  · rw [h]; exact .inc rfl (increment_seqno _ _) rfl

theorem Move.congr {S : Sys} {c d c' : Client} (hc : d.conf = c.conf) (hs : d.st = c.st)
    (h : Move S d c') : Move S c c' := by
  cases h with
  | keep h1 h2 => rw [hc] at h1; rw [hs] at h2; exact .keep h1 h2
  | inc h1 h2 h3 => rw [hc] at h1 h2; exact .inc h1 h2 h3
  | mod h1 h2 h3 h4 => rw [hc] at h2 h3; rw [hs] at h1; exact .mod h1 h2 h3 h4

theorem dirty_move' {S : Sys} {c d : Client} (hc : d.conf = c.conf) (hs : d.st = c.st) :
    Move S c (d.dirty S).1 := (dirty_move S d).congr hc hs

theorem removeKey_same (S : Sys) (c : Client) (k : Bytes) (n : Nat) :
    (c.removeKey S k n false).1.conf = c.conf ∧ (c.removeKey S k n false).1.st = c.st := by
  unfold Client.removeKey
  split
  · exact ⟨rfl, rfl⟩
  split
  · exact ⟨rfl, rfl⟩
  simp

theorem removeKey_move (S : Sys) (c : Client) (k : Bytes) (n : Nat) (d : Bool) :
    Move S c (c.removeKey S k n d).1 := by
  have hk : ∀ x : Client, x.conf = c.conf → x.st = c.st → Move S c x := fun x h1 h2 =>
    .keep (.inl h1) (by rw [h2]; exact id)
  unfold Client.removeKey
  split
  · exact hk _ rfl rfl
  split
  · exact hk _ rfl rfl
  dsimp only
  split
  · have := dirty_move' (S := S) (c := c)
      (d := { c with keys := c.keys.take n ++ (c.keys.drop n).filter (· ≠ k) }) rfl rfl
    split <;> rename_i he <;> rw [he] at this <;> exact this
  · exact hk _ rfl rfl

theorem addKey_move (S : Sys) (c : Client) (k : Bytes) (hi d : Bool) :
    Move S c (c.addKey S k hi d).1 := by
  have hk : ∀ x : Client, x.conf = c.conf → x.st = c.st → Move S c x := fun x h1 h2 =>
    .keep (.inl h1) (by rw [h2]; exact id)
  unfold Client.addKey
  split
  · exact hk _ rfl rfl
  split
  · exact hk _ rfl rfl
  split
  · exact hk _ rfl rfl
  dsimp only
  cases hi with
  | true =>
    simp only [if_true]
    obtain ⟨h1, h2⟩ := removeKey_same S c k 1
    split
    · exact dirty_move' h1 h2
    · exact hk _ h1 h2
  | false =>
    simp only [Bool.false_eq_true, if_false]
    split
    · exact dirty_move' rfl rfl
    · exact hk _ rfl rfl

theorem clearKeys_move (S : Sys) (c : Client) (d : Bool) : Move S c (c.clearKeys S d).1 := by
  unfold Client.clearKeys
  dsimp only
  split
  · exact dirty_move' rfl rfl
  · exact .keep (.inl rfl) id

theorem replaceKeys_move (S : Sys) (c : Client) (ks : List Bytes) (d : Bool) :
    Move S c (c.replaceKeys S ks d).1 := by
  unfold Client.replaceKeys
  split
  · split
    · exact .keep (.inl rfl) id
    · exact clearKeys_move S c d
  split
  · exact .keep (.inl rfl) id
  dsimp only
  rename_i k ks _
  have he := addKeys_conf S (k :: ks) { c with keys := [] }
  have h1 := congrArg Client.conf he
  have h2 := congrArg Client.st he
  split
  · exact dirty_move' h1 h2
  · exact .keep (.inl h1) (by rw [h2]; exact id)

theorem LocalStep.move {S : Sys} {c c' : Client} (hs : LocalStep S c c') : Move S c c' := by
  cases hs with
  | edit d h1 h2 =>
    by_cases he : (c.dirty S).2 = .ok ()
    · rw [edit_eq_ok he]
      rcases dirty_fst (S := S) (c := c) with h | ⟨_, _, _, h⟩
      · have := (dirty_ok he).1
        rw [h] at this ⊢
        exact .mod this rfl rfl this
      · rw [h]; exact .inc rfl (increment_seqno _ _) rfl
    · rw [edit_eq_err he]; exact dirty_move S c
  | push =>
    unfold Client.push
    split
    · exact .keep (.inl rfl) id
    split
    · split
      · exact .keep (.inr rfl) id
      · dsimp only
        split
        · refine .keep (.inr (by simp [Client.touched])) fun _ => by simp
        · exact .keep (.inr rfl) id
    · exact .keep (.inr rfl) id
    · exact .keep (.inl rfl) id
    · exact .keep (.inl rfl) id
  | confirm s x =>
    unfold Client.confirm
    split
    · exact .keep (.inl (by simp)) fun _ => by simp
    · exact .keep (.inl rfl) id
  | dump => exact .keep (.inr rfl) id
  | addKey k hi d _ => exact addKey_move S c k hi d
  | removeKey k n d _ => exact removeKey_move S c k n d
  | clearKeys d _ => exact clearKeys_move S c d
  | replaceKeys ks d _ => exact replaceKeys_move S c ks d

/-- The result of a merge lists every message that was merged, and all that these list. -/
theorem merged_lists {env : Env} (hlag : 1 ≤ env.lag) {inputs : List Bytes}
    {R : Msg} {bad : List Nat} (h : mergeMsgs env inputs = .ok (R, bad)) (hu : R.unmerged = -1)
    (hc : NoCollision env inputs) {c : Msg} (hcur : Current env.lag (validOf env inputs) c) {s : SH}
    (hs : s = c.sh ∨ ∃ p ∈ c.lagged, p.1 = s) : ∃ p ∈ R.lagged, p.1 = s := by
  obtain ⟨_, hp⟩ := mergeMsgs_ok_iff.1 ⟨bad, h⟩
  obtain ⟨hne, ho⟩ := mergeParsed_pre hp
  have hg := goodBatch_of hc
  obtain ⟨top, htop, hmax, hcase⟩ := mergeParsed_cases hlag hne hg ho
  rcases hcase with ⟨_, i, _, hR⟩ | ⟨hro, rest, hsort, hR⟩
  · rw [hR] at hp; cases hp; simp only at hu; omega
  rw [hR] at hp
  obtain ⟨_, d, _, _, _, r3, _⟩ := mergeKept_ok hp
  have hkept : ∀ m, m ∈ top :: rest ↔ Current env.lag (validOf env inputs) m := fun m => by
    rw [← hsort]; exact (keptSorted_spec hg).2 m
  obtain ⟨_, hm⟩ := replayOf_spec (ms := top :: rest) fun m hm => (valid_wf m ((hkept m).1 hm).1).lagS
  have h1 : (mget s (replayOf (top :: rest))).isSome = true := by
    rw [hm s, List.findSome?_isSome_iff]
    exact ⟨c, (hkept c).2 hcur, entry_some_of hs⟩
  obtain ⟨e, he⟩ := Option.isSome_iff_exists.1 h1
  rw [r3]
  exact ⟨_, List.mem_map.2 ⟨_, mem_of_mget he, rfl⟩, rfl⟩

/-- A config that is not superseded stays in the history of the object through a merge, if the
histories listed by the messages are transitive. -/
theorem merge_after {S : Sys} (hS : S.Good) (hro : S.env.readonly = false) {c : Client}
    {configs : List (Bytes × Bytes)} {s : SH} (h : CInv S c) (h0 : c.seqno ≠ 0)
    (hfair : ∀ p ∈ gather S c.keys configs, Fair S.env p.2)
    (hcol : NoCollision S.env ((c.allConfs S.env (gather S c.keys configs)).map (·.2)))
    (hsafe : (c.merge S configs).2.safe = true)
    (hcl : HistoryClosed S.env.lag (validOf S.env ((c.allConfs S.env (gather S c.keys configs)).map (·.2))))
    (ha : After S s c) : After S s (c.merge S configs).1 := by
  have hmine : c.hasMine = true := by unfold Client.hasMine; unfold Client.seqno at h0; simp [h0]
  have hkeep : ∀ x : Client, (x.conf = c.conf ∨ x.conf = c.conf.refresh) → x.st = c.st → After S s x := by
    intro x hx hst
    rcases ha with ⟨h1, h2⟩ | hp
    · exact .inl ⟨by rw [hst]; exact h1, by rw [ownMsg_congr h.wf hx]; exact h2⟩
    · right
      rcases hx with hx | hx
      · rw [hx]; exact hp
      · rw [hx, refresh_seqno, refresh_lagged]; exact hp
  rcases merge_cases hsafe with ⟨e, _, h2 | h2⟩ | ⟨R, bad, _, hR, hm⟩
  · rw [h2]; exact ha
  · rw [h2]; exact hkeep _ (by dsimp only; rw [if_pos hmine]; exact .inr rfl) rfl
  rw [hm]
  have hg := goodBatch_of hcol
  obtain ⟨m, hcur, hfol⟩ := follows_current hS.lag1 hg hcl (own_mem hS h hmine _) ha.follows
  have hle := ha.le
  rcases (absorb_cases hS h hfair hcol hR).2 with h1 | ⟨hu, _, hlt, ⟨top, ht, hmax, hseq⟩, h1⟩ |
      ⟨top, i, x, y, hi, hmax, hone, hRe, _, hlt, _, h1⟩
  · rw [h1]
    exact hkeep _ (by unfold Client.noted; dsimp only; rw [if_pos hmine]; exact .inr rfl) rfl
  · right
    rw [h1, setState_conf]
    have e1 : (c.mergedConf S R).m = R := by
      unfold Client.mergedConf Client.newConf
      by_cases hd : c.st = .dirty
      · rw [if_pos hd, if_pos hd]; unfold mutFromMerge; rw [if_pos hu]
      · rw [if_neg hd, if_neg hd]; rfl
    dsimp only
    rw [e1]
    refine ⟨by omega, ?_⟩
    rcases hfol with hf | hf | hf
    · exact .inl (merged_lists hS.lag1 hR hu hcol hcur (.inl hf.symm))
    · exact .inl (merged_lists hS.lag1 hR hu hcol hcur (.inr hf))
    · right
      have := sh_le_seqno (hmax m hcur.1)
      omega
  · right
    rw [h1]
    dsimp only
    have hmt : m = top := by
      rcases hone with hone | hone
      · rw [hro] at hone; cases hone
      · exact hone m hcur
    subst hmt
    have hwf := valid_wf m hcur.1
    unfold Client.newConf at hlt ⊢
    by_cases hd : c.st = .dirty
    · rw [if_pos hd] at hlt ⊢
      have hune : R.unmerged ≠ -1 := by rw [hRe]; simp only; omega
      unfold mutFromMerge at hlt ⊢
      rw [if_neg hune] at hlt ⊢
      have hq : (incrementImpl S.env.lag R).m.seqno = m.seqno + 1 := by rw [hRe]; rfl
      rw [hq] at hlt ⊢
      refine ⟨by omega, ?_⟩
      have hl : (incrementImpl S.env.lag R).m.lagged =
          memplace m.sh m.diff (lagsForNext m.seqno S.env.lag m.lagged) := by rw [hRe]; rfl
      rw [hl, memplace_last (fun p hp => sh_lt_of_fst (hg.window m hcur.1 p ((lagsForNext_sublist _ _ _).subset hp)))]
      rcases hfol with hf | ⟨p, hp, he⟩ | hf
      · exact .inl ⟨_, List.mem_append_right _ List.mem_cons_self, hf⟩
      · by_cases hw : m.seqno - S.env.lag < p.1.1
        · exact .inl ⟨p, List.mem_append_left _ ((mem_lagsForNext hwf.lagS (hg.window m hcur.1)).2 ⟨hp, hw⟩), he⟩
        · right; rw [← he]; omega
      · right; omega
    · rw [if_neg hd] at hlt ⊢
      dsimp only at hlt ⊢
      rw [hRe] at hlt ⊢
      dsimp only at hlt ⊢
      refine ⟨by omega, ?_⟩
      rcases hfol with hf | hf | hf
      · exfalso
        rw [← hf] at hle
        have : m.seqno ≤ c.conf.m.seqno := hle
        omega
      · exact .inl hf
      · exact .inr hf

/-- Restarting from a dump (of a config that is not signed) keeps the history. -/
theorem restore_after {S : Sys} (hS : S.Good) {c c' : Client} {ord : List Bytes} {s : SH} (h : PInv S c)
    (hv : S.env.verifier = none) (hsg : S.env.signer = none)
    (hord : ord.Perm (if S.env.readonly then [] else c.old))
    (hr : Client.restore S (c.dumpBytes S ord) = .ok c') (ha : After S s c) : After S s c' := by
  have hci := h.reach.inv hS
  have hn : ord.Nodup := by
    rw [hord.nodup_iff]
    split
    · exact List.nodup_nil
    · exact hci.old
  have henv : S.env.unsigned = S.env := by
    unfold Env.unsigned
    rw [← hv, ← hsg]
  have hro : S.env.readonly = false := by simp [Env.readonly, hv]
  have hdm : ∀ t, (dumpedMsg S.env c.conf t).sh = (c.ownMsg S).sh ∧
      (dumpedMsg S.env c.conf t).lagged = (c.ownMsg S).lagged := by
    intro t
    have h1 := parse_dumped hS hci t
    have h2 := (hci.published_rw hS hro).parse hS.sane hci.wf t
    have h3 : c.conf.ser S.env false = c.plain S := by
      unfold Client.plain Conf.ser
      rw [ser_unsigned, henv]
    rw [henv, h3] at h1
    rw [h1] at h2
    rw [Out.ok.inj h2]
    exact ⟨rfl, rfl⟩
  obtain ⟨rfl, hov⟩ := restore_inv hS hci hn hr
  have hq : ∀ t, (dumpedMsg S.env c.conf t).seqno = c.conf.m.seqno := fun t => by
    rw [← ownMsg_seqno S c]; exact congrArg (fun x : SH => x.1) (hdm t).1
  by_cases hd : c.st = .dirty
  · right
    have hp := ha.resolve_left fun hh => hh.1 hd
    have hc : (c.reloaded S ord).conf =
        incrementImpl S.env.lag { dumpedMsg S.env c.conf false with unmerged := 0 } := by
      unfold Client.reloaded; simp only [if_pos hd]
    rw [hc]
    show Past _ _ ((dumpedMsg S.env c.conf false).seqno + 1)
      (memplace (dumpedMsg S.env c.conf false).sh (dumpedMsg S.env c.conf false).diff
        (lagsForNext (dumpedMsg S.env c.conf false).seqno S.env.lag (dumpedMsg S.env c.conf false).lagged))
    rw [hq, (hdm false).1, (hdm false).2]
    have hw := valid_wf (env := S.env) (c.ownMsg S)
      (mem_validOf.2 ⟨c.plain S, List.mem_singleton.2 rfl, h.read hS hro⟩)
    have hwin : ∀ p ∈ (c.ownMsg S).lagged, p.1.1 < c.conf.m.seqno := by
      intro p hpm
      have hpm : p ∈ c.conf.refresh.m.lagged.filter (lagLive c.conf.refresh.m.seqno S.env.lag) := hpm
      rw [mem_lagLive, refresh_seqno] at hpm
      exact hpm.2.2
    have hlt : ∀ p ∈ lagsForNext c.conf.m.seqno S.env.lag (c.ownMsg S).lagged, p.1 < (c.ownMsg S).sh := by
      intro p hpm
      apply sh_lt_of_fst
      show p.1.1 < (c.ownMsg S).seqno
      rw [ownMsg_seqno]
      exact hwin p ((lagsForNext_sublist _ _ _).subset hpm)
    rw [memplace_last hlt]
    have ho := hp.own
    rw [ownMsg_seqno] at ho
    refine ⟨by have := ho.1; omega, ?_⟩
    rcases ho.2 with ⟨p, hpm, he⟩ | h2
    · by_cases hwd : c.conf.m.seqno - S.env.lag < p.1.1
      · exact .inl ⟨p, List.mem_append_left _ ((mem_lagsForNext hw.lagS hwin).2 ⟨hpm, hwd⟩), he⟩
      · right; rw [← he]; omega
    · right; omega
  · have hc : (c.reloaded S ord).conf = ⟨dumpedMsg S.env c.conf true, none⟩ := by
      unfold Client.reloaded; simp only [if_neg hd]
    rcases ha with ⟨h1, h2⟩ | hp
    · left
      refine ⟨hd, ?_⟩
      rw [← h2]
      show toLex (((c.reloaded S ord).ownMsg S).seqno, S.env.H ((c.reloaded S ord).plain S)) =
        toLex ((c.ownMsg S).seqno, S.env.H (c.plain S))
      rw [ownMsg_seqno, ownMsg_seqno, reloaded_plain hd, hc]
      show toLex ((dumpedMsg S.env c.conf true).seqno, _) = _
      rw [hq]
    · right
      rw [hc]
      show Past _ _ (dumpedMsg S.env c.conf true).seqno (dumpedMsg S.env c.conf true).lagged
      rw [hq, (hdm true).2, ← ownMsg_seqno S c]
      exact hp.own

/-- What a device does after the moment `c0`: any calls of the application, merges with messages that
devices of the account published (whose listed histories are transitive), restarts from a dump (of a config
that is not signed). -/
inductive Life (S : Sys) (c0 : Client) : Client → Prop
  | start : Life S c0 c0
  | call {c c' : Client} : Life S c0 c → LocalStep S c c' → Life S c0 c'
  | merge {c : Client} {configs : List (Bytes × Bytes)} (src : Bytes → Client) : Life S c0 c →
      (∀ p ∈ gather S c.keys configs, (∃ m, parseMsg S.env false p.2 = .ok m) → Peer S (src p.2)) →
      (∀ p ∈ gather S c.keys configs, (∃ m, parseMsg S.env false p.2 = .ok m) →
        p.2 = (src p.2).plain S) →
      NoCollision S.env ((c.allConfs S.env (gather S c.keys configs)).map (·.2)) →
      (c.merge S configs).2.safe = true →
      HistoryClosed S.env.lag
        (validOf S.env ((c.allConfs S.env (gather S c.keys configs)).map (·.2))) →
      Life S c0 (c.merge S configs).1
  | restart {c c' : Client} {ord : List Bytes} : Life S c0 c → S.env.verifier = none →
      S.env.signer = none → ord.Perm (if S.env.readonly then [] else c.old) →
      Client.restore S (c.dumpBytes S ord) = .ok c' → Life S c0 c'

theorem Life.peer {S : Sys} {c0 c : Client} (h : Life S c0 c) (hp : Peer S c0) : Peer S c := by
  induction h with
  | start => exact hp
  | call _ hs ih => exact .step ih hs
  | merge src _ h1 h2 h3 h4 _ ih => exact .merge src ih h1 h2 h3 h4
  | restart _ h1 h2 h3 h4 ih => exact .restore ih h1 h2 h3 h4

/-- What a device holds is either still what it held at `c0`, or lists it, or is `lag` or more ahead. -/
theorem Life.after {S : Sys} (hS : S.Good) (hro : S.env.readonly = false) {c0 c : Client}
    (h : Life S c0 c) (hp : Peer S c0) (hd : c0.st ≠ .dirty) (h0 : c0.seqno ≠ 0) :
    After S (c0.ownMsg S).sh c ∧ c.seqno ≠ 0 := by
  have hpos : ∀ c, PInv S c → After S (c0.ownMsg S).sh c → c.seqno ≠ 0 := by
    intro c hc ha
    have h1 := ha.le
    have h2 : (c0.ownMsg S).sh.1 = c0.conf.m.seqno := ownMsg_seqno S c0
    rw [h2] at h1
    have h3 := ((hp.inv hS hro).reach.inv hS).seq
    unfold Client.seqno at h0 ⊢
    omega
  induction h with
  | start => exact ⟨.inl ⟨hd, rfl⟩, h0⟩
  | call hl hs ih =>
    have hi := (hl.peer hp).inv hS hro
    have ha := hs.move.after hS hi ih.2 ih.1
    exact ⟨ha, hpos _ ((Peer.step (hl.peer hp) hs).inv hS hro) ha⟩
  | @merge c configs src hl h1 h2 h3 h4 h5 ih =>
    have hi := (hl.peer hp).inv hS hro
    have hfair : ∀ p ∈ gather S c.keys configs, Fair S.env p.2 := by
      intro p hpm m hm
      have := ((h1 p hpm ⟨m, hm⟩).inv hS hro).own_fair hS hro
      rw [← h2 p hpm ⟨m, hm⟩] at this
      exact this m hm
    have ha := merge_after hS hro (hi.reach.inv hS) ih.2 hfair h3 h4 h5 ih.1
    exact ⟨ha, hpos _ ((Peer.merge src (hl.peer hp) h1 h2 h3 h4).inv hS hro) ha⟩
  | restart hl h1 h2 h3 h4 ih =>
    have hi := (hl.peer hp).inv hS hro
    have ha := restore_after hS hi h1 h2 h3 h4 ih.1
    exact ⟨ha, hpos _ ((Peer.restore (hl.peer hp) h1 h2 h3 h4).inv hS hro) ha⟩

/-- Receiving what the object itself holds changes neither the content nor what is pending. -/
theorem merge_own_again {S : Sys} (hS : S.Good) {c : Client} (hinv : CInv S c) (hd : c.st ≠ .dirty)
    (h0 : c.seqno ≠ 0) {m : Bytes} (hrec : receive S c.keys m = some (c.plain S))
    (hov : int64Ok (c.seqno + S.env.lag) = true) (h : Bytes) :
    (c.merge S [(h, m)]).2 = .ok [h] ∧ (c.merge S [(h, m)]).1.conf = c.conf.refresh ∧
      (c.merge S [(h, m)]).1.st = c.st ∧ (c.merge S [(h, m)]).1.curr = c.curr := by
  have hmine : c.hasMine = true := by unfold Client.hasMine; unfold Client.seqno at h0; simp [h0]
  have hp := hinv.parse_own hS hmine
  have hkr : c.keys ≠ [] := by
    intro e
    rw [e] at hrec
    unfold receive at hrec
    cases hrec
  have hval : validOf S.env ((c.allConfs S.env [(h, c.plain S)]).map (·.2)) =
      [c.ownMsg S, c.ownMsg S] := by
    rw [hinv.valid_all hS, hmine]
    have hp' : parseMsg S.env false (c.plain S) = .ok (c.ownMsg S) := hp
    simp [validOf, hp', Out.toOption]
  have hall : ∀ x ∈ (c.allConfs S.env [(h, c.plain S)]).map (·.2), x = c.plain S := by
    intro x hx
    unfold Client.allConfs at hx
    rw [hmine] at hx
    simp only [if_true, List.singleton_append, List.map_cons, List.map_nil,
      List.mem_cons, List.not_mem_nil, or_false] at hx
    rcases hx with rfl | rfl <;> rfl
  have hncol : NoCollision S.env ((c.allConfs S.env [(h, c.plain S)]).map (·.2)) := fun a ha b hb _ => by
    rw [hall a ha, hall b hb]
  have hg := goodBatch_of hncol
  have hmem : ∀ x ∈ validOf S.env ((c.allConfs S.env [(h, c.plain S)]).map (·.2)), x = c.ownMsg S := by
    intro x hx
    rw [hval] at hx
    simpa using hx
  obtain ⟨top, ht, hmax, hcase⟩ := mergeParsed_cases hS.lag1 (by rw [hval]; simp) hg (fun x hx => by
    rw [hmem x hx, ownMsg_seqno]; exact hov)
  have htop := hmem top ht
  rcases hcase with ⟨_, i, hi, hres⟩ | ⟨⟨_, x, hx, hne⟩, _⟩
  · obtain ⟨bad, hR⟩ := mergeMsgs_ok_iff.2 ⟨fun x hx => .inl ⟨c.ownMsg S, by rw [hall x hx]; exact hp⟩, hres⟩
    have hmm : c.merge S [(h, m)] =
        c.absorb S (c.allConfs S.env [(h, c.plain S)]) { top with unmerged := (i : Int) } bad := by
      unfold Client.merge
      rw [if_neg hkr, gather_one hrec]
      unfold Client.mergeCore
      dsimp only
      rw [hR]
    have hq : (c.newConf S { top with unmerged := (i : Int) }).m.seqno = c.conf.m.seqno := by
      unfold Client.newConf
      rw [if_neg hd]
      show top.seqno = _
      rw [htop, ownMsg_seqno]
    have hab : c.merge S [(h, m)] =
        (c.noted (c.allConfs S.env [(h, c.plain S)]) { top with unmerged := (i : Int) } bad,
          .ok (goodHashes (c.allConfs S.env [(h, c.plain S)]) c.hasMine bad)) := by
      rw [hmm]
      unfold Client.absorb
      dsimp only
      rw [if_pos hq]
    rw [hab]
    refine ⟨?_, ?_, rfl, rfl⟩
    · rw [goodHashes_eq hR]
      have hp' : parseMsg S.env false (c.plain S) = .ok (c.ownMsg S) := hp
      simp [hp', Out.isOk]
    · unfold Client.noted
      dsimp only
      rw [if_pos hmine]
  · exact absurd ((hmem x hx.1).trans htop.symm) hne

/-- C130.  A device writes a dump while it has no unpublished modifications, goes on (any calls, merges,
restarts), publishes, and then dies.  An object made from the *old* dump, given the encryption key, that
merges what was published last is where the device was: it has exactly that content and seqno, and (if
something had changed) nothing to push and the hash it was given as the current one. -/
theorem crash_recovery {S : Sys} (hS : S.Good) (hro : S.env.readonly = false) {c0 c r : Client}
    (hp0 : Peer S c0) (hd : c0.st ≠ .dirty) (hl : Life S c0 c)
    {s : Int} {m : Bytes} {obs : List Bytes} (hpush : (c.push S).2 = .ok (s, m, obs)) (hs : s ≠ 0)
    {ord : List Bytes} (hord : ord.Perm (if S.env.readonly then [] else c0.old))
    (hr : Client.restore S (c0.dumpBytes S ord) = .ok r)
    {k : Bytes} (hk : c.keys.head? = some k)
    (hnc : S.env.H (c.plain S) = S.env.H (c0.plain S) → c.plain S = c0.plain S)
    (hov : int64Ok (s + S.env.lag) = true) (h : Bytes) :
    let r1 := (r.addKey S k true false).1
    let r2 := (r1.merge S [(h, m)]).1
    (r1.merge S [(h, m)]).2 = .ok [h] ∧ r2.content = c.content ∧ r2.seqno = s ∧
      (s ≠ c0.seqno → r2.needsPush = false ∧ r2.curr = h) := by
  intro r1 r2
  have hP0 := hp0.inv hS hro
  have hci := hP0.reach.inv hS
  have hP := (hl.peer hp0).inv hS hro
  have hn : ord.Nodup := by
    rw [hord.nodup_iff]
    split
    · exact List.nodup_nil
    · exact hci.old
  have hrr : Reach S r := .restore hP0.reach hord hr
  have hrs := seqno_restored hS hP0.reach hn hr
  rw [if_neg hd] at hrs
  obtain ⟨hre, _⟩ := restore_inv hS hci hn hr
  have hrp : r.plain S = c0.plain S := by rw [hre]; exact reloaded_plain hd ord
  have hrst : r.st = c0.st := by rw [hre]; rfl
  have hrk : r.keys = [] := by rw [hre]; rfl
  have hk32 : k.length = 32 := (hP.reach.inv hS).keyLen k (List.mem_of_mem_head? hk)
  have hr1 : r1 = { r with keys := [k] } := by
    show (r.addKey S k true false).1 = _
    unfold Client.addKey
    rw [hrk]
    simp [Client.removeKey, hk32, hrk]
  have hreach : Reach S r1 := .step hrr (.addKey _ _ _ _ (by
    unfold Client.addKey
    rw [hrk]
    simp [Client.removeKey, hk32, hrk, Out.safe]))
  have hrp1 : r1.plain S = c0.plain S := by rw [hr1]; exact hrp
  have hrs1 : r1.seqno = c0.seqno := by rw [hr1]; exact hrs
  have hst1 : r1.st ≠ .dirty := by rw [hr1]; show r.st ≠ _; rw [hrst]; exact hd
  have hkk : r1.keys.head? = c.keys.head? := by rw [hr1, hk]; rfl
  have has : S.as S.env.signer = S := rfl
  obtain ⟨e1, _⟩ := push_state hpush
  have hdel := fun hkn => delivery hS (sg := S.env.signer) (by rw [has]; exact hS) hP.reach
    (by rw [has]; exact hreach) hpush hs hkk hst1 hkn (by rw [has, hrp1]; exact hnc) hov h
  by_cases h0 : c0.seqno = 0
  · obtain ⟨d1, d2, d3, d4, d5⟩ := hdel (.inl (by rw [hrs1]; exact h0))
    exact ⟨d1, d2, d3, fun _ => ⟨d4, d5⟩⟩
  obtain ⟨ha, _⟩ := hl.after hS hro hp0 hd h0
  rcases ha with ⟨hcd, hsh⟩ | hpast
  · have hpl : c.plain S = c0.plain S := hnc (congrArg (fun x : SH => x.2) hsh)
    have hse : s = c0.seqno := by
      rw [e1]
      have := congrArg (fun x : SH => x.1) hsh
      have : (c.ownMsg S).seqno = (c0.ownMsg S).seqno := this
      rw [ownMsg_seqno, ownMsg_seqno] at this
      exact this
    have hrec := push_received hS (sg := S.env.signer) (by rw [has]; exact hS) hP.reach hpush hkk
    rw [has, hpl, ← hrp1] at hrec
    have hci1 := hreach.inv hS
    obtain ⟨m1, m2, m3, m4⟩ := merge_own_again hS hci1 hst1 (by rw [hrs1]; exact h0) hrec
      (by rw [hrs1, ← hse]; exact hov) h
    have hread1 := hP.read hS hro
    have hread2 := hci1.parse_own hS (by
      unfold Client.hasMine
      have : r1.conf.m.seqno ≠ 0 := by
        have h1 : r1.conf.m.seqno = c0.seqno := hrs1
        rw [h1]; exact h0
      simp [this])
    have hread2 : parseMsg S.env false (r1.plain S) = .ok (r1.ownMsg S) := hread2
    rw [hpl, ← hrp1, hread2] at hread1
    have hoe := Out.ok.inj hread1
    refine ⟨m1, ?_, ?_, fun hh => absurd hse hh⟩
    · show pruneD (r1.merge S [(h, m)]).1.conf.m.data = pruneD c.conf.m.data
      rw [m2, refresh_data_eq hci1.wf, pruneD_of_wf (pruneD_wf hci1.wf.data),
        ← ownMsg_data (S := S) hci1.wf, ← ownMsg_data (S := S) (hP.reach.inv hS).wf, hoe]
    · show (r1.merge S [(h, m)]).1.conf.m.seqno = s
      rw [m2, refresh_seqno, hse]; exact hrs1
  · have hsup : Supersedes S (c.ownMsg S) r1 := by
      have ho := hpast.own
      have e0 : (c0.ownMsg S).sh = toLex (c0.seqno, S.env.H (c0.plain S)) := by
        show toLex ((c0.ownMsg S).seqno, _) = _
        rw [ownMsg_seqno]; rfl
      unfold Supersedes
      rw [hrs1, hrp1]
      rw [e0] at ho
      exact ho.2
    obtain ⟨d1, d2, d3, d4, d5⟩ := hdel (.inr fun M hM => by
      rw [hP.read hS hro] at hM
      rw [← Out.ok.inj hM, has]; exact hsup)
    exact ⟨d1, d2, d3, fun _ => ⟨d4, d5⟩⟩

theorem exC4_life : Life exSys exC3 exC4 := .call .start (.edit _ _ (by decide +kernel) (by decide +kernel))

/-- The device of the example dumped in state `exC3`, then edited (`exC4`), pushed and died. -/
example : Peer exSys exC3 ∧ exC3.st ≠ .dirty ∧ Life exSys exC3 exC4 ∧ (exC4.push exSys).2.isOk = true ∧
    exC4.seqno = 2 ∧ exC3.seqno = 1 ∧ (Client.restore exSys (exC3.dumpBytes exSys [])).isOk = true ∧
    exC3.old = [] ∧ exC4.keys.head? = some exKey ∧
    exSys.env.H (exC4.plain exSys) ≠ exSys.env.H (exC3.plain exSys) :=
  ⟨exC3_peer, by decide +kernel, exC4_life, by decide +kernel⟩

/-- Merges are among what may happen in between: here, of the message the device pushed itself (no
message of the batch lists another one of it, so the histories are transitive). -/
example : ((exC1.push exSys).2.toOption.map fun p : Int × Bytes × List Bytes =>
    decide ((exC3.merge exSys [([104], p.2.1)]).2.safe = true) &&
    decide ((gather exSys exC3.keys [([104], p.2.1)]) = [([104], exC1.plain exSys)]) &&
    (fun cs : List Msg => cs.all fun a => cs.all fun b => a.lagged.all fun q => decide (q.1 ≠ b.sh))
      (validOf exSys.env
        ((exC3.allConfs exSys.env (gather exSys exC3.keys [([104], p.2.1)])).map (·.2)))) =
    some true := by decide +kernel

def exStale : Client :=
  (((Client.new exSysU).addKey exSysU exKey true false).1.edit exSysU [([97], .scalar (.int 2))]).1
def exStale2 : Client := (exStale.edit exSysU [([97], .scalar (.int 1))]).1

/-- Why the dump must not contain unpublished modifications: here the value is set to 2, a dump is
written, the value is set to 1, which is pushed (and stored), and the device dies.  The object made
from the dump merges what was pushed - and ends up with the *older* value 2, which it will push over the
newer one: reloading made the dumped state a config of its own, which conflicts with the pushed one. -/
theorem dirty_dump_revives_old_value :
    exStale.st = .dirty ∧ exStale2.content = [([97], .scalar (.int 1))] ∧
    (match (exStale2.push exSysU).2, Client.restore exSysU (exStale.dumpBytes exSysU []) with
      | .ok (_, m, _), .ok r =>
        let r2 := ((r.addKey exSysU exKey true false).1.merge exSysU [([104], m)]).1
        decide (r2.content = [([97], .scalar (.int 2))] ∧ r2.seqno = 3 ∧ r2.needsPush = true)
      | _, _ => false) = true := by decide +kernel

end Verif
