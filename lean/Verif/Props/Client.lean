import Verif.ClientMerge

/-!
# Properties of a config object
-/

namespace Verif

/-- `seqno` of the object's config. -/
def Client.seqno (c : Client) : Int := c.conf.m.seqno

/-- The content, as others will see it (empty containers removed). -/
def Client.content (c : Client) : Dict := pruneD c.conf.m.data

/-- The serialised config message a push would encrypt. -/
def Client.plain (S : Sys) (c : Client) : Bytes := c.conf.ser S.env true

/-! ### What single calls do -/

theorem dirty_fst {S : Sys} {c : Client} :
    (c.dirty S).1 = c ∨ (c.st ≠ .dirty ∧ S.env.readonly = false ∧ (c.dirty S).2 = .ok () ∧
      (c.dirty S).1 = { c.setState .dirty with conf := c.conf.increment S.env }) := by
  unfold Client.dirty
  split
  · split <;> exact .inl rfl
  · split
    · exact .inl rfl
    · split
      · exact .inl rfl
      · rename_i h1 h2 _
        exact .inr ⟨h1, by simpa using h2, rfl, rfl⟩

theorem increment_seqno (env : Env) (c : Conf) : (c.increment env).m.seqno = c.m.seqno + 1 := by
  show (c.hashed env).m.seqno + 1 = _; rw [hashed_seqno]

/-- How a call may change the config: not at all (up to removing empty containers), to a higher
seqno, or by modification of a config that is already dirty. -/
inductive Change (S : Sys) (c c' : Client) : Prop
  | same : (c'.st = c.st ∨ (c.st = .dirty ∧ c'.st = .waiting) ∨ (c.st = .waiting ∧ c'.st = .clean)) →
      c'.seqno = c.seqno →
      c'.plain S = c.plain S → c'.content = c.content → Change S c c'
  | higher : c.seqno < c'.seqno → Change S c c'
  | editing : c.st = .dirty → c'.st = .dirty → c'.seqno = c.seqno → Change S c c'

theorem same_refl (S : Sys) (c : Client) : Change S c c := by
  exact .same (.inl rfl) rfl rfl rfl

theorem Change.keys {S : Sys} {c c' : Client} (ks ks' : List Bytes) (h : Change S { c with keys := ks } c') :
    Change S c { c' with keys := ks' } := by
  cases h with
  | same h1 h2 h3 h4 => exact .same h1 h2 h3 h4
  | higher h => exact .higher h
  | editing h1 h2 h3 => exact .editing h1 h2 h3

theorem dirty_change (S : Sys) (c : Client) : Change S c (c.dirty S).1 := by
  rcases dirty_fst (S := S) (c := c) with h | ⟨_, _, _, h⟩
  · rw [h]; exact same_refl S c
  · rw [h]
    refine .higher ?_
    show c.conf.m.seqno < (c.conf.increment S.env).m.seqno
    rw [increment_seqno]; omega

theorem touched_change {S : Sys} {c : Client} (h : CInv S c) : Change S c c.touched := by
  have e : c.touched.content = c.content := by
    show pruneD c.conf.refresh.m.data = _
    rw [refresh_data_eq h.wf]; exact pruneD_of_wf (pruneD_wf h.wf.data)
  exact .same (.inl rfl) (refresh_seqno _) (ser_refresh h.wf _ _) e

theorem removeKey_change (S : Sys) (c : Client) (k : Bytes) (n : Nat) (d : Bool) :
    Change S c (c.removeKey S k n d).1 := by
  unfold Client.removeKey
  split
  · exact same_refl S c
  · split
    · exact same_refl S c
    · dsimp only
      split
      · have h2 := dirty_change S { c with keys := c.keys.take n ++ (c.keys.drop n).filter (· ≠ k) }
        split <;> (rename_i he; rw [he] at h2; exact h2.keys _ _)
      · exact (same_refl S { c with keys := _ }).keys _ _

theorem addKey_change (S : Sys) (c : Client) (k : Bytes) (hi d : Bool) :
    Change S c (c.addKey S k hi d).1 := by
  unfold Client.addKey
  split
  · exact same_refl S c
  split
  · exact same_refl S c
  split
  · exact same_refl S c
  cases hi with
  | true =>
    have hc : (c.removeKey S k 1 false).1 = { c with keys := (c.removeKey S k 1 false).1.keys } := by
      unfold Client.removeKey
      split
      · rfl
      · split <;> simp
    simp only [if_true]
    rw [hc]
    split
    · exact (dirty_change S { c with keys := k :: (c.removeKey S k 1 false).1.keys }).keys _ _
    · exact (same_refl S { c with keys := _ }).keys _ _
  | false =>
    simp only [Bool.false_eq_true, if_false]
    split
    · exact (dirty_change S { c with keys := c.keys ++ [k] }).keys _ _
    · exact (same_refl S { c with keys := _ }).keys _ _

theorem addKeys_conf (S : Sys) (l : List Bytes) (c : Client) :
    l.foldl (fun c k => (c.addKey S k false false).1) c =
      { c with keys := (l.foldl (fun c k => (c.addKey S k false false).1) c).keys } := by
  induction l generalizing c with
  | nil => rfl
  | cons a t ih =>
    have h1 : (c.addKey S a false false).1 = { c with keys := (c.addKey S a false false).1.keys } := by
      unfold Client.addKey
      split
      · rfl
      split
      · rfl
      split
      · rfl
      simp
    rw [List.foldl_cons, ih, h1]

theorem replaceKeys_change (S : Sys) (c : Client) (ks : List Bytes) (d : Bool) :
    Change S c (c.replaceKeys S ks d).1 := by
  unfold Client.replaceKeys
  split
  · split
    · exact same_refl S c
    · unfold Client.clearKeys
      dsimp only
      split
      · exact (dirty_change S { c with keys := [] }).keys _ _
      · exact (same_refl S { c with keys := _ }).keys _ _
  · split
    · exact same_refl S c
    · dsimp only
      rw [addKeys_conf]
      split
      · exact (dirty_change S { c with keys := _ }).keys _ _
      · exact (same_refl S { c with keys := _ }).keys _ _

theorem merge_change {S : Sys} (hS : S.Good) {c : Client} (h : CInv S c)
    {configs : List (Bytes × Bytes)} (hf : ∀ p ∈ gather S c.keys configs, Fair S.env p.2)
    (hc : NoCollision S.env ((c.allConfs S.env (gather S c.keys configs)).map (·.2)))
    (hs : (c.merge S configs).2.safe = true) : Change S c (c.merge S configs).1 := by
  rcases merge_cases hs with ⟨e, he, h1 | h1⟩ | ⟨R, bad, hk, hR, h1⟩
  · rw [h1]; exact same_refl S c
  · rw [h1]
    cases hm : c.hasMine with
    | false => exact same_refl S c
    | true => exact touched_change h
  · rw [h1]
    obtain ⟨_, h2 | ⟨hu, hro, hlt, _, h2⟩ | ⟨top, i, x, y, hi, hmax, hcur, hRe, hne, hlt, hx, h2⟩⟩ :=
      absorb_cases hS h hf hc hR
    · rw [h2]
      obtain ⟨a1, a2, a3⟩ := noted_conf h.wf (c.allConfs S.env (gather S c.keys configs)) R bad S.env
      exact .same (.inl rfl) a1 a2 a3
    · rw [h2]
      refine .higher ?_
      show c.conf.m.seqno < (Client.setState _ _).conf.m.seqno
      rw [setState_conf]
      simp only [mergedConf_seqno S c hu]
      exact hlt
    · rw [h2]; exact .higher hlt

theorem step_change {S : Sys} (hS : S.Good) {c c' : Client} (h : CInv S c) (hs : Step S c c') :
    Change S c c' := by
  cases hs with
  | edit d hd _ =>
    by_cases hk : (c.dirty S).2 = .ok ()
    · rw [edit_eq_ok hk]
      rcases dirty_fst (S := S) (c := c) with h1 | ⟨_, _, _, h1⟩
      · have := (dirty_ok hk).1
        rw [h1] at this ⊢
        exact .editing this this rfl
      · rw [h1]
        refine .higher ?_
        show c.conf.m.seqno < (c.conf.increment S.env).m.seqno
        rw [increment_seqno]; omega
    · rw [edit_eq_err hk]; exact dirty_change S c
  | merge configs hf hc hs => exact merge_change hS h hf hc hs
  | push =>
    have ht := touched_change h
    unfold Client.push
    split
    · exact same_refl S c
    · split
      · split
        · exact ht
        · dsimp only
          have e : c.touched.content = c.content := by
            show pruneD c.conf.refresh.m.data = _
            rw [refresh_data_eq h.wf]; exact pruneD_of_wf (pruneD_wf h.wf.data)
          split
          · rename_i hd
            refine .same (.inr (.inl ⟨hd, rfl⟩)) ?_ ?_ ?_
            · show (c.touched.setState .waiting).conf.m.seqno = _
              rw [setState_conf]; exact refresh_seqno _
            · show (c.touched.setState .waiting).conf.ser S.env true = _
              rw [setState_conf]; exact ser_refresh h.wf _ _
            · show pruneD (c.touched.setState .waiting).conf.m.data = _
              rw [setState_conf]; exact e
          · exact .same (.inl rfl) (refresh_seqno _) (ser_refresh h.wf _ _) e
      · exact ht
      · exact same_refl S c
      · exact same_refl S c
  | confirm s x =>
    unfold Client.confirm
    split
    · rename_i hw
      refine .same (.inr (.inr ⟨hw.1, rfl⟩)) ?_ ?_ ?_
      · show (c.setState .clean).conf.m.seqno = _
        rw [setState_conf]; rfl
      · show (c.setState .clean).conf.ser S.env true = _
        rw [setState_conf]; rfl
      · show pruneD (c.setState .clean).conf.m.data = _
        rw [setState_conf]; rfl
    · exact same_refl S c
  | dump =>
    have ht := touched_change h
    unfold Client.dumped
    cases ht with
    | same h1 h2 h3 h4 => exact .same h1 h2 h3 h4
    | higher h => exact .higher h
    | editing h1 h2 h3 => exact .editing h1 h2 h3
  | addKey k hi d _ => exact addKey_change S c k hi d
  | removeKey k n d _ => exact removeKey_change S c k n d
  | clearKeys d _ =>
    unfold Client.clearKeys
    dsimp only
    split
    · exact (dirty_change S { c with keys := [] }).keys _ _
    · exact (same_refl S { c with keys := _ }).keys _ _
  | replaceKeys ks d _ => exact replaceKeys_change S c ks d

theorem Change.mono {S : Sys} {c c' : Client} (h : Change S c c') : c.seqno ≤ c'.seqno := by
  cases h with
  | same _ h _ _ => exact le_of_eq h.symm
  | higher h => exact le_of_lt h
  | editing _ _ h => exact le_of_eq h.symm

/-! ## C29 -/

/-- C29.  The sequence number of a config object never decreases, whatever calls are made and whatever
(fair) messages arrive. -/
theorem seqno_never_decreases {S : Sys} (hS : S.Good) {c c' : Client} (hr : Reach S c)
    (hs : Steps S c c') : c.seqno ≤ c'.seqno := by
  induction hs with
  | refl => exact le_refl _
  | tail h1 h2 ih =>
    exact le_trans ih (step_change hS ((hr.steps h1).inv hS) h2).mono

/-- C29.  ... nor does it when the object is reloaded from its dump. -/
theorem seqno_restored {S : Sys} (hS : S.Good) {c c' : Client} (hr : Reach S c) {ord : List Bytes}
    (hord : ord.Nodup) (h : Client.restore S (c.dumpBytes S ord) = .ok c') :
    c'.seqno = if c.st = .dirty then c.seqno + 1 else c.seqno := by
  obtain ⟨rfl, _⟩ := restore_inv hS (hr.inv hS) hord h
  unfold Client.seqno Client.reloaded
  dsimp only
  split
  · show (dumpedMsg S.env c.conf false).seqno + 1 = _
    rw [dumpedMsg_seqno]
  · exact dumpedMsg_seqno _ _ _

/-! ## C30 -/

/-- C30.  While the sequence number stays the same a config that is not dirty does not change: same
content, same published bytes, still not dirty. -/
theorem seqno_identifies_content {S : Sys} (hS : S.Good) {c c' : Client} (hr : Reach S c)
    (hnd : c.st ≠ .dirty) (hs : Steps S c c') (he : c'.seqno = c.seqno) :
    c'.st ≠ .dirty ∧ c'.content = c.content ∧ c'.plain S = c.plain S := by
  induction hs with
  | refl => exact ⟨hnd, rfl, rfl⟩
  | @tail a b h1 h2 ih =>
    have hch := step_change hS ((hr.steps h1).inv hS) h2
    have hm1 := seqno_never_decreases hS hr h1
    have hm2 := hch.mono
    obtain ⟨i1, i2, i3⟩ := ih (by omega)
    cases hch with
    | same g1 g2 g3 g4 =>
      refine ⟨?_, g4.trans i2, g3.trans i3⟩
      rcases g1 with g | ⟨g, _⟩ | ⟨_, g⟩
      · rw [g]; exact i1
      · exact absurd g i1
      · rw [g]; exact fun h => CState.noConfusion h
    | higher g => omega
    | editing g _ _ => exact absurd g i1

theorem push_eq {S : Sys} {c : Client} {s : Int} {msg : Bytes} {obs : List Bytes}
    (h : (c.push S).2 = .ok (s, msg, obs)) :
    s = c.seqno ∧ (∃ k ks, c.keys = k :: ks ∧ envelope S k c.seqno (c.plain S) = .ok msg ∧
        msg.length ≤ maxMessageSize) ∧
      obs = (if S.env.readonly then []
        else (if c.st = .dirty then c.touched.setState .waiting else c.touched).old) ∧
      (c.push S).1 =
        { (if c.st = .dirty then c.touched.setState .waiting else c.touched) with old := [] } := by
  unfold Client.push at h ⊢
  cases hk : c.keys with
  | nil => rw [hk] at h; cases h
  | cons k ks =>
    rw [hk] at h
    dsimp only at h ⊢
    cases he : envelope S k c.conf.m.seqno (c.conf.ser S.env true) with
    | err e => rw [he] at h; cases h
    | hang => rw [he] at h; cases h
    | ub => rw [he] at h; cases h
    | ok m =>
      rw [he] at h
      dsimp only at h ⊢
      by_cases hl : m.length > maxMessageSize
      · rw [if_pos hl] at h; cases h
      · rw [if_neg hl] at h ⊢
        have := Out.ok.inj h
        simp only [Prod.mk.injEq] at this
        obtain ⟨rfl, rfl, rfl⟩ := this
        exact ⟨rfl, ⟨k, ks, rfl, he, by omega⟩, rfl, rfl⟩

theorem push_state {S : Sys} {c : Client} {s : Int} {msg : Bytes} {obs : List Bytes}
    (h : (c.push S).2 = .ok (s, msg, obs)) :
    s = c.seqno ∧ (c.push S).1.st ≠ .dirty ∧ (c.push S).1.conf = c.conf.refresh ∧
      (c.push S).1.old = [] ∧ (c.push S).1.keys = c.keys ∧
      ((c.push S).1.st = if c.st = .dirty then .waiting else c.st) ∧
      ∃ k ks, c.keys = k :: ks ∧ envelope S k c.seqno (c.plain S) = .ok msg ∧
        msg.length ≤ maxMessageSize := by
  obtain ⟨h1, h2, _, h4⟩ := push_eq h
  rw [h4]
  by_cases hd : c.st = .dirty
  · rw [if_pos hd, if_pos hd]
    exact ⟨h1, fun hh => CState.noConfusion hh, by simp [Client.touched], rfl, by simp [Client.touched], rfl, h2⟩
  · rw [if_neg hd, if_neg hd]
    exact ⟨h1, hd, rfl, rfl, rfl, rfl, h2⟩

/-- C30.  Two pushes that return the same sequence number (with the same encryption key in front)
return the same message: what was published under a seqno is never replaced. -/
theorem pushes_agree {S : Sys} (hS : S.Good) {c c2 : Client} (hr : Reach S c) {s : Int}
    {m1 m2 : Bytes} {o1 o2 : List Bytes} (h1 : (c.push S).2 = .ok (s, m1, o1))
    (hs : Steps S (c.push S).1 c2) (h2 : (c2.push S).2 = .ok (s, m2, o2))
    (hk : c2.keys.head? = c.keys.head?) : m1 = m2 ∧ c2.content = c.content := by
  have hr1 : Reach S (c.push S).1 := hr.step (.push c)
  have hch := step_change hS (hr.inv hS) (.push c)
  obtain ⟨e1, d1, g1, _, _, _, k1, ks1, hk1, hm1, _⟩ := push_state h1
  obtain ⟨e2, _, _, _, _, _, k2, ks2, hk2, hm2, _⟩ := push_state h2
  have hq : (c.push S).1.seqno = c.seqno := by
    show (c.push S).1.conf.m.seqno = _; rw [g1]; exact refresh_seqno _
  have hp : (c.push S).1.plain S = c.plain S := by
    show (c.push S).1.conf.ser S.env true = _; rw [g1]; exact ser_refresh (hr.inv hS).wf _ _
  have hd : (c.push S).1.content = c.content := by
    show pruneD (c.push S).1.conf.m.data = _
    rw [g1, refresh_data_eq (hr.inv hS).wf]; exact pruneD_of_wf (pruneD_wf (hr.inv hS).wf.data)
  obtain ⟨_, i2, i3⟩ := seqno_identifies_content hS hr1 d1 hs (by rw [hq, ← e1, e2])
  rw [hk1, hk2] at hk
  have hkk : k2 = k1 := by simpa using hk
  rw [i3, hp, hkk, ← e2, e1] at hm2
  rw [hm1] at hm2
  exact ⟨Out.ok.inj hm2, i2.trans hd⟩

/-! ## C31: pending changes -/

/-- An object with pending changes has a positive seqno. -/
theorem Reach.pending_pos {S : Sys} (hS : S.Good) {c : Client} (h : Reach S c) (hp : c.st ≠ .clean) :
    1 ≤ c.seqno := by
  induction h with
  | new => exact absurd rfl hp
  | promote _ hro ih => exact ih (hS.demote hro) hp
  | @revive S c c' f hr hro hres _ =>
    have hc := ((hr.inv (hS.demote hro)).ro hro).1
    have hi : CInv (S.as (some f)) c := (hr.inv (hS.demote hro)).promote
    rw [← dumpBytes_as] at hres
    obtain ⟨rfl, _⟩ := restore_inv hS hi List.nodup_nil hres
    exact absurd hc hp
  | @step S a b ha hs ih =>
    have h0 := (ha.inv hS).seq
    cases step_change hS (ha.inv hS) hs with
    | same g1 g2 _ _ =>
      rw [g2]
      refine ih hS ?_
      rcases g1 with g | ⟨g, _⟩ | ⟨_, g⟩
      · rwa [g] at hp
      · rw [g]; exact fun h => CState.noConfusion h
      · exact absurd g hp
    | higher g => unfold Client.seqno at g ⊢; omega
    | editing g _ g2 => rw [g2]; exact ih hS (by rw [g]; exact fun h => CState.noConfusion h)
  | @restore S a b ord ha hperm hr ih =>
    have hn : ord.Nodup := by
      rw [hperm.nodup_iff]; split
      · exact List.nodup_nil
      · exact (ha.inv hS).old
    have hq := seqno_restored hS ha hn hr
    have hst : b.st = a.st := by
      obtain ⟨rfl, _⟩ := restore_inv hS (ha.inv hS) hn hr; rfl
    have := ih hS (by rwa [← hst])
    rw [hq]; split <;> omega

theorem needsPush_iff {c : Client} : c.needsPush = true ↔ c.st ≠ .clean := by simp [Client.needsPush]
theorem needsPush_false_iff {c : Client} : c.needsPush = false ↔ c.st = .clean := by
  simp [Client.needsPush]

/-- A message of the batch supersedes what the object would publish: it lists it in its history, or is
`lag` or more ahead. -/
def Supersedes (S : Sys) (m : Msg) (c : Client) : Prop :=
  (∃ p ∈ m.lagged, p.1 = toLex (c.seqno, S.env.H (c.plain S))) ∨ c.seqno + S.env.lag ≤ m.seqno

theorem removeKey_st (S : Sys) (c : Client) (k : Bytes) (n : Nat) (d : Bool) (h : c.st ≠ .clean) :
    (c.removeKey S k n d).1.st ≠ .clean := by
  have hd : ∀ c : Client, c.st ≠ .clean → (c.dirty S).1.st ≠ .clean := fun c h => by
    rcases dirty_fst (S := S) (c := c) with h1 | ⟨_, _, _, h1⟩
    · rw [h1]; exact h
    · rw [h1]; exact fun h => CState.noConfusion h
  unfold Client.removeKey
  split
  · exact h
  · split
    · exact h
    · dsimp only
      split
      · have h2 := hd { c with keys := c.keys.take n ++ (c.keys.drop n).filter (· ≠ k) } h
        split <;> (rename_i he; rw [he] at h2; exact h2)
      · exact h

theorem dirty_pending {S : Sys} {c : Client} (h : c.st ≠ .clean) : (c.dirty S).1.st ≠ .clean := by
  rcases dirty_fst (S := S) (c := c) with h1 | ⟨_, _, _, h1⟩
  · rw [h1]; exact h
  · rw [h1]; exact fun h => CState.noConfusion h

theorem addKey_st (S : Sys) (c : Client) (k : Bytes) (hi d : Bool) (h : c.st ≠ .clean) :
    (c.addKey S k hi d).1.st ≠ .clean := by
  unfold Client.addKey
  split
  · exact h
  split
  · exact h
  split
  · exact h
  have h1 := removeKey_st S c k 1 false h
  cases hi with
  | true =>
    simp only [if_true]
    split
    · exact dirty_pending (c := { (c.removeKey S k 1 false).1 with keys := _ }) h1
    · exact h1
  | false =>
    simp only [Bool.false_eq_true, if_false]
    split
    · exact dirty_pending (c := { c with keys := _ }) h
    · exact h

theorem replaceKeys_st (S : Sys) (c : Client) (ks : List Bytes) (d : Bool) (h : c.st ≠ .clean) :
    (c.replaceKeys S ks d).1.st ≠ .clean := by
  unfold Client.replaceKeys
  split
  · split
    · exact h
    · unfold Client.clearKeys
      dsimp only
      split
      · exact dirty_pending h
      · exact h
  · split
    · exact h
    · dsimp only
      rw [addKeys_conf]
      split
      · exact dirty_pending h
      · exact h

/-- C31.  Pending changes (`needs_push`) stay pending through every call except two: `confirm_pushed`
with the current seqno after a push, and a merge that takes over a received message after being given
one that already knows the pending config - it lists exactly what this object would publish in its
history - or that is at least `lag` updates ahead. -/
theorem pending_until_confirmed {S : Sys} (hS : S.Good) {c c' : Client} (hr : Reach S c)
    (hp : c.needsPush = true) (hs : Step S c c') (hc : c'.needsPush = false) :
    (c.st = .waiting ∧ ∃ h, c' = c.confirm c.seqno h) ∨
    (∃ configs, c' = (c.merge S configs).1 ∧
      ∃ m ∈ validOf S.env ((gather S c.keys configs).map (·.2)), c'.content = m.data ∧
        (∀ m' ∈ validOf S.env ((gather S c.keys configs).map (·.2)), m'.sh ≤ m.sh) ∧
        ∃ m2 ∈ validOf S.env ((gather S c.keys configs).map (·.2)), Supersedes S m2 c) := by
  rw [needsPush_iff] at hp
  rw [needsPush_false_iff] at hc
  have hinv := hr.inv hS
  cases hs with
  | edit d hd _ =>
    exfalso
    by_cases hk : (c.dirty S).2 = .ok ()
    · rw [edit_eq_ok hk] at hc; exact dirty_pending hp hc
    · rw [edit_eq_err hk] at hc; exact dirty_pending hp hc
  | merge configs hf hnc hsafe =>
    right
    refine ⟨configs, rfl, ?_⟩
    rcases merge_cases hsafe with ⟨e, he, h1 | h1⟩ | ⟨R, bad, hk, hR, h1⟩
    · exfalso; rw [h1] at hc; exact hp hc
    · exfalso; rw [h1] at hc; exact hp hc
    · rw [h1] at hc ⊢
      have hmine : c.hasMine = true := by
        have := hr.pending_pos hS hp
        unfold Client.hasMine
        unfold Client.seqno at this
        simp; left; omega
      obtain ⟨_, h2 | ⟨hu, hro, hlt, _, h2⟩ | ⟨top, i, x, y, hi, hmax, hcur, hRe, hne, hlt, hx, h2⟩⟩ :=
        absorb_cases hS hinv hf hnc hR
      · exfalso; rw [h2] at hc; exact hp hc
      · exfalso; rw [h2] at hc; cases hc
      · have hro : S.env.readonly = false := by
          cases hb : S.env.readonly with
          | false => rfl
          | true => exact absurd (hinv.ro hb).1 hp
        have hcur' : ∀ m, Current S.env.lag (validOf S.env ((c.allConfs S.env (gather S c.keys configs)).map (·.2))) m → m = top := by
          rcases hcur with h | h
          · rw [hro] at h; cases h
          · exact h
        have hval := hinv.valid_all hS (gather S c.keys configs)
        rw [hmine] at hval
        simp only [if_true, List.singleton_append] at hval
        have htop : top ∈ validOf S.env ((gather S c.keys configs).map (·.2)) := by
          have := List.mem_of_getElem? hi
          rw [hval, List.mem_cons] at this
          rcases this with h | h
          · exact absurd h (hne hmine)
          · exact h
        have hwf := valid_wf (env := S.env) (inputs := (gather S c.keys configs).map (·.2)) top htop
        refine ⟨top, htop, ?_, fun m' hm' => hmax m' (by rw [hval]; exact List.mem_cons_of_mem _ hm'), ?_⟩
        · rw [h2]
          show pruneD (c.newConf S R).m.data = _
          have : (c.newConf S R).m.data = top.data := by
            unfold Client.newConf
            split
            · unfold mutFromMerge
              rw [if_neg (by rw [hRe]; simp only; omega), hRe]
              rfl
            · rw [hRe]
          rw [this]; exact pruneD_of_wf hwf.data
        · have hncur : ¬ Current S.env.lag (validOf S.env ((c.allConfs S.env (gather S c.keys configs)).map (·.2))) (c.ownMsg S) :=
            fun h => hne hmine (hcur' _ h).symm
          have hmem := own_mem hS hinv hmine (gather S c.keys configs)
          have hq : (c.ownMsg S).seqno = c.seqno := ownMsg_seqno S c
          have hsh : (c.ownMsg S).sh = toLex (c.seqno, S.env.H (c.plain S)) := by
            show toLex ((c.ownMsg S).seqno, (c.ownMsg S).hash) = _
            rw [ownMsg_hash, hq]; rfl
          have hgb := goodBatch_of hnc
          have htail : ∀ m2 ∈ validOf S.env ((c.allConfs S.env (gather S c.keys configs)).map (·.2)),
              m2 ≠ c.ownMsg S → m2 ∈ validOf S.env ((gather S c.keys configs).map (·.2)) := fun m2 hm2 hn => by
            rw [hval, List.mem_cons] at hm2
            exact hm2.resolve_left hn
          unfold Current at hncur
          push Not at hncur
          by_cases hlist : ∀ c2 ∈ validOf S.env ((c.allConfs S.env (gather S c.keys configs)).map (·.2)),
              ∀ p ∈ c2.lagged, p.1 ≠ (c.ownMsg S).sh
          · obtain ⟨m2, hm2, hle⟩ := hncur hmem hlist
            refine ⟨m2, htail m2 hm2 ?_, .inr (by rw [hq] at hle; exact hle)⟩
            rintro rfl
            have := hS.lag1
            omega
          · push Not at hlist
            obtain ⟨m2, hm2, p, hp2, hpe⟩ := hlist
            refine ⟨m2, htail m2 hm2 ?_, .inl ⟨p, hp2, by rw [hpe, hsh]⟩⟩
            rintro rfl
            have := hgb.window _ hm2 p hp2
            rw [hpe] at this
            exact absurd this (lt_irrefl _)
  | push =>
    exfalso
    unfold Client.push at hc
    split at hc
    · exact hp hc
    · split at hc
      · split at hc
        · exact hp hc
        · dsimp only at hc
          split at hc
          · cases hc
          · exact hp hc
      all_goals exact hp hc
  | confirm s x =>
    left
    unfold Client.confirm at hc ⊢
    split at hc
    · rename_i hw
      refine ⟨hw.1, x, ?_⟩
      rw [if_pos hw, if_pos ⟨hw.1, rfl⟩]
    · exact absurd hc hp
  | dump => exact absurd hc hp
  | addKey k hi d _ => exact absurd hc (addKey_st S c k hi d hp)
  | removeKey k n d _ => exact absurd hc (removeKey_st S c k n d hp)
  | clearKeys d _ =>
    exfalso
    unfold Client.clearKeys at hc
    dsimp only at hc
    split at hc
    · exact dirty_pending (c := { c with keys := [] }) hp hc
    · exact hp hc
  | replaceKeys ks d _ => exact absurd hc (replaceKeys_st S c ks d hp)

/-! ## C32: confirming a push -/

/-- C32.  A push followed at once by its confirmation leaves nothing pending; the confirmed hash is
the current one. -/
theorem confirm_after_push {S : Sys} {c : Client} {s : Int} {m : Bytes} {obs : List Bytes}
    (h : (c.push S).2 = .ok (s, m, obs)) (hp : c.needsPush = true) {x : Bytes} (hx : x ≠ []) :
    ((c.push S).1.confirm s x).needsPush = false ∧
      ((c.push S).1.confirm s x).currentHashes = [x] ∧
      ((c.push S).1.confirm s x).content = (c.push S).1.content ∧
      ((c.push S).1.confirm s x).seqno = s := by
  obtain ⟨e1, d1, g1, _, _, g3, _⟩ := push_state h
  rw [needsPush_iff] at hp
  have hw : (c.push S).1.st = .waiting := by
    rw [g3]; split
    · rfl
    · rename_i hd
      cases hs : c.st with
      | clean => exact absurd hs hp
      | dirty => exact absurd hs hd
      | waiting => rfl
  have hq : (c.push S).1.conf.m.seqno = s := by rw [g1, e1]; exact refresh_seqno _
  unfold Client.confirm
  rw [if_pos ⟨hw, hq.symm⟩]
  refine ⟨rfl, ?_, ?_, ?_⟩
  · show (if x = [] then [] else [x]) = _; rw [if_neg hx]
  · show pruneD ((c.push S).1.setState .clean).conf.m.data = _
    rw [setState_conf]; rfl
  · show ((c.push S).1.setState .clean).conf.m.seqno = _
    rw [setState_conf]; exact hq

/-- C32.  Whatever happens between a push and its confirmation: the confirmation has an effect only if
the object still holds exactly the content that was pushed (and would publish the same bytes).
Otherwise - edited since, or changed by a merge - it is ignored and the later changes stay pending. -/
theorem stale_confirm_ignored {S : Sys} (hS : S.Good) {c c' : Client} (hr : Reach S c) {s : Int}
    {m : Bytes} {obs : List Bytes} (h : (c.push S).2 = .ok (s, m, obs))
    (hs : Steps S (c.push S).1 c') (x : Bytes) :
    c'.confirm s x = c' ∨
      (c'.st = .waiting ∧ c'.content = c.content ∧ c'.plain S = c.plain S ∧ c'.seqno = s) := by
  by_cases hc : c'.st = .waiting ∧ s = c'.conf.m.seqno
  · right
    have hr1 : Reach S (c.push S).1 := hr.step (.push c)
    obtain ⟨e1, d1, g1, _⟩ := push_state h
    have hq : (c.push S).1.seqno = s := by
      show (c.push S).1.conf.m.seqno = _; rw [g1, e1]; exact refresh_seqno _
    have hp : (c.push S).1.plain S = c.plain S := by
      show (c.push S).1.conf.ser S.env true = _; rw [g1]; exact ser_refresh (hr.inv hS).wf _ _
    have hd : (c.push S).1.content = c.content := by
      show pruneD (c.push S).1.conf.m.data = _
      rw [g1, refresh_data_eq (hr.inv hS).wf]; exact pruneD_of_wf (pruneD_wf (hr.inv hS).wf.data)
    obtain ⟨_, i2, i3⟩ := seqno_identifies_content hS hr1 d1 hs (by rw [hq]; exact hc.2.symm)
    exact ⟨hc.1, i2.trans hd, i3.trans hp, hc.2.symm⟩
  · left
    unfold Client.confirm
    rw [if_neg hc]

/-- C32.  In particular an edit made after a push is never confirmed by that push: whatever happens
before and after the edit, confirming the old seqno does nothing. -/
theorem edit_outlives_old_confirm {S : Sys} (hS : S.Good) {c c1 c2 : Client} (hr : Reach S c) {s : Int}
    {m : Bytes} {obs : List Bytes} (h : (c.push S).2 = .ok (s, m, obs))
    (hs1 : Steps S (c.push S).1 c1) {d : Dict} (hd : typedD d = true) (he : (c1.edit S d).2 = .ok ())
    (hs2 : Steps S (c1.edit S d).1 c2) (x : Bytes) : c2.confirm s x = c2 := by
  have hr1 : Reach S (c.push S).1 := hr.step (.push c)
  have hr2 : Reach S c1 := hr1.steps hs1
  have hstep : Step S c1 (c1.edit S d).1 := .edit c1 d hd (by rw [he]; rfl)
  obtain ⟨e1, d1, g1, _⟩ := push_state h
  have hq : (c.push S).1.seqno = s := by
    show (c.push S).1.conf.m.seqno = _; rw [g1, e1]; exact refresh_seqno _
  have hm1 := seqno_never_decreases hS hr1 hs1
  have hm2 := seqno_never_decreases hS (hr2.step hstep) hs2
  have hlt : s < (c1.edit S d).1.seqno := by
    by_cases hdirty : c1.st = .dirty
    · have hne : c1.seqno ≠ s := fun hh =>
        (seqno_identifies_content hS hr1 d1 hs1 (by rw [hq]; exact hh)).1 hdirty
      have hm3 := (step_change hS (hr2.inv hS) hstep).mono
      omega
    · have hk : (c1.dirty S).2 = .ok () := by
        by_contra hk
        rw [edit_eq_err hk] at he; exact hk he
      rw [edit_eq_ok hk]
      rcases dirty_fst (S := S) (c := c1) with h1 | ⟨_, _, _, h1⟩
      · exfalso
        have := (dirty_ok hk).1
        rw [h1] at this; exact hdirty this
      · rw [h1]
        show s < (c1.conf.increment S.env).m.seqno
        rw [increment_seqno]
        unfold Client.seqno at hm1 hq
        omega
  unfold Client.confirm
  rw [if_neg]
  rintro ⟨_, hh⟩
  have : c2.seqno = s := hh.symm
  omega

/-! ## C33: read-only objects -/

/-- C33.  An object with a verifier and without a signing key never has anything to push, whatever
calls are made on it; modifying it throws and changes nothing; and a push returns no hashes to
delete. -/
theorem readonly_never_pending {S : Sys} (hS : S.Good) {c : Client} (hr : Reach S c)
    (hro : S.env.readonly = true) :
    c.needsPush = false ∧ (∀ d, (c.edit S d).1 = c ∧ (c.edit S d).2 = .err .foreign) ∧
      (∀ s m obs, (c.push S).2 = .ok (s, m, obs) → obs = []) := by
  have hst := ((hr.inv hS).ro hro).1
  refine ⟨needsPush_false_iff.2 hst, fun d => ?_, fun s m obs h => ?_⟩
  · have hd : c.dirty S = (c, .err .foreign) := by
      unfold Client.dirty
      rw [if_neg (by rw [hst]; exact fun h => CState.noConfusion h), hro]; rfl
    unfold Client.edit
    rw [hd]; exact ⟨rfl, rfl⟩
  · obtain ⟨_, _, h3, _⟩ := push_eq h
    rw [h3, hro]; rfl

/-! ## A concrete execution -/

/-- A config with a verifier and a signer, toy primitives, no compression and no protobuf. -/
def exSys : Sys :=
  { env := exEnvH, P := toyPrims, domain := [85], zip := id, unzip := some, proto := none }

theorem exSys_good : exSys.Good where
  sane := exEnvH_sane
  lag1 := by decide
  lagU := by decide
  prims := toyPrims_good
  dom := by decide
  zip := fun _ => rfl
  sig := fun v f hv hf b => by
    simp only [exSys, exEnvH, exEnv, Option.some.injEq] at hv hf
    rw [← hv, ← hf]; simp
  proto := fun w u h => by cases h

def exKey : Bytes := List.replicate 32 1

/-- New object with a key; edited; pushed; confirmed; edited again. -/
def exC0 : Client := ((Client.new exSys).addKey exSys exKey true false).1
def exC1 : Client := (exC0.edit exSys exData).1
def exC2 : Client := (exC1.push exSys).1
def exC3 : Client := exC2.confirm 1 [104]
def exC4 : Client := (exC3.edit exSys [([97], .scalar (.int 6))]).1

theorem exC0_reach : Reach exSys exC0 := .step .new (.addKey _ _ _ _ (by decide +kernel))
theorem exC1_reach : Reach exSys exC1 :=
  .step exC0_reach (.edit _ _ (by decide +kernel) (by decide +kernel))
theorem exC2_reach : Reach exSys exC2 := .step exC1_reach (.push _)
theorem exC3_reach : Reach exSys exC3 := .step exC2_reach (.confirm _ _ _)
theorem exC4_steps : Steps exSys exC2 exC4 :=
  .tail (.tail (.refl _) (.confirm _ 1 [104])) (.edit _ _ (by decide +kernel) (by decide +kernel))

/-- C29-C32 on it: a push that succeeds, a state that is not dirty, pending changes confirmed, an edit
after the push, a stale confirmation. -/
example : Reach exSys exC1 ∧ Steps exSys exC2 exC4 ∧ exC1.needsPush = true ∧
    ((exC1.push exSys).2.toOption.map fun r => (r.1, r.2.2)) = some (1, []) ∧
    exC2.st = .waiting ∧ exC3.needsPush = false ∧ exC3.currentHashes = [[104]] ∧
    exC4.st = .dirty ∧ exC4.seqno = 2 ∧ exC4.old = [[104]] ∧ exC4.confirm 1 [105] = exC4 :=
  ⟨exC1_reach, exC4_steps, by decide +kernel⟩

/-- A second object reads what the first pushed, edits, and pushes: the first, which has also edited,
merges. -/
def exM1 : Bytes := match (exC1.push exSys).2 with
  | .ok (_, m, _) => m
  | _ => []
def exD1 : Client := (exC0.merge exSys [([104], exM1)]).1
def exD2 : Client := (exD1.edit exSys [([97], .scalar (.int 5)), ([122], .scalar (.int 1))]).1
def exM2 : Bytes := match (exD2.push exSys).2 with
  | .ok (_, m, _) => m
  | _ => []

/-- C31: a merge with a descendant of what was pushed ends the pending state (the object was waiting);
a merge with a conflicting one does not. -/
example : exD1.st = .clean ∧ exD1.content = exC1.content ∧ exD1.curr = [104] ∧
    exC2.needsPush = true ∧ (exC2.merge exSys [([106], exM2)]).1.needsPush = false ∧
    (exC2.merge exSys [([106], exM2)]).1.content = exD2.content ∧
    (exC4.merge exSys [([106], exM2)]).1.needsPush = true ∧
    (exC4.merge exSys [([106], exM2)]).1.content =
      [([97], .scalar (.int 6)), ([122], .scalar (.int 1))] ∧
    (exC4.merge exSys [([106], exM2)]).1.seqno = 3 := by decide +kernel

/-- C33: a read-only object. -/
def exSysRO : Sys := { exSys with env := { exEnvH with signer := none } }
def exR0 : Client := ((Client.new exSysRO).addKey exSysRO exKey true true).1
example : exSysRO.env.readonly = true ∧ Reach exSysRO exR0 ∧
    (exR0.merge exSysRO [([104], exM1)]).1.content = exC1.content ∧
    (exR0.merge exSysRO [([104], exM1)]).2 = .ok [[104]] ∧
    ((exR0.merge exSysRO [([104], exM1)]).1.push exSysRO).2.isOk = true :=
  ⟨by decide +kernel, .step .new (.addKey _ _ _ _ (by decide +kernel)), by decide +kernel⟩

/-- C29 needs fair messages: a (signed) message with a negative seqno takes a new object below 0. -/
def exNeg : Bytes := (⟨{ Msg.empty with seqno := -3, data := [([97], .scalar (.int 1))] }, some []⟩ : Conf).ser exEnvH true
theorem negative_seqno_lowers :
    (exC0.mergeCore exSys [([104], exNeg)]).1.seqno = -3 ∧ exC0.seqno = 0 := by decide +kernel

end Verif
