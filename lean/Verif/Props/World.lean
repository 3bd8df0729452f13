import Verif.Props.Recovery

/-!
# The devices of an account whose messages do not collide: listed histories are transitive (C131)
-/

namespace Verif

/-- No two different serialised configs among `W` have the same hash. -/
def Collisionless (S : Sys) (W : Bytes → Prop) : Prop :=
  ∀ a b, W a → W b → S.env.H a = S.env.H b → a = b

/-- The states of the devices of one account.  `W` is the set of all serialised configs that occur
anywhere: what the devices hold, and what they receive. -/
inductive Node (S : Sys) (W : Bytes → Prop) : Client → Prop
  | new : W ((Client.new S).plain S) → Node S W (Client.new S)
  | step {c c' : Client} : Node S W c → LocalStep S c c' → W (c'.plain S) → Node S W c'
  | merge {c : Client} {configs : List (Bytes × Bytes)} (src : Bytes → Client) : Node S W c →
      (∀ p ∈ gather S c.keys configs, (∃ m, parseMsg S.env false p.2 = .ok m) → Node S W (src p.2)) →
      (∀ p ∈ gather S c.keys configs, (∃ m, parseMsg S.env false p.2 = .ok m) →
        p.2 = (src p.2).plain S) →
      (∀ p ∈ gather S c.keys configs, W p.2) →
      (c.merge S configs).2.safe = true → W ((c.merge S configs).1.plain S) →
      Node S W (c.merge S configs).1
  | restore {c c' : Client} {ord : List Bytes} : Node S W c → S.env.verifier = none →
      S.env.signer = none → ord.Perm (if S.env.readonly then [] else c.old) →
      Client.restore S (c.dumpBytes S ord) = .ok c' → W (c'.plain S) → Node S W c'

theorem Node.held {S : Sys} {W : Bytes → Prop} {c : Client} (h : Node S W c) : W (c.plain S) := by
  cases h <;> assumption

theorem allConfs_W {S : Sys} {W : Bytes → Prop} {c : Client} (hc : W (c.plain S))
    {inc : List (Bytes × Bytes)} (h : ∀ p ∈ inc, W p.2) :
    ∀ b ∈ (c.allConfs S.env inc).map (·.2), W b := by
  intro b hb
  unfold Client.allConfs at hb
  rw [List.map_append, List.mem_append] at hb
  rcases hb with hb | hb
  · split at hb
    · simp only [List.map_cons, List.map_nil, List.mem_singleton] at hb
      rw [hb]; exact hc
    · cases hb
  · obtain ⟨p, hp, rfl⟩ := List.mem_map.1 hb
    exact h p hp

theorem Collisionless.batch {S : Sys} {W : Bytes → Prop} (hW : Collisionless S W) {l : List Bytes}
    (h : ∀ b ∈ l, W b) : NoCollision S.env l := fun a ha b hb he => hW a b (h a ha) (h b hb) he

theorem Node.peer {S : Sys} {W : Bytes → Prop} (hW : Collisionless S W) {c : Client} (h : Node S W c) :
    Peer S c := by
  induction h with
  | new => exact .new
  | step _ hs _ ih => exact .step ih hs
  | merge src hc _ h2 h3 h4 _ ih ihs =>
    exact .merge src ih ihs h2 (hW.batch (allConfs_W hc.held h3)) h4
  | restore _ h1 h2 h3 h4 _ ih => exact .restore ih h1 h2 h3 h4

/-! ### Histories -/

def Lists (l : List (SH × BtDict)) (s : SH) : Prop := ∃ p ∈ l, p.1 = s

/-- A list of ancestors that contains a config contains what that one lists, unless too old. -/
def Trans (S : Sys) (N : Client → Prop) (q : Int) (l : List (SH × BtDict)) : Prop :=
  ∀ d, N d → Lists l (d.ownMsg S).sh → ∀ r ∈ (d.ownMsg S).lagged, q - S.env.lag < r.1.1 → Lists l r.1

theorem own_window (S : Sys) (c : Client) : ∀ p ∈ (c.ownMsg S).lagged,
    p ∈ c.conf.m.lagged ∧ c.conf.m.seqno - S.env.lag < p.1.1 ∧ p.1.1 < c.conf.m.seqno := by
  intro p hp
  have hp : p ∈ c.conf.refresh.m.lagged.filter (lagLive c.conf.refresh.m.seqno S.env.lag) := hp
  rwa [mem_lagLive, refresh_lagged, refresh_seqno] at hp

theorem own_lists {S : Sys} {c : Client} {s : SH} (h : Lists c.conf.m.lagged s)
    (h1 : c.conf.m.seqno - S.env.lag < s.1) (h2 : s.1 < c.conf.m.seqno) : Lists (c.ownMsg S).lagged s := by
  obtain ⟨p, hp, he⟩ := h
  refine ⟨p, ?_, he⟩
  show p ∈ c.conf.refresh.m.lagged.filter (lagLive c.conf.refresh.m.seqno S.env.lag)
  rw [mem_lagLive, refresh_lagged, refresh_seqno, he]
  exact ⟨hp, h1, h2⟩

theorem own_sh_fst (S : Sys) (c : Client) : (c.ownMsg S).sh.1 = c.conf.m.seqno := ownMsg_seqno S c

theorem Trans.own {S : Sys} {N : Client → Prop} {c : Client}
    (h : Trans S N c.conf.m.seqno c.conf.m.lagged) :
    Trans S N (c.ownMsg S).seqno (c.ownMsg S).lagged := by
  intro d hd ⟨p, hp, he⟩ r hr hq
  rw [ownMsg_seqno] at hq
  obtain ⟨p1, p2, p3⟩ := own_window S c p hp
  obtain ⟨r1, r2, r3⟩ := own_window S d r hr
  have := own_sh_fst S d
  rw [← he] at this
  exact own_lists (h d hd ⟨p, p1, he⟩ r hr hq) hq (by omega)

theorem lists_incr {lag : Int} {m : Msg} (hs : KSorted m.lagged) (hw : ∀ p ∈ m.lagged, p.1.1 < m.seqno)
    (s : SH) : Lists (incrementImpl lag m).m.lagged s ↔
      (Lists m.lagged s ∧ m.seqno - lag < s.1) ∨ s = m.sh := by
  have hl : (incrementImpl lag m).m.lagged =
      memplace m.sh m.diff (lagsForNext m.seqno lag m.lagged) := rfl
  rw [hl, memplace_last (fun p hp => sh_lt_of_fst (hw p ((lagsForNext_sublist _ _ _).subset hp)))]
  constructor
  · rintro ⟨p, hp, rfl⟩
    rw [List.mem_append, List.mem_singleton] at hp
    rcases hp with hp | rfl
    · rw [mem_lagsForNext hs hw] at hp
      exact .inl ⟨⟨p, hp.1, rfl⟩, hp.2⟩
    · exact .inr rfl
  · rintro (⟨⟨p, hp, rfl⟩, h⟩ | rfl)
    · exact ⟨p, List.mem_append_left _ ((mem_lagsForNext hs hw).2 ⟨hp, h⟩), rfl⟩
    · exact ⟨_, List.mem_append_right _ List.mem_cons_self, rfl⟩

theorem Trans.incr {S : Sys} {N : Client → Prop} {m : Msg} (hs : KSorted m.lagged)
    (hw : ∀ p ∈ m.lagged, p.1.1 < m.seqno) (h : Trans S N m.seqno m.lagged)
    (hown : ∀ d, N d → (d.ownMsg S).sh = m.sh → ∀ r ∈ (d.ownMsg S).lagged, Lists m.lagged r.1) :
    Trans S N (m.seqno + 1) (incrementImpl S.env.lag m).m.lagged := by
  intro d hd hl r hr hq
  rw [lists_incr hs hw] at hl ⊢
  left
  refine ⟨?_, by omega⟩
  rcases hl with ⟨hl, _⟩ | hl
  · exact h d hd hl r hr (by omega)
  · exact hown d hd hl r hr

/-- A config with seqno 0 has no history. -/
theorem Peer.zero {S : Sys} (hS : S.Good) (hro : S.env.readonly = false) {c : Client} (h : Peer S c) :
    c.conf.m.seqno = 0 → c.conf.m.lagged = [] := by
  induction h with
  | new => exact fun _ => rfl
  | @step c c' hc hs ih =>
    have hq := ((hc.inv hS hro).reach.inv hS).seq
    intro h0
    cases hs.move with
    | keep h1 _ =>
      rcases h1 with h1 | h1
      · rw [h1] at h0 ⊢; exact ih h0
      · rw [h1, refresh_seqno] at h0; rw [h1, refresh_lagged]; exact ih h0
    | inc _ h2 _ => omega
    | mod _ h1 h2 _ => rw [h1]; exact ih (by omega)
  | @merge c configs src hc h1 h2 h3 h4 ih _ =>
    have hi := (hc.inv hS hro)
    have hci := hi.reach.inv hS
    have hfair : ∀ p ∈ gather S c.keys configs, Fair S.env p.2 := by
      intro p hpm m hm
      have := ((h1 p hpm ⟨m, hm⟩).inv hS hro).own_fair hS hro
      rw [← h2 p hpm ⟨m, hm⟩] at this
      exact this m hm
    have hkeep : ∀ x : Client, (x.conf = c.conf ∨ x.conf = c.conf.refresh) →
        x.conf.m.seqno = 0 → x.conf.m.lagged = [] := by
      intro x hx h0
      rcases hx with hx | hx
      · rw [hx] at h0 ⊢; exact ih h0
      · rw [hx, refresh_seqno] at h0; rw [hx, refresh_lagged]; exact ih h0
    rcases merge_cases h4 with ⟨e, _, hx | hx⟩ | ⟨R, bad, _, hR, hm⟩
    · rw [hx]; exact ih
    · rw [hx]; exact hkeep { c with conf := if c.hasMine then c.conf.refresh else c.conf }
        (by dsimp only; split; exact .inr rfl; exact .inl rfl)
    rw [hm]
    have hq := hci.seq
    rcases (absorb_cases hS hci hfair h3 hR).2 with hx | ⟨hu, _, hlt, _, hx⟩ |
        ⟨top, i, x, y, hi, hmax, hone, hRe, _, hlt, _, hx⟩
    · rw [hx]
      refine hkeep (c.noted _ R bad) ?_
      unfold Client.noted; dsimp only
      split
      · exact .inr rfl
      · exact .inl rfl
    · intro h0
      exfalso
      rw [hx, setState_conf] at h0
      dsimp only at h0
      have e1 : (c.mergedConf S R).m = R := by
        unfold Client.mergedConf Client.newConf
        by_cases hd : c.st = .dirty
        · rw [if_pos hd, if_pos hd]; unfold mutFromMerge; rw [if_pos hu]
        · rw [if_neg hd, if_neg hd]; rfl
      rw [e1] at h0
      omega
    · intro h0
      rw [hx] at h0
      dsimp only at h0
      omega
  | @restore c c' ord hc h1 h2 h3 h4 ih =>
    have hi := (hc.inv hS hro)
    have hci := hi.reach.inv hS
    have hn : ord.Nodup := by
      rw [h3.nodup_iff]
      split
      · exact List.nodup_nil
      · exact hci.old
    have hq := hci.seq
    have hsr := seqno_restored hS hi.reach hn h4
    obtain ⟨rfl, _⟩ := restore_inv hS hci hn h4
    intro h0
    unfold Client.seqno at hsr
    by_cases hd : c.st = .dirty
    · rw [if_pos hd] at hsr; omega
    · rw [if_neg hd] at hsr
      have hcf : (c.reloaded S ord).conf = ⟨dumpedMsg S.env c.conf true, none⟩ := by
        unfold Client.reloaded; simp only [if_neg hd]
      rw [hcf]
      show c.conf.refresh.m.lagged.filter _ = []
      rw [refresh_lagged, ih (by omega)]; rfl

/-- What the result of a merge lists: the messages merged, and what they list. -/
theorem merged_lists_iff {env : Env} (hlag : 1 ≤ env.lag) {inputs : List Bytes}
    {R : Msg} {bad : List Nat} (h : mergeMsgs env inputs = .ok (R, bad)) (hu : R.unmerged = -1)
    (hc : NoCollision env inputs) {s : SH} : Lists R.lagged s ↔
      ∃ c, Current env.lag (validOf env inputs) c ∧ (s = c.sh ∨ Lists c.lagged s) := by
  constructor
  · rintro ⟨p, hp, rfl⟩
    obtain ⟨_, hpp⟩ := mergeMsgs_ok_iff.1 ⟨bad, h⟩
    obtain ⟨hne, ho⟩ := mergeParsed_pre hpp
    have hg := goodBatch_of hc
    obtain ⟨top, htop, hmax, hcase⟩ := mergeParsed_cases hlag hne hg ho
    rcases hcase with ⟨_, i, _, hR⟩ | ⟨hro, rest, hsort, hR⟩
    · rw [hR] at hpp; cases hpp; simp only at hu; omega
    rw [hR] at hpp
    obtain ⟨_, d, _, _, _, r3, _⟩ := mergeKept_ok hpp
    have hkept : ∀ m, m ∈ top :: rest ↔ Current env.lag (validOf env inputs) m := fun m => by
      rw [← hsort]; exact (keptSorted_spec hg).2 m
    rw [r3] at hp
    obtain ⟨e, he, rfl⟩ := List.mem_map.1 hp
    obtain ⟨m, hm, _, _, hcs⟩ := replay_mem (fun m hm => valid_wf m ((hkept m).1 hm).1) he
    refine ⟨m, (hkept m).1 hm, ?_⟩
    rcases hcs with ⟨h1, _⟩ | h1
    · exact .inl h1
    · exact .inr ⟨_, h1, rfl⟩
  · rintro ⟨c, hcur, hs⟩
    exact merged_lists hlag h hu hc hcur hs

/-- Configs with the same seqno and hash are the same. -/
theorem Node.same {S : Sys} (hS : S.Good) (hro : S.env.readonly = false) {W : Bytes → Prop}
    (hW : Collisionless S W) {c d : Client} (hc : Node S W c) (hd : Node S W d)
    (h : (d.ownMsg S).sh = (c.ownMsg S).sh) : d.ownMsg S = c.ownMsg S := by
  have hp : d.plain S = c.plain S := hW _ _ hd.held hc.held (congrArg (fun x : SH => x.2) h)
  have h1 := ((hd.peer hW).inv hS hro).read hS hro
  rw [hp, ((hc.peer hW).inv hS hro).read hS hro] at h1
  exact (Out.ok.inj h1).symm

theorem Node.trans {S : Sys} (hS : S.Good) (hro : S.env.readonly = false) {W : Bytes → Prop}
    (hW : Collisionless S W) {c : Client} (h : Node S W c) :
    Trans S (Node S W) c.conf.m.seqno c.conf.m.lagged := by
  induction h with
  | new => rintro d hd ⟨p, hp, _⟩; cases hp
  | @step c c' hc hs hw ih =>
    have hi := (hc.peer hW).inv hS hro
    have hci := hi.reach.inv hS
    cases hs.move with
    | keep h1 _ =>
      rcases h1 with h1 | h1
      · rw [h1]; exact ih
      · rw [h1, refresh_seqno, refresh_lagged]; exact ih
    | mod _ h1 h2 _ => rw [h1, h2]; exact ih
    | inc h1 h2 _ =>
      have hwf := hci.wf.hashed hS.sane (env := S.env)
      have hq : (c.conf.hashed S.env).m.seqno = c.conf.m.seqno := hashed_seqno
      have hl : (c.conf.hashed S.env).m.lagged = c.conf.m.lagged := hashed_lagged
      rw [h1, h2, ← hq]
      refine Trans.incr hwf.lagS hwf.window (by rw [hq, hl]; exact ih) fun d hd he r hr => ?_
      rw [hl]
      by_cases h0 : c.seqno = 0
      · exfalso
        have hd0 : d.conf.m.seqno = 0 := by
          rw [← own_sh_fst S d, he]
          show (c.conf.hashed S.env).m.seqno = 0
          rw [hq]; exact h0
        have := (own_window S d r hr).1
        rw [(hd.peer hW).zero hS hro hd0] at this
        cases this
      · have : (d.ownMsg S).sh = (c.ownMsg S).sh := by
          rw [he]
          show toLex ((c.conf.hashed S.env).m.seqno, (c.conf.hashed S.env).m.hash) =
            toLex ((c.ownMsg S).seqno, S.env.H (c.plain S))
          rw [hi.hashed_hash h0, hq, ownMsg_seqno]
        rw [Node.same hS hro hW hc hd this] at hr
        exact ⟨r, (own_window S c r hr).1, rfl⟩
  | @merge c configs src hc h1 h2 h3 h4 hw ih ihs =>
    have hi := (hc.peer hW).inv hS hro
    have hci := hi.reach.inv hS
    have hcol := hW.batch (allConfs_W hc.held h3)
    have hfair : ∀ p ∈ gather S c.keys configs, Fair S.env p.2 := by
      intro p hpm m hm
      have := (((h1 p hpm ⟨m, hm⟩).peer hW).inv hS hro).own_fair hS hro
      rw [← h2 p hpm ⟨m, hm⟩] at this
      exact this m hm
    have hsrc : ∀ m ∈ validOf S.env ((c.allConfs S.env (gather S c.keys configs)).map (·.2)),
        ∃ e, Node S W e ∧ Trans S (Node S W) (e.ownMsg S).seqno (e.ownMsg S).lagged ∧ m = e.ownMsg S := by
      intro m hm
      rw [hci.valid_all hS, List.mem_append] at hm
      rcases hm with hm | hm
      · split at hm
        · rw [List.mem_singleton] at hm
          exact ⟨c, hc, ih.own, hm⟩
        · cases hm
      · obtain ⟨b, hb, hpm⟩ := mem_validOf.1 hm
        obtain ⟨p, hp, rfl⟩ := List.mem_map.1 hb
        have hN := h1 p hp ⟨m, hpm⟩
        refine ⟨src p.2, hN, (ihs p hp ⟨m, hpm⟩).own, ?_⟩
        have hrd := ((hN.peer hW).inv hS hro).read hS hro
        rw [← h2 p hp ⟨m, hpm⟩, hpm] at hrd
        exact Out.ok.inj hrd
    have hkeep : ∀ x : Client, (x.conf = c.conf ∨ x.conf = c.conf.refresh) →
        Trans S (Node S W) x.conf.m.seqno x.conf.m.lagged := by
      intro x hx
      rcases hx with hx | hx
      · rw [hx]; exact ih
      · rw [hx, refresh_seqno, refresh_lagged]; exact ih
    rcases merge_cases h4 with ⟨e, _, hx | hx⟩ | ⟨R, bad, _, hR, hm⟩
    · rw [hx]; exact ih
    · rw [hx]; exact hkeep { c with conf := if c.hasMine then c.conf.refresh else c.conf }
        (by dsimp only; split; exact .inr rfl; exact .inl rfl)
    rw [hm]
    rcases (absorb_cases hS hci hfair hcol hR).2 with hx | ⟨hu, _, hlt, ⟨top, ht, hmax, hseq⟩, hx⟩ |
        ⟨top, i, x, y, hgi, hmax, hone, hRe, _, hlt, _, hx⟩
    · rw [hx]
      refine hkeep (c.noted _ R bad) ?_
      unfold Client.noted; dsimp only
      split
      · exact .inr rfl
      · exact .inl rfl
    · rw [hx, setState_conf]
      have e1 : (c.mergedConf S R).m = R := by
        unfold Client.mergedConf Client.newConf
        by_cases hd : c.st = .dirty
        · rw [if_pos hd, if_pos hd]; unfold mutFromMerge; rw [if_pos hu]
        · rw [if_neg hd, if_neg hd]; rfl
      dsimp only
      rw [e1]
      intro d hd hl r hr hq
      rw [merged_lists_iff hS.lag1 hR hu hcol] at hl ⊢
      obtain ⟨m, hcur, hml⟩ := hl
      obtain ⟨e, hN, hT, rfl⟩ := hsrc m hcur.1
      refine ⟨_, hcur, .inr ?_⟩
      rcases hml with hml | hml
      · rw [Node.same hS hro hW hN hd hml] at hr
        exact ⟨r, hr, rfl⟩
      · have := sh_le_seqno (hmax _ hcur.1)
        exact hT d hd hml r hr (by omega)
    · rw [hx]
      dsimp only
      obtain ⟨e, hN, hT, he⟩ := hsrc top (List.mem_of_getElem? hgi)
      have hwf := valid_wf top (List.mem_of_getElem? hgi)
      unfold Client.newConf
      by_cases hd : c.st = .dirty
      · rw [if_pos hd]
        have hune : R.unmerged ≠ -1 := by rw [hRe]; simp only; omega
        unfold mutFromMerge
        rw [if_neg hune]
        have hq : (incrementImpl S.env.lag R).m.seqno = R.seqno + 1 := rfl
        rw [hq]
        have hl : R.lagged = top.lagged := by rw [hRe]
        have hs : R.seqno = top.seqno := by rw [hRe]
        have hsh : R.sh = top.sh := by rw [hRe]; rfl
        refine Trans.incr (by rw [hl]; exact hwf.lagS) ?_ ?_ ?_
        · rw [hl, hs]; exact (goodBatch_of hcol).window top (List.mem_of_getElem? hgi)
        · rw [hl, hs, he]; exact hT
        · intro d hd hde r hr
          rw [hsh, he] at hde
          rw [Node.same hS hro hW hN hd hde] at hr
          rw [hl, he]
          exact ⟨r, hr, rfl⟩
      · rw [if_neg hd]
        dsimp only
        rw [hRe]
        dsimp only
        rw [he]; exact hT
  | @restore c c' ord hc hv hsg hord hr hw ih =>
    have hi := (hc.peer hW).inv hS hro
    have hci := hi.reach.inv hS
    have hn : ord.Nodup := by
      rw [hord.nodup_iff]
      split
      · exact List.nodup_nil
      · exact hci.old
    have henv : S.env.unsigned = S.env := by
      unfold Env.unsigned
      rw [← hv, ← hsg]
    have hdm : ∀ t, (dumpedMsg S.env c.conf t).sh = (c.ownMsg S).sh ∧
        (dumpedMsg S.env c.conf t).lagged = (c.ownMsg S).lagged := by
      intro t
      have h1 := parse_dumped hS hci t
      have h2 := (hci.published_rw hS hro).parse hS.sane hci.wf t
      have h3 : c.conf.ser S.env false = c.plain S := by
        unfold Client.plain Conf.ser
        rw [ser_unsigned, henv]
      rw [henv, h3] at h1
      rw [h1] at h2
      rw [Out.ok.inj h2]
      exact ⟨rfl, rfl⟩
    have hwf := valid_wf (env := S.env) (c.ownMsg S)
      (mem_validOf.2 ⟨c.plain S, List.mem_singleton.2 rfl, hi.read hS hro⟩)
    obtain ⟨rfl, _⟩ := restore_inv hS hci hn hr
    have hq : ∀ t, (dumpedMsg S.env c.conf t).seqno = (c.ownMsg S).seqno := fun t =>
      congrArg (fun x : SH => x.1) (hdm t).1
    by_cases hd : c.st = .dirty
    · have hcf : (c.reloaded S ord).conf =
          incrementImpl S.env.lag { dumpedMsg S.env c.conf false with unmerged := 0 } := by
        unfold Client.reloaded; simp only [if_pos hd]
      rw [hcf]
      refine Trans.incr (m := { dumpedMsg S.env c.conf false with unmerged := 0 }) ?_ ?_ ?_ ?_
      · show KSorted (dumpedMsg S.env c.conf false).lagged
        rw [(hdm false).2]; exact hwf.lagS
      · show ∀ p ∈ (dumpedMsg S.env c.conf false).lagged, p.1.1 < (dumpedMsg S.env c.conf false).seqno
        rw [(hdm false).2, hq, ownMsg_seqno]
        exact fun p hp => (own_window S c p hp).2.2
      · show Trans S _ (dumpedMsg S.env c.conf false).seqno (dumpedMsg S.env c.conf false).lagged
        rw [(hdm false).2, hq]; exact ih.own
      · intro d hdn hde r hr
        have hde : (d.ownMsg S).sh = (dumpedMsg S.env c.conf false).sh := hde
        show Lists (dumpedMsg S.env c.conf false).lagged r.1
        rw [(hdm false).1] at hde
        rw [Node.same hS hro hW hc hdn hde] at hr
        rw [(hdm false).2]
        exact ⟨r, hr, rfl⟩
    · have hcf : (c.reloaded S ord).conf = ⟨dumpedMsg S.env c.conf true, none⟩ := by
        unfold Client.reloaded; simp only [if_neg hd]
      rw [hcf]
      show Trans S _ (dumpedMsg S.env c.conf true).seqno (dumpedMsg S.env c.conf true).lagged
      rw [(hdm true).2, hq]; exact ih.own

/-- C131.  The histories listed by messages of the devices of an account are transitive: a message that
lists another one lists what that one lists, unless it is `lag` or more ahead of it. -/
theorem histories_closed {S : Sys} (hS : S.Good) (hro : S.env.readonly = false) {W : Bytes → Prop}
    (hW : Collisionless S W) {inputs : List Bytes}
    (h : ∀ b ∈ inputs, (∃ m, parseMsg S.env false b = .ok m) → ∃ e, Node S W e ∧ b = e.plain S) :
    HistoryClosed S.env.lag (validOf S.env inputs) := by
  have hn : ∀ m ∈ validOf S.env inputs, ∃ e, Node S W e ∧ m = e.ownMsg S := by
    intro m hm
    obtain ⟨b, hb, hpm⟩ := mem_validOf.1 hm
    obtain ⟨e, hN, he⟩ := h b hb ⟨m, hpm⟩
    have hrd := ((hN.peer hW).inv hS hro).read hS hro
    rw [← he, hpm] at hrd
    exact ⟨e, hN, Out.ok.inj hrd⟩
  intro a ha b hb hl q hq hlt
  obtain ⟨ea, hNa, rfl⟩ := hn a ha
  obtain ⟨eb, hNb, rfl⟩ := hn b hb
  exact (hNa.trans hS hro hW).own eb hNb hl q hq hlt

/-- What a device of the account does after the moment `c0`. -/
inductive Onward (S : Sys) (W : Bytes → Prop) (c0 : Client) : Client → Prop
  | start : Onward S W c0 c0
  | call {c c' : Client} : Onward S W c0 c → LocalStep S c c' → W (c'.plain S) → Onward S W c0 c'
  | merge {c : Client} {configs : List (Bytes × Bytes)} (src : Bytes → Client) : Onward S W c0 c →
      (∀ p ∈ gather S c.keys configs, (∃ m, parseMsg S.env false p.2 = .ok m) → Node S W (src p.2)) →
      (∀ p ∈ gather S c.keys configs, (∃ m, parseMsg S.env false p.2 = .ok m) →
        p.2 = (src p.2).plain S) →
      (∀ p ∈ gather S c.keys configs, W p.2) →
      (c.merge S configs).2.safe = true → W ((c.merge S configs).1.plain S) →
      Onward S W c0 (c.merge S configs).1
  | restart {c c' : Client} {ord : List Bytes} : Onward S W c0 c → S.env.verifier = none →
      S.env.signer = none → ord.Perm (if S.env.readonly then [] else c.old) →
      Client.restore S (c.dumpBytes S ord) = .ok c' → W (c'.plain S) → Onward S W c0 c'

theorem Onward.node {S : Sys} {W : Bytes → Prop} {c0 c : Client} (h : Onward S W c0 c)
    (h0 : Node S W c0) : Node S W c := by
  induction h with
  | start => exact h0
  | call _ hs hw ih => exact .step ih hs hw
  | merge src _ h1 h2 h3 h4 h5 ih => exact .merge src ih h1 h2 h3 h4 h5
  | restart _ h1 h2 h3 h4 h5 ih => exact .restore ih h1 h2 h3 h4 h5

theorem Onward.life {S : Sys} (hS : S.Good) (hro : S.env.readonly = false) {W : Bytes → Prop}
    (hW : Collisionless S W) {c0 c : Client} (h : Onward S W c0 c) (h0 : Node S W c0) : Life S c0 c := by
  induction h with
  | start => exact .start
  | call _ hs _ ih => exact .call ih hs
  | @merge c configs src hc h1 h2 h3 h4 _ ih =>
    have hN := hc.node h0
    refine .merge src ih (fun p hp hm => (h1 p hp hm).peer hW) h2
      (hW.batch (allConfs_W hN.held h3)) h4 (histories_closed hS hro hW fun b hb hm => ?_)
    unfold Client.allConfs at hb
    rw [List.map_append, List.mem_append] at hb
    rcases hb with hb | hb
    · split at hb
      · simp only [List.map_cons, List.map_nil, List.mem_singleton] at hb
        exact ⟨c, hN, hb⟩
      · cases hb
    · obtain ⟨p, hp, rfl⟩ := List.mem_map.1 hb
      exact ⟨src p.2, h1 p hp hm, h2 p hp hm⟩
  | restart _ h1 h2 h3 h4 _ ih => exact .restart ih h1 h2 h3 h4

/-- C131.  What a device publishes lists everything it held before (without unpublished modifications),
unless it is `lag` or more ahead; in between it may have merged anything the other devices published.
So no device ever forgets what it had taken over. -/
theorem history_kept {S : Sys} (hS : S.Good) (hro : S.env.readonly = false) {W : Bytes → Prop}
    (hW : Collisionless S W) {c0 c : Client} (h0 : Node S W c0) (hd : c0.st ≠ .dirty)
    (hs : c0.seqno ≠ 0) (h : Onward S W c0 c) :
    ∃ M, parseMsg S.env false (c.plain S) = .ok M ∧
      (c.plain S = c0.plain S ∨ Supersedes S M c0) := by
  have hN := h.node h0
  refine ⟨_, ((hN.peer hW).inv hS hro).read hS hro, ?_⟩
  obtain ⟨ha, _⟩ := (h.life hS hro hW h0).after hS hro (h0.peer hW) hd hs
  rcases ha with ⟨_, he⟩ | hp
  · exact .inl (hW _ _ hN.held h0.held (congrArg (fun x : SH => x.2) he))
  · right
    have ho := hp.own
    have e0 : (c0.ownMsg S).sh = toLex (c0.seqno, S.env.H (c0.plain S)) := by
      show toLex ((c0.ownMsg S).seqno, _) = _
      rw [ownMsg_seqno]; rfl
    rw [e0] at ho
    exact ho.2

/-- C130, for the devices of an account whose configs do not collide under the hash: no condition on the
histories is left. -/
theorem crash_recovery_world {S : Sys} (hS : S.Good) (hro : S.env.readonly = false) {W : Bytes → Prop}
    (hW : Collisionless S W) {c0 c r : Client}
    (h0 : Node S W c0) (hd : c0.st ≠ .dirty) (hl : Onward S W c0 c)
    {s : Int} {m : Bytes} {obs : List Bytes} (hpush : (c.push S).2 = .ok (s, m, obs)) (hs : s ≠ 0)
    {ord : List Bytes} (hord : ord.Perm (if S.env.readonly then [] else c0.old))
    (hr : Client.restore S (c0.dumpBytes S ord) = .ok r)
    {k : Bytes} (hk : c.keys.head? = some k) (hov : int64Ok (s + S.env.lag) = true) (h : Bytes) :
    let r1 := (r.addKey S k true false).1
    let r2 := (r1.merge S [(h, m)]).1
    (r1.merge S [(h, m)]).2 = .ok [h] ∧ r2.content = c.content ∧ r2.seqno = s ∧
      (s ≠ c0.seqno → r2.needsPush = false ∧ r2.curr = h) :=
  crash_recovery hS hro (h0.peer hW) hd (hl.life hS hro hW h0) hpush hs hord hr hk
    (fun he => hW _ _ (hl.node h0).held h0.held he) hov h

/-- C131.  A device that holds an earlier config of another one (without unpublished modifications of
its own) takes over what that one publishes later, exactly, whatever both did before. -/
theorem catches_up {S : Sys} (hS : S.Good) (hro : S.env.readonly = false) {W : Bytes → Prop}
    (hW : Collisionless S W) {c0 c r : Client} (h0 : Node S W c0) (hd : c0.st ≠ .dirty)
    (hs0 : c0.seqno ≠ 0) (hl : Onward S W c0 c) (hN : Node S W r) (hst : r.st ≠ .dirty)
    (hsame : r.plain S = c0.plain S) {s : Int} {m : Bytes} {obs : List Bytes}
    (hpush : (c.push S).2 = .ok (s, m, obs)) (hk : r.keys.head? = c.keys.head?)
    (hov : int64Ok (s + S.env.lag) = true) (h : Bytes) :
    (r.merge S [(h, m)]).2 = .ok [h] ∧ (r.merge S [(h, m)]).1.content = c.content ∧
      (r.merge S [(h, m)]).1.seqno = s := by
  have hP := (hl.node h0).peer hW |>.inv hS hro
  have hR := (hN.peer hW).inv hS hro
  have hP0 := (h0.peer hW).inv hS hro
  have hown : r.ownMsg S = c0.ownMsg S := by
    have h1 := hR.read hS hro
    rw [hsame, hP0.read hS hro] at h1
    exact (Out.ok.inj h1).symm
  have hrs : r.seqno = c0.seqno := by
    have := congrArg Msg.seqno hown
    rw [ownMsg_seqno, ownMsg_seqno] at this
    exact this
  have has : S.as S.env.signer = S := rfl
  obtain ⟨e1, _⟩ := push_state hpush
  obtain ⟨M, hM, hcase⟩ := history_kept hS hro hW h0 hd hs0 hl
  have hMo : M = c.ownMsg S := by
    rw [hP.read hS hro] at hM; exact (Out.ok.inj hM).symm
  rcases hcase with he | hsup
  · have hrec := push_received hS (sg := S.env.signer) (by rw [has]; exact hS) hP.reach hpush hk
    rw [has, he, ← hsame] at hrec
    have hco : c.ownMsg S = r.ownMsg S := by
      have h1 := hP.read hS hro
      rw [he, hP0.read hS hro] at h1
      rw [hown]; exact (Out.ok.inj h1).symm
    have hse : s = r.seqno := by
      rw [e1]
      have := congrArg Msg.seqno hco
      rw [ownMsg_seqno, ownMsg_seqno] at this
      exact this
    have hci := hR.reach.inv hS
    obtain ⟨m1, m2, m3, m4⟩ := merge_own_again hS hci hst (by rw [hrs]; exact hs0) hrec
      (by rw [← hse]; exact hov) h
    refine ⟨m1, ?_, ?_⟩
    · show pruneD (r.merge S [(h, m)]).1.conf.m.data = pruneD c.conf.m.data
      rw [m2, refresh_data_eq hci.wf, pruneD_of_wf (pruneD_wf hci.wf.data),
        ← ownMsg_data (S := S) hci.wf, ← ownMsg_data (S := S) (hP.reach.inv hS).wf, hco]
    · show (r.merge S [(h, m)]).1.conf.m.seqno = s
      rw [m2, refresh_seqno, hse]; rfl
  · have hs : s ≠ 0 := by
      obtain ⟨_, hne⟩ := (hl.life hS hro hW h0).after hS hro (h0.peer hW) hd hs0
      rw [e1]; exact hne
    have hsup' : Supersedes S M r := by
      unfold Supersedes at hsup ⊢
      rw [hrs, hsame]; exact hsup
    obtain ⟨d1, d2, d3, _⟩ := delivery hS (sg := S.env.signer) (by rw [has]; exact hS) hP.reach
      (by rw [has]; exact hR.reach) hpush hs hk hst (.inr fun M' hM' => by
        rw [hM] at hM'
        rw [← Out.ok.inj hM', has]; exact hsup')
      (by rw [has]; exact fun he => hW _ _ (hl.node h0).held hN.held he) hov h
    exact ⟨d1, d2, d3⟩

/-! ### A concrete case: two devices edit the same config, the first merges what the second pushed -/

def exE4 : Client := (exC4.push exSys).1
def exE5 : Client := (exE4.merge exSys [([1], exM2)]).1

/-- All serialised configs that occur in the example. -/
def exWorld : Bytes → Prop := fun b => b ∈ [(Client.new exSys).plain exSys, exC1.plain exSys,
  exC4.plain exSys, exD2.plain exSys, exE5.plain exSys]

theorem exWorld_free : Collisionless exSys exWorld := by
  have : ∀ a ∈ [(Client.new exSys).plain exSys, exC1.plain exSys, exC4.plain exSys, exD2.plain exSys,
      exE5.plain exSys], ∀ b ∈ [(Client.new exSys).plain exSys, exC1.plain exSys, exC4.plain exSys,
      exD2.plain exSys, exE5.plain exSys], exSys.env.H a = exSys.env.H b → a = b := by decide +kernel
  exact fun a b ha hb => this a ha b hb

theorem inWorld {b : Bytes} (h : [(Client.new exSys).plain exSys, exC1.plain exSys, exC4.plain exSys,
    exD2.plain exSys, exE5.plain exSys].contains b = true) : exWorld b := by
  unfold exWorld; rwa [List.contains_iff_mem] at h

theorem exC0_node : Node exSys exWorld exC0 :=
  .step (.new (inWorld (by decide +kernel))) (.addKey _ _ _ _ (by decide +kernel)) (inWorld (by decide +kernel))
theorem exC1_node : Node exSys exWorld exC1 :=
  .step exC0_node (.edit _ _ (by decide +kernel) (by decide +kernel)) (inWorld (by decide +kernel))
theorem exC3_node : Node exSys exWorld exC3 :=
  .step (.step exC1_node (.push _) (inWorld (by decide +kernel))) (.confirm _ _ _) (inWorld (by decide +kernel))

theorem exD1_node : Node exSys exWorld exD1 := by
  have h1 : gather exSys exC0.keys [([104], exM1)] = [([104], exC1.plain exSys)] := by decide +kernel
  refine .merge (src := fun _ => exC1) exC0_node (fun _ _ _ => exC1_node) (fun p hp _ => ?_) (fun p hp => ?_)
    (by decide +kernel) (inWorld (by decide +kernel))
  · rw [h1] at hp; rw [List.mem_singleton.1 hp]
  · rw [h1] at hp; rw [List.mem_singleton.1 hp]; exact inWorld (by decide +kernel)

theorem exD2_node : Node exSys exWorld exD2 :=
  .step exD1_node (.edit _ _ (by decide +kernel) (by decide +kernel)) (inWorld (by decide +kernel))

theorem exE4_onward : Onward exSys exWorld exC3 exE4 :=
  .call (.call .start (.edit _ _ (by decide +kernel) (by decide +kernel)) (inWorld (by decide +kernel)))
    (.push _) (inWorld (by decide +kernel))

theorem exE5_onward : Onward exSys exWorld exC3 exE5 := by
  have h1 : gather exSys exE4.keys [([1], exM2)] = [([1], exD2.plain exSys)] := by decide +kernel
  refine .merge (src := fun _ => exD2) exE4_onward (fun _ _ _ => exD2_node) (fun p hp _ => ?_) (fun p hp => ?_)
    (by decide +kernel) (inWorld (by decide +kernel))
  · rw [h1] at hp; rw [List.mem_singleton.1 hp]
  · rw [h1] at hp; rw [List.mem_singleton.1 hp]; exact inWorld (by decide +kernel)

/-- The hypotheses of C130 and C131 with a merge in between: the device wrote a dump in state `exC3`,
edited, pushed, merged a conflicting message (now at seqno 3) and pushes that; `exD1` is the other device
before its own edit. -/
example : Collisionless exSys exWorld ∧ Node exSys exWorld exC3 ∧ Onward exSys exWorld exC3 exE5 ∧
    exC3.st ≠ .dirty ∧ exC3.seqno = 1 ∧ exE5.seqno = 3 ∧ (exE5.push exSys).2.isOk = true ∧
    (Client.restore exSys (exC3.dumpBytes exSys [])).isOk = true ∧ exE5.keys.head? = some exKey ∧
    Node exSys exWorld exD1 ∧ exD1.st ≠ .dirty ∧ exD1.plain exSys = exC3.plain exSys ∧
    exD1.keys.head? = some exKey :=
  ⟨exWorld_free, exC3_node, exE5_onward, by decide +kernel, by decide +kernel, by decide +kernel,
    by decide +kernel, by decide +kernel, by decide +kernel, exD1_node, by decide +kernel⟩

end Verif
