import Verif.GroupState
import Verif.Props.GroupMembers
import Verif.Props.GroupWitness
import Verif.Props.UserGroupsWitness

/-!
# The three objects of a group together: C96 - C98
-/

namespace Verif

/-! ### Keys without repetitions -/

theorem dedupKeys_spec : ∀ (l acc : List Bytes), acc.Nodup →
    (dedupKeys l acc).Nodup ∧ (∀ k, k ∈ dedupKeys l acc ↔ k ∈ acc ∨ k ∈ l) ∧
    (∃ l', l'.Sublist l ∧ dedupKeys l acc = acc ++ l')
  | [], acc, h => ⟨h, fun k => by simp [dedupKeys], [], List.Sublist.refl _, by simp [dedupKeys]⟩
  | k :: l, acc, h => by
    unfold dedupKeys
    by_cases hk : k ∈ acc
    · rw [if_pos hk]
      obtain ⟨h1, h2, l', h3, h4⟩ := dedupKeys_spec l acc h
      refine ⟨h1, fun x => ?_, l', h3.cons k, h4⟩
      rw [h2 x, List.mem_cons]
      constructor
      · rintro (a | a) <;> simp [a]
      · rintro (a | rfl | a)
        · exact .inl a
        · exact .inl hk
        · exact .inr a
    · rw [if_neg hk]
      have hn : (acc ++ [k]).Nodup := by
        rw [List.nodup_append]
        refine ⟨h, by simp, fun a ha b hb => ?_⟩
        rw [List.mem_singleton] at hb
        rintro rfl
        exact hk (hb ▸ ha)
      obtain ⟨h1, h2, l', h3, h4⟩ := dedupKeys_spec l (acc ++ [k]) hn
      refine ⟨h1, fun x => ?_, k :: l', h3.cons_cons k, by rw [h4]; simp⟩
      rw [h2 x]; simp [or_assoc]

theorem dedupKeys_head (l : List Bytes) : (dedupKeys l []).head? = l.head? := by
  cases l with
  | nil => rfl
  | cons k t =>
    show (dedupKeys t (if k ∈ [] then [] else [] ++ [k])).head? = some k
    rw [if_neg (by simp)]
    obtain ⟨_, _, l', _, h⟩ := dedupKeys_spec t ([] ++ [k]) (by simp)
    rw [h]; rfl

/-! ### What the calls do to the keys -/

theorem absorb_keys (S : Sys) (c : Client) (all : List (Bytes × Bytes)) (R : Msg) (bad : List Nat) :
    (c.absorb S all R bad).1.keys = c.keys := by
  unfold Client.absorb
  dsimp only
  repeat' split
  all_goals first | rfl | simp [Client.noted]

theorem merge_keys (S : Sys) (c : Client) (configs : List (Bytes × Bytes)) :
    (c.merge S configs).1.keys = c.keys := by
  unfold Client.merge Client.mergeCore
  dsimp only
  repeat' split
  all_goals first | rfl | exact absorb_keys ..

theorem push_keys (S : Sys) (c : Client) : (c.push S).1.keys = c.keys := by
  unfold Client.push
  repeat' split
  all_goals first | rfl | simp [Client.touched]

theorem confirm_keys (c : Client) (s : Int) (h : Bytes) : (c.confirm s h).keys = c.keys := by
  unfold Client.confirm
  split
  · simp
  · rfl

theorem edit_keys (S : Sys) (c : Client) (d : Dict) : (c.edit S d).1.keys = c.keys := by
  have h := dirty_keys S c
  unfold Client.edit
  split
  · rename_i c1 _ he; rw [he] at h; exact h
  · rename_i r _; exact h

theorem AppStep.step {S : Sys} {c c' : Client} (h : AppStep S c c') : Step S c c' := by
  cases h with
  | edit d h1 h2 => exact .edit _ _ h1 h2
  | merge l h1 h2 h3 => exact .merge _ _ h1 h2 h3
  | push => exact .push _
  | confirm s h => exact .confirm _ _ _
  | dump => exact .dump _

theorem AppStep.keys {S : Sys} {c c' : Client} (h : AppStep S c c') : c'.keys = c.keys := by
  cases h with
  | edit d h1 h2 => exact edit_keys ..
  | merge l h1 h2 h3 => exact merge_keys ..
  | push => exact push_keys ..
  | confirm s h => exact confirm_keys ..
  | dump => rfl

theorem addKeys_only {S : Sys} (l : List Bytes) (c : Client) :
    l.foldl (fun c k => (c.addKey S k false false).1) c =
      { c with keys := (l.foldl (fun c k => (c.addKey S k false false).1) c).keys } := by
  induction l generalizing c with
  | nil => rfl
  | cons a t ih =>
    rw [List.foldl_cons, ih]
    have : (c.addKey S a false false).1 = { c with keys := (c.addKey S a false false).1.keys } := by
      unfold Client.addKey
      repeat' split
      all_goals rfl
    rw [this]

/-- `replace_keys` without dirtying changes nothing but the keys and never throws. -/
theorem replaceKeys_clean {S : Sys} (c : Client) {ks : List Bytes} (hk : ∀ k ∈ ks, k.length = 32) :
    c.replaceKeys S ks false = ({ c with keys := dedupKeys ks [] }, .ok ()) := by
  have h := (replace_keys_sets (S := S) (c := c) ks false).1 hk
  unfold Client.replaceKeys at h ⊢
  cases ks with
  | nil =>
    simp only at h ⊢
    split
    · rename_i e; cases c; cases e; rfl
    · rfl
  | cons k t =>
    simp only at h ⊢
    rw [if_neg] at h ⊢
    · simp only [Bool.false_and, Bool.false_eq_true, if_false] at h ⊢
      rw [addKeys_only, h]
    all_goals
      rw [List.any_eq_true]
      rintro ⟨x, hx, hx2⟩
      exact (of_decide_eq_true hx2) (hk x hx)

/-- `replace_keys` with dirtying either changes nothing but the keys (the object is read-only or the
first key stays) or makes the object dirty; it does not throw. -/
theorem replaceKeys_dirty {S : Sys} (hS : S.Good) {c : Client} (hc : Reach S c) {k : Bytes} {ks : List Bytes}
    (hk : ∀ x ∈ k :: ks, x.length = 32) :
    ((S.env.readonly = true ∨ c.keys.head? = some k) →
      c.replaceKeys S (k :: ks) true = ({ c with keys := dedupKeys (k :: ks) [] }, .ok ())) ∧
    (S.env.readonly = false → c.keys.head? ≠ some k →
      c.replaceKeys S (k :: ks) true = ({ c with keys := dedupKeys (k :: ks) [] } : Client).dirty S ∧
      ((({ c with keys := dedupKeys (k :: ks) [] } : Client).dirty S).2 = .ok () ∨
        (({ c with keys := dedupKeys (k :: ks) [] } : Client).dirty S).2 = .ub)) := by
  have hf := replaceKeys_clean (S := S) c hk
  unfold Client.replaceKeys at hf ⊢
  simp only at hf ⊢
  have hn : ¬ ((k :: ks).any fun k => decide (k.length ≠ 32)) = true := by
    rw [List.any_eq_true]
    rintro ⟨x, hx, hx2⟩
    exact (of_decide_eq_true hx2) (hk x hx)
  rw [if_neg hn] at hf ⊢
  simp only [Bool.false_and, Bool.false_eq_true, if_false, Bool.true_and] at hf ⊢
  have hf := (Prod.mk.inj hf).1
  rw [hf]
  constructor
  · rintro (h | h)
    · simp [h]
    · have : c.keys ≠ [] := by intro e; rw [e] at h; cases h
      simp [h, this]
  · intro hr hh
    rw [if_pos (by simp [hr, hh])]
    refine ⟨rfl, ?_⟩
    have hm := (hc.inv hS).isMut
    unfold Client.dirty
    dsimp only
    split
    · rename_i hd; rw [if_pos (hm hd)]; exact .inl rfl
    · rw [if_neg (by simp [hr])]
      split
      · exact .inr rfl
      · exact .inl rfl

/-! ### C96: all three objects have the same keys -/

/-- The sender and receiver configs of a group: well-behaved primitives. -/
structure GroupSys.Good (G : GroupSys) : Prop where
  p : G.P.Good
  i : G.SI.Good
  m : G.SM.Good
  protoI : G.SI.proto = none
  protoM : G.SM.proto = none

theorem groupKeys_len {P : GPrims} (hP : P.Good) {s : GKeys} {log : List (Bytes × Found)} (h : KReach P s log) :
    ∀ k ∈ s.groupKeys, k.length = 32 := by
  obtain ⟨_, hr⟩ := h.inv hP
  intro k hk
  unfold GKeys.groupKeys at hk
  rcases List.mem_append.1 hk with hk | hk
  · split at hk
    · rename_i hp
      rw [List.mem_singleton.1 hk]; exact (hr.pending hp).1
    · cases hk
  · obtain ⟨x, hx, rfl⟩ := List.mem_map.1 hk
    have := hr.keys x (List.mem_reverse.1 hx)
    simp only [KeyInfo.ok, Bool.and_eq_true, beq_iff_eq] at this
    exact this.2

theorem giveKeys_false (G : GroupSys) {g : GState} (hk : ∀ k ∈ g.keys.groupKeys, k.length = 32) :
    g.giveKeys G false = (⟨g.keys, { g.info with keys := dedupKeys g.keys.groupKeys [] },
      { g.members with keys := dedupKeys g.keys.groupKeys [] }⟩, .ok ()) := by
  unfold GState.giveKeys
  simp only [replaceKeys_clean _ hk]

/-- What is true of every group -/
structure GInv (G : GroupSys) (g : GState) (log : List (Bytes × Found)) : Prop where
  k : KReach G.P g.keys log
  i : Reach G.SI g.info
  m : Reach G.SM g.members
  ik : g.info.keys = dedupKeys g.keys.groupKeys []
  mks : g.members.keys = dedupKeys g.keys.groupKeys []

theorem reach_clean_keys {S : Sys} {c : Client} (h : Reach S c) {ks : List Bytes} (hk : ∀ k ∈ ks, k.length = 32) :
    Reach S { c with keys := dedupKeys ks [] } := by
  have e := replaceKeys_clean (S := S) c hk
  have := Reach.step h (.replaceKeys c ks false (by rw [e]; rfl))
  rwa [e] at this

theorem rekey_groupKeys {P : GPrims} {s s' : GKeys} {e : GEnv} {ids : List Bytes} {msg : Bytes}
    (h : s.rekey P e ids = .ok (s', msg)) :
    s'.groupKeys = s'.pendingKey :: s.keys.reverse.map (·.key) ∧ s'.needsDump = true ∧ msg ≠ [] ∧
    s'.pendingConfig = msg := by
  obtain ⟨sk, gx, gen, pks, h1, h2, h3, h4, h5, h6⟩ := rekey_msg h
  have hne : msg ≠ [] := by rw [h6, signedDict_eq]; simp
  subst h5
  exact ⟨by simp [GKeys.groupKeys, hne], rfl, hne, rfl⟩

/-- One object handed a new first key: still reachable, has the keys; if it may be written and the first
key is another, it now needs a push. -/
theorem replaceKeys_rekey {S : Sys} (hS : S.Good) {c : Client} (hc : Reach S c) {k : Bytes} {ks : List Bytes}
    (hk : ∀ x ∈ k :: ks, x.length = 32) (hsafe : (c.replaceKeys S (k :: ks) true).2 ≠ .ub) :
    (c.replaceKeys S (k :: ks) true).2 = .ok () ∧ Reach S (c.replaceKeys S (k :: ks) true).1 ∧
    (c.replaceKeys S (k :: ks) true).1.keys = dedupKeys (k :: ks) [] ∧
    (c.replaceKeys S (k :: ks) true).1.conf.m.data = c.conf.m.data ∧
    (S.env.readonly = false → c.keys.head? ≠ some k → (c.replaceKeys S (k :: ks) true).1.st = .dirty) := by
  obtain ⟨h1, h2⟩ := replaceKeys_dirty hS hc hk
  have hkeys := (replace_keys_sets (S := S) (c := c) (k :: ks) true).1 hk
  by_cases hcase : S.env.readonly = true ∨ c.keys.head? = some k
  · have e := h1 hcase
    refine ⟨by rw [e], ?_, hkeys, by rw [e], ?_⟩
    · rw [e]; exact reach_clean_keys hc hk
    · intro a b; rcases hcase with h | h
      · rw [h] at a; cases a
      · exact absurd h b
  · push Not at hcase
    obtain ⟨a, b⟩ := hcase
    have a : S.env.readonly = false := by simpa using a
    obtain ⟨e, h3⟩ := h2 a b
    have hok : (c.replaceKeys S (k :: ks) true).2 = .ok () := by
      rw [e] at hsafe ⊢
      rcases h3 with h | h
      · exact h
      · exact absurd h hsafe
    refine ⟨hok, .step hc (.replaceKeys c _ _ (by rw [hok]; rfl)), hkeys, ?_, fun _ _ => ?_⟩
    · have hr := reach_clean_keys hc hk
      rw [e, dirty_data (hr.inv hS) (hr.neat hS)]
    · rw [e]; rw [e] at hok
      unfold Client.dirty at hok ⊢
      dsimp only at hok ⊢
      by_cases hd : c.st = .dirty
      · rw [if_pos hd]; split <;> exact hd
      · rw [if_neg hd, a] at hok ⊢
        by_cases hi : int64Ok (c.conf.m.seqno + 1) = true
        · rw [if_neg (by simp), if_neg (by simp [hi])]; rfl
        · rw [if_neg (by simp), if_pos (by simp [hi])] at hok; cases hok

/-- Handing on a new first key -/
theorem giveKeys_true {G : GroupSys} (hG : G.Good) {g : GState} (hi : Reach G.SI g.info) (hm : Reach G.SM g.members)
    {k : Bytes} {ks : List Bytes} (hks : g.keys.groupKeys = k :: ks) (hk : ∀ x ∈ k :: ks, x.length = 32)
    (hs : (g.giveKeys G true).2.safe = true) :
    (g.giveKeys G true).2 = .ok () ∧ (g.giveKeys G true).1.keys = g.keys ∧
    Reach G.SI (g.giveKeys G true).1.info ∧ Reach G.SM (g.giveKeys G true).1.members ∧
    (g.giveKeys G true).1.info.keys = dedupKeys (k :: ks) [] ∧
    (g.giveKeys G true).1.members.keys = dedupKeys (k :: ks) [] ∧
    (g.giveKeys G true).1.info.conf.m.data = g.info.conf.m.data ∧
    (g.giveKeys G true).1.members.conf.m.data = g.members.conf.m.data ∧
    (G.SI.env.readonly = false → g.info.keys.head? ≠ some k → (g.giveKeys G true).1.info.st = .dirty) ∧
    (G.SM.env.readonly = false → g.members.keys.head? ≠ some k → (g.giveKeys G true).1.members.st = .dirty) := by
  have hmub : (g.members.replaceKeys G.SM (k :: ks) true).2 ≠ .ub := by
    intro h
    unfold GState.giveKeys at hs
    rw [hks] at hs
    dsimp only at hs
    rw [h] at hs
    cases hs
  obtain ⟨m1, m2, m3, m4, m5⟩ := replaceKeys_rekey hG.m hm hk hmub
  have e : g.giveKeys G true = (⟨g.keys, (g.info.replaceKeys G.SI (k :: ks) true).1,
      (g.members.replaceKeys G.SM (k :: ks) true).1⟩, (g.info.replaceKeys G.SI (k :: ks) true).2) := by
    unfold GState.giveKeys
    rw [hks]
    dsimp only
    rw [m1]
  have hiub : (g.info.replaceKeys G.SI (k :: ks) true).2 ≠ .ub := by
    intro h
    rw [e] at hs
    dsimp only at hs
    rw [h] at hs
    cases hs
  obtain ⟨i1, i2, i3, i4, i5⟩ := replaceKeys_rekey hG.i hi hk hiub
  rw [e]
  exact ⟨i1, rfl, i2, m2, i3, m3, i4, m4, i5, m5⟩

/-- What a rekey that does not throw does -/
theorem GInv.rekey_ok {G : GroupSys} (hG : G.Good) {g : GState} {log : List (Bytes × Found)} (h : GInv G g log)
    (hs : (g.rekey G).2.safe = true) :
    ((g.rekey G).1 = g ∧ ∃ x, (g.rekey G).2 = .err x) ∨
    ∃ ms k msg, g.members.members = .ok ms ∧ g.keys.rekey G.P G.e (ms.map GMember.id) = .ok (k, msg) ∧
      (g.rekey G).2 = .ok msg ∧ (g.rekey G).1.keys = k ∧
      Reach G.SI (g.rekey G).1.info ∧ Reach G.SM (g.rekey G).1.members ∧
      (g.rekey G).1.info.keys = dedupKeys k.groupKeys [] ∧ (g.rekey G).1.members.keys = dedupKeys k.groupKeys [] ∧
      (g.rekey G).1.info.conf.m.data = g.info.conf.m.data ∧
      (g.rekey G).1.members.conf.m.data = g.members.conf.m.data ∧
      (G.SI.env.readonly = false → g.info.keys.head? ≠ some k.pendingKey → (g.rekey G).1.info.st = .dirty) ∧
      (G.SM.env.readonly = false → g.members.keys.head? ≠ some k.pendingKey → (g.rekey G).1.members.st = .dirty) := by
  unfold GState.rekey at hs ⊢
  cases hr : (g.members.members >>= fun ms => g.keys.rekey G.P G.e (ms.map GMember.id)) with
  | err x => exact .inl ⟨rfl, x, rfl⟩
  | hang => rw [hr] at hs; cases hs
  | ub => rw [hr] at hs; cases hs
  | ok p =>
    obtain ⟨k, msg⟩ := p
    rw [hr] at hs
    dsimp only at hs ⊢
    obtain ⟨ms, hms, hk⟩ := Out.bind_eq_ok.1 hr
    right
    obtain ⟨hgk, hnd, hne, hpc⟩ := rekey_groupKeys hk
    have hlen := groupKeys_len hG.p (.rekey h.k hk)
    set g0 : GState := { g with keys := { k with needsDump := g.keys.needsDump } } with hg0
    have hks : g0.keys.groupKeys = k.pendingKey :: g.keys.keys.reverse.map (·.key) := hgk
    rw [hgk] at hlen
    have hs2 : (g0.giveKeys G true).2.safe = true := by
      revert hs
      cases (g0.giveKeys G true).2 <;> intro hs
      · rfl
      · rfl
      · cases hs
      · cases hs
    obtain ⟨r1, r2, r3, r4, r5, r6, r7, r8, r9, r10⟩ := giveKeys_true hG (g := g0) h.i h.m hks hlen hs2
    rw [r1]
    dsimp only
    refine ⟨ms, k, msg, hms, hk, rfl, ?_, r3, r4, by rw [hgk]; exact r5, by rw [hgk]; exact r6, r7, r8, r9, r10⟩
    rw [r2]
    show { k with needsDump := true } = k
    rw [← hnd]

theorem load_groupKeys {P : GPrims} (hP : P.Good) {s s' : GKeys} {log : List (Bytes × Found)} (h : KReach P s log)
    {e : GEnv} {hash data : Bytes} {ts : Int} (hl : s.load P e hash data ts = .ok (s', false)) :
    s'.groupKeys = s.groupKeys ∧ s'.keys = s.keys := by
  obtain ⟨f, hf, hl⟩ := Out.bind_eq_ok.1 hl
  have hpr := h.pruned hP
  have hl := Out.ok.inj hl
  unfold GKeys.apply at hl
  have key : ∀ a : List (Int × List Bytes), ({ s with active := a } : GKeys).removeExpired.keys = s.keys := by
    intro a
    unfold GKeys.removeExpired
    dsimp only
    split
    · exact hpr
    · rfl
  split at hl
  · split at hl
    · rename_i g _
      obtain ⟨rfl, _⟩ := Prod.mk.inj hl
      refine ⟨?_, key _⟩
      unfold GKeys.groupKeys
      dsimp only
      rw [key]; rfl
    · obtain ⟨rfl, _⟩ := Prod.mk.inj hl
      exact ⟨rfl, rfl⟩
  · obtain ⟨_, hb⟩ := Prod.mk.inj hl
    cases hb

/-- What loading a key message does -/
theorem GInv.load_ok {G : GroupSys} (hG : G.Good) {g : GState} {log : List (Bytes × Found)} (h : GInv G g log)
    {hash data : Bytes} {ts : Int} {k : GKeys} {b : Bool} (hl : g.keys.load G.P G.e hash data ts = .ok (k, b)) :
    (g.load G hash data ts).2 = .ok b ∧
    (g.load G hash data ts).1 = ⟨k, { g.info with keys := dedupKeys k.groupKeys [] },
      { g.members with keys := dedupKeys k.groupKeys [] }⟩ := by
  unfold GState.load
  rw [hl]
  cases b with
  | true =>
    obtain ⟨f, hf, hl'⟩ := Out.bind_eq_ok.1 hl
    have hlen := groupKeys_len hG.p (.load h.k hf hl)
    simp only [giveKeys_false G (g := { g with keys := k }) hlen]
    exact ⟨rfl, trivial⟩
  | false =>
    obtain ⟨e, _⟩ := load_groupKeys hG.p h.k hl
    refine ⟨rfl, ?_⟩
    dsimp only
    rw [e, ← h.ik]
    congr 1
    rw [h.ik, ← h.mks]

theorem GroupSys.Good.demote {G : GroupSys} {sk : Bytes} {fi fm : Bytes → Bytes}
    (h : (G.promoted sk fi fm).Good) (hm : G.Member) : G.Good :=
  ⟨h.p, h.i.demote hm.i, h.m.demote hm.m, h.protoI, h.protoM⟩

theorem Older.good {G G' : GroupSys} (h : Older G G') (hG : G'.Good) : G.Good := by
  rcases h with rfl | ⟨hm, sk, fi, fm, rfl⟩
  · exact hG
  · exact hG.demote hm

theorem Older.p {G G' : GroupSys} (h : Older G G') : G'.P = G.P := by
  rcases h with rfl | ⟨hm, sk, fi, fm, rfl⟩ <;> rfl

theorem GInv.promote {G : GroupSys} {g : GState} {log : List (Bytes × Found)} (h : GInv G g log) (hm : G.Member)
    (sk : Bytes) (fi fm : Bytes → Bytes) : GInv (G.promoted sk fi fm) g log :=
  ⟨h.k, .promote h.i hm.i, .promote h.m hm.m, h.ik, h.mks⟩

/-- An object restored from a dump made earlier, possibly by a member who has become an admin since. -/
theorem Older.restoreI {G G' : GroupSys} (h : Older G G') {c c' : Client} {ord : List Bytes} (hr : Reach G.SI c)
    (ho : ord.Perm (if G.SI.env.readonly then [] else c.old))
    (h1 : Client.restore G'.SI (c.dumpBytes G.SI ord) = .ok c') : Reach G'.SI c' := by
  rcases h with rfl | ⟨hm, sk, fi, fm, rfl⟩
  · exact .restore hr ho h1
  · rw [hm.i] at ho
    cases List.perm_nil.1 ho
    exact .revive hr hm.i h1

theorem Older.restoreM {G G' : GroupSys} (h : Older G G') {c c' : Client} {ord : List Bytes} (hr : Reach G.SM c)
    (ho : ord.Perm (if G.SM.env.readonly then [] else c.old))
    (h1 : Client.restore G'.SM (c.dumpBytes G.SM ord) = .ok c') : Reach G'.SM c' := by
  rcases h with rfl | ⟨hm, sk, fi, fm, rfl⟩
  · exact .restore hr ho h1
  · rw [hm.m] at ho
    cases List.perm_nil.1 ho
    exact .revive hr hm.m h1

theorem GReach.inv {G : GroupSys} (hG : G.Good) {g : GState} {log : List (Bytes × Found)} (h : GReach G g log) :
    GInv G g log := by
  induction h with
  | new => exact ⟨.init, .new, .new, rfl, rfl⟩
  | info _ hs ih => have ih := ih hG; exact ⟨ih.k, .step ih.i hs.step, ih.m, hs.keys.trans ih.ik, ih.mks⟩
  | members _ hs ih => have ih := ih hG; exact ⟨ih.k, ih.i, .step ih.m hs.step, ih.ik, hs.keys.trans ih.mks⟩
  | @load G g log hash data ts f _ hf hs ih =>
    have ih := ih hG
    have hl : g.keys.load G.P G.e hash data ts = .ok (g.keys.apply G.e.admin hash f) := by
      unfold GKeys.load; rw [hf]; rfl
    obtain ⟨_, e⟩ := ih.load_ok hG (b := (g.keys.apply G.e.admin hash f).2) (k := (g.keys.apply G.e.admin hash f).1) hl
    have hk : KReach G.P (g.keys.apply G.e.admin hash f).1 (log ++ [(hash, f)]) :=
      .load (b := (g.keys.apply G.e.admin hash f).2) ih.k hf hl
    have hlen := groupKeys_len hG.p hk
    rw [e]
    exact ⟨hk, reach_clean_keys ih.i hlen, reach_clean_keys ih.m hlen, rfl, rfl⟩
  | rekey _ hs ih =>
    have ih := ih hG
    rcases ih.rekey_ok hG hs with ⟨e, _⟩ | ⟨ms, k, msg, h1, h2, h3, h4, h5, h6, h7, h8, _⟩
    · rw [e]; exact ih
    · refine ⟨by rw [h4]; exact .rekey ih.k h2, h5, h6, by rw [h4]; exact h7, by rw [h4]; exact h8⟩
  | dump _ ih => have ih := ih hG; exact ⟨.dump ih.k, ih.i, ih.m, ih.ik, ih.mks⟩
  | promote _ hm ih => exact (ih (hG.demote hm)).promote hm _ _ _
  | @restart G Gk Gi Gm g gi gm g' log li lm oi om i m _ _ _ ok oi' om' ho hm h1 h2 h3 ih ihi ihm =>
    have ih := ih (ok.good hG)
    have ihi := ihi (oi'.good hG)
    have ihm := ihm (om'.good hG)
    unfold GState.restore at h3
    obtain ⟨k, hk, h3⟩ := Out.bind_eq_ok.1 h3
    have hr : KReach G.P k _ := .restore (by rw [ok.p]; exact ih.k) hk
    have hlen := groupKeys_len hG.p hr
    dsimp only at h3
    rw [giveKeys_false G (g := ⟨k, _, _⟩) hlen] at h3
    cases h3
    exact ⟨hr, reach_clean_keys (oi'.restoreI ihi.i ho h1) hlen, reach_clean_keys (om'.restoreM ihm.m hm h2) hlen, rfl, rfl⟩

theorem encKey_head {s : GKeys} {k : Bytes} : s.groupEncKey = .ok k ↔ s.groupKeys.head? = some k := by
  unfold GKeys.groupEncKey GKeys.groupKeys
  by_cases hp : s.pendingConfig ≠ []
  · rw [if_pos hp, if_pos hp]
    simp
  · rw [if_neg hp, if_neg hp, List.nil_append, List.head?_map, List.head?_reverse]
    cases s.keys.getLast? with
    | none => simp
    | some x => simp

/-- C96.  In every history of a group on a device - calls on the three objects, key messages, rekeys,
dumps and restarts from dumps that need not be of the same time - `Info` and `Members` hold exactly the
keys of `Keys`, in that order, and encrypt with the group's encryption key. -/
theorem group_keys_in_step {G : GroupSys} (hG : G.Good) {g : GState} {log : List (Bytes × Found)}
    (h : GReach G g log) :
    g.info.keys = g.members.keys ∧ g.info.keys.Nodup ∧ g.info.keys.Sublist g.keys.groupKeys ∧
    (∀ k, k ∈ g.info.keys ↔ k ∈ g.keys.groupKeys) ∧
    (∀ k, g.keys.groupEncKey = .ok k ↔ g.info.keys.head? = some k) := by
  have hi := h.inv hG
  obtain ⟨h1, h2, l', h3, h4⟩ := dedupKeys_spec g.keys.groupKeys [] List.nodup_nil
  rw [hi.mks, hi.ik]
  refine ⟨rfl, h1, by rw [h4]; exact h3, fun k => by rw [h2 k]; simp, fun k => ?_⟩
  rw [dedupKeys_head, encKey_head]

/-- C96.  Loading a key message changes nothing in `Info` and `Members` but the keys, and if it throws
nothing at all. -/
theorem group_load_only_keys {G : GroupSys} (hG : G.Good) {g : GState} {log : List (Bytes × Found)}
    (h : GReach G g log) (hash data : Bytes) (ts : Int) :
    (∃ ks, (g.load G hash data ts).1.info = { g.info with keys := ks } ∧
      (g.load G hash data ts).1.members = { g.members with keys := ks }) ∧
    ((∀ b, (g.load G hash data ts).2 ≠ .ok b) → (g.load G hash data ts).1 = g) := by
  have hi := h.inv hG
  cases hl : g.keys.load G.P G.e hash data ts with
  | ok p =>
    obtain ⟨k, b⟩ := p
    obtain ⟨e1, e2⟩ := hi.load_ok hG hl
    exact ⟨⟨_, by rw [e2], by rw [e2]⟩, fun hb => absurd e1 (hb b)⟩
  | err x =>
    have e : g.load G hash data ts = (g, .err x) := by unfold GState.load; rw [hl]
    rw [e]; exact ⟨⟨g.info.keys, rfl, by rw [hi.ik, ← hi.mks]⟩, fun _ => rfl⟩
  | hang =>
    have e : g.load G hash data ts = (g, .hang) := by unfold GState.load; rw [hl]
    rw [e]; exact ⟨⟨g.info.keys, rfl, by rw [hi.ik, ← hi.mks]⟩, fun _ => rfl⟩
  | ub =>
    have e : g.load G hash data ts = (g, .ub) := by unfold GState.load; rw [hl]
    rw [e]; exact ⟨⟨g.info.keys, rfl, by rw [hi.ik, ← hi.mks]⟩, fun _ => rfl⟩

/-! ### C97: rekeying a group -/

/-- The session id of the user of a device -/
def GEnv.sessionId (P : GPrims) (e : GEnv) : Bytes := toHex (5 :: P.pubOf (P.xsk e.userSk))

/-- Two devices in the same group: the same primitives and group; the second may have another signing
key, or none. -/
structure SameGroup (G D : GroupSys) (si sm : Option (Bytes → Bytes)) : Prop where
  p : D.P = G.P
  pk : D.e.groupPk = G.e.groupPk
  i : D.SI = G.SI.as si
  m : D.SM = G.SM.as sm

/-- C97.  A successful rekey: the message is pending, the new key is of a later generation than every
key seen so far and is what all three objects encrypt with; `Info` and `Members` show what they showed
before and need a push (unless they already used that very key). -/
theorem group_rekey_effects {G : GroupSys} (hG : G.Good) {g g' : GState} {log : List (Bytes × Found)}
    (h : GReach G g log) {msg : Bytes} (hr : g.rekey G = (g', .ok msg)) :
    GReach G g' log ∧ g'.keys.pendingConfig? = some msg ∧ g'.keys.needsDump = true ∧
    (∀ k, Got log k → k.gen < g'.keys.pendingGen) ∧
    g'.keys.groupEncKey = .ok g'.keys.pendingKey ∧
    g'.info.keys.head? = some g'.keys.pendingKey ∧ g'.members.keys.head? = some g'.keys.pendingKey ∧
    g'.info.ginfo = g.info.ginfo ∧ (∀ id, g'.members.getMember id = g.members.getMember id) ∧
    (G.SI.env.readonly = false → g.keys.groupEncKey ≠ .ok g'.keys.pendingKey → g'.info.needsPush = true) ∧
    (G.SM.env.readonly = false → g.keys.groupEncKey ≠ .ok g'.keys.pendingKey → g'.members.needsPush = true) := by
  have hi := h.inv hG
  have hs : (g.rekey G).2.safe = true := by rw [hr]; rfl
  rcases hi.rekey_ok hG hs with ⟨_, x, hx⟩ | ⟨ms, k, msg', h1, h2, h3, h4, h5, h6, h7, h8, h9, h10, h11, h12⟩
  · rw [hr] at hx; cases hx
  · have hre : GReach G (g.rekey G).1 log := .rekey h hs
    rw [hr] at h3 h4 h5 h6 h7 h8 h9 h10 h11 h12 hre
    cases h3
    have h4 : g'.keys = k := h4
    subst h4
    obtain ⟨r1, r2, r3, r4, r5, r6, r7⟩ := rekey_newer hG.p hi.k h2
    obtain ⟨_, _, _, _, s5⟩ := group_keys_in_step hG hre
    obtain ⟨a1, _, _, _, a5⟩ := group_keys_in_step hG h
    have hd := (s5 _).1 r4
    have e1 : g'.info.conf.m.data = g.info.conf.m.data := h9
    have e2 : g'.members.conf.m.data = g.members.conf.m.data := h10
    refine ⟨hre, r3, r7, r2, r4, hd, ?_, ?_, ?_, ?_, ?_⟩
    · rw [← (group_keys_in_step hG hre).1]; exact hd
    · unfold Client.ginfo Client.infoName Client.infoDescr Client.infoPic Client.infoExpiry Client.infoCreated
        Client.infoDeleteBefore Client.infoDeleteAttach Client.infoDestroyed Client.getPic Client.strAt Client.intAt
        Client.get
      rw [e1]
    · intro id
      unfold Client.getMember Client.getRec Client.get
      rw [e2]
    · intro a b
      have := h11 a fun hh => b ((a5 _).2 hh)
      have : g'.info.st = .dirty := this
      simp [Client.needsPush, this]
    · intro a b
      have := h12 a fun hh => b ((a5 _).2 (by rw [a1]; exact hh))
      have : g'.members.st = .dirty := this
      simp [Client.needsPush, this]

/-- On the device of a member who is not an admin no key is ever pending. -/
theorem member_no_pending {G : GroupSys} (hG : G.Good) (hn : G.e.groupSk = none) {g : GState}
    {log : List (Bytes × Found)} (h : GReach G g log) : g.keys.pendingConfig = [] := by
  have fold : ∀ (hash : Bytes) (ks : List KeyInfo) (s : GKeys), s.pendingConfig = [] →
      (ks.foldl (fun s k => s.insertKey hash k) s).pendingConfig = [] := by
    intro hash ks
    induction ks with
    | nil => exact fun s hs => hs
    | cons k t ih => exact fun s hs => ih _ (by rw [(insertKey_pending _ _ _).1]; exact hs)
  induction h with
  | new => rfl
  | info _ _ ih => exact ih hG hn
  | members _ _ ih => exact ih hG hn
  | @load G g log hash data ts f hg hf hs ih =>
    have ih := ih hG hn
    have hl : g.keys.load G.P G.e hash data ts = .ok (g.keys.apply G.e.admin hash f) := by
      unfold GKeys.load; rw [hf]; rfl
    obtain ⟨_, e⟩ := (hg.inv hG).load_ok hG (b := (g.keys.apply G.e.admin hash f).2)
      (k := (g.keys.apply G.e.admin hash f).1) hl
    rw [e]
    show (g.keys.apply G.e.admin hash f).1.pendingConfig = []
    unfold GKeys.apply
    split
    · split
      · exact ih
      · exact ih
    · refine fold _ _ _ ?_
      unfold GKeys.dropPending
      split
      · exact ih
      · split
        · rfl
        · exact ih
  | @rekey G g log hg hs ih =>
    have ih := ih hG hn
    rcases (hg.inv hG).rekey_ok hG hs with ⟨e, _⟩ | ⟨ms, k, msg, h1, h2, _⟩
    · rw [e]; exact ih
    · obtain ⟨sk, _, _, _, h1, _⟩ := rekey_msg h2
      rw [hn] at h1; cases h1
  | dump _ ih => exact ih hG hn
  | promote => cases hn
  | @restart G Gk Gi Gm g gi gm g' log li lm oi om i m hg _ _ ok _ _ ho hm h1 h2 h3 ih ihi ihm =>
    have e : Gk = G := by
      rcases ok with e | ⟨_, sk, fi, fm, rfl⟩
      · exact e
      · cases hn
    subst e
    have ih := ih hG hn
    unfold GState.restore at h3
    obtain ⟨k, hk, h3⟩ := Out.bind_eq_ok.1 h3
    have hr : KReach Gk.P k _ := .restore (hg.inv hG).k hk
    dsimp only at h3
    rw [giveKeys_false Gk (g := ⟨k, _, _⟩) (groupKeys_len hG.p hr)] at h3
    cases h3
    obtain ⟨hi, hrv⟩ := (hg.inv hG).k.inv hG.p
    rw [loadDump_makeDump hrv hi.asc hi.ascA fun e he => (hi.hashes e he).2] at hk
    cases hk
    exact ih

/-- An admin finds only keys of non-negative generations. -/
theorem admin_generations {P : GPrims} {e : GEnv} {data : Bytes} {ts : Int} {f : Found} (ha : e.admin = true)
    (h : parseKeyMsg P e data ts = .ok f) : ∀ k ∈ f.newKeys, 0 ≤ k.gen := by
  unfold parseKeyMsg at h
  split at h
  · cases h
  split at h
  · cases h
  split at h
  · cases h
  split at h
  · cases h
  split at h
  · cases h
  · obtain ⟨fr, h1, h⟩ := Out.bind_eq_ok.1 h
    obtain ⟨_, _, h⟩ := Out.bind_eq_ok.1 h
    cases h
    unfold parseSupp at h1
    split at h1
    · cases h1
    split at h1
    · cases h1
    obtain ⟨ks, h2, h1⟩ := Out.bind_eq_ok.1 h1
    have hks : ks = [] := by
      unfold loadSupp at h2
      split at h2
      · cases h2
      split at h2
      · cases h2
      cases h2; rfl
    split at h1
    · cases h1
    split at h1
    · cases h1
    cases h1
    rw [hks]
    intro k hk; cases hk
  · obtain ⟨fr, h1, h⟩ := Out.bind_eq_ok.1 h
    obtain ⟨_, _, h⟩ := Out.bind_eq_ok.1 h
    cases h
    unfold parseFull at h1
    split at h1
    · cases h1
    split at h1
    · cases h1
    split at h1
    · cases h1
    split at h1
    · cases h1
    rename_i hgen
    split at h1
    · cases h1
    split at h1
    · cases h1
    split at h1
    · cases h1
    split at h1
    · cases h1
    split at h1
    · cases h1
    obtain ⟨k, h2, h1⟩ := Out.bind_eq_ok.1 h1
    cases h1
    intro x hx
    cases k with
    | none => cases hx
    | some k =>
      cases List.mem_singleton.1 hx
      exact not_lt.1 hgen

/-- C97.  A rekey reaches everyone in the list: a device of any admin, or of any member that `get` finds
in the admin's `Members` (under its own session id), that loads the message - and that has not seen a
later generation than the admin - takes the new key over in all three objects.  (`hgen`: an admin loads no
keys of negative generations, `admin_generations`; a member could have been given one by a supplement before
becoming an admin.) -/
theorem group_rekey_reaches {G D : GroupSys} (hG : G.Good) (hD : D.Good) {si sm : Option (Bytes → Bytes)}
    (hGD : SameGroup G D si sm) {sk : Bytes} (hown : OwnKey G.P G.e sk)
    {g g' : GState} {log : List (Bytes × Found)} (hg : GReach G g log) {msg : Bytes} (hr : g.rekey G = (g', .ok msg))
    (hgen : ∀ k, Got log k → 0 ≤ k.gen) {t : GState} {log' : List (Bytes × Found)} (ht : GReach D t log')
    (hwho : (D.e.groupSk = some sk ∧ (t.keys.pendingConfig? = none ∨ t.keys.pendingGen < g'.keys.pendingGen ∨
        t.keys.pendingKey = g'.keys.pendingKey)) ∨
      (D.e.groupSk = none ∧ (∃ x, g.members.getMember (D.e.sessionId D.P) = .ok (some x)) ∧
        ∀ K nonce ms, SharedKey G.P.toMPrims (G.P.xsk sk) (G.P.xsk D.e.userSk) kMember K → nonce.length = 24 →
          g.members.members = .ok ms → NoConfusion G.P K nonce g'.keys.pendingKey (ms.map GMember.id) sk))
    (hseen : ∀ x, Got log' x → ∃ y, Got log y ∧ x.gen ≤ y.gen)
    (hash : Bytes) {ts : Int} (hts : tsOk ts = true) :
    ∃ t', t.load D hash msg ts = (t', .ok true) ∧ (∃ f, GReach D t' (log' ++ [(hash, f)])) ∧
      t'.keys.groupEncKey = g'.keys.groupEncKey ∧
      t'.info.keys.head? = g'.info.keys.head? ∧ t'.members.keys.head? = g'.members.keys.head? ∧
      t'.info.conf = t.info.conf ∧ t'.members.conf = t.members.conf := by
  have hi := hg.inv hG
  have hti := ht.inv hD
  have hs : (g.rekey G).2.safe = true := by rw [hr]; rfl
  obtain ⟨e1, e2, e3, e4, e5, e6, e7, _⟩ := group_rekey_effects hG hg hr
  rcases hi.rekey_ok hG hs with ⟨_, x, hx⟩ | ⟨ms, k, msg', h1, h2, h3, h4, _⟩
  · rw [hr] at hx; cases hx
  rw [hr] at h3 h4
  cases h3
  have h4 : g'.keys = k := h4
  subst h4
  have hkeys : ∀ k ∈ g.keys.keys, 0 ≤ k.gen ∧ int64Ok k.gen = true := by
    intro k hk
    exact ⟨hgen k ((keys_held hG.p hi.k).1 k hk), KeyInfo.ok_gen ((hi.k.inv hG.p).2.keys k hk)⟩
  obtain ⟨p1, p2⟩ := rekey_reaches hG.p hown h2 hkeys (u := D.e) hGD.pk hts
  have hparse : parseKeyMsg D.P D.e msg ts = .ok ⟨[⟨g'.keys.pendingGen, ts, g'.keys.pendingKey⟩], none⟩ := by
    rw [hGD.p]
    rcases hwho with ⟨a, _⟩ | ⟨a, ⟨x, hx⟩, hnc⟩
    · exact p1 a
    · refine p2 a ?_ fun K nonce hK hn => hnc K nonce ms hK hn h1
      obtain ⟨i1, _⟩ := gmember_iter hG.m hi.m
      obtain ⟨i1, _⟩ := i1 ms h1
      have hid := (gmember_read_sound _ _ hx).1
      rw [← hGD.p]
      show D.e.sessionId D.P ∈ _
      refine List.mem_map.2 ⟨x, (i1 x).2 ⟨?_, by rw [hid]; exact hx⟩, hid⟩
      rw [hid]
      exact toHex_lower _
  have hadm : D.e.groupSk = some sk → D.e.admin = true := fun a => by simp [GEnv.admin, a]
  have hpend : t.keys.pendingConfig? = none ∨ D.e.admin = true ∧
      (t.keys.pendingGen < g'.keys.pendingGen ∨ t.keys.pendingKey = g'.keys.pendingKey) := by
    rcases hwho with ⟨a, b | b⟩ | ⟨a, _⟩
    · exact .inl b
    · exact .inr ⟨hadm a, b⟩
    · left
      unfold GKeys.pendingConfig?
      rw [member_no_pending hD a ht]; rfl
  have hl : t.keys.load D.P D.e hash msg ts = .ok (t.keys.apply D.e.admin hash
      ⟨[⟨g'.keys.pendingGen, ts, g'.keys.pendingKey⟩], none⟩) := by
    unfold GKeys.load; rw [hparse]; rfl
  generalize hap : t.keys.apply D.e.admin hash ⟨[⟨g'.keys.pendingGen, ts, g'.keys.pendingKey⟩], none⟩ = kb at hl
  obtain ⟨k', b⟩ := kb
  obtain ⟨n1, n2, n3, n4⟩ := new_key_takes_over hD.p hti.k hparse hl
    (fun x hx => by obtain ⟨y, hy, hle⟩ := hseen x hx; exact lt_of_le_of_lt hle (e4 y hy)) hpend
  subst n1
  obtain ⟨l1, l2⟩ := hti.load_ok hD hl
  refine ⟨(t.load D hash msg ts).1, Prod.ext rfl l1, ⟨_, .load ht hparse (by rw [l1]; rfl)⟩, ?_, ?_, ?_, ?_, ?_⟩
  · rw [l2, e5]; exact n3
  · rw [l2, e6]
    show (dedupKeys k'.groupKeys []).head? = _
    rw [dedupKeys_head]; exact encKey_head.1 n3
  · rw [l2, e7]
    show (dedupKeys k'.groupKeys []).head? = _
    rw [dedupKeys_head]; exact encKey_head.1 n3
  · rw [l2]
  · rw [l2]

/-! ### C98: what one device of the group publishes, the others see -/

/-- The data a push carries, on the receiving side -/
theorem ginfo_of_pruned {c r : Client} (ht : typedD c.conf.m.data = true) (hd : r.conf.m.data = pruneD c.conf.m.data) :
    r.ginfo = c.ginfo := by
  have key : ∀ p, intOf (r.get p) = intOf (c.get p) ∧ strOf (r.get p) = strOf (c.get p) := by
    intro p
    exact scalars_eq (by rw [hd]; exact scalarAt_pruneD p _ ht)
  unfold Client.ginfo Client.infoName Client.infoDescr Client.infoPic Client.infoExpiry Client.infoCreated
      Client.infoDeleteBefore Client.infoDeleteAttach Client.infoDestroyed Client.getPic Client.strAt Client.intAt
  simp only [(key _).1, (key _).2]

/-- Every member record has a name (which `set` always writes). -/
def Client.MembersNamed (c : Client) : Prop :=
  ∀ pk v, c.get (pathM ++ [pk]) = some v → (maybeStr (curDict (some v)) [110]).isSome = true

theorem sorted_ext {α : Type} (f : α → Bytes) {l l' : List α} (h : l.Pairwise fun a b => f a < f b)
    (h' : l'.Pairwise fun a b => f a < f b) (hm : ∀ x, x ∈ l ↔ x ∈ l') : l = l' := by
  have n1 : l.Nodup := h.imp fun hlt e => absurd (e ▸ hlt) (lt_irrefl _)
  have n2 : l'.Nodup := h'.imp fun hlt e => absurd (e ▸ hlt) (lt_irrefl _)
  exact ((List.perm_ext_iff_of_nodup n1 n2).2 hm).eq_of_pairwise
    (fun a b _ _ hab hba => absurd (lt_trans hab hba) (lt_irrefl _)) h h'

theorem members_of_pruned {S : Sys} (hS : S.Good) {c r : Client} (hc : Reach S c)
    (hd : r.conf.m.data = pruneD c.conf.m.data) (hn : c.MembersNamed) (hcl : c.MembersClean) :
    (∀ id, r.getMember id = c.getMember id) ∧ r.members = c.members := by
  have ht := (hc.inv hS).wf.data
  have hget : ∀ id, r.getMember id = c.getMember id := fun id =>
    getRec_pruned ht hd GMember.load_congr id fun pk _ hne => by
      obtain ⟨v, hv⟩ := Option.ne_none_iff_exists'.1 hne
      exact ⟨[110], by rw [hv]; exact hn pk v hv⟩
  refine ⟨hget, ?_⟩
  have hcr : r.MembersClean := by
    intro k e he hl
    unfold Client.get at he
    rw [hd, valAt_pruneD _ ht] at he
    obtain ⟨v, hv, he⟩ := Option.bind_eq_some_iff.1 he
    split at he
    · cases he
    · cases v with
      | dict e' => exact hcl k e' hv hl
      | set s => cases he
      | scalar s => cases he
  obtain ⟨l, hl⟩ := (gmember_iter hS hc).2.1.2 hcl
  have hr : Reach S (c.dumped S) := .step hc (.dump c)
  have hdr : (c.dumped S).conf.m.data = r.conf.m.data := by
    rw [hd]; exact refresh_data_eq (hc.inv hS).wf
  have hg2 : ∀ p, (c.dumped S).get p = r.get p := fun p => by unfold Client.get; rw [hdr]
  have hm2 : (c.dumped S).members = r.members := by
    unfold Client.members Client.table
    rw [hg2]
  have hget2 : ∀ id, (c.dumped S).getMember id = r.getMember id := fun id => by
    unfold Client.getMember Client.getRec
    simp only [hg2]
  obtain ⟨l', hl'⟩ := (gmember_iter hS hr).2.1.2 (by
    unfold Client.MembersClean
    simp only [hg2]
    exact hcr)
  obtain ⟨a1, a2, _⟩ := (gmember_iter hS hc).1 l hl
  obtain ⟨b1, b2, _⟩ := (gmember_iter hS hr).1 l' hl'
  rw [hl, ← hm2, hl']
  congr 1
  rw [List.pairwise_map] at a2 b2
  refine sorted_ext (fun m : GMember => fromHex m.id) b2 a2 fun m => ?_
  rw [b1, a1, hget2, hget]

/-- `set` always writes a name, and a new list has no records. -/
theorem members_named {S : Sys} (hS : S.Good) :
    (Client.new S).MembersNamed ∧ (Client.new S).MembersClean ∧
    ∀ {c c' : Client} {m : GMember}, Reach S c → m.inRange = true → c.setMember S m = (c', .ok ()) →
      c.MembersNamed → c'.MembersNamed := by
  have hnew : ∀ k, (Client.new S).get (pathM ++ [k]) = none := fun k => rfl
  refine ⟨fun pk v hv => ?_, fun k e he => ?_, fun {c c' m} hc hr h hn => ?_⟩
  · rw [hnew] at hv; cases hv
  · rw [hnew] at he; cases he
  · obtain ⟨_, pk, hpk, ⟨e, he, hf⟩, _, h4, _⟩ := setRec_spec hS (by simp [pathM])
      (fun _ => gmember_fields_nodup m) (fun _ => gmember_fields_wf hr)
      (fun _ => ⟨([110], some (.scalar (.str (m.name.take 100)))), by simp [GMember.fields], rfl⟩) hc h
    intro k v hv
    by_cases hk : k = pk
    · subst hk
      rw [he] at hv
      cases hv
      have := hf ([110], some (.scalar (.str (m.name.take 100)))) (by simp [GMember.fields])
      rw [maybeStr_of (show mget [110] (curDict (some (.dict e))) = _ from this)]
      rfl
    · rw [h4 k hk] at hv
      exact hn k v hv

/-- The receiver can open what the sender pushed: it holds the sender's encryption key, and no other key
it holds opens the message. -/
def CanOpen (S : Sys) (g t : GState) (m : Bytes) : Prop :=
  ∃ k, g.keys.groupEncKey = .ok k ∧ k ∈ t.keys.groupKeys ∧
    ∀ k' ∈ t.keys.groupKeys, k' ≠ k → ∀ x, decrypt S.P m k' S.domain ≠ .ok x

theorem canOpen_split {D : GroupSys} (hD : D.Good) {S : Sys} {g t : GState} {log : List (Bytes × Found)} {m : Bytes}
    (ht : GReach D t log) (h : CanOpen S g t m) :
    ∃ k pre post, g.keys.groupEncKey = .ok k ∧ t.info.keys = pre ++ k :: post ∧ t.members.keys = pre ++ k :: post ∧
      ∀ k' ∈ pre, ∀ x, decrypt S.P m k' S.domain ≠ .ok x := by
  obtain ⟨k, h1, h2, h3⟩ := h
  obtain ⟨a1, a2, a3, a4, _⟩ := group_keys_in_step hD ht
  obtain ⟨pre, post, e⟩ := List.append_of_mem ((a4 k).2 h2)
  refine ⟨k, pre, post, h1, e, by rw [← a1]; exact e, fun k' hk' => h3 k' ((a4 k').1 (by rw [e]; simp [hk'])) ?_⟩
  rintro rfl
  rw [e, List.nodup_append] at a2
  exact a2.2.2 k' hk' k' (by simp) rfl

/-- C98.  A group's description pushed from one device is what another device shows after merging it,
if it holds the sender's encryption key - the current one or an older one - and had seen no conflicting
change (as in C34). -/
theorem group_info_delivered {G D : GroupSys} (hG : G.Good) (hD : D.Good) {si sm : Option (Bytes → Bytes)}
    (hGD : SameGroup G D si sm) {g t : GState} {log log' : List (Bytes × Found)} (hg : GReach G g log)
    (ht : GReach D t log') {s : Int} {m : Bytes} {obs : List Bytes}
    (hp : (g.info.push G.SI).2 = .ok (s, m, obs)) (hs : s ≠ 0) (hopen : CanOpen G.SI g t m)
    (hst : t.info.st ≠ .dirty)
    (hknown : t.info.seqno = 0 ∨
      ∀ M, parseMsg G.SI.env false (g.info.plain G.SI) = .ok M → Supersedes D.SI M t.info)
    (hnc : G.SI.env.H (g.info.plain G.SI) = G.SI.env.H (t.info.plain D.SI) → g.info.plain G.SI = t.info.plain D.SI)
    (hov : int64Ok (s + G.SI.env.lag) = true) (h : Bytes) :
    (t.info.merge D.SI [(h, m)]).2 = .ok [h] ∧ (t.info.merge D.SI [(h, m)]).1.ginfo = g.info.ginfo ∧
    (t.info.merge D.SI [(h, m)]).1.needsPush = false := by
  have hi := hg.inv hG
  have hti := (ht.inv hD).i
  have hSD := hD.i
  obtain ⟨k, pre, post, k1, k2, _, k4⟩ := canOpen_split hD ht hopen
  rw [hGD.i] at hknown hnc hSD hti ⊢
  have hrec := push_received_any hG.i hSD hG.protoI hi.i hp
    (((group_keys_in_step hG hg).2.2.2.2 k).1 k1) pre post k4
  rw [← k2] at hrec
  obtain ⟨r1, r2, _, _, r5, _⟩ := delivery_received hG.i hSD hi.i hti hp hs hrec hst hknown hnc hov h
  exact ⟨r1, ginfo_of_pruned (hi.i.inv hG.i).wf.data r2, r5⟩

/-- C98.  Likewise the list of members: every member, and the list as a whole. -/
theorem group_members_delivered {G D : GroupSys} (hG : G.Good) (hD : D.Good) {si sm : Option (Bytes → Bytes)}
    (hGD : SameGroup G D si sm) {g t : GState} {log log' : List (Bytes × Found)} (hg : GReach G g log)
    (ht : GReach D t log') {s : Int} {m : Bytes} {obs : List Bytes}
    (hp : (g.members.push G.SM).2 = .ok (s, m, obs)) (hs : s ≠ 0) (hopen : CanOpen G.SM g t m)
    (hst : t.members.st ≠ .dirty)
    (hknown : t.members.seqno = 0 ∨
      ∀ M, parseMsg G.SM.env false (g.members.plain G.SM) = .ok M → Supersedes D.SM M t.members)
    (hnc : G.SM.env.H (g.members.plain G.SM) = G.SM.env.H (t.members.plain D.SM) →
      g.members.plain G.SM = t.members.plain D.SM)
    (hov : int64Ok (s + G.SM.env.lag) = true) (hnamed : g.members.MembersNamed) (hclean : g.members.MembersClean)
    (h : Bytes) :
    (t.members.merge D.SM [(h, m)]).2 = .ok [h] ∧
    (∀ id, (t.members.merge D.SM [(h, m)]).1.getMember id = g.members.getMember id) ∧
    (t.members.merge D.SM [(h, m)]).1.members = g.members.members ∧
    (t.members.merge D.SM [(h, m)]).1.needsPush = false := by
  have hi := hg.inv hG
  have hti := (ht.inv hD).m
  have hSD := hD.m
  obtain ⟨k, pre, post, k1, _, k3, k4⟩ := canOpen_split hD ht hopen
  rw [hGD.m] at hknown hnc hSD hti ⊢
  have hk := ((group_keys_in_step hG hg).2.2.2.2 k).1 k1
  rw [(group_keys_in_step hG hg).1] at hk
  have hrec := push_received_any hG.m hSD hG.protoM hi.m hp hk pre post k4
  rw [← k3] at hrec
  obtain ⟨r1, r2, _, _, r5, _⟩ := delivery_received hG.m hSD hi.m hti hp hs hrec hst hknown hnc hov h
  obtain ⟨q1, q2⟩ := members_of_pruned hG.m hi.m r2 hnamed hclean
  exact ⟨r1, q1, q2, r5⟩

/-! ### A concrete case -/

def gG : GroupSys := ⟨toyG, gAdmin, exSys, exSys⟩
def gD : GroupSys := ⟨toyG, gMem1, exSysRO, exSysRO⟩

def gm1 : GMember := { id := gMem1.sessionId toyG, name := [65] }
def gm2 : GMember := { id := gMem2.sessionId toyG, name := [66], invite := 1 }

/-- The admin's device: a description and two members, then a rekey -/
def ga0 : GState := GState.new gG
def ga1 : GState := { ga0 with info := (ga0.info.setInfoName exSys [71, 72]).1 }
def ga2 : GState := { ga1 with members := ((ga1.members.setMember exSys gm1).1.setMember exSys gm2).1 }
def ga3 : GState := (ga2.rekey gG).1
def gaMsg : Bytes := match (ga2.rekey gG).2 with | .ok m => m | _ => []

/-- The member's device: new, then loading the key message -/
def gb1 : GState := ((GState.new gD).load gD [1] gaMsg 1000).1

def pushedBy (S : Sys) (c : Client) : Bytes := match (c.push S).2 with | .ok (_, m, _) => m | _ => []

example : (ga2.rekey gG).2 = .ok gaMsg ∧ ga3.info.needsPush = true ∧ ga3.members.needsPush = true ∧
    ((GState.new gD).load gD [1] gaMsg 1000).2 = .ok true ∧ gb1.keys.groupEncKey = ga3.keys.groupEncKey ∧
    gb1.info.keys = ga3.info.keys ∧ ga3.info.keys.length = 1 ∧
    (gb1.info.merge exSysRO [([2], pushedBy exSys ga3.info)]).1.ginfo = ga3.info.ginfo ∧
    ga3.info.infoName = some [71, 72] ∧
    (gb1.members.merge exSysRO [([3], pushedBy exSys ga3.members)]).1.members = .ok [gm1, gm2] := by
  decide +kernel

theorem gG_good : gG.Good := ⟨toyG_good, exSys_good, exSys_good, rfl, rfl⟩

theorem exSysRO_good : exSysRO.Good :=
  { sane := ⟨exEnvH_sane.1, fun f hf => by cases hf⟩, lag1 := by decide, lagU := by decide, prims := toyPrims_good,
    dom := by decide, zip := fun _ => rfl, sig := fun v f _ hf => (by cases hf), proto := fun w u h => (by cases h) }

theorem gD_good : gD.Good := ⟨toyG_good, exSysRO_good, exSysRO_good, rfl, rfl⟩

theorem gGD : SameGroup gG gD none none := ⟨rfl, rfl, rfl, rfl⟩

theorem GReach.editInfo {G : GroupSys} {g : GState} {log : List (Bytes × Found)} {c : Client} (hg : GReach G g log)
    (h : Edits G.SI g.info c) : GReach G { g with info := c } log := by
  induction h with
  | refl => exact hg
  | @tail b d h1 h2 h3 ih => exact .info (g := { g with info := b }) (c := (b.edit G.SI d).1) ih (.edit b d h2 (by rw [h3]; rfl))

theorem GReach.editMembers {G : GroupSys} {g : GState} {log : List (Bytes × Found)} {c : Client}
    (hg : GReach G g log) (h : Edits G.SM g.members c) : GReach G { g with members := c } log := by
  induction h with
  | refl => exact hg
  | @tail b d h1 h2 h3 ih =>
    exact .members (g := { g with members := b }) (c := (b.edit G.SM d).1) ih (.edit b d h2 (by rw [h3]; rfl))

theorem ga2_reach : GReach gG ga2 [] := by
  have h0 : GReach gG ga0 [] := .new
  have h1 : GReach gG ga1 [] := h0.editInfo (by
    refine write_edits exSys_good .new (p := [[110]]) (v := fStr [71, 72]) (wfO_nestr _) ?_
    exact pair_ok (by decide +kernel))
  have a1 : ga1.members.setMember exSys gm1 = ((ga1.members.setMember exSys gm1).1, .ok ()) := pair_ok (by decide +kernel)
  have a2 : (ga1.members.setMember exSys gm1).1.setMember exSys gm2 = (ga2.members, .ok ()) := pair_ok (by decide +kernel)
  have hm1 : Reach exSys ga1.members := .new
  have e1 := setRec_edits exSys_good hm1 (fun _ => gmember_fields_wf (m := gm1) (by decide)) a1
  have hm2 := (gmember_set_get exSys_good hm1 (m := gm1) (by decide) a1).1
  have e2 := setRec_edits exSys_good hm2 (fun _ => gmember_fields_wf (m := gm2) (by decide)) a2
  exact h1.editMembers (e1.trans e2)

/-- C96 and C97 applied to it. -/
example : GReach gG ga3 [] ∧ ga3.members.keys = ga3.info.keys ∧
    ∃ t', (GState.new gD).load gD [1] gaMsg 1000 = (t', .ok true) ∧ t'.keys.groupEncKey = ga3.keys.groupEncKey := by
  have hr : ga2.rekey gG = (ga3, .ok gaMsg) :=
    Prod.ext rfl (by decide +kernel : (ga2.rekey gG).2 = .ok gaMsg)
  have h3 := (group_rekey_effects gG_good ga2_reach hr).1
  obtain ⟨t', l1, _, l3, _⟩ := group_rekey_reaches gG_good gD_good gGD gAdmin_own ga2_reach hr
    (by rintro x ⟨_, _, hx, _⟩; cases hx)
    (.new : GReach gD (GState.new gD) []) (.inr ⟨rfl, ⟨gm1, by decide +kernel⟩, fun K nonce ms hK hn hms =>
      noConfusion_toy (u := gU1) (v := gU2) hn (by decide +kernel) hK (by
        have : ga2.members.members = .ok [gm1, gm2] := by decide +kernel
        rw [this] at hms
        cases hms
        simp only [List.map_cons, List.map_nil, List.mem_cons, List.not_mem_nil, or_false]
        rintro x (rfl | rfl)
        · exact .inl rfl
        · exact .inr rfl)⟩)
    (by rintro x ⟨_, _, hx, _⟩; cases hx) [1] (ts := 1000) (by decide +kernel)
  exact ⟨h3, (group_keys_in_step gG_good h3).1.symm, t', l1, l3⟩

/-- C98 applied to it. -/
example : (gb1.info.merge exSysRO [([2], pushedBy exSys ga3.info)]).1.ginfo = ga3.info.ginfo := by
  have hr : ga2.rekey gG = (ga3, .ok gaMsg) :=
    Prod.ext rfl (by decide +kernel : (ga2.rekey gG).2 = .ok gaMsg)
  have h3 := (group_rekey_effects gG_good ga2_reach hr).1
  have hp : ∃ f, parseKeyMsg toyG gMem1 gaMsg 1000 = .ok f := by
    have : (parseKeyMsg toyG gMem1 gaMsg 1000).isOk = true := by decide +kernel
    cases h : parseKeyMsg toyG gMem1 gaMsg 1000 with
    | ok f => exact ⟨f, rfl⟩
    | err _ => rw [h] at this; cases this
    | hang => rw [h] at this; cases this
    | ub => rw [h] at this; cases this
  obtain ⟨f, hf⟩ := hp
  have hb : GReach gD gb1 [([1], f)] := .load (.new : GReach gD (GState.new gD) []) hf (by decide +kernel)
  have hk : gb1.keys.groupKeys = [ga3.keys.pendingKey] := by decide +kernel
  obtain ⟨o, ho⟩ : ∃ o, (ga3.info.push exSys).2 = .ok (1, pushedBy exSys ga3.info, o) :=
    ⟨match (ga3.info.push exSys).2 with | .ok (_, _, o) => o | _ => [], by decide +kernel⟩
  refine (group_info_delivered gG_good gD_good gGD h3 hb (s := 1) ho (by decide)
    ⟨ga3.keys.pendingKey, by decide +kernel, by rw [hk]; simp, ?_⟩ (by decide +kernel) (.inl (by decide +kernel))
    (fun hh => ?_) (by decide +kernel) [2]).2.1
  · intro k' hk' hne
    rw [hk] at hk'
    exact absurd (List.mem_singleton.1 hk') hne
  · revert hh; decide +kernel

end Verif
