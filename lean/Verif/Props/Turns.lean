import Verif.Props.Agree
import Verif.Props.ReadOnly

/-!
# Devices that take turns (C155)
-/

namespace Verif

/-- A batch of what was published (the versions `V`), in any order, with repetitions and with things that are no config messages. -/
structure FromWriter (S : Sys) (W : Bytes → Prop) (V : Client → Prop) (c : Client) (configs : List (Bytes × Bytes)) : Prop where
  world : ∀ p ∈ gather S c.keys configs, W p.2
  source : ∀ p ∈ gather S c.keys configs, (∃ v, V v ∧ p.2 = v.plain S) ∨ Refused S.env p.2

/-- The states of a device that does not edit: any calls that leave nothing to push, merges of what was published, and
restarts.  The list is what it was given so far.  It starts new, or with a version that it published itself. -/
inductive Follower (S : Sys) (W : Bytes → Prop) (V : Client → Prop) : List Bytes → Client → Prop
  | new : W ((Client.new S).plain S) → Follower S W V [] (Client.new S)
  | wrote {v : Client} : V v → v.needsPush = false → Follower S W V [v.plain S] v
  | call {l : List Bytes} {c c' : Client} : Follower S W V l c → LocalStep S c c' → c'.needsPush = false → W (c'.plain S) →
      Follower S W V l c'
  | merge {l : List Bytes} {c : Client} {configs : List (Bytes × Bytes)} : Follower S W V l c → FromWriter S W V c configs →
      (c.merge S configs).2.isOk = true → W ((c.merge S configs).1.plain S) →
      Follower S W V (l ++ (gather S c.keys configs).map (·.2)) (c.merge S configs).1
  | restart {l : List Bytes} {c c' : Client} {ord : List Bytes} : Follower S W V l c → S.env.verifier = none →
      S.env.signer = none → ord.Perm (if S.env.readonly then [] else c.old) →
      Client.restore S (c.dumpBytes S ord) = .ok c' → W (c'.plain S) → Follower S W V l c'

/-- what `follower_follows` says of a follower -/
structure Following (S : Sys) (W : Bytes → Prop) (V : Client → Prop) (l : List Bytes) (c : Client) : Prop where
  node : Node S W c
  quiet : c.needsPush = false
  newest : ∀ b ∈ l, ∀ m, parseMsg S.env false b = .ok m → m.seqno ≤ c.seqno
  holds : (c.seqno = 0 ∧ c.content = [] ∧ ∀ b ∈ l, ∀ m, parseMsg S.env false b ≠ .ok m) ∨
    (c.plain S ∈ l ∧ ∃ v, V v ∧ c.plain S = v.plain S)

/-- The device in the state `b` knew of the version `a` (`Known`: it held it or merged it), or of a version, published by a
device, that was made knowing of `a`, and so on. -/
inductive Seen (S : Sys) (W : Bytes → Prop) (a : Client) : Client → Prop
  | knew {b : Client} : Known S W (a.plain S) b → Seen S W a b
  | through {e b : Client} : Seen S W a e → Node S W e → Known S W (e.plain S) b → Seen S W a b

/-- Published versions, by any devices, of which each was made knowing of the earlier ones. -/
structure InTurn (S : Sys) (W : Bytes → Prop) (V : Client → Prop) : Prop where
  node : ∀ v, V v → Node S W v
  published : ∀ v, V v → v.st ≠ .dirty
  seqno : ∀ v, V v → v.seqno ≠ 0
  range : ∀ v, V v → int64Ok (v.seqno + S.env.lag) = true
  turn : ∀ a b, V a → V b → Seen S W a b ∨ Seen S W b a

theorem follows_trans {S : Sys} (hS : S.Good) (hro : S.env.readonly = false) {W : Bytes → Prop} (hW : Collisionless S W)
    {e b : Client} (he : Node S W e) (hb : Node S W b) {s : SH} (h1 : Follows S.env.lag s (e.ownMsg S))
    (h2 : Follows S.env.lag (e.ownMsg S).sh (b.ownMsg S)) : Follows S.env.lag s (b.ownMsg S) := by
  have hrd : ∀ e, Node S W e → parseMsg S.env false (e.plain S) = .ok (e.ownMsg S) := fun e he =>
    ((he.peer hW).inv hS hro).read hS hro
  have hcl := histories_closed hS hro hW (inputs := [b.plain S, e.plain S]) fun x hx _ => by
    rcases List.mem_cons.1 hx with rfl | hx
    · exact ⟨b, hb, rfl⟩
    · exact ⟨e, he, List.mem_singleton.1 hx⟩
  have hg := goodBatch_of (hW.batch (l := [b.plain S, e.plain S]) fun x hx => by
    rcases List.mem_cons.1 hx with rfl | hx
    · exact hb.held
    · rw [List.mem_singleton.1 hx]; exact he.held)
  have me : e.ownMsg S ∈ validOf S.env [b.plain S, e.plain S] :=
    mem_validOf.2 ⟨_, List.mem_cons_of_mem _ (List.mem_singleton.2 rfl), hrd e he⟩
  have mb : b.ownMsg S ∈ validOf S.env [b.plain S, e.plain S] := mem_validOf.2 ⟨_, List.mem_cons_self .., hrd b hb⟩
  have hsh : (e.ownMsg S).sh.1 = (e.ownMsg S).seqno := rfl
  have hle : s.1 ≤ (e.ownMsg S).seqno := by
    have := hS.lag1
    rcases h1 with h | ⟨p, hp, rfl⟩ | h
    · rw [← h]; exact le_refl _
    · exact le_of_lt (hg.window _ me p hp)
    · omega
  rcases h2 with h | ⟨p, hp, hpe⟩ | h
  · rw [Node.same hS hro hW he hb h]; exact h1
  · rcases h1 with h1 | ⟨q, hq, rfl⟩ | h1
    · rw [← h1]; exact .inr (.inl ⟨p, hp, hpe⟩)
    · by_cases hw : (b.ownMsg S).seqno - S.env.lag < q.1.1
      · obtain ⟨r, hr, hrq⟩ := hcl _ mb _ me ⟨p, hp, hpe⟩ q hq hw
        exact .inr (.inl ⟨r, hr, hrq⟩)
      · right; right; omega
    · have h3 := hg.window _ mb p hp
      rw [hpe, hsh] at h3
      right; right; omega
  · right; right; omega

theorem Known.node {S : Sys} {W : Bytes → Prop} {x : Bytes} {b : Client} (h : Known S W x b) : Node S W b := by
  cases h with
  | held h0 _ _ _ hon => exact hon.node h0
  | merged h0 ho hok hw _ _ _ _ _ hon => exact hon.node (h0.merge_ours ho (isOk_safe hok) hw)

/-- What was seen is followed. -/
theorem Seen.follows {S : Sys} (hS : S.Good) (hro : S.env.readonly = false) {W : Bytes → Prop} (hW : Collisionless S W)
    {a b : Client} (ha : Node S W a) (h : Seen S W a b) : Follows S.env.lag (a.ownMsg S).sh (b.ownMsg S) := by
  have hrd : ∀ e, Node S W e → parseMsg S.env false (e.plain S) = .ok (e.ownMsg S) := fun e he =>
    ((he.peer hW).inv hS hro).read hS hro
  induction h with
  | knew hk => exact hk.follows hS hro hW (hrd a ha)
  | through _ he hk ih => exact follows_trans hS hro hW he hk.node ih (hk.follows hS hro hW (hrd _ he))

theorem InTurn.ordered {S : Sys} (hS : S.Good) (hro : S.env.readonly = false) {W : Bytes → Prop} (hW : Collisionless S W)
    {V : Client → Prop} (hV : InTurn S W V) {a b : Client} (ha : V a) (hb : V b) :
    Follows S.env.lag (a.ownMsg S).sh (b.ownMsg S) ∨ Follows S.env.lag (b.ownMsg S).sh (a.ownMsg S) :=
  (hV.turn a b ha hb).imp (·.follows hS hro hW (hV.node a ha)) (·.follows hS hro hW (hV.node b hb))

/-- one that follows another is that one or has a higher seqno -/
theorem follows_seqno {S : Sys} (hS : S.Good) (hro : S.env.readonly = false) {W : Bytes → Prop} (hW : Collisionless S W)
    {b : Client} (hb : Node S W b) {s : SH} (h : Follows S.env.lag s (b.ownMsg S)) :
    (b.ownMsg S).sh = s ∨ s.1 < (b.ownMsg S).seqno := by
  have := hS.lag1
  rcases h with h | ⟨p, hp, rfl⟩ | h
  · exact .inl h
  · right
    have hg := goodBatch_of (hW.batch (l := [b.plain S]) fun x hx => by rw [List.mem_singleton.1 hx]; exact hb.held)
    exact hg.window _ (mem_validOf.2 ⟨_, List.mem_singleton.2 rfl, ((hb.peer hW).inv hS hro).read hS hro⟩) p hp
  · right; omega

theorem FromWriter.ours {S : Sys} {W : Bytes → Prop} {V : Client → Prop} (hV : InTurn S W V) {c : Client}
    {configs : List (Bytes × Bytes)} (h : FromWriter S W V c configs) : Ours S W c configs :=
  ⟨h.world, fun p hp => (h.source p hp).imp (fun ⟨v, hv, he⟩ => ⟨v, hV.node v hv, he, hV.range v hv⟩) id⟩

/-- Of such versions, none conflicts with a higher one. -/
theorem InTurn.no_conflict {S : Sys} (hS : S.Good) (hro : S.env.readonly = false) {W : Bytes → Prop} (hW : Collisionless S W)
    {V : Client → Prop} (hV : InTurn S W V) {cs : List Msg} (hcs : ∀ m ∈ cs, ∃ v, V v ∧ m = v.ownMsg S)
    {top : Msg} (ht : top ∈ cs) (hmax : ∀ m ∈ cs, m.sh ≤ top.sh) {m : Msg} (hm : Current S.env.lag cs m) : m = top := by
  obtain ⟨a, ha, rfl⟩ := hcs m hm.1
  obtain ⟨b, hb, rfl⟩ := hcs top ht
  have key : ∀ {x y : Client}, V x → V y → (x.ownMsg S).sh = (y.ownMsg S).sh → x.ownMsg S = y.ownMsg S := fun hx hy h =>
    (hV.node _ hy).same hS hro hW (hV.node _ hx) h
  rcases hV.ordered hS hro hW ha hb with h | h
  · rcases h with h | ⟨p, hp, he⟩ | h
    · exact key ha hb h.symm
    · exact absurd he (hm.2.1 _ ht p hp)
    · have h3 := hm.2.2 _ ht
      have : (a.ownMsg S).sh.1 = (a.ownMsg S).seqno := rfl
      omega
  · rcases follows_seqno hS hro hW (hV.node a ha) h with h | h
    · exact key ha hb h
    · have h2 := sh_le_seqno (hmax _ hm.1)
      have : (b.ownMsg S).sh.1 = (b.ownMsg S).seqno := rfl
      omega

theorem turn_merge {S : Sys} (hS : S.Good) (hro : S.env.readonly = false) {W : Bytes → Prop} (hW : Collisionless S W)
    {V : Client → Prop} (hV : InTurn S W V) {l : List Bytes} {c : Client} (h : Following S W V l c)
    {configs : List (Bytes × Bytes)} (hb : FromWriter S W V c configs) (hok : (c.merge S configs).2.isOk = true)
    (hw : W ((c.merge S configs).1.plain S)) :
    Following S W V (l ++ (gather S c.keys configs).map (·.2)) (c.merge S configs).1 := by
  have ho := hb.ours hV
  have hN := h.node.merge_ours ho (isOk_safe hok) hw
  have hclean : c.st = .clean := needsPush_false_iff.1 h.quiet
  have hnd : c.st ≠ .dirty := by rw [hclean]; exact fun hh => CState.noConfusion hh
  have hci := ((h.node.peer hW).inv hS hro).reach.inv hS
  have hcol := hW.batch (allConfs_W h.node.held ho.world)
  have hrd : ∀ e, Node S W e → parseMsg S.env false (e.plain S) = .ok (e.ownMsg S) := fun e he =>
    ((he.peer hW).inv hS hro).read hS hro
  -- what is in the batch and valid
  have hgood : ∀ p ∈ gather S c.keys configs, ∀ m, parseMsg S.env false p.2 = .ok m →
      ∃ v, V v ∧ p.2 = v.plain S ∧ m = v.ownMsg S := by
    intro p hp m hm
    rcases hb.source p hp with ⟨v, hv, he⟩ | ⟨e, he, _⟩
    · refine ⟨v, hv, he, ?_⟩
      rw [he, hrd v (hV.node v hv)] at hm
      exact (Out.ok.inj hm).symm
    · rw [he] at hm; cases hm
  have hzero : c.hasMine = true → c.seqno ≠ 0 := by
    intro hm h0
    unfold Client.hasMine at hm
    unfold Client.seqno at h0
    simp [h0, hnd] at hm
  have hown : c.hasMine = true → ∃ v, V v ∧ c.plain S = v.plain S ∧ c.ownMsg S = v.ownMsg S := by
    intro hm
    rcases h.holds with ⟨h0, _⟩ | ⟨_, v, hv, he⟩
    · exact absurd h0 (hzero hm)
    · refine ⟨v, hv, he, ?_⟩
      have h1 := hrd c h.node
      rw [he, hrd v (hV.node v hv)] at h1
      exact (Out.ok.inj h1).symm
  have hvalid : ∀ m ∈ validOf S.env ((c.allConfs S.env (gather S c.keys configs)).map (·.2)), ∃ v, V v ∧ m = v.ownMsg S := by
    intro m hm
    rw [hci.valid_all hS] at hm
    rcases List.mem_append.1 hm with hm | hm
    · split at hm
      · rename_i hmine
        obtain ⟨v, hv, _, he⟩ := hown hmine
        exact ⟨v, hv, (List.mem_singleton.1 hm).trans he⟩
      · cases hm
    · obtain ⟨b, hbm, hpm⟩ := mem_validOf.1 hm
      obtain ⟨p, hp, rfl⟩ := List.mem_map.1 hbm
      obtain ⟨v, hv, _, he⟩ := hgood p hp m hpm
      exact ⟨v, hv, he⟩
  -- afterwards the object follows everything that took part
  have hafter : ∀ p ∈ gather S c.keys configs, ∀ v, V v → p.2 = v.plain S → After S (v.ownMsg S).sh (c.merge S configs).1 := by
    intro p hp v hv he
    exact merged_after hS hro hW h.node ho hok hw (hV.node v hv) (hV.seqno v hv) (.inl ⟨p.1, by rw [← he]; exact hp⟩) (.inl hnd)
  have hnewest : ∀ p ∈ gather S c.keys configs, ∀ m, parseMsg S.env false p.2 = .ok m → m.seqno ≤ (c.merge S configs).1.seqno := by
    intro p hp m hm
    obtain ⟨v, hv, he, rfl⟩ := hgood p hp m hm
    exact (hafter p hp v hv he).le
  rcases merge_cases (isOk_safe hok) with ⟨e, he, _⟩ | ⟨R, bad, _, hR, hmm⟩
  · rw [he] at hok; cases hok
  rcases merge_outcome hS hci hcol hR with ⟨top, i, hti, hmax, hone, hRe, _⟩ | ⟨top, ht, hmax, _, ⟨m, hmc, hmt⟩, hu, _⟩
  swap
  · exact absurd (hV.no_conflict hS hro hW hvalid ht hmax hmc) hmt
  rcases (absorb_cases hS hci (ho.fair hS hro hW) hcol hR).2 with hx | ⟨hu, _⟩ | ⟨top', j, x, y, htj, hmax', _, hRe', hne, hlt, hy, hx⟩
  · -- nothing changes
    rw [← hmm] at hx
    obtain ⟨n1, n2, n3⟩ := noted_conf hci.wf (c.allConfs S.env (gather S c.keys configs)) R bad S.env
    have hst : (c.noted (c.allConfs S.env (gather S c.keys configs)) R bad).st = c.st := by
      unfold Client.noted; dsimp only
    have hse : (c.merge S configs).1.seqno = c.seqno := by
      show (c.merge S configs).1.conf.m.seqno = _
      rw [hx]; exact n1
    have hpl : (c.merge S configs).1.plain S = c.plain S := by
      show (c.merge S configs).1.conf.ser S.env true = _
      rw [hx]; exact n2
    have hco : (c.merge S configs).1.content = c.content := by
      show pruneD (c.merge S configs).1.conf.m.data = _
      rw [hx]; exact n3
    refine ⟨hN, ?_, fun b hbm m hm => ?_, ?_⟩
    · rw [needsPush_false_iff, hx, hst]; exact hclean
    · rcases List.mem_append.1 hbm with hbm | hbm
      · rw [hse]; exact h.newest b hbm m hm
      · obtain ⟨p, hp, rfl⟩ := List.mem_map.1 hbm
        exact hnewest p hp m hm
    · rw [hse, hco, hpl]
      rcases h.holds with ⟨h0, h1, h2⟩ | ⟨h1, h2⟩
      · left
        refine ⟨h0, h1, fun b hbm m hm => ?_⟩
        rcases List.mem_append.1 hbm with hbm | hbm
        · exact h2 b hbm m hm
        · obtain ⟨p, hp, rfl⟩ := List.mem_map.1 hbm
          have h3 := hnewest p hp m hm
          obtain ⟨v, hv, _, rfl⟩ := hgood p hp m hm
          have h4 := ((hV.node v hv).peer hW).pos hS hro (hV.seqno v hv)
          have : (v.ownMsg S).sh.1 = (v.ownMsg S).seqno := rfl
          rw [hse, h0] at h3
          omega
      · exact .inr ⟨List.mem_append_left _ h1, h2⟩
  · exfalso; rw [hRe] at hu; simp only at hu; omega
  · -- a version is taken over
    rw [← hmm] at hx
    have htop := List.mem_of_getElem? htj
    rw [hci.valid_all hS] at htop
    have hin : top' ∈ validOf S.env ((gather S c.keys configs).map (·.2)) := by
      rcases List.mem_append.1 htop with hm | hm
      · split at hm
        · rename_i hmine
          exact absurd (List.mem_singleton.1 hm) (hne hmine)
        · cases hm
      · exact hm
    obtain ⟨b, hbm, hpm⟩ := mem_validOf.1 hin
    obtain ⟨p, hp, rfl⟩ := List.mem_map.1 hbm
    obtain ⟨v, hv, he, rfl⟩ := hgood p hp _ hpm
    have hse : (c.merge S configs).1.seqno = (v.ownMsg S).seqno := by
      show (c.merge S configs).1.conf.m.seqno = _
      rw [hx]
      show (c.newConf S R).m.seqno = _
      rw [newConf_seqno, if_neg (fun hh => hnd hh.1), hRe']
    have hpl : (c.merge S configs).1.plain S = v.plain S := by
      rcases hafter p hp v hv he with ⟨_, h1⟩ | h1
      · exact hW _ _ hN.held (hV.node v hv).held (congrArg (fun x : SH => x.2) h1)
      · exfalso
        have h2 := h1.1
        have h3 : (c.merge S configs).1.seqno = (c.merge S configs).1.conf.m.seqno := rfl
        have h4 : (v.ownMsg S).sh.1 = (v.ownMsg S).seqno := rfl
        omega
    refine ⟨hN, ?_, fun b hbm m hm => ?_, .inr ⟨?_, v, hv, hpl⟩⟩
    · rw [needsPush_false_iff, hx]; rfl
    · rcases List.mem_append.1 hbm with hbm | hbm
      · have h1 := h.newest b hbm m hm
        have h2 : c.conf.m.seqno < (c.merge S configs).1.conf.m.seqno := by rw [hx]; exact hlt
        have h3 : (c.merge S configs).1.seqno = (c.merge S configs).1.conf.m.seqno := rfl
        have h4 : c.seqno = c.conf.m.seqno := rfl
        omega
      · obtain ⟨q, hq, rfl⟩ := List.mem_map.1 hbm
        exact hnewest q hq m hm
    · refine List.mem_append_right _ (List.mem_map.2 ⟨p, hp, ?_⟩)
      rw [hpl]; exact he

/-! ## C155 -/

/-- C155.  Among devices that take turns, one that does not edit for a while never has anything to push, it is
at least at the seqno of everything it was given, and it holds exactly one of the versions it was given (or, if it was given none, is
new). -/
theorem turn_follows {S : Sys} (hS : S.Good) (hro : S.env.readonly = false) {W : Bytes → Prop} (hW : Collisionless S W)
    {V : Client → Prop} (hV : InTurn S W V) {l : List Bytes} {c : Client} (h : Follower S W V l c) : Following S W V l c := by
  induction h with
  | new hw =>
    exact ⟨.new hw, rfl, fun b hb => (by cases hb), .inl ⟨rfl, rfl, fun b hb => (by cases hb)⟩⟩
  | @wrote v hv hq =>
    refine ⟨hV.node v hv, hq, fun b hb m hm => ?_, .inr ⟨List.mem_singleton.2 rfl, v, hv, rfl⟩⟩
    rw [List.mem_singleton.1 hb, (((hV.node v hv).peer hW).inv hS hro).read hS hro] at hm
    rw [← Out.ok.inj hm, ownMsg_seqno]
    exact le_refl _
  | @call l c c' hc hs hq hw ih =>
    have hcc := ((ih.node.peer hW).inv hS hro).reach.inv hS
    have hkeep : c'.conf = c.conf ∨ c'.conf = c.conf.refresh := by
      cases hs.move with
      | keep h1 _ => exact h1
      | inc _ _ h1 => rw [needsPush_false_iff, h1] at hq; cases hq
      | mod _ _ _ h1 => rw [needsPush_false_iff, h1] at hq; cases hq
    have hse : c'.seqno = c.seqno := by
      show c'.conf.m.seqno = c.conf.m.seqno
      rcases hkeep with h1 | h1 <;> rw [h1]
      exact refresh_seqno _
    have hpl : c'.plain S = c.plain S := by
      show c'.conf.ser S.env true = c.conf.ser S.env true
      rcases hkeep with h1 | h1 <;> rw [h1]
      exact ser_refresh hcc.wf _ _
    have hco : c'.content = c.content := by
      show pruneD c'.conf.m.data = pruneD c.conf.m.data
      rcases hkeep with h1 | h1 <;> rw [h1]
      rw [refresh_data_eq hcc.wf]; exact pruneD_of_wf (pruneD_wf hcc.wf.data)
    refine ⟨.step ih.node hs hw, hq, ?_, ?_⟩
    · rw [hse]; exact ih.newest
    · rw [hse, hco, hpl]; exact ih.holds
  | merge _ hb hok hw ih => exact turn_merge hS hro hW hV ih hb hok hw
  | @restart l c c' ord hc h1 h2 h3 h4 hw ih =>
    have hov : int64Ok (c.seqno + S.env.lag) = true := by
      rcases ih.holds with ⟨h0, _⟩ | ⟨_, v, hv, he⟩
      · rw [h0]
        have := hS.lag1; have := hS.lagU
        unfold int64Ok; simp; omega
      · have h5 : c.ownMsg S = v.ownMsg S := by
          have h6 := ((ih.node.peer hW).inv hS hro).read hS hro
          rw [he, ((((hV.node v hv)).peer hW).inv hS hro).read hS hro] at h6
          exact (Out.ok.inj h6).symm
        have h6 : c.seqno = v.seqno := by
          have := congrArg Msg.seqno h5
          rw [ownMsg_seqno, ownMsg_seqno] at this
          exact this
        rw [h6]; exact hV.range v hv
    have hnd : c.st ≠ .dirty := by
      rw [needsPush_false_iff.1 ih.quiet]; exact fun hh => CState.noConfusion hh
    obtain ⟨d, e1, e2, e3, e4, _, _, _, e5⟩ := dump_roundtrip hS ((ih.node.peer hW).inv hS hro).reach h3 hov
    rw [e1] at h4
    have := Out.ok.inj h4
    subst this
    obtain ⟨e5, e6⟩ := e5 hnd
    refine ⟨.restore ih.node h1 h2 h3 e1 hw, by rw [e4]; exact ih.quiet, ?_, ?_⟩
    · rw [e5]; exact ih.newest
    · rw [e5, e2, e6]; exact ih.holds

/-- C155.  The content of a follower is that of the highest version it was given. -/
theorem turn_content {S : Sys} (hS : S.Good) (hro : S.env.readonly = false) {W : Bytes → Prop} (hW : Collisionless S W)
    {V : Client → Prop} (hV : InTurn S W V) {l : List Bytes} {c : Client} (h : Follower S W V l c)
    {b : Bytes} (hb : b ∈ l) {m : Msg} (hm : parseMsg S.env false b = .ok m)
    (hmax : ∀ b' ∈ l, ∀ m', parseMsg S.env false b' = .ok m' → m'.seqno ≤ m.seqno) :
    c.content = m.data ∧ c.seqno = m.seqno ∧ c.plain S = b ∧ c.needsPush = false := by
  have hf := turn_follows hS hro hW hV h
  rcases hf.holds with ⟨_, _, h2⟩ | ⟨h1, v, hv, he⟩
  · exact absurd hm (h2 b hb m)
  have hci := ((hf.node.peer hW).inv hS hro).reach.inv hS
  have hrd := ((hf.node.peer hW).inv hS hro).read hS hro
  have h3 := hmax _ h1 _ hrd
  rw [ownMsg_seqno] at h3
  have h4 := hf.newest b hb m hm
  -- the given version is one of the writer's
  have hsrc : ∀ {l : List Bytes} {c : Client}, Follower S W V l c → ∀ b ∈ l, ∀ m, parseMsg S.env false b = .ok m →
      ∃ u, V u ∧ b = u.plain S := by
    intro l c h
    induction h with
    | new => exact fun b hb => (by cases hb)
    | @wrote v hv _ => exact fun b hb _ _ => ⟨v, hv, List.mem_singleton.1 hb⟩
    | call _ _ _ _ ih => exact ih
    | restart _ _ _ _ _ _ ih => exact ih
    | merge _ hb _ _ ih =>
      intro b hbm m hm
      rcases List.mem_append.1 hbm with hbm | hbm
      · exact ih b hbm m hm
      · obtain ⟨p, hp, rfl⟩ := List.mem_map.1 hbm
        rcases hb.source p hp with hh | ⟨e, he, _⟩
        · exact hh
        · rw [he] at hm; cases hm
  obtain ⟨u, hu, rfl⟩ := hsrc h b hb m hm
  rw [(((hV.node u hu).peer hW).inv hS hro).read hS hro] at hm
  have hm := Out.ok.inj hm
  subst hm
  have hcv : c.ownMsg S = v.ownMsg S := by
    rw [he, (((hV.node v hv).peer hW).inv hS hro).read hS hro] at hrd
    exact (Out.ok.inj hrd).symm
  have hsv : c.conf.m.seqno = v.conf.m.seqno := by
    have := congrArg Msg.seqno hcv
    rw [ownMsg_seqno, ownMsg_seqno] at this
    exact this
  have hq : c.seqno = c.conf.m.seqno := rfl
  rw [ownMsg_seqno] at h3 h4
  have heq : v.plain S = u.plain S := by
    rcases hV.ordered hS hro hW hv hu with h5 | h5
    · rcases follows_seqno hS hro hW (hV.node u hu) h5 with h5 | h5
      · exact hW _ _ (hV.node v hv).held (hV.node u hu).held (congrArg (fun x : SH => x.2) h5.symm)
      · rw [own_sh_fst, ownMsg_seqno] at h5
        omega
    · rcases follows_seqno hS hro hW (hV.node v hv) h5 with h5 | h5
      · exact hW _ _ (hV.node v hv).held (hV.node u hu).held (congrArg (fun x : SH => x.2) h5)
      · rw [own_sh_fst, ownMsg_seqno] at h5
        omega
  have hcu : c.ownMsg S = u.ownMsg S := by
    have h6 := ((hf.node.peer hW).inv hS hro).read hS hro
    rw [he, heq, (((hV.node u hu).peer hW).inv hS hro).read hS hro] at h6
    exact (Out.ok.inj h6).symm
  refine ⟨?_, ?_, he.trans heq, hf.quiet⟩
  · rw [← hcu, ownMsg_data hci.wf]; rfl
  · rw [← hcu, ownMsg_seqno]; rfl

/-- C155.  Two followers that were given the same versions, in whatever order and batches, are the same. -/
theorem turns_agree {S : Sys} (hS : S.Good) (hro : S.env.readonly = false) {W : Bytes → Prop} (hW : Collisionless S W)
    {V : Client → Prop} (hV : InTurn S W V) {l k : List Bytes} {c d : Client} (hc : Follower S W V l c) (hd : Follower S W V k d)
    (hsame : ∀ b m, parseMsg S.env false b = .ok m → (b ∈ l ↔ b ∈ k)) :
    c.content = d.content ∧ c.seqno = d.seqno ∧ (c.seqno ≠ 0 → c.plain S = d.plain S) := by
  have fc := turn_follows hS hro hW hV hc
  have fd := turn_follows hS hro hW hV hd
  rcases fc.holds with ⟨c0, c1, c2⟩ | ⟨c1, _⟩
  · rcases fd.holds with ⟨d0, d1, _⟩ | ⟨d1, _⟩
    · exact ⟨c1.trans d1.symm, c0.trans d0.symm, fun h => absurd c0 h⟩
    · have hrd := ((fd.node.peer hW).inv hS hro).read hS hro
      exact absurd hrd (c2 _ ((hsame _ _ hrd).2 d1) _)
  · have hrd := ((fc.node.peer hW).inv hS hro).read hS hro
    have hci := ((fc.node.peer hW).inv hS hro).reach.inv hS
    obtain ⟨e1, e2, e3, _⟩ := turn_content hS hro hW hV hd ((hsame _ _ hrd).1 c1) hrd fun b' hb' m' hm' => by
      rw [ownMsg_seqno]; exact fc.newest b' ((hsame _ _ hm').2 hb') m' hm'
    refine ⟨?_, ?_, fun _ => e3.symm⟩
    · rw [e1, ownMsg_data hci.wf]; rfl
    · rw [e2, ownMsg_seqno]; rfl

theorem turn_reads {S : Sys} (hS : S.Good) (hro : S.env.readonly = false) {W : Bytes → Prop} (hW : Collisionless S W)
    {V : Client → Prop} (hV : InTurn S W V) {l : List Bytes} {c v : Client} (h : Follower S W V l c) (hv : V v)
    (hin : v.plain S ∈ l) (hmax : c.seqno ≤ v.seqno) :
    c.content = v.content ∧ c.seqno = v.seqno ∧ c.plain S = v.plain S ∧ c.needsPush = false := by
  have hr := (((hV.node v hv).peer hW).inv hS hro).read hS hro
  obtain ⟨h1, h2, h3⟩ := turn_content hS hro hW hV h hin hr (fun b' hb' m' hm' => by
    rw [ownMsg_seqno]
    exact le_trans ((turn_follows hS hro hW hV h).newest b' hb' m' hm') hmax)
  rw [ownMsg_data (((hV.node v hv).peer hW |>.inv hS hro).reach.inv hS).wf] at h1
  rw [ownMsg_seqno] at h2
  exact ⟨h1, h2, h3⟩

/-- The ways to publish versions in turn: a device may edit once it was given a version that is the newest of all. -/
inductive Turns (S : Sys) (W : Bytes → Prop) : (Client → Prop) → Prop
  | none : Turns S W (fun _ => False)
  | take {V : Client → Prop} {l : List Bytes} {c w : Client} : Turns S W V → Follower S W V l c →
      (∀ v, V v → ∃ b ∈ l, ∃ m, parseMsg S.env false b = .ok m ∧ v.seqno ≤ m.seqno) →
      Onward S W c w → w.st ≠ .dirty → w.seqno ≠ 0 → int64Ok (w.seqno + S.env.lag) = true →
      Turns S W (fun v => V v ∨ v = w)

theorem Follower.mono {S : Sys} {W : Bytes → Prop} {V V' : Client → Prop} (hVV : ∀ v, V v → V' v) {l : List Bytes} {c : Client}
    (h : Follower S W V l c) : Follower S W V' l c := by
  induction h with
  | new h => exact .new h
  | wrote hv hq => exact .wrote (hVV _ hv) hq
  | call _ hs hq hw ih => exact .call ih hs hq hw
  | merge _ hb hok hw ih =>
    exact .merge ih ⟨hb.world, fun p hp => (hb.source p hp).imp (fun ⟨v, hv, he⟩ => ⟨v, hVV v hv, he⟩) id⟩ hok hw
  | restart _ h1 h2 h3 h4 hw ih => exact .restart ih h1 h2 h3 h4 hw

/-- C155.  A device that was given the newest version holds it, and what it publishes after that was made knowing of everything
published before. -/
theorem turn_taken {S : Sys} (hS : S.Good) (hro : S.env.readonly = false) {W : Bytes → Prop} (hW : Collisionless S W)
    {V : Client → Prop} (hV : InTurn S W V) {l : List Bytes} {c w : Client} (h : Follower S W V l c)
    (hnew : ∀ v, V v → ∃ b ∈ l, ∃ m, parseMsg S.env false b = .ok m ∧ v.seqno ≤ m.seqno)
    (hon : Onward S W c w) : ∀ a, V a → Seen S W a w := by
  intro a ha
  have hf := turn_follows hS hro hW hV h
  obtain ⟨b, hb, m, hm, hle⟩ := hnew a ha
  rcases hf.holds with ⟨_, _, h2⟩ | ⟨_, v, hv, he⟩
  · exact absurd hm (h2 b hb m)
  have hsame : c.seqno = v.seqno := by
    have h1 := ((hf.node.peer hW).inv hS hro).read hS hro
    rw [he, (((hV.node v hv).peer hW).inv hS hro).read hS hro] at h1
    have := congrArg Msg.seqno (Out.ok.inj h1)
    rw [ownMsg_seqno, ownMsg_seqno] at this
    exact this.symm
  have hnd : c.st ≠ .dirty := by rw [needsPush_false_iff.1 hf.quiet]; exact fun hh => CState.noConfusion hh
  have h0 : c.seqno ≠ 0 := by rw [hsame]; exact hV.seqno v hv
  have hal : a.seqno ≤ v.seqno := by rw [← hsame]; exact le_trans hle (hf.newest b hb m hm)
  rcases hV.turn a v ha hv with h1 | h1
  · exact .through h1 (hV.node v hv) (.held hf.node hnd h0 he.symm hon)
  · rcases follows_seqno hS hro hW (hV.node a ha) (h1.follows hS hro hW (hV.node v hv)) with h2 | h2
    · refine .knew (.held hf.node hnd h0 ?_ hon)
      rw [he]
      exact hW _ _ (hV.node a ha).held (hV.node v hv).held (congrArg (fun x : SH => x.2) h2)
    · have e1 : (v.ownMsg S).sh.1 = v.seqno := own_sh_fst ..
      have e2 : (a.ownMsg S).seqno = a.seqno := ownMsg_seqno ..
      omega

/-- C155.  So all that was published by devices taking turns was made in turn. -/
theorem turns_in_turn {S : Sys} (hS : S.Good) (hro : S.env.readonly = false) {W : Bytes → Prop} (hW : Collisionless S W)
    {V : Client → Prop} (h : Turns S W V) : InTurn S W V := by
  induction h with
  | none => exact ⟨fun _ h => h.elim, fun _ h => h.elim, fun _ h => h.elim, fun _ h => h.elim, fun _ _ h => h.elim⟩
  | @take V l c w _ hc hnew hon hd h0 hr hV =>
    have hw : Node S W w := hon.node (turn_follows hS hro hW hV hc).node
    have hseen := turn_taken hS hro hW hV hc hnew hon
    refine ⟨?_, ?_, ?_, ?_, ?_⟩
    · rintro v (hv | rfl)
      · exact hV.node v hv
      · exact hw
    · rintro v (hv | rfl)
      · exact hV.published v hv
      · exact hd
    · rintro v (hv | rfl)
      · exact hV.seqno v hv
      · exact h0
    · rintro v (hv | rfl)
      · exact hV.range v hv
      · exact hr
    · rintro a b (ha | rfl) (hb | rfl)
      · exact hV.turn a b ha hb
      · exact .inl (hseen a ha)
      · exact .inr (hseen b hb)
      · exact .inl (.knew (.held hw hd h0 rfl .start))

/-- C155.  Each version is newer than all before it, unless it is the same. -/
theorem turn_newest {S : Sys} (hS : S.Good) (hro : S.env.readonly = false) {W : Bytes → Prop} (hW : Collisionless S W)
    {V : Client → Prop} (hT : Turns S W V) {l : List Bytes} {c w : Client} (h : Follower S W V l c)
    (hnew : ∀ v, V v → ∃ b ∈ l, ∃ m, parseMsg S.env false b = .ok m ∧ v.seqno ≤ m.seqno)
    (hon : Onward S W c w) {v : Client} (hv : V v) : w.plain S = v.plain S ∨ v.seqno < w.seqno := by
  have hV := turns_in_turn hS hro hW hT
  have hw : Node S W w := hon.node (turn_follows hS hro hW hV h).node
  have e1 : (v.ownMsg S).sh.1 = v.seqno := own_sh_fst ..
  have e2 : (w.ownMsg S).seqno = w.seqno := ownMsg_seqno ..
  rcases follows_seqno hS hro hW hw ((turn_taken hS hro hW hV h hnew hon v hv).follows hS hro hW (hV.node v hv)) with h1 | h1
  · exact .inl (hW _ _ hw.held (hV.node v hv).held (congrArg (fun x : SH => x.2) h1))
  · right; omega

/-- C155.  Nobody who takes part ever has to push but who just edited, and who was given the newest version has its content. -/
theorem turns_settle {S : Sys} (hS : S.Good) (hro : S.env.readonly = false) {W : Bytes → Prop} (hW : Collisionless S W)
    {V : Client → Prop} (hT : Turns S W V) {l : List Bytes} {c v : Client} (h : Follower S W V l c) (hv : V v)
    (hin : v.plain S ∈ l) (hmax : ∀ u, V u → u.seqno ≤ v.seqno) :
    c.needsPush = false ∧ c.content = v.content ∧ c.seqno = v.seqno ∧ c.plain S = v.plain S := by
  have hV := turns_in_turn hS hro hW hT
  have hle : c.seqno ≤ v.seqno := by
    have hf := turn_follows hS hro hW hV h
    rcases hf.holds with ⟨h0, _⟩ | ⟨_, u, hu, he⟩
    · rw [h0]
      exact (((((hV.node v hv).peer hW).inv hS hro).reach.inv hS).seq)
    · have h1 := ((hf.node.peer hW).inv hS hro).read hS hro
      rw [he, (((hV.node u hu).peer hW).inv hS hro).read hS hro] at h1
      have := congrArg Msg.seqno (Out.ok.inj h1)
      rw [ownMsg_seqno, ownMsg_seqno] at this
      have h2 : u.seqno = c.seqno := this
      rw [← h2]; exact hmax u hu
  obtain ⟨h1, h2, h3, h4⟩ := turn_reads hS hro hW hV h hv hin hle
  exact ⟨h4, h1, h2, h3⟩

/-! ### A concrete case: one device edits and publishes, another one takes that over, edits and publishes, the first takes that over -/

theorem from_one {S : Sys} {W : Bytes → Prop} {V : Client → Prop} {c : Client} {configs : List (Bytes × Bytes)} {l : List Bytes}
    (hg : (gather S c.keys configs).map (·.2) = l) (hl : ∀ b ∈ l, ∃ v, V v ∧ b = v.plain S ∧ W b) : FromWriter S W V c configs := by
  have : ∀ p ∈ gather S c.keys configs, ∃ v, V v ∧ p.2 = v.plain S ∧ W p.2 := fun p hp =>
    hl p.2 (by rw [← hg]; exact List.mem_map.2 ⟨p, hp, rfl⟩)
  exact ⟨fun p hp => (this p hp).elim fun _ h => h.2.2, fun p hp => .inl ((this p hp).elim fun v h => ⟨v, h.1, h.2.1⟩)⟩

def exT1 : Client → Prop := fun v => False ∨ v = exC3
def exT2 : Client → Prop := fun v => exT1 v ∨ v = exQ
def exT3 : Client := (exC3.merge exSys [([2], pushedMsg exSys exQ)]).1

theorem exC0_follower (V : Client → Prop) : Follower exSys exWorld V [] exC0 :=
  .call (.new (inWorld (by decide +kernel))) (.addKey _ _ _ _ (by decide +kernel)) (by decide +kernel) (inWorld (by decide +kernel))

theorem exT1_turns : Turns exSys exWorld exT1 :=
  .take .none (exC0_follower _) (fun _ h => h.elim)
    (.call (.call (.call .start (.edit _ _ (by decide +kernel) (by decide +kernel)) (inWorld (by decide +kernel)))
      (.push _) (inWorld (by decide +kernel))) (.confirm _ 1 [104]) (inWorld (by decide +kernel)))
    (by decide +kernel) (by decide +kernel) (by decide +kernel)

theorem exD1_follower : Follower exSys exWorld exT1 [exC3.plain exSys] exD1 := by
  have hg : (gather exSys exC0.keys [([104], exM1)]).map (·.2) = [exC3.plain exSys] := by decide +kernel
  have h := Follower.merge (exC0_follower exT1) (from_one (W := exWorld) (V := exT1) hg (fun b hb => by
    rw [List.mem_singleton.1 hb]; exact ⟨exC3, .inr rfl, rfl, inWorld (by decide +kernel)⟩))
    (by decide +kernel) (inWorld (by decide +kernel))
  rw [hg] at h
  exact h

theorem exT2_turns : Turns exSys exWorld exT2 := by
  refine .take exT1_turns exD1_follower ?_
    (.call (.call .start (.edit _ _ (by decide +kernel) (by decide +kernel)) (inWorld (by decide +kernel)))
      (.push _) (inWorld (by decide +kernel)))
    (by decide +kernel) (by decide +kernel) (by decide +kernel)
  rintro v (h | h)
  · exact h.elim
  · rw [h]
    exact ⟨_, List.mem_singleton.2 rfl, _, ((exC3_node.peer exWorld_free).inv exSys_good (by decide +kernel)).read exSys_good
      (by decide +kernel), le_of_eq (ownMsg_seqno ..).symm⟩

theorem exT3_follower : Follower exSys exWorld exT2 [exC3.plain exSys, exQ.plain exSys] exT3 := by
  have hg : (gather exSys exC3.keys [([2], pushedMsg exSys exQ)]).map (·.2) = [exQ.plain exSys] := by decide +kernel
  have h := Follower.merge (Follower.wrote (S := exSys) (W := exWorld) (V := exT2) (v := exC3) (.inl (.inr rfl)) (by decide +kernel))
    (from_one (W := exWorld) (V := exT2) hg (fun b hb => by
      rw [List.mem_singleton.1 hb]; exact ⟨exQ, .inr rfl, rfl, inWorld (by decide +kernel)⟩))
    (by decide +kernel) (inWorld (by decide +kernel))
  rw [hg] at h
  exact h

/-- what the theorem says of it -/
example : exT3.needsPush = false ∧ exT3.content = exQ.content ∧ exT3.seqno = exQ.seqno ∧ exT3.plain exSys = exQ.plain exSys ∧
    exC3.seqno = 1 ∧ exQ.seqno = 2 ∧ exC3.content ≠ exQ.content := by
  obtain ⟨h1, h2, h3, h4⟩ := turns_settle exSys_good (by decide +kernel) exWorld_free exT2_turns exT3_follower (.inr rfl)
    (List.mem_cons_of_mem _ (List.mem_singleton.2 rfl)) (by
      rintro u ((h | h) | h)
      · exact h.elim
      · rw [h]; decide +kernel
      · rw [h])
  exact ⟨h1, h2, h3, h4, by decide +kernel⟩

end Verif
