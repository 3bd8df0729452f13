import Verif.Props.ReadOnly
import Verif.Props.Concurrent

/-!
# What the version made by a merge claims to have changed
-/

namespace Verif

/-! ## C153 -/

/-- `df`, read with the values of `src`, says nothing at all -/
def SaysNothing (df : BtDict) (src : Dict) : Prop :=
  ∀ p, effScalar df src p = none ∧ ∀ x, effMember df src p x = none

/-- `df`, read with the values of `src`, imposes every value and every set element of `src` -/
def SaysEverything (df : BtDict) (src : Dict) : Prop :=
  ∀ p, (∀ v, scalarAt src p = some v → effScalar df src p = some (some v)) ∧
    ∀ x, memberAt src p x = true → effMember df src p x = some true

theorem says_nothing (d : Dict) : SaysNothing [] d := by
  intro p
  cases p with
  | nil => exact ⟨rfl, fun _ => rfl⟩
  | cons k ps => cases ps <;> exact ⟨rfl, fun _ => rfl⟩

theorem says_everything {d : Dict} (hd : wfD d = true) : SaysEverything (diffD [] d) d := by
  intro p
  obtain ⟨e1, e2, e3, e4⟩ := eff_diff (B := []) (by decide) hd p
  have n1 : scalarAt [] p = none := by cases p with
    | nil => rfl
    | cons k ps => cases ps <;> rfl
  have n2 : ∀ x, memberAt [] p x = false := fun x => by cases p with
    | nil => rfl
    | cons k ps => cases ps <;> rfl
  refine ⟨fun v hv => ?_, fun x hx => ?_⟩
  · cases h : effScalar (diffD [] d) d p with
    | none => rw [← e2 h, n1] at hv; cases hv
    | some w => rw [e1 w h, hv]
  · cases h : effMember (diffD [] d) d p x with
    | none => rw [← e4 x h, n2] at hx; cases hx
    | some w => rw [e3 x w h, hx]

/-- C153.  A merge that makes a new version (to be pushed) makes one whose content is the merged content.  If the object had edits that
were not pushed, the version says that it changed nothing - the changes are all in its history; otherwise it says that it changed
everything there is. -/
theorem merged_version_claims {S : Sys} (hS : S.Good) {c : Client} (hr : Reach S c) {configs : List (Bytes × Bytes)}
    (hf : ∀ p ∈ gather S c.keys configs, Fair S.env p.2)
    (hn : NoCollision S.env ((c.allConfs S.env (gather S c.keys configs)).map (·.2)))
    (hsafe : (c.merge S configs).2.safe = true) (hp : (c.merge S configs).1.needsPush = true)
    (hs : (c.merge S configs).1.seqno ≠ c.seqno) :
    ∃ m, parseMsg S.env false ((c.merge S configs).1.plain S) = .ok m ∧
      m.seqno = (c.merge S configs).1.seqno ∧ m.data = (c.merge S configs).1.content ∧
      (c.st = .dirty → SaysNothing m.diff m.data) ∧ (c.st ≠ .dirty → SaysEverything m.diff m.data) := by
  have hi := hr.inv hS
  have hi' : CInv S (c.merge S configs).1 := (Reach.step hr (.merge c configs hf hn hsafe)).inv hS
  rcases merge_cases hsafe with ⟨e, _, h1 | h1⟩ | ⟨R, bad, hk, hR, h1⟩
  · rw [h1] at hs; exact absurd rfl hs
  · rw [h1] at hs
    exact absurd (noted_conf hi.wf [] Msg.empty [] S.env).1 hs
  · rw [h1] at hp hs hi' ⊢
    rcases (absorb_cases hS hi hf hn hR).2 with hx | ⟨hu, _, _, _, hx⟩ | ⟨top, i, x, y, hti, hmax, _, hRe, hne, hlt, _, hx⟩
    · rw [hx] at hs
      exact absurd (noted_conf hi.wf (c.allConfs S.env (gather S c.keys configs)) R bad S.env).1 hs
    · have hst : (c.absorb S (c.allConfs S.env (gather S c.keys configs)) R bad).1.st = .dirty := by rw [hx]; rfl
      have hconf : (c.absorb S (c.allConfs S.env (gather S c.keys configs)) R bad).1.conf = c.mergedConf S R := by
        rw [hx, setState_conf]
      generalize (c.absorb S (c.allConfs S.env (gather S c.keys configs)) R bad).1 = c' at *
      have hmine : c'.hasMine = true := by unfold Client.hasMine; simp [hst]
      refine ⟨c'.ownMsg S, hi'.parse_own hS hmine, ownMsg_seqno S c', ownMsg_data hi'.wf, fun hd => ?_, fun hd => ?_⟩
      · have hdf : (c'.ownMsg S).diff = diffD R.data (pruneD R.data) := by
          show c'.conf.refresh.m.diff = _
          rw [hconf]
          unfold Client.mergedConf Client.newConf mutFromMerge
          rw [if_pos hd, if_pos hd, if_pos hu]; rfl
        have hw : wfD R.data = true := by
          refine hi'.wf.orig _ ?_
          rw [hconf]
          unfold Client.mergedConf Client.newConf mutFromMerge
          rw [if_pos hd, if_pos hd, if_pos hu]
        rw [hdf, pruneD_of_wf hw, diffD_self _ (wfD_typed hw)]
        exact says_nothing _
      · have hdf : (c'.ownMsg S).diff = diffD [] (pruneD c'.conf.m.data) := by
          show c'.conf.refresh.m.diff = _
          rw [hconf]
          unfold Client.mergedConf Client.newConf
          rw [if_neg hd, if_neg hd]; rfl
        rw [hdf, ownMsg_data hi'.wf]
        exact says_everything (pruneD_wf hi'.wf.data)
    · rw [hx] at hp
      rw [needsPush_iff] at hp; exact absurd rfl hp

/-- C153.  What that means for edits that arrive later.  Let an object without edits of its own make a version by merging, and let any
object `e` that holds this version be given versions with lower seqnos, with whatever edits: `e` keeps every value and every set
element the merged version has.  So an edit made on another device before it knew of the merged version, of a key that none of the
merged versions touched, is undone. -/
theorem late_edits_overruled {S : Sys} (hS : S.Good) {c : Client} (hr : Reach S c) {configs : List (Bytes × Bytes)}
    (hf : ∀ p ∈ gather S c.keys configs, Fair S.env p.2)
    (hn : NoCollision S.env ((c.allConfs S.env (gather S c.keys configs)).map (·.2)))
    (hsafe : (c.merge S configs).2.safe = true) (hp : (c.merge S configs).1.needsPush = true)
    (hs : (c.merge S configs).1.seqno ≠ c.seqno) (hd : c.st ≠ .dirty)
    {e : Client} (he : Reach S e) (hpl : e.plain S = (c.merge S configs).1.plain S) (h0 : e.seqno ≠ 0)
    {late : List (Bytes × Bytes)}
    (hl : ∀ q ∈ gather S e.keys late, ∀ m, parseMsg S.env false q.2 = .ok m → m.seqno < e.seqno)
    (hlf : ∀ p ∈ gather S e.keys late, Fair S.env p.2)
    (hln : NoCollision S.env ((e.allConfs S.env (gather S e.keys late)).map (·.2)))
    (hlsafe : (e.merge S late).2.safe = true) (p : List Bytes) :
    (∀ v, scalarAt (c.merge S configs).1.content p = some v → scalarAt (e.merge S late).1.content p = some v) ∧
    (∀ x, memberAt (c.merge S configs).1.content p x = true → memberAt (e.merge S late).1.content p x = true) := by
  obtain ⟨M, hM, _, hMd, _, hall⟩ := merged_version_claims hS hr hf hn hsafe hp hs
  have hall := hall hd
  rw [← hMd]
  have hi := he.inv hS
  have hmine : e.hasMine = true := by unfold Client.hasMine Client.seqno at *; simp [h0]
  have hown : e.ownMsg S = M := by
    have := hi.parse_own hS hmine
    rw [← hpl] at hM
    exact Out.ok.inj (this.symm.trans hM)
  have hsame : e.content = M.data := by rw [← hown, ownMsg_data hi.wf]; rfl
  have hva := hi.valid_all hS (gather S e.keys late)
  rw [hmine, if_pos rfl] at hva
  have hMs : M.seqno = e.seqno := by rw [← hown]; exact ownMsg_seqno S e
  -- our own version is the highest
  have hlow : ∀ m ∈ validOf S.env ((e.allConfs S.env (gather S e.keys late)).map (·.2)), m = M ∨ m.seqno < M.seqno := by
    intro m hm
    rw [hva] at hm
    rcases List.mem_append.1 hm with hm | hm
    · left; rw [← hown]; exact List.mem_singleton.1 hm
    · right
      obtain ⟨b, hb, hpb⟩ := mem_validOf.1 hm
      obtain ⟨q, hq, rfl⟩ := List.mem_map.1 hb
      rw [hMs]; exact hl q hq m hpb
  have hMin : M ∈ validOf S.env ((e.allConfs S.env (gather S e.keys late)).map (·.2)) := by
    rw [hva, hown]; exact List.mem_append_left _ (List.mem_singleton.2 rfl)
  rcases merge_cases hlsafe with ⟨_, _, h1 | h1⟩ | ⟨R, bad, hk, hR, h1⟩
  · rw [h1, hsame]; exact ⟨fun _ h => h, fun _ h => h⟩
  · have : (e.merge S late).1.content = e.content := by
      rw [h1]; exact (noted_conf hi.wf [] Msg.empty [] S.env).2.2
    rw [this, hsame]; exact ⟨fun _ h => h, fun _ h => h⟩
  · rw [h1]
    rcases (absorb_cases hS hi hlf hln hR).2 with hx | ⟨hu, _, _, _, hx⟩ | ⟨top, i, x, y, hti, hmax, _, hRe, hne, hlt, _, hx⟩
    · have : (e.absorb S (e.allConfs S.env (gather S e.keys late)) R bad).1.content = e.content := by
        rw [hx]; exact (noted_conf hi.wf (e.allConfs S.env (gather S e.keys late)) R bad S.env).2.2
      rw [this, hsame]; exact ⟨fun _ h => h, fun _ h => h⟩
    · have hwR : wfD R.data = true := (mergeMsgs_wf hS.sane hR).pruned rfl
      have hc : (e.absorb S (e.allConfs S.env (gather S e.keys late)) R bad).1.content = R.data := by
        rw [hx]
        show pruneD (Client.setState _ _).conf.m.data = _
        rw [setState_conf]
        show pruneD (e.mergedConf S R).m.data = _
        have : (e.mergedConf S R).m.data = R.data := by
          unfold Client.mergedConf
          split
          · exact newConf_data S e R
          · rw [retain_data]; exact newConf_data S e R
        rw [this]; exact pruneD_of_wf hwR
      rw [hc]
      have hg := goodBatch_of hln
      have hcur : Current S.env.lag (validOf S.env ((e.allConfs S.env (gather S e.keys late)).map (·.2))) M := by
        refine ⟨hMin, fun c2 h2 q hq hqe => ?_, fun c2 h2 => ?_⟩
        · have w := hg.window c2 h2 q hq
          rw [hqe] at w
          have w : M.seqno < c2.seqno := w
          rcases hlow c2 h2 with rfl | h3 <;> omega
        · have := hS.lag1
          rcases hlow c2 h2 with rfl | h3 <;> omega
      have hno : ∀ m', Current S.env.lag (validOf S.env ((e.allConfs S.env (gather S e.keys late)).map (·.2))) m' →
          ∀ t ∈ m'.hist, ¬ M.sh < t.1 := by
        intro m' hm' t ht hlt'
        have hle := sh_le_seqno (a := M) (b := ⟨[], [], [], [], t.1.1, t.1.2, none, 0⟩) (le_of_lt hlt')
        rcases List.mem_append.1 ht with ht | ht
        · have w := hg.window m' hm'.1 t ht
          rcases hlow m' hm'.1 with rfl | h3
          · have hle : m'.seqno ≤ t.1.1 := hle
            omega
          · have hle : M.seqno ≤ t.1.1 := hle
            omega
        · rw [List.mem_singleton.1 ht] at hlt' hle
          rcases hlow m' hm'.1 with rfl | h3
          · exact lt_irrefl _ hlt'
          · have hle : M.seqno ≤ m'.seqno := hle
            omega
      obtain ⟨w1, w2⟩ := highest_change_wins hS.lag1 hln hR hu hcur p
      exact ⟨fun v hv => w1 _ ((hall p).1 v hv) fun m' hm' t ht hlt' => absurd hlt' (hno m' hm' t ht),
        fun x hx' => w2 x _ ((hall p).2 x hx') fun m' hm' t ht hlt' => absurd hlt' (hno m' hm' t ht)⟩
    · exfalso
      rcases hlow top (List.mem_of_getElem? hti) with h2 | h2
      · exact hne hmine (h2.trans hown.symm)
      · have := sh_le_seqno (hmax M hMin)
        omega

/-- C153, for objects that had edits of their own when they merged: an edit that arrives later is kept.  Let `e` hold the version
made, and be given a version that is not in its history (and not too old for it), which says something about a path: if no version in
`e`'s history that is higher than it says anything about that path, then afterwards `e` has there what it says. -/
theorem late_edits_kept {S : Sys} (hS : S.Good) (hro : S.env.readonly = false)
    {c : Client} (hr : Reach S c) {configs : List (Bytes × Bytes)}
    (hf : ∀ p ∈ gather S c.keys configs, Fair S.env p.2)
    (hn : NoCollision S.env ((c.allConfs S.env (gather S c.keys configs)).map (·.2)))
    (hsafe : (c.merge S configs).2.safe = true) (hp : (c.merge S configs).1.needsPush = true)
    (hs : (c.merge S configs).1.seqno ≠ c.seqno) (hd : c.st = .dirty)
    {e : Client} (he : Reach S e) (hpl : e.plain S = (c.merge S configs).1.plain S) (h0 : e.seqno ≠ 0) {M : Msg}
    (hM : parseMsg S.env false (e.plain S) = .ok M)
    {late : List (Bytes × Bytes)} {h b : Bytes} (hg : gather S e.keys late = [(h, b)]) {m : Msg}
    (hm : parseMsg S.env false b = .ok m) (hlo : m.seqno < e.seqno) (hlag : e.seqno < m.seqno + S.env.lag)
    (hnot : ∀ t ∈ M.lagged, t.1 ≠ m.sh) (hln : NoCollision S.env [e.plain S, b])
    {good : List Bytes} (hok : (e.merge S late).2 = .ok good) (p : List Bytes) :
    (∀ v, effScalar m.diff m.data p = some v → (∀ t ∈ M.lagged, m.sh < t.1 → effScalar t.2 M.data p = none) →
      scalarAt (e.merge S late).1.content p = v) ∧
    (∀ x v, effMember m.diff m.data p x = some v → (∀ t ∈ M.lagged, m.sh < t.1 → effMember t.2 M.data p x = none) →
      memberAt (e.merge S late).1.content p x = v) := by
  obtain ⟨M', hM', _, _, hnone, _⟩ := merged_version_claims hS hr hf hn hsafe hp hs
  have hMM : M' = M := by rw [← hpl] at hM'; exact Out.ok.inj (hM'.symm.trans hM)
  subst hMM
  have hnone := hnone hd
  have hi := he.inv hS
  have hmine : e.hasMine = true := by unfold Client.hasMine Client.seqno at *; simp [h0]
  have hown : e.ownMsg S = M' := Out.ok.inj ((hi.parse_own hS hmine).symm.trans hM)
  have hMs : M'.seqno = e.seqno := by rw [← hown]; exact ownMsg_seqno S e
  have hva := hi.valid_all hS [(h, b)]
  have hvb : validOf S.env ([(h, b)].map (·.2)) = [m] := by simp [validOf, hm, Out.toOption]
  rw [hmine, if_pos rfl, hvb, hown] at hva
  have hall : (e.allConfs S.env [(h, b)]).map (·.2) = [e.plain S, b] := by
    unfold Client.allConfs; rw [if_pos hmine]; rfl
  have hln' : NoCollision S.env ((e.allConfs S.env [(h, b)]).map (·.2)) := by rw [hall]; exact hln
  have gb := goodBatch_of hln'
  have hcurM : Current S.env.lag (validOf S.env ((e.allConfs S.env [(h, b)]).map (·.2))) M' := by
    refine ⟨by rw [hva]; exact List.mem_cons_self .., fun c2 h2 q hq hqe => ?_, fun c2 h2 => ?_⟩
    · have w := gb.window c2 h2 q hq
      rw [hqe] at w
      have w : M'.seqno < c2.seqno := w
      rw [hva] at h2
      rcases List.mem_cons.1 h2 with rfl | h2
      · omega
      · rw [List.mem_singleton.1 h2] at w; omega
    · have := hS.lag1
      rw [hva] at h2
      rcases List.mem_cons.1 h2 with rfl | h2
      · omega
      · rw [List.mem_singleton.1 h2]; omega
  have hcurm : Current S.env.lag (validOf S.env ((e.allConfs S.env [(h, b)]).map (·.2))) m := by
    refine ⟨by rw [hva]; exact List.mem_cons_of_mem _ (List.mem_singleton.2 rfl), fun c2 h2 q hq hqe => ?_, fun c2 h2 => ?_⟩
    · have w := gb.window c2 h2 q hq
      rw [hva] at h2
      rcases List.mem_cons.1 h2 with rfl | h2
      · exact hnot q hq hqe
      · rw [hqe, List.mem_singleton.1 h2] at w
        exact absurd w (lt_irrefl m.seqno)
    · have := hS.lag1
      rw [hva] at h2
      rcases List.mem_cons.1 h2 with rfl | h2
      · omega
      · rw [List.mem_singleton.1 h2]; omega
  have hne : m ≠ M' := fun h => by rw [h] at hlo; omega
  rcases merge_cases (by rw [hok]; rfl : (e.merge S late).2.safe = true) with ⟨_, h1, _⟩ | ⟨R, bad, hk, hR, h1⟩
  · rw [hok] at h1; cases h1
  rw [hg] at hR h1
  rw [h1]
  have hu : R.unmerged = -1 := by
    rcases merge_outcome hS hi hln' hR with ⟨top, i, hti, hmax, hone, hRe, _⟩ | ⟨top, ht, hmax, _, _, hu, hsq, _, _⟩
    · exfalso
      rcases hone with h2 | hone
      · rw [hro] at h2; cases h2
      · exact hne ((hone _ hcurm).trans (hone _ hcurM).symm)
    · exact hu
  have hwR : wfD R.data = true := (mergeMsgs_wf hS.sane hR).pruned rfl
  have hc : (e.absorb S (e.allConfs S.env [(h, b)]) R bad).1.content = R.data := by
    have hsq : e.conf.m.seqno < R.seqno := by
      rcases merge_outcome hS hi hln' hR with ⟨top, i, hti, hmax, hone, hRe, _⟩ | ⟨top, ht, hmax, _, _, _, hsq, _, _⟩
      · rw [hRe] at hu; simp only at hu; omega
      · have := sh_le_seqno (hmax M' hcurM.1)
        rw [hsq]
        have : e.seqno = e.conf.m.seqno := rfl
        omega
    have hx : (e.absorb S (e.allConfs S.env [(h, b)]) R bad).1.conf = e.mergedConf S R := by
      unfold Client.absorb
      rw [if_neg (show ¬ (e.newConf S R).m.seqno = e.conf.m.seqno by
        rw [newConf_seqno, if_neg (fun h => h.2 hu)]; omega), if_pos hu, if_neg (by rw [hro]; simp)]
      show (Client.setState _ _).conf = _
      rw [setState_conf]
    show pruneD (e.absorb S (e.allConfs S.env [(h, b)]) R bad).1.conf.m.data = _
    rw [hx]
    have : (e.mergedConf S R).m.data = R.data := by
      unfold Client.mergedConf
      split
      · exact newConf_data S e R
      · rw [retain_data]; exact newConf_data S e R
    rw [this]; exact pruneD_of_wf hwR
  rw [hc]
  obtain ⟨w1, w2⟩ := highest_change_wins hS.lag1 hln' hR hu hcurm p
  have hhist : ∀ m', Current S.env.lag (validOf S.env ((e.allConfs S.env [(h, b)]).map (·.2))) m' →
      ∀ t ∈ m'.hist, m.sh < t.1 → m' = M' ∧ (t ∈ M'.lagged ∨ t.2 = M'.diff) := by
    intro m' hm' t ht hlt
    have hin := hm'.1
    rw [hva] at hin
    rcases List.mem_cons.1 hin with rfl | hin
    · refine ⟨rfl, ?_⟩
      rcases List.mem_append.1 ht with ht | ht
      · exact .inl ht
      · right; rw [List.mem_singleton.1 ht]
    · exfalso
      have := List.mem_singleton.1 hin
      subst this
      rcases List.mem_append.1 ht with ht | ht
      · have w := gb.window m' hm'.1 t ht
        have hle := sh_le_seqno (a := m') (b := ⟨[], [], [], [], t.1.1, t.1.2, none, 0⟩) (le_of_lt hlt)
        have hle : m'.seqno ≤ t.1.1 := hle
        omega
      · rw [List.mem_singleton.1 ht] at hlt
        exact lt_irrefl _ hlt
  refine ⟨fun v hv hq => w1 v hv fun m' hm' t ht hlt => ?_, fun x v hv hq => w2 x v hv fun m' hm' t ht hlt => ?_⟩
  · obtain ⟨rfl, h3 | h3⟩ := hhist m' hm' t ht hlt
    · exact hq t h3 hlt
    · rw [h3]; exact (hnone p).1
  · obtain ⟨rfl, h3 | h3⟩ := hhist m' hm' t ht hlt
    · exact hq t h3 hlt
    · rw [h3]; exact (hnone p).2 x

/-! ### A lost edit -/

/-- Common version 1, held by all; three devices change three different entries, and push version 2 each. -/
def exClC : Client := (exC0.edit exSys [([97], .scalar (.int 1)), ([98], .scalar (.int 1)), ([99], .scalar (.int 1))]).1
def exClB : Client := ((exClC.push exSys).1.confirm 1 [1])
def exClEdit (a b c : Int) : Client :=
  ((exClB.edit exSys [([97], .scalar (.int a)), ([98], .scalar (.int b)), ([99], .scalar (.int c))]).1.push exSys).1
def exClMsg (c : Client) : Bytes := match (c.push exSys).2 with
  | .ok r => r.2.1
  | _ => []
/-- a fourth device, which edits nothing, is given two of the three versions and pushes the merged version -/
def exClM : Client := ((exClB.merge exSys [([2], exClMsg (exClEdit 2 1 1)), ([3], exClMsg (exClEdit 1 2 1))]).1.push exSys).1

/-- C153, what fails: three edits of three different entries, made at the same time.  Given all three versions at once a device has all
three edits; but if a device that edited nothing is given two of them and pushes what it made of them, then whoever is given that and
the third version - also the device that made it - does not have the third edit. -/
theorem third_edit_lost :
    (exClB.merge exSys [([2], exClMsg (exClEdit 2 1 1)), ([3], exClMsg (exClEdit 1 2 1)), ([4], exClMsg (exClEdit 1 1 2))]).1.content =
      [([97], .scalar (.int 2)), ([98], .scalar (.int 2)), ([99], .scalar (.int 2))] ∧
    exClM.content = [([97], .scalar (.int 2)), ([98], .scalar (.int 2)), ([99], .scalar (.int 1))] ∧
    (exClM.merge exSys [([4], exClMsg (exClEdit 1 1 2))]).2 = .ok [[4]] ∧
    (exClM.merge exSys [([4], exClMsg (exClEdit 1 1 2))]).1.content = exClM.content ∧
    ((exClEdit 1 1 2).merge exSys [([5], exClMsg exClM)]).2 = .ok [[5]] ∧
    ((exClEdit 1 1 2).merge exSys [([5], exClMsg exClM)]).1.content = exClM.content ∧
    ((exClEdit 1 1 2).merge exSys [([5], exClMsg exClM)]).1.needsPush = true := by decide +kernel

/-- The same, if the fourth device has an edit of its own: all edits are kept. -/
def exClN0 : Client := (exClB.edit exSys [([97], .scalar (.int 1)), ([98], .scalar (.int 1)), ([99], .scalar (.int 1)),
  ([100], .scalar (.int 2))]).1
def exClNIn : List (Bytes × Bytes) := [([2], exClMsg (exClEdit 2 1 1)), ([3], exClMsg (exClEdit 1 2 1))]
def exClN : Client := ((exClN0.merge exSys exClNIn).1.push exSys).1

theorem third_edit_kept :
    exClN.content = [([97], .scalar (.int 2)), ([98], .scalar (.int 2)), ([99], .scalar (.int 1)), ([100], .scalar (.int 2))] ∧
    (exClN.merge exSys [([4], exClMsg (exClEdit 1 1 2))]).1.content =
      [([97], .scalar (.int 2)), ([98], .scalar (.int 2)), ([99], .scalar (.int 2)), ([100], .scalar (.int 2))] ∧
    ((exClEdit 1 1 2).merge exSys [([5], exClMsg exClN)]).1.content =
      [([97], .scalar (.int 2)), ([98], .scalar (.int 2)), ([99], .scalar (.int 2)), ([100], .scalar (.int 2))] := by
  decide +kernel

theorem exClC_reach : Reach exSys exClC := .step exC0_reach (.edit _ _ (by decide +kernel) (by decide +kernel))
theorem exClB_reach : Reach exSys exClB := .step (.step exClC_reach (.push _)) (.confirm _ _ _)
theorem exClN0_reach : Reach exSys exClN0 := .step exClB_reach (.edit _ _ (by decide +kernel) (by decide +kernel))

/-- the hypotheses, for the two devices that merge -/
example : Reach exSys exClB ∧ Reach exSys exClN0 ∧ exClB.st ≠ .dirty ∧ exClN0.st = .dirty ∧
    gather exSys exClB.keys exClNIn = [([2], (exClEdit 2 1 1).plain exSys), ([3], (exClEdit 1 2 1).plain exSys)] ∧
    Fair exSys.env ((exClEdit 2 1 1).plain exSys) ∧ Fair exSys.env ((exClEdit 1 2 1).plain exSys) ∧
    NoCollision exSys.env [exClB.plain exSys, (exClEdit 2 1 1).plain exSys, (exClEdit 1 2 1).plain exSys] ∧
    (exClB.merge exSys exClNIn).2.safe = true ∧ (exClB.merge exSys exClNIn).1.needsPush = true ∧
    (exClB.merge exSys exClNIn).1.seqno ≠ exClB.seqno ∧ exClM.plain exSys = (exClB.merge exSys exClNIn).1.plain exSys ∧
    exClM.seqno = 3 :=
  ⟨exClB_reach, exClN0_reach, by decide +kernel, by decide +kernel, by decide +kernel, fair_of_test (by decide +kernel),
   fair_of_test (by decide +kernel), by unfold NoCollision; decide +kernel, by decide +kernel, by decide +kernel,
   by decide +kernel, by decide +kernel, by decide +kernel⟩

/-- the hypotheses of `late_edits_kept` about the late version -/
example : gather exSys exClN.keys [([4], exClMsg (exClEdit 1 1 2))] = [([4], (exClEdit 1 1 2).plain exSys)] ∧
    exClN.plain exSys = (exClN0.merge exSys exClNIn).1.plain exSys ∧
    (match parseMsg exSys.env false (exClN.plain exSys), parseMsg exSys.env false ((exClEdit 1 1 2).plain exSys) with
     | .ok M, .ok m => decide (m.seqno < exClN.seqno ∧ exClN.seqno < m.seqno + exSys.env.lag ∧ (∀ t ∈ M.lagged, t.1 ≠ m.sh) ∧
        effScalar m.diff m.data [[99]] = some (some (.int 2)) ∧ ∀ t ∈ M.lagged, m.sh < t.1 → effScalar t.2 M.data [[99]] = none)
     | _, _ => false) = true ∧
    Fair exSys.env ((exClEdit 1 1 2).plain exSys) ∧ NoCollision exSys.env [exClN.plain exSys, (exClEdit 1 1 2).plain exSys] :=
  ⟨by decide +kernel, by decide +kernel, by decide +kernel, fair_of_test (by decide +kernel),
   by unfold NoCollision; decide +kernel⟩

theorem merged_orig {S : Sys} (hS : S.Good) {c : Client} (hr : Reach S c) {configs : List (Bytes × Bytes)}
    (hf : ∀ p ∈ gather S c.keys configs, Fair S.env p.2)
    (hn : NoCollision S.env ((c.allConfs S.env (gather S c.keys configs)).map (·.2)))
    (hsafe : (c.merge S configs).2.safe = true) (hp : (c.merge S configs).1.needsPush = true)
    (hs : (c.merge S configs).1.seqno ≠ c.seqno) :
    (c.merge S configs).1.st = .dirty ∧
    (c.merge S configs).1.conf.orig = some (if c.st = .dirty then (c.merge S configs).1.content else []) := by
  have hi := hr.inv hS
  have hi' : CInv S (c.merge S configs).1 := (Reach.step hr (.merge c configs hf hn hsafe)).inv hS
  rcases merge_cases hsafe with ⟨e, _, h1 | h1⟩ | ⟨R, bad, hk, hR, h1⟩
  · rw [h1] at hs; exact absurd rfl hs
  · rw [h1] at hs
    exact absurd (noted_conf hi.wf [] Msg.empty [] S.env).1 hs
  · rw [h1] at hp hs hi' ⊢
    rcases (absorb_cases hS hi hf hn hR).2 with hx | ⟨hu, _, _, _, hx⟩ | ⟨top, i, x, y, hti, hmax, _, hRe, hne, hlt, _, hx⟩
    · rw [hx] at hs
      exact absurd (noted_conf hi.wf (c.allConfs S.env (gather S c.keys configs)) R bad S.env).1 hs
    · have hst : (c.absorb S (c.allConfs S.env (gather S c.keys configs)) R bad).1.st = .dirty := by rw [hx]; rfl
      have hconf : (c.absorb S (c.allConfs S.env (gather S c.keys configs)) R bad).1.conf = c.mergedConf S R := by
        rw [hx, setState_conf]
      generalize (c.absorb S (c.allConfs S.env (gather S c.keys configs)) R bad).1 = c' at *
      refine ⟨hst, ?_⟩
      by_cases hd : c.st = .dirty
      · rw [if_pos hd]
        have ho : c'.conf.orig = some R.data := by
          rw [hconf]
          unfold Client.mergedConf Client.newConf mutFromMerge
          rw [if_pos hd, if_pos hd, if_pos hu]
        have hw : wfD R.data = true := hi'.wf.orig _ ho
        have hc : c'.content = R.data := by
          show pruneD c'.conf.m.data = _
          rw [hconf]
          unfold Client.mergedConf Client.newConf mutFromMerge
          rw [if_pos hd, if_pos hd, if_pos hu]
          exact pruneD_of_wf hw
        rw [ho, hc]
      · rw [if_neg hd, hconf]
        unfold Client.mergedConf Client.newConf
        rw [if_neg hd, if_neg hd]; rfl
    · rw [hx] at hp
      rw [needsPush_iff] at hp; exact absurd rfl hp

/-- C153, with edits between the merge and the push.  Let the object, after a merge that made a new version, be edited to the content
`d`.  If it had edits of its own at the merge, the version to be pushed says nothing about any path where `d` is as the merged content
was; otherwise it still says that it changed everything there is. -/
theorem merged_then_edited {S : Sys} (hS : S.Good) {c : Client} (hr : Reach S c) {configs : List (Bytes × Bytes)}
    (hf : ∀ p ∈ gather S c.keys configs, Fair S.env p.2)
    (hn : NoCollision S.env ((c.allConfs S.env (gather S c.keys configs)).map (·.2)))
    (hsafe : (c.merge S configs).2.safe = true) (hp : (c.merge S configs).1.needsPush = true)
    (hs : (c.merge S configs).1.seqno ≠ c.seqno) {d : Dict} (hd : typedD d = true) :
    let e := ((c.merge S configs).1.edit S d).1
    ((c.merge S configs).1.edit S d).2 = .ok () ∧ e.content = pruneD d ∧ e.seqno = (c.merge S configs).1.seqno ∧
    ∃ m, parseMsg S.env false (e.plain S) = .ok m ∧ m.seqno = e.seqno ∧ m.data = e.content ∧
      (c.st = .dirty → ∀ p, p ≠ [] → sameAt (c.merge S configs).1.content e.content p = true →
        effScalar m.diff m.data p = none ∧ ∀ x, effMember m.diff m.data p x = none) ∧
      (c.st ≠ .dirty → SaysEverything m.diff m.data) := by
  obtain ⟨hst, ho⟩ := merged_orig hS hr hf hn hsafe hp hs
  have hr' : Reach S (c.merge S configs).1 := Reach.step hr (.merge c configs hf hn hsafe)
  generalize (c.merge S configs).1 = c' at *
  intro e
  have hed : c'.edit S d = ({ c' with conf := { c'.conf with m := { c'.conf.m with data := d } } }, .ok ()) := by
    unfold Client.edit Client.dirty
    rw [if_pos hst, if_pos (by rw [ho]; rfl)]
  have hre : Reach S e := Reach.step hr' (.edit c' d hd (by rw [hed]; rfl))
  have he : e = { c' with conf := { c'.conf with m := { c'.conf.m with data := d } } } := by
    show (c'.edit S d).1 = _
    rw [hed]
  have hi := hre.inv hS
  have hest : e.st = .dirty := by rw [he]; exact hst
  have hmine : e.hasMine = true := by unfold Client.hasMine; simp [hest]
  have hcont : e.content = pruneD d := by rw [he]; rfl
  have hdf : ∀ o, c'.conf.orig = some o → (e.ownMsg S).diff = diffD o (pruneD d) := by
    intro o h
    show e.conf.refresh.m.diff = _
    unfold Conf.refresh
    rw [show e.conf.orig = some o by rw [he]; exact h]
    show diffD o (pruneD e.conf.m.data) = _
    rw [he]
  have hdata : (e.ownMsg S).data = pruneD d := by rw [ownMsg_data hi.wf]; exact hcont
  refine ⟨by rw [hed], hcont, by rw [he]; rfl, e.ownMsg S, hi.parse_own hS hmine, ownMsg_seqno S e, ownMsg_data hi.wf,
    fun hcd p hpp hsame => ?_, fun hcd => ?_⟩
  · rw [if_pos hcd] at ho
    rw [hdf _ ho, hdata]
    rw [hcont] at hsame
    exact eff_sameAt (wfD_typed ((hr'.inv hS).wf.orig _ ho)) (wfD_typed (pruneD_wf hd)) p hpp hsame
  · rw [if_neg hcd] at ho
    rw [hdf _ ho, hdata]
    exact says_everything (pruneD_wf hd)

/-- Concrete: both devices edit again before they push. -/
example : ((exClB.merge exSys exClNIn).1.edit exSys [([97], .scalar (.int 7))]).2 = .ok () ∧
    typedD [([97], .scalar (.int 7))] = true ∧ (exClN0.merge exSys exClNIn).1.needsPush = true ∧
    (exClN0.merge exSys exClNIn).1.seqno ≠ exClN0.seqno ∧
    sameAt (exClN0.merge exSys exClNIn).1.content
      ((exClN0.merge exSys exClNIn).1.edit exSys [([97], .scalar (.int 7)), ([98], .scalar (.int 2))]).1.content [[98]] = true := by
  decide +kernel

end Verif
