import Verif.Props.ReadOnly
import Verif.Props.Agree

/-!
# Taking over a message, and being at its version
-/

namespace Verif

/-! ## C152 -/

/-- C152.  A merge after which there is nothing to push either changed neither content nor seqno, or took over the highest valid
message it was given: then the content is that of the message, and the seqno is that of the message - plus one, if the object had
edits that were not pushed. -/
theorem takeover_version {S : Sys} (hS : S.Good) {c : Client} (hr : Reach S c) {configs : List (Bytes × Bytes)}
    (hf : ∀ p ∈ gather S c.keys configs, Fair S.env p.2)
    (hn : NoCollision S.env ((c.allConfs S.env (gather S c.keys configs)).map (·.2)))
    (hsafe : (c.merge S configs).2.safe = true) (hp : (c.merge S configs).1.needsPush = false) :
    ((c.merge S configs).1.seqno = c.seqno ∧ (c.merge S configs).1.content = c.content) ∨
    ∃ p ∈ gather S c.keys configs, ∃ m, parseMsg S.env false p.2 = .ok m ∧
      (∀ q ∈ gather S c.keys configs, ∀ m', parseMsg S.env false q.2 = .ok m' → m'.seqno ≤ m.seqno) ∧
      (c.merge S configs).1.content = m.data ∧
      (c.merge S configs).1.seqno = (if c.st = .dirty then m.seqno + 1 else m.seqno) := by
  have hi := hr.inv hS
  rcases merge_cases hsafe with ⟨e, _, h1 | h1⟩ | ⟨R, bad, hk, hR, h1⟩
  · left; rw [h1]; exact ⟨rfl, rfl⟩
  · left; rw [h1]
    obtain ⟨n1, _, n3⟩ := noted_conf hi.wf [] Msg.empty [] S.env
    exact ⟨n1, n3⟩
  · rw [h1] at hp ⊢
    rcases (absorb_cases hS hi hf hn hR).2 with hx | ⟨_, _, _, _, hx⟩ | ⟨top, i, x, y, hti, hmax, _, hRe, hne, hlt, _, hx⟩
    · left
      rw [hx]
      obtain ⟨n1, _, n3⟩ := noted_conf hi.wf (c.allConfs S.env (gather S c.keys configs)) R bad S.env
      exact ⟨n1, n3⟩
    · rw [hx] at hp
      rw [needsPush_false_iff] at hp; cases hp
    · right
      have htop := List.mem_of_getElem? hti
      rw [hi.valid_all hS] at htop hmax
      have hin : top ∈ validOf S.env ((gather S c.keys configs).map (·.2)) := by
        rcases List.mem_append.1 htop with hm | hm
        · split at hm
          · rename_i hm1
            exact absurd (List.mem_singleton.1 hm) (hne hm1)
          · cases hm
        · exact hm
      obtain ⟨b, hb, hpb⟩ := mem_validOf.1 hin
      obtain ⟨p, hp1, rfl⟩ := List.mem_map.1 hb
      refine ⟨p, hp1, top, hpb, fun q hq m' hm' => ?_, ?_, ?_⟩
      · exact sh_le_seqno (hmax m' (List.mem_append_right _ (mem_validOf.2 ⟨q.2, List.mem_map.2 ⟨q, hq, rfl⟩, hm'⟩)))
      · rw [hx]
        show pruneD (c.newConf S R).m.data = _
        have : (c.newConf S R).m.data = top.data := by
          unfold Client.newConf
          split
          · unfold mutFromMerge
            split <;> rw [hRe] <;> rfl
          · rw [hRe]
        rw [this]
        exact pruneD_of_wf (parseMsg_ok hpb).wf.data
      · rw [hx]
        show (c.newConf S R).m.seqno = _
        rw [newConf_seqno]
        have hu : R.unmerged ≠ -1 := by rw [hRe]; simp only; omega
        have hs : R.seqno = top.seqno := by rw [hRe]
        by_cases hd : c.st = .dirty
        · rw [if_pos ⟨hd, hu⟩, if_pos hd, hs]
        · rw [if_neg (fun h => hd h.1), if_neg hd, hs]

/-- C152.  Two different versions with the same seqno are in conflict, whatever they contain: an object that holds one and is given the
other makes a third and must push it. -/
theorem same_seqno_pushes {S : Sys} (hS : S.Good) (hro : S.env.readonly = false) {c : Client} (hr : Reach S c) (h0 : c.seqno ≠ 0)
    {configs : List (Bytes × Bytes)} {h b : Bytes} (hg : gather S c.keys configs = [(h, b)]) {m : Msg}
    (hm : parseMsg S.env false b = .ok m) (hs : m.seqno = c.seqno) (hb : b ≠ c.plain S)
    (hf : Fair S.env b) (hn : NoCollision S.env [c.plain S, b]) {good : List Bytes}
    (hok : (c.merge S configs).2 = .ok good) :
    (c.merge S configs).1.needsPush = true ∧ (c.merge S configs).1.seqno = m.seqno + 1 := by
  have hi := hr.inv hS
  have hmine : c.hasMine = true := by unfold Client.hasMine Client.seqno at *; simp [h0]
  have hall : (c.allConfs S.env [(h, b)]).map (·.2) = [c.plain S, b] := by
    unfold Client.allConfs; rw [if_pos hmine]; rfl
  have hn' : NoCollision S.env ((c.allConfs S.env [(h, b)]).map (·.2)) := by rw [hall]; exact hn
  rcases merge_cases (by rw [hok]; rfl : (c.merge S configs).2.safe = true) with ⟨e, he, _⟩ | ⟨R, bad, _, hR, he⟩
  · rw [hok] at he; cases he
  rw [hg] at hR he
  have hva := hi.valid_all hS [(h, b)]
  have hvb : validOf S.env ([(h, b)].map (·.2)) = [m] := by simp [validOf, hm, Out.toOption]
  rw [hmine, if_pos rfl, hvb] at hva
  have hcur : ∀ x ∈ [c.ownMsg S, m], Current S.env.lag (validOf S.env ((c.allConfs S.env [(h, b)]).map (·.2))) x := by
    have hseq : ∀ y ∈ [c.ownMsg S, m], y.seqno = m.seqno := fun y hy => by
      rcases List.mem_cons.1 hy with rfl | hy
      · rw [ownMsg_seqno, hs]; rfl
      · rw [List.mem_singleton.1 hy]
    intro x hx
    have gb := goodBatch_of hn'
    refine ⟨by rw [hva]; exact hx, fun c2 h2 p hp hpe => ?_, fun c2 h2 => ?_⟩
    · have w := gb.window c2 h2 p hp
      rw [hva] at h2
      rw [hpe, hseq c2 h2] at w
      have : (x.sh).1 = x.seqno := rfl
      rw [this, hseq x hx] at w; omega
    · rw [hva] at h2
      rw [hseq c2 h2, hseq x hx]
      have := hS.lag1; omega
  rcases merge_outcome hS hi hn' hR with ⟨top, i, hti, hmax, hone, hRe, _⟩ | ⟨top, ht, hmax, _, _, hu, hsq, _, _⟩
  · exfalso
    rcases hone with h1 | hone
    · rw [hro] at h1; cases h1
    have e1 := hone _ (hcur _ (List.mem_cons_self ..))
    have e2 := hone _ (hcur m (List.mem_cons_of_mem _ (List.mem_singleton.2 rfl)))
    have hh : S.env.H (c.plain S) = S.env.H b := by
      have : (c.ownMsg S).hash = m.hash := by rw [e1, e2]
      rw [(parseMsg_ok hm).hash, ownMsg_hash] at this; exact this
    exact hb (hn _ (List.mem_cons_self ..) b (List.mem_cons_of_mem _ (List.mem_singleton.2 rfl)) hh).symm
  · have hts : top.seqno = m.seqno := by
      rw [hva] at ht
      rcases List.mem_cons.1 ht with rfl | ht
      · rw [ownMsg_seqno, hs]; rfl
      · rw [List.mem_singleton.1 ht]
    rw [he]
    rcases (absorb_cases hS hi (inc := [(h, b)]) (fun p hp => by rw [List.mem_singleton.1 hp]; exact hf) hn' hR).2 with
      hx | ⟨_, _, _, _, hx⟩ | ⟨top', i, x, y, _, _, _, hRe, _⟩
    · exfalso
      have hne : (c.newConf S R).m.seqno ≠ c.conf.m.seqno := by
        rw [newConf_seqno, if_neg (fun h => h.2 hu), hsq, hts, hs]; unfold Client.seqno; omega
      have hst : (c.absorb S (c.allConfs S.env [(h, b)]) R bad).1.conf.m.seqno = R.seqno := by
        unfold Client.absorb
        rw [if_neg hne, if_pos hu, if_neg (by rw [hro]; simp)]
        show (Client.setState _ _).conf.m.seqno = _
        rw [setState_conf]
        show (c.mergedConf S R).m.seqno = _
        exact mergedConf_seqno S c hu
      rw [hx, (noted_conf hi.wf _ R bad S.env).1, hsq, hts, hs] at hst
      unfold Client.seqno at hst; omega
    · rw [hx]
      refine ⟨by rw [needsPush_iff]; exact fun h => CState.noConfusion h, ?_⟩
      show (Client.setState _ _).conf.m.seqno = _
      rw [setState_conf]
      show (c.mergedConf S R).m.seqno = _
      rw [mergedConf_seqno S c hu, hsq, hts]
    · rw [hRe] at hu; simp only at hu; omega

/-! ### Where the seqno is not the message's -/

/-- the next version of a device: the previous one confirmed, a value edited, and pushed -/
def exPhNext (c : Client) (v : Int) : Client :=
  (((c.confirm c.seqno [0]).edit exSys [([97], .scalar (.int v))]).1.push exSys).1

/-- what a device would push -/
def exPhMsg (c : Client) : Bytes := match (c.push exSys).2 with
  | .ok r => r.2.1
  | _ => []

/-- one device's version 6, and its version 7 -/
def exPh6 : Client := exPhNext (exPhNext (exPhNext (exPhNext (exPhNext exC2 2) 3) 4) 5) 6
def exPh7 : Client := exPhNext exPh6 7

/-- another device, new, with an edit not yet pushed; it is given version 6, and then version 7 -/
def exPhD : Client := (exC0.edit exSys [([98], .scalar (.int 1))]).1
def exPhE : Client := (exPhD.merge exSys [([6], exPhMsg exPh6)]).1
def exPhF : Client := (exPhE.merge exSys [([7], exPhMsg exPh7)]).1

theorem exPhD_reach : Reach exSys exPhD := .step exC0_reach (.edit _ _ (by decide +kernel) (by decide +kernel))

/-- C152, false of objects with edits that are too old to be merged.  A device with an edit that was never pushed is given version 6:
its edit is dropped, it says that there is nothing to push and it holds the content of version 6 - but it calls it version 7.  Given the
real version 7 it finds a conflict, and must push a version 8 that has no edit in it; a device that took over version 6 without an edit
of its own takes over version 7 and has nothing to push. -/
theorem takeover_version_dirty :
    exPhD.needsPush = true ∧ (exPhD.merge exSys [([6], exPhMsg exPh6)]).2 = .ok [[6]] ∧
    exPh6.seqno = 6 ∧ exPhE.needsPush = false ∧ exPhE.content = exPh6.content ∧ exPhE.seqno = 7 ∧
    exPhE.currentHashes = [[6]] ∧
    (exPhE.merge exSys [([7], exPhMsg exPh7)]).2 = .ok [[7]] ∧ exPh7.seqno = 7 ∧
    exPhF.needsPush = true ∧ exPhF.seqno = 8 ∧ exPhF.content = exPh7.content ∧
    (let q := (exC0.merge exSys [([6], exPhMsg exPh6)]).1
     q.seqno = 6 ∧ q.needsPush = false ∧ q.content = exPhE.content ∧
     (q.merge exSys [([7], exPhMsg exPh7)]).1.seqno = 7 ∧ (q.merge exSys [([7], exPhMsg exPh7)]).1.needsPush = false ∧
     (q.merge exSys [([7], exPhMsg exPh7)]).1.content = exPhF.content) := by decide +kernel

/-- the hypotheses of `takeover_version`, for an object with an edit and one without -/
example : (∀ p ∈ gather exSys exPhD.keys [([6], exPhMsg exPh6)], Fair exSys.env p.2) ∧
    NoCollision exSys.env ((exPhD.allConfs exSys.env (gather exSys exPhD.keys [([6], exPhMsg exPh6)])).map (·.2)) ∧
    (exPhD.merge exSys [([6], exPhMsg exPh6)]).2.safe = true :=
  ⟨by
    have hg : gather exSys exPhD.keys [([6], exPhMsg exPh6)] = [([6], exPh6.plain exSys)] := by decide +kernel
    rw [hg]
    intro p hp
    rw [List.mem_singleton.1 hp]
    exact fair_of_test (by decide +kernel),
   by unfold NoCollision; decide +kernel, by decide +kernel⟩

/-- the hypotheses of `same_seqno_pushes`: version 7 by another device is given to the holder of version 7 -/
example : exPhE.seqno ≠ 0 ∧ exSys.env.readonly = false ∧
    gather exSys exPhE.keys [([7], exPhMsg exPh7)] = [([7], exPh7.plain exSys)] ∧
    ((parseMsg exSys.env false (exPh7.plain exSys)).toOption.map (·.seqno)) = some exPhE.seqno ∧
    exPh7.plain exSys ≠ exPhE.plain exSys ∧ NoCollision exSys.env [exPhE.plain exSys, exPh7.plain exSys] :=
  ⟨by decide +kernel, by decide +kernel, by decide +kernel, by decide +kernel, by decide +kernel,
   by unfold NoCollision; decide +kernel⟩

end Verif
