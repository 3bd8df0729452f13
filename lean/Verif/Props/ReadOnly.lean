import Verif.Props.Envelope
import Verif.Props.GroupState
import Verif.Props.ClientKeys
import Verif.Props.ClientDump
import Verif.Props.ClientHash
import Verif.Props.Network

/-!
# What a member that cannot sign holds
-/

namespace Verif

/-! ## C150 -/

/-- The life of one object, with the list of everything it was given and could decrypt: a new object was given nothing;
calls other than `merge` give it nothing; a `merge` that returns gives it the decrypted messages of that call (valid or
not); a `merge` that throws gives it nothing; and it can be dumped and loaded again. -/
inductive Told (S : Sys) : Client → List Bytes → Prop
  | new : Told S (Client.new S) []
  | call {c c' : Client} {l : List Bytes} : Told S c l → LocalStep S c c' → Told S c' l
  | merge {c : Client} {l : List Bytes} {configs : List (Bytes × Bytes)} {good : List Bytes} : Told S c l →
      (∀ p ∈ gather S c.keys configs, Fair S.env p.2) →
      NoCollision S.env ((c.allConfs S.env (gather S c.keys configs)).map (·.2)) →
      (c.merge S configs).2 = .ok good → Told S (c.merge S configs).1 (l ++ (gather S c.keys configs).map (·.2))
  | failed {c : Client} {l : List Bytes} {configs : List (Bytes × Bytes)} {e : Err} : Told S c l →
      (∀ p ∈ gather S c.keys configs, Fair S.env p.2) →
      NoCollision S.env ((c.allConfs S.env (gather S c.keys configs)).map (·.2)) →
      (c.merge S configs).2 = .err e → Told S (c.merge S configs).1 l
  | restore {c c' : Client} {l ord : List Bytes} : Told S c l →
      ord.Perm (if S.env.readonly then [] else c.old) →
      Client.restore S (c.dumpBytes S ord) = .ok c' → Told S c' l

theorem Told.reach {S : Sys} {c : Client} {l : List Bytes} (h : Told S c l) : Reach S c := by
  induction h with
  | new => exact .new
  | call _ hs ih => exact .step ih hs.step
  | merge _ hf hc hok ih => exact .step ih (.merge _ _ hf hc (by rw [hok]; rfl))
  | failed _ hf hc hok ih => exact .step ih (.merge _ _ hf hc (by rw [hok]; rfl))
  | restore _ hord hr ih => exact .restore ih hord hr

theorem ro_dirty {S : Sys} {c : Client} (hro : S.env.readonly = true) : (c.dirty S).1 = c := by
  rcases dirty_fst (S := S) (c := c) with h | ⟨_, h, _⟩
  · exact h
  · rw [hro] at h; cases h

theorem ro_touched {c : Client} (h : c.conf.orig = none) : c.touched = c := by
  obtain ⟨⟨m, o⟩, _, _, _, _, _⟩ := c
  have h' : o = none := h
  subst h'; rfl

theorem ro_added {S : Sys} : ∀ (ks : List Bytes) (c : Client),
    (ks.foldl (fun c k => (c.addKey S k false false).1) c).conf = c.conf
  | [], _ => rfl
  | k :: ks, c => by
    rw [List.foldl_cons, ro_added ks]
    unfold Client.addKey
    simp only [Bool.false_and, Bool.false_eq_true, if_false]
    split
    · rfl
    split
    · rfl
    split <;> rfl

/-- No call but `merge` changes the config of an object that cannot sign. -/
theorem ro_local {S : Sys} {c c' : Client} (hi : CInv S c) (hro : S.env.readonly = true)
    (hs : LocalStep S c c') : c'.conf = c.conf := by
  obtain ⟨hst, hor, _⟩ := hi.ro hro
  have hrm : ∀ k n d, (c.removeKey S k n d).1.conf = c.conf := fun k n d => by
    unfold Client.removeKey
    split
    · rfl
    split
    · rfl
    dsimp only
    split
    · rename_i h
      have := ro_dirty (c := { c with keys := c.keys.take n ++ (c.keys.drop n).filter (· ≠ k) }) hro
      split <;> rename_i he <;> rw [he] at this <;> dsimp only at this ⊢ <;> rw [this]
    · rfl
  cases hs with
  | edit d _ _ =>
    by_cases he : (c.dirty S).2 = .ok ()
    · rcases dirty_fst (S := S) (c := c) with h | ⟨_, h, _⟩
      · have := (dirty_ok he).1
        rw [h, hst] at this; cases this
      · rw [hro] at h; cases h
    · rw [edit_eq_err he, ro_dirty hro]
  | push =>
    have := ro_touched hor
    unfold Client.push
    split
    · rfl
    split
    · split
      · rw [this]
      · dsimp only
        rw [this, if_neg (by rw [hst]; exact fun h => CState.noConfusion h)]
    · rw [this]
    · rfl
    · rfl
  | confirm s h =>
    unfold Client.confirm
    rw [if_neg (by rw [hst]; exact fun h => CState.noConfusion h.1)]
  | dump => show c.touched.conf = _; rw [ro_touched hor]
  | addKey k hi d _ =>
    have := hrm k 1 false
    unfold Client.addKey
    split
    · rfl
    split
    · rfl
    split
    · rfl
    simp only [hro]
    cases hi <;> simp [this]
  | removeKey k n d _ => exact hrm k n d
  | clearKeys d _ =>
    unfold Client.clearKeys
    simp [hro]
  | replaceKeys ks d _ =>
    unfold Client.replaceKeys
    cases ks with
    | nil =>
      dsimp only
      split
      · rfl
      · unfold Client.clearKeys
        simp [hro]
    | cons k ks =>
      dsimp only
      split
      · rfl
      · simp only [hro, Bool.not_true, Bool.and_false, Bool.false_and, Bool.false_eq_true, if_false]
        exact ro_added (S := S) (k :: ks) _

/-- What is known of an object that cannot sign after it was given `l`: its seqno is at least that of every valid message
among them, and unless it is still the initial, empty config, its content and seqno are those of one of them. -/
def HoldsNewest (S : Sys) (c : Client) (l : List Bytes) : Prop :=
  (∀ b ∈ l, ∀ m, parseMsg S.env false b = .ok m → m.seqno ≤ c.seqno) ∧
  ((c.seqno = 0 ∧ c.content = []) ∨
    ∃ b ∈ l, ∃ m, parseMsg S.env false b = .ok m ∧ m.seqno = c.seqno ∧ m.data = c.content)

theorem HoldsNewest.of_conf {S : Sys} {c c' : Client} {l : List Bytes} (h : HoldsNewest S c l)
    (he : c'.conf = c.conf) : HoldsNewest S c' l := by
  unfold HoldsNewest Client.seqno Client.content at *
  rw [he]; exact h

theorem ro_merge {S : Sys} (hS : S.Good) {c : Client} (hi : CInv S c) (hro : S.env.readonly = true)
    {configs : List (Bytes × Bytes)} {l : List Bytes} (h : HoldsNewest S c l)
    (hf : ∀ p ∈ gather S c.keys configs, Fair S.env p.2)
    (hc : NoCollision S.env ((c.allConfs S.env (gather S c.keys configs)).map (·.2))) {good : List Bytes}
    (hok : (c.merge S configs).2 = .ok good) :
    HoldsNewest S (c.merge S configs).1 (l ++ (gather S c.keys configs).map (·.2)) := by
  obtain ⟨hst, hor, _⟩ := hi.ro hro
  have hnd : c.st ≠ .dirty := by rw [hst]; exact fun h => CState.noConfusion h
  have href : (if c.hasMine then c.conf.refresh else c.conf) = c.conf := by
    have : c.conf.refresh = c.conf := congrArg Client.conf (ro_touched hor)
    split
    · exact this
    · rfl
  rcases merge_cases (by rw [hok]; rfl : (c.merge S configs).2.safe = true) with ⟨e, he, _⟩ | ⟨R, bad, _, hR, he⟩
  · rw [hok] at he; cases he
  rw [he]
  generalize hinc : gather S c.keys configs = inc at *
  have hva := hi.valid_all hS inc
  rcases merge_outcome hS hi hc hR with ⟨top, i, hti, hmax, _, hRe, _⟩ | ⟨top, _, _, hro', _⟩
  swap
  · rw [hro] at hro'; cases hro'
  have hRs : R.seqno = top.seqno := by rw [hRe]
  have hRd : R.data = top.data := by rw [hRe]
  have hbound : ∀ b ∈ inc.map (·.2), ∀ m, parseMsg S.env false b = .ok m → m.seqno ≤ top.seqno := fun b hb m hm =>
    sh_le_seqno (hmax m (by rw [hva]; exact List.mem_append_right _ (mem_validOf.2 ⟨b, hb, hm⟩)))
  have htop : top ∈ validOf S.env ((c.allConfs S.env inc).map (·.2)) := List.mem_of_getElem? hti
  by_cases hsq : top.seqno = c.conf.m.seqno
  · have hcf : (c.absorb S (c.allConfs S.env inc) R bad).1.conf = c.conf := by
      unfold Client.absorb
      rw [if_pos (by
        unfold Client.newConf
        rw [if_neg hnd]; exact hRs.trans hsq)]
      exact href
    refine HoldsNewest.of_conf (c := c) ⟨fun b hb m hm => ?_, ?_⟩ hcf
    · rcases List.mem_append.1 hb with hb | hb
      · exact h.1 b hb m hm
      · have := hbound b hb m hm
        unfold Client.seqno; omega
    · rcases h.2 with h0 | ⟨b, hb, hm⟩
      · exact .inl h0
      · exact .inr ⟨b, List.mem_append_left _ hb, hm⟩
  · have hin : top ∈ validOf S.env (inc.map (·.2)) := by
      rw [hva] at htop
      rcases List.mem_append.1 htop with hm | hm
      · split at hm
        · rw [List.mem_singleton] at hm
          rw [hm, ownMsg_seqno] at hsq; exact absurd rfl hsq
        · cases hm
      · exact hm
    obtain ⟨b, hb, hpb⟩ := mem_validOf.1 hin
    have hge : c.conf.m.seqno ≤ top.seqno := by
      cases hm : c.hasMine with
      | false =>
        have h0 := (hasMine_false hm).1
        obtain ⟨p, hp, hpe⟩ := List.mem_map.1 hb
        have := (hf p hp top (by rw [hpe]; exact hpb)).1
        omega
      | true =>
        rw [← ownMsg_seqno S c]
        exact sh_le_seqno (hmax _ (own_mem hS hi hm inc))
    have hcf : (c.absorb S (c.allConfs S.env inc) R bad).1.conf = ⟨R, none⟩ := by
      rw [he] at hok
      have hnc : c.newConf S R = ⟨R, none⟩ := by unfold Client.newConf; rw [if_neg hnd]
      have hu : R.unmerged ≠ -1 := by rw [hRe]; simp only; omega
      unfold Client.absorb at hok ⊢
      dsimp only at hok ⊢
      rw [hnc] at hok ⊢
      rw [if_neg (show R.seqno ≠ c.conf.m.seqno by rw [hRs]; exact hsq), if_neg hu,
        if_neg (fun h => hnd h.1)] at hok ⊢
      cases hg : (c.allConfs S.env inc)[R.unmerged.toNat]? with
      | none => rw [hg] at hok; cases hok
      | some q => rfl
    have hsn : (c.absorb S (c.allConfs S.env inc) R bad).1.seqno = top.seqno := by
      unfold Client.seqno; rw [hcf]; exact hRs
    refine ⟨fun b hb m hm => ?_, .inr ⟨b, List.mem_append_right _ hb, top, hpb, hsn.symm, ?_⟩⟩
    · rw [hsn]
      rcases List.mem_append.1 hb with hb | hb
      · exact le_trans (h.1 b hb m hm) hge
      · exact hbound b hb m hm
    · unfold Client.content; rw [hcf]
      show top.data = pruneD R.data
      rw [hRd]
      exact (pruneD_of_wf (parseMsg_ok hpb).wf.data).symm

/-- C150.  An object that cannot sign holds the newest version among the messages it was given: whatever calls were made on it,
with dumps and restarts in between, its seqno is at least that of every valid message it was given, and its content and
seqno are those of one of these messages (or it is still the initial empty config). -/
theorem readonly_newest {S : Sys} (hS : S.Good) (hro : S.env.readonly = true) {c : Client} {l : List Bytes}
    (h : Told S c l) : HoldsNewest S c l := by
  induction h with
  | new => exact ⟨fun b hb => (by cases hb), .inl ⟨rfl, rfl⟩⟩
  | call h1 hs ih => exact ih.of_conf (ro_local (h1.reach.inv hS) hro hs)
  | merge h1 hf hc hok ih => exact ro_merge hS (h1.reach.inv hS) hro ih hf hc hok
  | @failed c l configs e h1 hf hc hok ih =>
    refine ih.of_conf ?_
    have hi := h1.reach.inv hS
    obtain ⟨hst, hor, _⟩ := hi.ro hro
    have : c.conf.refresh = c.conf := congrArg Client.conf (ro_touched hor)
    rcases merge_cases (by rw [hok]; rfl : (c.merge S configs).2.safe = true) with ⟨e, _, h | h⟩ | ⟨R, bad, _, hR, he⟩
    · rw [h]
    · rw [h]; dsimp only
      split
      · exact this
      · rfl
    · have := (absorb_cases hS hi hf hc hR).1
      rw [he, this] at hok; cases hok
  | @restore c c' l ord h1 hord hr ih =>
    have hi := h1.reach.inv hS
    have hnd : ord.Nodup := by
      rw [if_pos hro] at hord
      rw [List.perm_nil.1 hord]; exact List.nodup_nil
    have hsn := seqno_restored hS h1.reach hnd hr
    rw [if_neg (by rw [(hi.ro hro).1]; exact fun h => CState.noConfusion h)] at hsn
    have hct : c'.content = c.content := by
      rw [(restore_inv hS hi hnd hr).1]; exact reloaded_content hi ord
    unfold HoldsNewest at *
    rw [hsn, hct]; exact ih

/-- C150.  Two such members agree once both were given the newest version: if the valid message `b` was given to both and
every other valid message given to either has a smaller seqno or the same content, both have its content and its seqno,
whatever else they were given and in which order. -/
theorem readonly_agree {S : Sys} (hS : S.Good) (hro : S.env.readonly = true) {b : Bytes} {m : Msg}
    (hm : parseMsg S.env false b = .ok m) (h0 : 0 < m.seqno) {c : Client} {l : List Bytes} (hc : Told S c l) (hb : b ∈ l)
    (hmax : ∀ b' ∈ l, ∀ m', parseMsg S.env false b' = .ok m' → m'.seqno < m.seqno ∨ m'.seqno = m.seqno ∧ m'.data = m.data) :
    c.seqno = m.seqno ∧ c.content = m.data := by
  obtain ⟨h1, h2⟩ := readonly_newest hS hro hc
  have hle := h1 b hb m hm
  rcases h2 with ⟨h2, _⟩ | ⟨b', hb', m', hm', hs, hd⟩
  · omega
  · rcases hmax b' hb' m' hm' with h3 | ⟨h3, h4⟩
    · omega
    · exact ⟨by omega, by rw [← hd, h4]⟩

/-- C150.  It never goes back: whatever happens later, the seqno does not decrease, and the content changes only together with
it. -/
theorem readonly_forward {S : Sys} (hS : S.Good) (hro : S.env.readonly = true) {c : Client} {l : List Bytes}
    (h : Told S c l) {c' : Client} (hs : Steps S c c') :
    c.seqno ≤ c'.seqno ∧ (c'.seqno = c.seqno → c'.content = c.content) := by
  have hr := h.reach
  refine ⟨seqno_never_decreases hS hr hs, fun he => ?_⟩
  exact (seqno_identifies_content hS hr (by rw [((hr.inv hS).ro hro).1]; exact fun h => CState.noConfusion h) hs he).2.1

/-- A test for `Fair`. -/
def fairTest (env : Env) (b : Bytes) : Bool :=
  match parseMsg env false b with
  | .ok m => decide (0 ≤ m.seqno) && (match env.verifier, m.vsig with
    | some v, some s => v (m.body env.lag) s
    | _, _ => true)
  | _ => true

theorem fair_of_test {env : Env} {b : Bytes} (h : fairTest env b = true) : Fair env b := by
  intro m hm
  unfold fairTest at h
  rw [hm] at h
  simp only [Bool.and_eq_true, decide_eq_true_eq] at h
  refine ⟨h.1, fun v hv s hs => ?_⟩
  rw [hv, hs] at h; exact h.2

/-- A member reads the second version, then both versions (the first is older), then goes through a restart. -/
def exRo1 : Client := (exR0.merge exSysRO [([106], exM2)]).1
def exRo2 : Client := (exRo1.merge exSysRO [([104], exM1), ([106], exM2)]).1
/-- Another reads them in order. -/
def exRo3 : Client := (exR0.merge exSysRO [([104], exM1)]).1
def exRo4 : Client := (exRo3.merge exSysRO [([106], exM2)]).1
/-- The two versions. -/
def exBody1 : Bytes := exC1.plain exSys
def exBody2 : Bytes := exD2.plain exSys

theorem told_merge {S : Sys} {c : Client} {l l' : List Bytes} {configs : List (Bytes × Bytes)} (h : Told S c l)
    (hg : (gather S c.keys configs).map (·.2) = l') (hf : l'.all (fairTest S.env) = true)
    (hn : NoCollision S.env ((c.allConfs S.env (gather S c.keys configs)).map (·.2)))
    (hok : (c.merge S configs).2.isOk = true) : Told S (c.merge S configs).1 (l ++ l') := by
  cases ho : (c.merge S configs).2 with
  | ok g =>
    subst hg
    refine .merge h (fun p hp => fair_of_test (List.all_eq_true.1 hf _ (List.mem_map.2 ⟨p, hp, rfl⟩))) hn ho
  | err e => rw [ho] at hok; cases hok
  | ub => rw [ho] at hok; cases hok
  | hang => rw [ho] at hok; cases hok

theorem exR0_told : Told exSysRO exR0 [] := .call .new (.addKey _ _ _ _ (by decide +kernel))
theorem exRo1_told : Told exSysRO exRo1 [exBody2] :=
  told_merge exR0_told (by decide +kernel) (by decide +kernel) (by unfold NoCollision; decide +kernel) (by decide +kernel)
theorem exRo2_told : Told exSysRO exRo2 [exBody2, exBody1, exBody2] :=
  told_merge exRo1_told (l' := [exBody1, exBody2]) (by decide +kernel) (by decide +kernel) (by unfold NoCollision; decide +kernel)
    (by decide +kernel)
theorem exRo3_told : Told exSysRO exRo3 [exBody1] :=
  told_merge exR0_told (by decide +kernel) (by decide +kernel) (by unfold NoCollision; decide +kernel) (by decide +kernel)
theorem exRo4_told : Told exSysRO exRo4 [exBody1, exBody2] :=
  told_merge exRo3_told (l' := [exBody2]) (by decide +kernel) (by decide +kernel) (by unfold NoCollision; decide +kernel)
    (by decide +kernel)

/-- The hypotheses of `readonly_agree` hold of both members, and the claim says something. -/
example : exSysRO.env.readonly = true ∧ ((parseMsg exSysRO.env false exBody2).toOption.map (·.seqno)) = some 2 ∧
    ((parseMsg exSysRO.env false exBody1).toOption.map (·.seqno)) = some 1 ∧
    exRo2.content = exD2.content ∧ exRo4.content = exD2.content ∧ exRo2.seqno = 2 ∧ exRo4.seqno = 2 ∧
    exRo2.content ≠ exRo3.content := by decide +kernel

/-- C150 says nothing about which of two messages of the same seqno is held (`readonly_diverges`): with two of them the claim of
`readonly_agree` is false, which is why it asks for the same content. -/
theorem readonly_agree_needs :
    let r1 := ((exR0.merge exSysRO [([1], exM2)]).1.merge exSysRO [([2], exMP)]).1
    let r2 := ((exR0.merge exSysRO [([2], exMP)]).1.merge exSysRO [([1], exM2)]).1
    r1.seqno = r2.seqno ∧ r1.content ≠ r2.content ∧
      (gather exSysRO exR0.keys [([1], exM2), ([2], exMP)]).length = 2 := by decide +kernel

/-- A toy signature that depends on every byte. -/
def exSum (b : Bytes) : UInt8 := b.foldl (fun a x => 3 * a + x) 1
def exSigner (b : Bytes) : Bytes := List.replicate 64 (exSum b)
def exSysV : Sys := { exSys with env := { exEnvH with verifier := some fun b s => s == exSigner b, signer := some exSigner } }
def exSysVRO : Sys := { exSysV with env := { exSysV.env with signer := none } }

theorem exSysVRO_good : exSysVRO.Good where
  sane := ⟨fun b => by simp [exSysVRO, exSysV, exEnvH], fun f hf => by cases hf⟩
  lag1 := by decide
  lagU := by decide
  prims := toyPrims_good
  dom := by decide
  zip := fun _ => rfl
  sig := fun v f hv hf => by cases hf
  proto := fun w u h => by cases h

/-- Version 1 as the library writes it; version 2 with a key this version does not know, whose value is a dict with its keys in
the wrong order, signed as it is. -/
def exOne : Bytes := (⟨{ Msg.empty with seqno := 1, data := [([97], .scalar (.int 1))] }, some []⟩ : Conf).ser exSysV.env true
def exTwoBody : Bytes := [100, 49,58,35, 105,50,101, 49,58,38, 100,49,58,97,105,50,101,101, 49,58,60, 108,101, 49,58,61, 100,49,58,97,48,58,101,
  49,58,95, 100,49,58,98,105,49,101,49,58,97,105,49,101,101]
def exTwo : Bytes := exTwoBody ++ [49,58,126, 54,52,58] ++ exSigner exTwoBody ++ [101]
/-- The two as they arrive. -/
def exRawOne : Bytes := match envelope exSysV exKey 1 exOne with
  | .ok m => m
  | _ => []
def exRawTwo : Bytes := match envelope exSysV exKey 2 exTwo with
  | .ok m => m
  | _ => []
def exV0 : Client := ((Client.new exSysVRO).addKey exSysVRO exKey true true).1

/-- C29 and C150 need messages signed in the form the library writes (`Fair`).  A correctly signed newer version with an
unknown key whose value is a dict with unsorted keys is accepted and adopted; but the object keeps the value in sorted order, so
that its own config no longer passes its own verifier, and the next merge, of an older version, takes the object back to that
version: from seqno 2 to 1. -/
theorem noncanonical_goes_back :
    let r1 := (exV0.merge exSysVRO [([2], exRawTwo)]).1
    let r2 := (r1.merge exSysVRO [([1], exRawOne)]).1
    (exV0.merge exSysVRO [([2], exRawTwo)]).2 = .ok [[2]] ∧ (r1.merge exSysVRO [([1], exRawOne)]).2 = .ok [[1]] ∧
      r1.seqno = 2 ∧ r1.content = [([97], .scalar (.int 2))] ∧
      r2.seqno = 1 ∧ r2.content = [([97], .scalar (.int 1))] ∧
      fairTest exSysVRO.env exOne = true ∧ fairTest exSysVRO.env exTwo = false := by decide +kernel

end Verif
