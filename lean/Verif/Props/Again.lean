/-
C147: saving what is already saved does nothing, on the device that saved it and on every device the save
has reached; and default values take no space.
-/
import Verif.Props.Combine
import Verif.Props.Profile

namespace Verif

/-! ## Saving again -/

/-- The same call made at another time -/
def RecOp.at (t : Int) : RecOp → RecOp
  | .setConvo _ k id x => .setConvo t k id x
  | .setComm _ base room pk x => .setComm t base room pk x
  | op => op

/-- `t` is not before the call, and last-read times are before the year 2262 (C55). -/
def RecOp.Before (t : Int) : RecOp → Prop
  | .setConvo now _ _ x => now ≤ t ∧ int64Ok (x.lastRead * 10 ^ 6) = true
  | .setComm now _ _ _ x => now ≤ t ∧ int64Ok (x.lastRead * 10 ^ 6) = true
  | _ => True

/-- What was written is there when the content has been published, taken over or loaded. -/
theorem kept_get {S : Sys} (hS : S.Good) {c c2 : Client} (hr : Reach S c) (hc : c2.conf.m.data = c.content)
    {p : List Bytes} {v : Option Val} (hv : wfO v = true) (h : c.get p = v) : c2.get p = v := by
  have hg : c2.get p = (c.get p).bind fun v => if v.prune.emptyVal then none else some v.prune := by
    unfold Client.get; rw [hc]; exact valAt_pruneD _ (hr.inv hS).wf.data
  rw [hg, h]
  cases v with
  | none => rfl
  | some v =>
    simp only [wfO, Val.wf, Bool.and_eq_true] at hv
    rw [Option.bind_some, prune_of_full v hv.2, full_not_empty hv.2]
    rfl

theorem kept_int {S : Sys} (hS : S.Good) {c c2 : Client} (hr : Reach S c) (hc : c2.conf.m.data = c.content)
    (p : List Bytes) : intOf (c2.get p) = intOf (c.get p) := by
  have hg : c2.get p = (c.get p).bind fun v => if v.prune.emptyVal then none else some v.prune := by
    unfold Client.get; rw [hc]; exact valAt_pruneD _ (hr.inv hS).wf.data
  rw [hg]
  cases c.get p with
  | none => rfl
  | some v =>
    cases v with
    | scalar x => rfl
    | set s =>
      rw [Option.bind_some]
      split <;> rfl
    | dict e =>
      rw [Option.bind_some]
      split <;> rfl

theorem writes_again {S S2 : Sys} (hS : S.Good) {c c1 c2 : Client} (hr : Reach S c)
    {ws : List (List Bytes × Option Val)} (hw : ∀ w ∈ ws, w.1 ≠ [] ∧ wfO w.2 = true)
    (hp : ws.Pairwise fun (a b : List Bytes × Option Val) => ¬ Nested a.1 b.1) (h : c.writeAll S ws = (c1, .ok ()))
    (hd : c2.st ≠ .dirty) (hc : c2.conf.m.data = c1.content) : c2.writeAll S2 ws = (c2, .ok ()) := by
  obtain ⟨w1, w2, _⟩ := writeAll_get hS ws hr hw hp h
  exact writeAll_noop ws (fun w hm => (hw w hm).2) hd fun w hm => kept_get hS w1 hc (hw w hm).2 (w2 w hm)

theorem setRec_again {S S2 : Sys} (hS : S.Good) {c c1 c2 : Client} (hr : Reach S c) {P : List Bytes}
    {pre id : Bytes} {fs : Bytes → List (Bytes × Option Val)} (hn : ∀ pk, ((fs pk).map (·.1)).Nodup)
    (hw : ∀ pk, ∀ f ∈ fs pk, wfO f.2 = true) (h : c.setRec S P pre id fs = (c1, .ok ()))
    (hd : c2.st ≠ .dirty) (hc : c2.conf.m.data = c1.content) : c2.setRec S2 P pre id fs = (c2, .ok ()) := by
  obtain ⟨pk, hpk, h⟩ := setRec_ok h
  unfold Client.setRec
  rw [hpk]
  exact writes_again hS hr (entries_ok (hw pk)) (entries_pairwise _ (hn pk)) h hd hc

theorem erase_again {S S2 : Sys} (hS : S.Good) {c c1 c2 : Client} (hr : Reach S c) {p : List Bytes}
    (h : c.erase S p = (c1, .ok ())) (hd : c2.st ≠ .dirty) (hc : c2.conf.m.data = c1.content) :
    c2.erase S2 p = (c2, .ok ()) := by
  obtain ⟨g1, _, g3⟩ := erase_get hS hr h
  exact (rewrite_is_noop hd).2.1 (kept_get hS g3 hc (v := none) rfl g1)

theorem readWrites_cases {c : Client} {now : Int} {p : List Bytes} {x : Convo}
    {ws : List (List Bytes × Option Val)} (h : c.readWrites now p x = .ok ws) :
    ws = [(p ++ [[114]], some (.scalar (.int x.lastRead)))] ∨
    (ws = [] ∧ (intOf (c.get (p ++ [[114]]))).any (fun v => decide (x.lastRead < v)) = false ∧
      x.lastRead * 10 ^ 6 ≤ now - pruneLow) := by
  unfold Client.readWrites at h
  split at h
  · exact .inl (Out.ok.inj h).symm
  · rename_i h1
    split at h
    · have h := Out.ok.inj h
      split at h
      · exact .inl h.symm
      · rename_i h2
        exact .inr ⟨h.symm, by simpa using h1, by omega⟩
    · cases h

theorem setBase_again {S S2 : Sys} (hS : S.Good) {c c1 c2 : Client} (hr : Reach S c) {now t : Int}
    {p : List Bytes} {x : Convo} (hx : int64Ok x.lastRead = true) (hx' : int64Ok (x.lastRead * 10 ^ 6) = true)
    (ht : now ≤ t) (h : c.setBase S now p x = (c1, .ok ())) (hd : c2.st ≠ .dirty)
    (hc : c2.conf.m.data = c1.content) : c2.setBase S2 t p x = (c2, .ok ()) := by
  unfold Client.setBase at h
  split at h
  · rename_i ws hws
    have hwf := setBase_wf hx hws
    have hne : ¬ Nested (p ++ [[114]]) (p ++ [[117]]) := not_nested_snoc (by decide)
    have hp : (ws ++ [(p ++ [[117]], fFlag x.unread)]).Pairwise fun (a b : List Bytes × Option Val) => ¬ Nested a.1 b.1 := by
      rcases readWrites_cases hws with rfl | ⟨rfl, _⟩
      · simp [hne]
      · simp
    obtain ⟨w1, w2, w3⟩ := writeAll_get hS _ hr hwf hp h
    have hu : c2.get (p ++ [[117]]) = fFlag x.unread :=
      kept_get hS w1 hc (hwf (p ++ [[117]], fFlag x.unread) (List.mem_append_right _ (by simp))).2
        (w2 (p ++ [[117]], fFlag x.unread) (List.mem_append_right _ (by simp)))
    have hu2 := (hwf (p ++ [[117]], fFlag x.unread) (List.mem_append_right _ (by simp))).2
    unfold Client.setBase Client.readWrites
    rcases readWrites_cases hws with rfl | ⟨rfl, h1, h2⟩
    · have hg : c2.get (p ++ [[114]]) = some (.scalar (.int x.lastRead)) :=
        kept_get hS w1 hc (hwf (p ++ [[114]], some (.scalar (.int x.lastRead))) (by simp)).2 (w2 (p ++ [[114]], some (.scalar (.int x.lastRead))) (by simp))
      have hv := (hwf (p ++ [[114]], some (.scalar (.int x.lastRead))) (by simp)).2
      rw [hg]
      simp only [intOf, Option.any_some, lt_irrefl, decide_false, Bool.false_eq_true, if_false, if_pos hx']
      split
      · refine writeAll_noop _ (fun w hw => ?_) hd fun w hw => ?_
        · simp only [List.cons_append, List.nil_append, List.mem_cons, List.not_mem_nil, or_false] at hw
          rcases hw with rfl | rfl
          · exact hv
          · exact hu2
        · simp only [List.cons_append, List.nil_append, List.mem_cons, List.not_mem_nil, or_false] at hw
          rcases hw with rfl | rfl
          · exact hg
          · exact hu
      · refine writeAll_noop _ (fun w hw => ?_) hd fun w hw => ?_
        · simp only [List.nil_append, List.mem_cons, List.not_mem_nil, or_false] at hw
          subst hw; exact hu2
        · simp only [List.nil_append, List.mem_cons, List.not_mem_nil, or_false] at hw
          subst hw; exact hu
    · have hi : intOf (c2.get (p ++ [[114]])) = intOf (c.get (p ++ [[114]])) := by
        rw [kept_int hS w1 hc, w3 _ fun w hw => ?_]
        simp only [List.nil_append, List.mem_cons, List.not_mem_nil, or_false] at hw
        subst hw
        exact fun hn => hne hn.symm
      rw [hi, h1]
      simp only [Bool.false_eq_true, if_false, if_pos hx']
      rw [if_neg (by omega)]
      refine writeAll_noop _ (fun w hw => ?_) hd fun w hw => ?_
      · simp only [List.nil_append, List.mem_cons, List.not_mem_nil, or_false] at hw
        subst hw; exact hu2
      · simp only [List.nil_append, List.mem_cons, List.not_mem_nil, or_false] at hw
        subst hw; exact hu
  · cases (Prod.mk.inj h).2
  · cases (Prod.mk.inj h).2
  · cases (Prod.mk.inj h).2

/-- `erase` of a record reports the result of erasing the entry. -/
theorem eraseRec_again {S S2 : Sys} (hS : S.Good) {c c1 c2 : Client} (hr : Reach S c) {P : List Bytes}
    {pre id : Bytes} (h : dropBool (c.eraseRec S P pre id) = (c1, .ok ())) (hd : c2.st ≠ .dirty)
    (hc : c2.conf.m.data = c1.content) : c2.eraseRec S2 P pre id = (c2, .ok false) := by
  obtain ⟨res, h⟩ := dropBool_ok h
  unfold Client.eraseRec Client.eraseImpl at h ⊢
  split at h
  · rename_i pk hpk
    split at h
    · rename_i c' he
      obtain ⟨rfl, _⟩ := Prod.mk.inj h
      have h2 := erase_again (S2 := S2) hS hr he hd hc
      have hg : c2.get (P ++ [pk]) = none := by
        obtain ⟨g1, _, g3⟩ := erase_get hS hr he
        exact kept_get hS g3 hc (v := none) rfl g1
      rw [h2, hg]
      rfl
    · cases (Prod.mk.inj h).2
    · cases (Prod.mk.inj h).2
    · cases (Prod.mk.inj h).2
  · cases (Prod.mk.inj h).2
  · cases (Prod.mk.inj h).2
  · cases (Prod.mk.inj h).2

/-- C147.  Make a successful call that saves or erases a record, on any object; then let an object - this
one after publishing, or any other - hold that content with nothing unpublished: making the same call there,
then or later, does nothing at all. -/
theorem again_does_nothing {S S2 : Sys} (hS : S.Good) {c c1 c2 : Client} (hr : Reach S c) {op : RecOp}
    (hi : op.inRange = true) (h : op.run S c = (c1, .ok ())) (hd : c2.st ≠ .dirty)
    (hc : c2.conf.m.data = c1.content) {t : Int} (ht : op.Before t) :
    (op.at t).run S2 c2 = (c2, .ok ()) := by
  cases op with
  | setContact r =>
    exact setRec_again hS hr (fs := fun _ => r.fields) (fun _ => contact_fields_nodup r)
      (fun _ => contact_fields_wf hi) h hd hc
  | setGroup g =>
    exact setRec_again hS hr (fun pk => group_fields_nodup pk g) (fun pk => group_fields_wf hi pk) h hd hc
  | setLegacy g =>
    exact setRec_again hS hr (fs := fun _ => g.fields) (fun _ => legacy_fields_nodup g)
      (fun _ => legacy_fields_wf hi) h hd hc
  | setMember m =>
    exact setRec_again hS hr (fs := fun _ => m.fields) (fun _ => gmember_fields_nodup m)
      (fun _ => gmember_fields_wf hi) h hd hc
  | eraseContact id =>
    have := eraseRec_again (S2 := S2) hS hr (P := pathC) (pre := pre05) (id := id) h hd hc
    show dropBool (c2.eraseRec S2 pathC pre05 id) = _
    rw [this]; rfl
  | eraseGroup id =>
    have := eraseRec_again (S2 := S2) hS hr (P := pathG) (pre := pre03) (id := id) h hd hc
    show dropBool (c2.eraseRec S2 pathG pre03 id) = _
    rw [this]; rfl
  | eraseLegacy id =>
    have := eraseRec_again (S2 := S2) hS hr (P := pathL) (pre := pre05) (id := id) h hd hc
    show dropBool (c2.eraseRec S2 pathL pre05 id) = _
    rw [this]; rfl
  | eraseMember id =>
    have := eraseRec_again (S2 := S2) hS hr (P := pathM) (pre := pre05) (id := id) h hd hc
    show dropBool (c2.eraseRec S2 pathM pre05 id) = _
    rw [this]; rfl
  | eraseConvo k id =>
    have := eraseRec_again (S2 := S2) hS hr (P := k.path) (pre := k.pre) (id := id) h hd hc
    show dropBool (c2.eraseRec S2 k.path k.pre id) = _
    rw [this]; rfl
  | setConvo now k id x =>
    have h : c.setConvo S now k id x = (c1, .ok ()) := h
    show c2.setConvo S2 t k id x = _
    unfold Client.setConvo at h ⊢
    cases hpk : idBytes id k.pre with
    | ok pk => rw [hpk] at h; exact setBase_again hS hr hi ht.2 ht.1 h hd hc
    | err e => rw [hpk] at h; cases (Prod.mk.inj h).2
    | hang => rw [hpk] at h; cases (Prod.mk.inj h).2
    | ub => rw [hpk] at h; cases (Prod.mk.inj h).2
  | setUComm x =>
    obtain ⟨b, r, hb, hrm, hl, h⟩ := setUComm_ok h
    have hpair : (x.writes b r).Pairwise fun (a b : List Bytes × Option Val) => ¬ Nested a.1 b.1 := by
      unfold Comm.writes
      rw [List.pairwise_cons]
      refine ⟨fun w hm => ?_, entries_pairwise _ ?_⟩
      · obtain ⟨f, _, rfl⟩ := List.mem_map.1 hm
        exact key_not_room b b r [f.1]
      · simp only [GroupBase.fields, List.map_cons, List.map_nil, List.map_append]; decide
    have h2 := writes_again (S2 := S2) hS hr (comm_writes_wf hi b r) hpair h hd hc
    show c2.setUComm S2 x = _
    unfold Client.setUComm
    rw [hb, hrm]
    show (if x.pubkey.length = 32 then c2.writeAll S2 (x.writes b r) else (c2, .err .foreign)) = _
    rw [if_pos hl]; exact h2
  | setComm now base room pk x =>
    obtain ⟨b, r, c', hb, hrm, hl, h1, h2⟩ := setComm_ok h
    have hr' : Reach S c' := (assign_get hS hr (by simp) (wfO_str pk) h1).2.2
    have hk := (assign_get hS hr (by simp) (wfO_str pk) h1).1
    have h3 := setBase_again (S2 := S2) hS hr' hi ht.2 ht.1 h2 hd hc
    obtain ⟨P, hP, hsp⟩ := op_spec hS hr (op := .setComm now base room pk x) hi h
    have hk1 : c1.get (pathO ++ [b, [35]]) = some (.scalar (.str pk)) := by
      have hs2 := setBase_op hS hr' (P := roomPath b r) (.inr ⟨b, r, rfl⟩) hi h2
      unfold Client.setBase at h2
      split at h2
      · rename_i ws hws
        rw [(writeAll_frame hS _ hr' (setBase_wf hi hws) h2).2 _ fun w hw => ?_]
        · exact hk
        · intro hn
          have hpre : ∃ f, w.1 = roomPath b r ++ [f] := by
            rcases List.mem_append.1 hw with hw | hw
            · rcases readWrites_cases hws with rfl | ⟨rfl, _⟩
              · rw [List.mem_singleton] at hw; subst hw; exact ⟨_, rfl⟩
              · cases hw
            · rw [List.mem_singleton] at hw; subst hw; exact ⟨_, rfl⟩
          obtain ⟨f, hf⟩ := hpre
          rw [hf] at hn
          exact key_not_room b b r [f] hn.symm
      · cases (Prod.mk.inj h2).2
      · cases (Prod.mk.inj h2).2
      · cases (Prod.mk.inj h2).2
    have hk2 : c2.get (pathO ++ [b, [35]]) = some (.scalar (.str pk)) := kept_get hS hsp.reach hc (wfO_str pk) hk1
    have h4 : c2.assign S2 (pathO ++ [b, [35]]) (.scalar (.str pk)) = (c2, .ok ()) :=
      (rewrite_is_noop hd).1 _ rfl hk2
    show c2.setComm S2 t base room pk x = _
    unfold Client.setComm
    rw [hb, hrm]
    simp only [if_pos hl, h4]
    exact h3
  | eraseComm base room =>
    obtain ⟨res, h⟩ := dropBool_ok h
    have hok : ∃ b r, canonUrl base = .ok b ∧ canonRoom room = .ok r := by
      unfold Client.eraseComm at h
      cases hb : canonUrl base <;> rw [hb] at h <;> try cases (Prod.mk.inj h).2
      cases hr : canonRoom room <;> rw [hr] at h <;> try cases (Prod.mk.inj h).2
      exact ⟨_, _, rfl, rfl⟩
    obtain ⟨b, r, hb, hrm⟩ := hok
    obtain ⟨s1, _, s3, _⟩ := eraseComm_spec hS hr hb hrm h
    have hg : c2.get (roomPath b r) = none := kept_get hS s1 hc (v := none) rfl s3
    have he : c2.erase S2 (roomPath b r) = (c2, .ok ()) := (rewrite_is_noop hd).2.1 hg
    show dropBool (c2.eraseComm S2 base room) = _
    unfold Client.eraseComm Client.eraseImpl
    rw [hb, hrm]
    simp only [he, hg]
    rfl

/-- On the object itself, once it has published. -/
theorem again_after_push {S S2 : Sys} (hS : S.Good) {c c1 : Client} (hr : Reach S c) {op : RecOp}
    (hi : op.inRange = true) (h : op.run S c = (c1, .ok ())) {s : Int} {m : Bytes} {obs : List Bytes}
    (hp : (c1.push S).2 = .ok (s, m, obs)) {t : Int} (ht : op.Before t) :
    (op.at t).run S2 (c1.push S).1 = ((c1.push S).1, .ok ()) := by
  obtain ⟨_, hd, hc, _⟩ := push_state hp
  exact again_does_nothing hS hr hi h hd (by
    rw [hc]; exact refresh_data_eq ((op_spec hS hr hi h).choose_spec.2.reach.inv hS).wf) ht

/-- On every object the message has reached. -/
theorem again_after_delivery {S : Sys} (hS : S.Good) {sg : Option (Bytes → Bytes)} (hS' : (S.as sg).Good)
    {c c1 r : Client} (hr : Reach S c) {op : RecOp} (hi : op.inRange = true) (h : op.run S c = (c1, .ok ()))
    (hrr : Reach (S.as sg) r) {s : Int} {m : Bytes} {obs : List Bytes}
    (hp : (c1.push S).2 = .ok (s, m, obs)) (hs : s ≠ 0) (hk : r.keys.head? = c1.keys.head?)
    (hst : r.st ≠ .dirty)
    (hknown : r.seqno = 0 ∨
      ∀ M, parseMsg S.env false (c1.plain S) = .ok M → Supersedes (S.as sg) M r)
    (hnc : S.env.H (c1.plain S) = S.env.H (r.plain (S.as sg)) → c1.plain S = r.plain (S.as sg))
    (hov : int64Ok (s + S.env.lag) = true) (hh : Bytes) {t : Int} (ht : op.Before t) :
    (op.at t).run (S.as sg) (r.merge (S.as sg) [(hh, m)]).1 = ((r.merge (S.as sg) [(hh, m)]).1, .ok ()) := by
  have hr1 : Reach S c1 := (op_spec hS hr hi h).choose_spec.2.reach
  obtain ⟨_, hc, _, _, hn, _⟩ := delivery_full hS hS' hr1 hrr hp hs hk hst hknown hnc hov hh
  refine again_does_nothing hS hr hi h (fun hd => ?_) hc ht
  rw [Client.needsPush, hd] at hn
  cases hn

/-! ## Single fields -/

/-- A call that sets a single field of a user profile (src/config/user_profile.cpp) or of the information
of a group (src/config/groups/info.cpp) -/
inductive SetCall where
  | name (n : Bytes) | pic (url key : Bytes) | ntsPriority (i : Int) | ntsExpiry (i : Int)
  | msgreqs (b : Option Bool)
  | infoName (n : Bytes) | infoDescr (n : Bytes) | infoExpiry (i : Int) | infoCreated (i : Int)
  | infoDeleteBefore (i : Int) | infoDeleteAttach (i : Int) | infoDestroy

/-- The call -/
def SetCall.run (S : Sys) (c : Client) : SetCall → Client × Out Unit
  | .name n => c.setName S n
  | .pic u k => c.setPic S u k
  | .ntsPriority i => c.setNtsPriority S i
  | .ntsExpiry i => c.setNtsExpiry S i
  | .msgreqs b => c.setMsgreqs S b
  | .infoName n => c.setInfoName S n
  | .infoDescr n => c.setInfoDescr S n
  | .infoExpiry i => c.setInfoExpiry S i
  | .infoCreated i => c.setInfoCreated S i
  | .infoDeleteBefore i => c.setInfoDeleteBefore S i
  | .infoDeleteAttach i => c.setInfoDeleteAttach S i
  | .infoDestroy => c.destroyInfo S

/-- The argument is in the range of its C++ type. -/
def SetCall.inRange : SetCall → Bool
  | .ntsPriority i | .ntsExpiry i | .infoExpiry i | .infoCreated i | .infoDeleteBefore i
  | .infoDeleteAttach i => int64Ok i
  | _ => true

/-- The documented keys of the field (include/session/config/user_profile.hpp:15-36,
include/session/config/groups/info.hpp:16-43) -/
def SetCall.keys : SetCall → List Bytes
  | .name _ | .infoName _ => [[110]]
  | .pic _ _ => [[112], [113]]
  | .ntsPriority _ => [[43]]
  | .ntsExpiry _ => [[101]]
  | .msgreqs _ => [[77]]
  | .infoDescr _ => [[111]]
  | .infoExpiry _ => [[69]]
  | .infoCreated _ => [[99]]
  | .infoDeleteBefore _ => [[100]]
  | .infoDeleteAttach _ => [[68]]
  | .infoDestroy => [[33]]

/-- The call sets the field to what it is when it was never set: no name, no picture (a picture needs a URL
and a key of 32 bytes), 0, or nothing. -/
def SetCall.Clears : SetCall → Prop
  | .name n | .infoName n | .infoDescr n => n = []
  | .pic u k => u = [] ∨ k.length ≠ 32
  | .ntsPriority i => i = 0
  | .ntsExpiry i | .infoExpiry i | .infoCreated i | .infoDeleteBefore i | .infoDeleteAttach i => i ≤ 0
  | .msgreqs b => b = none
  | .infoDestroy => False

/-- The call as a list of writes -/
def SetCall.writes : SetCall → List (List Bytes × Option Val)
  | .name n => [([[110]], fStr n)]
  | .pic u k => [([[112]], fIf (picOk u k) (.str u)), ([[113]], fIf (picOk u k) (.str k))]
  | .ntsPriority i => [([[43]], fNonzero i)]
  | .ntsExpiry i => [([[101]], fPos i)]
  | .msgreqs b => [([[77]], b.map fun b => .scalar (.int (if b then 1 else 0)))]
  | .infoName n => [([[110]], fStr (n.take 100))]
  | .infoDescr n => [([[111]], fStr (n.take 2000))]
  | .infoExpiry i => [([[69]], fPos i)]
  | .infoCreated i => [([[99]], fPos i)]
  | .infoDeleteBefore i => [([[100]], fPos i)]
  | .infoDeleteAttach i => [([[68]], fPos i)]
  | .infoDestroy => [([[33]], fFlag true)]

theorem write_single (S : Sys) (c : Client) (p : List Bytes) (v : Option Val) :
    c.writeAll S [(p, v)] = c.write S p v := by
  unfold Client.writeAll
  rcases h : c.write S p v with ⟨c1, o⟩
  cases o <;> rfl

theorem setCall_writes (S : Sys) (c : Client) (op : SetCall) : op.run S c = c.writeAll S op.writes := by
  cases op with
  | name n => exact ((write_single S c [[110]] (fStr n)).trans (setNonempty_eq S c [[110]] n).symm).symm
  | pic u k => rfl
  | ntsPriority i => exact ((write_single S c [[43]] (fNonzero i)).trans (setNonzero_eq S c [[43]] i).symm).symm
  | ntsExpiry i => exact ((write_single S c [[101]] (fPos i)).trans (setPositive_eq S c [[101]] i).symm).symm
  | msgreqs b => exact (write_single S c [[77]] (b.map fun b => .scalar (.int (if b then 1 else 0)))).symm
  | infoName n =>
    exact ((write_single S c [[110]] (fStr (n.take 100))).trans (setNonempty_eq S c [[110]] _).symm).symm
  | infoDescr n =>
    exact ((write_single S c [[111]] (fStr (n.take 2000))).trans (setNonempty_eq S c [[111]] _).symm).symm
  | infoExpiry i => exact ((write_single S c [[69]] (fPos i)).trans (setPositive_eq S c [[69]] i).symm).symm
  | infoCreated i => exact ((write_single S c [[99]] (fPos i)).trans (setPositive_eq S c [[99]] i).symm).symm
  | infoDeleteBefore i => exact ((write_single S c [[100]] (fPos i)).trans (setPositive_eq S c [[100]] i).symm).symm
  | infoDeleteAttach i => exact ((write_single S c [[68]] (fPos i)).trans (setPositive_eq S c [[68]] i).symm).symm
  | infoDestroy => exact ((write_single S c [[33]] (fFlag true)).trans (setFlag_eq S c [[33]] true).symm).symm

theorem setCall_wf {op : SetCall} (hi : op.inRange = true) : ∀ w ∈ op.writes, w.1 ≠ [] ∧ wfO w.2 = true := by
  cases op with
  | pic u k =>
    intro w hw
    simp only [SetCall.writes, List.mem_cons, List.not_mem_nil, or_false] at hw
    rcases hw with rfl | rfl
    · exact ⟨by simp, wfO_if _ rfl⟩
    · exact ⟨by simp, wfO_if _ rfl⟩
  | msgreqs b =>
    intro w hw
    simp only [SetCall.writes, List.mem_singleton] at hw
    subst hw
    refine ⟨by simp, ?_⟩
    rcases b with _ | _ | _ <;> rfl
  | _ =>
    intro w hw
    simp only [SetCall.writes, List.mem_singleton] at hw
    subst hw
    refine ⟨by simp, ?_⟩
    first
    | exact wfO_nestr _
    | exact wfO_pos hi
    | exact wfO_nonzero hi
    | exact wfO_flag true

theorem setCall_pairwise (op : SetCall) :
    op.writes.Pairwise fun (a b : List Bytes × Option Val) => ¬ Nested a.1 b.1 := by
  cases op with
  | pic u k =>
    have : ¬ Nested [[112]] [[113]] := top_not_nested (by decide)
    simp [SetCall.writes, this]
  | _ => simp [SetCall.writes]

/-- C147.  The same for single fields. -/
theorem field_again {S S2 : Sys} (hS : S.Good) {c c1 c2 : Client} (hr : Reach S c) {op : SetCall}
    (hi : op.inRange = true) (h : op.run S c = (c1, .ok ())) (hd : c2.st ≠ .dirty)
    (hc : c2.conf.m.data = c1.content) : op.run S2 c2 = (c2, .ok ()) := by
  rw [setCall_writes] at h ⊢
  exact writes_again hS hr (setCall_wf hi) (setCall_pairwise op) h hd hc

theorem clears_writes {op : SetCall} (hcl : op.Clears) : op.writes = op.keys.map fun k => ([k], none) := by
  cases op with
  | name n => cases hcl; rfl
  | infoName n => cases hcl; rfl
  | infoDescr n => cases hcl; rfl
  | ntsPriority i => cases hcl; rfl
  | msgreqs b => cases hcl; rfl
  | infoDestroy => cases hcl
  | pic u k =>
    have hp : picOk u k = false := by
      unfold picOk
      rcases hcl with rfl | h
      · rfl
      · simp [h]
    simp [SetCall.writes, SetCall.keys, fIf, hp]
  | ntsExpiry i | infoExpiry i | infoCreated i | infoDeleteBefore i | infoDeleteAttach i =>
    have hi : ¬ i > 0 := not_lt.2 hcl
    simp [SetCall.writes, SetCall.keys, fPos, hi]

/-- C147.  Clearing a field that is not set does nothing. -/
theorem clear_does_nothing {S : Sys} {c : Client} {op : SetCall} (hcl : op.Clears) (hd : c.st ≠ .dirty)
    (hg : ∀ k ∈ op.keys, c.get [k] = none) : op.run S c = (c, .ok ()) := by
  rw [setCall_writes, clears_writes hcl]
  refine writeAll_noop _ (fun w hw => ?_) hd fun w hw => ?_
  · obtain ⟨k, _, rfl⟩ := List.mem_map.1 hw; rfl
  · obtain ⟨k, hk, rfl⟩ := List.mem_map.1 hw; exact hg k hk

/-- C147.  After clearing a field nothing is stored for it. -/
theorem clear_stores_nothing {S : Sys} (hS : S.Good) {c c1 : Client} (hr : Reach S c) {op : SetCall}
    (hcl : op.Clears) (hi : op.inRange = true) (h : op.run S c = (c1, .ok ())) :
    ∀ k ∈ op.keys, c1.get [k] = none := by
  rw [setCall_writes] at h
  obtain ⟨_, w2, _⟩ := writeAll_get hS _ hr (setCall_wf hi) (setCall_pairwise op) h
  intro k hk
  refine w2 ([k], none) ?_
  rw [clears_writes hcl]
  exact List.mem_map.2 ⟨k, hk, rfl⟩

/-! ## What a record takes -/

/-- The keys of a record after it has been saved -/
theorem saved_keys {S : Sys} (hS : S.Good) {P : List Bytes} (hP : P ≠ []) {pre id : Bytes}
    {fs : Bytes → List (Bytes × Option Val)} (hn : ∀ pk, ((fs pk).map (·.1)).Nodup)
    (hw : ∀ pk, ∀ f ∈ fs pk, wfO f.2 = true) (hne : ∀ pk, ∃ f ∈ fs pk, f.2.isSome = true)
    {c c' : Client} (hr : Reach S c) (h : c.setRec S P pre id fs = (c', .ok ())) :
    ∃ pk e, idBytes id pre = .ok pk ∧ c'.get (P ++ [pk]) = some (.dict e) ∧
      ∀ k, (mget k e).isSome = true ↔ (∃ f ∈ fs pk, f.1 = k ∧ f.2.isSome = true) ∨
        (k ∉ (fs pk).map (·.1) ∧ (c.get (P ++ [pk, k])).isSome = true) := by
  obtain ⟨_, pk, hpk, ⟨e, he, hf⟩, hold, _⟩ := setRec_spec hS hP hn hw hne hr h
  refine ⟨pk, e, hpk, he, fun k => ?_⟩
  by_cases hk : k ∈ (fs pk).map (·.1)
  · obtain ⟨f, hfm, rfl⟩ := List.mem_map.1 hk
    rw [hf f hfm]
    constructor
    · exact fun hs => .inl ⟨f, hfm, rfl, hs⟩
    · rintro (⟨g, hgm, hgk, hs⟩ | ⟨hnk, _⟩)
      · rw [← hf f hfm, ← hgk, hf g hgm]; exact hs
      · exact absurd hk hnk
  · have h1 := hold k hk
    rw [List.append_assoc] at h1
    rw [← get_entry (by simp) he, List.append_assoc, h1]
    constructor
    · exact fun hs => .inr ⟨hk, hs⟩
    · rintro (⟨g, hgm, rfl, _⟩ | ⟨_, hs⟩)
      · exact absurd (List.mem_map.2 ⟨g, hgm, rfl⟩) hk
      · exact hs

theorem take_ne_nil {n : Nat} (h : n ≠ 0) (s : Bytes) : s.take n ≠ [] ↔ s ≠ [] := by
  cases n <;> cases s <;> simp_all

theorem fFlag_isSome (b : Bool) : (fFlag b).isSome = true ↔ b = true := by cases b <;> simp [fFlag]
theorem fPos_isSome (i : Int) : (fPos i).isSome = true ↔ 0 < i := by unfold fPos; split <;> simp_all
theorem fNonzero_isSome (i : Int) : (fNonzero i).isSome = true ↔ i ≠ 0 := by unfold fNonzero; split <;> simp_all
theorem fStr_isSome (s : Bytes) : (fStr s).isSome = true ↔ s ≠ [] := by unfold fStr; split <;> simp_all
theorem fIf_isSome (b : Bool) (x : Scalar) : (fIf b x).isSome = true ↔ b = true := by cases b <;> simp [fIf]
theorem fSet_isSome (s : List Scalar) : (fSet s).isSome = true ↔ s ≠ [] := by unfold fSet; split <;> simp_all


/-- The keys a contact takes, as documented (include/session/config/contacts.hpp:27-47): the name always;
a nickname, picture, flag, priority, notification setting, mute time, expiration or creation time only if
it is not the default. -/
def ContactKey (r : Contact) (k : Bytes) : Prop :=
  k = [110] ∨ (k = [78] ∧ r.nick ≠ []) ∨ (k = [112] ∧ r.url ≠ [] ∧ r.key.length = 32) ∨
  (k = [113] ∧ r.url ≠ [] ∧ r.key.length = 32) ∨
  (k = [97] ∧ r.approved = true) ∨ (k = [65] ∧ r.approvedMe = true) ∨ (k = [98] ∧ r.blocked = true) ∨
  (k = [43] ∧ r.priority ≠ 0) ∨ (k = [64] ∧ r.notify ≠ .defaulted) ∨ (k = [33] ∧ 0 < r.mute) ∨
  (k = [101] ∧ r.exp ≠ .none ∧ 0 < r.timer) ∨ (k = [69] ∧ r.exp ≠ .none ∧ 0 < r.timer) ∨ (k = [106] ∧ 0 < r.created)

/-- C147.  After a contact is saved its entry has exactly the keys of `ContactKey`, besides keys this
library does not know that were there before. -/
theorem contact_space {S : Sys} (hS : S.Good) {c c' : Client} (hr : Reach S c) {r : Contact}
    (hi : r.inRange = true) (h : c.setContact S r = (c', .ok ())) :
    ∃ pk e, idBytes r.id pre05 = .ok pk ∧ c'.get [[99], pk] = some (.dict e) ∧
      ∀ k, (mget k e).isSome = true ↔ ContactKey r k ∨
        (k ∉ [[110], [78], [112], [113], [97], [65], [98], [43], [64], [33], [101], [69], [106]] ∧
          (c.get [[99], pk, k]).isSome = true) := by
  obtain ⟨pk, e, h1, h2, h3⟩ := saved_keys hS (P := pathC) (by decide) (fs := fun _ => r.fields)
    (fun _ => contact_fields_nodup r) (fun _ => contact_fields_wf hi)
    (fun _ => ⟨_, by unfold Contact.fields; exact List.mem_cons_self, rfl⟩) hr h
  refine ⟨pk, e, h1, h2, fun k => ?_⟩
  rw [h3 k]
  have hn : ∀ n : Notify, 0 < (if n = .mentions then Notify.all else n).num ↔ n ≠ .defaulted := by
    intro n; cases n <;> decide
  simp only [Contact.fields, List.mem_cons, List.not_mem_nil, or_false, exists_eq_or_imp, exists_eq_left,
    List.map_cons, List.map_nil, fFlag_isSome, fPos_isSome, fNonzero_isSome, fStr_isSome, fIf_isSome, picOk_iff,
    hn, Option.isSome_some, and_true, Bool.and_eq_true, decide_eq_true_eq, take_ne_nil (show maxName ≠ 0 by decide)]
  unfold ContactKey
  simp only [eq_comm (a := k)]
  exact Iff.rfl

/-- The keys a member of a group takes (include/session/config/groups/members.hpp:18-46) -/
def MemberKey (m : GMember) (k : Bytes) : Prop :=
  k = [110] ∨ (k = [112] ∧ m.url ≠ [] ∧ m.key.length = 32) ∨ (k = [113] ∧ m.url ≠ [] ∧ m.key.length = 32) ∨
  (k = [65] ∧ m.admin = true) ∨ (k = [80] ∧ m.admin = false ∧ 0 < m.promotion) ∨
  (k = [73] ∧ m.admin = false ∧ 0 < m.invite) ∨ (k = [115] ∧ m.supplement = true) ∨ (k = [82] ∧ 0 < m.removed)

/-- C147.  The same for members of a group. -/
theorem member_space {S : Sys} (hS : S.Good) {c c' : Client} (hr : Reach S c) {m : GMember}
    (hi : m.inRange = true) (h : c.setMember S m = (c', .ok ())) :
    ∃ pk e, idBytes m.id pre05 = .ok pk ∧ c'.get [[109], pk] = some (.dict e) ∧
      ∀ k, (mget k e).isSome = true ↔ MemberKey m k ∨
        (k ∉ [[110], [112], [113], [65], [80], [73], [115], [82]] ∧ (c.get [[109], pk, k]).isSome = true) := by
  obtain ⟨pk, e, h1, h2, h3⟩ := saved_keys hS (P := pathM) (by decide) (fs := fun _ => m.fields)
    (fun _ => gmember_fields_nodup m) (fun _ => gmember_fields_wf hi)
    (fun _ => ⟨_, by unfold GMember.fields; exact List.mem_cons_self, rfl⟩) hr h
  refine ⟨pk, e, h1, h2, fun k => ?_⟩
  rw [h3 k]
  have hn : ∀ i : Int, 0 < (if m.admin = true then 0 else i) ↔ m.admin = false ∧ 0 < i := by
    intro i; cases m.admin <;> simp
  simp only [GMember.fields, List.mem_cons, List.not_mem_nil, or_false, exists_eq_or_imp, exists_eq_left,
    List.map_cons, List.map_nil, fFlag_isSome, fPos_isSome, fIf_isSome, picOk_iff,
    hn, Option.isSome_some, and_true]
  unfold MemberKey
  simp only [eq_comm (a := k)]
  exact Iff.rfl

/-- The keys every kind of group takes (include/session/config/user_groups.hpp:29-45): only settings that
are not the default -/
def GroupBaseKey (b : GroupBase) (k : Bytes) : Prop :=
  (k = [43] ∧ b.priority ≠ 0) ∨ (k = [106] ∧ 0 < b.joined) ∨ (k = [64] ∧ b.notify ≠ .defaulted) ∨
  (k = [33] ∧ 0 < b.mute) ∨ (k = [105] ∧ b.invited = true)

theorem base_keys (b : GroupBase) (k : Bytes) :
    (∃ f ∈ b.fields, f.1 = k ∧ f.2.isSome = true) ↔ GroupBaseKey b k := by
  have hn : ∀ n : Notify, 0 < n.num ↔ n ≠ .defaulted := by intro n; cases n <;> decide
  simp only [GroupBase.fields, List.mem_cons, List.not_mem_nil, or_false, exists_eq_or_imp, exists_eq_left,
    fFlag_isSome, fPos_isSome, fNonzero_isSome, hn]
  unfold GroupBaseKey
  simp only [eq_comm (a := k)]

theorem memberSet_ne (adm : Bool) (m : Members) : memberSet adm m ≠ [] ↔ ∃ x ∈ m, x.2 = adm := by
  have hx : memberSet adm m ≠ [] ↔ ∃ x, x ∈ memberSet adm m := by
    cases memberSet adm m <;> simp
  rw [hx]
  simp only [(memberSet_spec adm m).2]
  constructor
  · rintro ⟨_, y, hy, ha, _⟩; exact ⟨y, hy, ha⟩
  · rintro ⟨y, hy, ha⟩; exact ⟨_, y, hy, ha, rfl⟩

/-- C147.  The same for legacy groups: the name always, a key pair if it is complete, members and admins if
there are any, a timer if it is positive. -/
theorem legacy_space {S : Sys} (hS : S.Good) {c c' : Client} (hr : Reach S c) {g : Legacy}
    (hi : g.inRange = true) (h : c.setLegacy S g = (c', .ok ())) :
    ∃ pk e, idBytes g.id pre05 = .ok pk ∧ c'.get [[67], pk] = some (.dict e) ∧
      ∀ k, (mget k e).isSome = true ↔
        (GroupBaseKey g.base k ∨ k = [110] ∨ (k = [107] ∧ g.encPub.length = 32 ∧ g.encSec.length = 32) ∨
          (k = [75] ∧ g.encPub.length = 32 ∧ g.encSec.length = 32) ∨ (k = [109] ∧ ∃ x ∈ g.members, x.2 = false) ∨
          (k = [97] ∧ ∃ x ∈ g.members, x.2 = true) ∨ (k = [69] ∧ 0 < g.timer)) ∨
        (k ∉ [[43], [106], [64], [33], [105], [110], [107], [75], [109], [97], [69]] ∧
          (c.get [[67], pk, k]).isSome = true) := by
  obtain ⟨pk, e, h1, h2, h3⟩ := saved_keys hS (P := pathL) (by decide) (fs := fun _ => g.fields)
    (fun _ => legacy_fields_nodup g) (fun _ => legacy_fields_wf hi)
    (fun _ => ⟨([110], some (.scalar (.str (g.name.take 100)))), by simp [Legacy.fields], rfl⟩) hr h
  refine ⟨pk, e, h1, h2, fun k => ?_⟩
  rw [h3 k]
  refine or_congr ?_ ?_
  · simp only [Legacy.fields, List.mem_append, or_and_right, exists_or, base_keys]
    simp only [List.mem_cons, List.not_mem_nil, or_false, exists_eq_or_imp, exists_eq_left, fPos_isSome, fIf_isSome,
      fSet_isSome, memberSet_ne, Option.isSome_some, and_true, Bool.and_eq_true, beq_iff_eq, eq_comm (a := k)]
  · rfl

/-- C147.  The same for groups: with the admin key of the group its seed, without it an empty key and
authentication data of 100 bytes.  Saving a group with its admin key leaves authentication data stored
before. -/
theorem group_space {S : Sys} (hS : S.Good) {c c' : Client} (hr : Reach S c) {g : Group}
    (hi : g.base.inRange = true) (h : c.setGroup S g = (c', .ok ())) :
    ∃ pk e, idBytes g.id pre03 = .ok pk ∧ c'.get [[103], pk] = some (.dict e) ∧
      ∀ k, (mget k e).isSome = true ↔
        (GroupBaseKey g.base k ∨ (k = [110] ∧ g.name ≠ []) ∨ k = [75] ∨
          (k = [115] ∧ ¬ (g.secret.length = 64 ∧ g.secret.drop 32 = pk.drop 1) ∧ g.auth.length = 100)) ∨
        ((k ∉ [[43], [106], [64], [33], [105], [110], [75], [115]] ∨
          (k = [115] ∧ g.secret.length = 64 ∧ g.secret.drop 32 = pk.drop 1)) ∧
          (c.get [[103], pk, k]).isSome = true) := by
  obtain ⟨pk, e, h1, h2, h3⟩ := saved_keys hS (P := pathG) (by decide) (fs := fun pk => g.fields pk)
    (fun pk => group_fields_nodup pk g) (fun pk => group_fields_wf hi pk)
    (fun pk => by
      by_cases ha : g.admin pk = true
      · exact ⟨([75], some (.scalar (.str (g.secret.take 32)))), by simp [Group.fields, ha], rfl⟩
      · exact ⟨([75], some (.scalar (.str []))), by simp [Group.fields, ha], rfl⟩) hr h
  refine ⟨pk, e, h1, h2, fun k => ?_⟩
  rw [h3 k]
  have hb : g.base.fields.map (·.1) = [[43], [106], [64], [33], [105]] := rfl
  by_cases ha : g.admin pk = true
  · have ha' : g.secret.length = 64 ∧ g.secret.drop 32 = pk.drop 1 := by simpa [Group.admin] using ha
    refine or_congr ?_ ?_
    · simp only [Group.fields, if_pos ha, List.mem_append, or_and_right, exists_or, base_keys]
      simp only [List.mem_cons, List.not_mem_nil, or_false, exists_eq_or_imp, exists_eq_left, fStr_isSome,
        Option.isSome_some, and_true, eq_comm (a := k), take_ne_nil (show 100 ≠ 0 by decide), ha'.1, ha'.2, and_self,
        not_true, false_and, and_false]
    · refine and_congr ?_ Iff.rfl
      simp only [Group.fields, if_pos ha, List.map_append, hb, List.map_cons, List.map_nil, List.cons_append,
        List.nil_append, List.mem_cons, List.not_mem_nil, or_false, ha'.1, ha'.2, and_self, and_true, not_or]
      by_cases h5 : k = [115]
      · subst h5; simp
      · simp [h5]
  · have ha' : ¬ (g.secret.length = 64 ∧ g.secret.drop 32 = pk.drop 1) := by simpa [Group.admin] using ha
    refine or_congr ?_ ?_
    · simp only [Group.fields, if_neg ha, List.mem_append, or_and_right, exists_or, base_keys]
      simp only [List.mem_cons, List.not_mem_nil, or_false, exists_eq_or_imp, exists_eq_left, fStr_isSome, fIf_isSome,
        Option.isSome_some, and_true, eq_comm (a := k), take_ne_nil (show 100 ≠ 0 by decide), ha', beq_iff_eq,
        not_false_eq_true, true_and]
    · refine and_congr ?_ Iff.rfl
      simp only [Group.fields, if_neg ha, List.map_append, hb, List.map_cons, List.map_nil, List.cons_append,
        List.nil_append, ha', and_false, or_false]

/-- C147.  The same for communities: the room as given always, so that the record is there. -/
theorem ucomm_space {S : Sys} (hS : S.Good) {c c' : Client} (hr : Reach S c) {x : Comm}
    (hi : x.info.inRange = true) (h : c.setUComm S x = (c', .ok ())) :
    ∃ b r e, canonUrl x.base = .ok b ∧ canonRoom x.room = .ok r ∧
      c'.get [[111], b, [82], r] = some (.dict e) ∧
      ∀ k, (mget k e).isSome = true ↔ (GroupBaseKey x.info k ∨ k = [110]) ∨
        (k ∉ [[43], [106], [64], [33], [105], [110]] ∧ (c.get [[111], b, [82], r, k]).isSome = true) := by
  obtain ⟨b, r, hb, hrm, _, h⟩ := setUComm_ok h
  have hnd : ((x.info.fields ++ [(([110] : Bytes), some (Val.scalar (.str x.room)))]).map (fun f : Bytes × Option Val => f.1)).Nodup := by
    simp only [GroupBase.fields, List.map_cons, List.map_nil, List.map_append]; decide
  have hpair : (x.writes b r).Pairwise fun (a b : List Bytes × Option Val) => ¬ Nested a.1 b.1 := by
    unfold Comm.writes
    rw [List.pairwise_cons]
    refine ⟨fun w hm => ?_, entries_pairwise _ hnd⟩
    obtain ⟨f, _, rfl⟩ := List.mem_map.1 hm
    exact key_not_room b b r [f.1]
  obtain ⟨_, w2, w3⟩ := writeAll_get hS _ hr (comm_writes_wf hi b r) hpair h
  have hin : ∀ f ∈ x.info.fields ++ [(([110] : Bytes), some (Val.scalar (.str x.room)))], c'.get (roomPath b r ++ [f.1]) = f.2 :=
    fun f hf => w2 (roomPath b r ++ [f.1], f.2) (List.mem_cons_of_mem _ (List.mem_map.2 ⟨f, hf, rfl⟩))
  obtain ⟨e, he, _⟩ := get_dict (by simp [roomPath])
    (hin ([110], some (.scalar (.str x.room))) (List.mem_append_right _ (by simp)))
  refine ⟨b, r, e, hb, hrm, he, fun k => ?_⟩
  rw [← get_entry (by simp [roomPath]) he]
  have hk : (k ∈ (x.info.fields ++ [(([110] : Bytes), some (Val.scalar (.str x.room)))]).map (fun f : Bytes × Option Val => f.1)) ↔
      k ∈ [[43], [106], [64], [33], [105], [110]] := Iff.rfl
  have hd : (∃ f ∈ x.info.fields ++ [(([110] : Bytes), some (Val.scalar (.str x.room)))], f.1 = k ∧ f.2.isSome = true) ↔
      GroupBaseKey x.info k ∨ k = [110] := by
    simp only [List.mem_append, or_and_right, exists_or, base_keys, List.mem_singleton, exists_eq_left,
      Option.isSome_some, and_true, eq_comm (a := k)]
  rw [← hk, ← hd]
  by_cases hkm : k ∈ (x.info.fields ++ [(([110] : Bytes), some (Val.scalar (.str x.room)))]).map (fun f : Bytes × Option Val => f.1)
  · obtain ⟨f, hfm, rfl⟩ := List.mem_map.1 hkm
    rw [hin f hfm]
    constructor
    · exact fun hs => .inl ⟨f, hfm, rfl, hs⟩
    · rintro (⟨g, hgm, hgk, hs⟩ | ⟨hnk, _⟩)
      · rw [← hin f hfm, ← hgk, hin g hgm]; exact hs
      · exact absurd hkm hnk
  · rw [w3 (roomPath b r ++ [k]) fun w hw => ?_]
    · constructor
      · exact fun hs => .inr ⟨hkm, hs⟩
      · rintro (⟨g, hgm, rfl, _⟩ | ⟨_, hs⟩)
        · exact absurd (List.mem_map.2 ⟨g, hgm, rfl⟩) hkm
        · exact hs
    · rcases List.mem_cons.1 hw with rfl | hw
      · exact key_not_room b b r [k]
      · obtain ⟨f, hf, rfl⟩ := List.mem_map.1 hw
        refine not_nested_snoc ?_
        rintro rfl
        exact hkm (List.mem_map.2 ⟨f, hf, rfl⟩)

/-! ### Examples -/

/-- The hypotheses of `again_does_nothing` and `again_after_push` are met by a conversation saved on a config
with two contacts, and published; the time of the second call is later. -/
example : Reach exSysK qB ∧ (RecOp.setConvo 2000000000000000000 .oneToOne exId ⟨1999999999999, true⟩).inRange = true ∧
    (RecOp.run exSysK qB (.setConvo 2000000000000000000 .oneToOne exId ⟨1999999999999, true⟩)).2 = .ok () ∧
    ((RecOp.run exSysK qB (.setConvo 2000000000000000000 .oneToOne exId ⟨1999999999999, true⟩)).1.push exSysK).2.isOk = true ∧
    RecOp.Before 2000000000000000001 (.setConvo 2000000000000000000 .oneToOne exId ⟨1999999999999, true⟩) :=
  ⟨(qB_peer.inv exSysK_good (by decide)).reach, by decide +kernel, by decide +kernel, by decide +kernel, by decide, by decide +kernel⟩

/-- A contact with nothing but an id takes only its name, which is empty. -/
example : (exK0.setContact exSysK { id := exId }).1.content =
    [([99], .dict [(fromHex exId, .dict [([110], .scalar (.str []))])])] := by decide +kernel

/-- The hypotheses of `contact_space` and `legacy_space` -/
example : Reach exSysK exK0 ∧ exContact.inRange = true ∧ (exK0.setContact exSysK exContact).2 = .ok () ∧
    exLegacy.inRange = true ∧ (exK0.setLegacy exSysK exLegacy).2 = .ok () :=
  ⟨exK0_reach, by decide +kernel, by decide +kernel, by decide +kernel, by decide +kernel⟩

/-- The hypotheses of `field_again`, `clear_does_nothing` and `clear_stores_nothing` -/
example : (SetCall.run exSysK exK0 (.name [65])).2 = .ok () ∧ (SetCall.infoExpiry (-3)).Clears ∧ exK0.st ≠ .dirty ∧
    (∀ k ∈ (SetCall.infoExpiry (-3)).keys, exK0.get [k] = none) ∧
    (SetCall.run exSysK (SetCall.run exSysK exK0 (.ntsExpiry 60)).1 (.ntsExpiry 0)).2 = .ok () ∧
    ((SetCall.run exSysK exK0 (.ntsExpiry 60)).1.get [[101]]).isSome = true :=
  ⟨by decide +kernel, by show (-3 : Int) ≤ 0; decide, by decide +kernel, by decide +kernel, by decide +kernel,
    by decide +kernel⟩

end Verif
