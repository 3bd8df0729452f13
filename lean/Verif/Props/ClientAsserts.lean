import Verif.Props.ClientHash

/-!
# The assertions in `_merge` (they abort the process in debug builds)
-/

namespace Verif

/-- Whether the three `assert`s of `_merge` hold (src/config/base.cpp:197, 234-235, 242). -/
def Client.assertsHold (S : Sys) (c : Client) (inc : List (Bytes × Bytes)) : Bool :=
  match mergeMsgs S.env ((c.allConfs S.env inc).map (·.2)) with
  | .ok (R, bad) =>
    !bad.contains 0 &&
    (if (c.newConf S R).m.seqno = c.conf.m.seqno then decide (R.unmerged = 0)
     else if R.unmerged = -1 then true
     else if c.st = .dirty ∧ R.unmerged = 0 ∧ (c.newConf S R).m.seqno = c.conf.m.seqno + 1 then true
     else ((decide (c.conf.m.seqno = 0) && !c.hasMine) || decide (1 ≤ R.unmerged)) &&
       decide (R.unmerged < (c.allConfs S.env inc).length))
  | _ => true

/-! ## C42 -/

/-- C42 (partial).  On an object that holds a config and is not read-only no assertion in `merge` can
fail, whatever (fair) messages are merged. -/
theorem asserts_hold_partial {S : Sys} (hS : S.Good) {c : Client} (hr : Reach S c)
    (hro : S.env.readonly = false) (hm : c.hasMine = true) {inc : List (Bytes × Bytes)}
    (hf : ∀ p ∈ inc, Fair S.env p.2)
    (hc : NoCollision S.env ((c.allConfs S.env inc).map (·.2))) : c.assertsHold S inc = true := by
  have h := hr.inv hS
  unfold Client.assertsHold
  split
  swap
  · rfl
  rename_i R bad hR
  have hbad : bad.contains 0 = false := by
    rw [List.contains_eq_mem, decide_eq_false_iff_not]
    intro h0
    obtain ⟨b, hb, hb2⟩ := (mergeMsgs_bad hR 0).1 h0
    have : b = c.conf.ser S.env true := by
      unfold Client.allConfs at hb
      rw [hm] at hb
      simpa using hb.symm
    rw [this, h.parse_own hS hm] at hb2; cases hb2
  rw [hbad]
  simp only [Bool.not_false, Bool.true_and]
  have hmem := own_mem hS h hm inc
  have hgb := goodBatch_of hc
  have hval := h.valid_all hS inc
  rw [hm, if_pos rfl] at hval
  rcases merge_outcome hS h hc hR with ⟨top, i, hi, hmax, hcur, hRe, hz⟩ | ⟨top, ht, hmax, _, hex, hu, hseq, _, _⟩
  · have hcur' := hcur.resolve_left (by rw [hro]; exact Bool.false_ne_true)
    have hun : R.unmerged = (i : Int) := by rw [hRe]
    have hRs : R.seqno = top.seqno := by rw [hRe]
    have hle : c.conf.m.seqno ≤ top.seqno := by
      have := sh_le_seqno (hmax _ hmem); rwa [ownMsg_seqno] at this
    have hns := newConf_seqno S c R
    have hlen : i < (c.allConfs S.env inc).length := by
      have h1 : i < (validOf S.env ((c.allConfs S.env inc).map (·.2))).length := by
        by_contra hge
        rw [List.getElem?_eq_none (by omega)] at hi; cases hi
      have h2 := validOf_length_le S.env ((c.allConfs S.env inc).map (·.2))
      rw [List.length_map] at h2; omega
    have hown : top.seqno = c.conf.m.seqno → top = c.ownMsg S := fun hts => by
      refine (hcur' _ ⟨hmem, fun c2 h2 p hp hpe => ?_, fun c2 h2 => ?_⟩).symm
      · have w := hgb.window c2 h2 p hp
        rw [hpe] at w
        have w' : (c.ownMsg S).seqno < c2.seqno := w
        have := sh_le_seqno (hmax _ h2)
        rw [ownMsg_seqno] at w'; omega
      · have := sh_le_seqno (hmax _ h2)
        have := hS.lag1
        rw [ownMsg_seqno]; omega
    split
    · rename_i he
      rw [hns] at he
      have hts : top.seqno = c.conf.m.seqno := by
        split at he <;> omega
      have := hz hm (hown hts) hro
      rw [hun, this]; rfl
    · split
      · rfl
      · split
        · rfl
        · rename_i hne hu1 hd
          have h1 : 1 ≤ i := by
            by_contra h0
            have h0' : i = 0 := by omega
            subst h0'
            have htop : top = c.ownMsg S := by
              rw [hval] at hi
              simpa using hi.symm
            have hts : top.seqno = c.conf.m.seqno := by rw [htop, ownMsg_seqno]
            by_cases hdd : c.st = .dirty
            · apply hd
              refine ⟨hdd, by rw [hun]; rfl, ?_⟩
              rw [hns, if_pos ⟨hdd, hu1⟩, hRs, hts]
            · apply hne
              rw [hns, if_neg (by rintro ⟨h1, _⟩; exact hdd h1), hRs, hts]
          rw [hun]
          simp only [Bool.and_eq_true, Bool.or_eq_true, decide_eq_true_eq]
          exact ⟨.inr (by omega), by omega⟩
  · have hle : c.conf.m.seqno ≤ top.seqno := by
      have := sh_le_seqno (hmax _ hmem); rwa [ownMsg_seqno] at this
    have hns : (c.newConf S R).m.seqno = R.seqno := by rw [newConf_seqno]; simp [hu]
    rw [hns, if_neg (by omega), if_pos hu]

example : exC2.hasMine = true ∧ exSys.env.readonly = false ∧
    exC2.assertsHold exSys (gather exSys exC2.keys [([98], exBadMsg), ([106], exM2)]) = true := by
  decide +kernel

/-- C42 is false otherwise: on a new object a decryptable but invalid first message fails an assertion
that is meant for the object's own config, ... -/
theorem assert_fails_on_new_object :
    exC0.assertsHold exSys (gather exSys exC0.keys [([98], exBadMsg), ([104], exM1)]) = false := by
  decide +kernel

/-- ... and so does, on a read-only object, a second message with the same seqno. -/
theorem assert_fails_readonly :
    let r := (exR0.merge exSysRO [([1], exM2)]).1
    let r' := (exR0.merge exSysRO [([2], exMP)]).1
    (r.assertsHold exSysRO (gather exSysRO r.keys [([2], exMP)]) &&
      r'.assertsHold exSysRO (gather exSysRO r'.keys [([1], exM2)])) = false := by decide +kernel

theorem foldl_best {l : List (Msg × Nat × Bool)} {best : Msg × Nat × Bool} (hb : best.2.2 = false)
    (h : ∀ x ∈ l, x.1.sh ≤ best.1.sh) : l.foldl (fun best x => if better best x then x else best) best = best := by
  induction l with
  | nil => rfl
  | cons x t ih =>
    have hx : better best x = false := by
      unfold better
      split
      · exact hb
      · rw [decide_eq_false_iff_not]; exact not_lt.2 (h x (by simp))
    rw [List.foldl_cons, hx]
    exact ih fun y hy => h y (List.mem_cons_of_mem _ hy)

/-- If the first message is the highest it is the one that is taken. -/
theorem first_taken {env : Env} {cs : List Msg} {a R : Msg} {t : List Msg} (hcs : cs = a :: t) (hlag : 1 ≤ env.lag)
    (hg : GoodBatch cs) (ha : ∀ m ∈ cs, m.sh ≤ a.sh) (h : mergeParsed env cs = .ok R) (hu : R.unmerged ≠ -1) :
    R.unmerged = 0 := by
  have ham : a ∈ cs := by rw [hcs]; simp
  obtain ⟨⟨a', i⟩, hk, he⟩ := List.mem_map.1 ((mem_kept_fst hg a).2 (max_current hlag hg ham ha))
  simp only at he
  subst he
  have hi : i = 0 := by
    have := kept_first hk (j := 0) (m' := a') (by rw [hcs]; rfl) rfl
    omega
  subst hi
  have hred := (mem_kept.1 hk).2
  by_cases hro : env.readonly = true
  · obtain ⟨hne, ho⟩ := mergeParsed_pre h
    rw [mergeParsed_step hne ho] at h
    split at h
    · rename_i m j hkept
      rw [hkept, List.mem_singleton] at hk
      cases hk
      rw [← Out.ok.inj h]; rfl
    · rw [if_pos hro] at h
      have hme : maxElem (flagged env.lag cs) = some (a', 0, false) := by
        unfold flagged
        rw [hcs, List.zipIdx_cons, List.map_cons, ← hcs]
        simp only [maxElem, hred, Option.some.injEq]
        refine foldl_best rfl ?_
        intro x hx
        obtain ⟨⟨m, j⟩, hm, rfl⟩ := List.mem_map.1 hx
        refine ha m ?_
        rw [hcs]
        exact List.mem_cons_of_mem _ (List.fst_mem_of_mem_zipIdx hm)
      rw [hme] at h
      rw [← Out.ok.inj h]; rfl
  · obtain ⟨m, j, hkept, hR⟩ := mergeParsed_single h (by simpa using hro) hu
    rw [hkept, List.mem_singleton] at hk
    cases hk
    rw [hR]; rfl

/-- C42.  On an object that holds no config yet, and messages that have a positive seqno, an assertion fails exactly if
the first message that could be decrypted is not accepted (and the merge gets as far as the assertions). -/
theorem asserts_new_iff {S : Sys} {c : Client} (hm : c.hasMine = false) {inc : List (Bytes × Bytes)}
    (hpos : ∀ p ∈ inc, ∀ m, parseMsg S.env false p.2 = .ok m → 1 ≤ m.seqno) {R : Msg} {bad : List Nat}
    (hR : mergeMsgs S.env ((c.allConfs S.env inc).map (·.2)) = .ok (R, bad)) (hS : S.Good)
    (hc : NoCollision S.env ((c.allConfs S.env inc).map (·.2))) :
    c.assertsHold S inc = false ↔ ∃ p rest, inc = p :: rest ∧ ∀ m, parseMsg S.env false p.2 ≠ .ok m := by
  have hall : c.allConfs S.env inc = inc := by unfold Client.allConfs; rw [hm]; rfl
  have hcc := hasMine_false hm
  rw [hall] at hR hc
  have hb : bad.contains 0 = true ↔ ∃ p rest, inc = p :: rest ∧ ∀ m, parseMsg S.env false p.2 ≠ .ok m := by
    rw [List.contains_eq_mem, decide_eq_true_eq, mergeMsgs_bad hR 0]
    constructor
    · rintro ⟨b, h1, h2⟩
      cases inc with
      | nil => simp at h1
      | cons p rest =>
        simp only [List.map_cons, List.getElem?_cons_zero, Option.some.injEq] at h1
        subst h1
        exact ⟨p, rest, rfl, fun m hm => by rw [hm] at h2; cases h2⟩
    · rintro ⟨p, rest, rfl, h⟩
      refine ⟨p.2, by simp, ?_⟩
      cases hp : parseMsg S.env false p.2 with
      | ok m => exact absurd hp (h m)
      | _ => rfl
  rw [← hb]
  have hv : ∀ m ∈ validOf S.env (inc.map (·.2)), 1 ≤ m.seqno := by
    intro m hm
    obtain ⟨b, hb, hp⟩ := mem_validOf.1 hm
    obtain ⟨p, hp', rfl⟩ := List.mem_map.1 hb
    exact hpos p hp' m hp
  have hpair : 1 ≤ R.seqno ∧ (R.unmerged = -1 ∨ 0 ≤ R.unmerged ∧ R.unmerged < inc.length) := by
    obtain ⟨_, hp⟩ := mergeMsgs_ok_iff.1 ⟨bad, hR⟩
    obtain ⟨hne, hov⟩ := mergeParsed_pre hp
    have hg := goodBatch_of hc
    obtain ⟨top, ht, hmax, hcase⟩ := mergeParsed_cases hS.lag1 hne hg hov
    rcases hcase with ⟨h1, i, hi, hres⟩ | ⟨⟨hro, hex⟩, rest, hsort, hres⟩
    · rw [hp] at hres
      have hRe := Out.ok.inj hres
      rw [hRe]
      refine ⟨hv top ht, .inr ⟨by simp, ?_⟩⟩
      have h1 : i < (validOf S.env (inc.map (·.2))).length := by
        by_contra hge
        rw [List.getElem?_eq_none (by omega)] at hi; cases hi
      have h2 := validOf_length_le S.env (inc.map (·.2))
      rw [List.length_map] at h2
      simp only
      omega
    · rw [hp] at hres
      obtain ⟨_, d, hd, r1, r2, r3, r4, r5, r6, r7, r8⟩ := mergeKept_ok hres.symm
      refine ⟨?_, .inl r7⟩
      have h9 := max_seqno_eq hg.range ht hmax
      have h8 := hv top ht
      rw [r5]; omega
  unfold Client.assertsHold
  rw [hall, hR]
  simp only
  have hns : (c.newConf S R).m.seqno = R.seqno := by
    rw [newConf_seqno, if_neg (by rintro ⟨h, _⟩; exact hcc.2 h)]
  rw [hns, hcc.1, if_neg (by omega)]
  cases hbad : bad.contains 0 with
  | true => simp
  | false =>
    simp only [Bool.not_false, Bool.true_and, Bool.false_eq_true, iff_false, Bool.not_eq_false]
    split
    · rfl
    · split
      · rfl
      · rename_i h1 _
        rcases hpair.2 with h | ⟨_, h⟩
        · exact absurd h h1
        · simp [hm, h]

/-- C42.  On a read-only object that holds a config an assertion fails exactly if none of the messages is newer than this
config but one has the same seqno and a higher hash (and the object is not marked dirty, by a change of keys). -/
theorem asserts_readonly_iff {S : Sys} (hS : S.Good) {c : Client} (hr : Reach S c) (hro : S.env.readonly = true)
    (hm : c.hasMine = true) {inc : List (Bytes × Bytes)}
    (hc : NoCollision S.env ((c.allConfs S.env inc).map (·.2))) {R : Msg} {bad : List Nat}
    (hR : mergeMsgs S.env ((c.allConfs S.env inc).map (·.2)) = .ok (R, bad)) :
    c.assertsHold S inc = false ↔ c.st ≠ .dirty ∧
      (∀ p ∈ inc, ∀ m, parseMsg S.env false p.2 = .ok m → m.seqno ≤ c.seqno) ∧
      ∃ p ∈ inc, ∃ m, parseMsg S.env false p.2 = .ok m ∧ m.seqno = c.seqno ∧
        S.env.H (c.conf.ser S.env true) < m.hash := by
  have h := hr.inv hS
  have hbad : bad.contains 0 = false := by
    rw [List.contains_eq_mem, decide_eq_false_iff_not]
    intro h0
    obtain ⟨b, hb, hb2⟩ := (mergeMsgs_bad hR 0).1 h0
    have : b = c.conf.ser S.env true := by
      unfold Client.allConfs at hb
      rw [hm] at hb
      simpa using hb.symm
    rw [this, h.parse_own hS hm] at hb2; cases hb2
  have hval := h.valid_all hS inc
  rw [hm, if_pos rfl] at hval
  have hsn : c.seqno = c.conf.m.seqno := rfl
  have hvi : ∀ m, m ∈ validOf S.env ((c.allConfs S.env inc).map (·.2)) ↔ m = c.ownMsg S ∨
      ∃ p ∈ inc, parseMsg S.env false p.2 = .ok m := by
    intro m
    rw [hval, List.mem_append, List.mem_singleton, mem_validOf]
    refine or_congr Iff.rfl ?_
    constructor
    · rintro ⟨b, hb, hp⟩
      obtain ⟨p, hp', rfl⟩ := List.mem_map.1 hb
      exact ⟨p, hp', hp⟩
    · rintro ⟨p, hp', hp⟩
      exact ⟨p.2, List.mem_map_of_mem hp', hp⟩
  have hown := (hvi _).2 (.inl rfl)
  have hg := goodBatch_of hc
  obtain ⟨_, hp⟩ := mergeMsgs_ok_iff.1 ⟨bad, hR⟩
  rcases merge_outcome hS h hc hR with ⟨top, i, hi, hmax, hcur, hRe, hz⟩ | ⟨top, ht, hmax, hro', _⟩
  swap
  · rw [hro] at hro'; cases hro'
  have htm := List.mem_of_getElem? hi
  have hun : R.unmerged = (i : Int) := by rw [hRe]
  have hRs : R.seqno = top.seqno := by rw [hRe]
  have hle : c.conf.m.seqno ≤ top.seqno := by
    have := sh_le_seqno (hmax _ hown); rwa [ownMsg_seqno] at this
  have hlen : i < (c.allConfs S.env inc).length := by
    have h1 : i < (validOf S.env ((c.allConfs S.env inc).map (·.2))).length := by
      by_contra hge
      rw [List.getElem?_eq_none (by omega)] at hi; cases hi
    have h2 := validOf_length_le S.env ((c.allConfs S.env inc).map (·.2))
    rw [List.length_map] at h2; omega
  have hfirst : top = c.ownMsg S → i = 0 := by
    rintro rfl
    have := first_taken (t := validOf S.env (inc.map (·.2))) hval hS.lag1 hg hmax hp (by rw [hun]; omega)
    omega
  have hzero : i = 0 → top = c.ownMsg S := by
    rintro rfl
    rw [hval] at hi
    simpa using hi.symm
  have hns : (c.newConf S R).m.seqno = if c.st = .dirty then top.seqno + 1 else top.seqno := by
    rw [newConf_seqno, hRs]
    by_cases hd : c.st = .dirty
    · rw [if_pos ⟨hd, by rw [hun]; omega⟩, if_pos hd]
    · rw [if_neg (by rintro ⟨h, _⟩; exact hd h), if_neg hd]
  have hmain : c.assertsHold S inc = false ↔ c.st ≠ .dirty ∧ top.seqno = c.conf.m.seqno ∧ i ≠ 0 := by
    unfold Client.assertsHold
    rw [hR]
    simp only [hbad, hns, hun, Bool.not_false, Bool.true_and]
    by_cases hd : c.st = .dirty
    · rw [if_pos hd, if_neg (by omega), if_neg (by omega)]
      simp only [hd, ne_eq, not_true_eq_false, false_and, iff_false, Bool.not_eq_false, true_and]
      by_cases h0 : i = 0
      · rw [if_pos ⟨by omega, by rw [hzero h0, ownMsg_seqno]⟩]
      · rw [if_neg (by omega)]
        simp only [Bool.and_eq_true, Bool.or_eq_true, decide_eq_true_eq]
        exact ⟨.inr (by omega), by omega⟩
    · rw [if_neg hd]
      by_cases he : top.seqno = c.conf.m.seqno
      · rw [if_pos he]
        simp only [hd, he, ne_eq, not_false_eq_true, true_and, decide_eq_false_iff_not]
        omega
      · rw [if_neg he, if_neg (by omega), if_neg (by rintro ⟨h, _⟩; exact hd h)]
        have h1 : i ≠ 0 := fun h0 => he (by rw [hzero h0, ownMsg_seqno])
        simp only [he, false_and, and_false, iff_false, Bool.not_eq_false, Bool.and_eq_true, Bool.or_eq_true,
          decide_eq_true_eq]
        exact ⟨.inr (by omega), by omega⟩
  rw [hmain, hsn]
  refine and_congr Iff.rfl ?_
  constructor
  · rintro ⟨h1, h2⟩
    refine ⟨fun p hp' m hm' => ?_, ?_⟩
    · have := sh_le_seqno (hmax _ ((hvi m).2 (.inr ⟨p, hp', hm'⟩)))
      omega
    · rcases (hvi top).1 htm with h3 | ⟨p, hp', h3⟩
      · exact absurd (hfirst h3) h2
      · refine ⟨p, hp', top, h3, h1, ?_⟩
        have h4 := hmax _ hown
        have h5 : top ≠ c.ownMsg S := by
          intro h6
          exact h2 (hfirst h6)
        have h6 : (c.ownMsg S).sh < top.sh := lt_of_le_of_ne h4 fun h7 => h5 (hg.nodupsh _ htm _ hown h7.symm)
        rcases Prod.Lex.toLex_lt_toLex.1 h6 with h7 | ⟨_, h7⟩
        · rw [ownMsg_seqno, h1] at h7; exact absurd h7 (lt_irrefl _)
        · rw [ownMsg_hash] at h7; exact h7
  · rintro ⟨h1, p, hp', m, h2, h3, h4⟩
    have hts : top.seqno = c.conf.m.seqno := by
      rcases (hvi top).1 htm with h5 | ⟨q, hq, h5⟩
      · rw [h5, ownMsg_seqno]
      · have := h1 q hq top h5
        omega
    refine ⟨hts, fun h0 => ?_⟩
    have h5 := hmax _ ((hvi m).2 (.inr ⟨p, hp', h2⟩))
    rw [hzero h0] at h5
    rcases Prod.Lex.toLex_le_toLex.1 h5 with h7 | ⟨_, h7⟩
    · rw [ownMsg_seqno, h3] at h7; exact lt_irrefl _ h7
    · rw [ownMsg_hash] at h7; exact absurd h4 (not_lt.2 h7)

/-- The hypotheses of `asserts_new_iff` in the case of `assert_fails_on_new_object`: a new object, a batch that merges,
a first message that is not accepted. -/
example : exC0.hasMine = false ∧
    (match mergeMsgs exSys.env ((exC0.allConfs exSys.env (gather exSys exC0.keys [([98], exBadMsg), ([104], exM1)])).map
      (·.2)) with | .ok _ => true | _ => false) = true ∧
    ((gather exSys exC0.keys [([98], exBadMsg), ([104], exM1)]).map fun p =>
      match parseMsg exSys.env false p.2 with | .ok m => decide (1 ≤ m.seqno) | _ => false) = [false, true] := by
  decide +kernel

/-- Those of `asserts_readonly_iff` in the case of `assert_fails_readonly`. -/
example : let r := (exR0.merge exSysRO [([1], exM2)]).1
    r.hasMine = true ∧ exSysRO.env.readonly = true ∧ r.st ≠ .dirty ∧
    (match mergeMsgs exSysRO.env ((r.allConfs exSysRO.env (gather exSysRO r.keys [([2], exMP)])).map (·.2)) with
      | .ok _ => true | _ => false) = true := by decide +kernel

end Verif
