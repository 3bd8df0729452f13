import Verif.ClientRestore
import Verif.Props.Merge

/-!
# What a merge does to a config object: helper lemmas
-/

namespace Verif

/-- Our own config as everybody else reads it. -/
def Client.ownMsg (S : Sys) (c : Client) : Msg :=
  c.conf.refresh.m.reparsed S.env false (c.conf.ser S.env true) (c.conf.refresh.m.sig S.env true)

theorem ownMsg_seqno (S : Sys) (c : Client) : (c.ownMsg S).seqno = c.conf.m.seqno :=
  refresh_seqno c.conf

theorem ownMsg_data {S : Sys} {c : Client} (h : ConfWF c.conf) :
    (c.ownMsg S).data = pruneD c.conf.m.data := refresh_data_eq h

theorem ownMsg_hash (S : Sys) (c : Client) : (c.ownMsg S).hash = S.env.H (c.conf.ser S.env true) := rfl

theorem CInv.parse_own {S : Sys} (hS : S.Good) {c : Client} (h : CInv S c) (hm : c.hasMine = true) :
    parseMsg S.env false (c.conf.ser S.env true) = .ok (c.ownMsg S) :=
  (h.published hS hm).parse hS.sane h.wf false

theorem validOf_append (env : Env) (a b : List Bytes) : validOf env (a ++ b) = validOf env a ++ validOf env b := by
  simp [validOf]

theorem CInv.valid_all {S : Sys} (hS : S.Good) {c : Client} (h : CInv S c) (inc : List (Bytes × Bytes)) :
    validOf S.env ((c.allConfs S.env inc).map (·.2)) =
      (if c.hasMine then [c.ownMsg S] else []) ++ validOf S.env (inc.map (·.2)) := by
  unfold Client.allConfs
  rw [List.map_append, validOf_append]
  cases hm : c.hasMine with
  | false => rfl
  | true =>
    have := h.parse_own hS hm
    simp [validOf, this, Out.toOption]

theorem own_mem {S : Sys} (hS : S.Good) {c : Client} (h : CInv S c) (hm : c.hasMine = true)
    (inc : List (Bytes × Bytes)) : c.ownMsg S ∈ validOf S.env ((c.allConfs S.env inc).map (·.2)) := by
  rw [h.valid_all hS, hm]; simp

/-- Without read-only mode an unmerged result is the only message kept. -/
theorem mergeParsed_single {env : Env} {cs : List Msg} {R : Msg} (h : mergeParsed env cs = .ok R)
    (hro : env.readonly = false) (hu : R.unmerged ≠ -1) :
    ∃ m, ∃ i : Nat, kept env.lag cs = [(m, i)] ∧ R = { m with unmerged := i } := by
  unfold mergeParsed at h
  split at h
  · cases h
  split at h
  · cases h
  split at h
  · rename_i m i hk
    exact ⟨m, i, hk, (Out.ok.inj h).symm⟩
  · rw [show (env.verifier.isSome && env.signer.isNone) = false from hro] at h
    simp only [Bool.false_eq_true, if_false] at h
    cases hl : sortDesc (List.map (fun x => x.1) (kept env.lag cs)) with
    | nil => rw [hl] at h; cases h
    | cons a t =>
      rw [hl] at h
      obtain ⟨_, d, hd, r1, r2, r3, r4, r5, r6, r7, r8⟩ := mergeKept_ok h
      exact absurd r7 hu

/-- The kept message has no earlier copy. -/
theorem kept_first {lag : Int} {cs : List Msg} {m : Msg} {i : Nat} (h : (m, i) ∈ kept lag cs) {j : Nat}
    {m' : Msg} (hj : cs[j]? = some m') (he : m'.sh = m.sh) : i ≤ j := by
  have hr := (mem_kept.1 h).2
  by_contra hlt
  push Not at hlt
  have : redundantAt lag cs i m = true := by
    unfold redundantAt
    rw [Bool.or_eq_true]
    left
    rw [List.any_eq_true]
    refine ⟨(m', j), by rw [List.mem_zipIdx_iff_getElem?]; exact hj, ?_⟩
    simp [he, hlt, Nat.ne_of_lt hlt]
  rw [this] at hr; cases hr

/-- The outcome of the message merge inside a config object. -/
inductive Outcome (S : Sys) (c : Client) (valid : List Msg) (R : Msg) : Prop
  /-- one message supersedes all others (or, in read-only mode, is the highest) -/
  | single (top : Msg) (i : Nat) : valid[i]? = some top → (∀ m ∈ valid, m.sh ≤ top.sh) →
      (S.env.readonly = true ∨ ∀ m, Current S.env.lag valid m → m = top) →
      R = { top with unmerged := i } → (c.hasMine = true → top = c.ownMsg S → S.env.readonly = false → i = 0) →
      Outcome S c valid R
  /-- conflicting messages were merged -/
  | merged (top : Msg) : top ∈ valid → (∀ m ∈ valid, m.sh ≤ top.sh) → S.env.readonly = false →
      (∃ m, Current S.env.lag valid m ∧ m ≠ top) → R.unmerged = -1 → R.seqno = top.seqno + 1 →
      R.vsig = none → R.diff = [] →
      Outcome S c valid R

theorem merge_outcome {S : Sys} (hS : S.Good) {c : Client} (h : CInv S c) {inc : List (Bytes × Bytes)}
    (hc : NoCollision S.env ((c.allConfs S.env inc).map (·.2))) {R : Msg} {bad : List Nat}
    (hR : mergeMsgs S.env ((c.allConfs S.env inc).map (·.2)) = .ok (R, bad)) :
    Outcome S c (validOf S.env ((c.allConfs S.env inc).map (·.2))) R := by
  obtain ⟨_, hp⟩ := mergeMsgs_ok_iff.1 ⟨bad, hR⟩
  obtain ⟨hne, hov⟩ := mergeParsed_pre hp
  have hg := goodBatch_of hc
  obtain ⟨top, ht, hmax, hcase⟩ := mergeParsed_cases hS.lag1 hne hg hov
  rcases hcase with ⟨h1, i, hi, hres⟩ | ⟨⟨hro, hex⟩, rest, hsort, hres⟩
  · rw [hp] at hres
    have hRe := Out.ok.inj hres
    refine .single top i hi hmax h1 hRe fun hm htop hro => ?_
    obtain ⟨m, j, hk, hRm⟩ := mergeParsed_single hp hro (by rw [hRe]; simp only; omega)
    have hij : j = i := by
      have := hRe.symm.trans hRm
      have := congrArg Msg.unmerged this
      simp only at this; omega
    subst hij
    have hmem : (m, j) ∈ kept S.env.lag (validOf S.env ((c.allConfs S.env inc).map (·.2))) := by
      rw [hk]; simp
    have hmt : m = top := by
      have := (mem_kept.1 hmem).1
      rw [hi] at this; exact (Option.some.inj this).symm
    have := kept_first hmem (j := 0) (m' := c.ownMsg S) (by rw [h.valid_all hS, hm]; rfl)
      (by rw [hmt, htop])
    omega
  · rw [hp] at hres
    obtain ⟨_, d, hd, r1, r2, r3, r4, r5, r6, r7, r8⟩ := mergeKept_ok hres.symm
    refine .merged top ht hmax hro hex r7 ?_ r6 r2
    rw [r5, max_seqno_eq hg.range ht hmax]

/-! ### Which messages are reported as unusable -/

theorem parseAll_bad {env : Env} {inputs : List Bytes} {k : Nat} {cs : List Msg} {bad : List Nat}
    (h : parseAll env k inputs = .ok (cs, bad)) (i : Nat) :
    i ∈ bad ↔ k ≤ i ∧ ∃ b, inputs[i - k]? = some b ∧ (parseMsg env false b).isOk = false := by
  induction inputs generalizing k cs bad with
  | nil =>
    simp only [parseAll, Out.ok.injEq, Prod.mk.injEq] at h
    simp [← h.2]
  | cons b t ih =>
    simp only [parseAll] at h
    have tail : ∀ (bad' : List Nat) (cs' : List Msg), parseAll env (k + 1) t = .ok (cs', bad') →
        (i ∈ bad' ↔ k ≤ i ∧ i ≠ k ∧ ∃ b', (b :: t)[i - k]? = some b' ∧ (parseMsg env false b').isOk = false) := by
      intro bad' cs' h'
      rw [ih h']
      constructor
      · rintro ⟨h1, b', h2, h3⟩
        refine ⟨by omega, by omega, b', ?_, h3⟩
        rw [show i - k = (i - (k + 1)) + 1 by omega, List.getElem?_cons_succ]; exact h2
      · rintro ⟨h1, h1', b', h2, h3⟩
        refine ⟨by omega, b', ?_, h3⟩
        rw [show i - k = (i - (k + 1)) + 1 by omega, List.getElem?_cons_succ] at h2; exact h2
    split at h
    · rename_i m hm
      obtain ⟨⟨cs', bad'⟩, h1, h⟩ := Out.bind_eq_ok.1 h
      simp only [Out.ok.injEq, Prod.mk.injEq] at h
      obtain ⟨rfl, rfl⟩ := h
      rw [tail _ _ h1]
      constructor
      · rintro ⟨a, _, b', x, y⟩; exact ⟨a, b', x, y⟩
      · rintro ⟨a, b', x, y⟩
        refine ⟨a, ?_, b', x, y⟩
        rintro rfl
        simp only [Nat.sub_self, List.getElem?_cons_zero, Option.some.injEq] at x
        rw [← x, hm] at y; cases y
    · cases h
    · rename_i e hne hm
      obtain ⟨⟨cs', bad'⟩, h1, h⟩ := Out.bind_eq_ok.1 h
      simp only [Out.ok.injEq, Prod.mk.injEq] at h
      obtain ⟨rfl, rfl⟩ := h
      rw [List.mem_cons, tail _ _ h1]
      constructor
      · rintro (rfl | ⟨a, _, b', x, y⟩)
        · exact ⟨le_refl _, b, by simp, by rw [hm]; rfl⟩
        · exact ⟨a, b', x, y⟩
      · rintro ⟨a, b', x, y⟩
        by_cases hik : i = k
        · exact .inl hik
        · exact .inr ⟨a, hik, b', x, y⟩
    · cases h
    · cases h

theorem mergeMsgs_bad {env : Env} {inputs : List Bytes} {R : Msg} {bad : List Nat}
    (h : mergeMsgs env inputs = .ok (R, bad)) (i : Nat) :
    i ∈ bad ↔ ∃ b, inputs[i]? = some b ∧ (parseMsg env false b).isOk = false := by
  unfold mergeMsgs at h
  obtain ⟨⟨cs, b⟩, h1, h⟩ := Out.bind_eq_ok.1 h
  obtain ⟨m, h2, h⟩ := Out.bind_eq_ok.1 h
  simp only [Out.ok.injEq, Prod.mk.injEq] at h
  obtain ⟨rfl, rfl⟩ := h
  simpa using parseAll_bad h1 i

theorem zipIdx_filter_eq {α : Type} (l : List α) (k : Nat) (p : α → Bool) (q : α × Nat → Bool)
    (h : ∀ i a, l[i]? = some a → q (a, i + k) = p a) :
    ((l.zipIdx k).filter q).map (·.1) = l.filter p := by
  induction l generalizing k with
  | nil => rfl
  | cons a t ih =>
    have h0 := h 0 a rfl
    rw [Nat.zero_add] at h0
    have ht := ih (k + 1) (fun i x hx => by
      have := h (i + 1) x (by simpa using hx)
      rw [show i + 1 + k = i + (k + 1) by omega] at this; exact this)
    simp only [List.zipIdx_cons, List.filter_cons, h0]
    split
    · simp [ht]
    · exact ht

/-- The hashes a merge returns: those of the usable incoming messages that are accepted, in order. -/
theorem goodHashes_eq {S : Sys} {c : Client} {inc : List (Bytes × Bytes)} {R : Msg} {bad : List Nat}
    (hR : mergeMsgs S.env ((c.allConfs S.env inc).map (·.2)) = .ok (R, bad)) :
    goodHashes (c.allConfs S.env inc) c.hasMine bad =
      (inc.filter fun p => (parseMsg S.env false p.2).isOk).map (·.1) := by
  have hb := mergeMsgs_bad hR
  unfold goodHashes
  rw [show (List.map (fun x : (Bytes × Bytes) × Nat => x.1.1) = fun l => (l.map (·.1)).map (·.1)) from by
    funext l; simp]
  dsimp only
  congr 1
  unfold Client.allConfs at hb ⊢
  cases hm : c.hasMine with
  | false =>
    rw [hm] at hb
    simp only [Bool.false_eq_true, if_false, List.nil_append] at hb ⊢
    refine zipIdx_filter_eq inc 0 _ _ fun i a ha => ?_
    simp only [Nat.add_zero, Nat.zero_le, decide_true, Bool.true_and]
    have := hb i
    rw [List.getElem?_map, ha] at this
    simp only [Option.map_some, Option.some.injEq, exists_eq_left'] at this
    cases hp : (parseMsg S.env false a.2).isOk
    · have := this.2 hp; simp [this]
    · have : i ∉ bad := fun hi => by have := this.1 hi; rw [hp] at this; cases this
      simp [this]
  | true =>
    rw [hm] at hb
    simp only [if_true, List.singleton_append, List.zipIdx_cons, List.filter_cons] at hb ⊢
    rw [if_neg (by simp)]
    refine zipIdx_filter_eq inc 1 _ _ fun i a ha => ?_
    have h1 : (1 : Nat) ≤ i + 1 := by omega
    simp only [h1, decide_true, Bool.true_and]
    have := hb (i + 1)
    rw [List.getElem?_map, List.getElem?_cons_succ, ha] at this
    simp only [Option.map_some, Option.some.injEq, exists_eq_left'] at this
    cases hp : (parseMsg S.env false a.2).isOk
    · have := this.2 hp; simp [this]
    · have : i + 1 ∉ bad := fun hi => by have := this.1 hi; rw [hp] at this; cases this
      simp [this]

end Verif

namespace Verif

theorem validOf_length_le (env : Env) (l : List Bytes) : (validOf env l).length ≤ l.length :=
  List.length_filterMap_le _ _

theorem hasMine_false {c : Client} (h : c.hasMine = false) : c.conf.m.seqno = 0 ∧ c.st ≠ .dirty := by
  simp only [Client.hasMine, Bool.or_eq_false_iff, decide_eq_false_iff_not, not_not] at h
  exact h

/-- The four possible effects of a successful merge. -/
theorem absorb_cases {S : Sys} (hS : S.Good) {c : Client} (h : CInv S c) {inc : List (Bytes × Bytes)}
    (hf : ∀ p ∈ inc, Fair S.env p.2)
    (hc : NoCollision S.env ((c.allConfs S.env inc).map (·.2))) {R : Msg} {bad : List Nat}
    (hR : mergeMsgs S.env ((c.allConfs S.env inc).map (·.2)) = .ok (R, bad)) :
    (c.absorb S (c.allConfs S.env inc) R bad).2 =
      .ok (goodHashes (c.allConfs S.env inc) c.hasMine bad) ∧
    ((c.absorb S (c.allConfs S.env inc) R bad).1 = c.noted (c.allConfs S.env inc) R bad ∨
     (R.unmerged = -1 ∧ S.env.readonly = false ∧ c.conf.m.seqno < R.seqno ∧
       (∃ top ∈ validOf S.env ((c.allConfs S.env inc).map (·.2)),
         (∀ m ∈ validOf S.env ((c.allConfs S.env inc).map (·.2)), m.sh ≤ top.sh) ∧
         R.seqno = top.seqno + 1) ∧
       (c.absorb S (c.allConfs S.env inc) R bad).1 =
        { c.noted (c.allConfs S.env inc) R bad with conf := c.mergedConf S R }.setState .dirty) ∨
     (∃ top, ∃ i : Nat, ∃ x y, (validOf S.env ((c.allConfs S.env inc).map (·.2)))[i]? = some top ∧
       (∀ m ∈ validOf S.env ((c.allConfs S.env inc).map (·.2)), m.sh ≤ top.sh) ∧
       (S.env.readonly = true ∨
        ∀ m, Current S.env.lag (validOf S.env ((c.allConfs S.env inc).map (·.2))) m → m = top) ∧
       R = { top with unmerged := i } ∧ (c.hasMine = true → top ≠ c.ownMsg S) ∧
       c.conf.m.seqno < (c.newConf S R).m.seqno ∧ (c.allConfs S.env inc)[i]? = some (x, y) ∧
       (c.absorb S (c.allConfs S.env inc) R bad).1 =
        { (c.noted (c.allConfs S.env inc) R bad).setState .clean with
          conf := c.newConf S R, curr := x })) := by
  obtain ⟨b1, b2, b3⟩ := mergeMsgs_bounds hS (h.all_fair hS hf) hR
  have hown : c.hasMine = true → ∀ m : Msg, (∀ m' ∈ validOf S.env ((c.allConfs S.env inc).map (·.2)), m'.sh ≤ m.sh) →
      c.conf.m.seqno ≤ m.seqno := fun hm m hmax => by
    rw [← ownMsg_seqno S c]
    exact sh_le_seqno (hmax _ (own_mem hS h hm inc))
  unfold Client.absorb
  dsimp only
  rcases merge_outcome hS h hc hR with ⟨top, i, hi, hmax, hcur, hRe, hz⟩ | ⟨top, ht, hmax, hro, hex, hu, hseq, _, _⟩
  · have hune : R.unmerged ≠ -1 := by rw [hRe]; simp only; omega
    have huni : R.unmerged.toNat = i := by rw [hRe]; simp
    have hRs : R.seqno = top.seqno := by rw [hRe]
    split
    · exact ⟨rfl, .inl rfl⟩
    · rename_i hne
      split
      · exact ⟨rfl, .inl rfl⟩
      · rename_i hnd
        have hlen : i < (c.allConfs S.env inc).length := by
          have h1 : i < (validOf S.env ((c.allConfs S.env inc).map (·.2))).length := by
            by_contra hge
            rw [List.getElem?_eq_none (by omega)] at hi; cases hi
          have h2 := validOf_length_le S.env ((c.allConfs S.env inc).map (·.2))
          rw [List.length_map] at h2; omega
        obtain ⟨⟨x, y⟩, hxy⟩ : ∃ a, (c.allConfs S.env inc)[i]? = some a :=
          ⟨_, List.getElem?_eq_getElem hlen⟩
        rw [huni, hxy]
        refine ⟨rfl, .inr (.inr ⟨top, i, x, y, hi, hmax, hcur, hRe, ?_, ?_, hxy, rfl⟩)⟩
        · intro hm htop
          have hto : top.seqno = c.conf.m.seqno := by rw [htop, ownMsg_seqno]
          by_cases hd : c.st = .dirty
          · have hro : S.env.readonly = false := by
              cases hr : S.env.readonly with
              | false => rfl
              | true => have := (h.ro hr).1; rw [hd] at this; cases this
            have := hz hm htop hro
            apply hnd
            refine ⟨hd, by rw [hRe, this]; rfl, ?_⟩
            rw [newConf_seqno, if_pos ⟨hd, hune⟩, hRs, hto]
          · apply hne
            rw [newConf_seqno, if_neg (by rintro ⟨h1, _⟩; exact hd h1), hRs, hto]
        · cases hm : c.hasMine with
          | false =>
            obtain ⟨h0, hd⟩ := hasMine_false hm
            rw [newConf_seqno, if_neg (by rintro ⟨h1, _⟩; exact hd h1)] at hne ⊢
            omega
          | true =>
            have := hown hm top hmax
            rw [newConf_seqno] at hne ⊢
            split at hne
            · rename_i hh; rw [if_pos hh]; omega
            · rename_i hh; rw [if_neg hh]; omega
  · have hns : (c.newConf S R).m.seqno = R.seqno := by rw [newConf_seqno]; simp [hu]
    have hlt : c.conf.m.seqno < R.seqno := by
      cases hm : c.hasMine with
      | false =>
        obtain ⟨h0, hd⟩ := hasMine_false hm
        obtain ⟨b, hb, hpar⟩ := mem_validOf.1 ht
        have := (h.all_fair hS hf b hb top hpar).1
        omega
      | true => have := hown hm top hmax; omega
    rw [hns, if_neg (by omega), if_pos hu, hro]
    exact ⟨rfl, .inr (.inl ⟨hu, rfl, hlt, ⟨top, ht, hmax, hseq⟩, rfl⟩)⟩

/-- `merge` unfolded: no keys, an exception, or one of the effects above. -/
theorem merge_cases {S : Sys} {c : Client} {configs : List (Bytes × Bytes)}
    (hs : (c.merge S configs).2.safe = true) :
    (∃ e, (c.merge S configs).2 = .err e ∧ ((c.merge S configs).1 = c ∨
      (c.merge S configs).1 = { c with conf := if c.hasMine then c.conf.refresh else c.conf })) ∨
    (∃ R bad, c.keys ≠ [] ∧
      mergeMsgs S.env ((c.allConfs S.env (gather S c.keys configs)).map (·.2)) = .ok (R, bad) ∧
      c.merge S configs = c.absorb S (c.allConfs S.env (gather S c.keys configs)) R bad) := by
  unfold Client.merge at hs ⊢
  split at hs
  · rename_i hk
    left; rw [if_pos hk]; exact ⟨_, rfl, .inl rfl⟩
  · rename_i hk
    rw [if_neg hk]
    unfold Client.mergeCore at hs ⊢
    dsimp only at hs ⊢
    split at hs
    · rename_i R bad hR
      right; exact ⟨R, bad, hk, hR, rfl⟩
    · rename_i e he
      left; exact ⟨_, rfl, .inr rfl⟩
    · cases hs
    · cases hs

theorem refresh_refresh (c : Conf) (h : ConfWF c) : c.refresh.refresh = c.refresh := by
  obtain ⟨m, o⟩ := c
  cases o with
  | none => rfl
  | some o =>
    have := pruneD_of_wf (pruneD_wf h.data)
    simp only at this
    simp only [refresh_some, this]

theorem ser_refresh {c : Conf} (h : ConfWF c) (env : Env) (e : Bool) : c.refresh.ser env e = c.ser env e := by
  unfold Conf.ser; rw [refresh_refresh c h]

/-- The config of `noted` reads like the one before. -/
theorem noted_conf {c : Client} (h : ConfWF c.conf) (all : List (Bytes × Bytes)) (R : Msg) (bad : List Nat)
    (env : Env) : (c.noted all R bad).conf.m.seqno = c.conf.m.seqno ∧
      (c.noted all R bad).conf.ser env true = c.conf.ser env true ∧
      pruneD (c.noted all R bad).conf.m.data = pruneD c.conf.m.data := by
  unfold Client.noted
  dsimp only
  split
  · refine ⟨refresh_seqno _, ser_refresh h env true, ?_⟩
    rw [refresh_data_eq h]
    exact pruneD_of_wf (pruneD_wf h.data)
  · exact ⟨rfl, rfl, rfl⟩

end Verif
