import Verif.Honest
import Verif.Props.Merge

/-!
# Concurrent changes (C17, C18, C21)
-/

namespace Verif

/-! ## C21 -/

/-- `bs` is the message the object `a` stands for: `a` is a mutable message published as `bs`, or it
was loaded from `bs` (it has the seqno and the hash of the message in `bs`). -/
def IsMessage (env : Env) (a : Conf) (bs : Bytes) : Prop :=
  (a.orig.isSome = true ∧ Published env a bs) ∨
    (a.orig = none ∧ ∃ m, parseMsg env false bs = .ok m ∧ m.sh = a.m.sh)

/-- `c` was derived from `a` by one or more increments, with any modifications and any number of
publish / load steps in between. -/
inductive Descends (env : Env) (a : Conf) : Conf → Prop
  | first : int64Ok (a.m.seqno + 1) = true → Descends env a (a.increment env)
  | again {c : Conf} : Descends env a c → int64Ok (c.m.seqno + 1) = true →
      Descends env a (c.increment env)
  | edit {c : Conf} {d : Dict} : Descends env a c → c.orig.isSome = true → typedD d = true →
      Descends env a { c with m := { c.m with data := d } }
  | loaded {c : Conf} {bs : Bytes} {m : Msg} : Descends env a c → Published env c bs →
      parseMsg env false bs = .ok m → Descends env a ⟨m, none⟩

theorem Descends.made {env : Env} {a c : Conf} (h : Descends env a c) (ha : Made env a) :
    Made env c := by
  induction h with
  | first h => exact Made.increment ha h
  | again _ h ih => exact Made.increment ih h
  | edit _ h1 h2 ih => exact Made.edit ih h1 h2
  | loaded _ _ hm _ => exact Made.parsed hm

/-- A descendant lists its ancestor, unless the ancestor is `lag` or more behind. -/
theorem increment_lists {env : Env} (hs : env.Sane) {c : Conf} (hc : ConfWF c)
    (hlag : 1 ≤ env.lag) :
    (∃ p ∈ (c.increment env).m.lagged, p.1 = (c.hashed env).m.sh) ∧
    ∀ p ∈ c.m.lagged, (∃ q ∈ (c.increment env).m.lagged, q.1 = p.1) ∨
      p.1.1 + env.lag ≤ c.m.seqno := by
  have hw := hc.hashed hs (env := env)
  have hlt : ∀ p ∈ (c.hashed env).m.lagged, p.1 < (c.hashed env).m.sh :=
    fun p hp => sh_lt_of_fst (hw.window p hp)
  have he : (c.increment env).m.lagged = lagsForNext (c.hashed env).m.seqno env.lag
      (c.hashed env).m.lagged ++ [((c.hashed env).m.sh, (c.hashed env).m.diff)] :=
    memplace_last (fun p hp => hlt p ((lagsForNext_sublist _ _ _).subset hp)) _
  rw [he]
  refine ⟨⟨_, List.mem_append_right _ List.mem_cons_self, rfl⟩, fun p hp => ?_⟩
  by_cases hp1 : c.m.seqno - env.lag < p.1.1
  · left
    refine ⟨p, List.mem_append_left _ ((mem_lagsForNext hw.lagS hw.window).2 ⟨?_, ?_⟩), rfl⟩
    · rw [hashed_lagged]; exact hp
    · rw [hashed_seqno]; exact hp1
  · right; omega

theorem Descends.lists {env : Env} (hs : env.Sane) (hlag : 1 ≤ env.lag) {a c : Conf}
    (h : Descends env a c) (ha : Made env a) :
    a.m.seqno < c.m.seqno ∧ ((∃ p ∈ c.m.lagged, p.1 = (a.hashed env).m.sh) ∨
      a.m.seqno + env.lag ≤ c.m.seqno) := by
  have hinc : ∀ c : Conf, (c.increment env).m.seqno = c.m.seqno + 1 := fun c => by
    show (c.hashed env).m.seqno + 1 = _
    rw [hashed_seqno]
  induction h with
  | first h => exact ⟨by rw [hinc]; omega, .inl (increment_lists hs (ha.wf hs) hlag).1⟩
  | @again c h hi ih =>
    have hw := (h.made ha).wf hs
    rw [hinc]
    refine ⟨by omega, ?_⟩
    rcases ih.2 with ⟨p, hp, he⟩ | h2
    · rcases (increment_lists hs hw hlag).2 p hp with ⟨q, hq, hqe⟩ | h3
      · exact .inl ⟨q, hq, hqe.trans he⟩
      · right
        rw [he] at h3
        have : (a.hashed env).m.sh.1 = a.m.seqno := by show (a.hashed env).m.seqno = _; rw [hashed_seqno]
        omega
    · right; omega
  | edit _ _ _ ih => exact ih
  | @loaded c bs m h hp hm ih =>
    have hw := (h.made ha).wf hs
    rw [hp.parse hs hw false] at hm
    cases hm
    have e1 : c.refresh.m.seqno = c.m.seqno := refresh_seqno c
    refine ⟨by show _ < c.refresh.m.seqno; rw [e1]; exact ih.1, ?_⟩
    show (∃ p ∈ c.refresh.m.lagged.filter (lagLive c.refresh.m.seqno env.lag), _) ∨
      _ ≤ c.refresh.m.seqno
    rw [e1, refresh_lagged]
    rcases ih.2 with ⟨p, hp, he⟩ | h2
    · by_cases hl : c.m.seqno - env.lag < a.m.seqno
      · left
        have h1 : p.1.1 = a.m.seqno := by
          rw [he]; show (a.hashed env).m.seqno = _; rw [hashed_seqno]
        exact ⟨p, mem_lagLive.2 ⟨hp, by omega, by omega⟩, he⟩
      · right; omega
    · exact .inr h2

theorem IsMessage.sh {env : Env} (hs : env.Sane) {a : Conf} (ha : Made env a) {bs : Bytes}
    (h : IsMessage env a bs) :
    ∃ m, parseMsg env false bs = .ok m ∧ m.sh = (a.hashed env).m.sh ∧ m.seqno = a.m.seqno := by
  obtain ⟨m, o⟩ := a
  rcases h with ⟨ho, hp⟩ | ⟨ho, m', hm, he⟩
  · cases o with
    | none => cases ho
    | some o =>
      refine ⟨_, hp.parse hs (ha.wf hs) false, ?_, ?_⟩
      · rw [hp.bytes]; rfl
      · rfl
  · simp only at ho
    subst ho
    exact ⟨m', hm, he, congrArg (fun x : SH => x.1) he⟩

/-- C21.  A published message, merged with any of the messages it was derived from (in any order and
number), comes back unchanged as the only current message. -/
theorem descendant_supersedes {env : Env} (hs : env.Sane) (hlag : 1 ≤ env.lag) {c : Conf}
    (hc : Made env c) {bs : Bytes} (hp : Published env c bs)
    (h64 : int64Ok (c.m.seqno + env.lag) = true)
    {inputs : List Bytes} (hbs : bs ∈ inputs)
    (hin : ∀ b ∈ inputs, b = bs ∨
      ∃ a, Made env a ∧ Descends env a c ∧ IsMessage env a b)
    (hcol : NoCollision env inputs) :
    ∃ R bad m, mergeMsgs env inputs = .ok (R, bad) ∧ parseMsg env false bs = .ok m ∧
      R = { m with unmerged := R.unmerged } ∧ 0 ≤ R.unmerged ∧ R.data = pruneD c.m.data := by
  have hw := hc.wf hs
  have hm := hp.parse hs hw false
  set m := c.refresh.m.reparsed env false bs (c.refresh.m.sig env true) with hmdef
  have hmseq : m.seqno = c.m.seqno := refresh_seqno c
  have hmlag : ∀ p, p ∈ m.lagged ↔ p ∈ c.m.lagged ∧ c.m.seqno - env.lag < p.1.1 ∧ p.1.1 < c.m.seqno := by
    intro p
    show p ∈ c.refresh.m.lagged.filter (lagLive c.refresh.m.seqno env.lag) ↔ _
    rw [refresh_seqno, refresh_lagged]; exact mem_lagLive
  have hmv : m ∈ validOf env inputs := mem_validOf.2 ⟨bs, hbs, hm⟩
  have hg := goodBatch_of hcol
  have hall : ∀ x ∈ validOf env inputs, x = m ∨ (x.seqno < m.seqno ∧
      ((∃ p ∈ m.lagged, p.1 = x.sh) ∨ x.seqno + env.lag ≤ m.seqno)) := by
    intro x hx
    obtain ⟨b, hb, hbx⟩ := mem_validOf.1 hx
    rcases hin b hb with rfl | ⟨a, ha, hd, hi⟩
    · rw [hm] at hbx; exact .inl (Out.ok.inj hbx).symm
    · right
      obtain ⟨x', hx', h1, h2⟩ := hi.sh hs ha
      rw [hx'] at hbx; cases hbx
      obtain ⟨h3, h4⟩ := hd.lists hs hlag ha
      rw [hmseq, h1, h2]
      refine ⟨h3, ?_⟩
      rcases h4 with ⟨p, hpm, he⟩ | h4
      · by_cases hl : c.m.seqno - env.lag < a.m.seqno
        · left
          have h5 : p.1.1 = a.m.seqno := by
            rw [he]; show (a.hashed env).m.seqno = _; rw [hashed_seqno]
          exact ⟨p, (hmlag p).2 ⟨hpm, by omega, by omega⟩, he⟩
        · right; omega
      · exact .inr h4
  have ho : NoOverflow env.lag (validOf env inputs) := by
    intro x hx
    have h1 := hg.range x hx
    have h2 : x.seqno ≤ c.m.seqno := by
      rcases hall x hx with rfl | ⟨h, _⟩
      · rw [hmseq]
      · omega
    simp only [int64Ok, Bool.and_eq_true, decide_eq_true_eq] at *
    omega
  have honly : ∀ x, Current env.lag (validOf env inputs) x → x = m := by
    rintro x ⟨hx, h2, h3⟩
    rcases hall x hx with h | ⟨h4, ⟨p, hpm, he⟩ | h5⟩
    · exact h
    · exact absurd he (h2 m hmv p hpm)
    · have := h3 m hmv; omega
  obtain ⟨top, ht, hmax, hcase⟩ := mergeParsed_cases hlag (List.ne_nil_of_mem hmv) hg ho
  have htm : top = m := honly _ (max_current hlag hg ht hmax)
  subst htm
  rcases hcase with ⟨_, i, hi, hmm⟩ | ⟨⟨_, x, hx, hne⟩, _⟩
  · obtain ⟨bad, hb⟩ := mergeMsgs_ok_iff.2 ⟨fun b hb => by
      rcases hin b hb with rfl | ⟨a, ha, _, hi⟩
      · exact .inl ⟨_, hm⟩
      · obtain ⟨x, hx, _⟩ := hi.sh hs ha
        exact .inl ⟨x, hx⟩, hmm⟩
    exact ⟨_, bad, _, hb, hm, rfl, by simp, refresh_data_eq hw⟩
  · exact absurd (honly x hx) hne

/-- Three generations, merged oldest first: the last one comes back. -/
def exGen1 : Conf := exConfA
def exGen2 : Conf :=
  let c := exGen1.increment exEnvH
  { c with m := { c.m with data := [([97], .scalar (.int 7))] } }

theorem exGen2_descends : Descends exEnvH exConf exGen2 ∧ Descends exEnvH exGen1 exGen2 :=
  ⟨.edit (.again (.edit (.first (by decide)) rfl (by decide)) (by decide)) rfl (by decide),
    .edit (.first (by decide)) rfl (by decide)⟩

example : Made exEnvH exGen2 ∧ IsMessage exEnvH exConf exBase ∧
    NoCollision exEnvH [exBase, exA, exGen2.ser exEnvH true] ∧
    ((mergeMsgs exEnvH [exBase, exA, exGen2.ser exEnvH true]).toOption.map fun r =>
      (r.1.unmerged, r.1.seqno, r.1.data)) = some (2, 5, [([97], .scalar (.int 7))]) := by
  refine ⟨exGen2_descends.1.made exConf_madeH, .inl ⟨rfl, rfl, by decide, ?_⟩, ?_⟩
  · intro v hv; cases hv; exact ⟨_, rfl, rfl⟩
  · unfold NoCollision; decide +kernel

/-! ## C18 -/

/-- C18, for arbitrary accepted messages.  In a real merge, a leaf gets the value given to it by the
change with the highest (seqno, hash): if the current message `m` changed the leaf, and no change with
a higher (seqno, hash), neither another current message's own nor one it lists, says anything about it,
then the result has the leaf as in `m`'s change. -/
theorem highest_change_wins {env : Env} (hlag : 1 ≤ env.lag) {inputs : List Bytes}
    (hcol : NoCollision env inputs) {R : Msg} {bad : List Nat}
    (h : mergeMsgs env inputs = .ok (R, bad)) (hreal : R.unmerged = -1)
    {m : Msg} (hm : Current env.lag (validOf env inputs) m) (p : List Bytes) :
    (∀ v, effScalar m.diff m.data p = some v →
      (∀ m', Current env.lag (validOf env inputs) m' → ∀ e ∈ m'.hist, m.sh < e.1 →
        effScalar e.2 m'.data p = none) → scalarAt R.data p = v) ∧
    (∀ x v, effMember m.diff m.data p x = some v →
      (∀ m', Current env.lag (validOf env inputs) m' → ∀ e ∈ m'.hist, m.sh < e.1 →
        effMember e.2 m'.data p x = none) → memberAt R.data p x = v) := by
  obtain ⟨_, hp⟩ := mergeMsgs_ok_iff.1 ⟨bad, h⟩
  obtain ⟨hne, ho⟩ := mergeParsed_pre hp
  have hg := goodBatch_of hcol
  obtain ⟨top, ht, hmax, hcase⟩ := mergeParsed_cases hlag hne hg ho
  rcases hcase with ⟨_, i, _, hR⟩ | ⟨_, rest, hsort, hR⟩
  · rw [hR] at hp; cases hp; simp only at hreal; omega
  rw [hR] at hp
  obtain ⟨_, d, hd, r1, _⟩ := mergeKept_ok hp
  have hkept : ∀ m, m ∈ top :: rest ↔ Current env.lag (validOf env inputs) m := fun m => by
    rw [← hsort]; exact (keptSorted_spec hg).2 m
  have hwf : ∀ m ∈ top :: rest, MsgWF m := fun m hm => valid_wf m ((hkept m).1 hm).1
  have hspec := replayOf_spec (ms := top :: rest) fun m hm => (hwf m hm).lagS
  obtain ⟨hty, a1, a2⟩ := applyReplay_spec (wfD_typed (hwf top List.mem_cons_self).data)
    (replay_typed hwf) hd
  -- the entry of m itself
  have hent : (m.sh, (m.data, m.diff)) ∈ replayOf (top :: rest) := by
    have h1 := hspec.2 m.sh
    have hex : ((top :: rest).findSome? (·.entry m.sh)).isSome = true := by
      rw [List.findSome?_isSome_iff]
      exact ⟨m, (hkept m).2 hm, entry_some_of (.inl rfl)⟩
    rw [← h1] at hex
    obtain ⟨e, he⟩ := Option.isSome_iff_exists.1 hex
    have hmem := mem_of_mget he
    obtain ⟨m', hm', _, e1, e2⟩ := replay_mem hwf hmem
    rcases e2 with ⟨e2, e3⟩ | e2
    · have : m = m' := hg.nodupsh m hm.1 m' ((hkept m').1 hm').1 e2
      subst this
      rw [show ((m.data, m.diff) : Dict × BtDict) = e from Prod.ext e1.symm e3.symm]
      exact hmem
    · exact absurd rfl (hm.2.1 m' ((hkept m').1 hm').1 _ e2)
  have hhigh : ∀ e ∈ replayOf (top :: rest), ∃ m', Current env.lag (validOf env inputs) m' ∧
      e.2.1 = m'.data ∧ (e.1, e.2.2) ∈ m'.hist := by
    intro e he
    obtain ⟨m', hm', _, e1, e2⟩ := replay_mem hwf he
    refine ⟨m', (hkept m').1 hm', e1, ?_⟩
    rcases e2 with ⟨e2, e3⟩ | e2
    · rw [e2, e3]; exact List.mem_append_right _ List.mem_cons_self
    · exact List.mem_append_left _ e2
  refine ⟨fun v hv hh => ?_, fun x v hv hh => ?_⟩
  · rw [r1, scalarAt_pruneD p d hty, a1 p, lastScalar_eq hspec.1 hent hv]
    · rfl
    · intro e he hlt
      obtain ⟨m', hm', e1, e2⟩ := hhigh e he
      rw [e1]; exact hh m' hm' _ e2 hlt
  · rw [r1, memberAt_pruneD p d hty x, a2 p, lastMember_eq hspec.1 hent hv]
    · rfl
    · intro e he hlt
      obtain ⟨m', hm', e1, e2⟩ := hhigh e he
      rw [e1]; exact hh m' hm' _ e2 hlt

/-- Two messages conflict on `a`; the result has the value of the one with the higher hash. -/
def exConfC : Conf := exChild [([97], .scalar (.int 9))]
def exC : Bytes := exConfC.ser exEnvH true

example : NoCollision exEnvH [exA, exC] ∧
    ((validOf exEnvH [exA, exC]).map fun m => (effScalar m.diff m.data [[97]])) =
      [some (some (.int 6)), some (some (.int 9))] ∧
    ((validOf exEnvH [exA, exC]).map (·.hash)).Pairwise (· < ·) ∧
    ((mergeMsgs exEnvH [exA, exC]).toOption.map fun r => (r.1.unmerged, scalarAt r.1.data [[97]])) =
      some (-1, some (.int 9)) := by
  unfold NoCollision; decide +kernel

/-! ## C17 -/

/-- The set stored at a path, if any. -/
def setAt (d : Dict) : List Bytes → Option (List Scalar)
  | [] => none
  | [k] => match mget k d with
    | some (.set s) => some s
    | _ => none
  | k :: k2 :: ps => match mget k d with
    | some (.dict e) => setAt e (k2 :: ps)
    | _ => none

/-- The content `b` leaves the element `x` of the set that `a` has at `p` alone: it leaves `p` alone,
or it has a set there, with `x` exactly if `a` has. -/
def agreeOn (a b : Dict) (p : List Bytes) (x : Scalar) : Prop :=
  sameAt a b p = true ∨ ∃ t, setAt b p = some t ∧ (memberAt a p x = true ↔ x ∈ t)

theorem effMember_agree {B D : Dict} (hB : typedD B = true) (hD : typedD D = true) {p : List Bytes}
    (hp : p ≠ []) {x : Scalar} (h : agreeOn B D p x) : effMember (diffD B D) D p x = none := by
  rcases h with h | ⟨t, h2, h3⟩
  · exact (eff_sameAt hB hD p hp h).2 x
  induction p generalizing B D with
  | nil => simp [setAt] at h2
  | cons k ps ih =>
    have hk := mget_diffD (typedD_sorted hB) (typedD_sorted hD) k
    cases ps with
    | nil =>
      simp only [setAt] at h2
      simp only [memberAt] at h3
      split at h2
      · rename_i b hb
        simp only [Option.some.injEq] at h2
        subst h2
        have tb := typed_of_mget hD hb
        simp only [Val.typed, Bool.and_eq_true, decide_eq_true_eq] at tb
        rw [hb] at hk
        have hadd : ¬ x ∈ b → mget k (diffD B D) = some (setDiffBt (b, [])) →
            effMember (diffD B D) D [k] x = none := by
          intro hx hk
          simp [effMember, hk, setDiffBt, hb, mem_map_bt, hx]
        cases ha : mget k B with
        | none =>
          rw [ha] at h3 hk
          exact hadd (by simpa using h3) hk
        | some v =>
          rw [ha] at h3 hk
          cases v with
          | scalar _ => exact hadd (by simpa using h3) (by simpa [diffAt, diffV, addV] using hk)
          | dict _ => exact hadd (by simpa using h3) (by simpa [diffAt, diffV, addV] using hk)
          | set a =>
            have ta := typed_of_mget hB ha
            simp only [Val.typed, Bool.and_eq_true, decide_eq_true_eq] at ta
            simp only [decide_eq_true_eq] at h3
            obtain ⟨e1, e2⟩ := mem_diffSet ta.1 tb.1
            simp only [diffAt, diffV, diffSetOpt] at hk
            split at hk
            · simp [effMember, hk]
            · simp only [effMember, hk, setDiffBt, hb, mem_map_bt, e1, e2]
              by_cases hx : x ∈ a
              · simp [hx, h3.1 hx]
              · have hxb : x ∉ b := fun h => hx (h3.2 h)
                simp [hx, hxb]
      · cases h2
    | cons k2 ps =>
      simp only [setAt] at h2
      split at h2
      · rename_i b hb
        have tb := typed_of_mget hD hb
        simp only [Val.typed] at tb
        have h3' : memberAt (subDict (mget k B)) (k2 :: ps) x = true ↔ x ∈ t := by
          rw [← h3]; simp only [memberAt]
          cases ha : mget k B with
          | none => simp [subDict, memberAt_nil]
          | some v => cases v <;> simp [subDict, memberAt_nil]
        have := ih (subDict_typed hB k) tb (by simp) h2 h3'
        rw [hb] at hk
        rcases diffAt_dict (mget k B) b with e | ⟨e, _⟩ <;> rw [e] at hk
        · simp only [effMember, hk, hb]; exact this
        · simp [effMember, hk]
      · cases h2

theorem subDict_wf {B : Dict} (hB : wfD B = true) (k : Bytes) : wfD (subDict (mget k B)) = true := by
  unfold subDict
  split
  · rename_i d h; exact (wf_dict.1 (wf_of_mget hB h)).2
  · rfl

/-- A change record that says nothing about the scalar at a path means that the path was left alone. -/
theorem sameAt_of_eff {B D : Dict} (hB : wfD B = true) (hD : wfD D = true) {p : List Bytes}
    (hp : p ≠ []) (h : effScalar (diffD B D) D p = none) : sameAt B D p = true := by
  induction p generalizing B D with
  | nil => exact absurd rfl hp
  | cons k ps ih =>
    have tB := wfD_typed hB
    have tD := wfD_typed hD
    have hk := mget_diffD (typedD_sorted tB) (typedD_sorted tD) k
    have hnone : mget k (diffD B D) = none → mget k B = mget k D := by
      intro hn
      have := (applyD_spec (diffD_sorted (typedD_sorted tB) (typedD_sorted tD)) (typedD_sorted tB)
        (applyD_diff tB hD)).2 k
      rw [hn] at this
      exact this.symm
    cases ps with
    | nil =>
      simp only [sameAt, decide_eq_true_eq]
      apply hnone
      simp only [effScalar] at h
      split at h
      · assumption
      · split at h
        · split at h <;> cases h
        · cases h
      · cases h
    | cons k2 ps =>
      simp only [sameAt, Bool.or_eq_true, decide_eq_true_eq]
      simp only [effScalar] at h
      split at h
      · left; apply hnone; assumption
      · rename_i dd hdd
        split at h
        · rename_i sd hsd
          right
          have hwy := (wf_dict.1 (wf_of_mget hD hsd)).2
          rw [hsd] at hk
          rcases diffAt_dict (mget k B) sd with e | ⟨e, _⟩
          · rw [e, hdd] at hk
            cases hk
            exact ih (subDict_wf hB k) hwy (by simp) h
          · rw [e, hdd] at hk; cases hk
        · cases h
      · cases h

theorem sameAt_leaf {a b : Dict} {p : List Bytes} (h : sameAt a b p = true) :
    scalarAt a p = scalarAt b p ∧ ∀ x, memberAt a p x = memberAt b p x := by
  induction p generalizing a b with
  | nil => exact ⟨rfl, fun x => rfl⟩
  | cons k ps ih =>
    cases ps with
    | nil =>
      simp only [sameAt, decide_eq_true_eq] at h
      simp [scalarAt, memberAt, h]
    | cons k2 ps =>
      simp only [sameAt, Bool.or_eq_true, decide_eq_true_eq] at h
      rcases h with h | h
      · simp [scalarAt, memberAt, h]
      · split at h
        · rename_i y hy
          have := ih h
          simp only [scalarAt, memberAt, hy]
          rw [← this.1]
          refine ⟨?_, fun x => ?_⟩
          · cases ha : mget k a with
            | none => simp [subDict, scalarAt_nil]
            | some v => cases v <;> simp [subDict, scalarAt_nil]
          · rw [← this.2 x]
            cases ha : mget k a with
            | none => simp [subDict, memberAt_nil]
            | some v => cases v <;> simp [subDict, memberAt_nil]
        · cases h

theorem setAt_member {a : Dict} {p : List Bytes} {s : List Scalar} (h : setAt a p = some s)
    (x : Scalar) : memberAt a p x = decide (x ∈ s) := by
  induction p generalizing a with
  | nil => simp [setAt] at h
  | cons k ps ih =>
    cases ps with
    | nil =>
      simp only [setAt] at h
      split at h
      · rename_i t ht; cases h; simp [memberAt, ht]
      · cases h
    | cons k2 ps =>
      simp only [setAt] at h
      split at h
      · rename_i t ht; simp only [memberAt, ht]; exact ih h
      · cases h

theorem agreeOn_leaf {a b : Dict} {p : List Bytes} {x : Scalar} (h : agreeOn a b p x) :
    memberAt a p x = memberAt b p x := by
  rcases h with h | ⟨t, h2, h3⟩
  · exact (sameAt_leaf h).2 x
  · rw [setAt_member h2, Bool.eq_iff_iff, h3]; simp

/-- The update of the config `b` to the content `d`. -/
def childOf (env : Env) (b : Conf) (d : Dict) : Conf :=
  { b.increment env with m := { (b.increment env).m with data := d } }

/-- The message a child is loaded as by others. -/
def kidMsg (env : Env) (b : Conf) (d : Dict) : Msg :=
  (childOf env b d).refresh.m.reparsed env false ((childOf env b d).ser env true)
    ((childOf env b d).refresh.m.sig env true)

/-- The content of a config that others see. -/
def Conf.content (c : Conf) : Dict := c.refresh.m.data

theorem hashed_content {env : Env} (b : Conf) : (b.hashed env).m.data = b.content := by
  obtain ⟨m, o⟩ := b; cases o <;> rfl

theorem kid_data (env : Env) (b : Conf) (d : Dict) : (kidMsg env b d).data = pruneD d := rfl
theorem kid_diff (env : Env) (b : Conf) (d : Dict) :
    (kidMsg env b d).diff = diffD b.content (pruneD d) := by
  rw [← hashed_content (env := env)]; rfl
theorem kid_seqno (env : Env) (b : Conf) (d : Dict) :
    (kidMsg env b d).seqno = b.m.seqno + 1 := by
  show (b.hashed env).m.seqno + 1 = _
  rw [hashed_seqno]
theorem kid_lagged (env : Env) (b : Conf) (d : Dict) :
    (kidMsg env b d).lagged =
      (b.increment env).m.lagged.filter (lagLive (b.m.seqno + 1) env.lag) := by
  show (b.increment env).m.lagged.filter (lagLive ((b.hashed env).m.seqno + 1) env.lag) = _
  rw [hashed_seqno]

/-- A batch of concurrent updates of `b`: the published updates to the contents `ds`, and possibly `b`
itself, configs it was derived from, and messages that are not accepted. -/
structure Concurrent (env : Env) (b : Conf) (ds : List Dict) (inputs : List Bytes) : Prop where
  nonempty : ds ≠ []
  typed : ∀ d ∈ ds, typedD d = true
  range : int64Ok (b.m.seqno + 1) = true ∧ int64Ok (b.m.seqno + 1 + env.lag) = true
  published : ∀ d ∈ ds, ∃ bs ∈ inputs, Published env (childOf env b d) bs
  known : ∀ bs ∈ inputs, (∃ m, parseMsg env false bs = .ok m) →
    (∃ d ∈ ds, Published env (childOf env b d) bs) ∨
    ∃ a, Made env a ∧ (a = b ∨ Descends env a b) ∧ IsMessage env a bs
  nocol : NoCollision env inputs

theorem childOf_made {env : Env} {b : Conf} (hb : Made env b) {d : Dict}
    (hi : int64Ok (b.m.seqno + 1) = true) (hd : typedD d = true) : Made env (childOf env b d) :=
  Made.edit (Made.increment hb hi) rfl hd

theorem Concurrent.current {env : Env} (hs : env.Sane) (hlag : 1 ≤ env.lag) {b : Conf}
    (hb : Made env b) {ds : List Dict} {inputs : List Bytes} (h : Concurrent env b ds inputs) :
    (∀ m, Current env.lag (validOf env inputs) m ↔ ∃ d ∈ ds, m = kidMsg env b d) ∧
    ∀ m ∈ validOf env inputs, m.seqno ≤ b.m.seqno + 1 := by
  have hkp : ∀ d ∈ ds, ∀ bs, Published env (childOf env b d) bs →
      parseMsg env false bs = .ok (kidMsg env b d) := fun d hd bs hp => by
    have := hp.parse hs ((childOf_made hb h.range.1 (h.typed d hd)).wf hs) false
    rw [hp.bytes] at this ⊢
    exact this
  have hkv : ∀ d ∈ ds, kidMsg env b d ∈ validOf env inputs := fun d hd => by
    obtain ⟨bs, hbs, hp⟩ := h.published d hd
    exact mem_validOf.2 ⟨bs, hbs, hkp d hd bs hp⟩
  have hdesc : ∀ a, Made env a → (a = b ∨ Descends env a b) → ∀ d ∈ ds,
      Descends env a (childOf env b d) := by
    intro a _ ha d hd
    rcases ha with rfl | ha
    · exact .edit (.first h.range.1) rfl (h.typed d hd)
    · exact .edit (.again ha h.range.1) rfl (h.typed d hd)
  have hg := goodBatch_of h.nocol
  have hall : ∀ m ∈ validOf env inputs, (∃ d ∈ ds, m = kidMsg env b d) ∨
      (m.seqno < b.m.seqno + 1 ∧ ∀ d ∈ ds, (∃ p ∈ (kidMsg env b d).lagged, p.1 = m.sh) ∨
        m.seqno + env.lag ≤ b.m.seqno + 1) := by
    intro m hm
    obtain ⟨bs, hbs, hpm⟩ := mem_validOf.1 hm
    rcases h.known bs hbs ⟨_, hpm⟩ with ⟨d, hd, hp⟩ | ⟨a, ha, had, hi⟩
    · rw [hkp d hd bs hp] at hpm; exact .inl ⟨d, hd, (Out.ok.inj hpm).symm⟩
    · right
      obtain ⟨x, hx, e1, e2⟩ := hi.sh hs ha
      rw [hx] at hpm; cases hpm
      have hseq : ∀ d, (childOf env b d).m.seqno = b.m.seqno + 1 := fun d => by
        show (b.hashed env).m.seqno + 1 = _; rw [hashed_seqno]
      constructor
      · obtain ⟨d, hd⟩ := List.exists_mem_of_ne_nil _ h.nonempty
        have := ((hdesc a ha had d hd).lists hs hlag ha).1
        rw [hseq] at this
        omega
      · intro d hd
        obtain ⟨l1, l2⟩ := (hdesc a ha had d hd).lists hs hlag ha
        rw [hseq] at l1 l2
        rcases l2 with ⟨p, hp, he⟩ | l2
        · by_cases hl : b.m.seqno + 1 - env.lag < a.m.seqno
          · left
            have h5 : p.1.1 = a.m.seqno := by
              rw [he]; show (a.hashed env).m.seqno = _; rw [hashed_seqno]
            refine ⟨p, ?_, he.trans e1.symm⟩
            rw [kid_lagged]
            exact mem_lagLive.2 ⟨hp, by omega, by omega⟩
          · right; omega
        · right; omega
  refine ⟨fun m => ⟨?_, ?_⟩, ?_⟩
  · rintro ⟨hm, h2, h3⟩
    rcases hall m hm with h4 | ⟨_, h5⟩
    · exact h4
    · obtain ⟨d, hd⟩ := List.exists_mem_of_ne_nil _ h.nonempty
      rcases h5 d hd with ⟨p, hp, he⟩ | h6
      · exact absurd he (h2 _ (hkv d hd) p hp)
      · have := h3 _ (hkv d hd)
        rw [kid_seqno] at this
        omega
  · rintro ⟨d, hd, rfl⟩
    have hle : ∀ m ∈ validOf env inputs, m.seqno ≤ b.m.seqno + 1 := by
      intro m hm
      rcases hall m hm with ⟨d', _, rfl⟩ | ⟨h5, _⟩
      · rw [kid_seqno]
      · omega
    refine ⟨hkv d hd, fun c2 hc2 p hp he => ?_, fun c2 hc2 => ?_⟩
    · have h1 := hg.window c2 hc2 p hp
      have h2 := hle c2 hc2
      rw [he] at h1
      have h3 : (kidMsg env b d).seqno < c2.seqno := h1
      rw [kid_seqno] at h3
      omega
    · have := hle c2 hc2
      rw [kid_seqno]; omega
  · intro m hm
    rcases hall m hm with ⟨d', _, rfl⟩ | ⟨h5, _⟩
    · rw [kid_seqno]
    · omega

/-- `concurrent_updates` for a base of which only the history matters. -/
theorem concurrent_updates_hist {env : Env} (hs : env.Sane) (hlag : 1 ≤ env.lag)
    (hro : env.readonly = false) {strict : Prop} {b : Conf} (hbm : Made env b) (hbhist : HistConf strict b) {ds : List Dict}
    {inputs : List Bytes} (hc : Concurrent env b ds inputs) {R : Msg} {bad : List Nat}
    (h : mergeMsgs env inputs = .ok (R, bad)) (p : List Bytes) (hp : p ≠ []) :
    (∀ d ∈ ds, sameAt b.content (pruneD d) p = false →
      (∀ d' ∈ ds, (kidMsg env b d).sh < (kidMsg env b d').sh →
        sameAt b.content (pruneD d') p = true) → scalarAt R.data p = scalarAt (pruneD d) p) ∧
    (∀ d ∈ ds, ∀ x, memberAt b.content p x ≠ memberAt (pruneD d) p x →
      (∀ d' ∈ ds, (kidMsg env b d).sh < (kidMsg env b d').sh →
        agreeOn b.content (pruneD d') p x) → memberAt R.data p x = memberAt (pruneD d) p x) ∧
    ((∀ d ∈ ds, sameAt b.content (pruneD d) p = true) →
      scalarAt R.data p = scalarAt b.content p) ∧
    (∀ x, (∀ d ∈ ds, agreeOn b.content (pruneD d) p x) →
      memberAt b.content p x = true ∨ strict → memberAt R.data p x = memberAt b.content p x) := by
  have hbw := hbm.wf hs
  obtain ⟨hcur, hle⟩ := hc.current hs hlag hbm
  obtain ⟨_, hpm⟩ := mergeMsgs_ok_iff.1 ⟨bad, h⟩
  obtain ⟨hne, ho⟩ := mergeParsed_pre hpm
  have hg := goodBatch_of hc.nocol
  have hBw : wfD b.content = true := hbw.refresh_msg.data
  have hB : typedD b.content = true := wfD_typed hBw
  have hD : ∀ d ∈ ds, wfD (pruneD d) = true := fun d hd => pruneD_wf (hc.typed d hd)
  obtain ⟨top, ht, hmax, hcase⟩ := mergeParsed_cases hlag hne hg ho
  rcases hcase with ⟨h1, i, _, hR⟩ | ⟨_, rest, hsort, hR⟩
  · -- all updates are the same message
    have h1 : ∀ c, Current env.lag (validOf env inputs) c → c = top :=
      h1.resolve_left (by simp [hro])
    rw [hR] at hpm; cases hpm
    have hk : ∀ d ∈ ds, top.data = pruneD d := fun d hd => by
      rw [← h1 _ ((hcur _).2 ⟨d, hd, rfl⟩)]; rfl
    obtain ⟨d0, hd0⟩ := List.exists_mem_of_ne_nil _ hc.nonempty
    refine ⟨fun d hd _ _ => ?_, fun d hd x _ _ => ?_, fun hall => ?_, fun x hall _ => ?_⟩
    · simp only [hk d hd]
    · simp only [hk d hd]
    · simp only [hk d0 hd0]; exact (sameAt_leaf (hall d0 hd0)).1.symm
    · simp only [hk d0 hd0]; exact (agreeOn_leaf (hall d0 hd0)).symm
  rw [hR] at hpm
  obtain ⟨_, dd, hdd, r1, _⟩ := mergeKept_ok hpm
  have hkept : ∀ m, m ∈ top :: rest ↔ ∃ d ∈ ds, m = kidMsg env b d := fun m => by
    rw [← hcur, ← hsort]; exact (keptSorted_spec hg).2 m
  have hval : ∀ m ∈ top :: rest, m ∈ validOf env inputs := fun m hm =>
    (((keptSorted_spec hg).2 m).1 (by rw [hsort]; exact hm)).1
  have hwf : ∀ m ∈ top :: rest, MsgWF m := fun m hm => valid_wf m (hval m hm)
  have hspec := replayOf_spec (ms := top :: rest) fun m hm => (hwf m hm).lagS
  obtain ⟨hty, a1, a2⟩ := applyReplay_spec (wfD_typed (hwf top List.mem_cons_self).data)
    (replay_typed hwf) hdd
  obtain ⟨dt, hdt, htop⟩ := (hkept top).1 List.mem_cons_self
  set L := (b.increment env).m.lagged.filter (lagLive (b.m.seqno + 1) env.lag) with hL
  have hLlt : ∀ q ∈ L, ∀ d, q.1 < (kidMsg env b d).sh := fun q hq d => by
    refine sh_lt_of_fst ?_
    show q.1.1 < (kidMsg env b d).seqno
    rw [kid_seqno]; exact (mem_lagLive.1 hq).2.2
  have htl : top.lagged = L := by rw [htop, kid_lagged]
  -- the entries of the replay
  have hents : ∀ e ∈ replayOf (top :: rest),
      (∃ d ∈ ds, e = ((kidMsg env b d).sh, (pruneD d, diffD b.content (pruneD d)))) ∨
      ((e.1, e.2.2) ∈ L ∧ e.2.1 = top.data) := by
    intro e he
    obtain ⟨m, hm, hme, e1, e2⟩ := replay_mem hwf he
    obtain ⟨d, hd, rfl⟩ := (hkept m).1 hm
    rcases e2 with ⟨e2, e3⟩ | e2
    · left
      exact ⟨d, hd, Prod.ext e2 (Prod.ext (e1.trans (kid_data _ _ _)) (e3.trans (kid_diff _ _ _)))⟩
    · right
      rw [kid_lagged] at e2
      refine ⟨e2, ?_⟩
      have h2 := hspec.2 e.1
      rw [mget_of_mem hspec.1 he, List.findSome?_cons] at h2
      have h3 : (top.entry e.1).isSome = true :=
        entry_some_of (.inr ⟨(e.1, e.2.2), by rw [htl]; exact e2, rfl⟩)
      obtain ⟨w, hw⟩ := Option.isSome_iff_exists.1 h3
      rw [hw] at h2
      cases h2
      exact (entry_cases hw).1
  have hin : ∀ d ∈ ds, ((kidMsg env b d).sh, (pruneD d, diffD b.content (pruneD d))) ∈
      replayOf (top :: rest) := by
    intro d hd
    have h1 := hspec.2 (kidMsg env b d).sh
    have hex : ((top :: rest).findSome? (·.entry (kidMsg env b d).sh)).isSome = true := by
      rw [List.findSome?_isSome_iff]
      exact ⟨_, (hkept _).2 ⟨d, hd, rfl⟩, entry_some_of (.inl rfl)⟩
    rw [← h1] at hex
    obtain ⟨e, he⟩ := Option.isSome_iff_exists.1 hex
    have hmem := mem_of_mget he
    rcases hents _ hmem with ⟨d', hd', e1⟩ | ⟨e1, _⟩
    · have e2 : (kidMsg env b d).sh = (kidMsg env b d').sh := congrArg Prod.fst e1
      have e3 : kidMsg env b d = kidMsg env b d' :=
        hg.nodupsh _ (hval _ ((hkept _).2 ⟨d, hd, rfl⟩)) _ (hval _ ((hkept _).2 ⟨d', hd', rfl⟩)) e2
      have e4 : pruneD d = pruneD d' := by
        rw [← kid_data env b d, ← kid_data env b d', e3]
      have e5 := congrArg Prod.snd e1
      simp only at e5
      rw [e4, ← e5]
      exact hmem
    · exact absurd (hLlt _ e1 d) (lt_irrefl _)
  -- history of the base
  have hbh := hbw.hashed hs (env := env)
  have hhist : LagOk strict (b.increment env).m.lagged b.content := by
    rw [← hashed_content (env := env)]
    exact (incrementImpl_hist (lag := env.lag) hbh.lagS hbh.window (hashed_hist hbw hbhist)).2
  have hiw := hbw.increment hs hc.range.1 (env := env)
  have hLs : KSorted L := List.Pairwise.sublist List.filter_sublist hiw.lagS
  have hhL : LagOk strict L b.content := by
    refine hhist.upper hiw.lagS hLs (fun e he => List.mem_of_mem_filter he) fun e he f hf hef => ?_
    have h1 := mem_lagLive.1 he
    have h2 := sh_fst_le (le_of_lt hef)
    have h3 : f.1.1 < (b.increment env).m.seqno := hiw.window f hf
    have h4 : (b.increment env).m.seqno = b.m.seqno + 1 := by
      show (b.hashed env).m.seqno + 1 = _; rw [hashed_seqno]
    exact mem_lagLive.2 ⟨hf, by omega, by omega⟩
  have hLin : ∀ q ∈ L, (q.1, (top.data, q.2)) ∈ replayOf (top :: rest) := by
    intro q hq
    have h1 := hspec.2 q.1
    have hqs : mget q.1 top.lagged = some q.2 := by
      rw [htl]; exact mget_of_mem hLs hq
    have hent : top.entry q.1 = some (top.data, q.2) := by
      unfold Msg.entry
      rw [if_neg, hqs]; · rfl
      · rw [htop]; exact ne_of_lt (hLlt q hq dt)
    rw [List.findSome?_cons, hent] at h1
    exact mem_of_mget h1
  refine ⟨fun d hd hch hhi => ?_, fun d hd x hch hhi => ?_, fun hall => ?_, fun x hall hx => ?_⟩
  · obtain ⟨e1, e2, _, _⟩ := eff_diff hB (hD d hd) p
    cases he : effScalar (diffD b.content (pruneD d)) (pruneD d) p with
    | none => rw [sameAt_of_eff hBw (hD d hd) hp he] at hch; cases hch
    | some v =>
      rw [r1, scalarAt_pruneD p dd hty, a1 p, lastScalar_eq hspec.1 (hin d hd) he]
      · exact e1 v he
      · intro e hem hlt
        rcases hents e hem with ⟨d', hd', rfl⟩ | ⟨e3, _⟩
        · exact (eff_sameAt hB (wfD_typed (hD d' hd')) p hp (hhi d' hd' hlt)).1
        · exact absurd (hLlt _ e3 d) (not_lt_of_gt hlt)
  · obtain ⟨_, _, e1, e2⟩ := eff_diff hB (hD d hd) p
    cases he : effMember (diffD b.content (pruneD d)) (pruneD d) p x with
    | none => exact absurd (e2 x he) hch
    | some v =>
      rw [r1, memberAt_pruneD p dd hty, a2 p, lastMember_eq hspec.1 (hin d hd) he]
      · exact e1 x v he
      · intro e hem hlt
        rcases hents e hem with ⟨d', hd', rfl⟩ | ⟨e3, _⟩
        · exact effMember_agree hB (wfD_typed (hD d' hd')) hp (hhi d' hd' hlt)
        · exact absurd (hLlt _ e3 d) (not_lt_of_gt hlt)
  · have hts : scalarAt top.data p = scalarAt b.content p := by
      rw [htop, kid_data]; exact (sameAt_leaf (hall dt hdt)).1.symm
    rw [r1, scalarAt_pruneD p dd hty, a1 p]
    cases hl : lastScalar p (replayOf (top :: rest)) with
    | none => exact hts
    | some v =>
      obtain ⟨e, he, h1, h2⟩ := lastScalar_some hspec.1 hl
      rcases hents e he with ⟨d', hd', rfl⟩ | ⟨e3, e4⟩
      · rw [(eff_sameAt hB (wfD_typed (hD d' hd')) p hp (hall d' hd')).1] at h1; cases h1
      · rw [e4] at h1
        simp only [Option.getD_some]
        cases hy : scalarAt top.data p with
        | none =>
          rw [← hts, hy]
          cases v with
          | none => rfl
          | some y => rw [(effScalar_some_say h1).2] at hy; cases hy
        | some y =>
          rw [effScalar_of_scalarAt hy] at h1
          obtain ⟨bb, hbb, hv⟩ := Option.map_eq_some_iff.1 h1
          have hlast : lastBy (sayS · p) L = some bb :=
            (lastBy_some hLs).2 ⟨_, e3, hbb, fun f hf hlt =>
              effScalar_none_say (h2 _ (hLin f hf) hlt)⟩
          have := hhL.s p bb hlast (.inr (by rw [← hts, hy]; rfl))
          rw [← hts, hy] at this
          rw [← hts, hy, ← hv, this]; rfl
  · have hts : memberAt top.data p x = memberAt b.content p x := by
      rw [htop, kid_data]; exact (agreeOn_leaf (hall dt hdt)).symm
    rw [r1, memberAt_pruneD p dd hty, a2 p]
    cases hl : lastMember p x (replayOf (top :: rest)) with
    | none => exact hts
    | some v =>
      obtain ⟨e, he, h1, h2⟩ := lastMember_some hspec.1 hl
      rcases hents e he with ⟨d', hd', rfl⟩ | ⟨e3, e4⟩
      · rw [effMember_agree hB (wfD_typed (hD d' hd')) hp (hall d' hd')] at h1; cases h1
      · rw [e4] at h1
        simp only [Option.getD_some]
        have hlast : ∀ bb, sayM e.2.2 p x = some bb → lastBy (sayM · p x) L = some bb := fun bb hbb =>
          (lastBy_some hLs).2 ⟨_, e3, hbb, fun f hf hlt =>
            effMember_none_say (h2 _ (hLin f hf) hlt)⟩
        rcases effMember_cases e.2.2 top.data p x with hcs | ⟨hcs, hnm⟩
        · rw [hcs] at h1
          exact hhL.m p x v (hlast v h1) hx.symm
        · rw [hcs] at h1
          rw [← hts, hnm]
          exact (Option.some.inj h1).symm

/-- C17 and C18 for honest clients.  Let `R` be the merge of a batch of concurrent updates of an
honest config `b` (by a client that can merge).  Then, for every path `p`:

1. if an update changed what is at `p`, the scalar there is the one that update has (if any), if all
   updates with a higher hash left `p` alone;
2. an element of the set at `p` that an update inserted or removed is there or not accordingly, if all
   updates with a higher hash left it alone;
3. if all updates agree with `b` at `p`, the scalar there is `b`'s;
4. if all updates agree with `b` on an element of the set at `p` which `b` has, it is still there;
5. if moreover `b` has a linear history (no merges), the same holds for elements `b` does not have. -/
theorem concurrent_updates {env : Env} (hs : env.Sane) (hlag : 1 ≤ env.lag)
    (hro : env.readonly = false) {lin : Bool} {b : Conf} (hb : Honest env lin b) {ds : List Dict}
    {inputs : List Bytes} (hc : Concurrent env b ds inputs) {R : Msg} {bad : List Nat}
    (h : mergeMsgs env inputs = .ok (R, bad)) (p : List Bytes) (hp : p ≠ []) :
    (∀ d ∈ ds, sameAt b.content (pruneD d) p = false →
      (∀ d' ∈ ds, (kidMsg env b d).sh < (kidMsg env b d').sh →
        sameAt b.content (pruneD d') p = true) → scalarAt R.data p = scalarAt (pruneD d) p) ∧
    (∀ d ∈ ds, ∀ x, memberAt b.content p x ≠ memberAt (pruneD d) p x →
      (∀ d' ∈ ds, (kidMsg env b d).sh < (kidMsg env b d').sh →
        agreeOn b.content (pruneD d') p x) → memberAt R.data p x = memberAt (pruneD d) p x) ∧
    ((∀ d ∈ ds, sameAt b.content (pruneD d) p = true) →
      scalarAt R.data p = scalarAt b.content p) ∧
    (∀ x, (∀ d ∈ ds, agreeOn b.content (pruneD d) p x) →
      memberAt b.content p x = true ∨ lin = true → memberAt R.data p x = memberAt b.content p x) :=
  concurrent_updates_hist hs hlag hro hb.made (hb.hist hs) hc h p hp

/-- `exConf` is honest with a linear history, and the two updates `exA`, `exB` of it, with `exConf`
itself, are a batch of concurrent updates. -/
theorem exConf_honest : Honest exEnvH true exConf :=
  Honest.edit (c := ⟨{ Msg.empty with seqno := 3 }, some []⟩) (Honest.newMut 3 (by decide)) rfl
    (by decide)

def exDA : Dict := [([97], .scalar (.int 6))]
def exDB : Dict := [([97], .scalar (.int 5)), ([122], .set [.str [1], .str [2]])]

theorem exPublished (c : Conf) (h : int64Ok (c.m.seqno - exEnvH.lag) = true)
    (ho : c.orig.isSome = true) : Published exEnvH c (c.ser exEnvH true) := by
  refine ⟨rfl, h, fun v hv => ?_⟩
  cases hv
  obtain ⟨m, o⟩ := c
  cases o with
  | none => cases ho
  | some o => exact ⟨_, rfl, rfl⟩

theorem exConcurrent : Concurrent exEnvH exConf [exDA, exDB] [exA, exB, exBase] where
  nonempty := by simp
  typed := by decide
  range := by decide
  published := by
    intro d hd
    simp only [List.mem_cons, List.not_mem_nil, or_false] at hd
    rcases hd with rfl | rfl
    · exact ⟨exA, by simp, exPublished _ (by decide) rfl⟩
    · exact ⟨exB, by simp, exPublished _ (by decide) rfl⟩
  known := by
    intro bs hbs _
    simp only [List.mem_cons, List.not_mem_nil, or_false] at hbs
    rcases hbs with rfl | rfl | rfl
    · exact .inl ⟨exDA, by simp, exPublished _ (by decide) rfl⟩
    · exact .inl ⟨exDB, by simp, exPublished _ (by decide) rfl⟩
    · exact .inr ⟨exConf, exConf_madeH, .inl rfl, .inl ⟨rfl, exPublished _ (by decide) rfl⟩⟩
  nocol := by unfold NoCollision; decide +kernel

/-- The changes differ in scope: `exA` changes `a`, `exB` does not; `exB` changes `z`. -/
example : exEnvH.readonly = false ∧
    scalarAt exConf.content [[97]] ≠ scalarAt (pruneD exDA) [[97]] ∧
    sameAt exConf.content (pruneD exDB) [[97]] = true ∧
    memberAt exConf.content [[122]] (.str [1]) ≠ memberAt (pruneD exDB) [[122]] (.str [1]) ∧
    sameAt exConf.content (pruneD exDA) [[122]] = true := by decide

/-! ## C25: updates more than one step apart -/

/-- One client adds `a.x` and then removes it again; another one, concurrently, adds `a.w`. -/
def wBase : Conf := ⟨{ Msg.empty with seqno := 1 }, some []⟩
def wA1 : Conf := childOf exEnvH wBase [([97], .dict [([120], .scalar (.int 1))])]
def wA2 : Conf := childOf exEnvH wA1 []
def wB : Conf := childOf exEnvH wBase [([97], .dict [([119], .set [.int 1])])]

/-- C25 is false of the code: although the second client's change is the only one to the entry `a.w`,
the merge loses it: replaying "`a.x` was added" with the final content of the first client, which has
no `a`, erases all of `a`. -/
theorem removed_dict_swallows_change :
    NoCollision exEnvH [wA2.ser exEnvH true, wB.ser exEnvH true] ∧
    memberAt wBase.content [[97], [119]] (.int 1) = false ∧
    memberAt wA1.content [[97], [119]] (.int 1) = false ∧
    memberAt wA2.content [[97], [119]] (.int 1) = false ∧
    memberAt wB.content [[97], [119]] (.int 1) = true ∧
    ((mergeMsgs exEnvH [wA2.ser exEnvH true, wB.ser exEnvH true]).toOption.map fun r =>
      (r.1.unmerged, r.1.data)) = some (-1, []) := by
  unfold NoCollision; decide +kernel

/-- The merge of those two, edited to contain the element 2 in `a.w`, and two updates of it that
change other entries. -/
def wR : Conf := match mergeMsgs exEnvH [wA2.ser exEnvH true, wB.ser exEnvH true] with
  | .ok (m, _) => mutFromMerge exEnvH m
  | _ => wBase
def wD : Dict := [([97], .dict [([119], .set [.int 2])])]
def wR2 : Conf := { wR with m := { wR.m with data := wD } }
def wC (k : UInt8) : Conf := childOf exEnvH wR2 (wD ++ [([k], .scalar (.int 1))])

/-- ... and it comes back later: the element 1 is in the merge of two updates, neither of which has
it, of a config which does not have it.  So the linear history is needed in `concurrent_updates`. -/
theorem lost_element_returns :
    wR2.content = wD ∧ memberAt wD [[97], [119]] (.int 1) = false ∧
    memberAt (wC 98).content [[97], [119]] (.int 1) = false ∧
    memberAt (wC 99).content [[97], [119]] (.int 1) = false ∧
    ((mergeMsgs exEnvH [(wC 98).ser exEnvH true, (wC 99).ser exEnvH true]).toOption.map fun r =>
      (r.1.unmerged, memberAt r.1.data [[97], [119]] (.int 1))) = some (-1, true) := by
  decide +kernel

/-- C25, as far as it holds: a scalar change made by the message with the highest (seqno, hash) of the
batch is never lost, whatever the histories of the merged messages.  Missing: changes by other
messages of the batch, which can be lost when the histories are more than one step long
(`removed_dict_swallows_change`). -/
theorem top_change_survives_partial {env : Env} (hlag : 1 ≤ env.lag) {inputs : List Bytes}
    (hcol : NoCollision env inputs) {R : Msg} {bad : List Nat}
    (h : mergeMsgs env inputs = .ok (R, bad)) {m : Msg} (hm : m ∈ validOf env inputs)
    (hmax : ∀ m' ∈ validOf env inputs, m'.sh ≤ m.sh) (p : List Bytes) :
    (∀ v, effScalar m.diff m.data p = some v → R.unmerged = -1 → scalarAt R.data p = v) ∧
    (∀ x v, effMember m.diff m.data p x = some v → R.unmerged = -1 → memberAt R.data p x = v) ∧
    (R.unmerged ≠ -1 → R.data = m.data) := by
  have hg := goodBatch_of hcol
  have hcur := max_current hlag hg hm hmax
  have hno : ∀ m', Current env.lag (validOf env inputs) m' → ∀ e ∈ m'.hist, ¬ m.sh < e.1 := by
    intro m' hm' e he hlt
    have h1 := hmax m' hm'.1
    rcases List.mem_append.1 he with he | he
    · have h2 := hg.window m' hm'.1 e he
      have h3 : e.1 < m'.sh := sh_lt_of_fst h2
      exact absurd (lt_trans hlt h3) (not_lt_of_ge h1)
    · simp only [List.mem_singleton] at he
      subst he
      exact absurd hlt (not_lt_of_ge h1)
  refine ⟨fun v hv hreal => ?_, fun x v hv hreal => ?_, fun hu => ?_⟩
  · exact (highest_change_wins hlag hcol h hreal hcur p).1 v hv
      fun m' hm' e he hlt => absurd hlt (hno m' hm' e he)
  · exact (highest_change_wins hlag hcol h hreal hcur p).2 x v hv
      fun m' hm' e he hlt => absurd hlt (hno m' hm' e he)
  · obtain ⟨top, ht, htm, h1 | h1⟩ := merge_seqno hlag hcol h
    · have : top = m := hg.nodupsh _ ht _ hm (le_antisymm (hmax top ht) (htm m hm))
      rw [h1.2.1, this]
    · exact absurd h1.2.1 hu

/-! ## C26 -/

/-- C26.  Every config's history lists only earlier seqnos, each at most once and in order, whatever
messages it was loaded or merged from; so the trimming loop of `increment` (which erases through a
reverse iterator, src/config.cpp:478-484) never has anything to erase at that end. -/
theorem history_precedes {env : Env} (hs : env.Sane) {c : Conf} (hc : Made env c) :
    (∀ p ∈ c.m.lagged, p.1.1 < c.m.seqno) ∧ KSorted c.m.lagged ∧
      lagsForNext c.m.seqno env.lag c.m.lagged =
        c.m.lagged.dropWhile fun p => decide (p.1.1 ≤ c.m.seqno - env.lag) := by
  have hw := hc.wf hs
  refine ⟨hw.window, hw.lagS, ?_⟩
  unfold lagsForNext
  simp only
  have : ∀ x ∈ (c.m.lagged.dropWhile fun p => decide (p.1.1 ≤ c.m.seqno - env.lag)).reverse,
      decide (x.1.1 ≥ c.m.seqno) = false := by
    intro x hx
    have := hw.window x ((List.dropWhile_sublist _).subset (List.mem_reverse.1 hx))
    simp; omega
  rw [show (c.m.lagged.dropWhile fun p => decide (p.1.1 ≤ c.m.seqno - env.lag)).reverse.dropWhile
      (fun p => decide (p.1.1 ≥ c.m.seqno)) =
    (c.m.lagged.dropWhile fun p => decide (p.1.1 ≤ c.m.seqno - env.lag)).reverse from ?_,
    List.reverse_reverse]
  cases hr : (c.m.lagged.dropWhile fun p => decide (p.1.1 ≤ c.m.seqno - env.lag)).reverse with
  | nil => rfl
  | cons a t =>
    have ha := this a (by rw [hr]; exact List.mem_cons_self)
    simp [List.dropWhile, ha]

example : exGen2.m.lagged.length = 2 ∧ exGen2.m.seqno = 5 := by decide +kernel

end Verif
