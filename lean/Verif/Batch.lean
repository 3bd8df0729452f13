import Verif.History

/-! Helper lemmas: from batches of bytes to batches of parsed messages. -/

namespace Verif

/-- The messages a batch of inputs parses to. -/
def validOf (env : Env) (inputs : List Bytes) : List Msg :=
  inputs.filterMap fun b => (parseMsg env false b).toOption

theorem mem_validOf {env : Env} {inputs : List Bytes} {m : Msg} :
    m ∈ validOf env inputs ↔ ∃ b ∈ inputs, parseMsg env false b = .ok m := by
  unfold validOf
  rw [List.mem_filterMap]
  constructor
  · rintro ⟨b, hb, h⟩
    refine ⟨b, hb, ?_⟩
    cases hp : parseMsg env false b <;> rw [hp] at h <;> simp_all [Out.toOption]
  · rintro ⟨b, hb, h⟩; exact ⟨b, hb, by rw [h]; rfl⟩

/-- The inputs on which the parser returns or raises a config error. -/
def Tolerable (env : Env) (b : Bytes) : Prop :=
  (∃ m, parseMsg env false b = .ok m) ∨ ∃ e, parseMsg env false b = .err e ∧ e ≠ .foreign

theorem parseAll_validOf {env : Env} {inputs : List Bytes} {i : Nat} {cs : List Msg}
    {bad : List Nat} (h : parseAll env i inputs = .ok (cs, bad)) :
    cs = validOf env inputs ∧ ∀ b ∈ inputs, Tolerable env b := by
  induction inputs generalizing i cs bad with
  | nil =>
    simp only [parseAll, Out.ok.injEq, Prod.mk.injEq] at h
    simp [← h.1, validOf]
  | cons b t ih =>
    simp only [parseAll] at h
    split at h
    · rename_i m hm
      obtain ⟨⟨cs', bad'⟩, h1, h⟩ := Out.bind_eq_ok.1 h
      simp only [Out.ok.injEq, Prod.mk.injEq] at h
      obtain ⟨rfl, rfl⟩ := h
      obtain ⟨e, ht⟩ := ih h1
      refine ⟨by simp [validOf, hm, Out.toOption] at e ⊢; exact e, fun x hx => ?_⟩
      rcases List.mem_cons.1 hx with rfl | hx
      · exact .inl ⟨m, hm⟩
      · exact ht x hx
    · cases h
    · rename_i e hne hm
      obtain ⟨⟨cs', bad'⟩, h1, h⟩ := Out.bind_eq_ok.1 h
      simp only [Out.ok.injEq, Prod.mk.injEq] at h
      obtain ⟨rfl, rfl⟩ := h
      obtain ⟨e', ht⟩ := ih h1
      refine ⟨by simp [validOf, hm, Out.toOption] at e' ⊢; exact e', fun x hx => ?_⟩
      rcases List.mem_cons.1 hx with rfl | hx
      · exact .inr ⟨_, hm, by rintro rfl; exact hne rfl⟩
      · exact ht x hx
    · cases h
    · cases h

theorem parseAll_total {env : Env} {inputs : List Bytes} (h : ∀ b ∈ inputs, Tolerable env b)
    (i : Nat) : ∃ bad, parseAll env i inputs = .ok (validOf env inputs, bad) := by
  induction inputs generalizing i with
  | nil => exact ⟨[], rfl⟩
  | cons b t ih =>
    obtain ⟨bad, hb⟩ := ih (fun x hx => h x (List.mem_cons_of_mem _ hx)) (i + 1)
    rcases h b List.mem_cons_self with ⟨m, hm⟩ | ⟨e, he, hne⟩
    · exact ⟨bad, by simp [parseAll, hm, hb, validOf, Out.toOption]⟩
    · refine ⟨i :: bad, ?_⟩
      cases e <;> simp_all [parseAll, validOf, Out.toOption]

theorem mergeMsgs_ok_iff {env : Env} {inputs : List Bytes} {R : Msg} :
    (∃ bad, mergeMsgs env inputs = .ok (R, bad)) ↔
      (∀ b ∈ inputs, Tolerable env b) ∧ mergeParsed env (validOf env inputs) = .ok R := by
  unfold mergeMsgs
  constructor
  · rintro ⟨bad, h⟩
    obtain ⟨⟨cs, b⟩, h1, h⟩ := Out.bind_eq_ok.1 h
    obtain ⟨m, h2, h⟩ := Out.bind_eq_ok.1 h
    simp only [Out.ok.injEq, Prod.mk.injEq] at h
    obtain ⟨rfl, rfl⟩ := h
    obtain ⟨rfl, ht⟩ := parseAll_validOf h1
    exact ⟨ht, h2⟩
  · rintro ⟨h1, h2⟩
    obtain ⟨bad, hb⟩ := parseAll_total h1 0
    exact ⟨bad, by rw [hb]; simp [h2]⟩

/-- No two different inputs have the same hash. -/
def NoCollision (env : Env) (inputs : List Bytes) : Prop :=
  ∀ a ∈ inputs, ∀ b ∈ inputs, env.H a = env.H b → a = b

theorem goodBatch_of {env : Env} {inputs : List Bytes} (hc : NoCollision env inputs) :
    GoodBatch (validOf env inputs) := by
  refine ⟨fun a ha b hb e => ?_, fun a ha => ?_, fun a ha => ?_⟩
  · obtain ⟨x, hx, h1⟩ := mem_validOf.1 ha
    obtain ⟨y, hy, h2⟩ := mem_validOf.1 hb
    have e' : a.hash = b.hash := congrArg (fun s : SH => (ofLex s).2) e
    rw [(parseMsg_ok h1).hash, (parseMsg_ok h2).hash] at e'
    rw [hc x hx y hy e'] at h1
    have := h1.symm.trans h2
    simpa using this
  · obtain ⟨x, hx, h1⟩ := mem_validOf.1 ha
    exact fun p hp => ((parseMsg_ok h1).window p hp).2
  · obtain ⟨x, hx, h1⟩ := mem_validOf.1 ha
    exact (parseMsg_ok h1).wf.seq

theorem valid_wf {env : Env} {inputs : List Bytes} : ∀ m ∈ validOf env inputs, MsgWF m := by
  intro m hm
  obtain ⟨b, _, h⟩ := mem_validOf.1 hm
  exact (parseMsg_ok h).wf

theorem valid_hash {env : Env} (hs : env.Sane) {inputs : List Bytes} :
    ∀ m ∈ validOf env inputs, m.hash.length = 32 := by
  intro m hm
  obtain ⟨b, _, h⟩ := mem_validOf.1 hm
  rw [(parseMsg_ok h).hash]; exact hs.hash _

theorem valid_unmerged {env : Env} {inputs : List Bytes} :
    ∀ m ∈ validOf env inputs, m.unmerged = -1 := by
  intro m hm
  obtain ⟨b, _, h⟩ := mem_validOf.1 hm
  exact (parseMsg_ok h).unmerged

/-- If the merge returns, the batch was nonempty and nothing overflowed. -/
theorem mergeParsed_pre {env : Env} {cs : List Msg} {R : Msg} (h : mergeParsed env cs = .ok R) :
    cs ≠ [] ∧ NoOverflow env.lag cs := by
  unfold mergeParsed at h
  split at h
  · cases h
  · rename_i hne
    split at h
    · cases h
    · rename_i ho
      refine ⟨by simpa using hne, fun c hc => ?_⟩
      simp only [List.any_eq_true, not_exists, not_and, Bool.not_eq_true', Bool.not_eq_false] at ho
      exact ho c hc

/-- The same result, up to the index at which an unmerged result was found. -/
def SameResult (a b : Msg) : Prop :=
  a.data = b.data ∧ a.diff = b.diff ∧ a.lagged = b.lagged ∧ a.unknown = b.unknown ∧
    a.seqno = b.seqno ∧ a.hash = b.hash ∧ a.vsig = b.vsig ∧ (a.unmerged = -1 ↔ b.unmerged = -1)

/-- The merge of two batches with the same current messages. -/
theorem mergeParsed_congr_current {env : Env} (hlag : 1 ≤ env.lag) {cs cs' : List Msg}
    (hg : GoodBatch cs) (hg' : GoodBatch cs') (hne' : cs' ≠ []) (ho' : NoOverflow env.lag cs')
    (hcur : ∀ c, Current env.lag cs c ↔ Current env.lag cs' c) {R : Msg}
    (h : mergeParsed env cs = .ok R) :
    ∃ R', mergeParsed env cs' = .ok R' ∧ SameResult R R' := by
  obtain ⟨hne, ho⟩ := mergeParsed_pre h
  obtain ⟨top, ht, hmax, hcase⟩ := mergeParsed_cases hlag hne hg ho
  obtain ⟨top', ht', hmax', hcase'⟩ := mergeParsed_cases hlag hne' hg' ho'
  have c1 := (hcur top).1 (max_current hlag hg ht hmax)
  have c2 := (hcur top').2 (max_current hlag hg' ht' hmax')
  have htt : top = top' := hg.nodupsh _ ht _ c2.1 (le_antisymm (hmax' _ c1.1) (hmax _ c2.1))
  subst htt
  rcases hcase with ⟨h1, i, hi, hR⟩ | ⟨h1, rest, hsort, hR⟩
  · rcases hcase' with ⟨h1', i', hi', hR'⟩ | ⟨h1', rest', hsort', hR'⟩
    · rw [hR] at h; cases h
      refine ⟨_, hR', rfl, rfl, rfl, rfl, rfl, rfl, rfl, ?_⟩
      constructor <;> intro hh <;> simp only at hh <;> omega
    · exfalso
      obtain ⟨hro, c, hc, hcne⟩ := h1'
      rcases h1 with h1 | h1
      · rw [h1] at hro; cases hro
      · exact hcne (h1 c ((hcur c).2 hc))
  · rcases hcase' with ⟨h1', i', hi', hR'⟩ | ⟨h1', rest', hsort', hR'⟩
    · exfalso
      obtain ⟨hro, c, hc, hcne⟩ := h1
      rcases h1' with h1' | h1'
      · rw [h1'] at hro; cases hro
      · exact hcne (h1' c ((hcur c).1 hc))
    · have hs : sortDesc ((kept env.lag cs).map (·.1)) = sortDesc ((kept env.lag cs').map (·.1)) :=
        desc_ext (keptSorted_spec hg).1 (keptSorted_spec hg').1 fun c => by
          rw [(keptSorted_spec hg).2, (keptSorted_spec hg').2, hcur]
      rw [hsort, hsort'] at hs
      have hm : maxSeq cs = maxSeq cs' := by
        rw [← max_seqno_eq hg.range ht hmax, ← max_seqno_eq hg'.range ht' hmax']
      rw [hR] at h
      rw [hm, hs] at h
      exact ⟨R, hR'.trans h, rfl, rfl, rfl, rfl, rfl, rfl, rfl, Iff.rfl⟩

/-- The merge of two batches with the same members. -/
theorem mergeParsed_congr {env : Env} (hlag : 1 ≤ env.lag) {cs cs' : List Msg}
    (hg : GoodBatch cs) (hmem : ∀ c, c ∈ cs ↔ c ∈ cs') {R : Msg}
    (h : mergeParsed env cs = .ok R) :
    ∃ R', mergeParsed env cs' = .ok R' ∧ SameResult R R' := by
  obtain ⟨hne, ho⟩ := mergeParsed_pre h
  have hne' : cs' ≠ [] := by
    obtain ⟨c, hc⟩ := List.exists_mem_of_ne_nil _ hne
    exact List.ne_nil_of_mem ((hmem c).1 hc)
  exact mergeParsed_congr_current hlag hg (hg.congr fun c hc => (hmem c).2 hc) hne'
    (fun c hc => ho c ((hmem c).2 hc)) (Current.congr hmem) h

end Verif
