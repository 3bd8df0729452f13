import Verif.Props.Wire

/-! # Properties of diffs (C09-C11, C23) -/

namespace Verif

/-! ## C09 -/

/-- C09.  Applying the diff between an old content and a new one to the old one, with the new one as
the source of values, gives the new one, for all contents. -/
theorem diff_then_apply {old new : Dict} (ho : typedD old = true) (hn : typedD new = true) :
    applyD (diffD old (pruneD new)) old (pruneD new) = .ok (pruneD new) :=
  applyD_diff ho (pruneD_wf hn)

/-- C09 for a modified config: the diff it publishes, applied to the content it started from, yields
the content it publishes. -/
theorem published_diff_replays {env : Env} (hs : env.Sane) {c : Conf} (hc : Made env c) {o : Dict}
    (ho : c.orig = some o) :
    applyD c.refresh.m.diff o c.refresh.m.data = .ok c.refresh.m.data := by
  have hw := hc.wf hs
  obtain ⟨m, o'⟩ := c
  cases ho
  exact diff_then_apply (wfD_typed (hw.orig o rfl)) hw.data

example : Made exEnv exConf2 ∧ exConf2.orig ≠ some exConf2.m.data ∧ exConf2.refresh.m.diff.length = 2 :=
  ⟨exConf2_made, by decide, by decide⟩

/-! ## C10 -/

/-- C10.  The published diff is empty exactly when the (pruned) content is unchanged. -/
theorem diff_empty_iff {old new : Dict} (ho : wfD old = true) (hn : typedD new = true) :
    diffD old (pruneD new) = [] ↔ pruneD new = old := by
  constructor
  · intro h
    have := diff_then_apply (wfD_typed ho) hn
    rw [h] at this
    simp only [applyD, Out.ok.injEq] at this
    exact this.symm
  · intro h
    rw [h]; exact diffD_self old (wfD_typed ho)

/-- C10 for a modified config. -/
theorem published_diff_empty_iff {env : Env} (hs : env.Sane) {c : Conf} (hc : Made env c) {o : Dict}
    (ho : c.orig = some o) : c.refresh.m.diff = [] ↔ c.refresh.m.data = o := by
  have hw := hc.wf hs
  obtain ⟨m, o'⟩ := c
  cases ho
  exact diff_empty_iff (hw.orig o rfl) hw.data

/-- Both sides occur. -/
example : exConf2.refresh.m.diff ≠ [] ∧ (exConf.increment exEnv).refresh.m.diff = [] ∧
    Made exEnv (exConf.increment exEnv) :=
  ⟨by decide, by decide, Made.increment exConf_made (by decide)⟩

/-! ## C11 -/

/-- C11.  The diff between a valid content and any content passes the validation other clients apply,
has only elements they can apply, and computing it never touches an empty optional (the two ways the
code could fail). -/
theorem diff_accepted {old new : Dict} (ho : wfD old = true) (hn : typedD new = true) :
    loadD none (diffD old (pruneD new)) = .ok (diffD old (pruneD new)) ∧
      diffUb old (pruneD new) = false ∧
      ∀ data src, ∃ r, applyD (diffD old (pruneD new)) data src = .ok r := by
  have hp := pruneD_wf hn
  have hl := loadD_diff (wfD_typed ho) (wfD_typed hp)
  simp only [wfD, Bool.and_eq_true] at ho hp
  exact ⟨hl, diffUb_false _ _ ho.2 hp.2, fun data src =>
    applyD_total' hl (elemsOk_diffD old _ ho.1 hp.1) data src⟩

/-- Pruning is needed for that: with an empty dict left in, the computation would be undefined. -/
example : diffUb [] exData = true ∧ wfD ([] : Dict) = true ∧ typedD exData = true ∧
    diffUb [] (pruneD exData) = false := by decide

/-! ## C23 -/

/-- C23.  The diff says nothing about entries that did not change: at every path where the old and the
new content agree, applying it to *any* third content leaves that content's scalar and set elements
alone. -/
theorem diff_touches_only_changes {old new data r : Dict} (ho : wfD old = true)
    (hn : typedD new = true) (hd : typedD data = true)
    (hr : applyD (diffD old (pruneD new)) data (pruneD new) = .ok r)
    {p : List Bytes} (hp : p ≠ []) (hsame : sameAt old (pruneD new) p = true) :
    scalarAt r p = scalarAt data p ∧ ∀ x, memberAt r p x = memberAt data p x := by
  have hw := pruneD_wf hn
  have hl := loadD_diff (wfD_typed ho) (wfD_typed hw)
  obtain ⟨e1, e2⟩ := eff_sameAt (wfD_typed ho) (wfD_typed hw) p hp hsame
  refine ⟨?_, fun x => ?_⟩
  · rw [scalarAt_applyD p hl hd (wfD_typed hw) hr, e1]; rfl
  · rw [memberAt_applyD p x hl hd (wfD_typed hw) hr, e2 x]; rfl

/-- C23, other direction: at every path, whatever the third content, the result has either the third
content's leaf or the new one's, and the latter whenever old and new differ there. -/
theorem diff_carries_changes {old new data r : Dict} (ho : wfD old = true)
    (hn : typedD new = true) (hd : typedD data = true)
    (hr : applyD (diffD old (pruneD new)) data (pruneD new) = .ok r) (p : List Bytes) :
    (scalarAt old p ≠ scalarAt (pruneD new) p → scalarAt r p = scalarAt (pruneD new) p) ∧
    (∀ x, memberAt old p x ≠ memberAt (pruneD new) p x →
      memberAt r p x = memberAt (pruneD new) p x) := by
  have hw := pruneD_wf hn
  have hl := loadD_diff (wfD_typed ho) (wfD_typed hw)
  obtain ⟨e1, e2, e3, e4⟩ := eff_diff (wfD_typed ho) hw p
  refine ⟨fun hne => ?_, fun x hne => ?_⟩
  · rw [scalarAt_applyD p hl hd (wfD_typed hw) hr]
    cases h : effScalar (diffD old (pruneD new)) (pruneD new) p with
    | none => exact absurd (e2 h) hne
    | some v => exact e1 v h
  · rw [memberAt_applyD p x hl hd (wfD_typed hw) hr]
    cases h : effMember (diffD old (pruneD new)) (pruneD new) p x with
    | none => exact absurd (e4 x h) hne
    | some v => exact e3 x v h

example : sameAt exData [([97], .scalar (.int 5)), ([98], .set [.int 2])] [[97]] = true ∧
    sameAt exData [([97], .scalar (.int 5)), ([98], .set [.int 2])] [[98]] = false := by decide

end Verif
