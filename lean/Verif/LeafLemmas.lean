import Verif.Spec
import Verif.DataLemmas

/-! Helper lemmas: leaves determine contents; what pruning, applying and diffing do to leaves. -/

namespace Verif

/-! ### paths -/

theorem scalarAt_nil (p : List Bytes) : scalarAt [] p = none := by
  rcases p with _ | ⟨k, _ | ⟨k2, ps⟩⟩ <;> simp [scalarAt, mget]

theorem memberAt_nil (p : List Bytes) (x : Scalar) : memberAt [] p x = false := by
  rcases p with _ | ⟨k, _ | ⟨k2, ps⟩⟩ <;> simp [memberAt, mget]

/-- The leaves below a value. -/
def Val.hasLeaf (v : Val) (ps : List Bytes) : Prop :=
  match ps with
  | [] => (∃ x, v = .scalar x) ∨ ∃ s x, v = .set s ∧ x ∈ s
  | k :: ps => ∃ d, v = .dict d ∧ (scalarAt d (k :: ps) ≠ none ∨ ∃ x, memberAt d (k :: ps) x = true)

mutual
theorem full_hasLeaf : ∀ v : Val, v.full = true → ∃ ps, v.hasLeaf ps
  | .scalar x, _ => ⟨[], .inl ⟨x, rfl⟩⟩
  | .set s, h => by
    cases s with
    | nil => simp [Val.full] at h
    | cons a t => exact ⟨[], .inr ⟨a :: t, a, rfl, List.mem_cons_self⟩⟩
  | .dict d, h => by
    simp only [Val.full, Bool.and_eq_true, Bool.not_eq_true', List.isEmpty_eq_false_iff] at h
    obtain ⟨k, ps, hh⟩ := fullD_hasLeaf d h.1 h.2
    exact ⟨k :: ps, d, rfl, hh⟩
theorem fullD_hasLeaf : ∀ d : Dict, d ≠ [] → prunedD d = true → ∃ k ps,
    scalarAt d (k :: ps) ≠ none ∨ ∃ x, memberAt d (k :: ps) x = true
  | [], h, _ => absurd rfl h
  | (k, v) :: t, _, h => by
    simp only [prunedD, Bool.and_eq_true] at h
    obtain ⟨ps, hv⟩ := full_hasLeaf v h.1
    refine ⟨k, ps, ?_⟩
    cases ps with
    | nil =>
      rcases hv with ⟨x, rfl⟩ | ⟨s, x, rfl, hx⟩
      · left; simp [scalarAt, mget]
      · right; exact ⟨x, by simp [memberAt, mget, hx]⟩
    | cons k2 ps =>
      obtain ⟨e, rfl, he⟩ := hv
      simp only [scalarAt, memberAt, mget, if_true]
      exact he
end

theorem dict_ext_step {a b : Dict} (ha : wfD a = true) (hb : wfD b = true)
    (hs : ∀ p, scalarAt a p = scalarAt b p) (hm : ∀ p x, memberAt a p x = memberAt b p x)
    (ih : ∀ k x y, mget k a = some (.dict x) → mget k b = some (.dict y) →
      (∀ p, scalarAt x p = scalarAt y p) → (∀ p z, memberAt x p z = memberAt y p z) → x = y)
    (k : Bytes) : mget k a = mget k b := by
  have sub : ∀ x y, mget k a = some (.dict x) → mget k b = some (.dict y) → x = y := by
    intro x y h1 h2
    refine ih k x y h1 h2 ?_ ?_
    · intro p
      cases p with
      | nil => rfl
      | cons k2 ps => have := hs (k :: k2 :: ps); simpa [scalarAt, h1, h2] using this
    · intro p z
      cases p with
      | nil => rfl
      | cons k2 ps => have := hm (k :: k2 :: ps) z; simpa [memberAt, h1, h2] using this
  -- a leaf below `k` on one side shows up on the other
  have leaf : ∀ (c d : Dict) (v : Val), wfD c = true → mget k c = some v →
      (∀ p, scalarAt c p = scalarAt d p) → (∀ p x, memberAt c p x = memberAt d p x) →
      ∃ w, mget k d = some w ∧ (match v, w with
        | .scalar x, .scalar y => x = y
        | .set _, .set _ => True
        | .dict _, .dict _ => True
        | _, _ => False) := by
    intro c d v hc hv hs hm
    have hw := wf_of_mget hc hv
    simp only [Val.wf, Bool.and_eq_true] at hw
    obtain ⟨ps, hp⟩ := full_hasLeaf v hw.2
    cases ps with
    | nil =>
      rcases hp with ⟨x, rfl⟩ | ⟨s, x, rfl, hx⟩
      · have := hs [k]
        simp only [scalarAt, hv] at this
        cases hd : mget k d with
        | none => simp [hd] at this
        | some w => cases w <;> simp [hd] at this ⊢; exact this
      · have := hm [k] x
        simp only [memberAt, hv, hx, decide_true] at this
        cases hd : mget k d with
        | none => simp [hd] at this
        | some w => cases w <;> simp [hd] at this ⊢
    | cons k2 ps =>
      obtain ⟨e, rfl, he⟩ := hp
      rcases he with he | ⟨x, he⟩
      · have := hs (k :: k2 :: ps)
        simp only [scalarAt, hv] at this
        cases hd : mget k d with
        | none => simp only [hd] at this; exact absurd this he
        | some w =>
          cases w with
          | dict f => exact ⟨_, rfl, trivial⟩
          | _ => simp only [hd] at this; exact absurd this he
      · have := hm (k :: k2 :: ps) x
        simp only [memberAt, hv] at this
        rw [he] at this
        cases hd : mget k d with
        | none => simp [hd] at this
        | some w => cases w <;> simp [hd] at this ⊢
  cases h1 : mget k a with
  | none =>
    cases h2 : mget k b with
    | none => rfl
    | some w =>
      obtain ⟨v, hv, _⟩ := leaf b a w hb h2 (fun p => (hs p).symm) fun p x => (hm p x).symm
      rw [h1] at hv; cases hv
  | some v =>
    obtain ⟨w, hw, hvw⟩ := leaf a b v ha h1 hs hm
    rw [hw]
    cases v with
    | scalar x => cases w <;> simp at hvw ⊢; exact hvw
    | dict x => cases w <;> simp at hvw ⊢; exact sub _ _ h1 hw
    | set s =>
      cases w <;> simp at hvw ⊢
      rename_i s'
      have hw1 := wf_of_mget ha h1
      have hw2 := wf_of_mget hb hw
      refine set_ext (wf_set.1 hw1).2.1 (wf_set.1 hw2).2.1 fun x => ?_
      have := hm [k] x
      simp only [memberAt, h1, hw] at this
      simpa using this

mutual
theorem dict_extV : ∀ (v : Val) (x y : Dict), v = .dict x → wfD x = true → wfD y = true →
    (∀ p, scalarAt x p = scalarAt y p) → (∀ p z, memberAt x p z = memberAt y p z) → x = y
  | .dict d, x, y, h, hx, hy, hs, hm => by
    cases h
    refine map_ext (wfD_sorted hx) (wfD_sorted hy)
      (dict_ext_step hx hy hs hm fun k x' y' h1 h2 a b => ?_)
    exact dict_extD d k _ h1 x' y' rfl (wf_dict.1 (wf_of_mget hx h1)).2
      (wf_dict.1 (wf_of_mget hy h2)).2 a b
  | .set s, x, y, h, _, _, _, _ => by cases h
  | .scalar s, x, y, h, _, _, _, _ => by cases h
theorem dict_extD : ∀ (d : Dict) (k : Bytes) (v : Val), mget k d = some v →
    ∀ (x y : Dict), v = .dict x → wfD x = true → wfD y = true →
    (∀ p, scalarAt x p = scalarAt y p) → (∀ p z, memberAt x p z = memberAt y p z) → x = y
  | [], k, v, h => by simp [mget] at h
  | (k', w) :: t, k, v, h => by
    have h1 := dict_extV w
    have h2 := dict_extD t
    simp only [mget] at h
    split at h
    · cases h; exact h1
    · exact h2 k v h
end

/-- Contents (as they appear in messages) with the same leaves are equal. -/
theorem content_ext {a b : Dict} (ha : wfD a = true) (hb : wfD b = true)
    (hs : ∀ p, scalarAt a p = scalarAt b p) (hm : ∀ p x, memberAt a p x = memberAt b p x) :
    a = b := dict_extV (.dict a) a b rfl ha hb hs hm

/-! ### pruning -/

theorem scalarAt_pruneD (p : List Bytes) (d : Dict) (h : typedD d = true) :
    scalarAt (pruneD d) p = scalarAt d p := by
  induction p generalizing d with
  | nil => rfl
  | cons k ps ih =>
    have hg := mget_pruneD (typedD_sorted h) k
    cases ps with
    | nil =>
      simp only [scalarAt, hg]
      cases hd : mget k d with
      | none => rfl
      | some v => cases v <;> simp [Val.prune, Val.emptyVal]
    | cons k2 ps =>
      simp only [scalarAt, hg]
      cases hd : mget k d with
      | none => rfl
      | some v =>
        cases v with
        | scalar x => simp [Val.prune, Val.emptyVal]
        | set s => simp [Val.prune, Val.emptyVal]
        | dict e =>
          have he := ih e (by have := typed_of_mget h hd; simpa [Val.typed] using this)
          have hz' : (Val.dict e).prune.emptyVal = (pruneD e).isEmpty := rfl
          simp only [Option.bind_some]
          by_cases hz : (pruneD e).isEmpty = true
          · rw [if_pos (by rw [hz']; exact hz)]
            rw [List.isEmpty_iff] at hz
            rw [hz, scalarAt_nil] at he
            simpa using he
          · rw [if_neg (by rw [hz']; exact hz)]; exact he

theorem memberAt_pruneD (p : List Bytes) (d : Dict) (h : typedD d = true) (x : Scalar) :
    memberAt (pruneD d) p x = memberAt d p x := by
  induction p generalizing d with
  | nil => rfl
  | cons k ps ih =>
    have hg := mget_pruneD (typedD_sorted h) k
    cases ps with
    | nil =>
      simp only [memberAt, hg]
      cases hd : mget k d with
      | none => rfl
      | some v =>
        cases v <;> simp [Val.prune, Val.emptyVal]
        rename_i s
        cases s <;> simp
    | cons k2 ps =>
      simp only [memberAt, hg]
      cases hd : mget k d with
      | none => rfl
      | some v =>
        cases v with
        | scalar x => simp [Val.prune, Val.emptyVal]
        | set s => simp [Val.prune, Val.emptyVal]
        | dict e =>
          have he := ih e (by have := typed_of_mget h hd; simpa [Val.typed] using this)
          have hz' : (Val.dict e).prune.emptyVal = (pruneD e).isEmpty := rfl
          simp only [Option.bind_some]
          by_cases hz : (pruneD e).isEmpty = true
          · rw [if_pos (by rw [hz']; exact hz)]
            rw [List.isEmpty_iff] at hz
            rw [hz, memberAt_nil] at he
            simpa using he
          · rw [if_neg (by rw [hz']; exact hz)]; exact he

/-! ### applying keeps the C++ typing invariants -/

theorem mset_typed {d : Dict} (h : typedD d = true) {k : Bytes} {v : Option Val}
    (hv : ∀ w, v = some w → w.typed = true) : typedD (mset k v d) = true := by
  have hs := typedD_sorted h
  refine typedD_iff.2 ⟨mset_sorted hs k v, ?_⟩
  rintro ⟨k', w⟩ hw
  have := mget_of_mem (mset_sorted hs k v) hw
  rw [mget_mset hs] at this
  split at this
  · exact hv w this
  · exact typed_of_mget h this

theorem addAll_ok {l : List Bt} {s r : List Scalar} (hs : SSorted s) (ho : s.all Scalar.ok = true)
    (h : addAll l s = .ok r) : SSorted r ∧ r.all Scalar.ok = true ∧
      ∀ x, x ∈ r ↔ x.bt ∈ l ∨ x ∈ s := by
  induction l generalizing s with
  | nil => simp only [addAll, Out.ok.injEq] at h; subst h; exact ⟨hs, ho, by simp⟩
  | cons b t ih =>
    simp only [addAll] at h
    split at h
    · rename_i y hy
      have hyb : b = y.bt ∧ y.ok = true := by
        cases b <;> simp only [btScalar] at hy
        · split at hy
          · rename_i hi; cases hy; exact ⟨rfl, hi⟩
          · cases hy
        · cases hy; exact ⟨rfl, rfl⟩
        · cases hy
        · cases hy
      have ho' : (sput y s).all Scalar.ok = true := by
        rw [List.all_eq_true]
        intro x hx
        rcases (mem_sput).1 hx with rfl | hx
        · exact hyb.2
        · exact List.all_eq_true.1 ho x hx
      obtain ⟨a1, a2, a3⟩ := ih (hs.sput y) ho' h
      refine ⟨a1, a2, fun x => ?_⟩
      rw [a3, mem_sput, List.mem_cons, hyb.1]
      constructor
      · rintro (h | rfl | h) <;> tauto
      · rintro ((h | h) | h)
        · exact .inr (.inl (Scalar.bt_inj h))
        · exact .inl h
        · exact .inr (.inr h)
    all_goals cases h

theorem delAll_ok {l : List Bt} {s r : List Scalar} (hs : SSorted s) (ho : s.all Scalar.ok = true)
    (h : delAll l s = .ok r) : SSorted r ∧ r.all Scalar.ok = true ∧
      ∀ x, x ∈ r ↔ x.bt ∉ l ∧ x ∈ s := by
  induction l generalizing s with
  | nil => simp only [delAll, Out.ok.injEq] at h; subst h; exact ⟨hs, ho, by simp⟩
  | cons b t ih =>
    simp only [delAll] at h
    split at h
    · rename_i y hy
      have hyb : b = y.bt := by
        cases b <;> simp only [btScalar] at hy
        · split at hy
          · cases hy; rfl
          · cases hy
        · cases hy; rfl
        · cases hy
        · cases hy
      have ho' : (sdel y s).all Scalar.ok = true := by
        rw [List.all_eq_true]
        intro x hx
        exact List.all_eq_true.1 ho x ((sdel_sublist y s).subset hx)
      obtain ⟨a1, a2, a3⟩ := ih (hs.sdel y) ho' h
      refine ⟨a1, a2, fun x => ?_⟩
      rw [a3, mem_sdel hs, List.mem_cons, hyb, not_or]
      constructor
      · rintro ⟨h1, h2, h3⟩; exact ⟨⟨fun h => h2 (Scalar.bt_inj h), h1⟩, h3⟩
      · rintro ⟨⟨h1, h2⟩, h3⟩; exact ⟨h2, fun h => h1 (h ▸ rfl), h3⟩
    all_goals cases h

theorem curDict_typed {c : Option Val} (h : ∀ w, c = some w → w.typed = true) :
    typedD (curDict c) = true := by
  rcases c with _ | (d | s | x)
  · rfl
  · have := h _ rfl; simpa [Val.typed, curDict] using this
  · rfl
  · rfl

theorem curSet_typed {c : Option Val} (h : ∀ w, c = some w → w.typed = true) :
    SSorted (curSet c) ∧ (curSet c).all Scalar.ok = true := by
  rcases c with _ | (d | s | x)
  · exact ⟨by simp [curSet, SSorted], rfl⟩
  · exact ⟨by simp [curSet, SSorted], rfl⟩
  · have := h _ rfl; simpa [Val.typed, curSet] using this
  · exact ⟨by simp [curSet, SSorted], rfl⟩

mutual
theorem applyV_typed : ∀ (b : Bt) (c s : Option Val) (r : Option Val),
    (∀ w, c = some w → w.typed = true) → (∀ w, s = some w → w.typed = true) →
    applyV b c s = .ok r → ∀ w, r = some w → w.typed = true
  | .str t, c, s, r, hc, hs, h => by
    simp only [applyV] at h
    split at h
    · split at h
      · cases h; simp
      · split at h
        · cases h; rintro w ⟨⟩; exact hs _ rfl
        · cases h
    · cases h; simp
  | .int i, c, s, r, hc, hs, h => by
    simp only [applyV] at h
    split at h
    · cases h; simp
    · cases h
  | .list l, c, s, r, hc, hs, h => by
    simp only [applyV] at h
    split at h
    · split at h
      · cases h
      · obtain ⟨s1, h1, h⟩ := Out.bind_eq_ok.1 h
        obtain ⟨s2, h2, h⟩ := Out.bind_eq_ok.1 h
        cases h
        rintro w ⟨⟩
        obtain ⟨a1, a2, _⟩ := addAll_ok (curSet_typed hc).1 (curSet_typed hc).2 h1
        obtain ⟨b1, b2, _⟩ := delAll_ok a1 a2 h2
        simp [Val.typed, b1, b2]
    · cases h; simp
  | .dict dd, c, s, r, hc, hs, h => by
    simp only [applyV] at h
    split at h
    · rename_i sd
      obtain ⟨x, hx, h⟩ := Out.bind_eq_ok.1 h
      cases h
      rintro w ⟨⟩
      have hsd := hs _ rfl
      simp only [Val.typed] at hsd ⊢
      exact applyD_typed dd _ _ _ (curDict_typed hc) hsd hx
    · cases h; simp
theorem applyD_typed : ∀ (df : BtDict) (data src r : Dict), typedD data = true →
    typedD src = true → applyD df data src = .ok r → typedD r = true
  | [], data, src, r, hd, hs, h => by
    simp only [applyD, Out.ok.injEq] at h; subst h; exact hd
  | (k, v) :: t, data, src, r, hd, hs, h => by
    simp only [applyD] at h
    obtain ⟨o, ho, h⟩ := Out.bind_eq_ok.1 h
    have h1 := applyV_typed v _ _ o (fun w hw => typed_of_mget hd hw)
      (fun w hw => typed_of_mget hs hw) ho
    exact applyD_typed t _ _ _ (mset_typed hd h1) hs h
end

/-! ### what applying a diff does to the leaves -/

theorem loadD_mem {df : BtDict} {last : Option Bytes} (h : loadD last df = .ok df) {k : Bytes}
    {v : Bt} (hk : mget k df = some v) : loadV v = .ok v := by
  induction df generalizing last with
  | nil => simp [mget] at hk
  | cons a t ih =>
    obtain ⟨k', w⟩ := a
    simp only [loadD] at h
    split at h
    · cases h
    · obtain ⟨x, hx, h⟩ := Out.bind_eq_ok.1 h
      obtain ⟨y, hy, h⟩ := Out.bind_eq_ok.1 h
      simp only [Out.ok.injEq, List.cons.injEq, Prod.mk.injEq, true_and] at h
      obtain ⟨rfl, rfl⟩ := h
      simp only [mget] at hk
      split at hk
      · cases hk; exact hx
      · exact ih hy hk

theorem loadV_dict {d : BtDict} (h : loadV (.dict d) = .ok (.dict d)) : loadD none d = .ok d := by
  simp only [loadV] at h
  obtain ⟨x, hx, h⟩ := Out.bind_eq_ok.1 h
  cases h; exact hx

theorem loadV_list {l : List Bt} (h : loadV (.list l) = .ok (.list l)) :
    ∃ a r, l = [.list a, .list r] := by
  simp only [loadV] at h
  split at h
  · cases h
  · rename_i hl
    obtain ⟨_, hx, _⟩ := Out.bind_eq_ok.1 h
    rcases l with _ | ⟨a, _ | ⟨b, _ | ⟨c, t⟩⟩⟩ <;> simp at hl
    simp only [checkSubs] at hx
    obtain ⟨_, h1, hx⟩ := Out.bind_eq_ok.1 hx
    obtain ⟨_, h2, hx⟩ := Out.bind_eq_ok.1 hx
    cases a <;> simp [checkSub] at h1
    cases b <;> simp [checkSub] at h2
    exact ⟨_, _, rfl⟩

theorem loadD_sorted {df : BtDict} (h : loadD none df = .ok df) : KSorted df :=
  (loadD_ok df none df h).2.1

theorem scalarAt_applyD (p : List Bytes) {df : BtDict} {data src r : Dict}
    (hl : loadD none df = .ok df) (hd : typedD data = true) (hs : typedD src = true)
    (h : applyD df data src = .ok r) :
    scalarAt r p = (effScalar df src p).getD (scalarAt data p) := by
  induction p generalizing df data src r with
  | nil => rfl
  | cons k ps ih =>
    have hsp := (applyD_spec (loadD_sorted hl) (typedD_sorted hd) h).2 k
    cases hk : mget k df with
    | none =>
      rw [hk] at hsp
      cases ps with
      | nil => simp [scalarAt, effScalar, hk, hsp]
      | cons k2 ps => simp [scalarAt, effScalar, hk, hsp]
    | some v =>
      rw [hk] at hsp
      simp only at hsp
      have hlv := loadD_mem hl hk
      cases v with
      | int i => simp [loadV] at hlv
      | str s =>
        simp only [applyV] at hsp
        cases hsrc : mget k src with
        | none =>
          rw [hsrc] at hsp
          simp only [Out.ok.injEq] at hsp
          cases ps <;> simp [scalarAt, effScalar, hk, ← hsp, hsrc]
        | some w =>
          rw [hsrc] at hsp
          cases w with
          | dict _ =>
            simp only [Out.ok.injEq] at hsp
            cases ps <;> simp [scalarAt, effScalar, hk, ← hsp, hsrc]
          | set _ =>
            simp only [Out.ok.injEq] at hsp
            cases ps <;> simp [scalarAt, effScalar, hk, ← hsp, hsrc]
          | scalar x =>
            simp only at hsp
            split at hsp
            · rename_i hs1
              simp only [Out.ok.injEq] at hsp
              cases ps <;> simp [scalarAt, effScalar, hk, ← hsp, hsrc, hs1]
            · rename_i hs1
              split at hsp
              · simp only [Out.ok.injEq] at hsp
                cases ps <;> simp [scalarAt, effScalar, hk, ← hsp, hsrc, hs1]
              · cases hsp
      | list l =>
        simp only [applyV] at hsp
        have : ∃ o : Option Val, mget k r = o ∧ (o = none ∨ ∃ s, o = some (.set s)) := by
          refine ⟨_, rfl, ?_⟩
          split at hsp
          · split at hsp
            · cases hsp
            · obtain ⟨s1, h1, h2⟩ := Out.bind_eq_ok.1 hsp
              obtain ⟨s2, h3, h4⟩ := Out.bind_eq_ok.1 h2
              simp only [Out.ok.injEq] at h4
              exact .inr ⟨s2, h4.symm⟩
          · simp only [Out.ok.injEq] at hsp; exact .inl hsp.symm
        obtain ⟨o, ho, hcase⟩ := this
        rcases hcase with rfl | ⟨s, rfl⟩ <;> cases ps <;> simp [scalarAt, effScalar, hk, ho]
      | dict dd =>
        simp only [applyV] at hsp
        have hdd := loadV_dict hlv
        cases hsrc : mget k src with
        | none =>
          rw [hsrc] at hsp
          simp only [Out.ok.injEq] at hsp
          cases ps <;> simp [scalarAt, effScalar, hk, ← hsp, hsrc]
        | some w =>
          rw [hsrc] at hsp
          cases w with
          | set _ =>
            simp only [Out.ok.injEq] at hsp
            cases ps <;> simp [scalarAt, effScalar, hk, ← hsp, hsrc]
          | scalar _ =>
            simp only [Out.ok.injEq] at hsp
            cases ps <;> simp [scalarAt, effScalar, hk, ← hsp, hsrc]
          | dict sd =>
            simp only at hsp
            obtain ⟨x, hx, h2⟩ := Out.bind_eq_ok.1 hsp
            simp only [Out.ok.injEq] at h2
            cases ps with
            | nil => simp [scalarAt, effScalar, hk, ← h2]
            | cons k2 ps =>
              have hsd := typed_of_mget hs hsrc
              simp only [Val.typed] at hsd
              have := ih hdd (curDict_typed fun w hw => typed_of_mget hd hw) hsd hx
              simp only [scalarAt, effScalar, hk, ← h2, hsrc, this]
              cases hc : mget k data with
              | none => simp [curDict, scalarAt_nil]
              | some c => cases c <;> simp [curDict, scalarAt_nil]

theorem memberAt_applyD (p : List Bytes) (x : Scalar) {df : BtDict} {data src r : Dict}
    (hl : loadD none df = .ok df) (hd : typedD data = true) (hs : typedD src = true)
    (h : applyD df data src = .ok r) :
    memberAt r p x = (effMember df src p x).getD (memberAt data p x) := by
  induction p generalizing df data src r with
  | nil => rfl
  | cons k ps ih =>
    have hsp := (applyD_spec (loadD_sorted hl) (typedD_sorted hd) h).2 k
    cases hk : mget k df with
    | none =>
      rw [hk] at hsp
      cases ps with
      | nil => simp [memberAt, effMember, hk, hsp]
      | cons k2 ps => simp [memberAt, effMember, hk, hsp]
    | some v =>
      rw [hk] at hsp
      simp only at hsp
      have hlv := loadD_mem hl hk
      cases v with
      | int i => simp [loadV] at hlv
      | str s =>
        simp only [applyV] at hsp
        have : ∃ o : Option Val, mget k r = o ∧ (o = none ∨ ∃ s, o = some (.scalar s)) := by
          refine ⟨_, rfl, ?_⟩
          split at hsp
          · split at hsp
            · simp only [Out.ok.injEq] at hsp; exact .inl hsp.symm
            · split at hsp
              · simp only [Out.ok.injEq] at hsp; exact .inr ⟨_, hsp.symm⟩
              · cases hsp
          · simp only [Out.ok.injEq] at hsp; exact .inl hsp.symm
        obtain ⟨o, ho, hcase⟩ := this
        rcases hcase with rfl | ⟨s, rfl⟩ <;> cases ps <;> simp [memberAt, effMember, hk, ho]
      | list l =>
        obtain ⟨add, del, rfl⟩ := loadV_list hlv
        simp only [applyV, setDiffParts] at hsp
        cases hsrc : mget k src with
        | none =>
          rw [hsrc] at hsp
          simp only [Out.ok.injEq] at hsp
          cases ps <;> simp [memberAt, effMember, hk, ← hsp, hsrc]
        | some w =>
          rw [hsrc] at hsp
          cases w with
          | dict _ =>
            simp only [Out.ok.injEq] at hsp
            cases ps <;> simp [memberAt, effMember, hk, ← hsp, hsrc]
          | scalar _ =>
            simp only [Out.ok.injEq] at hsp
            cases ps <;> simp [memberAt, effMember, hk, ← hsp, hsrc]
          | set ss =>
            simp only at hsp
            obtain ⟨s1, h1, h2⟩ := Out.bind_eq_ok.1 hsp
            obtain ⟨s2, h3, h4⟩ := Out.bind_eq_ok.1 h2
            simp only [Out.ok.injEq] at h4
            have hc := curSet_typed (c := mget k data) fun w hw => typed_of_mget hd hw
            obtain ⟨a1, a2, a3⟩ := addAll_ok hc.1 hc.2 h1
            obtain ⟨b1, b2, b3⟩ := delAll_ok a1 a2 h3
            cases ps with
            | cons k2 ps => simp [memberAt, effMember, hk, ← h4]
            | nil =>
              have hcur : memberAt data [k] x = true ↔ x ∈ curSet (mget k data) := by
                cases hm : mget k data with
                | none => simp [curSet, memberAt, hm]
                | some c => cases c <;> simp [curSet, memberAt, hm]
              have hr : memberAt r [k] x = true ↔ x ∈ s2 := by simp [memberAt, ← h4]
              rw [Bool.eq_iff_iff, hr, b3, a3]
              by_cases hx1 : x.bt ∈ del
              · simp [effMember, hk, hsrc, hx1]
              · by_cases hx2 : x.bt ∈ add
                · simp [effMember, hk, hsrc, hx1, hx2]
                · simp [effMember, hk, hsrc, hx1, hx2, hcur]
      | dict dd =>
        simp only [applyV] at hsp
        have hdd := loadV_dict hlv
        cases hsrc : mget k src with
        | none =>
          rw [hsrc] at hsp
          simp only [Out.ok.injEq] at hsp
          cases ps <;> simp [memberAt, effMember, hk, ← hsp, hsrc]
        | some w =>
          rw [hsrc] at hsp
          cases w with
          | set _ =>
            simp only [Out.ok.injEq] at hsp
            cases ps <;> simp [memberAt, effMember, hk, ← hsp, hsrc]
          | scalar _ =>
            simp only [Out.ok.injEq] at hsp
            cases ps <;> simp [memberAt, effMember, hk, ← hsp, hsrc]
          | dict sd =>
            simp only at hsp
            obtain ⟨y, hx, h2⟩ := Out.bind_eq_ok.1 hsp
            simp only [Out.ok.injEq] at h2
            cases ps with
            | nil => simp [memberAt, effMember, hk, ← h2]
            | cons k2 ps =>
              have hsd := typed_of_mget hs hsrc
              simp only [Val.typed] at hsd
              have := ih hdd (curDict_typed fun w hw => typed_of_mget hd hw) hsd hx
              simp only [memberAt, effMember, hk, ← h2, hsrc, this]
              cases hc : mget k data with
              | none => simp [curDict, memberAt_nil]
              | some c => cases c <;> simp [curDict, memberAt_nil]

end Verif
