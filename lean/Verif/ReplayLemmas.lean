import Verif.LeafLemmas
import Verif.MergeLemmas

/-! Helper lemmas: honest diffs, and the replay of diffs in a merge. -/

namespace Verif

/-! ### honest diffs -/

theorem diffSet_self (s : List Scalar) : diffSet s s = ([], []) := by
  induction s with
  | nil => rfl
  | cons a t ih => simp [diffSet, diffSetIns, ih]

theorem diffD_nil_iff {a b : Dict} : (∀ x, mget x (diffD a b) = none) → diffD a b = [] := by
  intro h
  cases hd : diffD a b with
  | nil => rfl
  | cons p t =>
    obtain ⟨k, v⟩ := p
    have := h k
    rw [hd] at this
    simp [mget] at this

mutual
theorem diffV_self : ∀ v : Val, v.typed = true → diffV v v = none
  | .scalar x, _ => by simp [diffV]
  | .set s, _ => by simp [diffV, diffSetOpt, diffSet_self]
  | .dict d, h => by
    simp only [Val.typed] at h
    simp [diffV, diffD_self d h]
theorem diffD_self : ∀ d : Dict, typedD d = true → diffD d d = []
  | [], _ => by simp [diffD, addD]
  | (k, v) :: t, h => by
    obtain ⟨h1, h2, h3⟩ := typedD_cons.1 h
    have a := diffV_self v h1
    have b := diffD_self t h3
    simp [diffD, addD, a, b]
end

theorem subDict_typed {B : Dict} (hB : typedD B = true) (k : Bytes) :
    typedD (subDict (mget k B)) = true := by
  unfold subDict
  split
  · rename_i d h; simpa [Val.typed] using typed_of_mget hB h
  · rfl

/-- The change record for a key that now holds a dict: the changes of that dict, where anything that
was no dict counts as empty. -/
theorem diffAt_dict (o : Option Val) (y : Dict) :
    diffAt o (some (.dict y)) = some (.dict (diffD (subDict o) y)) ∨
    (diffAt o (some (.dict y)) = none ∧ diffD (subDict o) y = []) := by
  rcases o with _ | v
  · left; simp [diffAt, addV, subDict, diffD]
  cases v with
  | scalar _ => left; simp [diffAt, diffV, addV, subDict, diffD]
  | set _ => left; simp [diffAt, diffV, addV, subDict, diffD]
  | dict x =>
    by_cases he : (diffD x y).isEmpty = true
    · right; simpa [diffAt, diffV, subDict] using he
    · left; simpa [diffAt, diffV, subDict] using he

theorem eff_sameAt {B D : Dict} (hB : typedD B = true) (hD : typedD D = true) (p : List Bytes)
    (hp : p ≠ []) (h : sameAt B D p = true) :
    effScalar (diffD B D) D p = none ∧ ∀ x, effMember (diffD B D) D p x = none := by
  induction p generalizing B D with
  | nil => exact absurd rfl hp
  | cons k ps ih =>
    have hk := mget_diffD (typedD_sorted hB) (typedD_sorted hD) k
    have hsame : mget k B = mget k D → mget k (diffD B D) = none := by
      intro e
      rw [hk, e]
      cases hm : mget k D with
      | none => rfl
      | some v => simpa [diffAt] using diffV_self v (typed_of_mget hD hm)
    cases ps with
    | nil =>
      simp only [sameAt, decide_eq_true_eq] at h
      simp [effScalar, effMember, hsame h]
    | cons k2 ps =>
      simp only [sameAt, Bool.or_eq_true, decide_eq_true_eq] at h
      rcases h with h | h
      · simp [effScalar, effMember, hsame h]
      · cases h2 : mget k D with
        | none => simp [h2] at h
        | some w =>
          cases w with
          | scalar _ => simp [h2] at h
          | set _ => simp [h2] at h
          | dict y =>
            simp only [h2] at h
            have hy := typed_of_mget hD h2
            simp only [Val.typed] at hy
            have hx := subDict_typed hB k
            have := ih hx hy (by simp) h
            rw [h2] at hk
            rcases diffAt_dict (mget k B) y with e | ⟨e, _⟩ <;> rw [e] at hk
            · simp only [effScalar, effMember, hk, h2]
              exact this
            · simp [effScalar, effMember, hk]

/-- What an honest change record says about a leaf is what the new content says; if it says nothing
the leaf did not change. -/
theorem eff_diff {B D : Dict} (hB : typedD B = true) (hD : wfD D = true) (p : List Bytes) :
    (∀ v, effScalar (diffD B D) D p = some v → v = scalarAt D p) ∧
    (effScalar (diffD B D) D p = none → scalarAt B p = scalarAt D p) ∧
    (∀ x v, effMember (diffD B D) D p x = some v → v = memberAt D p x) ∧
    (∀ x, effMember (diffD B D) D p x = none → memberAt B p x = memberAt D p x) := by
  have hl := loadD_diff hB (wfD_typed hD)
  have ha := applyD_diff hB hD
  have h1 := scalarAt_applyD p hl hB (wfD_typed hD) ha
  have h2 := fun x => memberAt_applyD p x hl hB (wfD_typed hD) ha
  refine ⟨?_, ?_, ?_, ?_⟩
  · intro v hv; rw [h1, hv]; rfl
  · intro hv; rw [h1, hv]; rfl
  · intro x v hv; rw [h2 x, hv]; rfl
  · intro x hv; rw [h2 x, hv]; rfl

/-! ### the replay map -/

/-- The content and change record that a message holds for history entry `s`: its own change, or one
of its lagged changes. -/
def Msg.entry (m : Msg) (s : SH) : Option (Dict × BtDict) :=
  if s = m.sh then some (m.data, m.diff) else (mget s m.lagged).map fun d => (m.data, d)

theorem foldl_lagged {d : Dict} (l : List (SH × BtDict)) (rp : List (SH × (Dict × BtDict)))
    (hr : KSorted rp) (hl : KSorted l) :
    KSorted (l.foldl (fun rp p => memplace p.1 (d, p.2) rp) rp) ∧
    ∀ s, mget s (l.foldl (fun rp p => memplace p.1 (d, p.2) rp) rp) =
      (mget s rp).or ((mget s l).map fun x => (d, x)) := by
  induction l generalizing rp with
  | nil => exact ⟨hr, fun s => by simp [mget]⟩
  | cons a t ih =>
    obtain ⟨k, v⟩ := a
    obtain ⟨h1, h2⟩ := ih _ (hr.memplace k (d, v)) hl.tail
    refine ⟨h1, fun s => ?_⟩
    simp only [List.foldl_cons]
    rw [h2, mget_memplace hr]
    simp only [mget]
    by_cases hs : s = k
    · subst hs
      have : mget s t = none := mget_none_of_lt fun b hb => hl.head b hb
      simp only [if_true, this, Option.map_none, Option.or_none]
      cases mget s rp <;> simp
    · simp [hs]

theorem addReplay_spec {rp : List (SH × (Dict × BtDict))} (hr : KSorted rp) {m : Msg}
    (hm : KSorted m.lagged) :
    KSorted (addReplay rp m) ∧ ∀ s, mget s (addReplay rp m) = (mget s rp).or (m.entry s) := by
  obtain ⟨h1, h2⟩ := foldl_lagged (d := m.data) m.lagged _ (hr.memplace m.sh (m.data, m.diff)) hm
  refine ⟨h1, fun s => ?_⟩
  unfold addReplay
  rw [h2, mget_memplace hr]
  unfold Msg.entry
  by_cases hs : s = m.sh
  · subst hs
    simp only [if_true]
    cases mget m.sh rp <;> simp
  · simp only [hs, if_false]

theorem foldl_addReplay {ms : List Msg} (hm : ∀ m ∈ ms, KSorted m.lagged)
    (rp : List (SH × (Dict × BtDict))) (hr : KSorted rp) :
    KSorted (ms.foldl addReplay rp) ∧
    ∀ s, mget s (ms.foldl addReplay rp) = (mget s rp).or (ms.findSome? (·.entry s)) := by
  induction ms generalizing rp with
  | nil => exact ⟨hr, by simp⟩
  | cons m t ih =>
    have h0 := addReplay_spec hr (hm m List.mem_cons_self)
    obtain ⟨h1, h2⟩ := ih (fun m hm' => hm m (List.mem_cons_of_mem _ hm')) _ h0.1
    refine ⟨h1, fun s => ?_⟩
    simp only [List.foldl_cons]
    rw [h2, h0.2, List.findSome?_cons]
    cases mget s rp <;> cases m.entry s <;> simp

theorem replayOf_spec {ms : List Msg} (hm : ∀ m ∈ ms, KSorted m.lagged) :
    KSorted (replayOf ms) ∧ ∀ s, mget s (replayOf ms) = ms.findSome? (·.entry s) := by
  have := foldl_addReplay hm [] (by simp)
  refine ⟨this.1, fun s => ?_⟩
  have h := this.2 s
  simp only [mget, Option.none_or] at h
  exact h

/-! ### applying the replay -/

/-- What a replay list says last about a leaf. -/
def lastScalar (p : List Bytes) : List (SH × (Dict × BtDict)) → Option (Option Scalar)
  | [] => none
  | (_, (src, df)) :: t => (lastScalar p t).or (effScalar df src p)

/-- A notion of the proofs: what the last diff that says anything about the element says. -/
def lastMember (p : List Bytes) (x : Scalar) : List (SH × (Dict × BtDict)) → Option Bool
  | [] => none
  | (_, (src, df)) :: t => (lastMember p x t).or (effMember df src p x)

theorem applyReplay_spec {rp : List (SH × (Dict × BtDict))} {d r : Dict} (hd : typedD d = true)
    (hr : ∀ e ∈ rp, typedD e.2.1 = true ∧ loadD none e.2.2 = .ok e.2.2)
    (h : applyReplay rp d = .ok r) :
    typedD r = true ∧ (∀ p, scalarAt r p = (lastScalar p rp).getD (scalarAt d p)) ∧
      ∀ p x, memberAt r p x = (lastMember p x rp).getD (memberAt d p x) := by
  induction rp generalizing d with
  | nil =>
    simp only [applyReplay, Out.ok.injEq] at h; subst h
    exact ⟨hd, fun p => rfl, fun p x => rfl⟩
  | cons a t ih =>
    obtain ⟨s, src, df⟩ := a
    simp only [applyReplay] at h
    obtain ⟨d1, h1, h⟩ := Out.bind_eq_ok.1 h
    obtain ⟨e1, e2⟩ := hr _ List.mem_cons_self
    have ht := applyD_typed df d src d1 hd e1 h1
    obtain ⟨a1, a2, a3⟩ := ih ht (fun e he => hr e (List.mem_cons_of_mem _ he)) h
    refine ⟨a1, fun p => ?_, fun p x => ?_⟩
    · rw [a2, scalarAt_applyD p e2 hd e1 h1]
      simp only [lastScalar]
      cases lastScalar p t <;> simp
    · rw [a3, memberAt_applyD p x e2 hd e1 h1]
      simp only [lastMember]
      cases lastMember p x t <;> simp

theorem lastScalar_eq_none {p : List Bytes} {rp : List (SH × (Dict × BtDict))} :
    lastScalar p rp = none ↔ ∀ e ∈ rp, effScalar e.2.2 e.2.1 p = none := by
  induction rp with
  | nil => simp [lastScalar]
  | cons a t ih =>
    obtain ⟨s, src, df⟩ := a
    simp only [lastScalar, Option.or_eq_none_iff, ih, List.mem_cons, forall_eq_or_imp]
    tauto

theorem lastMember_eq_none {p : List Bytes} {x : Scalar} {rp : List (SH × (Dict × BtDict))} :
    lastMember p x rp = none ↔ ∀ e ∈ rp, effMember e.2.2 e.2.1 p x = none := by
  induction rp with
  | nil => simp [lastMember]
  | cons a t ih =>
    obtain ⟨s, src, df⟩ := a
    simp only [lastMember, Option.or_eq_none_iff, ih, List.mem_cons, forall_eq_or_imp]
    tauto

/-- The last word on a leaf is that of the highest entry that says anything. -/
theorem lastScalar_eq {p : List Bytes} {rp : List (SH × (Dict × BtDict))} (hs : KSorted rp)
    {s : SH} {src : Dict} {df : BtDict} (h : (s, (src, df)) ∈ rp) {v : Option Scalar}
    (hv : effScalar df src p = some v)
    (hh : ∀ e ∈ rp, s < e.1 → effScalar e.2.2 e.2.1 p = none) : lastScalar p rp = some v := by
  induction rp with
  | nil => simp at h
  | cons a t ih =>
    obtain ⟨s', src', df'⟩ := a
    simp only [lastScalar]
    rcases List.mem_cons.1 h with he | he
    · cases he
      rw [lastScalar_eq_none.2 fun e he => hh e (List.mem_cons_of_mem _ he) (hs.head e he), hv]
      rfl
    · rw [ih hs.tail he fun e he => hh e (List.mem_cons_of_mem _ he)]; rfl

theorem lastMember_eq {p : List Bytes} {x : Scalar} {rp : List (SH × (Dict × BtDict))}
    (hs : KSorted rp) {s : SH} {src : Dict} {df : BtDict} (h : (s, (src, df)) ∈ rp) {v : Bool}
    (hv : effMember df src p x = some v)
    (hh : ∀ e ∈ rp, s < e.1 → effMember e.2.2 e.2.1 p x = none) : lastMember p x rp = some v := by
  induction rp with
  | nil => simp at h
  | cons a t ih =>
    obtain ⟨s', src', df'⟩ := a
    simp only [lastMember]
    rcases List.mem_cons.1 h with he | he
    · cases he
      rw [lastMember_eq_none.2 fun e he => hh e (List.mem_cons_of_mem _ he) (hs.head e he), hv]
      rfl
    · rw [ih hs.tail he fun e he => hh e (List.mem_cons_of_mem _ he)]; rfl

/-! ### when applying cannot fail -/

/-- A notion of the proofs: an element `get_bt_scalar` accepts (src/config.cpp:159-181). -/
def scalarBtOk : Bt → Bool
  | .int i => int64Ok i
  | .str _ => true
  | _ => false

mutual
/-- Every element listed in a set change is a string or a 64-bit integer. -/
def elemsOk : Bt → Bool
  | .int _ => true
  | .str _ => true
  | .list l => l.all fun b => match b with
    | .list e => e.all scalarBtOk
    | _ => false
  | .dict d => elemsOkD d
termination_by structural x => x
/-- `elemsOk` for the entries of a dict. -/
def elemsOkD : List (Bytes × Bt) → Bool
  | [] => true
  | (_, v) :: t => elemsOk v && elemsOkD t
termination_by structural x => x
end

theorem btScalar_some {b : Bt} (h : scalarBtOk b = true) : ∃ x, btScalar b = .ok (some x) := by
  cases b with
  | int i => simp only [scalarBtOk] at h; exact ⟨.int i, by simp [btScalar, h]⟩
  | str s => exact ⟨.str s, rfl⟩
  | list l => simp [scalarBtOk] at h
  | dict l => simp [scalarBtOk] at h

theorem addAll_total {l : List Bt} (h : l.all scalarBtOk = true) (s : List Scalar) :
    ∃ r, addAll l s = .ok r := by
  induction l generalizing s with
  | nil => exact ⟨s, rfl⟩
  | cons b t ih =>
    simp only [List.all_cons, Bool.and_eq_true] at h
    obtain ⟨x, hx⟩ := btScalar_some h.1
    simp only [addAll, hx]
    exact ih h.2 _

theorem delAll_total {l : List Bt} (h : l.all scalarBtOk = true) (s : List Scalar) :
    ∃ r, delAll l s = .ok r := by
  induction l generalizing s with
  | nil => exact ⟨s, rfl⟩
  | cons b t ih =>
    simp only [List.all_cons, Bool.and_eq_true] at h
    obtain ⟨x, hx⟩ := btScalar_some h.1
    simp only [delAll, hx]
    exact ih h.2 _

mutual
theorem applyV_total : ∀ (b : Bt), loadV b = .ok b → elemsOk b = true → ∀ (c s : Option Val),
    ∃ r, applyV b c s = .ok r
  | .int i, h, _, _, _ => by simp [loadV] at h
  | .str t, h, _, c, s => by
    simp only [loadV] at h
    split at h
    · rename_i ht
      simp only [Bool.or_eq_true, decide_eq_true_eq] at ht
      simp only [applyV]
      rcases s with _ | (d | z | x)
      · exact ⟨_, rfl⟩
      · exact ⟨_, rfl⟩
      · exact ⟨_, rfl⟩
      · rcases ht with rfl | rfl
        · exact ⟨_, rfl⟩
        · exact ⟨_, rfl⟩
    · cases h
  | .list l, h, he, c, s => by
    obtain ⟨a, r, rfl⟩ := loadV_list h
    simp only [elemsOk, List.all_cons, List.all_nil, Bool.and_true, Bool.and_eq_true] at he
    simp only [applyV, setDiffParts]
    rcases s with _ | (d | z | x)
    · exact ⟨_, rfl⟩
    · exact ⟨_, rfl⟩
    · obtain ⟨s1, h1⟩ := addAll_total he.1 (curSet c)
      obtain ⟨s2, h2⟩ := delAll_total he.2 s1
      exact ⟨some (.set s2), by simp [h1, h2]⟩
    · exact ⟨_, rfl⟩
  | .dict dd, h, he, c, s => by
    have hl := loadV_dict h
    simp only [elemsOk] at he
    simp only [applyV]
    rcases s with _ | (d | z | x)
    · exact ⟨_, rfl⟩
    · obtain ⟨r, hr⟩ := applyD_total dd (fun p hp => by
        have := loadD_mem hl (mget_of_mem (loadD_sorted hl) hp); exact this) he (curDict c) d
      exact ⟨some (.dict r), by simp [hr]⟩
    · exact ⟨_, rfl⟩
    · exact ⟨_, rfl⟩
theorem applyD_total : ∀ (df : BtDict), (∀ p ∈ df, loadV p.2 = .ok p.2) → elemsOkD df = true → ∀ (data src : Dict),
    ∃ r, applyD df data src = .ok r
  | [], _, _, data, src => ⟨data, rfl⟩
  | (k, v) :: t, hl, he, data, src => by
    simp only [elemsOkD, Bool.and_eq_true] at he
    obtain ⟨o, ho⟩ := applyV_total v (hl (k, v) List.mem_cons_self) he.1 (mget k data) (mget k src)
    obtain ⟨r, hr⟩ := applyD_total t
      (fun p hp => hl p (List.mem_cons_of_mem _ hp)) he.2 (mset k o data) src
    exact ⟨r, by simp [applyD, ho, hr]⟩
end

theorem applyD_total' {df : BtDict} (hl : loadD none df = .ok df) (he : elemsOkD df = true)
    (data src : Dict) : ∃ r, applyD df data src = .ok r :=
  applyD_total df
    (fun _ hp => loadD_mem hl (mget_of_mem (loadD_sorted hl) hp)) he data src

theorem elemsOkD_iff {d : BtDict} : elemsOkD d = true ↔ ∀ p ∈ d, elemsOk p.2 = true := by
  induction d with
  | nil => simp [elemsOkD]
  | cons a t ih => obtain ⟨k, v⟩ := a; simp [elemsOkD, ih]

theorem scalarBtOk_map {l : List Scalar} (h : l.all Scalar.ok = true) :
    (l.map Scalar.bt).all scalarBtOk = true := by
  rw [List.all_eq_true]
  intro b hb
  obtain ⟨x, hx, rfl⟩ := List.mem_map.1 hb
  have := List.all_eq_true.1 h x hx
  cases x <;> simp_all [Scalar.bt, scalarBtOk, Scalar.ok]

theorem elemsOk_setDiff {p : List Scalar × List Scalar} (h1 : p.1.all Scalar.ok = true)
    (h2 : p.2.all Scalar.ok = true) : elemsOk (setDiffBt p) = true := by
  simp [setDiffBt, elemsOk, scalarBtOk_map h1, scalarBtOk_map h2, -List.all_map]

mutual
theorem elemsOk_addV : ∀ v : Val, v.typed = true → elemsOk (addV v) = true
  | .scalar x, _ => rfl
  | .set s, h => by
    simp only [Val.typed, Bool.and_eq_true] at h
    exact elemsOk_setDiff h.2 rfl
  | .dict d, h => by
    simp only [Val.typed] at h
    simp only [addV, elemsOk]; exact elemsOk_addD d h
theorem elemsOk_addD : ∀ d : Dict, typedD d = true → elemsOkD (addD d) = true
  | [], _ => rfl
  | (k, v) :: t, h => by
    obtain ⟨h1, _, h3⟩ := typedD_cons.1 h
    simp [addD, elemsOkD, elemsOk_addV v h1, elemsOk_addD t h3]
end

mutual
theorem elemsOk_delV : ∀ v : Val, v.typed = true → elemsOk (delV v) = true
  | .scalar x, _ => rfl
  | .set s, h => by
    simp only [Val.typed, Bool.and_eq_true] at h
    exact elemsOk_setDiff rfl h.2
  | .dict d, h => by
    simp only [Val.typed] at h
    simp only [delV, elemsOk]; exact elemsOk_delD d h
theorem elemsOk_delD : ∀ d : Dict, typedD d = true → elemsOkD (delD d) = true
  | [], _ => rfl
  | (k, v) :: t, h => by
    obtain ⟨h1, _, h3⟩ := typedD_cons.1 h
    simp [delD, elemsOkD, elemsOk_delV v h1, elemsOk_delD t h3]
end

mutual
theorem elemsOk_diffV : ∀ (o n : Val) (v : Bt), o.typed = true → n.typed = true →
    diffV o n = some v → elemsOk v = true
  | .scalar a, n, v, _, hn, h => by
    cases n with
    | scalar b =>
      simp only [diffV] at h; split at h
      · cases h; rfl
      · cases h
    | set b => simp only [diffV] at h; cases h; exact elemsOk_addV _ hn
    | dict b => simp only [diffV] at h; cases h; exact elemsOk_addV _ hn
  | .set a, n, v, ho, hn, h => by
    cases n with
    | scalar b => simp only [diffV] at h; cases h; exact elemsOk_addV _ hn
    | dict b => simp only [diffV] at h; cases h; exact elemsOk_addV _ hn
    | set b =>
      simp only [diffV, diffSetOpt] at h
      simp only [Val.typed, Bool.and_eq_true] at ho hn
      split at h
      · cases h
      · cases h
        have hsub := diffSet_sublist a b
        exact elemsOk_setDiff
          (List.all_eq_true.2 fun x hx => List.all_eq_true.1 hn.2 x (hsub.1.subset hx))
          (List.all_eq_true.2 fun x hx => List.all_eq_true.1 ho.2 x (hsub.2.subset hx))
  | .dict a, n, v, ho, hn, h => by
    cases n with
    | scalar b => simp only [diffV] at h; cases h; exact elemsOk_addV _ hn
    | set b => simp only [diffV] at h; cases h; exact elemsOk_addV _ hn
    | dict b =>
      simp only [Val.typed] at ho hn
      simp only [diffV] at h
      split at h
      · cases h
      · cases h
        simp only [elemsOk]
        exact elemsOk_diffD a b ho hn
theorem elemsOk_diffD : ∀ (old new : Dict), typedD old = true → typedD new = true →
    elemsOkD (diffD old new) = true
  | [], new, _, hn => by simp only [diffD]; exact elemsOk_addD new hn
  | (k, o) :: old, new, ho, hn => by
    obtain ⟨h1, _, h3⟩ := typedD_cons.1 ho
    have hsub : ∀ n', List.Sublist n' new → typedD n' = true := fun n' hs =>
      typedD_iff.2 ⟨List.Pairwise.sublist hs (typedD_iff.1 hn).1,
        fun b hb => (typedD_iff.1 hn).2 b (hs.subset hb)⟩
    have ih := fun n' (hs : List.Sublist n' new) => elemsOk_diffD old n' h3 (hsub n' hs)
    have ihv := fun n v => elemsOk_diffV o n v h1
    have hdel := elemsOk_delV o h1
    have happ : ∀ a b : BtDict, elemsOkD a = true → elemsOkD b = true → elemsOkD (a ++ b) = true := by
      intro a b ha hb
      rw [elemsOkD_iff] at *
      intro p hp
      rcases List.mem_append.1 hp with hp | hp
      · exact ha p hp
      · exact hb p hp
    simp only [diffD]
    refine happ _ _ (elemsOk_addD _ (hsub _ (List.takeWhile_sublist _))) ?_
    split
    · simp [elemsOkD, hdel, ih [] (List.nil_sublist _)]
    · rename_i k' n rest e
      have hs : List.Sublist ((k', n) :: rest) new := e ▸ List.dropWhile_sublist _
      have hs' : List.Sublist rest new := (List.sublist_cons_self _ _).trans hs
      have hnt : n.typed = true := (typedD_iff.1 hn).2 _ (hs.subset List.mem_cons_self)
      split
      · simp [elemsOkD, hdel, ih _ hs]
      · split
        · exact ih _ hs'
        · rename_i b hb
          simp [elemsOkD, ihv n b hnt hb, ih _ hs']
end

theorem applyReplay_total {rp : List (SH × (Dict × BtDict))}
    (h : ∀ e ∈ rp, loadD none e.2.2 = .ok e.2.2 ∧ elemsOkD e.2.2 = true) (d : Dict) :
    ∃ r, applyReplay rp d = .ok r := by
  induction rp generalizing d with
  | nil => exact ⟨d, rfl⟩
  | cons a t ih =>
    obtain ⟨s, src, df⟩ := a
    obtain ⟨h1, h2⟩ := h _ List.mem_cons_self
    obtain ⟨d1, hd1⟩ := applyD_total' h1 h2 d src
    obtain ⟨r, hr⟩ := ih (fun e he => h e (List.mem_cons_of_mem _ he)) d1
    exact ⟨r, by simp only [applyReplay, hd1, Out.bind_ok, hr]⟩

end Verif
