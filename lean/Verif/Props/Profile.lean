import Verif.Profile
import Verif.Props.Contacts

/-!
# User profile: C50
-/

namespace Verif

/-- Everything a `UserProfile` shows. -/
structure Profile where
  /-- empty: no name -/
  name : Bytes
  /-- URL and key; a picture needs both -/
  pic : Bytes × Bytes
  /-- priority of the "note to self" conversation -/
  priority : Int
  /-- disappearing messages timer of "note to self", in seconds -/
  expiry : Option Int
  /-- accept message requests from blinded ids? -/
  msgreqs : Option Bool
deriving DecidableEq, Repr

/-- The getters, together. -/
def Client.profile (c : Client) : Profile :=
  { name := c.getName, pic := c.getPic, priority := c.getNtsPriority, expiry := c.getNtsExpiry,
    msgreqs := c.getMsgreqs }

theorem profile_congr {c c' : Client} (h : ∀ k ∈ [[110], [112], [113], [43], [101], [77]],
    c'.get [k] = c.get [k]) : c'.profile = c.profile := by
  simp only [List.mem_cons, List.not_mem_nil, or_false, forall_eq_or_imp, forall_eq] at h
  obtain ⟨h1, h2, h3, h4, h5, h6⟩ := h
  unfold Client.profile Client.getName Client.getPic Client.getNtsPriority Client.getNtsExpiry
    Client.getMsgreqs Client.strAt Client.intAt
  rw [h1, h2, h3, h4, h5, h6]

theorem top_not_nested {k k' : Bytes} (h : k ≠ k') : ¬ Nested [k] [k'] :=
  not_nested_snoc (p := []) h

/-- C50.  Each setter changes what its getter returns to the value set, and no other part of the
profile. -/
theorem profile_set {S : Sys} (hS : S.Good) {c c' : Client} (hc : Reach S c) :
    (∀ n, c.setName S n = (c', .ok ()) → c'.profile = { c.profile with name := n }) ∧
    (∀ u k, c.setPic S u k = (c', .ok ()) →
      c'.profile = { c.profile with pic := if u ≠ [] ∧ k.length = 32 then (u, k) else ([], []) }) ∧
    (∀ i, int32Ok i = true → c.setNtsPriority S i = (c', .ok ()) →
      c'.profile = { c.profile with priority := i }) ∧
    (∀ i, int64Ok i = true → c.setNtsExpiry S i = (c', .ok ()) →
      c'.profile = { c.profile with expiry := if i > 0 then some i else none }) ∧
    (∀ b, c.setMsgreqs S b = (c', .ok ()) → c'.profile = { c.profile with msgreqs := b }) := by
  have one : ∀ (k : Bytes) (v : Option Val), wfO v = true → c.write S [k] v = (c', .ok ()) →
      c'.get [k] = v ∧ ∀ k', k' ≠ k → c'.get [k'] = c.get [k'] := by
    intro k v hv h
    obtain ⟨h1, h2, _⟩ := write_get hS hc (by simp) hv h
    exact ⟨h1, fun k' hk' => h2 _ (top_not_nested (Ne.symm hk'))⟩
  refine ⟨fun n h => ?_, fun u k h => ?_, fun i hi h => ?_, fun i hi h => ?_, fun b h => ?_⟩
  · unfold Client.setName at h
    rw [setNonempty_eq] at h
    obtain ⟨h1, h2⟩ := one _ _ (wfO_nestr n) h
    unfold Client.profile Client.getName Client.getPic Client.getNtsPriority Client.getNtsExpiry
      Client.getMsgreqs Client.strAt Client.intAt
    rw [h1, h2 [112] (by decide), h2 [113] (by decide), h2 [43] (by decide), h2 [101] (by decide),
      h2 [77] (by decide)]
    have : (strOf (fStr n)).getD [] = n := by
      unfold fStr; by_cases hn : n = [] <;> simp [hn, strOf]
    rw [this]
  · unfold Client.setPic at h
    have hw : ∀ w ∈ [([[112]], fIf (picOk u k) (.str u)), ([[113]], fIf (picOk u k) (.str k))],
        w.1 ≠ ([] : List Bytes) ∧ wfO w.2 = true := by
      simp only [List.mem_cons, List.not_mem_nil, or_false, forall_eq_or_imp, forall_eq]
      exact ⟨⟨by simp, wfO_if _ rfl⟩, by simp, wfO_if _ rfl⟩
    obtain ⟨_, h1, h2⟩ := writeAll_get hS _ hc hw
      (by simp only [List.pairwise_cons, List.mem_cons, List.not_mem_nil, or_false, forall_eq,
            List.Pairwise.nil, and_true, false_imp_iff, implies_true]
          exact top_not_nested (by decide)) h
    have g1 := h1 ([[112]], fIf (picOk u k) (.str u)) (by simp)
    have g2 := h1 ([[113]], fIf (picOk u k) (.str k)) (by simp)
    have h2' : ∀ k', k' ≠ [112] → k' ≠ [113] → c'.get [k'] = c.get [k'] := by
      intro k' a b
      refine h2 _ ?_
      simp only [List.mem_cons, List.not_mem_nil, or_false, forall_eq_or_imp, forall_eq]
      exact ⟨top_not_nested (Ne.symm a), top_not_nested (Ne.symm b)⟩
    unfold Client.profile Client.getName Client.getPic Client.getNtsPriority Client.getNtsExpiry
      Client.getMsgreqs Client.strAt Client.intAt
    simp only at g1 g2
    rw [g1, g2, h2' [110] (by decide) (by decide), h2' [43] (by decide) (by decide),
      h2' [101] (by decide) (by decide), h2' [77] (by decide) (by decide)]
    by_cases hp : u ≠ [] ∧ k.length = 32
    · have : picOk u k = true := by simp [picOk, hp]
      simp [this, fIf, strOf, hp]
    · have : picOk u k = false := by
        rw [picOk, Bool.and_eq_false_iff]
        by_cases hu : u = []
        · left; simp [hu]
        · right; simpa using fun hk => hp ⟨hu, hk⟩
      simp only [this, fIf, Bool.false_eq_true, if_false, strOf, Option.getD_none, if_neg hp]
  · unfold Client.setNtsPriority at h
    rw [setNonzero_eq] at h
    obtain ⟨h1, h2⟩ := one _ _ (wfO_nonzero (int32_int64 hi)) h
    unfold Client.profile Client.getName Client.getPic Client.getNtsPriority Client.getNtsExpiry
      Client.getMsgreqs Client.strAt Client.intAt
    rw [h1, h2 [112] (by decide), h2 [113] (by decide), h2 [110] (by decide), h2 [101] (by decide),
      h2 [77] (by decide)]
    have : (intOf (fNonzero i)).getD 0 = i := by
      unfold fNonzero; by_cases hn : i = 0 <;> simp [hn, intOf]
    rw [this, toInt32_of_ok hi]
  · unfold Client.setNtsExpiry at h
    rw [setPositive_eq] at h
    obtain ⟨h1, h2⟩ := one _ _ (wfO_pos hi) h
    unfold Client.profile Client.getName Client.getPic Client.getNtsPriority Client.getNtsExpiry
      Client.getMsgreqs Client.strAt Client.intAt
    rw [h1, h2 [112] (by decide), h2 [113] (by decide), h2 [110] (by decide), h2 [43] (by decide),
      h2 [77] (by decide)]
    unfold fPos
    by_cases hn : i > 0
    · simp only [if_pos hn, intOf]
    · simp only [if_neg hn, intOf]
  · unfold Client.setMsgreqs at h
    have hw : wfO (b.map fun b => Val.scalar (.int (if b then 1 else 0))) = true := by
      cases b with
      | none => rfl
      | some b => cases b <;> rfl
    obtain ⟨h1, h2⟩ := one _ _ hw h
    unfold Client.profile Client.getName Client.getPic Client.getNtsPriority Client.getNtsExpiry
      Client.getMsgreqs Client.strAt Client.intAt
    rw [h1, h2 [112] (by decide), h2 [113] (by decide), h2 [110] (by decide), h2 [43] (by decide),
      h2 [101] (by decide)]
    cases b with
    | none => rfl
    | some b => cases b <;> rfl

theorem scalars_eq {c c' : Client} {p : List Bytes}
    (h : scalarAt c'.conf.m.data p = scalarAt c.conf.m.data p) :
    intOf (c'.get p) = intOf (c.get p) ∧ strOf (c'.get p) = strOf (c.get p) := by
  rw [scalarAt_eq, scalarAt_eq] at h
  unfold Client.get
  generalize valAt c.conf.m.data p = v at *
  generalize valAt c'.conf.m.data p = w at *
  rcases v with _ | (_ | _ | _ | _) <;> rcases w with _ | (_ | _ | _ | _) <;>
    simp_all [intOf, strOf]

/-- C50.  The profile on the other device, after delivery (as in C34), is the profile that was
pushed. -/
theorem profile_delivered {S : Sys} (hS : S.Good) {sg : Option (Bytes → Bytes)}
    (hS' : (S.as sg).Good) {c r : Client} (hc : Reach S c) (hr : Reach (S.as sg) r) {s : Int}
    {m : Bytes} {obs : List Bytes} (hp : (c.push S).2 = .ok (s, m, obs)) (hs : s ≠ 0)
    (hk : r.keys.head? = c.keys.head?) (hst : r.st ≠ .dirty)
    (hknown : r.seqno = 0 ∨
      ∀ M, parseMsg S.env false (c.plain S) = .ok M → Supersedes (S.as sg) M r)
    (hnc : S.env.H (c.plain S) = S.env.H (r.plain (S.as sg)) → c.plain S = r.plain (S.as sg))
    (hov : int64Ok (s + S.env.lag) = true) (h : Bytes)
    {r' : Client} {res : Out (List Bytes)} (hm : r.merge (S.as sg) [(h, m)] = (r', res)) :
    r'.profile = c.profile := by
  obtain ⟨_, _, h3, _⟩ := fields_delivered hS hS' hc hr hp hs hk hst hknown hnc hov h hm
  have key : ∀ p, intOf (r'.get p) = intOf (c.get p) ∧ strOf (r'.get p) = strOf (c.get p) := by
    intro p
    exact scalars_eq (h3 p)
  unfold Client.profile Client.getName Client.getPic Client.getNtsPriority Client.getNtsExpiry
    Client.getMsgreqs Client.strAt Client.intAt
  simp only [(key _).1, (key _).2]

/-- A profile set up field by field on a published object. -/
example :
    let a := (exC3.setName exSys [65]).1
    let b := (a.setPic exSys [104] (List.replicate 32 9)).1
    let c := (b.setNtsPriority exSys (-1)).1
    let d := (c.setMsgreqs exSys (some false)).1
    let e := (d.setNtsExpiry exSys 60).1
    e.profile = ⟨[65], ([104], List.replicate 32 9), -1, some 60, some false⟩ ∧
      (e.setPic exSys [104] [9]).1.profile = ⟨[65], ([], []), -1, some 60, some false⟩ ∧
      (e.setPic exSys [104] [9]).2 = .ok () := by decide +kernel

end Verif
