import Verif.Neat
import Verif.Props.ClientNet

/-!
# Field accessors: C43 - C45
-/

namespace Verif

/-- What the getters of a field proxy look at (include/session/config/base.hpp:236-289,434-560). -/
def Client.get (c : Client) (p : List Bytes) : Option Val := valAt c.conf.m.data p

/-! ### Modifications are edits -/

theorem modify_fst {S : Sys} {c : Client} {f : Dict → Dict} (h : (c.modify S f).2 ≠ .ok ()) :
    (c.modify S f).1 = c := by
  unfold Client.modify at h ⊢
  by_cases hk : (c.dirty S).2 = .ok ()
  · rw [edit_eq_ok hk] at h; exact absurd rfl h
  · rw [edit_eq_err hk]
    rcases dirty_fst (S := S) (c := c) with h1 | ⟨_, _, h2, _⟩
    · exact h1
    · exact absurd h2 hk

theorem modify_ok {S : Sys} (hS : S.Good) {c c' : Client} (hr : Reach S c) {f : Dict → Dict}
    (hf : ∀ d, typedD d = true → typedD (f d) = true) (h : c.modify S f = (c', .ok ())) :
    Reach S c' ∧ c'.conf.m.data = f c.conf.m.data ∧ c'.st = .dirty := by
  have hi := hr.inv hS
  have hd := dirty_data hi (hr.neat hS)
  have hk : (c.dirty S).2 = .ok () := by
    by_contra hk
    unfold Client.modify at h
    rw [edit_eq_err hk] at h
    rw [h] at hk; exact hk rfl
  have hstep : Step S c (c.modify S f).1 := by
    unfold Client.modify
    refine .edit c _ (hf _ ?_) ?_
    · rw [hd]; exact hi.wf.data
    · rw [edit_eq_ok hk]; rfl
  have hr' := hr.step hstep
  rw [h] at hr'
  refine ⟨hr', ?_⟩
  unfold Client.modify at h
  rw [edit_eq_ok hk] at h
  have := (Prod.mk.inj h).1
  subst this
  exact ⟨by simp only [hd], (dirty_ok hk).1⟩

/-! ### C43: reading after writing -/

/-- C43.  After erasing a field it has no value; nothing else changes. -/
theorem erase_get {S : Sys} (hS : S.Good) {c c' : Client} (hr : Reach S c) {p : List Bytes}
    (h : c.erase S p = (c', .ok ())) :
    c'.get p = none ∧ (∀ q, ¬ Nested p q → c'.get q = c.get q) ∧ Reach S c' := by
  unfold Client.erase at h
  split at h
  · rename_i hc
    cases h
    exact ⟨hc.2, fun _ _ => rfl, hr⟩
  · obtain ⟨h1, h2, _⟩ := modify_ok hS hr (fun d hd => delAt_typed p hd) h
    have ht := (hr.inv hS).wf.data
    unfold Client.get
    rw [h2]
    exact ⟨valAt_delAt_self p ht, fun q hq => valAt_delAt_other p q ht hq, h1⟩

/-- C43.  After assigning a (non-empty) value to a field it has that value, whatever was there or on
the way before; nothing else changes. -/
theorem assign_get {S : Sys} (hS : S.Good) {c c' : Client} (hr : Reach S c) {p : List Bytes}
    (hp : p ≠ []) {v : Val} (hv : v.wf = true) (h : c.assign S p v = (c', .ok ())) :
    c'.get p = some v ∧ (∀ q, ¬ Nested p q → c'.get q = c.get q) ∧ Reach S c' := by
  unfold Client.assign at h
  simp only [Val.wf, Bool.and_eq_true] at hv
  rw [if_neg (by rw [full_not_empty hv.2]; simp)] at h
  split at h
  · rename_i hc
    cases h
    exact ⟨hc.2, fun _ _ => rfl, hr⟩
  · obtain ⟨h1, h2, _⟩ := modify_ok hS hr (fun d hd => putAt_typed hv.1 p hd) h
    have ht := (hr.inv hS).wf.data
    unfold Client.get
    rw [h2]
    exact ⟨valAt_putAt_self v p ht hp, fun q hq => valAt_putAt_other v p q ht hq, h1⟩

/-- C43.  Assigning an empty set or dict is erasing. -/
theorem assign_empty {S : Sys} {c : Client} {p : List Bytes} {v : Val} (hv : v.emptyVal = true) :
    c.assign S p v = c.erase S p := by
  unfold Client.assign; rw [if_pos hv]

theorem curSet_mem_typed {d : Dict} (h : typedD d = true) (p : List Bytes) :
    SSorted (curSet (valAt d p)) := (curSet_typed (c := valAt d p) fun _ hw => valAt_typed p h hw).1

/-- C43.  Inserting into a set adds exactly that element; nothing else changes. -/
theorem set_insert_get {S : Sys} (hS : S.Good) {c c' : Client} (hr : Reach S c) {p : List Bytes}
    (hp : p ≠ []) {x : Scalar} (hx : x.ok = true) (h : c.setInsert S p x = (c', .ok ())) :
    (∀ y, memberAt c'.conf.m.data p y = (decide (y = x) || memberAt c.conf.m.data p y)) ∧
      (∀ q, ¬ Nested p q → c'.get q = c.get q) ∧ Reach S c' := by
  unfold Client.setInsert at h
  split at h
  · rename_i hc
    cases h
    refine ⟨fun y => ?_, fun _ _ => rfl, hr⟩
    by_cases hy : y = x
    · subst hy; simp [hc.2]
    · simp [hy]
  · obtain ⟨h1, h2, _⟩ := modify_ok hS hr (fun d hd => insAt_typed hd p hx) h
    have ht := (hr.inv hS).wf.data
    unfold Client.get
    rw [h2]
    refine ⟨fun y => ?_, fun q hq => valAt_putAt_other _ p q ht hq, h1⟩
    rw [memberAt_eq, memberAt_eq]
    unfold insAt
    rw [valAt_putAt_self _ p ht hp]
    generalize curSet (valAt c.conf.m.data p) = s
    show decide (y ∈ sput x s) = _
    simp only [mem_sput, Bool.decide_or]

/-- C43.  Erasing from a set removes exactly that element; nothing else changes. -/
theorem set_erase_get {S : Sys} (hS : S.Good) {c c' : Client} (hr : Reach S c) {p : List Bytes}
    (hp : p ≠ []) {x : Scalar} (h : c.setErase S p x = (c', .ok ())) :
    (∀ y, memberAt c'.conf.m.data p y = (!decide (y = x) && memberAt c.conf.m.data p y)) ∧
      (∀ q, ¬ Nested p q → c'.get q = c.get q) ∧ Reach S c' := by
  have ht := (hr.inv hS).wf.data
  have key : ∀ c' : Client, c'.conf.m.data = remAt c.conf.m.data p x →
      (∀ y, memberAt c'.conf.m.data p y = (!decide (y = x) && memberAt c.conf.m.data p y)) ∧
      (∀ q, ¬ Nested p q → c'.get q = c.get q) := by
    intro c' h2
    unfold Client.get
    rw [h2]
    unfold remAt
    refine ⟨fun y => ?_, fun q hq => ?_⟩
    · rw [memberAt_eq, memberAt_eq]
      cases hv : valAt c.conf.m.data p with
      | none => simp [hv, curSet]
      | some v =>
        cases v with
        | dict e => simp [valAt_putAt_self _ p ht hp, curSet]
        | scalar e => simp [valAt_putAt_self _ p ht hp, curSet]
        | set s =>
          have hs : SSorted s := by
            have := curSet_mem_typed ht p; rw [hv] at this; exact this
          simp only [valAt_putAt_self _ p ht hp, curSet, mem_sdel hs]
          by_cases hy : y = x <;> by_cases hys : y ∈ s <;> simp [hy, hys]
    · split
      · rfl
      · exact valAt_putAt_other _ p q ht hq
      · exact valAt_putAt_other _ p q ht hq
  have mod : c.modify S (fun d => remAt d p x) = (c', .ok ()) →
      (∀ y, memberAt c'.conf.m.data p y = (!decide (y = x) && memberAt c.conf.m.data p y)) ∧
      (∀ q, ¬ Nested p q → c'.get q = c.get q) ∧ Reach S c' := by
    intro h
    obtain ⟨h1, h2, _⟩ := modify_ok hS hr (fun d hd => remAt_typed hd p x) h
    obtain ⟨k1, k2⟩ := key c' h2
    exact ⟨k1, k2, h1⟩
  unfold Client.setErase at h
  split at h
  · rename_i s hs
    split at h
    · rename_i hc
      cases h
      refine ⟨fun y => ?_, fun _ _ => rfl, hr⟩
      by_cases hy : y = x
      · subst hy; rw [memberAt_eq, hs]; simp [curSet, hc.2]
      · simp [hy]
    · exact mod h
  · exact mod h

/-- The four ways of modifying a field. -/
inductive FieldOp where
  | assign (v : Val)
  | erase
  | insert (x : Scalar)
  | remove (x : Scalar)

/-- Perform a field operation. -/
def Client.field (S : Sys) (c : Client) (p : List Bytes) : FieldOp → Client × Out Unit
  | .assign v => c.assign S p v
  | .erase => c.erase S p
  | .insert x => c.setInsert S p x
  | .remove x => c.setErase S p x

/-- Either nothing at all happens, or the object is modified. -/
theorem field_cases (S : Sys) (c : Client) (p : List Bytes) (op : FieldOp) :
    (c.field S p op = (c, .ok ()) ∧ c.st ≠ .dirty) ∨ ∃ f, c.field S p op = c.modify S f := by
  cases op with
  | assign v =>
    simp only [Client.field, Client.assign, Client.erase]
    split
    · split
      · rename_i h; exact .inl ⟨rfl, h.1⟩
      · exact .inr ⟨_, rfl⟩
    · split
      · rename_i h; exact .inl ⟨rfl, h.1⟩
      · exact .inr ⟨_, rfl⟩
  | erase =>
    simp only [Client.field, Client.erase]
    split
    · rename_i h; exact .inl ⟨rfl, h.1⟩
    · exact .inr ⟨_, rfl⟩
  | insert x =>
    simp only [Client.field, Client.setInsert]
    split
    · rename_i h; exact .inl ⟨rfl, h.1⟩
    · exact .inr ⟨_, rfl⟩
  | remove x =>
    simp only [Client.field, Client.setErase]
    split
    · split
      · rename_i h; exact .inl ⟨rfl, h.1⟩
      · exact .inr ⟨_, rfl⟩
    · exact .inr ⟨_, rfl⟩

/-- C43.  A field operation that throws leaves the object as it was. -/
theorem field_error (S : Sys) (c : Client) (p : List Bytes) (op : FieldOp)
    (h : (c.field S p op).2 ≠ .ok ()) : (c.field S p op).1 = c := by
  rcases field_cases S c p op with ⟨h1, _⟩ | ⟨f, h1⟩
  · rw [h1]
  · rw [h1] at h ⊢; exact modify_fst h

/-- C43.  Field operations succeed on every object that can publish and whose seqno can still be
incremented. -/
theorem field_succeeds {S : Sys} (hS : S.Good) {c : Client} (hr : Reach S c)
    (hro : S.env.readonly = false) (hov : int64Ok (c.seqno + 1) = true) (p : List Bytes)
    (op : FieldOp) : ∃ c', c.field S p op = (c', .ok ()) := by
  rcases field_cases S c p op with ⟨h1, _⟩ | ⟨f, h1⟩
  · exact ⟨c, h1⟩
  · rw [h1]
    have hk : (c.dirty S).2 = .ok () := by
      unfold Client.dirty
      split
      · rename_i hd
        rw [if_pos ((hr.inv hS).isMut hd)]
      · rw [if_neg (by rw [hro]; simp)]
        unfold Client.seqno at hov
        rw [if_neg (by rw [hov]; simp)]
    unfold Client.modify
    rw [edit_eq_ok hk]
    exact ⟨_, rfl⟩

/-! ### C44: pushes are needed exactly when something changed -/

/-- C44.  On an object without unpublished edits, writing a value that is already there does nothing
at all: same object, nothing to push or to dump. -/
theorem rewrite_is_noop {S : Sys} {c : Client} {p : List Bytes} (hd : c.st ≠ .dirty) :
    (∀ v, v.full = true → c.get p = some v → c.assign S p v = (c, .ok ())) ∧
    (c.get p = none → c.erase S p = (c, .ok ())) ∧
    (∀ x, memberAt c.conf.m.data p x = true → c.setInsert S p x = (c, .ok ())) ∧
    (∀ s x, c.get p = some (.set s) → x ∉ s → c.setErase S p x = (c, .ok ())) := by
  refine ⟨fun v hv h => ?_, fun h => ?_, fun x h => ?_, fun s x h hx => ?_⟩
  · unfold Client.assign
    rw [if_neg (by rw [full_not_empty hv]; simp), if_pos ⟨hd, h⟩]
  · unfold Client.erase
    rw [if_pos ⟨hd, h⟩]
  · unfold Client.setInsert
    rw [if_pos ⟨hd, h⟩]
  · unfold Client.get at h
    unfold Client.setErase
    rw [h]
    simp only
    rw [if_pos ⟨hd, hx⟩]

/-- C44.  After a successful field operation the object is either untouched or has something to push;
so a changed content is always pending. -/
theorem change_is_pending {S : Sys} {c c' : Client} {p : List Bytes} {op : FieldOp}
    (h : c.field S p op = (c', .ok ())) : (c' = c ∧ c.st ≠ .dirty) ∨ c'.st = .dirty := by
  rcases field_cases S c p op with ⟨h1, h2⟩ | ⟨f, h1⟩
  · rw [h] at h1; cases h1; exact .inl ⟨rfl, h2⟩
  · right
    rw [h1] at h
    have hk : (c.dirty S).2 = .ok () := by
      by_contra hk
      unfold Client.modify at h
      rw [edit_eq_err hk] at h
      rw [h] at hk; exact hk rfl
    unfold Client.modify at h
    rw [edit_eq_ok hk] at h
    have := (Prod.mk.inj h).1
    subst this
    exact (dirty_ok hk).1

/-- C44.  Conversely, an assignment, erasure or insertion that makes an object without unpublished
edits dirty has changed the content that will be published. -/
theorem pending_is_change {S : Sys} (hS : S.Good) {c c' : Client} (hr : Reach S c)
    (hd : c.st ≠ .dirty) {p : List Bytes} (hp : p ≠ []) {op : FieldOp}
    (hop : ∀ v, op = .assign v → v.wf = true) (hx : ∀ x, op = .insert x → x.ok = true)
    (hrem : ∀ x, op = .remove x → ∃ s, c.get p = some (.set s))
    (h : c.field S p op = (c', .ok ())) (hd' : c'.st = .dirty) : c'.content ≠ c.content := by
  have hneat := hr.neat hS hd
  have hcc : c.content = c.conf.m.data := pruneD_of_wf hneat
  intro he
  rw [hcc] at he
  unfold Client.content at he
  cases op with
  | assign v =>
    obtain ⟨h1, h2, h3⟩ := assign_get hS hr hp (hop v rfl) h
    have hv := hop v rfl
    simp only [Val.wf, Bool.and_eq_true] at hv
    have : valAt (pruneD c'.conf.m.data) p = some v := by
      unfold Client.get at h1
      rw [valAt_pruneD p (h3.inv hS).wf.data, h1, Option.bind_some, prune_of_full v hv.2,
        if_neg (by rw [full_not_empty hv.2]; simp)]
    rw [he] at this
    have := (rewrite_is_noop (S := S) (c := c) (p := p) hd).1 v hv.2 this
    rw [show c.field S p (.assign v) = c.assign S p v from rfl, this] at h
    cases h
    exact hd hd'
  | erase =>
    obtain ⟨h1, h2, h3⟩ := erase_get hS hr h
    have : valAt (pruneD c'.conf.m.data) p = none := by
      unfold Client.get at h1
      rw [valAt_pruneD p (h3.inv hS).wf.data, h1]; rfl
    rw [he] at this
    have := (rewrite_is_noop (S := S) (c := c) (p := p) hd).2.1 this
    rw [show c.field S p .erase = c.erase S p from rfl, this] at h
    cases h
    exact hd hd'
  | insert x =>
    obtain ⟨h1, h2, h3⟩ := set_insert_get hS hr hp (hx x rfl) h
    have : memberAt (pruneD c'.conf.m.data) p x = true := by
      rw [memberAt_pruneD p _ (h3.inv hS).wf.data, h1]; simp
    rw [he] at this
    have := (rewrite_is_noop (S := S) (c := c) (p := p) hd).2.2.1 x this
    rw [show c.field S p (.insert x) = c.setInsert S p x from rfl, this] at h
    cases h
    exact hd hd'
  | remove x =>
    obtain ⟨s, hs⟩ := hrem x rfl
    obtain ⟨h1, h2, h3⟩ := set_erase_get hS hr hp h
    have : memberAt (pruneD c'.conf.m.data) p x = false := by
      rw [memberAt_pruneD p _ (h3.inv hS).wf.data, h1]; simp
    rw [he, memberAt_eq] at this
    have hs' : valAt c.conf.m.data p = some (.set s) := hs
    rw [hs'] at this
    have := (rewrite_is_noop (S := S) (c := c) (p := p) hd).2.2.2 s x hs (of_decide_eq_false this)
    rw [show c.field S p (.remove x) = c.setErase S p x from rfl, this] at h
    cases h
    exact hd hd'

/-! ### C45: what is written on one device is read on the others -/

/-- C45.  End to end: after delivery of a push (as in C34) every field of the receiving object reads
exactly what the pushing object's field held when it pushed; empty sets and dicts count as absent. -/
theorem fields_delivered {S : Sys} (hS : S.Good) {sg : Option (Bytes → Bytes)}
    (hS' : (S.as sg).Good) {c r : Client} (hc : Reach S c) (hr : Reach (S.as sg) r) {s : Int}
    {m : Bytes} {obs : List Bytes} (hp : (c.push S).2 = .ok (s, m, obs)) (hs : s ≠ 0)
    (hk : r.keys.head? = c.keys.head?) (hst : r.st ≠ .dirty)
    (hknown : r.seqno = 0 ∨
      ∀ M, parseMsg S.env false (c.plain S) = .ok M → Supersedes (S.as sg) M r)
    (hnc : S.env.H (c.plain S) = S.env.H (r.plain (S.as sg)) → c.plain S = r.plain (S.as sg))
    (hov : int64Ok (s + S.env.lag) = true) (h : Bytes)
    {r' : Client} {res : Out (List Bytes)} (hm : r.merge (S.as sg) [(h, m)] = (r', res)) :
    (∀ p v, v.full = true → c.get p = some v → r'.get p = some v) ∧
    (∀ p, c.get p = none → r'.get p = none) ∧
    (∀ p, scalarAt r'.conf.m.data p = scalarAt c.conf.m.data p) ∧
    (∀ p x, memberAt r'.conf.m.data p x = memberAt c.conf.m.data p x) := by
  obtain ⟨_, hd, _⟩ := delivery_full hS hS' hc hr hp hs hk hst hknown hnc hov h
  rw [hm] at hd
  have hd : r'.conf.m.data = pruneD c.conf.m.data := hd
  have ht := (hc.inv hS).wf.data
  unfold Client.get
  rw [hd]
  refine ⟨fun p v hv hg => ?_, fun p hg => ?_, fun p => scalarAt_pruneD p _ ht,
    fun p x => memberAt_pruneD p _ ht x⟩
  · rw [valAt_pruneD p ht, hg, Option.bind_some, prune_of_full v hv,
      if_neg (by rw [full_not_empty hv]; simp)]
  · rw [valAt_pruneD p ht, hg]; rfl

/-! ### Concrete cases -/

/-- A path of two keys, and one beside it. -/
def exPath : List Bytes := [[99], [48, 53]]

/-- Writing twice below `c` on a published object: both are read back, the sibling written before is
still there, the object is dirty; writing the value it has again changes nothing. -/
example :
    let a := (exC3.assign exSys (exPath ++ [[110]]) (.scalar (.str [65]))).1
    let b := (a.setInsert exSys (exPath ++ [[115]]) (.int 7)).1
    exC3.st = .clean ∧ a.st = .dirty ∧ b.get (exPath ++ [[110]]) = some (.scalar (.str [65])) ∧
      b.get (exPath ++ [[115]]) = some (.set [.int 7]) ∧ b.get [[97]] = exC3.get [[97]] ∧
      (exC3.get [[97]]).isSome = true ∧ (b.erase exSys exPath).1.get (exPath ++ [[115]]) = none ∧
      ¬ Nested (exPath ++ [[110]]) (exPath ++ [[115]]) := by decide +kernel

example : (exC3.get [[97]]).isSome = true ∧
    ((exC3.get [[97]]).map fun v => decide (exC3.assign exSys [[97]] v = (exC3, .ok ()))) =
      some true := by decide +kernel

/-- The exception in `pending_is_change` is real: `set_erase` on a field that does not exist makes a
clean object dirty although nothing changes, contrary to "if the current value does not exist then
nothing happens" (include/session/config/base.hpp:681-682). -/
theorem set_erase_missing_dirties :
    exC3.get [[120]] = none ∧ exC3.needsPush = false ∧
      (exC3.setErase exSys [[120]] (.int 1)).2 = .ok () ∧
      (exC3.setErase exSys [[120]] (.int 1)).1.needsPush = true ∧
      (exC3.setErase exSys [[120]] (.int 1)).1.content = exC3.content := by decide +kernel

end Verif
