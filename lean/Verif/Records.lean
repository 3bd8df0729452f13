import Verif.Props.Fields

/-!
# Writing records

The typed classes (`Contacts`, `UserProfile`, `UserGroups`, ...) store a record as a dict of scalars and
write it field by field through `DictFieldProxy` (src/config/internal.cpp:64-136,
src/config/internal.hpp:181-196).  This file models such a sequence of field writes and the
`maybe_*` readers.
-/

namespace Verif

/-! ### Readers -/

/-- `maybe_int` (src/config/internal.cpp:80-84) -/
def maybeInt (d : Dict) (k : Bytes) : Option Int := match mget k d with
  | some (.scalar (.int i)) => some i
  | _ => none

/-- `maybe_string`, `maybe_sv`, `maybe_ustring` (src/config/internal.cpp:86-101) -/
def maybeStr (d : Dict) (k : Bytes) : Option Bytes := match mget k d with
  | some (.scalar (.str s)) => some s
  | _ => none

/-- `maybe_set` (src/config/internal.cpp:73-78) -/
def maybeSet (d : Dict) (k : Bytes) : Option (List Scalar) := match mget k d with
  | some (.set s) => some s
  | _ => none

/-- Conversion of `int64_t` to `int` (32 bits, modulo 2^32). -/
def toInt32 (i : Int) : Int := i.bmod (2 ^ 32)

/-- In the range of `int` -/
def int32Ok (i : Int) : Bool := decide (-(2 ^ 31) ≤ i) && decide (i < 2 ^ 31)

theorem toInt32_of_ok {i : Int} (h : int32Ok i = true) : toInt32 i = i := by
  simp only [int32Ok, Bool.and_eq_true, decide_eq_true_eq] at h
  unfold toInt32
  apply Int.bmod_eq_of_le <;> omega

theorem int32_int64 {i : Int} (h : int32Ok i = true) : int64Ok i = true := by
  simp only [int32Ok, int64Ok, Bool.and_eq_true, decide_eq_true_eq] at *
  omega

theorem toInt32_ok (i : Int) : int32Ok (toInt32 i) = true := by
  have h1 := Int.le_bmod (x := i) (m := 2 ^ 32) (by decide)
  have h2 := Int.bmod_lt (x := i) (m := 2 ^ 32) (by decide)
  simp only [int32Ok, toInt32, Bool.and_eq_true, decide_eq_true_eq]
  norm_num at h1 h2 ⊢
  omega

/-! ### Field values -/

/-- `set_flag` (src/config/internal.cpp:103-108): what is left in the field -/
def fFlag (b : Bool) : Option Val := if b then some (.scalar (.int 1)) else none

/-- `set_positive_int` (src/config/internal.cpp:110-115) -/
def fPos (i : Int) : Option Val := if i > 0 then some (.scalar (.int i)) else none

/-- `set_nonzero_int` (src/config/internal.cpp:117-122) -/
def fNonzero (i : Int) : Option Val := if i ≠ 0 then some (.scalar (.int i)) else none

/-- `set_nonempty_str` (src/config/internal.cpp:124-136) -/
def fStr (s : Bytes) : Option Val := if s ≠ [] then some (.scalar (.str s)) else none

/-- Either value of `set_pair_if` (src/config/internal.hpp:181-196) -/
def fIf (c : Bool) (x : Scalar) : Option Val := if c then some (.scalar x) else none

/-- The integer in a value -/
def intOf : Option Val → Option Int
  | some (.scalar (.int i)) => some i
  | _ => none

/-- The string in a value -/
def strOf : Option Val → Option Bytes
  | some (.scalar (.str s)) => some s
  | _ => none

/-- Assignment, or erasure. -/
def opOf : Option Val → FieldOp
  | some v => .assign v
  | none => .erase

/-- One field write: assign the value, or erase the field. -/
def Client.write (S : Sys) (c : Client) (p : List Bytes) : Option Val → Client × Out Unit
  | some v => c.assign S p v
  | none => c.erase S p

theorem setFlag_eq (S : Sys) (c : Client) (p : List Bytes) (b : Bool) :
    c.setFlag S p b = c.write S p (fFlag b) := by
  unfold Client.setFlag fFlag; split <;> rfl

theorem setPositive_eq (S : Sys) (c : Client) (p : List Bytes) (i : Int) :
    c.setPositive S p i = c.write S p (fPos i) := by
  unfold Client.setPositive fPos; split <;> rfl

theorem setNonzero_eq (S : Sys) (c : Client) (p : List Bytes) (i : Int) :
    c.setNonzero S p i = c.write S p (fNonzero i) := by
  unfold Client.setNonzero fNonzero; split <;> rfl

theorem setNonempty_eq (S : Sys) (c : Client) (p : List Bytes) (s : Bytes) :
    c.setNonempty S p s = c.write S p (fStr s) := by
  unfold Client.setNonempty fStr; split <;> rfl

/-- A sequence of field writes, as in the `set(...)` methods of the typed classes: an exception ends
it. -/
def Client.writeAll (S : Sys) (c : Client) : List (List Bytes × Option Val) → Client × Out Unit
  | [] => (c, .ok ())
  | (p, v) :: t => match c.write S p v with
    | (c1, .ok ()) => c1.writeAll S t
    | (c1, e) => (c1, e)

theorem write_eq_field (S : Sys) (c : Client) (p : List Bytes) (v : Option Val) :
    c.write S p v = c.field S p (opOf v) := by
  cases v <;> rfl

/-- The values a write may hold. -/
def wfO : Option Val → Bool
  | some v => v.wf
  | none => true

theorem write_get {S : Sys} (hS : S.Good) {c c' : Client} (hr : Reach S c) {p : List Bytes}
    (hp : p ≠ []) {v : Option Val} (hv : wfO v = true) (h : c.write S p v = (c', .ok ())) :
    c'.get p = v ∧ (∀ q, ¬ Nested p q → c'.get q = c.get q) ∧ Reach S c' := by
  cases v with
  | none => exact erase_get hS hr h
  | some v => exact assign_get hS hr hp hv h

theorem write_error {S : Sys} {c : Client} {p : List Bytes} {v : Option Val}
    (h : (c.write S p v).2 ≠ .ok ()) : (c.write S p v).1 = c := by
  rw [write_eq_field] at h ⊢; exact field_error S c p _ h

theorem write_pending {S : Sys} {c c' : Client} {p : List Bytes} {v : Option Val}
    (h : c.write S p v = (c', .ok ())) : (c' = c ∧ c.st ≠ .dirty) ∨ c'.st = .dirty := by
  rw [write_eq_field] at h; exact change_is_pending h

theorem write_dirty_ok {S : Sys} (hS : S.Good) {c : Client} (hr : Reach S c) (hd : c.st = .dirty)
    (p : List Bytes) (v : Option Val) : ∃ c', c.write S p v = (c', .ok ()) := by
  rw [write_eq_field]
  rcases field_cases S c p (opOf v) with
    ⟨h1, _⟩ | ⟨f, h1⟩
  · exact ⟨c, h1⟩
  · rw [h1]
    have hk : (c.dirty S).2 = .ok () := by
      unfold Client.dirty
      rw [if_pos hd, if_pos ((hr.inv hS).isMut hd)]
    unfold Client.modify
    rw [edit_eq_ok hk]
    exact ⟨_, rfl⟩

/-- After a sequence of writes to fields that are not nested in one another, each has the value
written; nothing else changes. -/
theorem writeAll_get {S : Sys} (hS : S.Good) : ∀ (ws : List (List Bytes × Option Val))
    {c c' : Client}, Reach S c → (∀ w ∈ ws, w.1 ≠ [] ∧ wfO w.2 = true) →
    ws.Pairwise (fun a b => ¬ Nested a.1 b.1) → c.writeAll S ws = (c', .ok ()) →
    Reach S c' ∧ (∀ w ∈ ws, c'.get w.1 = w.2) ∧
      (∀ q, (∀ w ∈ ws, ¬ Nested w.1 q) → c'.get q = c.get q)
  | [], c, c', hr, _, _, h => by
    cases h
    exact ⟨hr, by simp, fun _ _ => rfl⟩
  | (p, v) :: t, c, c', hr, hw, hp, h => by
    simp only [Client.writeAll] at h
    split at h
    · rename_i c1 hc1
      obtain ⟨g1, g2, g3⟩ := write_get hS hr (hw (p, v) (by simp)).1 (hw (p, v) (by simp)).2 hc1
      rw [List.pairwise_cons] at hp
      obtain ⟨k1, k2, k3⟩ := writeAll_get hS t g3 (fun w hm => hw w (by simp [hm])) hp.2 h
      refine ⟨k1, fun w hm => ?_, fun q hq => ?_⟩
      · rcases List.mem_cons.1 hm with rfl | hm
        · rw [k3 p fun w hm hn => hp.1 w hm hn.symm]; exact g1
        · exact k2 w hm
      · rw [k3 q fun w hm => hq w (by simp [hm]), g2 q (hq _ (by simp))]
    · rename_i c1 e hne hc1
      cases h
      exact (hne rfl).elim

theorem writeAll_dirty_ok {S : Sys} (hS : S.Good) : ∀ (ws : List (List Bytes × Option Val))
    {c : Client}, Reach S c → (∀ w ∈ ws, w.1 ≠ [] ∧ wfO w.2 = true) → c.st = .dirty →
    ∃ c', c.writeAll S ws = (c', .ok ()) ∧ c'.st = .dirty
  | [], c, _, _, hd => ⟨c, rfl, hd⟩
  | (p, v) :: t, c, hr, hw, hd => by
    obtain ⟨c1, h1⟩ := write_dirty_ok hS hr hd p v
    simp only [Client.writeAll, h1]
    have hr1 := (write_get hS hr (hw (p, v) (by simp)).1 (hw (p, v) (by simp)).2 h1).2.2
    refine writeAll_dirty_ok hS t hr1 (fun w hm => hw w (by simp [hm])) ?_
    rcases write_pending h1 with ⟨rfl, hn⟩ | h
    · exact absurd hd hn
    · exact h

/-- A sequence of writes is all or nothing: if it throws, the object is as before. -/
theorem writeAll_error {S : Sys} (hS : S.Good) : ∀ (ws : List (List Bytes × Option Val))
    {c : Client}, Reach S c → (∀ w ∈ ws, w.1 ≠ [] ∧ wfO w.2 = true) →
    (c.writeAll S ws).2 ≠ .ok () → (c.writeAll S ws).1 = c
  | [], c, _, _, h => absurd rfl h
  | (p, v) :: t, c, hr, hw, h => by
    simp only [Client.writeAll] at h ⊢
    split
    · rename_i c1 hc1
      rw [hc1] at h
      rcases write_pending hc1 with ⟨rfl, hn⟩ | hd
      · exact writeAll_error hS t hr (fun w hm => hw w (by simp [hm])) h
      · have hr1 := (write_get hS hr (hw (p, v) (by simp)).1 (hw (p, v) (by simp)).2 hc1).2.2
        obtain ⟨c2, h2, _⟩ := writeAll_dirty_ok hS t hr1 (fun w hm => hw w (by simp [hm])) hd
        simp only at h
        rw [h2] at h
        exact absurd rfl h
    · rename_i c1 e hne hc1
      have : (c.write S p v).2 ≠ .ok () := by
        rw [hc1]; intro he; exact hne he
      have := write_error this
      rw [hc1] at this
      exact this

/-- It succeeds on every object that can publish. -/
theorem writeAll_succeeds {S : Sys} (hS : S.Good) : ∀ (ws : List (List Bytes × Option Val))
    {c : Client}, Reach S c → (∀ w ∈ ws, w.1 ≠ [] ∧ wfO w.2 = true) → S.env.readonly = false →
    int64Ok (c.seqno + 1) = true → ∃ c', c.writeAll S ws = (c', .ok ())
  | [], c, _, _, _, _ => ⟨c, rfl⟩
  | (p, v) :: t, c, hr, hw, hro, hov => by
    obtain ⟨c1, h1⟩ := field_succeeds hS hr hro hov p
      (opOf v)
    rw [← write_eq_field] at h1
    simp only [Client.writeAll, h1]
    have hr1 := (write_get hS hr (hw (p, v) (by simp)).1 (hw (p, v) (by simp)).2 h1).2.2
    rcases write_pending h1 with ⟨rfl, hn⟩ | hd
    · exact writeAll_succeeds hS t hr (fun w hm => hw w (by simp [hm])) hro hov
    · obtain ⟨c2, h2, _⟩ := writeAll_dirty_ok hS t hr1 (fun w hm => hw w (by simp [hm])) hd
      exact ⟨c2, h2⟩

/-- Writing what is there already, on an object without unpublished edits, does nothing at all. -/
theorem writeAll_noop {S : Sys} : ∀ (ws : List (List Bytes × Option Val)) {c : Client},
    (∀ w ∈ ws, wfO w.2 = true) → c.st ≠ .dirty → (∀ w ∈ ws, c.get w.1 = w.2) →
    c.writeAll S ws = (c, .ok ())
  | [], c, _, _, _ => rfl
  | (p, v) :: t, c, hw, hd, hg => by
    have h1 : c.write S p v = (c, .ok ()) := by
      have hg1 := hg (p, v) (by simp)
      cases v with
      | none => exact (rewrite_is_noop hd).2.1 hg1
      | some v =>
        refine (rewrite_is_noop hd).1 v ?_ hg1
        have := hw (p, some v) (by simp)
        simp only [wfO, Val.wf, Bool.and_eq_true] at this
        exact this.2
    simp only [Client.writeAll, h1]
    exact writeAll_noop t (fun w hm => hw w (by simp [hm])) hd fun w hm => hg w (by simp [hm])

/-- After a successful sequence of writes either nothing happened or there is something to push. -/
theorem writeAll_pending {S : Sys} (hS : S.Good) : ∀ (ws : List (List Bytes × Option Val))
    {c c' : Client}, Reach S c → (∀ w ∈ ws, w.1 ≠ [] ∧ wfO w.2 = true) →
    c.writeAll S ws = (c', .ok ()) → c' = c ∨ c'.st = .dirty
  | [], c, c', _, _, h => by cases h; exact .inl rfl
  | (p, v) :: t, c, c', hr, hw, h => by
    simp only [Client.writeAll] at h
    split at h
    · rename_i c1 hc1
      have hr1 := (write_get hS hr (hw (p, v) (by simp)).1 (hw (p, v) (by simp)).2 hc1).2.2
      rcases write_pending hc1 with ⟨rfl, hn⟩ | hd
      · exact writeAll_pending hS t hr1 (fun w hm => hw w (by simp [hm])) h
      · obtain ⟨c2, h2, h3⟩ := writeAll_dirty_ok hS t hr1 (fun w hm => hw w (by simp [hm])) hd
        rw [h2] at h
        cases h
        exact .inr h3
    · rename_i c1 e hne hc1
      cases h
      exact (hne rfl).elim

/-! ### A dict and its entries -/

theorem valAt_snoc : ∀ (p : List Bytes) (k : Bytes) (d : Dict), p ≠ [] →
    valAt d (p ++ [k]) = (valAt d p).bind fun v => match v with
      | .dict e => mget k e
      | _ => none
  | [], _, _, h => absurd rfl h
  | [a], k, d, _ => by
    simp only [List.cons_append, List.nil_append, valAt]
    cases mget a d with
    | none => rfl
    | some v => cases v <;> rfl
  | a :: b :: p, k, d, _ => by
    simp only [List.cons_append, valAt]
    cases mget a d with
    | none => rfl
    | some v =>
      cases v with
      | dict e =>
        have := valAt_snoc (b :: p) k e (by simp)
        simpa using this
      | set s => rfl
      | scalar x => rfl

theorem get_entry {c : Client} {p : List Bytes} (hp : p ≠ []) {e : Dict}
    (h : c.get p = some (.dict e)) (k : Bytes) : c.get (p ++ [k]) = mget k e := by
  unfold Client.get at *
  rw [valAt_snoc p k _ hp, h]; rfl

theorem get_dict {c : Client} {p : List Bytes} (hp : p ≠ []) {k : Bytes} {v : Val}
    (h : c.get (p ++ [k]) = some v) : ∃ e, c.get p = some (.dict e) ∧ mget k e = some v := by
  unfold Client.get at *
  rw [valAt_snoc p k _ hp] at h
  cases hm : valAt c.conf.m.data p with
  | none => rw [hm] at h; cases h
  | some w =>
    rw [hm, Option.bind_some] at h
    cases w with
    | dict e => exact ⟨e, rfl, h⟩
    | set s => cases h
    | scalar x => cases h

/-- Entries of one dict, under different keys, are not nested. -/
theorem not_nested_snoc {p : List Bytes} {k k' : Bytes} (h : k ≠ k') :
    ¬ Nested (p ++ [k]) (p ++ [k']) := by
  intro hn
  have : ∀ {a b : List Bytes}, a.length = b.length → a <+: b → a = b := fun hl hp =>
    hp.eq_of_length hl
  rcases hn with hn | hn
  · have := this (by simp) hn; simp at this; exact h this
  · have := this (by simp) hn; simp at this; exact h this.symm

/-- Writes to different entries of one dict. -/
def entries (p : List Bytes) (fs : List (Bytes × Option Val)) : List (List Bytes × Option Val) :=
  fs.map fun f => (p ++ [f.1], f.2)

theorem entries_pairwise (p : List Bytes) {fs : List (Bytes × Option Val)}
    (h : (fs.map (·.1)).Nodup) : (entries p fs).Pairwise (fun a b => ¬ Nested a.1 b.1) := by
  unfold entries
  rw [List.pairwise_map]
  rw [List.Nodup, List.pairwise_map] at h
  exact h.imp fun hab => not_nested_snoc hab

/-- Writing a record: the fields named are as written, everything outside them is untouched. -/
theorem writeEntries_get {S : Sys} (hS : S.Good) {p : List Bytes}
    {fs : List (Bytes × Option Val)} (hn : (fs.map (·.1)).Nodup)
    (hw : ∀ f ∈ fs, wfO f.2 = true) {c c' : Client} (hr : Reach S c)
    (h : c.writeAll S (entries p fs) = (c', .ok ())) :
    Reach S c' ∧ (∀ f ∈ fs, c'.get (p ++ [f.1]) = f.2) ∧
      (∀ q, (∀ f ∈ fs, ¬ Nested (p ++ [f.1]) q) → c'.get q = c.get q) := by
  obtain ⟨h1, h2, h3⟩ := writeAll_get hS (entries p fs) hr (by
    intro w hm
    obtain ⟨f, hf, rfl⟩ := List.mem_map.1 hm
    exact ⟨by simp, hw f hf⟩) (entries_pairwise p hn) h
  refine ⟨h1, fun f hf => h2 _ (List.mem_map.2 ⟨f, hf, rfl⟩), fun q hq => h3 q ?_⟩
  intro w hm
  obtain ⟨f, hf, rfl⟩ := List.mem_map.1 hm
  exact hq f hf

theorem entries_ok {p : List Bytes} {fs : List (Bytes × Option Val)}
    (hw : ∀ f ∈ fs, wfO f.2 = true) : ∀ w ∈ entries p fs, w.1 ≠ [] ∧ wfO w.2 = true := by
  intro w hm
  obtain ⟨f, hf, rfl⟩ := List.mem_map.1 hm
  exact ⟨by simp, hw f hf⟩

theorem wfO_flag (b : Bool) : wfO (fFlag b) = true := by cases b <;> rfl

theorem wfO_int {i : Int} (h : int64Ok i = true) : wfO (some (.scalar (.int i))) = true := by
  simp [wfO, Val.wf, Val.typed, Val.full, Scalar.ok, h]

theorem wfO_str (s : Bytes) : wfO (some (.scalar (.str s))) = true := rfl

theorem wfO_pos {i : Int} (h : int64Ok i = true) : wfO (fPos i) = true := by
  unfold fPos; split
  · exact wfO_int h
  · rfl

theorem wfO_nonzero {i : Int} (h : int64Ok i = true) : wfO (fNonzero i) = true := by
  unfold fNonzero; split
  · exact wfO_int h
  · rfl

theorem wfO_nestr (s : Bytes) : wfO (fStr s) = true := by
  unfold fStr; split <;> rfl

theorem wfO_if (b : Bool) {x : Scalar} (h : x.ok = true) : wfO (fIf b x) = true := by
  unfold fIf; split
  · simp [wfO, Val.wf, Val.typed, Val.full, h]
  · rfl

/-! Reading written fields. -/

theorem maybeInt_of {d : Dict} {k : Bytes} {v : Option Val} (h : mget k d = v) :
    maybeInt d k = intOf v := by
  subst h; rfl

theorem maybeStr_of {d : Dict} {k : Bytes} {v : Option Val} (h : mget k d = v) :
    maybeStr d k = strOf v := by
  subst h; rfl

theorem read_flag {d : Dict} {k : Bytes} {b : Bool} (h : mget k d = fFlag b) :
    (maybeInt d k).getD 0 = if b then 1 else 0 := by
  rw [maybeInt_of h]; cases b <;> rfl

theorem read_pos {d : Dict} {k : Bytes} {i : Int} (h : mget k d = fPos i) :
    (maybeInt d k).getD 0 = max i 0 := by
  rw [maybeInt_of h]; unfold fPos
  split
  · simp only [intOf, Option.getD_some]; omega
  · simp only [intOf, Option.getD_none]; omega

theorem read_nonzero {d : Dict} {k : Bytes} {i : Int} (h : mget k d = fNonzero i) :
    (maybeInt d k).getD 0 = i := by
  rw [maybeInt_of h]; unfold fNonzero
  by_cases hi : i = 0 <;> simp [hi, intOf]

theorem read_str {d : Dict} {k : Bytes} {s : Bytes} (h : mget k d = fStr s) :
    (maybeStr d k).getD [] = s := by
  rw [maybeStr_of h]; unfold fStr
  by_cases hi : s = [] <;> simp [hi, strOf]

theorem maybe_of_pruned {d : Dict} (hd : typedD d = true) (k : Bytes) :
    maybeInt (pruneD d) k = maybeInt d k ∧ maybeStr (pruneD d) k = maybeStr d k := by
  have := mget_pruneD (typedD_sorted hd) k
  unfold maybeInt maybeStr
  rw [this]
  cases mget k d with
  | none => exact ⟨rfl, rfl⟩
  | some v =>
    rw [Option.bind_some]
    cases v with
    | dict e =>
      by_cases hh : (Val.dict e).prune.emptyVal = true
      · rw [if_pos hh]; exact ⟨rfl, rfl⟩
      · rw [if_neg hh]; exact ⟨rfl, rfl⟩
    | set s =>
      by_cases hh : (Val.set s).prune.emptyVal = true
      · rw [if_pos hh]; exact ⟨rfl, rfl⟩
      · rw [if_neg hh]; exact ⟨rfl, rfl⟩
    | scalar x => exact ⟨rfl, rfl⟩

end Verif
