import Verif.Client
import Verif.LeafLemmas

/-!
# Field accessors

Models `ConfigBase::DictFieldProxy` (include/session/config/base.hpp:209-700) and the setters of
src/config/internal.cpp:103-136 and src/config/internal.hpp:181-196.  A proxy
`conf["a"]["b"]["c"]` is the path `[a, b, c]` (`_inter_keys` followed by `_last_key`); paths are never
empty.
-/

namespace Verif

/-- `get_clean<dict_value>()` (include/session/config/base.hpp:236-276): the value at a path, all but
the last key leading through dicts. -/
def valAt (d : Dict) : List Bytes → Option Val
  | [] => none
  | [k] => mget k d
  | k :: k2 :: ps => match mget k d with
    | some (.dict e) => valAt e (k2 :: ps)
    | _ => none

/-- `get_dirty<T>() = v` (include/session/config/base.hpp:291-321): creates missing dicts on the way
and replaces values that are not dicts. -/
def putAt (d : Dict) (v : Val) : List Bytes → Dict
  | [] => d
  | [k] => mput k v d
  | k :: k2 :: ps => mput k (.dict (putAt (curDict (mget k d)) v (k2 :: ps))) d

/-- The loop of `erase()` (include/session/config/base.hpp:636-648): nothing happens if a dict on the
way is missing. -/
def delAt (d : Dict) : List Bytes → Dict
  | [] => d
  | [k] => mdel k d
  | k :: k2 :: ps => match mget k d with
    | some (.dict e) => mput k (.dict (delAt e (k2 :: ps))) d
    | _ => d

/-- `get_dirty<set>().insert(x)` (include/session/config/base.hpp:361-367). -/
def insAt (d : Dict) (p : List Bytes) (x : Scalar) : Dict :=
  putAt d (.set (sput x (curSet (valAt d p)))) p

/-- The second half of `set_erase_impl` (include/session/config/base.hpp:380-398). -/
def remAt (d : Dict) (p : List Bytes) (x : Scalar) : Dict :=
  match valAt d p with
  | none => d
  | some (.set s) => putAt d (.set (sdel x s)) p
  | some _ => putAt d (.set []) p

/-- `f(dirty().data())`: a modification of the data of the object, made dirty first. -/
def Client.modify (S : Sys) (c : Client) (f : Dict → Dict) : Client × Out Unit :=
  c.edit S (f (c.dirty S).1.conf.m.data)

/-- `erase()` (include/session/config/base.hpp:632-648). -/
def Client.erase (S : Sys) (c : Client) (p : List Bytes) : Client × Out Unit :=
  if c.st ≠ .dirty ∧ valAt c.conf.m.data p = none then (c, .ok ())
  else c.modify S fun d => delAt d p

/-- `operator=` / `assign_if_changed` (include/session/config/base.hpp:331-350). -/
def Client.assign (S : Sys) (c : Client) (p : List Bytes) (v : Val) : Client × Out Unit :=
  if v.emptyVal then c.erase S p
  else if c.st ≠ .dirty ∧ valAt c.conf.m.data p = some v then (c, .ok ())
  else c.modify S fun d => putAt d v p

/-- `set_insert` / `insert_if_missing` (include/session/config/base.hpp:359-367). -/
def Client.setInsert (S : Sys) (c : Client) (p : List Bytes) (x : Scalar) : Client × Out Unit :=
  if c.st ≠ .dirty ∧ memberAt c.conf.m.data p x = true then (c, .ok ())
  else c.modify S fun d => insAt d p x

/-- `set_erase` / `set_erase_impl` (include/session/config/base.hpp:375-399).  The shortcut for an object
that is not dirty only applies if there *is* a set. -/
def Client.setErase (S : Sys) (c : Client) (p : List Bytes) (x : Scalar) : Client × Out Unit :=
  match valAt c.conf.m.data p with
  | some (.set s) =>
    if c.st ≠ .dirty ∧ x ∉ s then (c, .ok ()) else c.modify S fun d => remAt d p x
  | _ => c.modify S fun d => remAt d p x

/-- `set_flag` (src/config/internal.cpp:103-108) -/
def Client.setFlag (S : Sys) (c : Client) (p : List Bytes) (b : Bool) : Client × Out Unit :=
  if b then c.assign S p (.scalar (.int 1)) else c.erase S p

/-- `set_positive_int` (src/config/internal.cpp:110-115) -/
def Client.setPositive (S : Sys) (c : Client) (p : List Bytes) (i : Int) : Client × Out Unit :=
  if i > 0 then c.assign S p (.scalar (.int i)) else c.erase S p

/-- `set_nonzero_int` (src/config/internal.cpp:117-122) -/
def Client.setNonzero (S : Sys) (c : Client) (p : List Bytes) (i : Int) : Client × Out Unit :=
  if i ≠ 0 then c.assign S p (.scalar (.int i)) else c.erase S p

/-- `set_nonempty_str` (src/config/internal.cpp:124-136) -/
def Client.setNonempty (S : Sys) (c : Client) (p : List Bytes) (s : Bytes) : Client × Out Unit :=
  if s ≠ [] then c.assign S p (.scalar (.str s)) else c.erase S p

/-! ### Paths -/

/-- One path is a prefix of the other: they denote nested positions. -/
def Nested (p q : List Bytes) : Prop := p <+: q ∨ q <+: p

instance (p q : List Bytes) : Decidable (Nested p q) := by unfold Nested; infer_instance

theorem nested_cons {k : Bytes} {p q : List Bytes} : Nested (k :: p) (k :: q) ↔ Nested p q := by
  simp [Nested, List.cons_prefix_cons]

theorem Nested.symm {p q : List Bytes} (h : Nested p q) : Nested q p := h.elim .inr .inl

/-! ### The data after a modification -/

theorem typedD_mput {d : Dict} (h : typedD d = true) (k : Bytes) {v : Val} (hv : v.typed = true) :
    typedD (mput k v d) = true := by
  rw [typedD_iff] at h ⊢
  refine ⟨h.1.mput k v, fun b hb => ?_⟩
  rcases mem_mput hb with rfl | hb
  · exact hv
  · exact h.2 b hb

theorem typedD_mdel {d : Dict} (h : typedD d = true) (k : Bytes) : typedD (mdel k d) = true := by
  rw [typedD_iff] at h ⊢
  exact ⟨h.1.mdel k, fun b hb => h.2 b (mem_mdel hb)⟩

theorem curDict_mget_typed {d : Dict} (h : typedD d = true) (k : Bytes) :
    typedD (curDict (mget k d)) = true :=
  curDict_typed fun _ hw => typed_of_mget h hw

theorem putAt_typed {v : Val} (hv : v.typed = true) : ∀ (p : List Bytes) {d : Dict},
    typedD d = true → typedD (putAt d v p) = true
  | [], d, h => h
  | [k], d, h => typedD_mput h k hv
  | k :: k2 :: ps, d, h => by
    simp only [putAt]
    refine typedD_mput h k ?_
    simp only [Val.typed]
    exact putAt_typed hv (k2 :: ps) (curDict_mget_typed h k)

theorem delAt_typed : ∀ (p : List Bytes) {d : Dict}, typedD d = true → typedD (delAt d p) = true
  | [], d, h => h
  | [k], d, h => typedD_mdel h k
  | k :: k2 :: ps, d, h => by
    simp only [delAt]
    split
    · rename_i e he
      refine typedD_mput h k ?_
      have := typed_of_mget h he
      simp only [Val.typed] at this ⊢
      exact delAt_typed (k2 :: ps) this
    · exact h

theorem valAt_typed : ∀ (p : List Bytes) {d : Dict} {v : Val}, typedD d = true →
    valAt d p = some v → v.typed = true
  | [], d, v, _, h => by simp [valAt] at h
  | [k], d, v, hd, h => typed_of_mget hd h
  | k :: k2 :: ps, d, v, hd, h => by
    simp only [valAt] at h
    split at h
    · rename_i e he
      have := typed_of_mget hd he
      exact valAt_typed (k2 :: ps) (by simpa [Val.typed] using this) h
    · cases h

theorem sput_all {s : List Scalar} {x : Scalar} (hx : x.ok = true) (h : s.all Scalar.ok = true) :
    (sput x s).all Scalar.ok = true := by
  simp only [List.all_eq_true] at h ⊢
  intro y hy
  rcases mem_sput.1 hy with rfl | hy
  · exact hx
  · exact h y hy

theorem insAt_typed {d : Dict} (h : typedD d = true) (p : List Bytes) {x : Scalar}
    (hx : x.ok = true) : typedD (insAt d p x) = true := by
  unfold insAt
  refine putAt_typed ?_ p h
  obtain ⟨h1, h2⟩ := curSet_typed (c := valAt d p) fun w hw => valAt_typed p h hw
  simp only [Val.typed, Bool.and_eq_true, decide_eq_true_eq]
  exact ⟨h1.sput x, sput_all hx h2⟩

theorem remAt_typed {d : Dict} (h : typedD d = true) (p : List Bytes) (x : Scalar) :
    typedD (remAt d p x) = true := by
  unfold remAt
  split
  · exact h
  · rename_i s hs
    refine putAt_typed ?_ p h
    have := valAt_typed p h hs
    simp only [Val.typed, Bool.and_eq_true, decide_eq_true_eq] at this ⊢
    refine ⟨this.1.sdel x, ?_⟩
    have h2 := this.2
    simp only [List.all_eq_true] at h2 ⊢
    exact fun y hy => h2 y ((sdel_sublist x s).subset hy)
  · exact putAt_typed (by simp [Val.typed]) p h

/-! ### Reading after writing -/

theorem valAt_nil (p : List Bytes) : valAt [] p = none := by
  rcases p with _ | ⟨k, _ | ⟨k2, ps⟩⟩ <;> simp [valAt, mget]

theorem valAt_curDict {d : Dict} {k k2 : Bytes} {ps : List Bytes} :
    valAt d (k :: k2 :: ps) = valAt (curDict (mget k d)) (k2 :: ps) := by
  simp only [valAt]
  cases hm : mget k d with
  | none => simp [curDict, valAt_nil]
  | some v => cases v <;> simp [curDict, valAt_nil]

/-- What was put is there. -/
theorem valAt_putAt_self (v : Val) : ∀ (p : List Bytes) {d : Dict}, typedD d = true → p ≠ [] →
    valAt (putAt d v p) p = some v
  | [], _, _, h => absurd rfl h
  | [k], d, hd, _ => by
    simp only [putAt, valAt]
    rw [mget_mput (typedD_sorted hd), if_pos rfl]
  | k :: k2 :: ps, d, hd, _ => by
    simp only [putAt, valAt]
    rw [mget_mput (typedD_sorted hd), if_pos rfl]
    exact valAt_putAt_self v (k2 :: ps) (curDict_mget_typed hd k) (by simp)

/-- Putting a value does not affect other positions. -/
theorem valAt_putAt_other (v : Val) : ∀ (p q : List Bytes) {d : Dict}, typedD d = true →
    ¬ Nested p q → valAt (putAt d v p) q = valAt d q
  | [], q, _, _, h => absurd (.inl List.nil_prefix) h
  | k :: ps, [], _, _, h => absurd (.inr List.nil_prefix) h
  | [k], k' :: qs, d, hd, h => by
    have hk : k' ≠ k := by
      rintro rfl; exact h (.inl (by simp [List.cons_prefix_cons]))
    cases qs with
    | nil => simp only [putAt, valAt]; rw [mget_mput (typedD_sorted hd), if_neg hk]
    | cons k2 qs => simp only [putAt, valAt]; rw [mget_mput (typedD_sorted hd), if_neg hk]
  | k :: k2 :: ps, k' :: qs, d, hd, h => by
    by_cases hk : k' = k
    · subst hk
      have h' : ¬ Nested (k2 :: ps) qs := fun hn => h (nested_cons.2 hn)
      cases qs with
      | nil => exact absurd (.inr List.nil_prefix) h'
      | cons q2 qs =>
        rw [valAt_curDict, valAt_curDict]
        simp only [putAt]
        rw [mget_mput (typedD_sorted hd), if_pos rfl]
        exact valAt_putAt_other v (k2 :: ps) (q2 :: qs) (curDict_mget_typed hd k') h'
    · cases qs with
      | nil => simp only [putAt, valAt]; rw [mget_mput (typedD_sorted hd), if_neg hk]
      | cons q2 qs => simp only [putAt, valAt]; rw [mget_mput (typedD_sorted hd), if_neg hk]

/-- What was erased is gone. -/
theorem valAt_delAt_self : ∀ (p : List Bytes) {d : Dict}, typedD d = true →
    valAt (delAt d p) p = none
  | [], _, _ => rfl
  | [k], d, hd => by
    simp only [delAt, valAt]
    rw [mget_mdel (typedD_sorted hd), if_pos rfl]
  | k :: k2 :: ps, d, hd => by
    simp only [delAt]
    split
    · rename_i e he
      simp only [valAt]
      rw [mget_mput (typedD_sorted hd), if_pos rfl]
      have := typed_of_mget hd he
      exact valAt_delAt_self (k2 :: ps) (by simpa [Val.typed] using this)
    · rename_i hne
      simp only [valAt]

theorem delAt_eq (k k2 : Bytes) (ps : List Bytes) (d : Dict) (q2 : Bytes) (qs : List Bytes)
    (hd : typedD d = true) : valAt (delAt d (k :: k2 :: ps)) (k :: q2 :: qs) =
      valAt (delAt (curDict (mget k d)) (k2 :: ps)) (q2 :: qs) := by
  have hnil : ∀ ps : List Bytes, delAt [] ps = [] := by
    intro ps; rcases ps with _ | ⟨a, _ | ⟨b, t⟩⟩ <;> simp [delAt, mdel, mget]
  rw [delAt]
  split
  · rename_i e he
    rw [valAt_curDict, mget_mput (typedD_sorted hd), if_pos rfl, he]
    rfl
  · rename_i hne
    rw [valAt_curDict]
    cases hm : mget k d with
    | none => rw [curDict, hnil]; simp
    | some v =>
      cases v with
      | dict e => exact absurd hm (hne e)
      | set s => rw [curDict, hnil]; all_goals simp
      | scalar x => rw [curDict, hnil]; all_goals simp

/-- Erasing a value does not affect other positions. -/
theorem valAt_delAt_other : ∀ (p q : List Bytes) {d : Dict}, typedD d = true →
    ¬ Nested p q → valAt (delAt d p) q = valAt d q
  | [], q, _, _, h => absurd (.inl List.nil_prefix) h
  | k :: ps, [], _, _, h => absurd (.inr List.nil_prefix) h
  | [k], k' :: qs, d, hd, h => by
    have hk : k' ≠ k := by
      rintro rfl; exact h (.inl (by simp [List.cons_prefix_cons]))
    cases qs with
    | nil => simp only [delAt, valAt]; rw [mget_mdel (typedD_sorted hd), if_neg hk]
    | cons k2 qs => simp only [delAt, valAt]; rw [mget_mdel (typedD_sorted hd), if_neg hk]
  | k :: k2 :: ps, k' :: qs, d, hd, h => by
    by_cases hk : k' = k
    · subst hk
      have h' : ¬ Nested (k2 :: ps) qs := fun hn => h (nested_cons.2 hn)
      cases qs with
      | nil => exact absurd (.inr List.nil_prefix) h'
      | cons q2 qs =>
        rw [delAt_eq _ _ _ _ _ _ hd, valAt_curDict]
        exact valAt_delAt_other (k2 :: ps) (q2 :: qs) (curDict_mget_typed hd k') h'
    · simp only [delAt]
      split
      · cases qs with
        | nil => simp only [valAt]; rw [mget_mput (typedD_sorted hd), if_neg hk]
        | cons q2 qs => simp only [valAt]; rw [mget_mput (typedD_sorted hd), if_neg hk]
      · rfl

/-! ### Scalars and sets seen through `valAt` -/

theorem scalarAt_eq : ∀ (p : List Bytes) (d : Dict), scalarAt d p =
    (valAt d p).bind fun v => match v with
      | .scalar x => some x
      | _ => none
  | [], _ => rfl
  | [k], d => by
    simp only [scalarAt, valAt]
    cases mget k d with
    | none => rfl
    | some v => cases v <;> rfl
  | k :: k2 :: ps, d => by
    simp only [scalarAt, valAt]
    cases mget k d with
    | none => rfl
    | some v =>
      cases v with
      | dict e => exact scalarAt_eq (k2 :: ps) e
      | set s => rfl
      | scalar x => rfl

theorem memberAt_eq : ∀ (p : List Bytes) (d : Dict) (x : Scalar), memberAt d p x =
    decide (x ∈ curSet (valAt d p))
  | [], _, _ => by simp [memberAt, valAt, curSet]
  | [k], d, x => by
    simp only [memberAt, valAt]
    split
    · rename_i s hs; simp [hs, curSet]
    · rename_i hne
      have : curSet (mget k d) = [] := by
        unfold curSet; split
        · rename_i s hs; exact absurd hs (hne s)
        · rfl
      simp [this]
  | k :: k2 :: ps, d, x => by
    rw [valAt_curDict, ← memberAt_eq (k2 :: ps)]
    simp only [memberAt]
    split
    · rename_i e he; rw [he]; rfl
    · rename_i hne
      have : curDict (mget k d) = [] := by
        unfold curDict; split
        · rename_i s hs; exact absurd hs (hne s)
        · rfl
      rw [this, memberAt_nil]

theorem curDict_pruneD {d : Dict} (hd : typedD d = true) (k : Bytes) :
    curDict (mget k (pruneD d)) = pruneD (curDict (mget k d)) := by
  rw [mget_pruneD (typedD_sorted hd)]
  cases mget k d with
  | none => rfl
  | some v =>
    rw [Option.bind_some]
    cases v with
    | dict e =>
      show curDict (if (Val.dict (pruneD e)).emptyVal = true then none else some (.dict (pruneD e))) =
        pruneD e
      by_cases hn : pruneD e = []
      · rw [if_pos (by simp [Val.emptyVal, hn]), hn]; rfl
      · rw [if_neg (by simpa [Val.emptyVal] using hn)]; rfl
    | set s =>
      show curDict (if (Val.set s).emptyVal = true then none else some (.set s)) = []
      split <;> rfl
    | scalar x => rfl

/-- Pruning removes exactly the values that are, or become, empty. -/
theorem valAt_pruneD : ∀ (p : List Bytes) {d : Dict}, typedD d = true →
    valAt (pruneD d) p = (valAt d p).bind fun v =>
      if v.prune.emptyVal then none else some v.prune
  | [], _, _ => rfl
  | [k], d, hd => mget_pruneD (typedD_sorted hd) k
  | k :: k2 :: ps, d, hd => by
    rw [valAt_curDict, valAt_curDict, curDict_pruneD hd]
    exact valAt_pruneD (k2 :: ps) (curDict_mget_typed hd k)

end Verif
