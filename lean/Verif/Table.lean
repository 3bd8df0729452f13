import Verif.Records
import Verif.Hex
import Mathlib.Data.Finset.Card
import Mathlib.Data.Finset.Dedup

/-!
# Tables of records

`data["c"]`, `data["1"]`, ... hold a dict from binary ids to records
(src/config/contacts.cpp, src/config/convo_info_volatile.cpp, src/config/user_groups.cpp,
src/config/groups/members.cpp).  What writing or erasing one record does to the table as a whole.
-/

namespace Verif

/-- `data[P...].dict()`, empty if there is none: what `size()` counts and `begin()` iterates over
(e.g. src/config/contacts.cpp:322-326). -/
def Client.table (c : Client) (P : List Bytes) : Dict := curDict (c.get P)

theorem table_mget {c : Client} {P : List Bytes} (hP : P ≠ []) (k : Bytes) :
    mget k (c.table P) = c.get (P ++ [k]) := by
  unfold Client.table Client.get
  rw [valAt_snoc P k _ hP]
  cases valAt c.conf.m.data P with
  | none => rfl
  | some v => cases v <;> rfl

theorem table_sorted {S : Sys} (hS : S.Good) {c : Client} (hr : Reach S c) (P : List Bytes) :
    KSorted (c.table P) := by
  refine typedD_sorted (curDict_typed (c := c.get P) fun w hw => ?_)
  exact valAt_typed P (hr.inv hS).wf.data hw

/-- The keys of a dict, as a set. -/
def keySet (d : Dict) : Finset Bytes := (d.map (·.1)).toFinset

theorem mem_keySet {d : Dict} (k : Bytes) : k ∈ keySet d ↔ (mget k d).isSome = true := by
  unfold keySet
  rw [List.mem_toFinset]
  constructor
  · intro h
    by_contra hn
    rw [Option.not_isSome_iff_eq_none, mget_eq_none_iff] at hn
    obtain ⟨b, hb, rfl⟩ := List.mem_map.1 h
    exact hn b hb rfl
  · intro h
    by_contra hn
    have : mget k d = none := by
      rw [mget_eq_none_iff]
      rintro b hb rfl
      exact hn (List.mem_map.2 ⟨b, hb, rfl⟩)
    rw [this] at h; cases h

theorem keySet_card {d : Dict} (h : KSorted d) : (keySet d).card = d.length := by
  unfold keySet
  rw [List.toFinset_card_of_nodup h.nodup_keys, List.length_map]

/-- If only the entry at `k` changes, the size changes by the entry coming or going. -/
theorem length_change {d d' : Dict} (h : KSorted d) (h' : KSorted d') (k : Bytes)
    (ho : ∀ k', k' ≠ k → mget k' d' = mget k' d) :
    d'.length + (if (mget k d).isSome then 1 else 0) =
      d.length + (if (mget k d').isSome then 1 else 0) := by
  have e : ∀ {x : Dict}, KSorted x → x.length =
      ((keySet x).erase k).card + (if (mget k x).isSome then 1 else 0) := by
    intro x hx
    rw [← keySet_card hx]
    by_cases hk : k ∈ keySet x
    · rw [if_pos ((mem_keySet k).1 hk), Finset.card_erase_add_one hk]
    · rw [if_neg (fun hh => hk ((mem_keySet k).2 hh)), Finset.erase_eq_of_notMem hk]; rfl
  have heq : (keySet d').erase k = (keySet d).erase k := by
    ext x
    simp only [Finset.mem_erase, mem_keySet]
    constructor
    · rintro ⟨hx, hm⟩; exact ⟨hx, by rw [← ho x hx]; exact hm⟩
    · rintro ⟨hx, hm⟩; exact ⟨hx, by rw [ho x hx]; exact hm⟩
  have h1 := e h
  have h2 := e h'
  rw [heq] at h2
  omega

/-- Fields of different records of a table are not nested. -/
theorem not_nested_record {P : List Bytes} {k k' f : Bytes} (h : k ≠ k') :
    ¬ Nested (P ++ [k] ++ [f]) (P ++ [k']) := by
  rintro (hn | hn)
  · have := hn.length_le
    simp at this
  · have h1 : (P ++ [k']) <+: (P ++ [k]) := by
      refine List.prefix_of_prefix_length_le hn (List.prefix_append _ [f]) (by simp)
    have := h1.eq_of_length (by simp)
    simp at this
    exact h this.symm

theorem nested_trans_left {p q r : List Bytes} (h : p <+: q) (hn : Nested q r) : Nested p r := by
  rcases hn with h1 | h1
  · exact .inl (h.trans h1)
  · rcases Nat.le_total p.length r.length with hl | hl
    · exact .inl (List.prefix_of_prefix_length_le h h1 hl)
    · exact .inr (List.prefix_of_prefix_length_le h1 h hl)

/-- Writing a record into a table with at least one value: the record is there, with the fields
written; the other records, and everything that is not in this record, are untouched; the table has
one entry more if the record is new. -/
theorem record_written {S : Sys} (hS : S.Good) {P : List Bytes} (hP : P ≠ []) {k : Bytes}
    {fs : List (Bytes × Option Val)} (hn : (fs.map (·.1)).Nodup)
    (hw : ∀ f ∈ fs, wfO f.2 = true) (hne : ∃ f ∈ fs, f.2.isSome = true) {c c' : Client}
    (hr : Reach S c) (h : c.writeAll S (entries (P ++ [k]) fs) = (c', .ok ())) :
    Reach S c' ∧
    (∃ e, c'.get (P ++ [k]) = some (.dict e) ∧ ∀ f ∈ fs, mget f.1 e = f.2) ∧
    (∀ f, f ∉ fs.map (·.1) → c'.get (P ++ [k] ++ [f]) = c.get (P ++ [k] ++ [f])) ∧
    (∀ k', k' ≠ k → c'.get (P ++ [k']) = c.get (P ++ [k'])) ∧
    (∀ q, ¬ Nested P q → c'.get q = c.get q) ∧
    (c'.table P).length = (c.table P).length + (if (c.get (P ++ [k])).isSome then 0 else 1) := by
  obtain ⟨h1, h2, h3⟩ := writeEntries_get hS hn hw hr h
  obtain ⟨f0, hf0, hs0⟩ := hne
  obtain ⟨v0, hv0⟩ := Option.isSome_iff_exists.1 hs0
  obtain ⟨e, he, _⟩ := get_dict (by simp) ((h2 f0 hf0).trans hv0)
  have hother : ∀ k', k' ≠ k → c'.get (P ++ [k']) = c.get (P ++ [k']) := fun k' hk' =>
    h3 _ fun f _ => not_nested_record (Ne.symm hk')
  refine ⟨h1, ⟨e, he, fun f hf => ?_⟩, fun f hf => ?_, hother, fun q hq => ?_, ?_⟩
  · rw [← get_entry (by simp) he, h2 f hf]
  · refine h3 _ fun g hg => not_nested_snoc ?_
    rintro rfl
    exact hf (List.mem_map.2 ⟨g, hg, rfl⟩)
  · refine h3 _ fun f _ hn => hq (nested_trans_left ?_ hn)
    rw [List.append_assoc]; exact List.prefix_append _ _
  · have := length_change (table_sorted hS hr P) (table_sorted hS h1 P) k fun k' hk' => by
      rw [table_mget hP, table_mget hP, hother k' hk']
    rw [table_mget hP, table_mget hP, he] at this
    simp only [Option.isSome_some, if_true] at this
    split at this <;> rename_i hh
    · rw [if_pos hh]; omega
    · rw [if_neg hh]; omega

/-- Erasing a record: it is gone, nothing else changes, the table has one entry less if it was
there. -/
theorem record_erased {S : Sys} (hS : S.Good) {P : List Bytes} (hP : P ≠ []) {k : Bytes}
    {c c' : Client} (hr : Reach S c) (h : c.erase S (P ++ [k]) = (c', .ok ())) :
    Reach S c' ∧ c'.get (P ++ [k]) = none ∧
    (∀ k', k' ≠ k → c'.get (P ++ [k']) = c.get (P ++ [k'])) ∧
    (∀ q, ¬ Nested P q → c'.get q = c.get q) ∧
    (c.table P).length = (c'.table P).length + (if (c.get (P ++ [k])).isSome then 1 else 0) := by
  obtain ⟨h1, h2, h3⟩ := erase_get hS hr h
  have hother : ∀ k', k' ≠ k → c'.get (P ++ [k']) = c.get (P ++ [k']) := fun k' hk' =>
    h2 _ (not_nested_snoc (Ne.symm hk'))
  refine ⟨h3, h1, hother, fun q hq => h2 q fun hn => hq (nested_trans_left (List.prefix_append _ _) hn), ?_⟩
  have := length_change (table_sorted hS hr P) (table_sorted hS h3 P) k fun k' hk' => by
    rw [table_mget hP, table_mget hP, hother k' hk']
  rw [table_mget hP, table_mget hP, h1] at this
  simp only [Option.isSome_none, Bool.false_eq_true, if_false] at this
  omega

end Verif
