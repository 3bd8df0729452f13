import Verif.UserGroups
import Verif.Props.Convo

/-!
# Records stored under an id: facts that do not depend on the kind of record
-/

namespace Verif

/-- Two spellings of an id with the prefix `pre` -/
def SameRec (pre a b : Bytes) : Prop := ∃ pk, idBytes a pre = .ok pk ∧ idBytes b pre = .ok pk

theorem sameRec_iff {pre a b : Bytes} : SameRec pre a b ↔
    checkId a pre = true ∧ checkId b pre = true ∧ lower a = lower b := by
  constructor
  · rintro ⟨pk, ha, hb⟩
    refine ⟨?_, ?_, idBytes_same ha hb⟩
    · unfold idBytes at ha; split at ha
      · assumption
      · cases ha
    · unfold idBytes at hb; split at hb
      · assumption
      · cases hb
  · rintro ⟨ha, hb, he⟩
    refine ⟨fromHex a, by unfold idBytes; rw [if_pos ha], ?_⟩
    have h1 : isHex a = true := by
      simp only [checkId, Bool.and_eq_true] at ha; exact ha.1.2
    have h2 : isHex b = true := by
      simp only [checkId, Bool.and_eq_true] at hb; exact hb.1.2
    unfold idBytes; rw [if_pos hb, (fromHex_inj h1 h2).2 he]

theorem SameRec.refl {pre a pk : Bytes} (h : idBytes a pre = .ok pk) : SameRec pre a a := ⟨pk, h, h⟩

theorem getRec_eq {R : Type} {c : Client} {P : List Bytes} {pre : Bytes} {L : Bytes → Dict → R}
    {id pk : Bytes} (h : idBytes id pre = .ok pk) :
    c.getRec P pre L id = .ok (loadAt (L id) (c.get (P ++ [pk]))) := by
  unfold Client.getRec; rw [h]; rfl

theorem getRec_congr {R : Type} {c c' : Client} {P : List Bytes} {pre : Bytes} {L : Bytes → Dict → R}
    {id : Bytes} (h : ∀ pk, idBytes id pre = .ok pk → c'.get (P ++ [pk]) = c.get (P ++ [pk])) :
    c'.getRec P pre L id = c.getRec P pre L id := by
  unfold Client.getRec
  cases hi : idBytes id pre with
  | ok pk => simp only [Out.bind, h pk hi]
  | err e => rfl
  | hang => rfl
  | ub => rfl

theorem setRec_ok {S : Sys} {c c' : Client} {P : List Bytes} {pre id : Bytes}
    {fs : Bytes → List (Bytes × Option Val)} (h : c.setRec S P pre id fs = (c', .ok ())) :
    ∃ pk, idBytes id pre = .ok pk ∧ c.writeAll S (entries (P ++ [pk]) (fs pk)) = (c', .ok ()) := by
  unfold Client.setRec at h
  split at h
  · exact ⟨_, by assumption, h⟩
  · cases h
  · cases h
  · cases h

/-- Writing a record: what is there afterwards, and that nothing else changed. -/
theorem setRec_spec {S : Sys} (hS : S.Good) {P : List Bytes} (hP : P ≠ []) {pre id : Bytes}
    {fs : Bytes → List (Bytes × Option Val)} (hn : ∀ pk, ((fs pk).map (·.1)).Nodup)
    (hw : ∀ pk, ∀ f ∈ fs pk, wfO f.2 = true) (hne : ∀ pk, ∃ f ∈ fs pk, f.2.isSome = true)
    {c c' : Client} (hr : Reach S c) (h : c.setRec S P pre id fs = (c', .ok ())) :
    Reach S c' ∧ ∃ pk, idBytes id pre = .ok pk ∧
    (∃ e, c'.get (P ++ [pk]) = some (.dict e) ∧ ∀ f ∈ fs pk, mget f.1 e = f.2) ∧
    (∀ f, f ∉ (fs pk).map (·.1) → c'.get (P ++ [pk] ++ [f]) = c.get (P ++ [pk] ++ [f])) ∧
    (∀ k', k' ≠ pk → c'.get (P ++ [k']) = c.get (P ++ [k'])) ∧
    (∀ q, ¬ Nested P q → c'.get q = c.get q) ∧
    (c'.table P).length = (c.table P).length + (if (c.get (P ++ [pk])).isSome then 0 else 1) := by
  obtain ⟨pk, hpk, h⟩ := setRec_ok h
  obtain ⟨h1, h2⟩ := record_written hS hP (hn pk) (hw pk) (hne pk) hr h
  exact ⟨h1, pk, hpk, h2⟩

/-- The other records of the table are as before. -/
theorem setRec_other {R : Type} {c c' : Client} {P : List Bytes} {pre id pk : Bytes} {L : Bytes → Dict → R}
    (hpk : idBytes id pre = .ok pk) (ho : ∀ k', k' ≠ pk → c'.get (P ++ [k']) = c.get (P ++ [k']))
    {id' : Bytes} (hn : ¬ SameRec pre id' id) : c'.getRec P pre L id' = c.getRec P pre L id' :=
  getRec_congr fun pk' hi => ho pk' (by rintro rfl; exact hn ⟨_, hi, hpk⟩)

/-- When `set` throws, and that it then does nothing. -/
theorem setRec_error {S : Sys} (hS : S.Good) {P : List Bytes} {pre id : Bytes}
    {fs : Bytes → List (Bytes × Option Val)} (hw : ∀ pk, ∀ f ∈ fs pk, wfO f.2 = true)
    {c : Client} (hr : Reach S c) :
    ((c.setRec S P pre id fs).2 ≠ .ok () → (c.setRec S P pre id fs).1 = c) ∧
    (checkId id pre = false → (c.setRec S P pre id fs).2 = .err .foreign) ∧
    (checkId id pre = true → S.env.readonly = false → int64Ok (c.seqno + 1) = true →
      (c.setRec S P pre id fs).2 = .ok ()) := by
  refine ⟨fun h => ?_, fun h => ?_, fun h hro hov => ?_⟩
  · unfold Client.setRec at h ⊢
    split
    · rename_i pk hpk
      rw [hpk] at h
      exact writeAll_error hS _ hr (entries_ok (hw pk)) h
    · rfl
    · rfl
    · rfl
  · unfold Client.setRec idBytes
    rw [if_neg (by rw [h]; simp)]
  · unfold Client.setRec idBytes
    rw [if_pos h]
    obtain ⟨c', hc'⟩ := writeAll_succeeds hS (entries (P ++ [fromHex id]) (fs (fromHex id))) hr
      (entries_ok (hw _)) hro hov
    simp only [hc']

theorem eraseImpl_ok {S : Sys} {c c' : Client} {p : List Bytes} {b : Bool}
    (h : c.eraseImpl S p = (c', .ok b)) : c.erase S p = (c', .ok ()) ∧ b = (c.get p).isSome := by
  unfold Client.eraseImpl at h
  split at h
  · rename_i c2 h2
    obtain ⟨rfl, ho⟩ := Prod.mk.inj h
    exact ⟨h2, (Out.ok.inj ho).symm⟩
  · cases (Prod.mk.inj h).2
  · cases (Prod.mk.inj h).2
  · cases (Prod.mk.inj h).2

/-- Erasing a record -/
theorem eraseRec_spec {R : Type} {S : Sys} (hS : S.Good) {P : List Bytes} (hP : P ≠ []) {pre id : Bytes}
    (L : Bytes → Dict → R) {c c' : Client} (hr : Reach S c) {b : Bool}
    (h : c.eraseRec S P pre id = (c', .ok b)) :
    Reach S c' ∧ (∀ id', SameRec pre id' id → c'.getRec P pre L id' = .ok none) ∧
    (∀ id', ¬ SameRec pre id' id → c'.getRec P pre L id' = c.getRec P pre L id') ∧
    (∀ q, ¬ Nested P q → c'.get q = c.get q) ∧
    (c.getRec P pre L id ≠ .ok none → b = true) ∧
    (c.table P).length = (c'.table P).length + (if b then 1 else 0) := by
  unfold Client.eraseRec at h
  split at h
  · rename_i pk hpk
    obtain ⟨h0, hb⟩ := eraseImpl_ok h
    obtain ⟨h1, h2, h3, h4, h5⟩ := record_erased hS hP hr h0
    refine ⟨h1, ?_, fun id' hn => setRec_other hpk h3 hn, h4, fun hn => ?_, by rw [h5, hb]⟩
    · rintro id' ⟨pk', i1, i2⟩
      rw [hpk] at i2; cases i2
      rw [getRec_eq i1, h2]; rfl
    · rw [hb]
      rw [getRec_eq hpk] at hn
      by_contra hs
      rw [Bool.not_eq_true, Option.isSome_eq_false_iff, Option.isNone_iff_eq_none] at hs
      rw [hs] at hn
      exact hn rfl
  · cases (Prod.mk.inj h).2
  · cases (Prod.mk.inj h).2
  · cases (Prod.mk.inj h).2

theorem recEntry_some {R : Type} {b : UInt8} {L : Bytes → Dict → R} {y : Bytes × Val} {z : R} :
    recEntry b L y = some z ↔ y.1.length = 33 ∧ y.1.head? = some b ∧ loadAt (L (toHex y.1)) (some y.2) = some z := by
  unfold recEntry
  by_cases h : y.1.length = 33 ∧ y.1.head? = some b
  · rw [if_pos h]; simp [h.1, h.2]
  · rw [if_neg h]
    constructor
    · intro h'; cases h'
    · rintro ⟨a, b, _⟩; exact absurd ⟨a, b⟩ h

/-- Iteration over a table of records: exactly those `get` finds, under the lower-case spelling of the
id, each once, in the order of the ids; as many as the table has entries if all of these are well formed. -/
theorem recs_spec {R : Type} {S : Sys} (hS : S.Good) {c : Client} (hc : Reach S c) {P : List Bytes} (hP : P ≠ [])
    {pre : Bytes} {b : UInt8} (L : Bytes → Dict → R) (rid : R → Bytes) (hrid : ∀ id d, rid (L id d) = id)
    (hb1 : ∀ {pk : Bytes}, pk.length = 33 → pk.head? = some b → idBytes (toHex pk) pre = .ok pk)
    (hb2 : ∀ {id pk : Bytes}, idBytes id pre = .ok pk → pk.length = 33 ∧ pk.head? = some b) :
    (∀ x, x ∈ c.recs P b L ↔ lower (rid x) = rid x ∧ c.getRec P pre L (rid x) = .ok (some x)) ∧
    ((c.recs P b L).map rid).Pairwise (fun a b => fromHex a < fromHex b) ∧
    (c.recs P b L).length ≤ (c.table P).length ∧
    ((∀ pk v, c.get (P ++ [pk]) = some v → pk.length = 33 ∧ pk.head? = some b ∧ ∃ e, v = .dict e) →
      (c.recs P b L).length = (c.table P).length) := by
  have hs := table_sorted hS hc P
  have hkey : ∀ y z, recEntry b L y = some z → rid z = toHex y.1 := by
    intro y z h
    obtain ⟨_, _, h⟩ := recEntry_some.1 h
    cases hy : y.2 with
    | dict e =>
      rw [hy] at h
      have h : L (toHex y.1) e = z := Option.some.inj h
      rw [← h, hrid]
    | set s => rw [hy] at h; cases h
    | scalar s => rw [hy] at h; cases h
  refine ⟨fun x => ?_, ?_, List.length_filterMap_le _ _, fun hall => ?_⟩
  · unfold Client.recs
    rw [List.mem_filterMap]
    constructor
    · rintro ⟨⟨pk, v⟩, hm, he⟩
      have hk := hkey _ _ he
      obtain ⟨h1, h2, h3⟩ := recEntry_some.1 he
      rw [← mget_iff_mem hs, table_mget hP] at hm
      refine ⟨by rw [hk]; exact toHex_lower _, ?_⟩
      rw [hk, getRec_eq (hb1 h1 h2), hm]
      exact congrArg Out.ok h3
    · rintro ⟨h1, h2⟩
      cases hi : idBytes (rid x) pre with
      | ok pk =>
        rw [getRec_eq hi] at h2
        have h2 := Out.ok.inj h2
        obtain ⟨hl, hh⟩ := hb2 hi
        have hx : toHex pk = rid x := by
          obtain ⟨e1, e2, _⟩ := idBytes_ok hi
          rw [e1, toHex_fromHex _ e2, h1]
        cases hv : c.get (P ++ [pk]) with
        | none => rw [hv] at h2; cases h2
        | some v =>
          refine ⟨(pk, v), ?_, recEntry_some.2 ⟨hl, hh, ?_⟩⟩
          · rw [← mget_iff_mem hs, table_mget hP]; exact hv
          · rw [hx, ← hv]; exact h2
      | err e => unfold Client.getRec at h2; rw [hi] at h2; cases h2
      | hang => unfold Client.getRec at h2; rw [hi] at h2; cases h2
      | ub => unfold Client.getRec at h2; rw [hi] at h2; cases h2
  · unfold Client.recs
    rw [List.pairwise_map, List.pairwise_filterMap]
    refine hs.imp ?_
    intro y z hyz a ha b hb
    rw [hkey _ _ ha, hkey _ _ hb, fromHex_toHex, fromHex_toHex]
    exact hyz
  · unfold Client.recs
    have : ∀ {l : Dict}, (∀ y ∈ l, (recEntry b L y).isSome = true) → (l.filterMap (recEntry b L)).length = l.length := by
      intro l
      induction l with
      | nil => intro _; rfl
      | cons a t ih =>
        intro h
        obtain ⟨z, hz⟩ := Option.isSome_iff_exists.1 (h a (by simp))
        rw [List.filterMap_cons, hz]
        simp only [List.length_cons, ih fun y hy => h y (by simp [hy])]
    refine this ?_
    intro ⟨pk, v⟩ hy
    rw [← mget_iff_mem hs, table_mget hP] at hy
    obtain ⟨h1, h2, e, rfl⟩ := hall pk v hy
    unfold recEntry
    rw [if_pos ⟨h1, h2⟩]; rfl

/-! ### Reading on another device -/

theorem maybeSet_of_pruned {d : Dict} (hd : typedD d = true) (k : Bytes) :
    (maybeSet (pruneD d) k).getD [] = (maybeSet d k).getD [] := by
  have := mget_pruneD (typedD_sorted hd) k
  unfold maybeSet
  rw [this]
  cases mget k d with
  | none => rfl
  | some v =>
    rw [Option.bind_some]
    cases v with
    | dict e =>
      by_cases hh : (Val.dict e).prune.emptyVal = true
      · rw [if_pos hh]
      · rw [if_neg hh]; rfl
    | set s =>
      by_cases hh : (Val.set s).prune.emptyVal = true
      · rw [if_pos hh]
        cases s with
        | nil => rfl
        | cons a t => cases hh
      · rw [if_neg hh]; rfl
    | scalar x => rfl

/-- The same for the readers `maybe_int`, `maybe_string`, `maybe_set` -/
def SameReads (d d' : Dict) : Prop := ∀ k, maybeInt d' k = maybeInt d k ∧ maybeStr d' k = maybeStr d k ∧
  (maybeSet d' k).getD [] = (maybeSet d k).getD []

/-- A record with at least one string in it, on an object with the same content stored without empty
dicts. -/
theorem get_pruned_rec {c r' : Client} (ht : typedD c.conf.m.data = true)
    (hd : r'.conf.m.data = pruneD c.conf.m.data) (p : List Bytes) :
    (c.get p = none → r'.get p = none) ∧
    (∀ e k, c.get p = some (.dict e) → (maybeStr e k).isSome = true →
      ∃ e', r'.get p = some (.dict e') ∧ SameReads e e') := by
  have hg : r'.get p = (c.get p).bind fun v => if v.prune.emptyVal then none else some v.prune := by
    unfold Client.get; rw [hd]; exact valAt_pruneD _ ht
  refine ⟨fun h => by rw [hg, h]; rfl, fun e k he hk => ?_⟩
  have hte : typedD e = true := by simpa [Val.typed] using valAt_typed _ ht he
  have hm := maybe_of_pruned hte
  have : (Val.dict e).prune.emptyVal = false := by
    simp only [Val.prune, Val.emptyVal]
    rw [← (hm k).2] at hk
    cases hp : pruneD e with
    | nil => rw [hp] at hk; cases hk
    | cons a t => rfl
  rw [he, Option.bind_some, this] at hg
  simp only [Bool.false_eq_true, if_false, Val.prune] at hg
  exact ⟨pruneD e, hg, fun k => ⟨(hm k).1, (hm k).2, maybeSet_of_pruned hte k⟩⟩

/-- A record that has a string in it reads the same on an object with the same content. -/
theorem getRec_pruned {R : Type} {c r' : Client} (ht : typedD c.conf.m.data = true)
    (hd : r'.conf.m.data = pruneD c.conf.m.data) {P : List Bytes} {pre : Bytes} {L : Bytes → Dict → R}
    (hL : ∀ id d d', SameReads d d' → L id d' = L id d) (id : Bytes)
    (hne : ∀ pk, idBytes id pre = .ok pk → c.get (P ++ [pk]) ≠ none →
      ∃ k, (maybeStr (curDict (c.get (P ++ [pk]))) k).isSome = true) :
    r'.getRec P pre L id = c.getRec P pre L id := by
  unfold Client.getRec
  cases hi : idBytes id pre with
  | err e => rfl
  | hang => rfl
  | ub => rfl
  | ok pk =>
    obtain ⟨p1, p2⟩ := get_pruned_rec ht hd (P ++ [pk])
    cases hv : c.get (P ++ [pk]) with
    | none => simp only [Out.bind, hv, p1 hv]
    | some v =>
      obtain ⟨k, hk⟩ := hne pk hi (by rw [hv]; simp)
      rw [hv] at hk
      cases v with
      | dict e =>
        obtain ⟨e', he', hs⟩ := p2 e k hv hk
        simp only [Out.bind, hv, he', loadAt, hL id e e' hs]
      | set s => cases hk
      | scalar x => cases hk

end Verif
