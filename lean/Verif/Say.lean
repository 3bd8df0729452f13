import Verif.ReplayLemmas

/-!
# What a change record says about a leaf, irrespective of where values are taken from

`effScalar df src p` (Verif/Spec.lean) is the effect of applying the record `df` with values from
`src`.  `sayS df p` and `sayM df p x` are the part of it that does not depend on `src`: used to follow
a change record that is replayed later with the values of a descendant.
-/

namespace Verif

/-- Nothing, "there is a scalar" or "there is no scalar". -/
def sayS (df : BtDict) : List Bytes → Option Bool
  | [] => none
  | [k] => match mget k df with
    | none => none
    | some (.str s) => some (decide (s ≠ [45]))
    | some _ => some false
  | k :: k2 :: ps => match mget k df with
    | none => none
    | some (.dict dd) => sayS dd (k2 :: ps)
    | some _ => some false

/-- Nothing, "the set contains x" or "the set does not contain x". -/
def sayM (df : BtDict) : List Bytes → Scalar → Option Bool
  | [], _ => none
  | [k], x => match mget k df with
    | none => none
    | some (.list [.list add, .list del]) =>
      if x.bt ∈ del then some false else if x.bt ∈ add then some true else none
    | some _ => some false
  | k :: k2 :: ps, x => match mget k df with
    | none => none
    | some (.dict dd) => sayM dd (k2 :: ps) x
    | some _ => some false

theorem effScalar_none_say {df : BtDict} {src : Dict} {p : List Bytes}
    (h : effScalar df src p = none) : sayS df p = none := by
  induction p generalizing df src with
  | nil => rfl
  | cons k ps ih =>
    cases ps with
    | nil =>
      simp only [effScalar] at h
      simp only [sayS]
      cases hk : mget k df with
      | none => rfl
      | some v =>
        rw [hk] at h
        exfalso
        cases v with
        | str s => simp only at h; repeat' (split at h <;> try cases h)
        | _ => simp at h
    | cons k2 ps =>
      simp only [effScalar] at h
      simp only [sayS]
      cases hk : mget k df with
      | none => rfl
      | some v =>
        rw [hk] at h
        cases v with
        | dict dd =>
          simp only at h ⊢
          split at h
          · exact ih h
          · cases h
        | _ => simp at h

theorem effScalar_some_say {df : BtDict} {src : Dict} {p : List Bytes} {y : Scalar}
    (h : effScalar df src p = some (some y)) : sayS df p = some true ∧ scalarAt src p = some y := by
  induction p generalizing df src with
  | nil => simp [effScalar] at h
  | cons k ps ih =>
    cases ps with
    | nil =>
      simp only [effScalar] at h
      simp only [sayS, scalarAt]
      cases hk : mget k df with
      | none => simp [hk] at h
      | some v =>
        rw [hk] at h
        cases v with
        | str s =>
          simp only at h ⊢
          split at h
          · split at h
            · cases h
            · rename_i hs; simp only [Option.some.injEq] at h; subst h; simp [hs]
          · cases h
        | _ => simp at h
    | cons k2 ps =>
      simp only [effScalar] at h
      simp only [sayS, scalarAt]
      cases hk : mget k df with
      | none => simp [hk] at h
      | some v =>
        rw [hk] at h
        cases v with
        | dict dd =>
          simp only at h ⊢
          split at h
          · exact ih h
          · cases h
        | _ => simp at h

/-- Where the source has a scalar, the effect is what the record says. -/
theorem effScalar_of_scalarAt {df : BtDict} {src : Dict} {p : List Bytes} {y : Scalar}
    (hy : scalarAt src p = some y) :
    effScalar df src p = (sayS df p).map fun b => if b then some y else none := by
  induction p generalizing df src with
  | nil => rfl
  | cons k ps ih =>
    cases ps with
    | nil =>
      simp only [scalarAt] at hy
      simp only [effScalar, sayS]
      cases hk : mget k df with
      | none => rfl
      | some v =>
        cases v with
        | str s =>
          simp only
          split at hy
          · rename_i x hx
            simp only [Option.some.injEq] at hy; subst hy
            by_cases hs : s = [45] <;> simp [hs]
          · cases hy
        | _ => rfl
    | cons k2 ps =>
      simp only [scalarAt] at hy
      simp only [effScalar, sayS]
      cases hk : mget k df with
      | none => rfl
      | some v =>
        cases v with
        | dict dd =>
          simp only
          split at hy
          · rename_i sd hx
            exact ih hy
          · cases hy
        | _ => rfl

/-- The effect on an element is what the record says, or "absent" because the source has no set
there. -/
theorem effMember_cases (df : BtDict) (src : Dict) (p : List Bytes) (x : Scalar) :
    effMember df src p x = sayM df p x ∨
      (effMember df src p x = some false ∧ memberAt src p x = false) := by
  induction p generalizing df src with
  | nil => exact .inl rfl
  | cons k ps ih =>
    cases ps with
    | nil =>
      simp only [effMember, sayM, memberAt]
      cases hk : mget k df with
      | none => exact .inl rfl
      | some v =>
        cases hs : mget k src with
        | none => 
          simp only
          split
          · rename_i h; cases h
          · exact .inr ⟨rfl, trivial⟩
          · exact .inr ⟨rfl, trivial⟩
        | some w =>
          cases w with
          | set s =>
            left
            cases v with
            | list l =>
              rcases l with _ | ⟨a, _ | ⟨b, _ | ⟨c, t⟩⟩⟩
              · rfl
              · cases a <;> rfl
              · cases a <;> cases b <;> rfl
              · cases a <;> cases b <;> rfl
            | _ => rfl
          | scalar s =>
            simp only
            split
            · rename_i h; cases h
            · exact .inr ⟨rfl, trivial⟩
            · exact .inr ⟨rfl, trivial⟩
          | dict s =>
            simp only
            split
            · rename_i h; cases h
            · exact .inr ⟨rfl, trivial⟩
            · exact .inr ⟨rfl, trivial⟩
    | cons k2 ps =>
      simp only [effMember, sayM, memberAt]
      cases hk : mget k df with
      | none => exact .inl rfl
      | some v =>
        cases v with
        | dict dd =>
          simp only
          cases hs : mget k src with
          | none => exact .inr ⟨rfl, rfl⟩
          | some w =>
            cases w with
            | dict sd => simp only; exact ih dd sd
            | scalar s => exact .inr ⟨rfl, rfl⟩
            | set s => exact .inr ⟨rfl, rfl⟩
        | _ => exact .inl rfl

theorem effMember_none_say {df : BtDict} {src : Dict} {p : List Bytes} {x : Scalar}
    (h : effMember df src p x = none) : sayM df p x = none := by
  rcases effMember_cases df src p x with h' | h'
  · rw [← h', h]
  · rw [h] at h'; cases h'.1

theorem effMember_true_say {df : BtDict} {src : Dict} {p : List Bytes} {x : Scalar}
    (h : effMember df src p x = some true) : sayM df p x = some true := by
  rcases effMember_cases df src p x with h' | h'
  · rw [← h', h]
  · rw [h] at h'; cases h'.1

theorem effMember_of_memberAt {df : BtDict} {src : Dict} {p : List Bytes} {x : Scalar}
    (h : memberAt src p x = true) : effMember df src p x = sayM df p x := by
  rcases effMember_cases df src p x with h' | h'
  · exact h'
  · rw [h] at h'; cases h'.2

/-! ### honest change records -/

theorem delD_eq_diffD (d : Dict) : diffD d [] = delD d := by
  induction d with
  | nil => rfl
  | cons a t ih => obtain ⟨k, v⟩ := a; simp [diffD, delD, ih, addD]

theorem addD_eq_diffD (d : Dict) : diffD [] d = addD d := rfl

/-- The record of the change from `B` to `D` says what `D` has, and is silent only where nothing
changed. -/
structure SayOk (B D : Dict) (df : BtDict) (p : List Bytes) : Prop where
  s1 : ∀ b, sayS df p = some b → b = (scalarAt D p).isSome
  s2 : sayS df p = none → scalarAt B p = scalarAt D p
  m1 : ∀ x b, sayM df p x = some b → b = memberAt D p x
  m2 : ∀ x, sayM df p x = none → memberAt B p x = memberAt D p x

/-- The scalar in a slot. -/
def slotS : Option Val → Option Scalar
  | some (.scalar x) => some x
  | _ => none

/-- A notion of the proofs: is the element in the set there? -/
def slotM (x : Scalar) : Option Val → Bool
  | some (.set s) => decide (x ∈ s)
  | _ => false

/-- A notion of the proofs: what a diff entry says about a scalar (src/config.cpp:360-400). -/
def saySlotS : Option Bt → Option Bool
  | none => none
  | some (.str s) => some (decide (s ≠ [45]))
  | some _ => some false

/-- A notion of the proofs: what a diff entry says about an element of a set (src/config.cpp:404-424). -/
def saySlotM (x : Scalar) : Option Bt → Option Bool
  | none => none
  | some (.list [.list add, .list del]) =>
    if x.bt ∈ del then some false else if x.bt ∈ add then some true else none
  | some _ => some false

theorem mem_map_bt (x : Scalar) (l : List Scalar) : x.bt ∈ l.map Scalar.bt ↔ x ∈ l := by
  rw [List.mem_map]
  constructor
  · rintro ⟨y, hy, he⟩; rw [← Scalar.bt_inj he]; exact hy
  · intro h; exact ⟨x, h, rfl⟩

theorem saySlot_diffAt {o n : Option Val} (ho : ∀ v, o = some v → v.typed = true)
    (hn : ∀ v, n = some v → v.typed = true) :
    (∀ b, saySlotS (diffAt o n) = some b → b = (slotS n).isSome) ∧
    (saySlotS (diffAt o n) = none → slotS o = slotS n) ∧
    (∀ x b, saySlotM x (diffAt o n) = some b → b = slotM x n) ∧
    (∀ x, saySlotM x (diffAt o n) = none → slotM x o = slotM x n) := by
  rcases o with _ | (a | a | a) <;> rcases n with _ | (b | b | b)
  all_goals simp only [diffAt, diffV, addV, delV, setDiffBt, slotS, slotM]
  case some.set.some.set =>
    have hsa := ho _ rfl
    have hsb := hn _ rfl
    simp only [Val.typed, Bool.and_eq_true, decide_eq_true_eq] at hsa hsb
    obtain ⟨e1, e2⟩ := mem_diffSet hsa.1 hsb.1
    simp only [diffSetOpt]
    split
    · rename_i he
      simp only [Bool.and_eq_true, List.isEmpty_iff] at he
      simp only [saySlotS, saySlotM]
      refine ⟨by simp, by simp, by simp, fun x _ => ?_⟩
      have h1 := e1 x
      have h2 := e2 x
      rw [he.1] at h1; rw [he.2] at h2
      simp only [List.not_mem_nil, false_iff, not_and, not_not] at h1 h2
      rw [decide_eq_decide]; exact ⟨h2, h1⟩
    · simp only [saySlotS, saySlotM, setDiffBt, mem_map_bt, e1, e2]
      refine ⟨by simp, by simp, fun x y hy => ?_, fun x hx => ?_⟩
      · split at hy
        · rename_i hh; cases hy; simp [hh.2]
        · split at hy
          · rename_i hh; cases hy; simp [hh.1]
          · cases hy
      · split at hx
        · cases hx
        · split at hx
          · cases hx
          · rename_i h1 h2
            rw [decide_eq_decide]
            by_cases ha : x ∈ a <;> by_cases hb : x ∈ b <;> simp_all
  case some.scalar.some.scalar =>
    by_cases hab : a = b
    · simp [hab, saySlotS, saySlotM]
    · simp [hab, saySlotS, saySlotM]
  all_goals refine ⟨fun c hb => ?_, fun hb => ?_, fun x c hb => ?_, fun x hb => ?_⟩
  all_goals simp only [saySlotS, saySlotM, mem_map_bt] at hb
  all_goals first
    | (simp_all; done)
    | (split at hb <;> simp_all)

theorem slot_get (k : Bytes) (d : Dict) (df : BtDict) (x : Scalar) :
    scalarAt d [k] = slotS (mget k d) ∧ memberAt d [k] x = slotM x (mget k d) ∧
    sayS df [k] = saySlotS (mget k df) ∧ sayM df [k] x = saySlotM x (mget k df) := by
  refine ⟨?_, ?_, ?_, ?_⟩
  · rfl
  · rfl
  · rfl
  · rfl

theorem sayOk_diff {B D : Dict} (hB : typedD B = true) (hD : typedD D = true) (p : List Bytes) :
    SayOk B D (diffD B D) p := by
  induction p generalizing B D with
  | nil => exact ⟨by simp [sayS], fun _ => rfl, by simp [sayM], fun _ _ => rfl⟩
  | cons k ps ih =>
    have hk := mget_diffD (typedD_sorted hB) (typedD_sorted hD) k
    cases ps with
    | nil =>
      obtain ⟨h1, h2, h3, h4⟩ := saySlot_diffAt (fun v hv => typed_of_mget hB hv)
        (fun v hv => typed_of_mget hD hv) (o := mget k B) (n := mget k D)
      rw [← hk] at h1 h2 h3 h4
      exact ⟨h1, h2, h3, h4⟩
    | cons k2 ps =>
      have key : ∀ (x y : Dict), typedD x = true → typedD y = true →
          (∀ q, scalarAt B (k :: k2 :: q) = scalarAt x (k2 :: q)) →
          (∀ q z, memberAt B (k :: k2 :: q) z = memberAt x (k2 :: q) z) →
          (∀ q, scalarAt D (k :: k2 :: q) = scalarAt y (k2 :: q)) →
          (∀ q z, memberAt D (k :: k2 :: q) z = memberAt y (k2 :: q) z) →
          (mget k (diffD B D) = some (.dict (diffD x y)) ∨
            (mget k (diffD B D) = none ∧ diffD x y = [])) →
          SayOk B D (diffD B D) (k :: k2 :: ps) := by
        intro x y hx hy a1 a2 a3 a4 hd
        have i := ih hx hy
        rcases hd with hd | ⟨hd, he⟩
        · refine ⟨?_, ?_, ?_, ?_⟩
          · simp only [sayS, hd, a3]; exact i.s1
          · simp only [sayS, hd, a1, a3]; exact i.s2
          · simp only [sayM, hd, a4]; exact i.m1
          · simp only [sayM, hd, a2, a4]; exact i.m2
        · rw [he] at i
          have e1 : sayS [] (k2 :: ps) = none := by cases ps <;> rfl
          have e2 : ∀ z, sayM [] (k2 :: ps) z = none := by intro z; cases ps <;> rfl
          refine ⟨by simp [sayS, hd], ?_, by simp [sayM, hd], ?_⟩
          · intro _; rw [a1, a3]; exact i.s2 e1
          · intro z _; rw [a2, a4]; exact i.m2 z (e2 z)
      have nd : ∀ {v : Option Val} {C : Dict}, mget k C = v → (∀ e, v ≠ some (.dict e)) →
          (∀ q, scalarAt C (k :: k2 :: q) = scalarAt [] (k2 :: q)) ∧
          (∀ q z, memberAt C (k :: k2 :: q) z = memberAt [] (k2 :: q) z) := by
        intro v C hC hv
        refine ⟨fun q => ?_, fun q z => ?_⟩
        · rw [scalarAt_nil]; simp only [scalarAt, hC]
        · rw [memberAt_nil]; simp only [memberAt, hC]
      have dd : ∀ {e : Dict} {C : Dict}, mget k C = some (.dict e) →
          (∀ q, scalarAt C (k :: k2 :: q) = scalarAt e (k2 :: q)) ∧
          (∀ q z, memberAt C (k :: k2 :: q) z = memberAt e (k2 :: q) z) := by
        intro e C hC
        exact ⟨fun q => by simp only [scalarAt, hC], fun q z => by simp only [memberAt, hC]⟩
      -- neither side has a dict there
      have flat : (∀ e, mget k B ≠ some (.dict e)) → (∀ e, mget k D ≠ some (.dict e)) →
          SayOk B D (diffD B D) (k :: k2 :: ps) := by
        intro hb hd
        obtain ⟨b1, b2⟩ := nd rfl hb
        obtain ⟨d1, d2⟩ := nd rfl hd
        have hnd : ∀ e, mget k (diffD B D) ≠ some (.dict e) := by
          intro e he
          rw [hk] at he
          rcases h1 : mget k B with _ | (a | a | a) <;> rcases h2 : mget k D with _ | (b | b | b) <;>
            simp only [h1, h2, diffAt, diffV, addV, delV, setDiffBt, diffSetOpt] at he
          all_goals first
            | (exact hb _ h1; done)
            | (exact hd _ h2; done)
            | (cases he; done)
            | (split at he <;> cases he; done)
        refine ⟨?_, ?_, ?_, ?_⟩
        · intro b hb'
          rw [d1, scalarAt_nil]
          simp only [sayS] at hb'
          split at hb'
          · cases hb'
          · rename_i dd he; exact absurd he (hnd _)
          · cases hb'; rfl
        · intro _; rw [b1, d1]
        · intro x b hb'
          rw [d2, memberAt_nil]
          simp only [sayM] at hb'
          split at hb'
          · cases hb'
          · rename_i dd he; exact absurd he (hnd _)
          · cases hb'; rfl
        · intro x _; rw [b2, d2]
      by_cases hb : ∃ e, mget k B = some (.dict e)
      · obtain ⟨x, hx⟩ := hb
        have tx := typed_of_mget hB hx
        simp only [Val.typed] at tx
        obtain ⟨b1, b2⟩ := dd hx
        by_cases hd : ∃ e, mget k D = some (.dict e)
        · obtain ⟨y, hy⟩ := hd
          have ty := typed_of_mget hD hy
          simp only [Val.typed] at ty
          obtain ⟨d1, d2⟩ := dd hy
          refine key x y tx ty b1 b2 d1 d2 ?_
          rw [hk, hx, hy]
          simp only [diffAt, diffV]
          split
          · rename_i he; exact .inr ⟨rfl, List.isEmpty_iff.1 he⟩
          · exact .inl rfl
        · push Not at hd
          obtain ⟨d1, d2⟩ := nd rfl hd
          cases hD1 : mget k D with
          | none =>
            refine key x [] tx rfl b1 b2 d1 d2 (.inl ?_)
            rw [hk, hx, hD1, delD_eq_diffD]; simp [diffAt, delV]
          | some w =>
            have hw : ∃ b, mget k (diffD B D) = some b ∧ ∀ e, b ≠ .dict e := by
              rw [hk, hx, hD1]
              cases w with
              | dict e => exact absurd hD1 (hd e)
              | scalar z => exact ⟨_, rfl, fun e he => by cases he⟩
              | set z => exact ⟨_, rfl, fun e he => by cases he⟩
            obtain ⟨b, hb1, hb2⟩ := hw
            have e1 : sayS (diffD B D) (k :: k2 :: ps) = some false := by
              simp only [sayS, hb1]
            have e2 : ∀ z, sayM (diffD B D) (k :: k2 :: ps) z = some false := by
              intro z
              simp only [sayM, hb1]
            refine ⟨?_, by simp [e1], ?_, by simp [e2]⟩
            · intro b hb; rw [e1] at hb; cases hb; rw [d1, scalarAt_nil]; try rfl
            · intro z b hb; rw [e2] at hb; cases hb; rw [d2, memberAt_nil]
      · push Not at hb
        obtain ⟨b1, b2⟩ := nd rfl hb
        by_cases hd : ∃ e, mget k D = some (.dict e)
        · obtain ⟨y, hy⟩ := hd
          have ty := typed_of_mget hD hy
          simp only [Val.typed] at ty
          obtain ⟨d1, d2⟩ := dd hy
          refine key [] y rfl ty b1 b2 d1 d2 (.inl ?_)
          rw [hk, hy, addD_eq_diffD]
          cases h1 : mget k B with
          | none => simp [diffAt, addV]
          | some v =>
            cases v with
            | dict e => exact absurd h1 (hb e)
            | _ => simp [diffAt, diffV, addV]
        · push Not at hd
          exact flat hb hd

end Verif
