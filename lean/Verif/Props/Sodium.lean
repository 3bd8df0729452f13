import Verif.Sodium
import Mathlib.Tactic.Common

/-!
# Buffers for secrets behave like values
-/

namespace Verif

/-! ### What a program should see -/

/-- The value of each variable; none outside its lifetime -/
abbrev SVals := Nat → Option Bytes

/-- What an operation does to the values.  None: the program is not valid (a variable used outside its lifetime, or an element
beyond the end). -/
def SVals.exec (A : SVals) : SOp → Option SVals
  | .newEmpty v => if A v = none then some (Function.update A v (some [])) else none
  | .new v n avail => if A v = none then some (if n = 0 ∨ avail then Function.update A v (some (List.replicate n 0)) else A) else none
  | .moveNew v w => match A v, A w with
    | none, some x => some (Function.update (Function.update A w (some [])) v (some x))
    | _, _ => none
  | .reset v => if A v = none then none else some (Function.update A v (some []))
  | .resetTo v n avail => if A v = none then none else
    some (Function.update A v (some (if n = 0 ∨ avail then List.replicate n 0 else [])))
  | .load v data avail => if A v = none then none else some (Function.update A v (some (if data = [] ∨ avail then data else [])))
  | .set v i x => match A v with
    | some y => if i < y.length then some (Function.update A v (some (y.set i x))) else none
    | none => none
  | .destroy v => if A v = none then none else some (Function.update A v none)

def SVals.run (A : SVals) : List SOp → Option SVals
  | [] => some A
  | op :: ops => (A.exec op).bind fun A => A.run ops

/-- The range from `begin()` to `end()` (include/session/util.hpp:271-274) -/
def Arr.bytes (h : Heap) (a : Arr) : Out Bytes := match a.buf with
  | none => if a.len = 0 then .ok [] else .ub
  | some b => match h.mem b with
    | some x => if a.len ≤ x.length then .ok (x.take a.len) else .ub
    | none => .ub

/-- What a program sees of the variables: those alive have a value -/
def SState.Shows (s : SState) (A : SVals) : Prop := ∀ v, match s.obj v with
  | none => A v = none
  | some a => ∃ x, A v = some x ∧ a.bytes s.heap = .ok x

/-! ### The invariant -/

/-- An array with a value: nothing allocated for the empty one, otherwise a block of its size -/
def Rep (h : Heap) (a : Arr) (x : Bytes) : Prop :=
  (a = .empty ∧ x = []) ∨ ∃ b, a = ⟨some b, x.length⟩ ∧ h.mem b = some x ∧ x ≠ []

structure SInv (s : SState) (A : SVals) : Prop where
  dead : ∀ v, s.obj v = none → A v = none
  live : ∀ v a, s.obj v = some a → ∃ x, A v = some x ∧ Rep s.heap a x
  inj : ∀ v w a a' b, s.obj v = some a → s.obj w = some a' → a.buf = some b → a'.buf = some b → v = w
  own : ∀ b x, s.heap.mem b = some x → b < s.heap.next ∧ ∃ v a, s.obj v = some a ∧ a.buf = some b

variable {s : SState} {A : SVals}

theorem SInv.obj_none (h : SInv s A) {v : Nat} (hv : A v = none) : s.obj v = none := by
  cases ho : s.obj v with
  | none => rfl
  | some a => obtain ⟨x, hx, _⟩ := h.live v a ho; rw [hv] at hx; cases hx

theorem SInv.obj_some (h : SInv s A) {v : Nat} (hv : A v ≠ none) : ∃ a x, s.obj v = some a ∧ A v = some x ∧ Rep s.heap a x := by
  cases ho : s.obj v with
  | none => exact absurd (h.dead v ho) hv
  | some a => obtain ⟨x, hx, hr⟩ := h.live v a ho; exact ⟨a, x, rfl, hx, hr⟩

theorem SInv.shows (h : SInv s A) : s.Shows A := by
  intro v
  cases ho : s.obj v with
  | none => exact h.dead v ho
  | some a =>
    obtain ⟨x, hx, hr⟩ := h.live v a ho
    refine ⟨x, hx, ?_⟩
    rcases hr with ⟨rfl, rfl⟩ | ⟨b, rfl, hb⟩
    · rfl
    · unfold Arr.bytes
      simp only [hb]
      rw [if_pos (Nat.le_refl _), List.take_length]

/-- A new empty variable -/
theorem SInv.born (h : SInv s A) {v : Nat} (hv : A v = none) :
    SInv { s with obj := Function.update s.obj v (some .empty) } (Function.update A v (some [])) := by
  have ho := h.obj_none hv
  refine ⟨fun w hw => ?_, fun w a hw => ?_, fun w w' a a' b hw hw' hb hb' => ?_, fun b x hx => ?_⟩
  · by_cases e : w = v
    · subst e; simp at hw
    · simp only [Function.update_of_ne e] at hw ⊢; exact h.dead w hw
  · by_cases e : w = v
    · subst e
      simp only [Function.update_self] at hw ⊢
      exact ⟨[], rfl, .inl ⟨(Option.some.inj hw).symm, rfl⟩⟩
    · simp only [Function.update_of_ne e] at hw ⊢; exact h.live w a hw
  · have e1 : w ≠ v := by rintro rfl; simp at hw; subst hw; cases hb
    have e2 : w' ≠ v := by rintro rfl; simp at hw'; subst hw'; cases hb'
    simp only [Function.update_of_ne e1] at hw
    simp only [Function.update_of_ne e2] at hw'
    exact h.inj w w' a a' b hw hw' hb hb'
  · obtain ⟨h1, w, a, hw, hb⟩ := h.own b x hx
    refine ⟨h1, w, a, ?_, hb⟩
    have e : w ≠ v := by rintro rfl; rw [ho] at hw; cases hw
    simpa [Function.update_of_ne e] using hw

/-- Freeing the block of a variable -/
theorem SInv.freed (h : SInv s A) {v : Nat} {a : Arr} (ho : s.obj v = some a) :
    ∃ h', s.heap.free a.buf = .ok h' ∧ h'.next = s.heap.next ∧
      SInv ⟨h', Function.update s.obj v (some .empty)⟩ (Function.update A v (some [])) := by
  obtain ⟨x, hx, hr⟩ := h.live v a ho
  rcases hr with ⟨rfl, rfl⟩ | ⟨b, rfl, hb⟩
  · refine ⟨s.heap, rfl, rfl, ?_⟩
    have e1 : Function.update s.obj v (some .empty) = s.obj := by rw [← ho, Function.update_eq_self]
    have e2 : Function.update A v (some []) = A := by rw [← hx, Function.update_eq_self]
    rw [e1, e2]
    exact h
  · refine ⟨{ s.heap with mem := Function.update s.heap.mem b none }, ?_, rfl, ?_⟩
    · show (if (s.heap.mem b).isSome then _ else _) = _
      rw [hb.1]; rfl
    refine ⟨fun w hw => ?_, fun w a hw => ?_, fun w w' a a' c hw hw' hc hc' => ?_, fun c y hy => ?_⟩
    · by_cases e : w = v
      · subst e; simp at hw
      · rw [Function.update_of_ne e]; simp only [Function.update_of_ne e] at hw; exact h.dead w hw
    · by_cases e : w = v
      · subst e
        simp only [Function.update_self] at hw
        exact ⟨[], by simp, .inl ⟨(Option.some.inj hw).symm, rfl⟩⟩
      · simp only [Function.update_of_ne e] at hw
        obtain ⟨y, hy, hr⟩ := h.live w a hw
        refine ⟨y, by rw [Function.update_of_ne e]; exact hy, ?_⟩
        rcases hr with hr | ⟨c, rfl, hc⟩
        · exact .inl hr
        · refine .inr ⟨c, rfl, ?_⟩
          have : c ≠ b := by rintro rfl; exact e (h.inj w v _ _ c hw ho rfl rfl)
          simpa [Function.update_of_ne this] using hc
    · have e1 : w ≠ v := by rintro rfl; simp at hw; subst hw; cases hc
      have e2 : w' ≠ v := by rintro rfl; simp at hw'; subst hw'; cases hc'
      simp only [Function.update_of_ne e1] at hw
      simp only [Function.update_of_ne e2] at hw'
      exact h.inj w w' a a' c hw hw' hc hc'
    · by_cases e : c = b
      · subst e; simp at hy
      · simp only [Function.update_of_ne e] at hy
        obtain ⟨h1, w, a, hw, hc⟩ := h.own c y hy
        refine ⟨h1, w, a, ?_, hc⟩
        have : w ≠ v := by
          rintro rfl
          rw [ho] at hw
          cases hw
          exact e (Option.some.inj hc).symm
        simpa [Function.update_of_ne this] using hw

/-- Giving an empty variable a new block -/
theorem SInv.filled (h : SInv s A) {v : Nat} (ho : s.obj v = some .empty ∨ s.obj v = none) {x : Bytes} (hne : x ≠ []) :
    SInv ⟨⟨Function.update s.heap.mem s.heap.next (some x), s.heap.next + 1⟩,
      Function.update s.obj v (some ⟨some s.heap.next, x.length⟩)⟩ (Function.update A v (some x)) := by
  have hfresh : s.heap.mem s.heap.next = none := by
    cases hm : s.heap.mem s.heap.next with
    | none => rfl
    | some y => exact absurd (h.own _ _ hm).1 (Nat.lt_irrefl _)
  have hused : ∀ w a b, s.obj w = some a → a.buf = some b → b < s.heap.next := by
    intro w a b hw hb
    obtain ⟨y, _, hr⟩ := h.live w a hw
    rcases hr with ⟨rfl, _⟩ | ⟨c, rfl, hc⟩
    · cases hb
    · cases hb; exact (h.own _ _ hc.1).1
  have hv : ∀ a b, s.obj v = some a → a.buf ≠ some b := by
    rintro a b hw hb
    rcases ho with ho | ho <;> rw [ho] at hw <;> cases hw
    cases hb
  refine ⟨fun w hw => ?_, fun w a hw => ?_, fun w w' a a' c hw hw' hc hc' => ?_, fun c y hy => ?_⟩
  · by_cases e : w = v
    · subst e; simp at hw
    · rw [Function.update_of_ne e]; simp only [Function.update_of_ne e] at hw; exact h.dead w hw
  · by_cases e : w = v
    · subst e
      simp only [Function.update_self] at hw
      exact ⟨x, by simp, .inr ⟨_, (Option.some.inj hw).symm, by simp [hne]⟩⟩
    · simp only [Function.update_of_ne e] at hw
      obtain ⟨y, hy, hr⟩ := h.live w a hw
      refine ⟨y, by rw [Function.update_of_ne e]; exact hy, ?_⟩
      rcases hr with hr | ⟨c, rfl, hc⟩
      · exact .inl hr
      · refine .inr ⟨c, rfl, ?_⟩
        have : c ≠ s.heap.next := (Nat.ne_of_lt (h.own _ _ hc.1).1)
        simpa [Function.update_of_ne this] using hc
  · by_cases e1 : w = v <;> by_cases e2 : w' = v
    · rw [e1, e2]
    · subst e1
      simp only [Function.update_self] at hw
      simp only [Function.update_of_ne e2] at hw'
      cases hw
      cases hc
      exact absurd (hused _ _ _ hw' hc') (Nat.lt_irrefl _)
    · subst e2
      simp only [Function.update_self] at hw'
      simp only [Function.update_of_ne e1] at hw
      cases hw'
      cases hc'
      exact absurd (hused _ _ _ hw hc) (Nat.lt_irrefl _)
    · simp only [Function.update_of_ne e1] at hw
      simp only [Function.update_of_ne e2] at hw'
      exact h.inj w w' a a' c hw hw' hc hc'
  · by_cases e : c = s.heap.next
    · subst e
      exact ⟨Nat.lt_succ_self _, v, _, by simp; rfl, rfl⟩
    · simp only [Function.update_of_ne e] at hy
      obtain ⟨h1, w, a, hw, hc⟩ := h.own c y hy
      refine ⟨Nat.lt_succ_of_lt h1, w, a, ?_, hc⟩
      have : w ≠ v := by rintro rfl; exact hv a c hw hc
      simpa [Function.update_of_ne this] using hw

/-- `make` for a variable that is empty or not yet constructed -/
theorem SInv.made (h : SInv s A) {v : Nat} (ho : s.obj v = some .empty ∨ s.obj v = none) {n : Nat} (hn : n ≠ 0) :
    ∃ r, Arr.make s.heap n true = .ok r ∧ r.2.2 = true ∧ r.2.1.buf = some s.heap.next ∧ r.2.1.len = n ∧
      r.1.mem s.heap.next = some (List.replicate n 0) ∧ r.1.next = s.heap.next + 1 ∧
      r.1.mem = Function.update s.heap.mem s.heap.next (some (List.replicate n 0)) ∧
      SInv ⟨r.1, Function.update s.obj v (some r.2.1)⟩ (Function.update A v (some (List.replicate n 0))) := by
  have := h.filled ho (x := List.replicate n 0) (by simp [hn])
  rw [List.length_replicate] at this
  refine ⟨(⟨Function.update s.heap.mem s.heap.next (some (List.replicate n 0)), s.heap.next + 1⟩, ⟨some s.heap.next, n⟩, true), ?_,
    rfl, rfl, rfl, by simp, rfl, rfl, this⟩
  unfold Arr.make
  rw [if_neg hn, if_pos rfl]
  simp [Heap.alloc, Heap.store, Out.bind]

theorem SInv.exec (h : SInv s A) {op : SOp} {A' : SVals} (hv : A.exec op = some A') : ∃ s', s.exec op = .ok s' ∧ SInv s' A' := by
  cases op with
  | newEmpty v =>
    simp only [SVals.exec] at hv
    split at hv
    · rename_i hn
      cases hv
      exact ⟨_, by simp only [SState.exec, h.obj_none hn], h.born hn⟩
    · cases hv
  | new v n avail =>
    simp only [SVals.exec] at hv
    split at hv
    · rename_i hn
      have ho := h.obj_none hn
      simp only [SState.exec, ho]
      by_cases h0 : n = 0
      · subst h0
        rw [if_pos (.inl rfl)] at hv
        cases hv
        exact ⟨_, rfl, h.born hn⟩
      · cases avail with
        | true =>
          rw [if_pos (.inr rfl)] at hv
          cases hv
          obtain ⟨r, hr, h1, _, _, _, _, _, hi⟩ := h.made (.inr ho) h0
          refine ⟨⟨r.1, Function.update s.obj v (some r.2.1)⟩, ?_, hi⟩
          rw [hr]
          simp only [Out.bind, h1, if_true]
        | false =>
          rw [if_neg (by simp [h0])] at hv
          cases hv
          refine ⟨s, ?_, h⟩
          unfold Arr.make
          rw [if_neg h0, if_neg (by simp)]
          rfl
    · cases hv
  | moveNew v w =>
    simp only [SVals.exec] at hv
    split at hv
    · rename_i x hn hx
      cases hv
      have ho := h.obj_none hn
      obtain ⟨a, y, hw, hy, hr⟩ := h.obj_some (v := w) (by rw [hx]; simp)
      rw [hx] at hy
      cases hy
      have hne : w ≠ v := by rintro rfl; rw [ho] at hw; cases hw
      refine ⟨{ s with obj := Function.update (Function.update s.obj w (some .empty)) v (some a) }, by simp only [SState.exec, ho, hw], ?_⟩
      refine ⟨fun u hu => ?_, fun u c hu => ?_, fun u u' c c' b hu hu' hb hb' => ?_, fun b y hy => ?_⟩
      · by_cases e : u = v
        · subst e; simp at hu
        · simp only [Function.update_of_ne e] at hu ⊢
          by_cases e' : u = w
          · subst e'; simp at hu
          · simp only [Function.update_of_ne e'] at hu ⊢
            exact h.dead u hu
      · by_cases e : u = v
        · subst e
          simp only [Function.update_self] at hu ⊢
          cases hu
          exact ⟨x, rfl, hr⟩
        · simp only [Function.update_of_ne e] at hu ⊢
          by_cases e' : u = w
          · subst e'
            simp only [Function.update_self] at hu ⊢
            cases hu
            exact ⟨[], rfl, .inl ⟨rfl, rfl⟩⟩
          · simp only [Function.update_of_ne e'] at hu ⊢
            exact h.live u c hu
      · have back : ∀ u c, Function.update (Function.update s.obj w (some Arr.empty)) v (some a) u = some c → c.buf = some b →
            (u = v ∧ a.buf = some b) ∨ (u ≠ v ∧ u ≠ w ∧ s.obj u = some c) := by
          intro u c hu hb
          by_cases e : u = v
          · subst e
            rw [Function.update_self] at hu
            cases hu
            exact .inl ⟨rfl, hb⟩
          · rw [Function.update_of_ne e] at hu
            by_cases e' : u = w
            · subst e'
              rw [Function.update_self] at hu
              cases hu
              cases hb
            · rw [Function.update_of_ne e'] at hu
              exact .inr ⟨e, e', hu⟩
        rcases back u c hu hb with ⟨e, hab⟩ | ⟨e1, e2, hu1⟩ <;> rcases back u' c' hu' hb' with ⟨e', hab'⟩ | ⟨e1', e2', hu1'⟩
        · rw [e, e']
        · exact absurd (h.inj _ _ _ _ _ hu1' hw hb' hab) e2'
        · exact absurd (h.inj _ _ _ _ _ hu1 hw hb hab') e2
        · exact h.inj _ _ _ _ _ hu1 hu1' hb hb'
      · obtain ⟨h1, u, c, hu, hb⟩ := h.own b y hy
        refine ⟨h1, ?_⟩
        by_cases e : u = w
        · subst e
          rw [hw] at hu
          cases hu
          exact ⟨v, a, by simp, hb⟩
        · have e' : u ≠ v := by rintro rfl; rw [ho] at hu; cases hu
          exact ⟨u, c, by simp [Function.update_of_ne e', Function.update_of_ne e, hu], hb⟩
    · cases hv
  | reset v =>
    simp only [SVals.exec] at hv
    split at hv
    · cases hv
    · rename_i hn
      cases hv
      obtain ⟨a, x, ho, _, _⟩ := h.obj_some hn
      obtain ⟨h', hf, _, hi⟩ := h.freed ho
      exact ⟨_, by simp only [SState.exec, ho, Arr.reset, hf, Out.bind], hi⟩
  | destroy v =>
    simp only [SVals.exec] at hv
    split at hv
    · cases hv
    · rename_i hn
      cases hv
      obtain ⟨a, x, ho, _, _⟩ := h.obj_some hn
      obtain ⟨h', hf, _, hi⟩ := h.freed ho
      refine ⟨⟨h', Function.update s.obj v none⟩, by simp only [SState.exec, ho, Arr.reset, hf, Out.bind], ?_⟩
      have ne : ∀ {u c}, Function.update s.obj v none u = some c → u ≠ v := by rintro u c hu rfl; simp at hu
      have back : ∀ {u c}, Function.update s.obj v none u = some c → Function.update s.obj v (some Arr.empty) u = some c := by
        intro u c hu
        have e := ne hu
        rw [Function.update_of_ne e] at hu ⊢
        exact hu
      refine ⟨fun u hu => ?_, fun u c hu => ?_, fun u u' c c' b hu hu' hb hb' => hi.inj u u' c c' b (back hu) (back hu') hb hb', fun b y hy => ?_⟩
      · by_cases e : u = v
        · subst e; simp
        · rw [Function.update_of_ne e]
          simp only [Function.update_of_ne e] at hu
          exact h.dead u hu
      · obtain ⟨y, hy, hr⟩ := hi.live u c (back hu)
        rw [Function.update_of_ne (ne hu)] at hy ⊢
        exact ⟨y, hy, hr⟩
      · obtain ⟨h1, u, c, hu, hb⟩ := hi.own b y hy
        have e : u ≠ v := by rintro rfl; simp at hu; subst hu; cases hb
        refine ⟨h1, u, c, ?_, hb⟩
        simp only [Function.update_of_ne e] at hu ⊢
        exact hu
  | resetTo v n avail =>
    simp only [SVals.exec] at hv
    split at hv
    · cases hv
    · rename_i hn
      cases hv
      obtain ⟨a, x, ho, _, _⟩ := h.obj_some hn
      obtain ⟨h', hf, _, hi⟩ := h.freed ho
      by_cases hc : n = 0 ∨ avail = true
      · rw [if_pos hc]
        by_cases h0 : n = 0
        · subst h0
          exact ⟨_, by simp only [SState.exec, ho, Arr.resetTo, Arr.reset, hf, Out.bind]; rfl, hi⟩
        · have hav : avail = true := by rcases hc with hc | hc; exacts [absurd hc h0, hc]
          subst hav
          obtain ⟨r, hr, _, _, _, _, _, _, hi2⟩ := hi.made (v := v) (.inl (by simp)) h0
          refine ⟨⟨r.1, Function.update s.obj v (some r.2.1)⟩, ?_, ?_⟩
          · simp only [SState.exec, ho, Arr.resetTo, Arr.reset, hf, Out.bind]
            simp only [hr]
          · simpa using hi2
      · rw [if_neg hc]
        have h0 : n ≠ 0 := fun e => hc (.inl e)
        have hav : avail = false := by simpa using fun e => hc (.inr e)
        subst hav
        refine ⟨_, ?_, hi⟩
        simp only [SState.exec, ho, Arr.resetTo, Arr.reset, hf, Out.bind, Arr.make, if_neg h0]
        rfl
  | load v data avail =>
    simp only [SVals.exec] at hv
    split at hv
    · cases hv
    · rename_i hn
      cases hv
      obtain ⟨a, x, ho, _, _⟩ := h.obj_some hn
      obtain ⟨h', hf, hnext, hi⟩ := h.freed ho
      by_cases h0 : data.length = 0
      · have hd : data = [] := List.length_eq_zero_iff.1 h0
        subst hd
        rw [if_pos (.inl rfl)]
        refine ⟨_, ?_, hi⟩
        simp only [SState.exec, ho, Arr.load, Arr.resetTo, Arr.reset, hf, Out.bind, Arr.make, List.length_nil, if_true, or_true]
      · have hd : data ≠ [] := fun e => h0 (by simp [e])
        cases avail with
        | true =>
          rw [if_pos (.inr rfl)]
          obtain ⟨r, hr, h1, h2, h3, h4, h5, h6, _⟩ := hi.made (v := v) (.inl (by simp)) h0
          have hfill := hi.filled (v := v) (.inl (by simp)) hd
          refine ⟨⟨⟨Function.update h'.mem h'.next (some data), h'.next + 1⟩, Function.update s.obj v (some ⟨some h'.next, data.length⟩)⟩,
            ?_, by simpa using hfill⟩
          have hst : r.1.store r.2.1.buf data = .ok ⟨Function.update h'.mem h'.next (some data), h'.next + 1⟩ := by
            unfold Heap.store
            rw [h2]
            simp only [h4]
            rw [if_pos (by simp)]
            simp [h5, h6]
          have he : r.2.1 = ⟨some h'.next, data.length⟩ := by
            obtain ⟨r1, ⟨b, l⟩, r3⟩ := r
            simp only at h2 h3
            rw [h2, h3]
          simp only [SState.exec, ho, Arr.load, Arr.resetTo, Arr.reset, hf, Out.bind]
          simp only [hr, h1, h0, or_self, if_false, hst, Bool.true_eq_false]
          rw [he]
        | false =>
          rw [if_neg (by simp [hd])]
          refine ⟨_, ?_, hi⟩
          simp only [SState.exec, ho, Arr.load, Arr.resetTo, Arr.reset, hf, Out.bind, Arr.make, if_neg h0]
          simp
  | set v i y =>
    simp only [SVals.exec] at hv
    split at hv
    · rename_i x hx
      split at hv
      · rename_i hi
        cases hv
        obtain ⟨a, x', ho, hx', hr⟩ := h.obj_some (v := v) (by rw [hx]; simp)
        rw [hx] at hx'
        cases hx'
        rcases hr with ⟨rfl, rfl⟩ | ⟨b, rfl, hb⟩
        · simp at hi
        refine ⟨⟨⟨Function.update s.heap.mem b (some (x.set i y)), s.heap.next⟩, s.obj⟩, ?_, ?_⟩
        · simp only [SState.exec, ho, Arr.set, hb, if_pos hi, Out.bind]
        refine ⟨fun u hu => ?_, fun u c hu => ?_, h.inj, fun c z hz => ?_⟩
        · have e : u ≠ v := by rintro rfl; rw [ho] at hu; cases hu
          rw [Function.update_of_ne e]
          exact h.dead u hu
        · by_cases e : u = v
          · subst e
            rw [ho] at hu
            cases hu
            exact ⟨x.set i y, by simp, .inr ⟨b, by simp, by simp [hb.2]⟩⟩
          · obtain ⟨z, hz, hr⟩ := h.live u c hu
            refine ⟨z, by rw [Function.update_of_ne e]; exact hz, ?_⟩
            rcases hr with hr | ⟨c', rfl, hc⟩
            · exact .inl hr
            · have : c' ≠ b := by rintro rfl; exact e (h.inj u v _ _ c' hu ho rfl rfl)
              exact .inr ⟨c', rfl, by simpa [Function.update_of_ne this] using hc⟩
        · by_cases e : c = b
          · subst e
            exact ⟨(h.own _ _ hb.1).1, v, _, ho, rfl⟩
          · simp only [Function.update_of_ne e] at hz
            exact h.own c z hz
      · cases hv
    · cases hv

theorem SInv.run : ∀ {ops : List SOp} {s : SState} {A A' : SVals}, SInv s A → A.run ops = some A' → ∃ s', s.run ops = .ok s' ∧ SInv s' A'
  | [], s, A, A', h, hr => by cases hr; exact ⟨s, rfl, h⟩
  | op :: ops, s, A, A', h, hr => by
    obtain ⟨A1, h1, h2⟩ := Option.bind_eq_some_iff.1 hr
    obtain ⟨s1, e1, i1⟩ := h.exec h1
    obtain ⟨s2, e2, i2⟩ := i1.run h2
    exact ⟨s2, by show (s.exec op).bind _ = _; rw [e1]; exact e2, i2⟩

theorem SInv.init : SInv .init fun _ => none := by
  refine ⟨fun _ _ => rfl, fun v a h => (by cases h), fun v w a a' b h => (by cases h), fun b x h => (by cases h)⟩

/-- **C111** (partial: without move assignment).  Every valid sequence of constructions, moves, resets, loads, element writes and destructions of secret buffers, with
any pattern of allocation failures, is free of undefined behaviour (no double free, no use after free, no access out of
bounds); every variable then has the value it should have; and every block still allocated belongs to a live variable with a
non-empty value, so nothing is leaked: once all variables are destroyed or empty nothing is allocated. -/
theorem sodium_array_values_partial {ops : List SOp} {A : SVals} (h : SVals.run (fun _ => none) ops = some A) :
    ∃ s, SState.init.run ops = .ok s ∧ s.Shows A ∧
      (∀ b x, s.heap.mem b = some x → ∃ v, A v = some x ∧ x ≠ [] ∧ ∃ a, s.obj v = some a ∧ a.buf = some b ∧ a.len = x.length) := by
  obtain ⟨s, hs, hi⟩ := SInv.init.run h
  refine ⟨s, hs, hi.shows, fun b x hx => ?_⟩
  obtain ⟨_, v, a, hv, hb⟩ := hi.own b x hx
  obtain ⟨y, hy, hr⟩ := hi.live v a hv
  rcases hr with ⟨rfl, _⟩ | ⟨b', rfl, hb', hne⟩
  · cases hb
  · cases hb
    rw [hb'] at hx
    cases hx
    exact ⟨v, hy, hne, _, hv, rfl, rfl⟩

/-- The program fails to allocate once, moves a key, overwrites a byte, destroys the moved-from variable -/
def exSodium : List SOp := [.new 0 3 true, .load 0 [1, 2] false, .load 0 [7, 8, 9] true, .moveNew 1 0, .set 1 2 5, .load 0 [4] true,
  .destroy 0, .resetTo 2 1 true]

example : SVals.run (fun _ => none) exSodium = none := by decide +kernel

example : (SVals.run (fun _ => none) exSodium.dropLast).isSome = true := by decide +kernel

example : ((SVals.run (fun _ => none) exSodium.dropLast).map fun A => (A 0, A 1, A 2)) = some (none, some [7, 8, 5], none) := by
  decide +kernel

example : ((SState.init.run exSodium.dropLast).toOption.map fun s => (s.heap.mem 0, s.heap.mem 1, s.heap.mem 2, s.heap.next)) =
    some (none, some [7, 8, 5], none, 3) := by decide +kernel

/-- **C111, what fails.** Assigning one secret buffer to another by moving it has undefined behaviour whatever the two hold:
the assignment operator has no return statement. -/
theorem sodium_move_assign_ub (h : Heap) (a other : Arr) : a.moveAssign h other = .ub := by
  unfold Arr.moveAssign Heap.free
  cases a.buf with
  | none => rfl
  | some b => by_cases hb : (h.mem b).isSome <;> simp only [hb, if_true, if_false] <;> rfl

end Verif
