import Verif.Props.Merge
import Verif.Props.Wire

/-!
# What exactly goes wrong in a merge (C08, C22)

C08 and C22 are false of the code.  Here is when: which inputs stop a merge, and which accepted messages do.
-/

namespace Verif

/-! ## C22 -/

/-- An element of a set change that `apply_diff` cannot apply: neither a string nor an integer of 64 bits. -/
def BadElem : Bt → Prop
  | .int i => int64Ok i = false
  | .str _ => False
  | _ => True

/-- A diff that cannot be applied from `src`: at some path it has a set change with a bad element and `src` has a set. -/
inductive Poison : BtDict → Dict → Prop where
  | here {d : BtDict} {src : Dict} {k : Bytes} {a r : List Bt} {s : List Scalar} {b : Bt}
      (hd : (k, .list [.list a, .list r]) ∈ d) (hs : mget k src = some (.set s)) (hb : b ∈ a ++ r) (he : BadElem b) : Poison d src
  | under {d d' : BtDict} {src s' : Dict} {k : Bytes}
      (hd : (k, .dict d') ∈ d) (hs : mget k src = some (.dict s')) (h : Poison d' s') : Poison d src

theorem badElem_iff (b : Bt) : BadElem b ↔ ¬ ∃ x, btScalar b = .ok (some x) := by
  cases b with
  | int i =>
    simp only [BadElem, btScalar]
    cases h : int64Ok i <;> simp
  | str s => simp [BadElem, btScalar]
  | list l => simp [BadElem, btScalar]
  | dict l => simp [BadElem, btScalar]

theorem addAll_ok_iff (l : List Bt) (s : List Scalar) : (∃ r, addAll l s = .ok r) ↔ ∀ b ∈ l, ¬ BadElem b := by
  induction l generalizing s with
  | nil => simp [addAll]
  | cons b t ih =>
    by_cases hb : BadElem b
    · constructor
      · rintro ⟨r, hr⟩
        exfalso
        simp only [addAll] at hr
        split at hr
        · rename_i x hx
          exact (badElem_iff b).1 hb ⟨x, hx⟩
        all_goals cases hr
      · exact fun h => absurd hb (h b List.mem_cons_self)
    · obtain ⟨x, hx⟩ := not_not.1 (fun h => hb ((badElem_iff b).2 h))
      simp only [addAll, hx, ih, List.forall_mem_cons]
      exact ⟨fun h => ⟨hb, h⟩, fun h => h.2⟩

theorem delAll_ok_iff (l : List Bt) (s : List Scalar) : (∃ r, delAll l s = .ok r) ↔ ∀ b ∈ l, ¬ BadElem b := by
  induction l generalizing s with
  | nil => simp [delAll]
  | cons b t ih =>
    by_cases hb : BadElem b
    · constructor
      · rintro ⟨r, hr⟩
        exfalso
        simp only [delAll] at hr
        split at hr
        · rename_i x hx
          exact (badElem_iff b).1 hb ⟨x, hx⟩
        all_goals cases hr
      · exact fun h => absurd hb (h b List.mem_cons_self)
    · obtain ⟨x, hx⟩ := not_not.1 (fun h => hb ((badElem_iff b).2 h))
      simp only [delAll, hx, ih, List.forall_mem_cons]
      exact ⟨fun h => ⟨hb, h⟩, fun h => h.2⟩

/-- The part of `Poison` at one key -/
def PoisonV : Bt → Option Val → Prop
  | .list l, some (.set _) => ∃ a r, l = [.list a, .list r] ∧ ∃ b ∈ a ++ r, BadElem b
  | .dict d, some (.dict s) => Poison d s
  | _, _ => False

theorem poison_iff (d : BtDict) (src : Dict) : Poison d src ↔ ∃ p ∈ d, PoisonV p.2 (mget p.1 src) := by
  constructor
  · intro h
    cases h with
    | here hd hs hb he => exact ⟨_, hd, by simp only [hs]; exact ⟨_, _, rfl, _, hb, he⟩⟩
    | under hd hs h => exact ⟨_, hd, by simp only [hs]; exact h⟩
  · rintro ⟨⟨k, v⟩, hp, h⟩
    simp only at h
    cases v with
    | int i => exact h.elim
    | str s => exact h.elim
    | list l =>
      cases hm : mget k src with
      | none => rw [hm] at h; exact h.elim
      | some x =>
        rw [hm] at h
        cases x with
        | dict _ => exact h.elim
        | scalar _ => exact h.elim
        | set s =>
          obtain ⟨a, r, rfl, b, hb, he⟩ := h
          exact .here hp hm hb he
    | dict d' =>
      cases hm : mget k src with
      | none => rw [hm] at h; exact h.elim
      | some x =>
        rw [hm] at h
        cases x with
        | dict _ => exact .under hp hm h
        | scalar _ => exact h.elim
        | set s => exact h.elim

mutual
theorem applyV_ok_iff : ∀ (b : Bt), loadV b = .ok b → ∀ (c s : Option Val), (∃ r, applyV b c s = .ok r) ↔ ¬ PoisonV b s
  | .int i, h, _, _ => by simp [loadV] at h
  | .str t, h, c, s => by
    simp only [PoisonV, not_false_eq_true, iff_true]
    exact applyV_total (.str t) h rfl c s
  | .list l, h, c, s => by
    obtain ⟨a, r, rfl⟩ := loadV_list h
    rcases s with _ | (d | z | x)
    · simp only [applyV, PoisonV, not_false_eq_true, iff_true]; exact ⟨_, rfl⟩
    · simp only [applyV, PoisonV, not_false_eq_true, iff_true]; exact ⟨_, rfl⟩
    · simp only [applyV, PoisonV, setDiffParts]
      constructor
      · rintro ⟨x, hx⟩ ⟨a', r', e, b, hb, he⟩
        cases e
        obtain ⟨s1, h1, hx⟩ := Out.bind_eq_ok.1 hx
        obtain ⟨s2, h2, hx⟩ := Out.bind_eq_ok.1 hx
        rcases List.mem_append.1 hb with hb | hb
        · exact (addAll_ok_iff _ _).1 ⟨_, h1⟩ b hb he
        · exact (delAll_ok_iff _ _).1 ⟨_, h2⟩ b hb he
      · intro hn
        obtain ⟨s1, h1⟩ := (addAll_ok_iff a (curSet c)).2 fun b hb he => hn ⟨_, _, rfl, b, List.mem_append_left _ hb, he⟩
        obtain ⟨s2, h2⟩ := (delAll_ok_iff r s1).2 fun b hb he => hn ⟨_, _, rfl, b, List.mem_append_right _ hb, he⟩
        exact ⟨some (.set s2), by simp [h1, h2]⟩
    · simp only [applyV, PoisonV, not_false_eq_true, iff_true]; exact ⟨_, rfl⟩
  | .dict dd, h, c, s => by
    have hl := loadV_dict h
    rcases s with _ | (d | z | x)
    · simp only [applyV, PoisonV, not_false_eq_true, iff_true]; exact ⟨_, rfl⟩
    · simp only [applyV, PoisonV]
      rw [poison_iff, ← applyD_ok_iff dd (fun p hp => loadD_mem hl (mget_of_mem (loadD_sorted hl) hp)) (curDict c) d]
      constructor
      · rintro ⟨r, hr⟩
        obtain ⟨x, hx, _⟩ := Out.bind_eq_ok.1 hr
        exact ⟨x, hx⟩
      · rintro ⟨r, hr⟩
        exact ⟨some (.dict r), by simp [hr]⟩
    · simp only [applyV, PoisonV, not_false_eq_true, iff_true]; exact ⟨_, rfl⟩
    · simp only [applyV, PoisonV, not_false_eq_true, iff_true]; exact ⟨_, rfl⟩
theorem applyD_ok_iff : ∀ (df : BtDict), (∀ p ∈ df, loadV p.2 = .ok p.2) → ∀ (data src : Dict),
    (∃ r, applyD df data src = .ok r) ↔ ¬ ∃ p ∈ df, PoisonV p.2 (mget p.1 src)
  | [], _, data, src => by simp [applyD]
  | (k, v) :: t, hl, data, src => by
    have hv := applyV_ok_iff v (hl (k, v) List.mem_cons_self) (mget k data) (mget k src)
    have ht := fun o => applyD_ok_iff t (fun p hp => hl p (List.mem_cons_of_mem _ hp)) (mset k o data) src
    constructor
    · rintro ⟨r, hr⟩ ⟨p, hp, hpv⟩
      simp only [applyD] at hr
      obtain ⟨o, ho, hr⟩ := Out.bind_eq_ok.1 hr
      rcases List.mem_cons.1 hp with rfl | hp
      · exact hv.1 ⟨o, ho⟩ hpv
      · exact (ht o).1 ⟨r, hr⟩ ⟨p, hp, hpv⟩
    · intro hn
      obtain ⟨o, ho⟩ := hv.2 fun h => hn ⟨_, List.mem_cons_self, h⟩
      obtain ⟨r, hr⟩ := (ht o).2 fun ⟨p, hp, h⟩ => hn ⟨p, List.mem_cons_of_mem _ hp, h⟩
      exact ⟨r, by simp [applyD, ho, hr]⟩
end

theorem applyReplay_ok_iff {rp : List (SH × (Dict × BtDict))} (h : ∀ e ∈ rp, loadD none e.2.2 = .ok e.2.2) (d : Dict) :
    (∃ r, applyReplay rp d = .ok r) ↔ ∀ e ∈ rp, ¬ Poison e.2.2 e.2.1 := by
  induction rp generalizing d with
  | nil => simp [applyReplay]
  | cons a t ih =>
    obtain ⟨s, src, df⟩ := a
    have hl := h _ List.mem_cons_self
    have h1 := fun dd => applyD_ok_iff df (fun p hp => loadD_mem hl (mget_of_mem (loadD_sorted hl) hp)) dd src
    have ih := fun d => ih (fun e he => h e (List.mem_cons_of_mem _ he)) d
    rw [List.forall_mem_cons]
    dsimp only at hl ⊢
    rw [poison_iff]
    constructor
    · rintro ⟨r, hr⟩
      simp only [applyReplay] at hr
      obtain ⟨d', hd', hr⟩ := Out.bind_eq_ok.1 hr
      exact ⟨(h1 d).1 ⟨_, hd'⟩, (ih d').1 ⟨r, hr⟩⟩
    · rintro ⟨hn, hn'⟩
      obtain ⟨d', hd'⟩ := (h1 d).2 hn
      obtain ⟨r, hr⟩ := (ih d').2 hn'
      exact ⟨r, by simp [applyReplay, hd', hr]⟩

/-- Message `m` says that the update `s` (itself or one of its history) made the change `d`. -/
def Msg.Says (m : Msg) (s : SH) (d : BtDict) : Prop := s = m.sh ∧ d = m.diff ∨ (s, d) ∈ m.lagged

theorem entry_iff_says {m : Msg} (hw : MsgWF m) (hwin : ∀ p ∈ m.lagged, p.1.1 < m.seqno) (s : SH) (src : Dict) (d : BtDict) :
    m.entry s = some (src, d) ↔ src = m.data ∧ m.Says s d := by
  unfold Msg.entry Msg.Says
  by_cases hs : s = m.sh
  · rw [if_pos hs]
    constructor
    · intro h; cases h; exact ⟨rfl, .inl ⟨hs, rfl⟩⟩
    · rintro ⟨rfl, ⟨_, rfl⟩ | hl⟩
      · rfl
      · have := hwin _ hl
        rw [hs] at this
        exact absurd this (lt_irrefl _)
  · rw [if_neg hs]
    constructor
    · intro h
      obtain ⟨x, hx, e⟩ := Option.map_eq_some_iff.1 h
      cases e
      exact ⟨rfl, .inr (mem_of_mget hx)⟩
    · rintro ⟨rfl, ⟨h, _⟩ | hl⟩
      · exact absurd h hs
      · rw [mget_of_mem hw.lagS hl]; rfl

/-- **C22.** When exactly a merge fails, for all nonempty batches that get as far as merging: the device can publish, there is more than
one current message, and for some update `s` the newest current message that tells of it tells of a change which is poison for its own
contents.  (`merge_succeeds_partial` gives a simpler sufficient condition; every message made by the library is free of poison.) -/
theorem merge_fails_iff {env : Env} (hlag : 1 ≤ env.lag) {inputs : List Bytes}
    (hc : NoCollision env inputs) (ht : ∀ b ∈ inputs, Tolerable env b) (hne : validOf env inputs ≠ [])
    (hr : ∀ m ∈ validOf env inputs, int64Ok (m.seqno + env.lag) = true) :
    (¬ ∃ R bad, mergeMsgs env inputs = .ok (R, bad)) ↔
      env.readonly = false ∧
      (∃ a b, Current env.lag (validOf env inputs) a ∧ Current env.lag (validOf env inputs) b ∧ a ≠ b) ∧
      ∃ m s d, Current env.lag (validOf env inputs) m ∧ m.Says s d ∧ Poison d m.data ∧
        ∀ m', Current env.lag (validOf env inputs) m' → (∃ d', m'.Says s d') → m'.sh ≤ m.sh := by
  have hg := goodBatch_of hc
  have hred : (∃ R bad, mergeMsgs env inputs = .ok (R, bad)) ↔ ∃ R, mergeParsed env (validOf env inputs) = .ok R := by
    constructor
    · rintro ⟨R, bad, h⟩
      exact ⟨R, (mergeMsgs_ok_iff.1 ⟨bad, h⟩).2⟩
    · rintro ⟨R, h⟩
      obtain ⟨bad, hb⟩ := mergeMsgs_ok_iff.2 ⟨ht, h⟩
      exact ⟨R, bad, hb⟩
  rw [hred]
  obtain ⟨top, htop, hmax, hcase⟩ := mergeParsed_cases hlag hne hg hr
  have htc := max_current hlag hg htop hmax
  rcases hcase with ⟨hor, i, _, hR⟩ | ⟨⟨hro, c, hcc, hcne⟩, rest, hsort, hR⟩
  · constructor
    · exact fun h => absurd ⟨_, hR⟩ h
    · rintro ⟨h1, ⟨a, b, ha, hb, hab⟩, _⟩
      exfalso
      rcases hor with h | h
      · rw [h] at h1; cases h1
      · exact hab ((h a ha).trans (h b hb).symm)
  · rw [hR]
    obtain ⟨hpw, hmem⟩ := keptSorted_spec (lag := env.lag) hg
    rw [hsort] at hpw hmem
    have hsub : ∀ m ∈ top :: rest, m ∈ validOf env inputs := fun m hm => ((hmem m).1 hm).1
    have hwf : ∀ m ∈ top :: rest, MsgWF m := fun m hm => valid_wf m (hsub m hm)
    have hwin : ∀ m ∈ top :: rest, ∀ p ∈ m.lagged, p.1.1 < m.seqno := fun m hm => hg.window m (hsub m hm)
    have hi : int64Ok (maxSeq (validOf env inputs) + 1) = true := by
      rw [← max_seqno_eq hg.range htop hmax]
      have h1 := hr top htop
      have h2 := hg.range top htop
      simp only [int64Ok, Bool.and_eq_true, decide_eq_true_eq] at *
      omega
    have hk : (∃ R, mergeKept env (maxSeq (validOf env inputs)) (top :: rest) = .ok R) ↔
        ∃ d, applyReplay (replayOf (top :: rest)) top.data = .ok d := by
      simp only [mergeKept, hi, Bool.not_true, Bool.false_eq_true, if_false]
      constructor
      · rintro ⟨R, h⟩
        obtain ⟨d, hd, _⟩ := Out.bind_eq_ok.1 h
        exact ⟨d, hd⟩
      · rintro ⟨d, hd⟩
        rw [hd]
        exact ⟨_, rfl⟩
    rw [hk, applyReplay_ok_iff fun e he => (replay_typed hwf e he).2]
    push Not
    obtain ⟨hrs, hrg⟩ := replayOf_spec (ms := top :: rest) fun m hm => (hwf m hm).lagS
    constructor
    · rintro ⟨e, he, hp⟩
      refine ⟨hro, ⟨c, top, hcc, htc, hcne⟩, ?_⟩
      have hf := hrg e.1
      rw [mget_of_mem hrs he] at hf
      obtain ⟨l1, m, l2, hl, hme, hno⟩ := List.findSome?_eq_some_iff.1 hf.symm
      have hmm : m ∈ top :: rest := by rw [hl]; simp
      obtain ⟨h1, h2⟩ := (entry_iff_says (hwf m hmm) (hwin m hmm) e.1 e.2.1 e.2.2).1 hme
      refine ⟨m, e.1, e.2.2, (hmem m).1 hmm, h2, h1 ▸ hp, fun m' hm' ⟨d', hd'⟩ => ?_⟩
      have hmm' := (hmem m').2 hm'
      have hne' : m'.entry e.1 ≠ none := by
        rw [(entry_iff_says (hwf m' hmm') (hwin m' hmm') e.1 m'.data d').2 ⟨rfl, hd'⟩]
        exact Option.some_ne_none _
      rw [hl] at hmm' hpw
      rcases List.mem_append.1 hmm' with h | h
      · exact absurd (hno m' h) hne'
      · rcases List.mem_cons.1 h with rfl | h
        · exact le_refl _
        · exact le_of_lt ((List.pairwise_cons.1 (List.pairwise_append.1 hpw).2.1).1 m' h)
    · rintro ⟨_, _, m, s, d, hm, hs, hp, hbest⟩
      have hmm := (hmem m).2 hm
      obtain ⟨l1, l2, hl⟩ := List.append_of_mem hmm
      have hf : (top :: rest).findSome? (·.entry s) = some (m.data, d) := by
        rw [List.findSome?_eq_some_iff]
        refine ⟨l1, m, l2, hl, (entry_iff_says (hwf m hmm) (hwin m hmm) s m.data d).2 ⟨rfl, hs⟩, fun x hx => ?_⟩
        by_contra hne'
        obtain ⟨⟨src, dd⟩, hy⟩ := Option.ne_none_iff_exists'.1 hne'
        have hxm : x ∈ top :: rest := by rw [hl]; exact List.mem_append_left _ hx
        obtain ⟨_, hsx⟩ := (entry_iff_says (hwf x hxm) (hwin x hxm) s src dd).1 hy
        have := hbest x ((hmem x).1 hxm) ⟨dd, hsx⟩
        rw [hl] at hpw
        have h2 := (List.pairwise_append.1 hpw).2.2 x hx m List.mem_cons_self
        exact absurd (lt_of_lt_of_le h2 this) (lt_irrefl _)
      rw [← hrg s] at hf
      exact ⟨(s, (m.data, d)), mem_of_mget hf, hp⟩

/-- Both sides occur: two honest messages alone, and with `evil`. -/
example : (mergeMsgs exEnvH [exA, exB]).isOk = true ∧ (mergeMsgs exEnvH [exA, exB, evil]).isOk = false ∧
    (∀ b ∈ [exA, exB, evil], Tolerable exEnvH b) ∧ (validOf exEnvH [exA, exB, evil]).length = 3 ∧
    Poison [([122], .list [.list [.list []], .list []])] [([122], .set [.str [97]])] := by
  refine ⟨by decide +kernel, by decide +kernel, ?_, by decide +kernel, .here (s := [.str [97]]) (List.mem_cons_self) (by decide) (b := .list []) (by simp) trivial⟩
  have h : ∀ b ∈ [exA, exB, evil], (parseMsg exEnvH false b).isOk = true := by decide +kernel
  intro b hb
  have := h b hb
  cases hp : parseMsg exEnvH false b with
  | ok m => exact .inl ⟨m, hp⟩
  | err e => rw [hp] at this; cases this
  | hang => rw [hp] at this; cases this
  | ub => rw [hp] at this; cases this

/-! ## C08 -/

/-- **C08, what fails.** One input that the parser neither accepts nor rejects with a config error decides the fate of the whole batch,
whatever comes after it. -/
theorem merge_stops {env : Env} {pre post : List Bytes} {b : Bytes} (hpre : ∀ x ∈ pre, Tolerable env x) :
    (parseMsg env false b = .err .foreign → mergeMsgs env (pre ++ b :: post) = .err .foreign) ∧
    (parseMsg env false b = .hang → mergeMsgs env (pre ++ b :: post) = .hang) ∧
    (parseMsg env false b = .ub → mergeMsgs env (pre ++ b :: post) = .ub) := by
  have key : ∀ (pre : List Bytes) (i : Nat), (∀ x ∈ pre, Tolerable env x) →
      (parseMsg env false b = .err .foreign → parseAll env i (pre ++ b :: post) = .err .foreign) ∧
      (parseMsg env false b = .hang → parseAll env i (pre ++ b :: post) = .hang) ∧
      (parseMsg env false b = .ub → parseAll env i (pre ++ b :: post) = .ub) := by
    intro pre
    induction pre with
    | nil =>
      intro i _
      refine ⟨fun h => ?_, fun h => ?_, fun h => ?_⟩ <;> simp only [List.nil_append, parseAll, h]
    | cons a t ih =>
      intro i h
      obtain ⟨h1, h2, h3⟩ := ih (i + 1) fun x hx => h x (List.mem_cons_of_mem _ hx)
      refine ⟨fun hb => ?_, fun hb => ?_, fun hb => ?_⟩
      · rcases h a List.mem_cons_self with ⟨m, hm⟩ | ⟨e, he, hne⟩
        · simp only [List.cons_append, parseAll, hm, h1 hb]; rfl
        · simp only [List.cons_append, parseAll, he, h1 hb]; cases e <;> first | rfl | exact absurd rfl hne
      · rcases h a List.mem_cons_self with ⟨m, hm⟩ | ⟨e, he, hne⟩
        · simp only [List.cons_append, parseAll, hm, h2 hb]; rfl
        · simp only [List.cons_append, parseAll, he, h2 hb]; cases e <;> first | rfl | exact absurd rfl hne
      · rcases h a List.mem_cons_self with ⟨m, hm⟩ | ⟨e, he, hne⟩
        · simp only [List.cons_append, parseAll, hm, h3 hb]; rfl
        · simp only [List.cons_append, parseAll, he, h3 hb]; cases e <;> first | rfl | exact absurd rfl hne
  obtain ⟨h1, h2, h3⟩ := key pre 0 hpre
  unfold mergeMsgs
  exact ⟨fun h => by rw [h1 h]; rfl, fun h => by rw [h2 h]; rfl, fun h => by rw [h3 h]; rfl⟩

/-- A set change without an integer outside 64 bits (bencoding allows integers up to 2^64-1) -/
def noHugeList : Bt → Bool
  | .list e => e.all fun x => match x with
    | .int i => int64Ok i
    | _ => true
  | _ => true

mutual
/-- A diff without an integer outside 64 bits in a set change -/
def noHugeV : Bt → Bool
  | .int _ => true
  | .str _ => true
  | .list l => l.all noHugeList
  | .dict d => noHugeD d
termination_by structural x => x
def noHugeD : List (Bytes × Bt) → Bool
  | [] => true
  | (_, v) :: t => noHugeV v && noHugeD t
termination_by structural x => x
end

def noHugeRow : Bt → Bool
  | .list l => l.all fun b => match b with
    | .dict d => noHugeD d
    | _ => true
  | _ => true

/-- No diff in this entry of the message has such an integer. -/
def noHugeEntry (e : TopEntry) : Bool :=
  match e.val with
  | .dict d => if e.key = kDiff then noHugeD d else true
  | .list l => if e.key = kLag then l.all noHugeRow else true
  | _ => true

/-- Not an exception other than a config error -/
def NF {α : Type} (x : Out α) : Prop := x ≠ .err .foreign

theorem NF.bind {α β : Type} {x : Out α} {f : α → Out β} (h : NF x) (hf : ∀ a, x = .ok a → NF (f a)) : NF (x >>= f) := by
  cases x with
  | ok a => exact hf a rfl
  | err e => exact fun he => h (by cases he; rfl)
  | hang => exact fun he => by cases he
  | ub => exact fun he => by cases he

theorem nf_ok {α : Type} (a : α) : NF (Out.ok a) := fun h => by cases h
theorem nf_parse {α : Type} : NF (Out.err .parse : Out α) := fun h => by cases h

theorem btScalar_nf {b : Bt} (h : (match b with | .int i => int64Ok i | _ => true) = true) : NF (btScalar b) := by
  cases b with
  | int i => simp only at h; simp only [btScalar, h, if_true]; exact nf_ok _
  | str s => exact nf_ok _
  | list l => exact nf_ok _
  | dict l => exact nf_ok _

theorem checkAdj_nf : ∀ l : List Bt, noHugeList (.list l) = true → NF (checkAdj l)
  | [], _ => nf_ok _
  | [_], _ => nf_ok _
  | a :: b :: t, h => by
    simp only [noHugeList, List.all_cons, Bool.and_eq_true] at h
    unfold checkAdj
    refine NF.bind ?_ fun _ _ => checkAdj_nf (b :: t) (by simp only [noHugeList, List.all_cons, Bool.and_eq_true]; exact h.2)
    unfold checkOrder
    refine (btScalar_nf h.1).bind fun x _ => (btScalar_nf h.2.1).bind fun y _ => ?_
    split
    · split
      · exact nf_ok _
      · exact nf_parse
    · exact nf_parse

theorem checkSubs_nf : ∀ l : List Bt, l.all noHugeList = true → NF (checkSubs l)
  | [], _ => nf_ok _
  | a :: t, h => by
    simp only [List.all_cons, Bool.and_eq_true] at h
    unfold checkSubs
    refine NF.bind ?_ fun _ _ => checkSubs_nf t h.2
    cases a with
    | list l => exact checkAdj_nf l h.1
    | int _ => exact nf_parse
    | str _ => exact nf_parse
    | dict _ => exact nf_parse

mutual
theorem loadV_nf : ∀ b : Bt, noHugeV b = true → NF (loadV b)
  | .int i, _ => fun h => by simp [loadV] at h
  | .str s, _ => by
    simp only [loadV]
    split
    · exact nf_ok _
    · exact nf_parse
  | .list l, h => by
    simp only [loadV]
    split
    · exact nf_parse
    · exact (checkSubs_nf l h).bind fun _ _ => nf_ok _
  | .dict d, h => by
    simp only [loadV]
    exact (loadD_nf d none h).bind fun _ _ => nf_ok _
theorem loadD_nf : ∀ (d : BtDict) (last : Option Bytes), noHugeD d = true → NF (loadD last d)
  | [], _, _ => by simp only [loadD]; exact nf_ok _
  | (k, v) :: t, last, h => by
    simp only [noHugeD, Bool.and_eq_true] at h
    simp only [loadD]
    split
    · exact nf_parse
    · exact (loadV_nf v h.1).bind fun _ _ => (loadD_nf t (some k) h.2).bind fun _ _ => nf_ok _
end

theorem parseSet_nf (l : List Bt) (last : Option Scalar) : NF (parseSet last l) := by
  induction l generalizing last with
  | nil => exact nf_ok _
  | cons a t ih =>
    simp only [parseSet]
    refine NF.bind ?_ fun x _ => ?_
    · cases a <;> simp only [parseScalar] <;> (try split) <;> first | exact nf_ok _ | exact nf_parse
    · split
      · exact nf_parse
      · exact (ih _).bind fun _ _ => nf_ok _

mutual
theorem parseV_nf : ∀ b : Bt, NF (parseV b)
  | .int i => by
    simp only [parseV]
    split
    · exact nf_ok _
    · exact nf_parse
  | .str s => by simp only [parseV]; exact nf_ok _
  | .list l => by
    simp only [parseV]
    split
    · exact nf_parse
    · exact (parseSet_nf l none).bind fun _ _ => nf_ok _
  | .dict d => by
    simp only [parseV]
    split
    · exact nf_parse
    · exact (parseD_nf d none).bind fun _ _ => nf_ok _
theorem parseD_nf : ∀ (d : BtDict) (last : Option Bytes), NF (parseD last d)
  | [], _ => by simp only [parseD]; exact nf_ok _
  | (k, v) :: t, last => by
    simp only [parseD]
    split
    · exact nf_parse
    · exact (parseV_nf v).bind fun _ _ => (parseD_nf t (some k)).bind fun _ _ => nf_ok _
end

theorem parseLagged_nf {cur lag : Int} (rows : List Bt) (last : Option SH) (h : rows.all noHugeRow = true) :
    NF (parseLagged cur lag last rows) := by
  induction rows generalizing last with
  | nil => exact nf_ok _
  | cons r t ih =>
    simp only [List.all_cons, Bool.and_eq_true] at h
    unfold parseLagged
    split
    · split
      · exact nf_parse
      split
      · exact nf_parse
      split
      · exact fun h => by cases h
      split
      · exact ih _ h.2
      split
      · split
        · exact nf_parse
        split
        · exact nf_parse
        split
        · rename_i d rest3
          have hd : noHugeD d = true := by
            have := h.1
            simp only [noHugeRow, List.all_cons, Bool.and_eq_true] at this
            exact this.2.2.1
          refine (loadD_nf d none hd).bind fun x _ => ?_
          split
          · exact nf_parse
          · exact (ih _ h.2).bind fun _ _ => nf_ok _
        · exact nf_parse
      · exact nf_parse
    · exact nf_parse

theorem loadUnknowns_nf (prev til : Bytes) (es : List TopEntry) (u : BtDict) : NF (loadUnknowns prev til u es) := by
  induction es generalizing u with
  | nil => exact nf_ok _
  | cons e r ih =>
    simp only [loadUnknowns]
    split
    · split
      · exact nf_parse
      · exact ih _
    · exact nf_ok _

/-- **C08, what fails.** The inputs on which the parser throws something that is not a config error, so that `merge_stops` applies: those
that are not a bencoded dict at all, and otherwise only messages with an integer of 2^63 or more in a set change of a diff. -/
theorem parse_foreign_iff (env : Env) (trust : Bool) (bs : Bytes)
    (h : ∀ f es r, decTop f 1 (bs.drop 1) = some (es, r) → es.all noHugeEntry = true) :
    parseMsg env trust bs = .err .foreign ↔ ¬ ∃ b t, bs = 100 :: b :: t := by
  constructor
  · rintro hf ⟨b, t, rfl⟩
    revert hf
    show NF (parseMsg env trust (100 :: b :: t))
    rw [show parseMsg env trust (100 :: b :: t) = (match decTop (b :: t).length 1 (b :: t) with
      | some (es, _) => parseEntries env trust (100 :: b :: t) es
      | none => .err .parse) from rfl]
    split
    · rename_i es r hd
      have hall := h _ _ _ hd
      rw [List.all_eq_true] at hall
      unfold parseEntries
      refine NF.bind ?_ fun ⟨s, e1⟩ h1 => ?_
      · unfold takeSeq
        split
        · split
          · exact nf_ok _
          · exact nf_parse
        · exact nf_parse
      obtain ⟨_, o1, rfl⟩ := takeSeq_ok h1
      refine (loadUnknowns_nf _ _ _ _).bind fun ⟨u1, e2⟩ h2 => ?_
      have s2 := loadUnknowns_sub h2
      refine NF.bind ?_ fun ⟨d, e3⟩ h3 => ?_
      · unfold takeData
        split
        · split
          · exact (parseD_nf _ _).bind fun _ _ => nf_ok _
          · exact nf_parse
        · exact nf_parse
      obtain ⟨_, o3, rfl⟩ := takeData_ok h3
      refine (loadUnknowns_nf _ _ _ _).bind fun ⟨u2, e4⟩ h4 => ?_
      have s4 := loadUnknowns_sub h4
      have hall4 : ∀ e ∈ e4, noHugeEntry e = true := fun e he =>
        hall e (List.mem_cons_of_mem _ (s2 e (List.mem_cons_of_mem _ (s4 e he))))
      refine NF.bind ?_ fun ⟨lg, e5⟩ h5 => ?_
      · cases e4 with
        | nil => exact nf_parse
        | cons e r =>
          simp only [takeLag]
          split
          · rename_i hk
            split
            · rename_i rows hv
              have hr := hall4 e List.mem_cons_self
              simp only [noHugeEntry, hv, hk, if_true] at hr
              exact (parseLagged_nf rows none hr).bind fun _ _ => nf_ok _
            · exact nf_parse
          · exact nf_ok _
      have s5 : ∀ e ∈ e5, e ∈ e4 := by
        cases e4 with
        | nil => simp [takeLag] at h5
        | cons e r =>
          simp only [takeLag] at h5
          split at h5
          · split at h5
            · obtain ⟨x, _, h5⟩ := Out.bind_eq_ok.1 h5
              cases h5
              exact fun e he => List.mem_cons_of_mem _ he
            · cases h5
          · cases h5; exact fun e he => he
      refine (loadUnknowns_nf _ _ _ _).bind fun ⟨u3, e6⟩ h6 => ?_
      have s6 := loadUnknowns_sub h6
      refine NF.bind ?_ fun ⟨df, e7⟩ h7 => ?_
      · cases e6 with
        | nil => exact nf_parse
        | cons e r =>
          simp only [takeDiff]
          split
          · rename_i hk
            split
            · rename_i d' hv
              have hr := hall4 e (s5 e (s6 e List.mem_cons_self))
              simp only [noHugeEntry, hv, hk, if_true] at hr
              exact (loadD_nf d' none hr).bind fun _ _ => nf_ok _
            · exact nf_parse
          · exact nf_ok _
      refine (loadUnknowns_nf _ _ _ _).bind fun ⟨u4, e8⟩ h8 => ?_
      refine NF.bind ?_ fun _ _ => nf_ok _
      intro hv
      unfold verifySig at hv
      repeat' split at hv
      all_goals cases hv
    · exact nf_parse
  · intro hn
    unfold parseMsg
    split
    · exact absurd ⟨_, _, rfl⟩ hn
    · rfl

/-- A message whose diff adds 2^63 and 2^63+1 to the set `z` -/
def hugeTop : BtDict :=
  [(kSeq, .int 4), (kData, .dict [([122], .list [.str [97]])]),
    (kDiff, .dict [([122], .list [.list [.int (2 ^ 63), .int (2 ^ 63 + 1)], .list []])]), (kSig, .str (List.replicate 64 9))]
def huge : Bytes := 100 :: (encD hugeTop ++ [101])

/-- **C08, what fails.** The second kind does occur: a message that is a dict, and even carries a valid signature, but aborts the merge of
the others, because `oxenc::get_int` throws `std::overflow_error`, which nobody turns into a config error (src/config.cpp:159-163, 562). -/
theorem huge_int_aborts_merge :
    (mergeMsgs exEnvH [exA, exB]).isOk = true ∧ mergeMsgs exEnvH [exA, exB, huge] = .err .foreign ∧ (∃ b t, huge = 100 :: b :: t) := by
  refine ⟨by decide +kernel, by decide +kernel, 49, huge.drop 2, by decide +kernel⟩

/-- The hypothesis of `parse_foreign_iff` for the input that is no dict, and for two honest messages -/
example : (∀ f es r, decTop f 1 (junk.drop 1) = some (es, r) → es.all noHugeEntry = true) ∧
    ((decTop exA.length 1 (exA.drop 1)).all fun p => p.1.all noHugeEntry) = true := by
  refine ⟨fun f es r h => ?_, by decide +kernel⟩
  cases f <;> simp [junk, decTop] at h

end Verif
