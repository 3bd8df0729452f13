import Verif.Batch
import Verif.Props.Diff

/-!
# Properties of merging (C08 continued, C12-C16, C19, C20, C22, C24)

`validOf env inputs` are the messages the inputs parse to, `Current lag cs c` says that no message of
the batch lists `c` in its history and that `c` is less than `lag` behind the highest seqno
(Verif/MergeLemmas.lean), `NoCollision env inputs` that no two different inputs have the same hash.
-/

namespace Verif

/-! ## C12, C13 -/

/-- C12 and C13 together: two batches with the same members, in any order and with any multiplicity,
merge to the same data, diff, history, unknown keys, seqno, hash and signature, and both or neither
were real merges. -/
theorem merge_depends_on_set {env : Env} (hlag : 1 ≤ env.lag) {inputs inputs' : List Bytes}
    (hc : NoCollision env inputs) (hmem : ∀ b, b ∈ inputs ↔ b ∈ inputs') {R : Msg} {bad : List Nat}
    (h : mergeMsgs env inputs = .ok (R, bad)) :
    ∃ R' bad', mergeMsgs env inputs' = .ok (R', bad') ∧ SameResult R R' := by
  obtain ⟨ht, hp⟩ := mergeMsgs_ok_iff.1 ⟨bad, h⟩
  obtain ⟨R', hR', hs⟩ := mergeParsed_congr hlag (goodBatch_of hc)
    (cs' := validOf env inputs') (fun c => by simp only [mem_validOf, hmem]) hp
  obtain ⟨bad', hb⟩ := mergeMsgs_ok_iff.2 ⟨fun b hb => ht b ((hmem b).2 hb), hR'⟩
  exact ⟨R', bad', hb, hs⟩

/-- C12.  Order does not matter. -/
theorem merge_order_irrelevant {env : Env} (hlag : 1 ≤ env.lag) {inputs inputs' : List Bytes}
    (hc : NoCollision env inputs) (hperm : inputs.Perm inputs') {R : Msg} {bad : List Nat}
    (h : mergeMsgs env inputs = .ok (R, bad)) :
    ∃ R' bad', mergeMsgs env inputs' = .ok (R', bad') ∧ SameResult R R' :=
  merge_depends_on_set hlag hc (fun _ => hperm.mem_iff) h

/-- C13.  Further copies of messages in the batch do not matter. -/
theorem merge_duplicates_irrelevant {env : Env} (hlag : 1 ≤ env.lag) {inputs dups : List Bytes}
    (hc : NoCollision env inputs) (hd : ∀ b ∈ dups, b ∈ inputs) {R : Msg} {bad : List Nat}
    (h : mergeMsgs env inputs = .ok (R, bad)) :
    ∃ R' bad', mergeMsgs env (inputs ++ dups) = .ok (R', bad') ∧ SameResult R R' :=
  merge_depends_on_set hlag hc (fun b => by
    constructor
    · intro hb; exact List.mem_append_left _ hb
    · intro hb
      rcases List.mem_append.1 hb with hb | hb
      · exact hb
      · exact hd b hb) h

/-- An environment whose hash depends on more of the message than `exEnv`'s (bytes 8 to 40), so that
the examples have no collision. -/
def exEnvH : Env := { exEnv with H := fun b => ((b.drop 8) ++ List.replicate 32 0).take 32 }

theorem exEnvH_sane : exEnvH.Sane :=
  ⟨fun b => by simp [exEnvH], fun f hf b => exEnv_sane.2 f hf b⟩

theorem exConf_madeH : Made exEnvH exConf :=
  Made.edit (c := ⟨{ Msg.empty with seqno := 3 }, some []⟩) (Made.newMut 3 (by decide)) rfl
    (by decide)

/-- Two conflicting updates of `exConf`: one sets `a` to 6 and drops the rest, one adds `z`. -/
def exChild (d : Dict) : Conf :=
  let c := exConf.increment exEnvH
  { c with m := { c.m with data := d } }
def exConfA : Conf := exChild [([97], .scalar (.int 6))]
def exConfB : Conf := exChild [([97], .scalar (.int 5)), ([122], .set [.str [1], .str [2]])]
def exA : Bytes := exConfA.ser exEnvH true
def exB : Bytes := exConfB.ser exEnvH true
def exBase : Bytes := exConf.ser exEnvH true

theorem exConfA_made : Made exEnvH exConfA :=
  Made.edit (Made.increment exConf_madeH (by decide)) rfl (by decide)
theorem exConfB_made : Made exEnvH exConfB :=
  Made.edit (Made.increment exConf_madeH (by decide)) rfl (by decide)

example : NoCollision exEnvH [exA, exB, exBase] ∧ (mergeMsgs exEnvH [exA, exB, exBase]).isOk = true ∧
    ((mergeMsgs exEnvH [exA, exB, exBase]).toOption.map fun r => (r.1.unmerged, r.1.seqno, r.1.data)) =
      some (-1, 5, [([97], .scalar (.int 6)), ([122], .set [.str [1], .str [2]])]) := by
  unfold NoCollision; decide +kernel

/-! ## C15, C16 -/

/-- C16.  For lag at least 1 the highest message of a batch is always current, whatever the others
claim: it is listed in nobody's history and is not too old. -/
theorem highest_is_current {env : Env} (hlag : 1 ≤ env.lag) {inputs : List Bytes}
    (hc : NoCollision env inputs) {top : Msg} (ht : top ∈ validOf env inputs)
    (hmax : ∀ m ∈ validOf env inputs, m.sh ≤ top.sh) :
    (∀ m ∈ validOf env inputs, ∀ p ∈ m.lagged, p.1 ≠ top.sh) ∧
      ∀ m ∈ validOf env inputs, m.seqno < top.seqno + env.lag :=
  (max_current hlag (goodBatch_of hc) ht hmax).2

theorem btScalar_safe (b : Bt) : (btScalar b).safe = true := by
  cases b with
  | int i => simp only [btScalar]; split <;> rfl
  | _ => rfl

theorem addAll_safe (l : List Bt) (s : List Scalar) : (addAll l s).safe = true := by
  induction l generalizing s with
  | nil => rfl
  | cons b t ih =>
    have hb := btScalar_safe b
    simp only [addAll]
    split
    · exact ih _
    · rfl
    · rfl
    · rename_i h; rw [h] at hb; cases hb
    · rename_i h; rw [h] at hb; cases hb

theorem delAll_safe (l : List Bt) (s : List Scalar) : (delAll l s).safe = true := by
  induction l generalizing s with
  | nil => rfl
  | cons b t ih =>
    have hb := btScalar_safe b
    simp only [delAll]
    split
    · exact ih _
    · rfl
    · rfl
    · rename_i h; rw [h] at hb; cases hb
    · rename_i h; rw [h] at hb; cases hb

theorem safe_bind {α β : Type} {x : Out α} {f : α → Out β} (hx : x.safe = true)
    (hf : ∀ a, x = .ok a → (f a).safe = true) : (x >>= f).safe = true := by
  cases x with
  | ok a => exact hf a rfl
  | err e => rfl
  | hang => cases hx
  | ub => cases hx

mutual
theorem applyV_safe : ∀ (b : Bt), loadV b = .ok b → ∀ c s, (applyV b c s).safe = true
  | .int i, h, _, _ => by simp [loadV] at h
  | .str t, _, c, s => by
    simp only [applyV]
    repeat' split
    all_goals rfl
  | .list l, h, c, s => by
    obtain ⟨a, r, rfl⟩ := loadV_list h
    simp only [applyV]
    split
    · simp only [setDiffParts]
      exact safe_bind (addAll_safe _ _) fun s1 _ => safe_bind (delAll_safe _ _) fun s2 _ => rfl
    · rfl
  | .dict d, h, c, s => by
    have hl := loadV_dict h
    have ih := applyD_safe d (fun p hp => loadD_mem hl (mget_of_mem (loadD_sorted hl) hp))
    simp only [applyV]
    split
    · exact safe_bind (ih _ _) fun r _ => rfl
    · rfl
theorem applyD_safe : ∀ (df : BtDict), (∀ p ∈ df, loadV p.2 = .ok p.2) → ∀ (data src : Dict),
    (applyD df data src).safe = true
  | [], _, _, _ => rfl
  | (k, v) :: t, hl, data, src => by
    have h1 := applyV_safe v (hl (k, v) List.mem_cons_self) (mget k data) (mget k src)
    have h2 := applyD_safe t (fun p hp => hl p (List.mem_cons_of_mem _ hp))
    simp only [applyD]
    exact safe_bind h1 fun r _ => h2 _ _
end

theorem applyReplay_safe {rp : List (SH × (Dict × BtDict))}
    (h : ∀ e ∈ rp, loadD none e.2.2 = .ok e.2.2) (d : Dict) : (applyReplay rp d).safe = true := by
  induction rp generalizing d with
  | nil => rfl
  | cons a t ih =>
    obtain ⟨s, src, df⟩ := a
    have hl := h _ List.mem_cons_self
    simp only at hl
    simp only [applyReplay]
    exact safe_bind
      (applyD_safe df (fun p hp => loadD_mem hl (mget_of_mem (loadD_sorted hl) hp)) d src)
      fun r _ => ih (fun e he => h e (List.mem_cons_of_mem _ he)) r

theorem parseAll_safe {env : Env} {inputs : List Bytes}
    (h : ∀ b ∈ inputs, (parseMsg env false b).safe = true) (i : Nat) :
    (parseAll env i inputs).safe = true := by
  induction inputs generalizing i with
  | nil => rfl
  | cons b t ih =>
    have hb := h b List.mem_cons_self
    have ht := ih (fun x hx => h x (List.mem_cons_of_mem _ hx)) (i + 1)
    simp only [parseAll]
    split
    · exact safe_bind ht fun p _ => rfl
    · rfl
    · exact safe_bind ht fun p _ => rfl
    · rename_i e; rw [e] at hb; cases hb
    · rename_i e; rw [e] at hb; cases hb

/-- C16.  Merging never runs into undefined behaviour and always terminates, for every batch (even an
empty one) and every lag of at least 1: in particular it never takes the front of an empty list.  The
hypotheses exclude inputs on which parsing itself fails to return (C07) and seqnos within `lag` of the
end of the 64-bit range. -/
theorem merge_safe {env : Env} (hlag : 1 ≤ env.lag) {inputs : List Bytes}
    (hc : NoCollision env inputs) (hp : ∀ b ∈ inputs, (parseMsg env false b).safe = true)
    (hr : ∀ m ∈ validOf env inputs, int64Ok (m.seqno + env.lag) = true) :
    (mergeMsgs env inputs).safe = true := by
  unfold mergeMsgs
  refine safe_bind (parseAll_safe hp 0) fun p hpa => ?_
  obtain ⟨cs, bad⟩ := p
  obtain ⟨rfl, _⟩ := parseAll_validOf hpa
  refine safe_bind ?_ fun m _ => rfl
  simp only
  by_cases hne : validOf env inputs = []
  · rw [hne]; rfl
  · obtain ⟨top, ht, hmax, hcase⟩ := mergeParsed_cases hlag hne (goodBatch_of hc) hr
    rcases hcase with ⟨_, i, _, h⟩ | ⟨_, rest, hsort, h⟩
    · rw [h]; rfl
    · rw [h]
      unfold mergeKept
      have hmx : maxSeq (validOf env inputs) = top.seqno :=
        (max_seqno_eq (goodBatch_of hc).range ht hmax).symm
      have h1 := hr top ht
      have h2 := (goodBatch_of hc).range top ht
      have hi : int64Ok (maxSeq (validOf env inputs) + 1) = true := by
        rw [hmx]
        simp only [int64Ok, Bool.and_eq_true, decide_eq_true_eq] at *
        omega
      simp only [hi, Bool.not_true, Bool.false_eq_true, if_false]
      refine safe_bind (applyReplay_safe (fun e he => ?_) _) fun d _ => rfl
      refine (replay_typed (fun m hm => ?_) e he).2
      refine valid_wf (env := env) (inputs := inputs) m ?_
      rw [← hsort] at hm
      obtain ⟨⟨m', i⟩, hk, rfl⟩ := List.mem_map.1 (mem_sortDesc.1 hm)
      exact List.mem_of_getElem? (mem_kept.1 hk).1

/-- For a lag of 0 the claim is false: a single valid message makes the merge read an empty list. -/
theorem merge_lag_zero_ub : mergeMsgs { exEnvH with lag := 0 } [exBase] = .ub := by decide +kernel

/-- C15.  The result of a merge carries the highest seqno `top.seqno` of the batch if one message is
current (or the client cannot sign), and is then exactly that highest message; otherwise it is a new
message with seqno `top.seqno + 1`. -/
theorem merge_seqno {env : Env} (hlag : 1 ≤ env.lag) {inputs : List Bytes}
    (hc : NoCollision env inputs) {R : Msg} {bad : List Nat}
    (h : mergeMsgs env inputs = .ok (R, bad)) :
    ∃ top ∈ validOf env inputs, (∀ m ∈ validOf env inputs, m.sh ≤ top.sh) ∧
      (((env.readonly = true ∨ ∀ c, Current env.lag (validOf env inputs) c → c = top) ∧
          R = { top with unmerged := R.unmerged } ∧ 0 ≤ R.unmerged ∧ R.seqno = top.seqno) ∨
        ((env.readonly = false ∧ ∃ c, Current env.lag (validOf env inputs) c ∧ c ≠ top) ∧
          R.unmerged = -1 ∧ R.seqno = top.seqno + 1)) := by
  obtain ⟨_, hp⟩ := mergeMsgs_ok_iff.1 ⟨bad, h⟩
  obtain ⟨hne, ho⟩ := mergeParsed_pre hp
  have hg := goodBatch_of hc
  obtain ⟨top, ht, hmax, hcase⟩ := mergeParsed_cases hlag hne hg ho
  refine ⟨top, ht, hmax, ?_⟩
  rcases hcase with ⟨h1, i, _, hR⟩ | ⟨h1, rest, _, hR⟩
  · left
    rw [hR] at hp; cases hp
    exact ⟨h1, rfl, by simp, rfl⟩
  · right
    rw [hR] at hp
    obtain ⟨_, d, _, _, _, _, _, r5, _, r7, _⟩ := mergeKept_ok hp
    exact ⟨h1, r7, by rw [r5, ← max_seqno_eq hg.range ht hmax]⟩

/-- Both outcomes occur. -/
example : ((mergeMsgs exEnvH [exA, exBase]).toOption.map fun r => (r.1.unmerged, r.1.seqno)) = some (0, 4) ∧
    ((mergeMsgs exEnvH [exA, exB]).toOption.map fun r => (r.1.unmerged, r.1.seqno)) = some (-1, 5) := by
  decide +kernel

/-! ## C19 -/

/-- C19.  With a verifier and no signer the result is one of the valid inputs, unchanged (no collision
or lag hypothesis needed) ... -/
theorem readonly_never_fabricates {env : Env} {v : Bytes → Bytes → Bool}
    (hv : env.verifier = some v) (hs : env.signer = none) {inputs : List Bytes} {R : Msg}
    {bad : List Nat} (h : mergeMsgs env inputs = .ok (R, bad)) :
    ∃ b ∈ inputs, ∃ m, parseMsg env false b = .ok m ∧ R = { m with unmerged := R.unmerged } := by
  obtain ⟨_, hp⟩ := mergeMsgs_ok_iff.1 ⟨bad, h⟩
  rcases mergeParsed_forms hp with ⟨c, hc, i, _, rfl⟩ | ⟨hro, _⟩
  · obtain ⟨b, hb, hm⟩ := mem_validOf.1 hc
    exact ⟨b, hb, c, hm, rfl⟩
  · simp [Env.readonly, hv, hs] at hro

/-- ... namely the one with the highest (seqno, hash). -/
theorem readonly_takes_highest {env : Env} (hlag : 1 ≤ env.lag) {v : Bytes → Bytes → Bool}
    (hv : env.verifier = some v) (hs : env.signer = none) {inputs : List Bytes}
    (hc : NoCollision env inputs) {R : Msg} {bad : List Nat}
    (h : mergeMsgs env inputs = .ok (R, bad)) :
    ∀ m ∈ validOf env inputs, m.sh ≤ R.sh := by
  obtain ⟨top, _, hmax, h1 | h1⟩ := merge_seqno hlag hc h
  · obtain ⟨_, hR, _, _⟩ := h1
    intro m hm
    have := hmax m hm
    rw [hR]; exact this
  · simp [Env.readonly, hv, hs] at h1

example : ((mergeMsgs { exEnvH with signer := none } [exA, exB, exBase]).toOption.map
    fun r => (r.1.unmerged, r.1.seqno)) = some (0, 4) := by decide +kernel

/-! ## C20 -/

/-- C20.  Dropping messages that are `lag` or more behind some message of the batch does not change
the result of the merge. -/
theorem too_old_ignored {env : Env} (hlag : 1 ≤ env.lag) {inputs inputs' : List Bytes}
    (hc : NoCollision env inputs) (hsub : ∀ b ∈ inputs', b ∈ inputs)
    (hold : ∀ b ∈ inputs, b ∉ inputs' → ∀ m, parseMsg env false b = .ok m →
      ∃ m2 ∈ validOf env inputs, m.seqno + env.lag ≤ m2.seqno)
    {R : Msg} {bad : List Nat} (h : mergeMsgs env inputs = .ok (R, bad)) :
    ∃ R' bad', mergeMsgs env inputs' = .ok (R', bad') ∧ SameResult R R' := by
  obtain ⟨ht, hp⟩ := mergeMsgs_ok_iff.1 ⟨bad, h⟩
  obtain ⟨hne, ho⟩ := mergeParsed_pre hp
  have hg := goodBatch_of hc
  have hsub' : ∀ m, m ∈ validOf env inputs' → m ∈ validOf env inputs := fun m hm => by
    obtain ⟨b, hb, hm⟩ := mem_validOf.1 hm
    exact mem_validOf.2 ⟨b, hsub b hb, hm⟩
  have hout : ∀ m ∈ validOf env inputs, m ∉ validOf env inputs' →
      ∃ m2 ∈ validOf env inputs, m.seqno + env.lag ≤ m2.seqno := fun m hm hn => by
    obtain ⟨b, hb, hm⟩ := mem_validOf.1 hm
    exact hold b hb (fun hb' => hn (mem_validOf.2 ⟨b, hb', hm⟩)) m hm
  obtain ⟨top, htop, hmax⟩ := exists_max_sh hne
  have htop' : top ∈ validOf env inputs' := by
    by_contra hn
    obtain ⟨m2, hm2, hle⟩ := hout top htop hn
    have := sh_le_seqno (hmax m2 hm2)
    omega
  have hcur : ∀ c, Current env.lag (validOf env inputs) c ↔ Current env.lag (validOf env inputs') c := by
    intro c
    constructor
    · rintro ⟨h1, h2, h3⟩
      refine ⟨?_, fun c2 h => h2 c2 (hsub' c2 h), fun c2 h => h3 c2 (hsub' c2 h)⟩
      by_contra hn
      obtain ⟨m2, hm2, hle⟩ := hout c h1 hn
      have := h3 m2 hm2
      omega
    · rintro ⟨h1, h2, h3⟩
      have htc := h3 top htop'
      refine ⟨hsub' c h1, fun c2 hc2 p hp' he => ?_, fun c2 hc2 => ?_⟩
      · by_cases hin : c2 ∈ validOf env inputs'
        · exact h2 c2 hin p hp' he
        · obtain ⟨m2, hm2, hle⟩ := hout c2 hc2 hin
          have h4 := sh_le_seqno (hmax m2 hm2)
          have h5 := hg.window c2 hc2 p hp'
          rw [he] at h5
          have h6 : c.seqno < c2.seqno := h5
          omega
      · have := sh_le_seqno (hmax c2 hc2)
        omega
  obtain ⟨R', hR', hs⟩ := mergeParsed_congr_current hlag hg
    (hg.congr fun c hc => hsub' c hc) (List.ne_nil_of_mem htop')
    (fun c hc => ho c (hsub' c hc)) hcur hp
  obtain ⟨bad', hb⟩ := mergeMsgs_ok_iff.2 ⟨fun b hb => ht b (hsub b hb), hR'⟩
  exact ⟨R', bad', hb, hs⟩

/-- A message from seqno 0 next to one at seqno 9, with lag 5. -/
def exOld : Bytes := (Conf.mk { Msg.empty with seqno := 0 } (some [])).ser exEnv true
def exNew : Bytes := (Conf.mk { Msg.empty with seqno := 9, data := exData } (some [])).ser exEnv true

example : NoCollision exEnvH [exOld, exNew] ∧
    ((mergeMsgs exEnvH [exOld, exNew]).toOption.map fun r => (r.1.unmerged, r.1.seqno)) = some (1, 9) ∧
    ((validOf exEnvH [exOld, exNew]).map (·.seqno)) = [0, 9] := by
  unfold NoCollision; decide +kernel

/-! ## C14 -/

/-- The histories listed by the messages of a batch are transitive inside the lag window: a message
that lists another one also lists what that one lists. -/
def HistoryClosed (lag : Int) (cs : List Msg) : Prop :=
  ∀ a ∈ cs, ∀ b ∈ cs, (∃ p ∈ a.lagged, p.1 = b.sh) → ∀ q ∈ b.lagged, a.seqno - lag < q.1.1 →
    ∃ p ∈ a.lagged, p.1 = q.1

theorem entry_some_of {c : Msg} {s : SH} (h : s = c.sh ∨ ∃ p ∈ c.lagged, p.1 = s)
    : (c.entry s).isSome = true := by
  unfold Msg.entry
  split
  · rfl
  · rename_i hne
    rcases h with h | ⟨p, hp, rfl⟩
    · exact absurd h hne
    · have : mget p.1 c.lagged ≠ none := by
        rw [Ne, mget_eq_none_iff]
        intro hh; exact hh p hp rfl
      cases hm : mget p.1 c.lagged with
      | none => exact absurd hm this
      | some x => rfl

/-- C14.  Publish the result `R` of a real merge and merge it again with any of the messages it was
made from: `R` comes back unchanged, as the only current message.  This holds for the whole batch
again, and for every part of it if the listed histories are transitive.  (Sub-batches by
`too_old_ignored`, other orders by `merge_order_irrelevant`.) -/
theorem merge_absorbs_inputs {env : Env} (hs : env.Sane) (hlag : 1 ≤ env.lag)
    (hkeys : ∀ v, env.verifier = some v → ∃ f, env.signer = some f ∧ ∀ b, v b (f b) = true)
    {inputs inputs' : List Bytes} {R : Msg} {bad : List Nat}
    (h : mergeMsgs env inputs = .ok (R, bad)) (hreal : R.unmerged = -1)
    (h64 : int64Ok (R.seqno + env.lag) = true ∧ int64Ok (R.seqno - env.lag) = true)
    (hc : NoCollision env (R.ser env true :: inputs))
    (hsub : ∀ b ∈ inputs', b ∈ inputs)
    (hcl : (∀ b ∈ inputs, b ∈ inputs') ∨ HistoryClosed env.lag (validOf env inputs)) :
    ∃ R' bad', mergeMsgs env (R.ser env true :: inputs') = .ok (R', bad') ∧ R'.unmerged = 0 ∧
      R'.data = R.data ∧ R'.diff = R.diff ∧ R'.seqno = R.seqno ∧ R'.hash = R.hash ∧
      R'.unknown = R.unknown := by
  have hcin : NoCollision env inputs := fun a ha b hb =>
    hc a (List.mem_cons_of_mem _ ha) b (List.mem_cons_of_mem _ hb)
  obtain ⟨htol, hp⟩ := mergeMsgs_ok_iff.1 ⟨bad, h⟩
  obtain ⟨hne, ho⟩ := mergeParsed_pre hp
  have hg := goodBatch_of hcin
  obtain ⟨top, htop, hmax, hcase⟩ := mergeParsed_cases hlag hne hg ho
  rcases hcase with ⟨_, i, _, hR⟩ | ⟨hro, rest, hsort, hR⟩
  · rw [hR] at hp; cases hp; simp only at hreal; omega
  rw [hR] at hp
  obtain ⟨h1, d, hd, r1, r2, r3, r4, r5, r6, r7, r8⟩ := mergeKept_ok hp
  have hkept : ∀ m, m ∈ top :: rest ↔ Current env.lag (validOf env inputs) m := fun m => by
    rw [← hsort]; exact (keptSorted_spec hg).2 m
  have hwf : MsgWF R := mergeKept_wf (fun m hm => valid_wf m ((hkept m).1 hm).1)
    (fun m hm => valid_hash hs m ((hkept m).1 hm).1) hp
  have hseq : R.seqno = top.seqno + 1 := by rw [r5, ← max_seqno_eq hg.range htop hmax]
  -- the reparsed result
  have hsig : ∀ v, env.verifier = some v →
      ∃ s, R.sig env true = some s ∧ v (R.body env.lag) s = true := by
    intro v hv
    obtain ⟨f, hf, hok⟩ := hkeys v hv
    exact ⟨f (R.body env.lag), by simp [Msg.sig, r6, hf], hok _⟩
  have hparse := parseMsg_ser env false true R hwf h64.2 (sig_length hs hwf true) hsig
  set R' := R.reparsed env false (R.ser env true) (R.sig env true) with hR'
  have hR'seq : R'.seqno = R.seqno := rfl
  have hR'hash : R'.hash = R.hash := by rw [r8]; rfl
  have hR'lag : ∀ p, p ∈ R'.lagged ↔ p ∈ R.lagged ∧ R.seqno - env.lag < p.1.1 ∧ p.1.1 < R.seqno :=
    fun p => mem_lagLive
  have hsub' : ∀ m, m ∈ validOf env inputs' → m ∈ validOf env inputs := fun m hm => by
    obtain ⟨b, hb, hm⟩ := mem_validOf.1 hm
    exact mem_validOf.2 ⟨b, hsub b hb, hm⟩
  have hcs : validOf env (R.ser env true :: inputs') = R' :: validOf env inputs' := by
    simp [validOf, hparse, Out.toOption]
  have hc' : NoCollision env (R.ser env true :: inputs') := fun a ha b hb => by
    have up : ∀ x, x ∈ R.ser env true :: inputs' → x ∈ R.ser env true :: inputs := fun x hx => by
      rcases List.mem_cons.1 hx with rfl | hx
      · exact List.mem_cons_self
      · exact List.mem_cons_of_mem _ (hsub x hx)
    exact hc a (up a ha) b (up b hb)
  have hg' := goodBatch_of hc'
  rw [hcs] at hg'
  have hlt : ∀ m ∈ validOf env inputs, m.seqno < R.seqno := fun m hm => by
    have := sh_le_seqno (hmax m hm); omega
  have ho' : NoOverflow env.lag (R' :: validOf env inputs') := fun c hcm => by
    rcases List.mem_cons.1 hcm with rfl | hcm
    · exact h64.1
    · exact ho c (hsub' c hcm)
  -- history of R: everything current and everything listed by something current
  have hlist : ∀ c, Current env.lag (validOf env inputs) c → ∀ s,
      (s = c.sh ∨ ∃ p ∈ c.lagged, p.1 = s) → R.seqno - env.lag < s.1 → s.1 < R.seqno →
      ∃ p ∈ R'.lagged, p.1 = s := by
    intro c hcur s hcs hs1 hs2
    have hrs := (replayOf_spec (ms := top :: rest)
      (fun m hm => (valid_wf m ((hkept m).1 hm).1).lagS)).2 s
    have hex : ((top :: rest).findSome? (·.entry s)).isSome = true := by
      rw [List.findSome?_isSome_iff]
      exact ⟨c, (hkept c).2 hcur, entry_some_of hcs⟩
    rw [← hrs] at hex
    obtain ⟨e, he⟩ := Option.isSome_iff_exists.1 hex
    have hmem := mem_of_mget he
    refine ⟨(s, e.2), (hR'lag _).2 ⟨?_, hs1, hs2⟩, rfl⟩
    rw [r3]
    exact List.mem_map.2 ⟨_, hmem, rfl⟩
  -- nothing but R' is current
  have honly : ∀ c, Current env.lag (R' :: validOf env inputs') c → c = R' := by
    rintro c ⟨hcm, hc2, hc3⟩
    rcases List.mem_cons.1 hcm with rfl | hcm
    · rfl
    exfalso
    have hcin := hsub' c hcm
    have hold := hc3 R' List.mem_cons_self
    rw [hR'seq] at hold
    have hclt := hlt c hcin
    by_cases hcc : Current env.lag (validOf env inputs) c
    · obtain ⟨p, hp1, hp2⟩ := hlist c hcc c.sh (.inl rfl)
        (by show R.seqno - env.lag < c.seqno; omega) hclt
      exact hc2 R' List.mem_cons_self p hp1 hp2
    · -- listed by somebody
      have hsome : ∃ c2 ∈ validOf env inputs, ∃ p ∈ c2.lagged, p.1 = c.sh := by
        by_contra hnone
        push Not at hnone
        refine hcc ⟨hcin, fun c2 h2 p hp' => hnone c2 h2 p hp', fun c2 h2 => ?_⟩
        have := hlt c2 h2
        omega
      rcases hcl with hall | hclosed
      · obtain ⟨c2, h2, p, hp1, hp2⟩ := hsome
        obtain ⟨b, hb, hm⟩ := mem_validOf.1 h2
        exact hc2 c2 (List.mem_cons_of_mem _ (mem_validOf.2 ⟨b, hall b hb, hm⟩)) p hp1 hp2
      · -- take the highest one that lists c
        classical
        obtain ⟨c2, hc2m, hc2max⟩ := exists_max_sh
          (cs := (validOf env inputs).filter fun m => decide (∃ p ∈ m.lagged, p.1 = c.sh)) (by
            obtain ⟨c2, h2, hx⟩ := hsome
            exact List.ne_nil_of_mem (List.mem_filter.2 ⟨h2, decide_eq_true hx⟩))
        obtain ⟨h2, hx⟩ := List.mem_filter.1 hc2m
        have hx : ∃ p ∈ c2.lagged, p.1 = c.sh := of_decide_eq_true hx
        have hc2lt : c.seqno < c2.seqno := by
          obtain ⟨p, hp1, hp2⟩ := hx
          have := hg.window c2 h2 p hp1
          rw [hp2] at this
          exact this
        have hc2cur : Current env.lag (validOf env inputs) c2 := by
          refine ⟨h2, fun c3 h3 p3 hp3 he3 => ?_, fun c3 h3 => ?_⟩
          · obtain ⟨q, hq, hqe⟩ := hx
            have h3lt := hlt c3 h3
            obtain ⟨p', hp', hpe⟩ := hclosed c3 h3 c2 h2 ⟨p3, hp3, he3⟩ q hq (by
              rw [hqe]; show c3.seqno - env.lag < c.seqno; omega)
            have hle := hc2max c3 (List.mem_filter.2 ⟨h3, decide_eq_true ⟨p', hp', hpe.trans hqe⟩⟩)
            have := hg.window c3 h3 p3 hp3
            rw [he3] at this
            have h5 : c2.seqno < c3.seqno := this
            have := sh_le_seqno hle
            omega
          · have := hlt c3 h3
            omega
        obtain ⟨p, hp1, hp2⟩ := hlist c2 hc2cur c.sh (.inr hx)
          (by show R.seqno - env.lag < c.seqno; omega) hclt
        exact hc2 R' List.mem_cons_self p hp1 hp2
  obtain ⟨top', ht', hmax', hcase'⟩ := mergeParsed_cases hlag (by simp) hg' ho'
  have htt : top' = R' := honly _ (max_current hlag hg' ht' hmax')
  subst htt
  rcases hcase' with ⟨_, i, hi, hm⟩ | ⟨⟨_, c, hcc, hcne⟩, _⟩
  · have hi0 : i = 0 := by
      cases i with
      | zero => rfl
      | succ i =>
        exfalso
        simp only [List.getElem?_cons_succ] at hi
        have := hlt _ (hsub' _ (List.mem_of_getElem? hi))
        rw [hR'seq] at this
        omega
    subst hi0
    rw [← hcs] at hm
    obtain ⟨bad', hb⟩ := mergeMsgs_ok_iff.2 ⟨fun b hb => by
      rcases List.mem_cons.1 hb with rfl | hb
      · exact .inl ⟨_, hparse⟩
      · exact htol b (hsub b hb), hm⟩
    exact ⟨_, bad', hb, rfl, rfl, rfl, rfl, hR'hash, rfl⟩
  · exact absurd (honly c hcc) hcne

/-- Hypotheses met: a real merge of two concurrent updates and their common base, absorbed again. -/
example : (∀ v, exEnvH.verifier = some v → ∃ f, exEnvH.signer = some f ∧ ∀ b, v b (f b) = true) := by
  intro v hv
  cases hv
  exact ⟨_, rfl, fun b => rfl⟩

example : ((mergeMsgs exEnvH [exA, exB, exBase]).toOption.map fun r =>
    (r.1.unmerged, ((mergeMsgs exEnvH [r.1.ser exEnvH true, exA, exBase]).toOption.map fun q =>
      (q.1.unmerged, q.1.seqno, decide (q.1.data = r.1.data))))) = some (-1, some (0, 5, true)) := by
  decide +kernel

/-! ## C22 -/

/-- A message whose diff claims to add a *list* to the set `z`: `{"#":1,"&":{"z":["a"]},"=":{"z":[[[]],[]]}}`. -/
def evilTop : BtDict :=
  [(kSeq, .int 4), (kData, .dict [([122], .list [.str [97]])]),
    (kDiff, .dict [([122], .list [.list [.list []], .list []])]), (kSig, .str (List.replicate 64 9))]
def evil : Bytes := 100 :: (encD evilTop ++ [101])

/-- C22 is false of the code: `evil` is accepted by the parser, two honest messages merge without it,
but the three together raise a `config_error`. -/
theorem inconsistent_diff_aborts_merge :
    (parseMsg exEnvH false evil).isOk = true ∧ (mergeMsgs exEnvH [exA, exB]).isOk = true ∧
    mergeMsgs exEnvH [exA, exB, evil] = .err .config := by decide +kernel

/-- C22, as far as it holds: if every set change in every diff of the valid inputs lists only strings
and 64-bit integers (which all diffs computed by the library do, `diff_accepted`), the merge of any
nonempty batch succeeds.  Missing: batches with a hand-made diff like `evil`. -/
theorem merge_succeeds_partial {env : Env} (hlag : 1 ≤ env.lag) {inputs : List Bytes}
    (hc : NoCollision env inputs) (ht : ∀ b ∈ inputs, Tolerable env b)
    (hne : validOf env inputs ≠ [])
    (hr : ∀ m ∈ validOf env inputs, int64Ok (m.seqno + env.lag) = true)
    (he : ∀ m ∈ validOf env inputs, elemsOkD m.diff = true ∧ ∀ p ∈ m.lagged, elemsOkD p.2 = true) :
    ∃ R bad, mergeMsgs env inputs = .ok (R, bad) := by
  have hg := goodBatch_of hc
  obtain ⟨top, htop, hmax, hcase⟩ := mergeParsed_cases hlag hne hg hr
  have hok : ∃ R, mergeParsed env (validOf env inputs) = .ok R := by
    rcases hcase with ⟨_, i, _, hR⟩ | ⟨hro, rest, hsort, hR⟩
    · exact ⟨_, hR⟩
    · rw [hR]
      have hsub : ∀ m ∈ top :: rest, m ∈ validOf env inputs := fun m hm => by
        rw [← hsort] at hm; exact ((keptSorted_spec hg).2 m |>.1 hm).1
      have hi : int64Ok (maxSeq (validOf env inputs) + 1) = true := by
        rw [← max_seqno_eq hg.range htop hmax]
        have h1 := hr top htop
        have h2 := hg.range top htop
        simp only [int64Ok, Bool.and_eq_true, decide_eq_true_eq] at *
        omega
      obtain ⟨d, hd⟩ := applyReplay_total (rp := replayOf (top :: rest)) (fun e hem => by
        obtain ⟨m, hm, _, _, h2⟩ := replay_mem (fun m hm => valid_wf m (hsub m hm)) hem
        refine ⟨(replay_typed (fun m hm => valid_wf m (hsub m hm)) e hem).2, ?_⟩
        rcases h2 with ⟨_, h2⟩ | h2
        · rw [h2]; exact (he m (hsub m hm)).1
        · exact (he m (hsub m hm)).2 _ h2) top.data
      simp only [mergeKept, hi, Bool.not_true, Bool.false_eq_true, if_false, hd, Out.bind_ok]
      exact ⟨_, rfl⟩
  obtain ⟨R, hR⟩ := hok
  obtain ⟨bad, hb⟩ := mergeMsgs_ok_iff.2 ⟨ht, hR⟩
  exact ⟨R, bad, hb⟩

example : ((validOf exEnvH [exA, exB]).all fun m => elemsOkD m.diff && m.lagged.all fun p => elemsOkD p.2) = true ∧
    (validOf exEnvH [exA, exB]).length = 2 := by decide +kernel

/-! ## C24 -/

/-- Two concurrent messages that both carry the unknown key `%`. -/
def exU (x : UInt8) : Bytes := 100 :: (encD
  [(kSeq, .int 1), ([37], .str [120]), (kData, .dict [([x], .int 1)]), (kDiff, .dict [([x], .str [])]),
    (kSig, .str (List.replicate 64 9))] ++ [101])

/-- C24 is false of the code: unknown top-level keys present in every input are lost in a merge. -/
theorem merge_drops_unknown :
    ((validOf exEnvH [exU 97, exU 98]).map (·.unknown)) = [[([37], .str [120])], [([37], .str [120])]] ∧
    ((mergeMsgs exEnvH [exU 97, exU 98]).toOption.map fun r => (r.1.unmerged, r.1.unknown)) =
      some (-1, []) := by decide +kernel

/-- C24, as far as it holds: when the result is one of the inputs, its unknown keys are kept.  Missing:
real merges, which drop them (`merge_drops_unknown`). -/
theorem unmerged_keeps_unknown_partial {env : Env} {inputs : List Bytes} {R : Msg} {bad : List Nat}
    (h : mergeMsgs env inputs = .ok (R, bad)) (hu : R.unmerged ≠ -1) :
    ∃ m ∈ validOf env inputs, R.unknown = m.unknown ∧ R.sh = m.sh := by
  obtain ⟨_, hp⟩ := mergeMsgs_ok_iff.1 ⟨bad, h⟩
  rcases mergeParsed_forms hp with ⟨c, hc, i, _, rfl⟩ | ⟨_, top, rest, _, _, hk⟩
  · exact ⟨c, hc, rfl, rfl⟩
  · obtain ⟨_, d, _, _, _, _, _, _, _, r7, _⟩ := mergeKept_ok hk
    exact absurd r7 hu

/-- C24, the other side: a real merge never keeps an unknown key, whatever the inputs carry.  So they are kept exactly when
the result is one of the inputs. -/
theorem real_merge_has_no_unknown {env : Env} {inputs : List Bytes} {R : Msg} {bad : List Nat}
    (h : mergeMsgs env inputs = .ok (R, bad)) (hu : R.unmerged = -1) : R.unknown = [] := by
  obtain ⟨_, hp⟩ := mergeMsgs_ok_iff.1 ⟨bad, h⟩
  rcases mergeParsed_forms hp with ⟨c, hc, i, _, rfl⟩ | ⟨_, top, rest, _, _, hk⟩
  · simp only at hu; omega
  · obtain ⟨_, d, _, r1, r2, r3, r4, r5, r6, r7, r8⟩ := mergeKept_ok hk
    assumption

end Verif
