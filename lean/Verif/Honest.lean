import Verif.Say
import Verif.Batch
import Verif.Props.Wire

/-!
# Config messages made by honest clients

`Honest env lin c`: the message object `c` was obtained from new configs by edits, increments,
publishing, loading and (unless `lin`) merging, all by clients running this code.  Its invariant
`LagOk`: the history a message carries agrees with its content.
-/

namespace Verif

/-! ### the last word of a history -/

/-- What the last record of a history that says anything says. -/
def lastBy {β : Type} (g : BtDict → Option β) : List (SH × BtDict) → Option β
  | [] => none
  | (_, df) :: t => (lastBy g t).or (g df)

theorem lastBy_none {β : Type} {g : BtDict → Option β} {l : List (SH × BtDict)} :
    lastBy g l = none ↔ ∀ e ∈ l, g e.2 = none := by
  induction l with
  | nil => simp [lastBy]
  | cons a t ih =>
    obtain ⟨s, df⟩ := a
    simp only [lastBy, Option.or_eq_none_iff, ih, List.mem_cons, forall_eq_or_imp]
    tauto

theorem lastBy_some {β : Type} {g : BtDict → Option β} {l : List (SH × BtDict)} (hs : KSorted l)
    {b : β} : lastBy g l = some b ↔
      ∃ e ∈ l, g e.2 = some b ∧ ∀ f ∈ l, e.1 < f.1 → g f.2 = none := by
  induction l with
  | nil => simp [lastBy]
  | cons a t ih =>
    obtain ⟨s, df⟩ := a
    simp only [lastBy]
    constructor
    · intro h
      cases hl : lastBy g t with
      | none =>
        rw [hl] at h
        refine ⟨(s, df), List.mem_cons_self, by simpa using h, fun f hf hlt => ?_⟩
        rcases List.mem_cons.1 hf with rfl | hf
        · exact absurd hlt (lt_irrefl _)
        · exact lastBy_none.1 hl f hf
      | some b' =>
        rw [hl] at h
        simp only [Option.some_or, Option.some.injEq] at h
        subst h
        obtain ⟨e, he, h1, h2⟩ := (ih hs.tail).1 hl
        refine ⟨e, List.mem_cons_of_mem _ he, h1, fun f hf hlt => ?_⟩
        rcases List.mem_cons.1 hf with rfl | hf
        · exact absurd (hs.head e he) (not_lt_of_gt hlt)
        · exact h2 f hf hlt
    · rintro ⟨e, he, h1, h2⟩
      rcases List.mem_cons.1 he with rfl | he
      · rw [lastBy_none.2 fun f hf => h2 f (List.mem_cons_of_mem _ hf) (hs.head f hf)]
        simpa using h1
      · rw [(ih hs.tail).2 ⟨e, he, h1, fun f hf => h2 f (List.mem_cons_of_mem _ hf)⟩]; rfl

theorem lastBy_append {β : Type} (g : BtDict → Option β) (l : List (SH × BtDict)) (s : SH)
    (df : BtDict) : lastBy g (l ++ [(s, df)]) = (g df).or (lastBy g l) := by
  induction l with
  | nil => simp [lastBy]
  | cons a t ih =>
    obtain ⟨s', df'⟩ := a
    simp only [List.cons_append, lastBy, ih]
    cases g df <;> simp

/-- Dropping the oldest records of a history can only make it silent. -/
theorem lastBy_upper {β : Type} {g : BtDict → Option β} {l l' : List (SH × BtDict)}
    (hs : KSorted l) (hs' : KSorted l') (hsub : ∀ e ∈ l', e ∈ l)
    (hup : ∀ e ∈ l', ∀ f ∈ l, e.1 < f.1 → f ∈ l') {b : β} (h : lastBy g l' = some b) :
    lastBy g l = some b := by
  obtain ⟨e, he, h1, h2⟩ := (lastBy_some hs').1 h
  exact (lastBy_some hs).2 ⟨e, hsub e he, h1, fun f hf hlt => h2 f (hup e he f hf hlt) hlt⟩

theorem memplace_last {V : Type} {l : List (SH × V)} {k : SH} (h : ∀ p ∈ l, p.1 < k) (v : V) :
    memplace k v l = l ++ [(k, v)] := by
  induction l with
  | nil => rfl
  | cons a t ih =>
    obtain ⟨k', v'⟩ := a
    have hk := h _ List.mem_cons_self
    simp only at hk
    simp only [memplace, not_lt_of_gt hk, if_false, (ne_of_gt hk), List.cons_append]
    rw [ih fun p hp => h p (List.mem_cons_of_mem _ hp)]

/-! ### history and content agree -/

/-- The last word of the history `l` on each leaf is what the content `o` has there; unless `strict`
only for leaves that are present. -/
structure LagOk (strict : Prop) (l : List (SH × BtDict)) (o : Dict) : Prop where
  s : ∀ p b, lastBy (sayS · p) l = some b → (strict ∨ (scalarAt o p).isSome = true) →
    b = (scalarAt o p).isSome
  m : ∀ p x b, lastBy (sayM · p x) l = some b → (strict ∨ memberAt o p x = true) →
    b = memberAt o p x

theorem LagOk.nil (strict : Prop) (o : Dict) : LagOk strict [] o :=
  ⟨by simp [lastBy], by simp [lastBy]⟩

theorem LagOk.weaken {strict strict' : Prop} (himp : strict' → strict) {l : List (SH × BtDict)}
    {o : Dict} (h : LagOk strict l o) : LagOk strict' l o :=
  ⟨fun p b hb hc => h.s p b hb (hc.imp_left himp), fun p x b hb hc => h.m p x b hb (hc.imp_left himp)⟩

theorem LagOk.snoc {strict : Prop} {l : List (SH × BtDict)} {o d : Dict} (h : LagOk strict l o)
    (ho : typedD o = true) (hd : typedD d = true) (k : SH) :
    LagOk strict (l ++ [(k, diffD o d)]) d := by
  refine ⟨fun p b hb hc => ?_, fun p x b hb hc => ?_⟩
  · have hk := sayOk_diff ho hd p
    rw [lastBy_append] at hb
    cases hsay : sayS (diffD o d) p with
    | some b' => rw [hsay] at hb; simp only [Option.some_or, Option.some.injEq] at hb; subst hb
                 exact hk.s1 _ hsay
    | none =>
      rw [hsay] at hb
      rw [← hk.s2 hsay] at hc ⊢
      exact h.s p b (by simpa using hb) hc
  · have hk := sayOk_diff ho hd p
    rw [lastBy_append] at hb
    cases hsay : sayM (diffD o d) p x with
    | some b' => rw [hsay] at hb; simp only [Option.some_or, Option.some.injEq] at hb; subst hb
                 exact hk.m1 _ _ hsay
    | none =>
      rw [hsay] at hb
      rw [← hk.m2 x hsay] at hc ⊢
      exact h.m p x b (by simpa using hb) hc

theorem LagOk.upper {strict : Prop} {l l' : List (SH × BtDict)} {o : Dict} (h : LagOk strict l o)
    (hs : KSorted l) (hs' : KSorted l') (hsub : ∀ e ∈ l', e ∈ l)
    (hup : ∀ e ∈ l', ∀ f ∈ l, e.1 < f.1 → f ∈ l') : LagOk strict l' o :=
  ⟨fun p b hb => h.s p b (lastBy_upper hs hs' hsub hup hb),
    fun p x b hb => h.m p x b (lastBy_upper hs hs' hsub hup hb)⟩

/-- The whole history of a message: the records it lists and its own. -/
def Msg.hist (m : Msg) : List (SH × BtDict) := m.lagged ++ [(m.sh, m.diff)]

/-- A notion of the proofs: the history of a config object is honest, whether it is being edited or not. -/
def HistConf (strict : Prop) (c : Conf) : Prop :=
  match c.orig with
  | none => LagOk strict c.m.hist c.m.data
  | some o => LagOk strict c.m.lagged o

theorem HistConf.refresh {strict : Prop} {c : Conf} (hw : ConfWF c) (h : HistConf strict c) :
    LagOk strict c.refresh.m.hist c.refresh.m.data := by
  obtain ⟨m, o⟩ := c
  cases o with
  | none => exact h
  | some o => exact LagOk.snoc h (wfD_typed (hw.orig o rfl)) (wfD_typed (pruneD_wf hw.data)) _

theorem LagOk.setKey {strict : Prop} {l : List (SH × BtDict)} {k k' : SH} {df : BtDict} {o : Dict}
    (h : LagOk strict (l ++ [(k, df)]) o) : LagOk strict (l ++ [(k', df)]) o := by
  refine ⟨fun p b hb => h.s p b ?_, fun p x b hb => h.m p x b ?_⟩ <;>
    (rw [lastBy_append] at hb ⊢; exact hb)

theorem hashed_hist {strict : Prop} {env : Env} {c : Conf} (hw : ConfWF c) (h : HistConf strict c) :
    LagOk strict (c.hashed env).m.hist (c.hashed env).m.data := by
  have hr := h.refresh hw
  obtain ⟨m, o⟩ := c
  cases o with
  | none => exact h
  | some o => exact hr.setKey

theorem sh_fst_le {a b : SH} (h : a ≤ b) : a.1 ≤ b.1 := by
  have := Prod.Lex.le_iff.1 h
  show (ofLex a).1 ≤ (ofLex b).1
  omega

theorem sh_lt_of_fst {a b : SH} (h : a.1 < b.1) : a < b :=
  Prod.Lex.lt_iff.2 (.inl h)

theorem mem_lagsForNext {s lag : Int} {l : List (SH × BtDict)} (hs : KSorted l)
    (hw : ∀ p ∈ l, p.1.1 < s) {p : SH × BtDict} :
    p ∈ lagsForNext s lag l ↔ p ∈ l ∧ s - lag < p.1.1 := by
  have h1 : lagsForNext s lag l = l.dropWhile fun p => decide (p.1.1 ≤ s - lag) := by
    unfold lagsForNext
    simp only
    have : ∀ x ∈ (l.dropWhile fun p => decide (p.1.1 ≤ s - lag)).reverse, decide (x.1.1 ≥ s) = false := by
      intro x hx
      have := hw x ((List.dropWhile_sublist _).subset (List.mem_reverse.1 hx))
      simp; omega
    rw [show (l.dropWhile fun p => decide (p.1.1 ≤ s - lag)).reverse.dropWhile (fun p => decide (p.1.1 ≥ s)) =
      (l.dropWhile fun p => decide (p.1.1 ≤ s - lag)).reverse from ?_, List.reverse_reverse]
    cases hr : (l.dropWhile fun p => decide (p.1.1 ≤ s - lag)).reverse with
    | nil => rfl
    | cons a t =>
      have ha := this a (by rw [hr]; exact List.mem_cons_self)
      simp [List.dropWhile, ha]
  rw [h1]
  clear h1
  induction l with
  | nil => simp
  | cons a t ih =>
    simp only [List.dropWhile]
    by_cases ha : a.1.1 ≤ s - lag
    · simp only [ha, decide_true]
      refine Iff.trans (ih hs.tail fun p hp => hw p (List.mem_cons_of_mem _ hp)) ?_
      rw [List.mem_cons]
      constructor
      · rintro ⟨h1, h2⟩; exact ⟨.inr h1, h2⟩
      · rintro ⟨rfl | h1, h2⟩
        · omega
        · exact ⟨h1, h2⟩
    · simp only [ha, decide_false, List.mem_cons]
      constructor
      · rintro (rfl | h)
        · exact ⟨.inl rfl, by omega⟩
        · refine ⟨.inr h, ?_⟩
          have := sh_fst_le (le_of_lt (hs.head p h))
          omega
      · exact fun h => h.1

theorem incrementImpl_hist {strict : Prop} {lag : Int} {m : Msg} (hs : KSorted m.lagged)
    (hw : ∀ p ∈ m.lagged, p.1.1 < m.seqno) (h : LagOk strict m.hist m.data) :
    (incrementImpl lag m).m.lagged = lagsForNext m.seqno lag m.lagged ++ [(m.sh, m.diff)] ∧
      LagOk strict (incrementImpl lag m).m.lagged m.data := by
  have hsub := lagsForNext_sublist m.seqno lag m.lagged
  have hlt : ∀ p ∈ m.lagged, p.1 < m.sh := fun p hp => sh_lt_of_fst (hw p hp)
  have he : (incrementImpl lag m).m.lagged = lagsForNext m.seqno lag m.lagged ++ [(m.sh, m.diff)] :=
    memplace_last (fun p hp => hlt p (hsub.subset hp)) _
  have hs1 : KSorted m.hist := List.pairwise_append.2 ⟨hs, by simp, by simpa using hlt⟩
  have hs2 : KSorted (lagsForNext m.seqno lag m.lagged ++ [(m.sh, m.diff)]) :=
    List.Pairwise.sublist (List.Sublist.append hsub (List.Sublist.refl _)) hs1
  refine ⟨he, ?_⟩
  rw [he]
  refine h.upper hs1 hs2 (fun e he => ?_) fun e he f hf hef => ?_
  · rcases List.mem_append.1 he with h' | h'
    · exact List.mem_append_left _ (hsub.subset h')
    · exact List.mem_append_right _ h'
  · rcases List.mem_append.1 hf with h' | h'
    · rcases List.mem_append.1 he with h2 | h2
      · refine List.mem_append_left _ ((mem_lagsForNext hs hw).2 ⟨h', ?_⟩)
        have := ((mem_lagsForNext hs hw).1 h2).2
        have := sh_fst_le (le_of_lt hef)
        omega
      · simp only [List.mem_singleton] at h2
        subst h2
        exact absurd (hlt f h') (not_lt_of_gt hef)
    · exact List.mem_append_right _ h'

/-! ### honest clients -/

/-- `bs` is what a client publishes for `c` and others accept: the serialised message, within the
64-bit range, with a signature the verifier (if there is one) accepts. -/
structure Published (env : Env) (c : Conf) (bs : Bytes) : Prop where
  bytes : bs = c.ser env true
  range : int64Ok (c.m.seqno - env.lag) = true
  sig : ∀ v, env.verifier = some v →
    ∃ s, c.refresh.m.sig env true = some s ∧ v (c.refresh.m.body env.lag) s = true

/-- Message objects made by honest clients.  With `lin` only linear histories: no merges. -/
inductive Honest (env : Env) (lin : Bool) : Conf → Prop
  | new : Honest env lin ⟨newMsg env.H, none⟩
  | newMut (s : Int) : int64Ok s = true → Honest env lin ⟨{ Msg.empty with seqno := s }, some []⟩
  | edit {c : Conf} {d : Dict} : Honest env lin c → c.orig.isSome = true → typedD d = true →
      Honest env lin { c with m := { c.m with data := d } }
  | refresh {c : Conf} : Honest env lin c → Honest env lin c.refresh
  | hashed {c : Conf} : Honest env lin c → Honest env lin (c.hashed env)
  | increment {c : Conf} : Honest env lin c → int64Ok (c.m.seqno + 1) = true →
      Honest env lin (c.increment env)
  /-- publish and load again -/
  | loaded {c : Conf} {bs : Bytes} {trust : Bool} {m : Msg} : Honest env lin c →
      Published env c bs → parseMsg env trust bs = .ok m → Honest env lin ⟨m, none⟩
  /-- merge any number of messages published by honest clients (and junk) -/
  | merged {inputs : List Bytes} {src : Bytes → Conf} {R : Msg} {bad : List Nat} : lin = false →
      (∀ b ∈ inputs, ∀ m, parseMsg env false b = .ok m → Honest env lin (src b)) →
      (∀ b ∈ inputs, ∀ m, parseMsg env false b = .ok m → Published env (src b) b) →
      mergeMsgs env inputs = .ok (R, bad) → Honest env lin ⟨R, none⟩
  | mergedMut {inputs : List Bytes} {src : Bytes → Conf} {R : Msg} {bad : List Nat} : lin = false →
      (∀ b ∈ inputs, ∀ m, parseMsg env false b = .ok m → Honest env lin (src b)) →
      (∀ b ∈ inputs, ∀ m, parseMsg env false b = .ok m → Published env (src b) b) →
      mergeMsgs env inputs = .ok (R, bad) → R.unmerged = -1 → Honest env lin (mutFromMerge env R)
  | retain {c : Conf} : lin = false → Honest env lin c → Honest env lin c.retain

theorem Honest.made {env : Env} {lin : Bool} {c : Conf} (h : Honest env lin c) : Made env c := by
  induction h with
  | new => exact Made.new
  | newMut s h => exact Made.newMut s h
  | edit _ h1 h2 ih => exact Made.edit ih h1 h2
  | refresh _ ih => exact Made.refresh ih
  | hashed _ ih => exact Made.hashed ih
  | increment _ h ih => exact Made.increment ih h
  | loaded _ _ h _ => exact Made.parsed h
  | merged _ _ _ h _ => exact Made.merged h
  | mergedMut _ _ _ h hu _ => exact Made.mergedMut h hu
  | retain _ _ ih => exact Made.retain ih

/-- What loading a published message gives. -/
theorem Published.parse {env : Env} (hs : env.Sane) {c : Conf} (hc : ConfWF c) {bs : Bytes}
    (hp : Published env c bs) (trust : Bool) :
    parseMsg env trust bs =
      .ok (c.refresh.m.reparsed env trust bs (c.refresh.m.sig env true)) := by
  have := parseMsg_ser env trust true c.refresh.m hc.refresh_msg
    (by rw [refresh_seqno]; exact hp.range) (sig_length hs hc.refresh_msg true) hp.sig
  rw [hp.bytes]
  exact this

theorem reparsed_hist {strict : Prop} {env : Env} {trust : Bool} {bs : Bytes} {sig : Option Bytes}
    {m : Msg} (hs : KSorted m.lagged) (hw : ∀ p ∈ m.lagged, p.1.1 < m.seqno)
    (h : LagOk strict m.hist m.data) :
    LagOk strict (m.reparsed env trust bs sig).hist m.data := by
  have hlt : ∀ p ∈ m.lagged, p.1 < m.sh := fun p hp => sh_lt_of_fst (hw p hp)
  have hs1 : KSorted m.hist := List.pairwise_append.2 ⟨hs, by simp, by simpa using hlt⟩
  have hs2 : KSorted (m.lagged.filter (lagLive m.seqno env.lag) ++ [(m.sh, m.diff)]) :=
    List.Pairwise.sublist (List.Sublist.append List.filter_sublist (List.Sublist.refl _)) hs1
  refine LagOk.setKey (k := m.sh) ?_
  refine h.upper hs1 hs2 (fun e he => ?_) fun e he f hf hef => ?_
  · rcases List.mem_append.1 he with h' | h'
    · exact List.mem_append_left _ (List.mem_of_mem_filter h')
    · exact List.mem_append_right _ h'
  · rcases List.mem_append.1 hf with h' | h'
    · rcases List.mem_append.1 he with h2 | h2
      · refine List.mem_append_left _ (mem_lagLive.2 ⟨h', ?_, hw f h'⟩)
        have := (mem_lagLive.1 h2).2.1
        have := sh_fst_le (le_of_lt hef)
        omega
      · simp only [List.mem_singleton] at h2
        subst h2
        exact absurd (hlt f h') (not_lt_of_gt hef)
    · exact List.mem_append_right _ h'

/-- The last effect of a replay list, as an entry. -/
theorem lastScalar_some {p : List Bytes} {rp : List (SH × (Dict × BtDict))} (hs : KSorted rp)
    {v : Option Scalar} (h : lastScalar p rp = some v) :
    ∃ e ∈ rp, effScalar e.2.2 e.2.1 p = some v ∧
      ∀ f ∈ rp, e.1 < f.1 → effScalar f.2.2 f.2.1 p = none := by
  induction rp with
  | nil => simp [lastScalar] at h
  | cons a t ih =>
    obtain ⟨s, src, df⟩ := a
    simp only [lastScalar] at h
    cases hl : lastScalar p t with
    | none =>
      rw [hl] at h
      refine ⟨(s, src, df), List.mem_cons_self, by simpa using h, fun f hf hlt => ?_⟩
      rcases List.mem_cons.1 hf with rfl | hf
      · exact absurd hlt (lt_irrefl _)
      · exact lastScalar_eq_none.1 hl f hf
    | some b' =>
      rw [hl] at h
      simp only [Option.some_or, Option.some.injEq] at h
      subst h
      obtain ⟨e, he, h1, h2⟩ := ih hs.tail hl
      refine ⟨e, List.mem_cons_of_mem _ he, h1, fun f hf hlt => ?_⟩
      rcases List.mem_cons.1 hf with rfl | hf
      · exact absurd (hs.head e he) (not_lt_of_gt hlt)
      · exact h2 f hf hlt

theorem lastMember_some {p : List Bytes} {x : Scalar} {rp : List (SH × (Dict × BtDict))}
    (hs : KSorted rp) {v : Bool} (h : lastMember p x rp = some v) :
    ∃ e ∈ rp, effMember e.2.2 e.2.1 p x = some v ∧
      ∀ f ∈ rp, e.1 < f.1 → effMember f.2.2 f.2.1 p x = none := by
  induction rp with
  | nil => simp [lastMember] at h
  | cons a t ih =>
    obtain ⟨s, src, df⟩ := a
    simp only [lastMember] at h
    cases hl : lastMember p x t with
    | none =>
      rw [hl] at h
      refine ⟨(s, src, df), List.mem_cons_self, by simpa using h, fun f hf hlt => ?_⟩
      rcases List.mem_cons.1 hf with rfl | hf
      · exact absurd hlt (lt_irrefl _)
      · exact lastMember_eq_none.1 hl f hf
    | some b' =>
      rw [hl] at h
      simp only [Option.some_or, Option.some.injEq] at h
      subst h
      obtain ⟨e, he, h1, h2⟩ := ih hs.tail hl
      refine ⟨e, List.mem_cons_of_mem _ he, h1, fun f hf hlt => ?_⟩
      rcases List.mem_cons.1 hf with rfl | hf
      · exact absurd (hs.head e he) (not_lt_of_gt hlt)
      · exact h2 f hf hlt

/-- The history of a merge result agrees with its content on everything present, whoever made the
merged messages. -/
theorem mergeKept_hist {env : Env} {maxS : Int} {top : Msg} {rest : List Msg} {R : Msg}
    (hw : ∀ m ∈ top :: rest, MsgWF m) (h : mergeKept env maxS (top :: rest) = .ok R) :
    LagOk False R.hist R.data := by
  obtain ⟨_, d, hd, r1, r2, r3, _⟩ := mergeKept_ok h
  have hsr := (replayOf_spec (ms := top :: rest) fun m hm => (hw m hm).lagS).1
  obtain ⟨ht, a1, a2⟩ := applyReplay_spec (wfD_typed (hw top List.mem_cons_self).data)
    (replay_typed hw) hd
  have hsl : KSorted ((replayOf (top :: rest)).map fun p => (p.1, p.2.2)) :=
    List.pairwise_map.2 hsr
  have hmem : ∀ e ∈ (replayOf (top :: rest)).map (fun p => (p.1, p.2.2)),
      ∃ f ∈ replayOf (top :: rest), e = (f.1, f.2.2) := by
    intro e he
    obtain ⟨f, hf, rfl⟩ := List.mem_map.1 he
    exact ⟨f, hf, rfl⟩
  refine ⟨fun p b hb hc => ?_, fun p x b hb hc => ?_⟩
  · have hc := hc.resolve_left id
    rw [hc]
    rw [Msg.hist, lastBy_append, r2] at hb
    have e0 : sayS [] p = none := by rcases p with _ | ⟨k, _ | ⟨k2, ps⟩⟩ <;> rfl
    rw [e0, Option.none_or, r3] at hb
    obtain ⟨e, he, h1, h2⟩ := (lastBy_some hsl).1 hb
    obtain ⟨f, hf, rfl⟩ := hmem e he
    obtain ⟨y, hy⟩ := Option.isSome_iff_exists.1 hc
    rw [r1, scalarAt_pruneD p d ht, a1 p] at hy
    cases hl : lastScalar p (replayOf (top :: rest)) with
    | none =>
      have := effScalar_none_say (lastScalar_eq_none.1 hl f hf)
      rw [h1] at this; cases this
    | some v =>
      rw [hl] at hy
      simp only [Option.getD_some] at hy
      subst hy
      obtain ⟨g, hg, g1, g2⟩ := lastScalar_some hsr hl
      have gs := (effScalar_some_say g1).1
      rcases lt_trichotomy g.1 f.1 with hlt | heq | hlt
      · have := effScalar_none_say (g2 f hf hlt)
        rw [h1] at this; cases this
      · have : g = f := by
          have e1 := mget_of_mem hsr hg
          have e2 := mget_of_mem hsr hf
          rw [heq, e2] at e1
          exact Prod.ext heq (Option.some.inj e1).symm
        rw [this, h1] at gs
        exact Option.some.inj gs
      · have := h2 (g.1, g.2.2) (List.mem_map.2 ⟨g, hg, rfl⟩) hlt
        rw [gs] at this; cases this
  · have hc := hc.resolve_left id
    rw [hc]
    rw [Msg.hist, lastBy_append, r2] at hb
    have e0 : sayM [] p x = none := by rcases p with _ | ⟨k, _ | ⟨k2, ps⟩⟩ <;> rfl
    rw [e0, Option.none_or, r3] at hb
    obtain ⟨e, he, h1, h2⟩ := (lastBy_some hsl).1 hb
    obtain ⟨f, hf, rfl⟩ := hmem e he
    rw [r1, memberAt_pruneD p d ht x, a2 p] at hc
    cases hl : lastMember p x (replayOf (top :: rest)) with
    | none =>
      have := effMember_none_say (lastMember_eq_none.1 hl f hf)
      rw [h1] at this; cases this
    | some v =>
      rw [hl] at hc
      simp only [Option.getD_some] at hc
      subst hc
      obtain ⟨g, hg, g1, g2⟩ := lastMember_some hsr hl
      have gs := effMember_true_say g1
      rcases lt_trichotomy g.1 f.1 with hlt | heq | hlt
      · have := effMember_none_say (g2 f hf hlt)
        rw [h1] at this; cases this
      · have : g = f := by
          have e1 := mget_of_mem hsr hg
          have e2 := mget_of_mem hsr hf
          rw [heq, e2] at e1
          exact Prod.ext heq (Option.some.inj e1).symm
        rw [this, h1] at gs
        exact Option.some.inj gs
      · have := h2 (g.1, g.2.2) (List.mem_map.2 ⟨g, hg, rfl⟩) hlt
        rw [gs] at this; cases this

theorem loaded_hist {strict : Prop} {env : Env} (hs : env.Sane) {c : Conf} (hc : ConfWF c)
    (h : HistConf strict c) {bs : Bytes} (hp : Published env c bs) {trust : Bool} {m : Msg}
    (hm : parseMsg env trust bs = .ok m) : LagOk strict m.hist m.data := by
  rw [hp.parse hs hc trust] at hm
  cases hm
  have hr := hc.refresh
  exact reparsed_hist hr.lagS hr.window (h.refresh hc)

theorem merged_hist {env : Env} (hs : env.Sane) {inputs : List Bytes} {src : Bytes → Conf} {R : Msg}
    {bad : List Nat}
    (hw : ∀ b ∈ inputs, ∀ m, parseMsg env false b = .ok m → ConfWF (src b))
    (ih : ∀ b ∈ inputs, ∀ m, parseMsg env false b = .ok m → HistConf False (src b))
    (hp : ∀ b ∈ inputs, ∀ m, parseMsg env false b = .ok m → Published env (src b) b)
    (h : mergeMsgs env inputs = .ok (R, bad)) : LagOk False R.hist R.data := by
  obtain ⟨_, hm⟩ := mergeMsgs_ok_iff.1 ⟨bad, h⟩
  rcases mergeParsed_forms hm with ⟨c, hc, i, _, rfl⟩ | ⟨_, top, rest, hsub, _, hk⟩
  · obtain ⟨b, hb, hbm⟩ := mem_validOf.1 hc
    have := loaded_hist hs (hw b hb c hbm) (ih b hb c hbm) (hp b hb c hbm) hbm
    exact this
  · exact mergeKept_hist (fun m hm => valid_wf m (hsub m hm)) hk

/-- The history an honest message carries agrees with its content. -/
theorem Honest.hist {env : Env} (hs : env.Sane) {lin : Bool} {c : Conf} (h : Honest env lin c) :
    HistConf (lin = true) c := by
  have mk : ∀ {R : Msg}, LagOk False R.hist R.data → lin = false → LagOk (lin = true) R.hist R.data :=
    fun h hl => h.weaken (by simp [hl])
  induction h with
  | new =>
    refine ⟨fun p b hb => ?_, fun p x b hb => ?_⟩
    · have e0 : sayS [] p = none := by rcases p with _ | ⟨k, _ | ⟨k2, ps⟩⟩ <;> rfl
      simp [newMsg, Msg.hist, Msg.empty, lastBy, e0] at hb
    · have e0 : sayM [] p x = none := by rcases p with _ | ⟨k, _ | ⟨k2, ps⟩⟩ <;> rfl
      simp [newMsg, Msg.hist, Msg.empty, lastBy, e0] at hb
  | newMut s _ => exact LagOk.nil _ _
  | @edit c d _ h1 h2 ih =>
    obtain ⟨m, o⟩ := c
    cases o with
    | none => cases h1
    | some o => exact ih
  | @refresh c hc ih =>
    obtain ⟨m, o⟩ := c
    cases o with
    | none => exact ih
    | some o => exact ih
  | @hashed c hc ih =>
    obtain ⟨m, o⟩ := c
    cases o with
    | none => exact ih
    | some o => exact ih
  | @increment c hc _ ih =>
    have hw := hc.made.wf hs
    have hw' := hw.hashed hs (env := env)
    exact (incrementImpl_hist (lag := env.lag) hw'.lagS hw'.window (hashed_hist hw ih)).2
  | loaded hc hp hm ih => exact loaded_hist hs (hc.made.wf hs) ih hp hm
  | merged hl hi hp hm ih =>
    refine mk (merged_hist hs (fun b hb m hbm => (hi b hb m hbm).made.wf hs)
      (fun b hb m hbm => ?_) hp hm) hl
    have := ih b hb m hbm
    simpa [hl] using this
  | @mergedMut inputs src R bad hl hi hp hm hu ih =>
    have := mk (merged_hist hs (fun b hb m hbm => (hi b hb m hbm).made.wf hs)
      (fun b hb m hbm => by simpa [hl] using ih b hb m hbm) hp hm) hl
    have hw := mergeMsgs_wf hs hm
    simp only [mutFromMerge, hu, if_true, HistConf]
    have hup : ∀ {β : Type} (g : BtDict → Option β) b, g [] = none → lastBy g R.lagged = some b →
        lastBy g R.hist = some b := by
      intro β g b hg hb
      obtain ⟨_, hmm⟩ := mergeMsgs_ok_iff.1 ⟨bad, hm⟩
      have hdiff : R.diff = [] := by
        rcases mergeParsed_forms hmm with ⟨c, hc, i, _, rfl⟩ | ⟨_, top, rest, hsub, _, hk⟩
        · simp only at hu; omega
        · exact (mergeKept_ok hk).2.choose_spec.2.2.1
      rw [Msg.hist, lastBy_append, hdiff, hg]; simpa using hb
    refine ⟨fun p b hb => this.s p b (hup _ b ?_ hb), fun p x b hb => this.m p x b (hup _ b ?_ hb)⟩
    · rcases p with _ | ⟨k, _ | ⟨k2, ps⟩⟩ <;> rfl
    · rcases p with _ | ⟨k, _ | ⟨k2, ps⟩⟩ <;> rfl
  | @retain c hl hc ih =>
    obtain ⟨m, o⟩ := c
    cases o with
    | some o => exact ih
    | none =>
      refine ⟨fun p b _ hc => ?_, fun p x b _ hc => ?_⟩
      · simp [hl, scalarAt_nil] at hc
      · simp [hl, memberAt_nil] at hc

end Verif
