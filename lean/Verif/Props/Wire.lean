import Verif.History
import Verif.SigBound

/-!
# Properties of the wire format (C01-C08)

`Made env c` (Verif/History.lean) ranges over every message object obtainable through the public
constructors and operations, from any bytes and with any modifications.
-/

namespace Verif

/-- What `serialize()` publishes as data: an immutable message its data, a mutable one its pruned
data. -/
theorem refresh_data_eq {c : Conf} (h : ConfWF c) : c.refresh.m.data = pruneD c.m.data := by
  obtain ⟨m, o⟩ := c
  cases o with
  | none => exact (pruneD_of_wf (h.pruned rfl)).symm
  | some o => rfl

theorem refresh_seqno (c : Conf) : c.refresh.m.seqno = c.m.seqno := by
  obtain ⟨m, o⟩ := c; cases o <;> rfl
theorem refresh_lagged (c : Conf) : c.refresh.m.lagged = c.m.lagged := by
  obtain ⟨m, o⟩ := c; cases o <;> rfl
theorem refresh_unknown (c : Conf) : c.refresh.m.unknown = c.m.unknown := by
  obtain ⟨m, o⟩ := c; cases o <;> rfl

theorem sig_length {env : Env} (hs : env.Sane) {m : Msg} (h : MsgWF m) (e : Bool) :
    ∀ s, m.sig env e = some s → s.length = 64 := by
  intro s hsig
  unfold Msg.sig at hsig
  split at hsig
  · rename_i s' hv; cases hsig; exact h.vsig _ hv
  · split at hsig
    · rename_i f hf
      split at hsig
      · cases hsig; exact hs.sig f hf _
      · cases hsig
    · cases hsig

theorem mem_lagLive {s lag : Int} {l : List (SH × BtDict)} {p : SH × BtDict} :
    p ∈ l.filter (lagLive s lag) ↔ p ∈ l ∧ s - lag < p.1.1 ∧ p.1.1 < s := by
  simp only [List.mem_filter, lagLive, Bool.not_eq_true', Bool.or_eq_false_iff,
    decide_eq_false_iff_not]
  constructor <;> rintro ⟨h1, h2, h3⟩ <;> exact ⟨h1, by omega, by omega⟩

/-! ## C01 -/

/-- C01.  Serialise, then parse: same data (pruned), diff, seqno, unknown keys; exactly the lagged
diffs inside the window; the hash of the bytes; the signature that was written. -/
theorem config_roundtrip {env : Env} (hs : env.Sane) {c : Conf} (hc : Made env c) (trust : Bool)
    (hub : int64Ok (c.m.seqno - env.lag) = true)
    (hv : ∀ v, env.verifier = some v →
      ∃ s, c.refresh.m.sig env true = some s ∧ v (c.refresh.m.body env.lag) s = true) :
    ∃ r, parseMsg env trust (c.ser env true) = .ok r ∧
      r.data = pruneD c.m.data ∧
      r.diff = (match c.orig with
        | none => c.m.diff
        | some o => diffD o (pruneD c.m.data)) ∧
      r.seqno = c.m.seqno ∧ r.unknown = c.m.unknown ∧
      (∀ p, p ∈ r.lagged ↔ p ∈ c.m.lagged ∧ c.m.seqno - env.lag < p.1.1 ∧ p.1.1 < c.m.seqno) ∧
      KSorted r.lagged ∧
      r.hash = env.H (c.ser env true) ∧
      (env.verifier.isSome = true → r.vsig = c.refresh.m.sig env true) := by
  have hw := hc.wf hs
  have hm := hw.refresh_msg
  have hp := parseMsg_ser env trust true c.refresh.m hm (by rw [refresh_seqno]; exact hub)
    (sig_length hs hm true) hv
  refine ⟨_, hp, refresh_data_eq hw, ?_, refresh_seqno c, refresh_unknown c, ?_, ?_, rfl, ?_⟩
  · obtain ⟨m, o⟩ := c; cases o <;> rfl
  · intro p
    simp only [Msg.reparsed, mem_lagLive, refresh_seqno, refresh_lagged]
  · exact hm.lagS.filter _
  · intro h; simp [Msg.reparsed, h]

/-- C01 for a client with a key pair: whatever a mutable message serialises to is accepted. -/
theorem config_roundtrip_signed {env : Env} (hs : env.Sane) {c : Conf} (hc : Made env c)
    (hmut : c.orig.isSome = true) {v : Bytes → Bytes → Bool} {f : Bytes → Bytes}
    (h1 : env.verifier = some v) (h2 : env.signer = some f) (h3 : ∀ b, v b (f b) = true)
    (hub : int64Ok (c.m.seqno - env.lag) = true) :
    ∃ r, parseMsg env false (c.ser env true) = .ok r ∧ r.data = pruneD c.m.data ∧
      r.vsig = some (f (c.refresh.m.body env.lag)) := by
  have hsig : c.refresh.m.sig env true = some (f (c.refresh.m.body env.lag)) := by
    obtain ⟨m, o⟩ := c
    cases o with
    | none => simp at hmut
    | some o => simp [Msg.sig, h2]
  obtain ⟨r, hr, hd, _, _, _, _, _, _, hsg⟩ := config_roundtrip hs hc false hub (by
    intro v' hv'
    rw [h1] at hv'
    cases hv'
    exact ⟨_, hsig, h3 _⟩)
  exact ⟨r, hr, hd, by rw [hsg (by simp [h1]), hsig]⟩

/-- A concrete nested config used below: `{a: 5, d: {s: {1, "x"}}, e: {}}` on top of an empty one. -/
def exData : Dict :=
  [([97], .scalar (.int 5)), ([100], .dict [([115], .set [.int 1, .str [120]])]), ([101], .dict [])]

def exEnv : Env := ⟨fun b => (b ++ List.replicate 32 0).take 32, some fun _ s => s.length == 64,
  some fun _ => List.replicate 64 9, 5⟩

theorem exEnv_sane : exEnv.Sane :=
  ⟨fun b => by simp [exEnv], fun f hf b => by simp only [exEnv, Option.some.injEq] at hf; simp [← hf]⟩

def exConf : Conf := ⟨{ Msg.empty with seqno := 3, data := exData }, some []⟩

theorem exConf_made : Made exEnv exConf :=
  Made.edit (c := ⟨{ Msg.empty with seqno := 3 }, some []⟩) (Made.newMut 3 (by decide)) rfl
    (by decide)

/-- Two generations of a config: the second has the first in its history. -/
def exConf2 : Conf :=
  let c := exConf.increment exEnv
  { c with m := { c.m with data := [([97], .scalar (.int 6))] } }

theorem exConf2_made : Made exEnv exConf2 :=
  Made.edit (Made.increment exConf_made (by decide)) rfl (by decide)

example : exEnv.Sane ∧ Made exEnv exConf2 ∧ int64Ok (exConf2.m.seqno - exEnv.lag) = true ∧
    exConf2.orig.isSome = true ∧ exConf2.m.lagged.length = 1 ∧
    (∀ v, exEnv.verifier = some v → ∃ s, exConf2.refresh.m.sig exEnv true = some s ∧
      v (exConf2.refresh.m.body exEnv.lag) s = true) :=
  ⟨exEnv_sane, exConf2_made, by decide, rfl, rfl, by
    intro v hv; cases hv; exact ⟨_, rfl, rfl⟩⟩

/-! ## C02, C06 -/

/-- C02.  Whatever bytes are accepted: the data is sorted, duplicate-free, in range (`typedD`) and free
of empty dicts and sets at any depth (`prunedD`); lagged diffs are strictly ascending; unknown keys are
ascending and none of them is a known key. -/
theorem accepted_canonical {env : Env} {trust : Bool} {bs : Bytes} {m : Msg}
    (h : parseMsg env trust bs = .ok m) :
    typedD m.data = true ∧ prunedD m.data = true ∧ int64Ok m.seqno = true ∧
      KSorted m.lagged ∧ KSorted m.unknown ∧
      (∀ p ∈ m.unknown, p.1 ≠ kSeq ∧ p.1 ≠ kData ∧ p.1 ≠ kLag ∧ p.1 ≠ kDiff ∧ p.1 ≠ kSig) := by
  have a := (parseMsg_ok h).wf
  have hd := a.data
  simp only [wfD, Bool.and_eq_true] at hd
  refine ⟨hd.1, hd.2, a.seq, a.lagS, a.unkS, fun p hp => ?_⟩
  have := unkKeyOk_iff.1 (a.unkKeys p hp).1
  exact ⟨ne_of_gt this.1, this.2.2.1, this.2.2.2.1, this.2.2.2.2, ne_of_lt this.2.1⟩

/-- C06.  Every lagged diff of an accepted message is inside the window and has a 32-byte hash. -/
theorem accepted_lag_window {env : Env} {trust : Bool} {bs : Bytes} {m : Msg}
    (h : parseMsg env trust bs = .ok m) :
    ∀ p ∈ m.lagged, m.seqno - env.lag < p.1.1 ∧ p.1.1 < m.seqno ∧ p.1.2.length = 32 := by
  have a := parseMsg_ok h
  exact fun p hp => ⟨(a.window p hp).1, (a.window p hp).2, (a.wf.lagRows p hp).2.1⟩

/-- Hypothesis met: a published message with one ancestor is accepted. -/
example : ((parseMsg exEnv false (exConf2.ser exEnv true)).toOption.map fun m =>
    (m.lagged.length, m.data)) = some (1, [([97], .scalar (.int 6))]) := by decide +kernel

/-! ## C03 -/

/-- C03.  Messages with the same serialisation (under the same lag) have the same content. -/
theorem serialize_injective {env : Env} (hs : env.Sane) {a b : Conf} (ha : Made env a)
    (hb : Made env b) (hua : int64Ok (a.m.seqno - env.lag) = true)
    (hub : int64Ok (b.m.seqno - env.lag) = true) (h : a.ser env true = b.ser env true) :
    a.m.seqno = b.m.seqno ∧ pruneD a.m.data = pruneD b.m.data ∧
      a.refresh.m.diff = b.refresh.m.diff ∧ a.m.unknown = b.m.unknown ∧
      (∀ p : SH × BtDict, a.m.seqno - env.lag < p.1.1 → p.1.1 < a.m.seqno →
        (p ∈ a.m.lagged ↔ p ∈ b.m.lagged)) := by
  let env' : Env := { env with verifier := none }
  have hwa := ha.wf hs
  have hwb := hb.wf hs
  have ra := parseMsg_ser env' false true a.refresh.m hwa.refresh_msg
    (by rw [refresh_seqno]; exact hua) (sig_length hs (m := a.refresh.m) hwa.refresh_msg true)
    (by simp [env'])
  have rb := parseMsg_ser env' false true b.refresh.m hwb.refresh_msg
    (by rw [refresh_seqno]; exact hub) (sig_length hs (m := b.refresh.m) hwb.refresh_msg true)
    (by simp [env'])
  have e : a.refresh.m.ser env' true = b.refresh.m.ser env' true := h
  rw [e] at ra
  have := ra.symm.trans rb
  simp only [Msg.reparsed, Out.ok.injEq, Msg.mk.injEq] at this
  obtain ⟨e1, e2, e3, e4, e5, _⟩ := this
  simp only [refresh_seqno, refresh_lagged, refresh_unknown] at *
  refine ⟨e5, ?_, e2, e4, ?_⟩
  · rw [← refresh_data_eq hwa, ← refresh_data_eq hwb]; exact e1
  · intro p h1 h2
    have l1 := mem_lagLive (s := a.m.seqno) (lag := env.lag) (l := a.m.lagged) (p := p)
    have l2 := mem_lagLive (s := b.m.seqno) (lag := env.lag) (l := b.m.lagged) (p := p)
    have e3' : a.m.lagged.filter (lagLive a.m.seqno env.lag) =
        b.m.lagged.filter (lagLive b.m.seqno env.lag) := e3
    rw [e3'] at l1
    rw [← e5] at l1 l2
    constructor
    · intro h; exact (l2.1 (l1.2 ⟨h, h1, h2⟩)).1
    · intro h; exact (l1.1 (l2.2 ⟨h, h1, h2⟩)).1

/-- Two different objects with the same serialisation: data differing only by an empty dict. -/
example : ∃ a b : Conf, Made exEnv a ∧ Made exEnv b ∧ a ≠ b ∧ a.ser exEnv true = b.ser exEnv true ∧
    a.m.data ≠ [] :=
  ⟨exConf, _, exConf_made, Made.refresh exConf_made, by decide, by decide +kernel, by decide⟩

/-! ## C04 -/

/-- Everything that can be done with a message object short of merging it. -/
inductive Derived (env : Env) (c : Conf) : Conf → Prop
  | base : Derived env c c
  | edit {x : Conf} {d : Dict} : Derived env c x → x.orig.isSome = true → typedD d = true →
      Derived env c { x with m := { x.m with data := d } }
  | refresh {x : Conf} : Derived env c x → Derived env c x.refresh
  | hashed {x : Conf} : Derived env c x → Derived env c (x.hashed env)
  | increment {x : Conf} : Derived env c x → int64Ok (x.m.seqno + 1) = true →
      Derived env c (x.increment env)
  | retain {x : Conf} : Derived env c x → Derived env c x.retain

theorem Derived.made {env : Env} {c x : Conf} (hc : Made env c) (h : Derived env c x) :
    Made env x := by
  induction h with
  | base => exact hc
  | edit _ h1 h2 ih => exact .edit ih h1 h2
  | refresh _ ih => exact .refresh ih
  | hashed _ ih => exact .hashed ih
  | increment _ h ih => exact .increment ih h
  | retain _ ih => exact .retain ih

theorem Derived.unknown {env : Env} {c x : Conf} (h : Derived env c x) :
    x.m.unknown = c.m.unknown := by
  induction h with
  | base => rfl
  | edit _ _ _ ih => exact ih
  | refresh _ ih => rw [refresh_unknown, ih]
  | hashed _ ih => rw [hashed_unknown, ih]
  | increment _ _ ih => exact (hashed_unknown).trans ih
  | @retain y _ ih => rw [← ih]; obtain ⟨m, o⟩ := y; cases o <;> rfl

theorem mem_top_of_unknown {m : Msg} (h : MsgWF m) (lag : Int) {p : Bytes × Bt}
    (hp : p ∈ m.unknown) : p ∈ m.top lag := by
  have e1 := unk_split m.unknown kData
  have e2 := unk_split (unkDrop m.unknown kData) kLag
  have e3 := unk_split (unkDrop (unkDrop m.unknown kData) kLag) kDiff
  have hsig := (unkKeyOk_iff.1 (h.unkKeys p hp).1).2.1
  simp only [Msg.top, List.mem_cons, List.mem_append]
  rw [← e1, List.mem_append, ← e2, List.mem_append, ← e3, List.mem_append] at hp
  rcases hp with h1 | h1 | h1 | h1
  · exact .inr (.inl h1)
  · exact .inr (.inr (.inr (.inl h1)))
  · exact .inr (.inr (.inr (.inr (.inr (.inl h1)))))
  · refine .inr (.inr (.inr (.inr (.inr (.inr (.inr ?_))))))
    have hall : ∀ q ∈ unkDrop (unkDrop (unkDrop m.unknown kData) kLag) kDiff,
        (fun q : Bytes × Bt => decide (q.1 < kSig)) q = true := by
      intro q hq
      have : q ∈ m.unknown := (List.dropWhile_sublist _).subset
        ((List.dropWhile_sublist _).subset ((List.dropWhile_sublist _).subset hq))
      simpa using (unkKeyOk_iff.1 (h.unkKeys q this).1).2.1
    rw [unkTake, takeWhile_self hall]
    exact h1

/-- C04.  `bs` encodes a top-level dict `D`, possibly with keys this version does not know, and is
accepted.  After any sequence of edits, increments, etc., the published message encodes a dict `D'`
that still has every unknown key with its value (nested dicts with their keys in sorted order). -/
theorem unknown_keys_survive {env : Env} (hs : env.Sane) {trust : Bool} {D : BtDict} {m : Msg}
    (hD : Bt.okD D = true) (h : parseMsg env trust (100 :: (encD D ++ [101])) = .ok m)
    {c : Conf} (hc : Derived env ⟨m, none⟩ c) :
    ∃ D', c.ser env true = 100 :: (encD D' ++ [101]) ∧
      ∀ k v, (k, v) ∈ D → k ∉ [kSeq, kData, kLag, kDiff, kSig] → (k, norm v) ∈ D' := by
  have hw := (hc.made (Made.parsed h)).wf hs
  refine ⟨_, ser_eq env c.refresh.m true, fun k v hk hne => ?_⟩
  have hun : c.refresh.m.unknown = m.unknown := by rw [refresh_unknown]; exact hc.unknown
  refine List.mem_append_left _ (mem_top_of_unknown hw.refresh_msg env.lag ?_)
  rw [hun]
  -- which entries the parser saw
  have hdec := decTop_encD D ((encD D ++ [101]).length) 1 [] hD (by simp)
  have hes : parseEntries env trust (100 :: (encD D ++ [101])) (topEntries 1 D) = .ok m := by
    cases hh : encD D ++ [101] with
    | nil => simp at hh
    | cons b t =>
      rw [hh] at hdec h
      simpa only [parseMsg, hdec] using h
  have hok : ∀ e ∈ topEntries 1 D, e.val.ok = true := decTop_ok hdec
  obtain ⟨_, _, _, _, _, _, hu⟩ := parseEntries_ok hok hes
  have hex : ∀ (D : BtDict) (off : Nat), (k, v) ∈ D → ∃ e ∈ topEntries off D, e.key = k ∧ e.val = v := by
    intro D
    induction D with
    | nil => simp
    | cons a t ih =>
      intro off hm
      obtain ⟨a1, a2⟩ := a
      rcases List.mem_cons.1 hm with e | hm
      · cases e; exact ⟨_, List.mem_cons_self, rfl, rfl⟩
      · obtain ⟨e, he, h1⟩ := ih (off + ((encStr a1).length + (encV a2).length)) hm
        exact ⟨e, List.mem_cons_of_mem _ he, h1⟩
  obtain ⟨e, he, rfl, rfl⟩ := hex D 1 hk
  refine (hu _).2 ⟨e, he, ?_, rfl⟩
  exact parseEntries_key hok hes e he hne

/-- `{"#": 1, "%": "x", "&": {}, "=": {}}`: an unknown key before the data. -/
def exUnknown : BtDict :=
  [(kSeq, .int 1), ([37], .str [120]), (kData, .dict []), (kDiff, .dict []), (kSig, .str (List.replicate 64 9))]

example : Bt.okD exUnknown = true ∧
    ((parseMsg exEnv false (100 :: (encD exUnknown ++ [101]))).toOption.map (·.unknown)) =
      some [([37], .str [120])] := by decide +kernel

/-! ## C05 -/

/-- C05.  With a verifier, an accepted message has a signature entry: the bytes split as
`body ++ "1:~" ++ "64:<sig>" ++ "e" ++ tail`, the message begins with `d`, and the verifier accepted
`sig` for exactly `body`. -/
theorem accepted_signed {env : Env} {v : Bytes → Bytes → Bool} (hv : env.verifier = some v)
    {trust : Bool} {bs : Bytes} {m : Msg} (h : parseMsg env trust bs = .ok m) :
    ∃ (body sigEntry sig tail rest : Bytes), bs = body ++ sigEntry ∧
      decStr sigEntry = some (kSig, rest) ∧ decStr rest = some (sig, 101 :: tail) ∧
      sig.length = 64 ∧ v body sig = true ∧ m.vsig = some sig ∧ bs.head? = some 100 := by
  obtain ⟨sig, n, rest, tail, h1, h2, h3, h4, h5⟩ := (parseMsg_ok h).signed v hv
  refine ⟨bs.take n, bs.drop n, sig, tail, rest, (List.take_append_drop n bs).symm, h4, h5, h2, h3,
    h1, ?_⟩
  unfold parseMsg at h
  split at h
  · rfl
  · cases h

/-- C05, strong form.  What an accepted message says (data, diff, lagged diffs, unknown keys, seqno) is
a function of the bytes for which the verifier accepted the signature: nothing outside the signed
bytes can influence the content. -/
theorem signed_bytes_determine_content {env : Env} {v : Bytes → Bytes → Bool}
    (hv : env.verifier = some v) :
    ∃ content : Bytes → Option Content, ∀ trust bs m, parseMsg env trust bs = .ok m →
      ∃ body sig, body <+: bs ∧ sig.length = 64 ∧ v body sig = true ∧ m.vsig = some sig ∧
        content body = some m.content := by
  classical
  refine ⟨fun body => if h : ∃ c : Content, ∃ trust bs m, SignedPart env trust bs m body.tail ∧
      m.content = c then some h.choose else none, fun trust bs m h => ?_⟩
  obtain ⟨body, sig, hp, hpre, hl, hok, hsig⟩ := signedPart_of_ok hv h
  refine ⟨100 :: body, sig, hpre, hl, hok, hsig, ?_⟩
  have hex : ∃ c : Content, ∃ trust bs m, SignedPart env trust bs m (100 :: body).tail ∧
      m.content = c := ⟨_, trust, bs, m, hp, rfl⟩
  simp only [dif_pos hex, Option.some.injEq]
  obtain ⟨t', b', m', hp', he⟩ := hex.choose_spec
  rw [← he]
  exact hp'.content hp

/-- Without a valid signature nothing is accepted: if the verifier rejects everything, so does the
parser. -/
theorem rejecting_verifier_rejects {env : Env} (hv : env.verifier = some fun _ _ => false)
    (trust : Bool) (bs : Bytes) : (parseMsg env trust bs).isOk = false := by
  cases h : parseMsg env trust bs with
  | ok m =>
    obtain ⟨_, _, _, _, _, _, _, _, _, hf, _⟩ := accepted_signed hv h
    cases hf
  | _ => rfl

/-! ## C07 -/

/-- `d1:#i1e1:&de1:=d1:xi5eee`: a diff with an integer value. -/
def hangBytes : Bytes :=
  [100, 49, 58, 35, 105, 49, 101, 49, 58, 38, 100, 101, 49, 58, 61, 100, 49, 58, 120, 105, 53, 101,
    101, 101]

/-- C07 is false of the code: this 24-byte message makes the parser loop forever
(src/config.cpp:206-246 has no branch for an integer). -/
theorem parse_may_hang : parseMsg ⟨fun _ => List.replicate 32 0, none, none, 5⟩ false hangBytes = .hang := by
  decide +kernel

mutual
/-- A diff with no integer where a change marker, a nested dict or a set change is expected. -/
def noIntV : Bt → Bool
  | .int _ => false
  | .str _ => true
  | .list _ => true
  | .dict d => noIntD d
termination_by structural x => x
def noIntD : List (Bytes × Bt) → Bool
  | [] => true
  | (_, v) :: t => noIntV v && noIntD t
termination_by structural x => x
end

theorem checkOrder_ne_hang (a b : Bt) : checkOrder a b ≠ .hang := by
  unfold checkOrder
  cases a <;> cases b <;> simp only [btScalar] <;> (repeat' split) <;> simp <;> split <;> simp

theorem checkAdj_ne_hang : ∀ l : List Bt, checkAdj l ≠ .hang
  | [] => by simp [checkAdj]
  | [_] => by simp [checkAdj]
  | a :: b :: t => by
    simp only [checkAdj]
    have := checkOrder_ne_hang a b
    have := checkAdj_ne_hang (b :: t)
    cases h : checkOrder a b <;> simp_all

theorem checkSubs_ne_hang : ∀ l : List Bt, checkSubs l ≠ .hang
  | [] => by simp [checkSubs]
  | a :: t => by
    simp only [checkSubs]
    have h1 : checkSub a ≠ .hang := by
      cases a <;> simp [checkSub, checkAdj_ne_hang]
    have := checkSubs_ne_hang t
    cases h : checkSub a <;> simp_all

mutual
theorem loadV_ne_hang : ∀ b : Bt, noIntV b = true → loadV b ≠ .hang
  | .int i, h => by simp [noIntV] at h
  | .str s, _ => by simp only [loadV]; split <;> simp
  | .list l, _ => by
    simp only [loadV]
    split
    · simp
    · have := checkSubs_ne_hang l
      cases h : checkSubs l <;> simp_all
  | .dict d, h => by
    simp only [loadV]
    have := loadD_ne_hang d none (by simpa [noIntV] using h)
    cases h : loadD none d <;> simp_all
theorem loadD_ne_hang : ∀ (d : BtDict) (last : Option Bytes), noIntD d = true →
    loadD last d ≠ .hang
  | [], _, _ => by simp [loadD]
  | (k, v) :: t, last, h => by
    simp only [noIntD, Bool.and_eq_true] at h
    have h1 := loadV_ne_hang v h.1
    have h2 := loadD_ne_hang t (some k) h.2
    simp only [loadD]
    split
    · simp
    · cases hv : loadV v <;> simp_all
      cases hd : loadD (some k) t <;> simp_all
end

theorem parseSet_ne_hang (l : List Bt) (last : Option Scalar) : parseSet last l ≠ .hang := by
  induction l generalizing last with
  | nil => simp [parseSet]
  | cons a t ih =>
    have h1 : parseScalar a ≠ .hang := by
      cases a <;> simp only [parseScalar] <;> (try split) <;> simp
    simp only [parseSet]
    cases h : parseScalar a with
    | ok x =>
      simp only [Out.bind_ok]
      split
      · simp
      · have := ih (some x)
        cases h : parseSet (some x) t <;> simp_all
    | err e => simp
    | hang => exact absurd h h1
    | ub => simp

mutual
theorem parseV_ne_hang : ∀ b : Bt, parseV b ≠ .hang
  | .int i => by simp only [parseV]; split <;> simp
  | .str s => by simp [parseV]
  | .list l => by
    simp only [parseV]
    split
    · simp
    · have := parseSet_ne_hang l none
      cases h : parseSet none l <;> simp_all
  | .dict d => by
    simp only [parseV]
    split
    · simp
    · have := parseD_ne_hang d none
      cases h : parseD none d <;> simp_all
theorem parseD_ne_hang : ∀ (d : BtDict) (last : Option Bytes), parseD last d ≠ .hang
  | [], _ => by simp [parseD]
  | (k, v) :: t, last => by
    have h1 := parseV_ne_hang v
    have h2 := parseD_ne_hang t (some k)
    simp only [parseD]
    split
    · simp
    · cases hv : parseV v <;> simp_all
      cases hd : parseD (some k) t <;> simp_all
end

/-- No diff in the lagged rows has an integer value. -/
def noIntRow : Bt → Bool
  | .list l => l.all fun b => match b with
    | .dict d => noIntD d
    | _ => true
  | _ => true

theorem parseLagged_ne_hang {cur lag : Int} (rows : List Bt) (last : Option SH)
    (h : rows.all noIntRow = true) : parseLagged cur lag last rows ≠ .hang := by
  induction rows generalizing last with
  | nil => simp [parseLagged]
  | cons r t ih =>
    simp only [List.all_cons, Bool.and_eq_true] at h
    unfold parseLagged
    split
    · split
      · simp
      split
      · simp
      split
      · simp
      split
      · exact ih _ h.2
      split
      · split
        · simp
        split
        · simp
        split
        · rename_i d rest3
          have hd : noIntD d = true := by
            have := h.1
            simp only [noIntRow, List.all_cons, Bool.and_eq_true] at this
            exact this.2.2.1
          have h1 := loadD_ne_hang d none hd
          cases hl : loadD none d with
          | ok x =>
            simp only [Out.bind_ok]
            split
            · simp
            · rename_i s _ _ _ _ _ hh _ _ _ _
              have := ih (some (toLex (s, hh))) h.2
              cases hp : parseLagged cur lag (some (toLex (s, hh))) t <;> simp_all
          | err e => simp
          | hang => exact absurd hl h1
          | ub => simp
        · simp
      · simp
    · simp

theorem loadUnknowns_ne_hang (prev til : Bytes) (es : List TopEntry) (u : BtDict) :
    loadUnknowns prev til u es ≠ .hang := by
  induction es generalizing u with
  | nil => simp [loadUnknowns]
  | cons e r ih =>
    simp only [loadUnknowns]
    split
    · split
      · simp
      · exact ih _
    · simp

theorem loadUnknowns_sub {prev til : Bytes} {es es' : List TopEntry} {u u' : BtDict}
    (h : loadUnknowns prev til u es = .ok (u', es')) : ∀ e ∈ es', e ∈ es := by
  obtain ⟨pre, rfl, _⟩ := loadUnknowns_ok h
  exact fun e he => List.mem_append_right _ he

/-- No diff anywhere in the top-level entries has an integer value. -/
def noIntEntry (e : TopEntry) : Bool :=
  match e.val with
  | .dict d => if e.key = kDiff then noIntD d else true
  | .list l => if e.key = kLag then l.all noIntRow else true
  | _ => true

/-- C07, as far as it holds: the parser terminates on every byte string in which no diff (neither the
message's own nor a lagged one) has an integer value.  Missing: exactly the inputs excluded by the
hypothesis, for some of which the code really loops (`parse_may_hang`). -/
theorem parse_terminates_partial (env : Env) (trust : Bool) (bs : Bytes)
    (h : ∀ f es r, decTop f 1 (bs.drop 1) = some (es, r) → es.all noIntEntry = true) :
    parseMsg env trust bs ≠ .hang := by
  unfold parseMsg
  split
  · rename_i b t
    split
    · rename_i es r hd
      have hall := h _ _ _ hd
      rw [List.all_eq_true] at hall
      clear h hd
      unfold parseEntries
      cases h1 : takeSeq es with
      | hang => unfold takeSeq at h1; split at h1 <;> (try split at h1) <;> cases h1
      | err e => simp
      | ub => simp
      | ok p1 =>
      obtain ⟨s, e1⟩ := p1
      simp only [Out.bind_ok]
      obtain ⟨_, o1, rfl⟩ := takeSeq_ok h1
      cases h2 : loadUnknowns kSeq kData [] e1 with
      | hang => exact absurd h2 (loadUnknowns_ne_hang _ _ _ _)
      | err e => simp
      | ub => simp
      | ok p2 =>
      obtain ⟨u1, e2⟩ := p2
      simp only [Out.bind_ok]
      have s2 := loadUnknowns_sub h2
      cases h3 : takeData e2 with
      | hang =>
        unfold takeData at h3
        split at h3
        · rename_i d _
          split at h3
          · have := parseD_ne_hang d none
            cases hp : parseD none d <;> simp_all
          · cases h3
        · cases h3
      | err e => simp
      | ub => simp
      | ok p3 =>
      obtain ⟨d, e3⟩ := p3
      simp only [Out.bind_ok]
      obtain ⟨_, o3, rfl⟩ := takeData_ok h3
      cases h4 : loadUnknowns kData kLag u1 e3 with
      | hang => exact absurd h4 (loadUnknowns_ne_hang _ _ _ _)
      | err e => simp
      | ub => simp
      | ok p4 =>
      obtain ⟨u2, e4⟩ := p4
      simp only [Out.bind_ok]
      have s4 := loadUnknowns_sub h4
      have hall4 : ∀ e ∈ e4, noIntEntry e = true := fun e he =>
        hall e (List.mem_cons_of_mem _ (s2 e (List.mem_cons_of_mem _ (s4 e he))))
      cases h5 : takeLag s env.lag e4 with
      | hang =>
        cases e4 with
        | nil => simp [takeLag] at h5
        | cons e r =>
          simp only [takeLag] at h5
          split at h5
          · rename_i hk
            split at h5
            · rename_i rows hv
              have hr := hall4 e List.mem_cons_self
              simp only [noIntEntry, hv, hk, if_true] at hr
              have := parseLagged_ne_hang (cur := s) (lag := env.lag) rows none hr
              cases hp : parseLagged s env.lag none rows <;> simp_all
            · cases h5
          · cases h5
      | err e => simp
      | ub => simp
      | ok p5 =>
      obtain ⟨lg, e5⟩ := p5
      simp only [Out.bind_ok]
      have s5 : ∀ e ∈ e5, e ∈ e4 := by
        cases e4 with
        | nil => simp [takeLag] at h5
        | cons e r =>
          simp only [takeLag] at h5
          split at h5
          · split at h5
            · obtain ⟨x, _, h5⟩ := Out.bind_eq_ok.1 h5
              cases h5
              exact fun e he => List.mem_cons_of_mem _ he
            · cases h5
          · cases h5; exact fun e he => he
      cases h6 : loadUnknowns kLag kDiff u2 e5 with
      | hang => exact absurd h6 (loadUnknowns_ne_hang _ _ _ _)
      | err e => simp
      | ub => simp
      | ok p6 =>
      obtain ⟨u3, e6⟩ := p6
      simp only [Out.bind_ok]
      have s6 := loadUnknowns_sub h6
      cases h7 : takeDiff e6 with
      | hang =>
        cases e6 with
        | nil => simp [takeDiff] at h7
        | cons e r =>
          simp only [takeDiff] at h7
          split at h7
          · rename_i hk
            split at h7
            · rename_i dd hv
              have hr := hall4 e (s5 e (s6 e List.mem_cons_self))
              simp only [noIntEntry, hv, hk, if_true] at hr
              have := loadD_ne_hang dd none hr
              cases hp : loadD none dd <;> simp_all
            · cases h7
          · cases h7
      | err e => simp
      | ub => simp
      | ok p7 =>
      obtain ⟨df, e7⟩ := p7
      simp only [Out.bind_ok]
      cases h8 : loadUnknowns kDiff kSig u3 e7 with
      | hang => exact absurd h8 (loadUnknowns_ne_hang _ _ _ _)
      | err e => simp
      | ub => simp
      | ok p8 =>
      obtain ⟨u4, e8⟩ := p8
      simp only [Out.bind_ok]
      cases h9 : verifySig env trust (100 :: b :: t) e8 with
      | hang =>
        exfalso
        cases e8 with
        | nil => simp only [verifySig] at h9; split at h9 <;> cases h9
        | cons e r =>
          simp only [verifySig] at h9
          split at h9
          · split at h9
            · split at h9
              · cases h9
              · split at h9
                · split at h9
                  · split at h9 <;> cases h9
                  · cases h9
                · split at h9 <;> cases h9
            · cases h9
          · split at h9 <;> cases h9
      | err e => simp
      | ub => simp
      | ok vs => simp
    · simp
  · simp

/-- Hypothesis met by a message with a real diff. -/
example : ((decTop 1000 1 ((exConf2.ser exEnv true).drop 1)).map fun p => p.1.all noIntEntry) = some true := by
  decide +kernel

/-! ## C08 -/

/-- `x`: not a bencoded dict at all. -/
def junk : Bytes := [120]

/-- C08 is false of the code: one input that is not a bencoded dict aborts the merge of the others
(the `bt_dict_consumer` is constructed outside the `try`, src/config.cpp:537). -/
theorem junk_aborts_merge :
    (mergeMsgs exEnv [exConf2.ser exEnv true]).isOk = true ∧
    (mergeMsgs exEnv [exConf2.ser exEnv true, junk]) = .err .foreign := by decide +kernel

/-- C08, as far as it holds: when every input is either valid or rejected with a config error (parse
error, bad or missing signature), merging is the same as merging just the valid ones, and the indices
reported are exactly those of the invalid ones.  Missing: inputs that are not a dict at all, on which
the merge aborts (`junk_aborts_merge`), and inputs on which the parser does not return. -/
theorem merge_skips_invalid_partial (env : Env) (inputs : List Bytes)
    (h : ∀ b ∈ inputs, (∃ m, parseMsg env false b = .ok m) ∨
      ∃ e, parseMsg env false b = .err e ∧ e ≠ .foreign) :
    mergeMsgs env inputs =
      (mergeMsgs env (inputs.filter fun b => (parseMsg env false b).isOk) >>= fun r =>
        .ok (r.1, (inputs.zipIdx.filter fun p => !(parseMsg env false p.1).isOk).map (·.2))) := by
  have key : ∀ (l : List Bytes) (i j : Nat), (∀ b ∈ l, (∃ m, parseMsg env false b = .ok m) ∨
      ∃ e, parseMsg env false b = .err e ∧ e ≠ .foreign) →
      ∃ cs, parseAll env i l = .ok (cs, ((l.zipIdx i).filter fun p =>
          !(parseMsg env false p.1).isOk).map (·.2)) ∧
        parseAll env j (l.filter fun b => (parseMsg env false b).isOk) = .ok (cs, []) := by
    intro l
    induction l with
    | nil => intro i j _; exact ⟨[], rfl, rfl⟩
    | cons b t ih =>
      intro i j hb
      have ht : ∀ x ∈ t, _ := fun x hx => hb x (List.mem_cons_of_mem _ hx)
      rcases hb b List.mem_cons_self with ⟨m, hm⟩ | ⟨e, he, hne⟩
      · obtain ⟨cs, h1, h2⟩ := ih (i + 1) (j + 1) ht
        refine ⟨m :: cs, ?_, ?_⟩
        · simp [parseAll, hm, h1, List.zipIdx_cons, Out.isOk]
        · simp [List.filter_cons, hm, Out.isOk, parseAll]
          simp only [Out.isOk] at h2
          rw [h2]; rfl
      · obtain ⟨cs, h1, h2⟩ := ih (i + 1) j ht
        refine ⟨cs, ?_, ?_⟩
        · simp only [parseAll, he]
          cases e <;> simp_all [List.zipIdx_cons, Out.isOk]
        · simp only [List.filter_cons, he, Out.isOk, Bool.false_eq_true, if_false]
          exact h2
  obtain ⟨cs, h1, h2⟩ := key inputs 0 0 h
  unfold mergeMsgs
  rw [h1, h2]
  simp only [Out.bind_ok]
  cases mergeParsed env cs <;> rfl

/-- A batch with a valid message between two invalid ones (a dict without seqno; a bad signature). -/
example : (mergeMsgs exEnv [[100, 101], exConf2.ser exEnv true, exConf2.ser { exEnv with signer := some fun _ => [1] } true]).toOption.map
    (fun r => (r.1.seqno, r.2)) = some (4, [0, 2]) := by decide +kernel

end Verif
