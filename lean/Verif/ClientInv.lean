import Verif.Client
import Verif.Props.Wire
import Verif.Honest

/-!
# Executions of a config object and their invariant
-/

namespace Verif

/-- Assumptions on what surrounds a config object: functional properties of the primitives, and that
the signer's signatures pass the verifier. -/
structure Sys.Good (S : Sys) : Prop where
  sane : S.env.Sane
  lag1 : 1 ≤ S.env.lag
  lagU : S.env.lag ≤ 2 ^ 62
  prims : S.P.Good
  dom : 1 ≤ S.domain.length ∧ S.domain.length ≤ 24
  zip : ∀ b, S.unzip (S.zip b) = some b
  sig : ∀ v f, S.env.verifier = some v → S.env.signer = some f → ∀ b, v b (f b) = true
  proto : ∀ w u, S.proto = some (w, u) → ∀ k e s b, k.length = 32 → w k e s = .ok b → u k b = some e

/-- A received config message that, if it is accepted at all, has a non-negative seqno and is signed
in its canonical form: the bytes under the signature are those the library writes for its content.
(Everything the library itself publishes is like that: `published_fair`.) -/
def Fair (env : Env) (b : Bytes) : Prop :=
  ∀ m, parseMsg env false b = .ok m → 0 ≤ m.seqno ∧
    ∀ v, env.verifier = some v → ∀ s, m.vsig = some s → v (m.body env.lag) s = true

/-- The calls an application makes on a config object, with any arguments, including calls that throw.
(Calls that do not return normally or by exception - overflow of the 63-bit seqno - end the
execution.) -/
inductive Step (S : Sys) : Client → Client → Prop
  | edit (c : Client) (d : Dict) : typedD d = true → (c.edit S d).2.safe = true →
      Step S c (c.edit S d).1
  | merge (c : Client) (configs : List (Bytes × Bytes)) :
      (∀ p ∈ gather S c.keys configs, Fair S.env p.2) →
      NoCollision S.env ((c.allConfs S.env (gather S c.keys configs)).map (·.2)) →
      (c.merge S configs).2.safe = true → Step S c (c.merge S configs).1
  | push (c : Client) : Step S c (c.push S).1
  | confirm (c : Client) (s : Int) (h : Bytes) : Step S c (c.confirm s h)
  | dump (c : Client) : Step S c (c.dumped S)
  | addKey (c : Client) (k : Bytes) (hi d : Bool) : (c.addKey S k hi d).2.safe = true →
      Step S c (c.addKey S k hi d).1
  | removeKey (c : Client) (k : Bytes) (n : Nat) (d : Bool) : (c.removeKey S k n d).2.safe = true →
      Step S c (c.removeKey S k n d).1
  | clearKeys (c : Client) (d : Bool) : (c.clearKeys S d).2.safe = true →
      Step S c (c.clearKeys S d).1
  | replaceKeys (c : Client) (ks : List Bytes) (d : Bool) : (c.replaceKeys S ks d).2.safe = true →
      Step S c (c.replaceKeys S ks d).1

/-- Any number of calls on the same object. -/
inductive Steps (S : Sys) : Client → Client → Prop
  | refl (c : Client) : Steps S c c
  | tail {a b c : Client} : Steps S a b → Step S b c → Steps S a c

/-- The same kind of config object with another (or no) signing key, for example that of a group
member. -/
def Sys.as (S : Sys) (sg : Option (Bytes → Bytes)) : Sys :=
  { S with env := { S.env with signer := sg } }

/-- Reachable objects: from a new object by calls, by reloading any dump made on the way, and by giving an
object that could not sign a signing key (`set_sig_keys`, src/config/base.cpp:536-557; `load_admin_key`,
src/config/groups/keys.cpp:212-233, src/config/base.cpp:566-574): the callbacks of the current message are replaced and nothing else
changes. `revive`: a dump made by an object that cannot sign (which lists no old hashes) is loaded by one that
can. (That the new signer fits the verifier is `Sys.Good.sig` of the resulting system; `load_admin_key`
checks it.) -/
inductive Reach : Sys → Client → Prop
  | new {S : Sys} : Reach S (Client.new S)
  | step {S : Sys} {c c' : Client} : Reach S c → Step S c c' → Reach S c'
  | restore {S : Sys} {c c' : Client} {ord : List Bytes} : Reach S c →
      ord.Perm (if S.env.readonly then [] else c.old) →
      Client.restore S (c.dumpBytes S ord) = .ok c' → Reach S c'
  | promote {S : Sys} {c : Client} {f : Bytes → Bytes} : Reach S c → S.env.readonly = true →
      Reach (S.as (some f)) c
  | revive {S : Sys} {c c' : Client} {f : Bytes → Bytes} : Reach S c → S.env.readonly = true →
      Client.restore (S.as (some f)) (c.dumpBytes S []) = .ok c' → Reach (S.as (some f)) c'

theorem Reach.steps {S : Sys} {a b : Client} (h : Reach S a) (hs : Steps S a b) : Reach S b := by
  induction hs with
  | refl => exact h
  | tail _ hs ih => exact .step ih hs

/-- The invariant. -/
structure CInv (S : Sys) (c : Client) : Prop where
  wf : ConfWF c.conf
  seq : 0 ≤ c.conf.m.seqno
  isMut : c.st = .dirty → c.conf.orig.isSome = true
  curr : c.curr ≠ [] → c.st = .clean
  old : c.old.Nodup
  keyLen : ∀ k ∈ c.keys, k.length = 32
  keyNodup : c.keys.Nodup
  ro : S.env.readonly = true → c.st = .clean ∧ c.conf.orig = none ∧
    (c.conf.m.seqno ≠ 0 → c.conf.m.vsig.isSome = true)
  vs : c.conf.orig = none → ∀ v, S.env.verifier = some v → ∀ s, c.conf.m.vsig = some s →
    v (c.conf.m.body S.env.lag) s = true

theorem lagLive_filter_idem (s lag : Int) (l : List (SH × BtDict)) :
    (l.filter (lagLive s lag)).filter (lagLive s lag) = l.filter (lagLive s lag) := by
  rw [List.filter_filter]; simp

theorem body_reparsed (env : Env) (trust : Bool) (bs : Bytes) (sig : Option Bytes) (m : Msg) :
    (m.reparsed env trust bs sig).body env.lag = m.body env.lag := by
  simp only [Msg.body, Msg.top, Msg.reparsed, lagLive_filter_idem]

theorem refresh_orig (c : Conf) : c.refresh.orig = c.orig := by
  obtain ⟨m, o⟩ := c; cases o <;> rfl

theorem range_of_nonneg {S : Sys} (hS : S.Good) {s : Int} (h0 : 0 ≤ s) (h : int64Ok s = true) :
    int64Ok (s - S.env.lag) = true := by
  have := hS.lag1; have := hS.lagU
  simp only [int64Ok, Bool.and_eq_true, decide_eq_true_eq] at h ⊢
  omega

/-- Our own config, when it takes part in a merge, is accepted. -/
theorem CInv.published {S : Sys} (hS : S.Good) {c : Client} (h : CInv S c)
    (hm : c.hasMine = true) : Published S.env c.conf (c.conf.ser S.env true) := by
  refine ⟨rfl, range_of_nonneg hS h.seq h.wf.seq, fun v hv => ?_⟩
  unfold Msg.sig
  cases ho : c.conf.orig with
  | none =>
    have hr : c.conf.refresh = c.conf := by
      obtain ⟨⟨m, o⟩, _⟩ := c; simp only at ho; subst ho; rfl
    rw [hr]
    cases hsig : c.conf.m.vsig with
    | some s => exact ⟨s, rfl, h.vs ho v hv s hsig⟩
    | none =>
      cases hf : S.env.signer with
      | some f => exact ⟨_, rfl, hS.sig v f hv hf _⟩
      | none =>
        exfalso
        have hro : S.env.readonly = true := by simp [Env.readonly, hv, hf]
        obtain ⟨h1, _, h3⟩ := h.ro hro
        have : c.conf.m.seqno ≠ 0 := by
          simp only [Client.hasMine, h1] at hm
          simpa using hm
        have := h3 this
        rw [hsig] at this; cases this
  | some o =>
    have hr : c.conf.refresh.m.vsig = none := by
      obtain ⟨⟨m, o⟩, _⟩ := c; simp only at ho; subst ho; rfl
    rw [hr]
    cases hf : S.env.signer with
    | some f => exact ⟨_, rfl, hS.sig v f hv hf _⟩
    | none =>
      have hro : S.env.readonly = true := by simp [Env.readonly, hv, hf]
      have := (h.ro hro).2.1
      rw [this] at ho; cases ho

/-- What the library publishes is fair. -/
theorem Published.fair {env : Env} (hs : env.Sane) {c : Conf} (hc : ConfWF c) (h0 : 0 ≤ c.m.seqno)
    {bs : Bytes} (hp : Published env c bs) : Fair env bs := by
  intro m hm
  have h := hp.parse hs hc false
  rw [hm] at h
  have h := Out.ok.inj h
  subst h
  refine ⟨by show (0 : Int) ≤ c.refresh.m.seqno; rw [refresh_seqno]; exact h0, fun v hv s hsig => ?_⟩
  rw [body_reparsed]
  obtain ⟨s', h1, h2⟩ := hp.sig v hv
  have : s = s' := by
    simp only [Msg.reparsed, hv, Option.isSome_some, Bool.true_or, if_true] at hsig
    rw [hsig] at h1; exact Option.some.inj h1
  rw [this]; exact h2

theorem published_fair {env : Env} (hs : env.Sane) {c : Conf} (hc : Made env c) (h0 : 0 ≤ c.m.seqno)
    {bs : Bytes} (hp : Published env c bs) : Fair env bs := hp.fair hs (hc.wf hs) h0

/-! ### Elementary steps -/

theorem hinsert_nodup {h : Bytes} {s : List Bytes} (hs : s.Nodup) : (hinsert h s).Nodup := by
  unfold hinsert
  split
  · exact hs
  · rename_i hn
    rw [List.nodup_append]
    exact ⟨hs, by simp, by rintro a ha b hb rfl; simp only [List.mem_singleton] at hb; exact hn (hb ▸ ha)⟩

theorem mem_hinsert {h x : Bytes} {s : List Bytes} : x ∈ hinsert h s ↔ x = h ∨ x ∈ s := by
  unfold hinsert
  split
  · rename_i hm
    constructor
    · exact .inr
    · rintro (rfl | h') <;> assumption
  · simp [or_comm]

theorem hinsertAll_nodup {hs : List Bytes} {s : List Bytes} (h : s.Nodup) : (hinsertAll hs s).Nodup := by
  unfold hinsertAll
  induction hs generalizing s with
  | nil => exact h
  | cons a t ih => exact ih (hinsert_nodup h)

theorem mem_hinsertAll {hs : List Bytes} {x : Bytes} {s : List Bytes} :
    x ∈ hinsertAll hs s ↔ x ∈ hs ∨ x ∈ s := by
  unfold hinsertAll
  induction hs generalizing s with
  | nil => simp
  | cons a t ih =>
    rw [List.foldl_cons, ih, mem_hinsert, List.mem_cons]
    constructor
    · rintro (h | h | h)
      · exact .inl (.inr h)
      · exact .inl (.inl h)
      · exact .inr h
    · rintro ((h | h) | h)
      · exact .inr (.inl h)
      · exact .inl h
      · exact .inr (.inr h)

@[simp] theorem setState_conf (c : Client) (s : CState) : (c.setState s).conf = c.conf := by
  unfold Client.setState; split <;> rfl
@[simp] theorem setState_st (c : Client) (s : CState) : (c.setState s).st = s := rfl
@[simp] theorem setState_keys (c : Client) (s : CState) : (c.setState s).keys = c.keys := by
  unfold Client.setState; split <;> rfl
@[simp] theorem setState_needsDump (c : Client) (s : CState) : (c.setState s).needsDump = true := rfl
theorem setState_old_nodup {c : Client} {s : CState} (h : c.old.Nodup) : (c.setState s).old.Nodup := by
  unfold Client.setState
  split
  · exact hinsert_nodup h
  · exact h
theorem setState_curr {c : Client} {s : CState} (h : c.curr ≠ [] → c.st = .clean) :
    (c.setState s).curr = [] := by
  unfold Client.setState
  split
  · rfl
  · rename_i hn
    by_contra hne
    exact hn ⟨h hne, hne⟩

theorem CInv.new {S : Sys} (hS : S.Good) : CInv S (Client.new S) where
  wf := (newMsg_wf _).conf (by simp [newMsg, Msg.empty]) (hS.sane.hash _)
  seq := le_refl _
  isMut := by intro h; cases h
  curr := by intro h; exact absurd rfl h
  old := List.nodup_nil
  keyLen := by simp [Client.new]
  keyNodup := List.nodup_nil
  ro := fun _ => ⟨rfl, rfl, fun h => absurd rfl h⟩
  vs := by intro _ v _ s hs; simp [Client.new, newMsg, Msg.empty] at hs

theorem CInv.dirty {S : Sys} (hS : S.Good) {c : Client} (h : CInv S c) : CInv S (c.dirty S).1 := by
  unfold Client.dirty
  split
  · split <;> exact h
  · split
    · exact h
    · rename_i hro
      split
      · exact h
      · rename_i hi
        have hi : int64Ok (c.conf.m.seqno + 1) = true := by simpa using hi
        refine ⟨h.wf.increment hS.sane hi, ?_, fun _ => rfl, ?_, setState_old_nodup (s := .dirty) h.old, ?_, ?_, ?_, ?_⟩
        · show (0 : Int) ≤ (c.conf.hashed S.env).m.seqno + 1
          rw [hashed_seqno]; have := h.seq; omega
        · intro hc; exact absurd (setState_curr (s := .dirty) h.curr) hc
        · intro k hk; exact h.keyLen k (by simpa using hk)
        · simpa using h.keyNodup
        · intro hr; exact absurd hr hro
        · intro ho; cases ho

/-- After `dirty()` returned the object is dirty. -/
theorem dirty_ok {S : Sys} {c : Client} (h : (c.dirty S).2 = .ok ()) :
    (c.dirty S).1.st = .dirty ∧ (c.dirty S).1.conf.orig.isSome = true ∧
      (c.dirty S).1.keys = c.keys := by
  unfold Client.dirty at h ⊢
  split at h
  · rename_i h1
    split at h
    · rename_i h2; simp [h1, h2]
    · cases h
  · split at h
    · cases h
    · split at h
      · cases h
      · rename_i h1 h2 h3
        simp only [h1, h2, h3]
        exact ⟨rfl, rfl, by simp⟩

theorem CInv.setData {S : Sys} {c : Client} (h : CInv S c) (ho : c.conf.orig.isSome = true)
    {d : Dict} (hd : typedD d = true) :
    CInv S { c with conf := { c.conf with m := { c.conf.m with data := d } } } := by
  have hne : c.conf.orig ≠ none := by rw [← Option.isSome_iff_ne_none]; exact ho
  refine ⟨⟨hd, fun h' => absurd h' hne, h.wf.orig, h.wf.diff, h.wf.lagS, h.wf.lagRows, h.wf.window,
    h.wf.unkS, h.wf.unkKeys, h.wf.seq, h.wf.vsig, h.wf.hash⟩, h.seq, fun _ => ho, h.curr, h.old,
    h.keyLen, h.keyNodup, fun hr => absurd (h.ro hr).2.1 hne, fun h' => absurd h' hne⟩

theorem edit_eq_ok {S : Sys} {c : Client} {d : Dict} (h : (c.dirty S).2 = .ok ()) :
    c.edit S d = ({ (c.dirty S).1 with
      conf := { (c.dirty S).1.conf with m := { (c.dirty S).1.conf.m with data := d } } }, .ok ()) := by
  unfold Client.edit
  generalize c.dirty S = x at h ⊢
  obtain ⟨a, b⟩ := x
  simp only at h; subst h; rfl

theorem edit_eq_err {S : Sys} {c : Client} {d : Dict} (h : (c.dirty S).2 ≠ .ok ()) :
    c.edit S d = c.dirty S := by
  unfold Client.edit
  generalize c.dirty S = x at h ⊢
  obtain ⟨a, b⟩ := x
  cases b with
  | ok u => exact absurd rfl h
  | _ => rfl

theorem CInv.edit {S : Sys} (hS : S.Good) {c : Client} (h : CInv S c) {d : Dict}
    (hd : typedD d = true) : CInv S (c.edit S d).1 := by
  by_cases hk : (c.dirty S).2 = .ok ()
  · rw [edit_eq_ok hk]
    exact (h.dirty hS).setData (dirty_ok hk).2.1 hd
  · rw [edit_eq_err hk]; exact h.dirty hS

theorem CInv.touched {S : Sys} {c : Client} (h : CInv S c) : CInv S c.touched := by
  refine ⟨h.wf.refresh, ?_, ?_, h.curr, h.old, h.keyLen, h.keyNodup, ?_, ?_⟩
  · show (0 : Int) ≤ c.conf.refresh.m.seqno; rw [refresh_seqno]; exact h.seq
  · intro hd; show c.conf.refresh.orig.isSome = true; rw [refresh_orig]; exact h.isMut hd
  · intro hr
    obtain ⟨h1, h2, h3⟩ := h.ro hr
    have hr : c.conf.refresh = c.conf := by
      obtain ⟨⟨m, o⟩, _⟩ := c; simp only at h2; subst h2; rfl
    refine ⟨h1, ?_, ?_⟩
    · show c.conf.refresh.orig = none; rw [hr]; exact h2
    · show c.conf.refresh.m.seqno ≠ 0 → c.conf.refresh.m.vsig.isSome = true; rw [hr]; exact h3
  · intro ho
    have ho : c.conf.orig = none := by rw [← refresh_orig]; exact ho
    have hr : c.conf.refresh = c.conf := by
      obtain ⟨⟨m, o⟩, _⟩ := c; simp only at ho; subst ho; rfl
    show ∀ v, S.env.verifier = some v → ∀ s, c.conf.refresh.m.vsig = some s →
      v (c.conf.refresh.m.body S.env.lag) s = true
    rw [hr]; exact h.vs ho

theorem CInv.confirm {S : Sys} {c : Client} (h : CInv S c) (s : Int) (x : Bytes) :
    CInv S (c.confirm s x) := by
  unfold Client.confirm
  split
  · rename_i hw
    refine ⟨by simpa using h.wf, by simpa using h.seq, ?_, fun _ => rfl, setState_old_nodup (s := .clean) h.old,
      by simpa using h.keyLen, by simpa using h.keyNodup, ?_, by simpa using h.vs⟩
    · intro hd; cases hd
    · intro hr
      have := (h.ro hr).1
      rw [hw.1] at this; cases this
  · exact h

theorem CInv.withOld {S : Sys} {c : Client} (h : CInv S c) {o : List Bytes} (ho : o.Nodup) (b : Bool) :
    CInv S { c with old := o, needsDump := b } :=
  ⟨h.wf, h.seq, h.isMut, h.curr, ho, h.keyLen, h.keyNodup, h.ro, h.vs⟩

theorem CInv.waiting {S : Sys} {c : Client} (h : CInv S c) (hd : c.st = .dirty) :
    CInv S (c.setState .waiting) := by
  refine ⟨by simpa using h.wf, by simpa using h.seq, ?_, ?_, setState_old_nodup h.old,
      by simpa using h.keyLen, by simpa using h.keyNodup, ?_, by simpa using h.vs⟩
  · intro hd; cases hd
  · intro hc; exact absurd (setState_curr h.curr) hc
  · intro hr
    have := (h.ro hr).1
    rw [hd] at this; cases this

theorem CInv.push {S : Sys} {c : Client} (h : CInv S c) : CInv S (c.push S).1 := by
  unfold Client.push
  split
  · exact h
  · split
    · split
      · exact h.touched
      · dsimp only
        split
        · rename_i hd
          exact (h.touched.waiting hd).withOld List.nodup_nil _
        · exact h.touched.withOld List.nodup_nil _
    · exact h.touched
    · exact h
    · exact h

theorem CInv.dumped {S : Sys} {c : Client} (h : CInv S c) : CInv S (c.dumped S) := by
  refine h.touched.withOld ?_ _
  split
  · exact List.nodup_nil
  · exact h.old

/-! ### Keys -/

theorem CInv.withKeys {S : Sys} {c : Client} (h : CInv S c) {ks : List Bytes}
    (hl : ∀ k ∈ ks, k.length = 32) (hn : ks.Nodup) : CInv S { c with keys := ks } :=
  ⟨h.wf, h.seq, h.isMut, h.curr, h.old, hl, hn, h.ro, h.vs⟩

theorem removed_sublist (ks : List Bytes) (n : Nat) (key : Bytes) :
    (ks.take n ++ (ks.drop n).filter (· ≠ key)).Sublist ks := by
  conv => rhs; rw [← List.take_append_drop n ks]
  exact List.Sublist.append_left List.filter_sublist _

theorem CInv.removeKey {S : Sys} (hS : S.Good) {c : Client} (h : CInv S c) (k : Bytes) (n : Nat)
    (d : Bool) : CInv S (c.removeKey S k n d).1 := by
  have hsub := removed_sublist c.keys n k
  have h1 : CInv S { c with keys := c.keys.take n ++ (c.keys.drop n).filter (· ≠ k) } :=
    h.withKeys (fun x hx => h.keyLen x (hsub.subset hx)) (List.Nodup.sublist hsub h.keyNodup)
  unfold Client.removeKey
  split
  · exact h
  · split
    · exact h
    · dsimp only
      split
      · have h2 := h1.dirty hS
        split <;> (rename_i he; rw [he] at h2; exact h2)
      · exact h1

theorem CInv.addKey {S : Sys} (hS : S.Good) {c : Client} (h : CInv S c) (k : Bytes) (hi d : Bool) :
    CInv S (c.addKey S k hi d).1 := by
  unfold Client.addKey
  split
  · exact h
  rename_i hlen
  have hlen : k.length = 32 := by simpa using hlen
  split
  · exact h
  rename_i hhead
  split
  · exact h
  rename_i hmem
  cases hi with
  | true =>
    have hr := h.removeKey hS k 1 false
    have key : CInv S { (c.removeKey S k 1 false).1 with keys := k :: (c.removeKey S k 1 false).1.keys } := by
      refine hr.withKeys ?_ ?_
      · intro x hx
        rcases List.mem_cons.1 hx with rfl | hx
        · exact hlen
        · exact hr.keyLen x hx
      · refine List.nodup_cons.2 ⟨?_, hr.keyNodup⟩
        unfold Client.removeKey
        cases hk : c.keys with
        | nil => simp [hk]
        | cons f t =>
          rw [hk] at hhead
          simp only [List.head?_cons, Option.some.injEq] at hhead
          dsimp only
          split
          · rename_i hle
            have : t = [] := by
              simp only [List.length_cons] at hle
              exact List.length_eq_zero_iff.1 (by omega)
            subst this
            rw [hk]; simp [Ne.symm hhead]
          · simp [Ne.symm hhead]
    simp only [if_true]
    split
    · exact key.dirty hS
    · exact key
  | false =>
    have hnm : k ∉ c.keys := by simpa using hmem
    have key : CInv S { c with keys := c.keys ++ [k] } := by
      refine h.withKeys ?_ ?_
      · intro x hx
        rcases List.mem_append.1 hx with hx | hx
        · exact h.keyLen x hx
        · simp only [List.mem_singleton] at hx; rw [hx]; exact hlen
      · rw [List.nodup_append]
        exact ⟨h.keyNodup, by simp, by rintro a ha b hb rfl; simp only [List.mem_singleton] at hb; exact hnm (hb ▸ ha)⟩
    simp only [Bool.false_eq_true, if_false]
    split
    · exact key.dirty hS
    · exact key

theorem CInv.clearKeys {S : Sys} (hS : S.Good) {c : Client} (h : CInv S c) (d : Bool) :
    CInv S (c.clearKeys S d).1 := by
  have h1 : CInv S { c with keys := [] } := h.withKeys (by simp) List.nodup_nil
  unfold Client.clearKeys
  dsimp only
  split
  · exact h1.dirty hS
  · exact h1

theorem CInv.replaceKeys {S : Sys} (hS : S.Good) {c : Client} (h : CInv S c) (ks : List Bytes) (d : Bool) :
    CInv S (c.replaceKeys S ks d).1 := by
  unfold Client.replaceKeys
  split
  · split
    · exact h
    · exact h.clearKeys hS d
  · rename_i k ks
    split
    · exact h
    · dsimp only
      have h1 : CInv S { c with keys := [] } := h.withKeys (by simp) List.nodup_nil
      have h2 : ∀ (l : List Bytes) (c : Client), CInv S c →
          CInv S (l.foldl (fun c k => (c.addKey S k false false).1) c) := by
        intro l
        induction l with
        | nil => intro c h; exact h
        | cons a t ih => intro c h; exact ih _ (h.addKey hS a false false)
      split
      · exact (h2 _ _ h1).dirty hS
      · exact h2 _ _ h1

/-! ### Merging -/

/-- The result of the message merge: one of the accepted inputs, or a new unsigned message. -/
theorem mergeMsgs_forms {env : Env} {inputs : List Bytes} {R : Msg} {bad : List Nat}
    (h : mergeMsgs env inputs = .ok (R, bad)) :
    (∃ m, ∃ i : Nat, (validOf env inputs)[i]? = some m ∧ R = { m with unmerged := i }) ∨
    (env.readonly = false ∧ R.unmerged = -1 ∧ R.vsig = none ∧ R.diff = [] ∧ R.unknown = [] ∧
      R.seqno = maxSeq (validOf env inputs) + 1 ∧ int64Ok (maxSeq (validOf env inputs) + 1) = true) := by
  obtain ⟨_, hp⟩ := mergeMsgs_ok_iff.1 ⟨bad, h⟩
  rcases mergeParsed_forms hp with ⟨m, hm, i, hi, rfl⟩ | ⟨hro, top, rest, hsub, hsort, hk⟩
  · exact .inl ⟨m, i, hi, rfl⟩
  · obtain ⟨h1, d, hd, r1, r2, r3, r4, r5, r6, r7, r8⟩ := mergeKept_ok hk
    exact .inr ⟨hro, r7, r6, r2, r4, r5, h1⟩

theorem valid_range {env : Env} {inputs : List Bytes} : ∀ m ∈ validOf env inputs, int64Ok m.seqno = true :=
  fun m hm => (valid_wf m hm).seq

theorem mergeMsgs_bounds {S : Sys} (hS : S.Good) {inputs : List Bytes} {R : Msg} {bad : List Nat}
    (hf : ∀ b ∈ inputs, Fair S.env b) (h : mergeMsgs S.env inputs = .ok (R, bad)) :
    0 ≤ R.seqno ∧ (R.unmerged ≠ -1 → int64Ok (R.seqno + 1) = true) ∧
      ∀ v, S.env.verifier = some v → ∀ s, R.vsig = some s → v (R.body S.env.lag) s = true := by
  obtain ⟨_, hp⟩ := mergeMsgs_ok_iff.1 ⟨bad, h⟩
  obtain ⟨hne, hov⟩ := mergeParsed_pre hp
  rcases mergeMsgs_forms h with ⟨m, i, hi, rfl⟩ | ⟨hro, h1, h2, _, _, h3, h4⟩
  · have hm := List.mem_of_getElem? hi
    obtain ⟨b, hb, hpar⟩ := mem_validOf.1 hm
    obtain ⟨f1, f2⟩ := hf b hb m hpar
    refine ⟨f1, fun _ => ?_, f2⟩
    have := hov m hm
    have := hS.lag1
    have := (valid_wf m hm).seq
    simp only [int64Ok, Bool.and_eq_true, decide_eq_true_eq] at *
    omega
  · refine ⟨?_, fun h => absurd h1 h, fun v _ s hs => by rw [h2] at hs; cases hs⟩
    obtain ⟨m, hm, hmax⟩ := maxSeq_mem (valid_range (env := S.env) (inputs := inputs)) hne
    obtain ⟨b, hb, hpar⟩ := mem_validOf.1 hm
    have := (hf b hb m hpar).1
    omega

/-- Everything in the batch of a merge is fair, our own config included. -/
theorem CInv.all_fair {S : Sys} (hS : S.Good) {c : Client} (h : CInv S c) {inc : List (Bytes × Bytes)}
    (hf : ∀ p ∈ inc, Fair S.env p.2) :
    ∀ b ∈ (c.allConfs S.env inc).map (·.2), Fair S.env b := by
  intro b hb
  obtain ⟨p, hp, rfl⟩ := List.mem_map.1 hb
  rcases List.mem_append.1 hp with hp | hp
  · split at hp
    · rename_i hm
      simp only [List.mem_singleton] at hp
      subst hp
      exact (h.published hS hm).fair hS.sane h.wf h.seq
    · cases hp
  · exact hf p hp

theorem CInv.maybeTouched {S : Sys} {c : Client} (h : CInv S c) :
    CInv S { c with conf := if c.hasMine then c.conf.refresh else c.conf } := by
  cases c.hasMine
  · exact h
  · exact h.touched

theorem mutFromMerge_wf {env : Env} {R : Msg} (hw : ConfWF ⟨R, none⟩)
    (hn : R.unmerged ≠ -1 → int64Ok (R.seqno + 1) = true) : ConfWF (mutFromMerge env R) := by
  unfold mutFromMerge
  split
  · exact ⟨hw.data, by simp, by rintro o ho; cases ho; exact hw.pruned rfl, hw.diff, hw.lagS,
      hw.lagRows, hw.window, hw.unkS, hw.unkKeys, hw.seq, hw.vsig, hw.hash⟩
  · rename_i hu
    exact incrementImpl_wf (hw.msg rfl) hw.hash hw.window (hn hu)

theorem mutFromMerge_orig (env : Env) (R : Msg) : (mutFromMerge env R).orig.isSome = true := by
  unfold mutFromMerge; split <;> rfl

theorem mutFromMerge_seqno (env : Env) (R : Msg) :
    (mutFromMerge env R).m.seqno = if R.unmerged = -1 then R.seqno else R.seqno + 1 := by
  unfold mutFromMerge; split <;> rfl

theorem newConf_wf {S : Sys} {c : Client} {R : Msg} (hw : ConfWF ⟨R, none⟩)
    (hn : R.unmerged ≠ -1 → int64Ok (R.seqno + 1) = true) : ConfWF (c.newConf S R) := by
  unfold Client.newConf
  split
  · exact mutFromMerge_wf hw hn
  · exact hw

theorem newConf_seqno (S : Sys) (c : Client) (R : Msg) :
    (c.newConf S R).m.seqno = if c.st = .dirty ∧ R.unmerged ≠ -1 then R.seqno + 1 else R.seqno := by
  unfold Client.newConf
  split
  · rename_i h
    rw [mutFromMerge_seqno]
    by_cases hu : R.unmerged = -1 <;> simp [h, hu]
  · rename_i h; simp [h]

theorem retain_seqno (c : Conf) : c.retain.m.seqno = c.m.seqno := by
  obtain ⟨m, o⟩ := c; cases o <;> rfl

theorem retain_data (c : Conf) : c.retain.m.data = c.m.data := by
  obtain ⟨m, o⟩ := c; cases o <;> rfl

theorem retain_orig (c : Conf) : c.retain.orig.isSome = true := by
  obtain ⟨m, o⟩ := c; cases o <;> rfl

theorem mergedConf_seqno (S : Sys) (c : Client) {R : Msg} (hu : R.unmerged = -1) :
    (c.mergedConf S R).m.seqno = R.seqno := by
  unfold Client.mergedConf
  split
  · rw [newConf_seqno]; simp [hu]
  · rw [retain_seqno, newConf_seqno]; simp [hu]

theorem mergedConf_orig (S : Sys) (c : Client) (R : Msg) : (c.mergedConf S R).orig.isSome = true := by
  unfold Client.mergedConf
  split
  · rename_i h; unfold Client.newConf; rw [if_pos h]; exact mutFromMerge_orig _ _
  · exact retain_orig _

theorem mergedConf_wf {S : Sys} {c : Client} {R : Msg} (hw : ConfWF ⟨R, none⟩)
    (hn : R.unmerged ≠ -1 → int64Ok (R.seqno + 1) = true) : ConfWF (c.mergedConf S R) := by
  unfold Client.mergedConf
  split
  · exact newConf_wf hw hn
  · exact (newConf_wf hw hn).retain

theorem CInv.noted {S : Sys} {c : Client} (h : CInv S c) (all : List (Bytes × Bytes)) (R : Msg)
    (bad : List Nat) : CInv S (c.noted all R bad) :=
  h.maybeTouched.withOld (hinsertAll_nodup h.old) c.needsDump

theorem CInv.absorb {S : Sys} (hS : S.Good) {c : Client} (h : CInv S c) {inc : List (Bytes × Bytes)}
    (hf : ∀ p ∈ inc, Fair S.env p.2) {R : Msg} {bad : List Nat}
    (hR : mergeMsgs S.env ((c.allConfs S.env inc).map (·.2)) = .ok (R, bad)) :
    CInv S (c.absorb S (c.allConfs S.env inc) R bad).1 := by
  obtain ⟨b1, b2, b3⟩ := mergeMsgs_bounds hS (h.all_fair hS hf) hR
  have hw := mergeMsgs_wf hS.sane hR
  have hforms := mergeMsgs_forms hR
  have hroV : S.env.readonly = true → R.vsig.isSome = true ∧ R.unmerged ≠ -1 := by
    intro hr
    rcases hforms with ⟨m, i, hi, rfl⟩ | ⟨h1, _⟩
    · obtain ⟨b, _, hpar⟩ := mem_validOf.1 (List.mem_of_getElem? hi)
      refine ⟨?_, by simp only; omega⟩
      cases hv : S.env.verifier with
      | none => simp [Env.readonly, hv] at hr
      | some v =>
        obtain ⟨_, _, sig, _, _, _, _, _, _, _, hs, _⟩ := accepted_signed hv hpar
        simp [hs]
    · rw [h1] at hr; cases hr
  unfold Client.absorb
  dsimp only
  have c2 : CInv S (c.noted (c.allConfs S.env inc) R bad) := h.noted _ _ _
  split
  · exact c2
  · split
    · rename_i hu
      have hnro : S.env.readonly = false := by
        cases hr : S.env.readonly with
        | false => rfl
        | true => exact absurd hu (hroV hr).2
      rw [hnro]
      simp only [Bool.false_eq_true, if_false]
      have key : CInv S { c.noted (c.allConfs S.env inc) R bad with conf := c.mergedConf S R } :=
        ⟨mergedConf_wf hw b2, by simp only [mergedConf_seqno S c hu]; exact b1,
          fun _ => mergedConf_orig S c R, c2.curr, c2.old, c2.keyLen, c2.keyNodup,
          fun hr => (by rw [hnro] at hr; cases hr),
          fun ho => absurd (mergedConf_orig S c R) (by rw [show (c.mergedConf S R).orig = none from ho]; simp)⟩
      refine ⟨by simpa using key.wf, by simpa using key.seq, ?_, ?_,
        setState_old_nodup (s := .dirty) key.old, by simpa using key.keyLen,
        by simpa using key.keyNodup, fun hr => (by rw [hnro] at hr; cases hr), by simpa using key.vs⟩
      · intro _; simpa using mergedConf_orig S c R
      · intro hc; exact absurd (setState_curr (s := .dirty) key.curr) hc
    · split
      · exact c2
      · rename_i hne hu hnd
        split
        · refine ⟨newConf_wf hw b2, ?_, ?_, fun _ => rfl, setState_old_nodup (s := .clean) c2.old,
            ?_, ?_, ?_, ?_⟩
          · simp only [newConf_seqno]
            split <;> omega
          · intro hd; cases hd
          · intro k hk; exact c2.keyLen k (by simpa using hk)
          · simpa using c2.keyNodup
          · intro hr
            have hst := (h.ro hr).1
            refine ⟨rfl, ?_, fun _ => ?_⟩
            · simp [Client.newConf, hst]
            · simp [Client.newConf, hst, (hroV hr).1]
          · intro ho v hv s hs
            simp only [Client.newConf] at ho hs ⊢
            by_cases hst : c.st = .dirty
            · rw [if_pos hst] at ho
              have := mutFromMerge_orig S.env R; rw [ho] at this; cases this
            · rw [if_neg hst] at hs ⊢
              exact b3 v hv s hs
        · exact c2

theorem CInv.merge {S : Sys} (hS : S.Good) {c : Client} (h : CInv S c) {configs : List (Bytes × Bytes)}
    (hf : ∀ p ∈ gather S c.keys configs, Fair S.env p.2) : CInv S (c.merge S configs).1 := by
  unfold Client.merge
  split
  · exact h
  · unfold Client.mergeCore
    dsimp only
    split
    · rename_i R bad hR; exact h.absorb hS hf hR
    · exact h.maybeTouched
    · exact h
    · exact h

theorem CInv.step {S : Sys} (hS : S.Good) {c c' : Client} (h : CInv S c) (hs : Step S c c') :
    CInv S c' := by
  cases hs with
  | edit d hd _ => exact h.edit hS hd
  | merge configs hf _ _ => exact h.merge hS hf
  | push => exact h.push
  | confirm s x => exact h.confirm s x
  | dump => exact h.dumped
  | addKey k hi d _ => exact h.addKey hS k hi d
  | removeKey k n d _ => exact h.removeKey hS k n d
  | clearKeys d _ => exact h.clearKeys hS d
  | replaceKeys ks d _ => exact h.replaceKeys hS ks d

end Verif
