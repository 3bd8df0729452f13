import Verif.Props.Client

/-!
# The list of encryption keys of a config object
-/

namespace Verif

/-! ## C41 -/

/-- C41.  In every reachable state the keys are distinct and 32 bytes long. -/
theorem keys_wellformed {S : Sys} (hS : S.Good) {c : Client} (hr : Reach S c) :
    c.keys.Nodup ∧ ∀ k ∈ c.keys, k.length = 32 := ⟨(hr.inv hS).keyNodup, (hr.inv hS).keyLen⟩

theorem dirty_keys (S : Sys) (c : Client) : (c.dirty S).1.keys = c.keys := by
  rcases dirty_fst (S := S) (c := c) with h | ⟨_, _, _, h⟩
  · rw [h]
  · rw [h]; simp

/-- C41.  A high-priority key goes to the front; the other keys keep their order. -/
theorem add_key_front {S : Sys} {c : Client} (hnd : c.keys.Nodup) {k : Bytes} (hk : k.length = 32) (d : Bool) :
    (c.addKey S k true d).1.keys = k :: c.keys.filter (· ≠ k) := by
  unfold Client.addKey
  rw [if_neg (by omega)]
  split
  · rename_i hh
    cases hl : c.keys with
    | nil => rw [hl] at hh; cases hh
    | cons a t =>
      rw [hl] at hh hnd
      have : a = k := by simpa using hh
      subst this
      rw [List.filter_cons]
      simp only [ne_eq, not_true_eq_false, decide_false, Bool.false_eq_true, if_false]
      rw [List.filter_eq_self.2]
      intro x hx
      simp only [decide_not, Bool.not_eq_true', decide_eq_false_iff_not]
      rintro rfl
      exact (List.nodup_cons.1 hnd).1 hx
  · rename_i hh
    simp only [Bool.not_true, Bool.false_and, Bool.false_eq_true, if_false, if_true]
    have hrm : (c.removeKey S k 1 false).1.keys = c.keys.filter (· ≠ k) := by
      unfold Client.removeKey
      cases hl : c.keys with
      | nil => simp [hl]
      | cons a t =>
        rw [hl] at hh
        have hak : a ≠ k := by simpa using hh
        simp only
        split
        · rename_i hlen
          have ht : t = [] := by
            cases t with
            | nil => rfl
            | cons _ _ => simp at hlen
          subst ht
          simp [hl, hak]
        · simp [hak]
    split
    · rw [dirty_keys, hrm]
    · simp only [hrm]

/-- C41.  A low-priority key is appended unless it is present. -/
theorem add_key_back {S : Sys} {c : Client} {k : Bytes} (hk : k.length = 32) (d : Bool) :
    (c.addKey S k false d).1.keys = if k ∈ c.keys then c.keys else c.keys ++ [k] := by
  unfold Client.addKey
  rw [if_neg (by omega)]
  split
  · rename_i hh
    rw [if_pos]
    cases hl : c.keys with
    | nil => rw [hl] at hh; cases hh
    | cons a t => rw [hl] at hh; simp at hh; simp [hh]
  · simp only [Bool.not_false, Bool.true_and, decide_eq_true_eq, Bool.false_eq_true, if_false]
    split
    · rfl
    · split
      · rw [dirty_keys]
      · rfl

/-- C41.  A key of another length is refused and changes nothing. -/
theorem add_key_refuses {S : Sys} {c : Client} {k : Bytes} (hk : k.length ≠ 32) (hi d : Bool) :
    c.addKey S k hi d = (c, .err .foreign) := by
  unfold Client.addKey; rw [if_pos hk]

/-- C41.  Removing a key removes exactly that key and reports whether it was there. -/
theorem remove_key_removes {S : Sys} {c : Client} (k : Bytes) :
    (c.removeKey S k 0 false).1 = { c with keys := c.keys.filter (· ≠ k) } ∧
      (c.removeKey S k 0 false).2 = .ok (decide (k ∈ c.keys)) := by
  unfold Client.removeKey
  cases hl : c.keys with
  | nil => refine ⟨?_, rfl⟩; simp only [List.filter_nil]; rw [← hl]
  | cons a t =>
    simp only [List.length_cons, Nat.le_zero_eq, Nat.add_eq_zero_iff, Nat.succ_ne_self, and_false,
      if_false, Bool.false_and, Bool.false_eq_true, List.take_zero, List.nil_append, List.drop_zero]
    refine ⟨trivial, ?_⟩
    congr 1
    rw [decide_eq_decide]
    have h1 := List.length_filter_lt_length_iff_exists (p := fun x => decide (x ≠ k)) (l := a :: t)
    rw [List.length_cons] at h1
    rw [h1]
    simp

/-- Keys with later repetitions dropped. -/
def dedupKeys : List Bytes → List Bytes → List Bytes
  | [], acc => acc
  | k :: ks, acc => dedupKeys ks (if k ∈ acc then acc else acc ++ [k])

theorem addKeys_dedup {S : Sys} (l : List Bytes) (hl : ∀ k ∈ l, k.length = 32) (c : Client) :
    (l.foldl (fun c k => (c.addKey S k false false).1) c).keys = dedupKeys l c.keys := by
  induction l generalizing c with
  | nil => rfl
  | cons a t ih =>
    rw [List.foldl_cons, ih (fun k hk => hl k (List.mem_cons_of_mem _ hk)),
      add_key_back (hl a List.mem_cons_self)]
    rfl

/-- C41.  `replace_keys` sets the list to the given keys, in order, without repetitions - or, if one
has a wrong length, throws and changes nothing. -/
theorem replace_keys_sets {S : Sys} {c : Client} (ks : List Bytes) (d : Bool) :
    ((∀ k ∈ ks, k.length = 32) → (c.replaceKeys S ks d).1.keys = dedupKeys ks []) ∧
      ((∃ k ∈ ks, k.length ≠ 32) → c.replaceKeys S ks d = (c, .err .foreign)) := by
  constructor
  · intro h
    unfold Client.replaceKeys
    cases ks with
    | nil =>
      simp only
      split
      · rename_i hk; rw [hk]; rfl
      · unfold Client.clearKeys
        dsimp only
        split
        · rw [dirty_keys]; rfl
        · rfl
    | cons k t =>
      simp only
      rw [if_neg]
      · split
        · rw [dirty_keys, addKeys_dedup _ h]
        · rw [addKeys_dedup _ h]
      · rw [List.any_eq_true]
        rintro ⟨x, hx, hx2⟩
        exact (of_decide_eq_true hx2) (h x hx)
  · rintro ⟨x, hx, hx2⟩
    unfold Client.replaceKeys
    cases ks with
    | nil => cases hx
    | cons k t =>
      simp only
      rw [if_pos]
      rw [List.any_eq_true]
      exact ⟨x, hx, decide_eq_true hx2⟩

/-- C41.  If asked to, changing the key used for encryption marks the object as to be pushed (so that
the config gets re-encrypted), unless it is read-only. -/
theorem new_front_key_dirties {S : Sys} {c : Client} {k : Bytes} (hk : k.length = 32)
    (hne : c.keys.head? ≠ some k) (hro : S.env.readonly = false)
    (hok : (c.addKey S k true true).2 = .ok ()) : (c.addKey S k true true).1.needsPush = true := by
  unfold Client.addKey at hok ⊢
  rw [if_neg (by omega), if_neg hne] at hok ⊢
  simp only [Bool.not_true, Bool.false_and, Bool.false_eq_true, if_false, if_true, hro, Bool.not_false,
    Bool.and_self, Bool.or_true] at hok ⊢
  rw [needsPush_iff, (dirty_ok hok).1]
  exact fun h => CState.noConfusion h

example : (exC0.addKey exSys (List.replicate 32 2) true true).1.keys = [List.replicate 32 2, exKey] ∧
    (exC0.addKey exSys (List.replicate 32 2) true true).2 = .ok () ∧
    (exC0.addKey exSys (List.replicate 32 2) true true).1.st = .dirty ∧
    ((exC0.addKey exSys (List.replicate 32 2) true false).1.addKey exSys exKey true false).1.keys =
      [exKey, List.replicate 32 2] := by decide +kernel

/-- The four calls that change the list of keys (the optional `from` of `remove_key` left out). -/
inductive KeyEdit where
  | add (k : Bytes) (high : Bool)
  | remove (k : Bytes)
  | clear
  | replace (ks : List Bytes)

/-- The object after the call with this `dirty_config`, and whether it returned (rather than threw). -/
def KeyEdit.run (S : Sys) (c : Client) (dirtyConfig : Bool) : KeyEdit → Client × Bool
  | .add k high => ((c.addKey S k high dirtyConfig).1, decide ((c.addKey S k high dirtyConfig).2 = .ok ()))
  | .remove k => ((c.removeKey S k 0 dirtyConfig).1,
      decide ((c.removeKey S k 0 dirtyConfig).2 = .ok true ∨ (c.removeKey S k 0 dirtyConfig).2 = .ok false))
  | .clear => ((c.clearKeys S dirtyConfig).1, decide ((c.clearKeys S dirtyConfig).2 = .ok ()))
  | .replace ks => ((c.replaceKeys S ks dirtyConfig).1, decide ((c.replaceKeys S ks dirtyConfig).2 = .ok ()))

/-- Only the keys differ. -/
def OnlyKeys (c c' : Client) : Prop := c' = { c with keys := c'.keys }

/-- The config is now being edited, with the same content. -/
def Marked (c c' : Client) : Prop := c'.st = .dirty ∧ c'.needsPush = true ∧ c'.content = c.content

theorem dedup_head (k : Bytes) : ∀ (ks acc : List Bytes), acc.head? = some k → (dedupKeys ks acc).head? = some k
  | [], _, h => h
  | a :: t, acc, h => by
    unfold dedupKeys
    refine dedup_head k t _ ?_
    split
    · exact h
    · cases acc with
      | nil => cases h
      | cons b u => exact h

theorem incr_data (env : Env) (c : Conf) :
    (c.increment env).m.data = c.m.data ∨ (c.increment env).m.data = pruneD c.m.data := by
  obtain ⟨m, o⟩ := c
  cases o with
  | none => exact .inl rfl
  | some o => exact .inr rfl

theorem dirty_marks {S : Sys} {c c1 : Client} (hi : CInv S c) (hk : OnlyKeys c c1) (h : (c1.dirty S).2 = .ok ()) :
    Marked c (c1.dirty S).1 := by
  refine ⟨(dirty_ok h).1, by rw [needsPush_iff, (dirty_ok h).1]; exact fun h => CState.noConfusion h, ?_⟩
  have hc : c1.conf = c.conf := by rw [hk]
  rcases dirty_fst (S := S) (c := c1) with h1 | ⟨_, _, _, h1⟩
  · rw [h1]; unfold Client.content; rw [hc]
  · rw [h1]
    show pruneD (c1.conf.increment S.env).m.data = pruneD c.conf.m.data
    rw [hc]
    rcases incr_data S.env c.conf with h2 | h2 <;> rw [h2]
    exact pruneD_of_wf (pruneD_wf hi.wf.data)

theorem marks_if {S : Sys} {c c1 : Client} (hi : CInv S c) (hk : OnlyKeys c c1) (d b : Bool)
    (hb : b = true ↔ c1.keys.head? ≠ c.keys.head?) {p : Client × Out Unit}
    (hp : p = if d && !S.env.readonly && b then c1.dirty S else (c1, .ok ())) :
    (p.2 = .ok () → d = true → S.env.readonly = false →
      (p.1.keys.head? = c.keys.head? → OnlyKeys c p.1) ∧ (p.1.keys.head? ≠ c.keys.head? → Marked c p.1)) ∧
    (d = false ∨ S.env.readonly = true → OnlyKeys c p.1) := by
  by_cases hx : (d && !S.env.readonly && b) = true
  · rw [if_pos hx] at hp
    subst hp
    simp only [Bool.and_eq_true, Bool.not_eq_true'] at hx
    refine ⟨fun h _ _ => ⟨fun h2 => ?_, fun _ => dirty_marks hi hk h⟩, fun h => ?_⟩
    · rw [(dirty_ok h).2.2] at h2; exact absurd h2 (hb.1 hx.2)
    · rcases h with h | h
      · rw [hx.1.1] at h; cases h
      · rw [hx.1.2] at h; cases h
  · rw [if_neg hx] at hp
    subst hp
    refine ⟨fun _ hd hro => ⟨fun _ => hk, fun h2 => ?_⟩, fun _ => hk⟩
    rw [hd, hro, hb.2 h2] at hx; exact absurd rfl hx

theorem removed_only {S : Sys} {c : Client} (k : Bytes) (n : Nat) : OnlyKeys c (c.removeKey S k n false).1 := by
  unfold Client.removeKey
  cases hl : c.keys with
  | nil => rfl
  | cons a t =>
    simp only [Bool.false_and, Bool.false_eq_true, if_false]
    split <;> rfl

/-- C41.  On an object that can be written to, with `dirty_config`, a change of the keys that returns marks the config for
pushing exactly if the key used to encrypt - the first - is another one afterwards (or there is one where there was none, or
none where there was one); otherwise nothing but the list of keys changes.  Without `dirty_config`, and on a read-only object,
never anything but the keys. -/
theorem push_follows_front {S : Sys} (hS : S.Good) {c : Client} (hr : Reach S c) (e : KeyEdit) :
    ((e.run S c true).2 = true → S.env.readonly = false →
      ((e.run S c true).1.keys.head? = c.keys.head? → OnlyKeys c (e.run S c true).1) ∧
      ((e.run S c true).1.keys.head? ≠ c.keys.head? → Marked c (e.run S c true).1)) ∧
    OnlyKeys c (e.run S c false).1 ∧ (S.env.readonly = true → OnlyKeys c (e.run S c true).1) := by
  have hi := hr.inv hS
  have same0 : OnlyKeys c c := rfl
  suffices H : ∀ d, ((e.run S c d).2 = true → d = true → S.env.readonly = false →
      ((e.run S c d).1.keys.head? = c.keys.head? → OnlyKeys c (e.run S c d).1) ∧
      ((e.run S c d).1.keys.head? ≠ c.keys.head? → Marked c (e.run S c d).1)) ∧
      (d = false ∨ S.env.readonly = true → OnlyKeys c (e.run S c d).1) from
    ⟨fun h1 h2 => (H true).1 h1 rfl h2, (H false).2 (.inl rfl), fun h => (H true).2 (.inr h)⟩
  intro d
  -- nothing happened
  have idle : ∀ {o : Out Unit} {p : Client × Out Unit}, p = (c, o) → (p.2 = .ok () → d = true → S.env.readonly = false →
      (p.1.keys.head? = c.keys.head? → OnlyKeys c p.1) ∧ (p.1.keys.head? ≠ c.keys.head? → Marked c p.1)) ∧
      (d = false ∨ S.env.readonly = true → OnlyKeys c p.1) := by
    rintro o p rfl
    exact ⟨fun _ _ _ => ⟨fun _ => same0, fun h => absurd rfl h⟩, fun _ => same0⟩
  have clr : ((c.clearKeys S d).2 = .ok () → d = true → S.env.readonly = false →
      ((c.clearKeys S d).1.keys.head? = c.keys.head? → OnlyKeys c (c.clearKeys S d).1) ∧
      ((c.clearKeys S d).1.keys.head? ≠ c.keys.head? → Marked c (c.clearKeys S d).1)) ∧
      (d = false ∨ S.env.readonly = true → OnlyKeys c (c.clearKeys S d).1) := by
    refine marks_if (c1 := { c with keys := [] }) hi rfl d (decide (0 < c.keys.length)) ?_ rfl
    rw [decide_eq_true_eq]
    cases hl : c.keys with
    | nil => simp
    | cons a t => simp
  cases e with
  | add k high =>
    show (decide ((c.addKey S k high d).2 = .ok ()) = true → _ → _ → (_ → OnlyKeys c (c.addKey S k high d).1) ∧ _) ∧ _
    rw [decide_eq_true_eq]
    show ((c.addKey S k high d).2 = .ok () → d = true → S.env.readonly = false →
      ((c.addKey S k high d).1.keys.head? = c.keys.head? → OnlyKeys c (c.addKey S k high d).1) ∧
      ((c.addKey S k high d).1.keys.head? ≠ c.keys.head? → Marked c (c.addKey S k high d).1)) ∧
      (d = false ∨ S.env.readonly = true → OnlyKeys c (c.addKey S k high d).1)
    generalize hp : c.addKey S k high d = p
    unfold Client.addKey at hp
    by_cases h1 : k.length ≠ 32
    · rw [if_pos h1] at hp; exact idle hp.symm
    rw [if_neg h1] at hp
    by_cases h2 : c.keys.head? = some k
    · rw [if_pos h2] at hp; exact idle hp.symm
    rw [if_neg h2] at hp
    by_cases h3 : (!high && decide (k ∈ c.keys)) = true
    · rw [if_pos h3] at hp; exact idle hp.symm
    rw [if_neg h3] at hp
    cases high with
    | true =>
      have hrm := removed_only (S := S) (c := c) k 1
      refine marks_if (c1 := { (c.removeKey S k 1 false).1 with keys := k :: (c.removeKey S k 1 false).1.keys }) hi ?_ d
        (decide ((k :: (c.removeKey S k 1 false).1.keys).length = 1) || true) ?_ hp.symm
      · generalize (c.removeKey S k 1 false).1 = c1 at hrm
        rw [hrm]; rfl
      · rw [Bool.or_true]
        exact ⟨fun _ h => h2 h.symm, fun _ => rfl⟩
    | false =>
      refine marks_if (c1 := { c with keys := c.keys ++ [k] }) hi rfl d
        (decide ((c.keys ++ [k]).length = 1) || false) ?_ hp.symm
      rw [Bool.or_false, decide_eq_true_eq]
      show _ ↔ (c.keys ++ [k]).head? ≠ c.keys.head?
      cases hl : c.keys with
      | nil => simp
      | cons a t => simp
  | remove k =>
    generalize hp : c.removeKey S k 0 d = p
    have e0 : KeyEdit.run S c d (.remove k) = (p.1, decide (p.2 = .ok true ∨ p.2 = .ok false)) := by
      show (_, decide _) = _; rw [hp]
    rw [e0]
    simp only [decide_eq_true_eq]
    unfold Client.removeKey at hp
    cases hl : c.keys with
    | nil =>
      rw [hl] at hp; simp only at hp; subst hp
      exact ⟨fun _ _ _ => ⟨fun _ => same0, fun h => absurd (congrArg List.head? hl) h⟩, fun _ => same0⟩
    | cons a t =>
      rw [← hl]
      have hp : (if d && !S.env.readonly && decide (k = a) then
          match ({ c with keys := c.keys.filter (· ≠ k) } : Client).dirty S with
          | (c2, .ok _) => (c2, .ok (decide ((c.keys.filter (· ≠ k)).length < c.keys.length)))
          | (c2, .err e) => (c2, .err e)
          | (c2, .hang) => (c2, .hang)
          | (c2, .ub) => (c2, .ub)
        else ({ c with keys := c.keys.filter (· ≠ k) }, .ok (decide ((c.keys.filter (· ≠ k)).length < c.keys.length)))) = p := by
        rw [hl] at hp ⊢
        exact hp
      have hb : decide (k = a) = true ↔ (c.keys.filter (· ≠ k)).head? ≠ c.keys.head? := by
        rw [decide_eq_true_eq, hl]
        constructor
        · rintro rfl hh
          rw [List.head?_cons] at hh
          have := List.mem_of_mem_head? (Option.mem_def.2 hh)
          rw [List.mem_filter] at this
          simp at this
        · intro hh
          by_contra hne
          rw [List.filter_cons_of_pos (by simpa using fun h : a = k => hne h.symm)] at hh
          exact hh rfl
      have q := marks_if (c1 := { c with keys := c.keys.filter (· ≠ k) }) hi rfl d (decide (k = a)) hb rfl
      by_cases hx : (d && !S.env.readonly && decide (k = a)) = true
      · rw [if_pos hx] at hp q
        rcases hd : ({ c with keys := c.keys.filter (· ≠ k) } : Client).dirty S with ⟨c2, o⟩
        rw [hd] at hp q
        subst hp
        cases o with
        | ok u => exact ⟨fun _ => q.1 rfl, q.2⟩
        | err e => exact ⟨(fun h => by simp at h), q.2⟩
        | hang => exact ⟨(fun h => by simp at h), q.2⟩
        | ub => exact ⟨(fun h => by simp at h), q.2⟩
      · rw [if_neg hx] at hp q
        subst hp
        exact ⟨fun _ => q.1 rfl, q.2⟩
  | clear =>
    have e0 : KeyEdit.run S c d .clear = ((c.clearKeys S d).1, decide ((c.clearKeys S d).2 = .ok ())) := rfl
    rw [e0]
    simp only [decide_eq_true_eq]
    exact clr
  | replace ks =>
    have e0 : KeyEdit.run S c d (.replace ks) = ((c.replaceKeys S ks d).1, decide ((c.replaceKeys S ks d).2 = .ok ())) := rfl
    rw [e0]
    simp only [decide_eq_true_eq]
    cases ks with
    | nil =>
      have e1 : c.replaceKeys S [] d = if c.keys = [] then (c, .ok ()) else c.clearKeys S d := rfl
      by_cases hk : c.keys = []
      · rw [if_pos hk] at e1; exact idle e1
      · rw [if_neg hk] at e1; rw [e1]; exact clr
    | cons k t =>
      generalize hp : c.replaceKeys S (k :: t) d = p
      unfold Client.replaceKeys at hp
      by_cases hb : ((k :: t).any fun k => decide (k.length ≠ 32)) = true
      · simp only [if_pos hb] at hp; exact idle hp.symm
      simp only [if_neg hb] at hp
      have h32 : ∀ x ∈ k :: t, x.length = 32 := by
        intro x hx
        by_contra hne
        exact hb (List.any_eq_true.2 ⟨x, hx, decide_eq_true hne⟩)
      have hc : OnlyKeys c ((k :: t).foldl (fun c k => (c.addKey S k false false).1) { c with keys := [] }) :=
        addKeys_conf S (k :: t) { c with keys := [] }
      have hle := addKeys_dedup (S := S) (k :: t) h32 { c with keys := [] }
      refine marks_if hi hc d (decide (c.keys = []) || decide (c.keys.head? ≠ some k)) ?_ hp.symm
      rw [hle]
      have hh : (dedupKeys (k :: t) ({ c with keys := [] } : Client).keys).head? = some k := by
        show (dedupKeys t (if k ∈ ([] : List Bytes) then [] else [] ++ [k])).head? = _
        exact dedup_head k t _ (by simp)
      rw [hh]
      simp only [Bool.or_eq_true, decide_eq_true_eq]
      constructor
      · rintro (h | h)
        · rw [h]; simp
        · exact fun h' => h h'.symm
      · exact fun h => .inr fun h' => h h'.symm

example : (KeyEdit.run exSys exC0 true (.replace [List.replicate 32 2])).2 = true ∧
    (KeyEdit.run exSys exC0 true (.replace [List.replicate 32 2])).1.st = .dirty ∧
    (KeyEdit.run exSys exC0 true (.replace [exKey, List.replicate 32 2])).1.st = .clean ∧
    (KeyEdit.run exSys exC0 true .clear).1.st = .dirty ∧ (KeyEdit.run exSys exC0 true (.remove exKey)).1.st = .dirty ∧
    exSys.env.readonly = false := by decide +kernel

/-- C41, what `push_follows_front` leaves out and where the claim is false of the code: `remove_key` takes an optional position
`from` and looks at the keys from there on, but compares with the first key whatever `from` is.  Told to remove the first key
from position 1 on, with `dirty_config`, it removes nothing and returns false - and marks the config for pushing nevertheless,
on every reachable object with a second key that can be written to. -/
theorem remove_from_marks {S : Sys} (hS : S.Good) {c : Client} (hr : Reach S c) (hro : S.env.readonly = false)
    {k : Bytes} (hk : c.keys.head? = some k) {n : Nat} (h1 : 1 ≤ n) (h2 : n < c.keys.length) :
    (c.removeKey S k n true).1.keys = c.keys ∧
    (∀ b, (c.removeKey S k n true).2 = .ok b → b = false ∧ Marked c (c.removeKey S k n true).1) := by
  have hi := hr.inv hS
  generalize hp : c.removeKey S k n true = p
  have hks : c.keys.take n ++ (c.keys.drop n).filter (· ≠ k) = c.keys := by
    have : (c.keys.drop n).filter (· ≠ k) = c.keys.drop n := by
      rw [List.filter_eq_self]
      intro x hx
      rw [decide_eq_true_eq]
      rintro rfl
      have hnd := hi.keyNodup
      cases hl : c.keys with
      | nil => rw [hl] at hk; cases hk
      | cons a t =>
        rw [hl] at hk hx hnd
        obtain ⟨m, rfl⟩ : ∃ m, n = m + 1 := ⟨n - 1, by omega⟩
        rw [List.drop_succ_cons] at hx
        rw [List.head?_cons] at hk
        cases hk
        exact (List.nodup_cons.1 hnd).1 (List.mem_of_mem_drop hx)
    rw [this, List.take_append_drop]
  unfold Client.removeKey at hp
  cases hl : c.keys with
  | nil => rw [hl] at hk; cases hk
  | cons a t =>
    have ha : k = a := by rw [hl] at hk; exact (Option.some.inj hk).symm
    have hp' : (if c.keys.length ≤ n then (c, Out.ok false)
      else
        if true && !S.env.readonly && decide (k = a) then
          match ({ c with keys := c.keys.take n ++ (c.keys.drop n).filter (· ≠ k) } : Client).dirty S with
          | (c2, .ok _) => (c2, .ok (decide ((c.keys.take n ++ (c.keys.drop n).filter (· ≠ k)).length < c.keys.length)))
          | (c2, .err e) => (c2, .err e)
          | (c2, .hang) => (c2, .hang)
          | (c2, .ub) => (c2, .ub)
        else ({ c with keys := c.keys.take n ++ (c.keys.drop n).filter (· ≠ k) },
          .ok (decide ((c.keys.take n ++ (c.keys.drop n).filter (· ≠ k)).length < c.keys.length)))) = p := by
      rw [hl] at hp ⊢
      exact hp
    rw [← hl]
    rw [if_neg (by omega), if_pos (by rw [hro, ha]; simp), hks] at hp'
    have hsame : ({ c with keys := c.keys } : Client) = c := rfl
    rw [hsame] at hp'
    have hkk := dirty_keys S c
    rcases hd : c.dirty S with ⟨c2, o⟩
    rw [hd] at hp' hkk
    subst hp'
    cases o with
    | ok u =>
      refine ⟨hkk, fun b hb => ⟨?_, ?_⟩⟩
      · cases hb; simp
      · have := dirty_marks (S := S) (c := c) (c1 := c) hi rfl (by rw [hd])
        rw [hd] at this
        exact this
    | err e => exact ⟨hkk, fun b hb => by cases hb⟩
    | hang => exact ⟨hkk, fun b hb => by cases hb⟩
    | ub => exact ⟨hkk, fun b hb => by cases hb⟩

/-- C41, the witness: a pushed object with two keys, told to remove its first key from position 1 on. -/
theorem remove_from_marks_case :
    let c := (exC0.addKey exSys (List.replicate 32 2) false false).1
    exSys.env.readonly = false ∧ c.st = .clean ∧ c.keys = [exKey, List.replicate 32 2] ∧
    (c.removeKey exSys exKey 1 true).2 = .ok false ∧
    (c.removeKey exSys exKey 1 true).1.keys = c.keys ∧ (c.removeKey exSys exKey 1 true).1.st = .dirty := by
  decide +kernel

end Verif
