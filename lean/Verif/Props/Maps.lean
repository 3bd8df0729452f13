import Verif.Props.Agree
import Verif.Props.LegacyNet
import Verif.Props.GroupMembers
import Verif.Props.Exclude
import Verif.Props.Iter

/-!
# Collections behave as maps, whatever is done in between: C136

`get`, `set`, `erase`, iteration and `size` of the contacts, the members of a group, the groups and the
legacy groups of a user.
-/

namespace Verif

/-! ### The specification -/

/-- The functions a collection offers. -/
structure MapApi (R : Type) where
  find : Client → Bytes → Out (Option R)
  put : Sys → Client → R → Client × Out Unit
  remove : Sys → Client → Bytes → Client × Out Bool
  list : Client → Out (List R)
  count : Client → Nat

/-- One use of a collection. -/
inductive MapCall (R : Type) where
  | get (id : Bytes)
  | set (r : R)
  | erase (id : Bytes)
  | list
  | size

/-- What it returned. -/
inductive MapRes (R : Type) where
  | got (o : Out (Option R))
  | done (o : Out Unit)
  | erased (o : Out Bool)
  | listed (o : Out (List R))
  | counted (n : Nat)

/-- The call on the object. -/
def MapApi.run {R : Type} (A : MapApi R) (S : Sys) (c : Client) : MapCall R → Client × MapRes R
  | .get id => (c, .got (A.find c id))
  | .set r => ((A.put S c r).1, .done (A.put S c r).2)
  | .erase id => ((A.remove S c id).1, .erased (A.remove S c id).2)
  | .list => (c, .listed (A.list c))
  | .size => (c, .counted (A.count c))

/-- What the records of a collection are: the prefix of the ids, the id of a record, the records a caller
can hand over, what the collection keeps of a record that is set (given the record it held before), and
how a record it holds looks when asked for under a certain spelling of its id. -/
structure MapSpec (R : Type) where
  pre : Bytes
  rid : R → Bytes
  fits : R → Prop
  kept : Option R → R → R
  spelled : Bytes → R → R

/-- A map from ids (in lower case) to records. -/
abbrev RecMap (R : Type) := Bytes → Option R

def RecMap.empty {R : Type} : RecMap R := fun _ => none

def RecMap.upd {R : Type} (M : RecMap R) (k : Bytes) (o : Option R) : RecMap R :=
  fun k' => if k' = k then o else M k'

/-- The records of a map, in the order of their ids. -/
structure Listing {R : Type} (rid : R → Bytes) (M : RecMap R) (l : List R) : Prop where
  sorted : (l.map rid).Pairwise fun a b => fromHex a < fromHex b
  all : ∀ k r, M k = some r ↔ r ∈ l ∧ rid r = k

/-- What a map answers to a call, and the map afterwards. -/
inductive Says {R : Type} (sp : MapSpec R) (M : RecMap R) : MapCall R → MapRes R → RecMap R → Prop
  | get (id : Bytes) : checkId id sp.pre = true →
      Says sp M (.get id) (.got (.ok ((M (lower id)).map (sp.spelled id)))) M
  | getBad (id : Bytes) : checkId id sp.pre = false → Says sp M (.get id) (.got (.err .foreign)) M
  | set (r : R) : checkId (sp.rid r) sp.pre = true →
      Says sp M (.set r) (.done (.ok ()))
        (M.upd (lower (sp.rid r)) (some (sp.kept (M (lower (sp.rid r))) r)))
  | setBad (r : R) : checkId (sp.rid r) sp.pre = false → Says sp M (.set r) (.done (.err .foreign)) M
  | erase (id : Bytes) : checkId id sp.pre = true →
      Says sp M (.erase id) (.erased (.ok (M (lower id)).isSome)) (M.upd (lower id) none)
  | eraseBad (id : Bytes) : checkId id sp.pre = false → Says sp M (.erase id) (.erased (.err .foreign)) M
  | list (l : List R) : Listing sp.rid M l → Says sp M .list (.listed (.ok l)) M
  | size (l : List R) : Listing sp.rid M l → Says sp M .size (.counted l.length) M

/-- A sequence of calls with their results, explained by a map. -/
inductive Explained {R : Type} (sp : MapSpec R) : RecMap R → List (MapCall R × MapRes R) → RecMap R → Prop
  | nil (M : RecMap R) : Explained sp M [] M
  | snoc {M M' M'' : RecMap R} {t : List (MapCall R × MapRes R)} {k : MapCall R} {x : MapRes R} :
      Explained sp M t M' → Says sp M' k x M'' → Explained sp M (t ++ [(k, x)]) M''

/-! ### What may happen between the calls -/

/-- What else a device may do: publish, confirm, save, change the encryption keys, merge messages that
bring nothing new, edit something outside the collection (at `P`), be restarted from what it saved; and
another device, that has seen nothing newer, may take over by merging what this one pushes. -/
inductive Between (S : Sys) (P : List Bytes) : Client → Client → Prop
  | push (c : Client) : Between S P c (c.push S).1
  | confirm (c : Client) (s : Int) (h : Bytes) : Between S P c (c.confirm s h)
  | dump (c : Client) : Between S P c (c.dumped S)
  | addKey (c : Client) (k : Bytes) (hi d : Bool) : (c.addKey S k hi d).2.safe = true →
      Between S P c (c.addKey S k hi d).1
  | removeKey (c : Client) (k : Bytes) (n : Nat) (d : Bool) : (c.removeKey S k n d).2.safe = true →
      Between S P c (c.removeKey S k n d).1
  | clearKeys (c : Client) (d : Bool) : (c.clearKeys S d).2.safe = true →
      Between S P c (c.clearKeys S d).1
  | replaceKeys (c : Client) (ks : List Bytes) (d : Bool) : (c.replaceKeys S ks d).2.safe = true →
      Between S P c (c.replaceKeys S ks d).1
  | merge (c : Client) (configs : List (Bytes × Bytes)) :
      (∀ p ∈ gather S c.keys configs, Fair S.env p.2) →
      NoCollision S.env ((c.allConfs S.env (gather S c.keys configs)).map (·.2)) →
      (c.merge S configs).2.safe = true → (c.merge S configs).1.seqno = c.seqno →
      Between S P c (c.merge S configs).1
  | elsewhere (c : Client) (d : Dict) : typedD d = true → (c.edit S d).2.safe = true →
      valAt d P = c.get P → Between S P c (c.edit S d).1
  | restart {c c' : Client} {ord : List Bytes} : ord.Perm (if S.env.readonly then [] else c.old) →
      Client.restore S (c.dumpBytes S ord) = .ok c' → Between S P c c'
  | takeOver {c r : Client} {s : Int} {m : Bytes} {obs : List Bytes} (h : Bytes) : Reach S r →
      (c.push S).2 = .ok (s, m, obs) → s ≠ 0 → r.keys.head? = c.keys.head? → r.st ≠ .dirty →
      (r.seqno = 0 ∨ ∀ M, parseMsg S.env false (c.plain S) = .ok M → Supersedes S M r) →
      (S.env.H (c.plain S) = S.env.H (r.plain S) → c.plain S = r.plain S) →
      int64Ok (s + S.env.lag) = true →
      Between S P c (r.merge S [(h, m)]).1

/-- A history: calls, with anything in between. -/
inductive MapRun {R : Type} (S : Sys) (A : MapApi R) (sp : MapSpec R) (P : List Bytes) :
    Client → List (MapCall R × MapRes R) → Client → Prop
  | nil (c : Client) : MapRun S A sp P c [] c
  | call {c c' : Client} {t : List (MapCall R × MapRes R)} (k : MapCall R) : MapRun S A sp P c t c' →
      (∀ r, k = .set r → sp.fits r) → int64Ok (c'.seqno + 1) = true →
      MapRun S A sp P c (t ++ [(k, (A.run S c' k).2)]) (A.run S c' k).1
  | between {c c' c'' : Client} {t : List (MapCall R × MapRes R)} : MapRun S A sp P c t c' →
      Between S P c' c'' → MapRun S A sp P c t c''

/-! ### What happens in between keeps the collection -/

/-- The data is the same, or the same without empty containers. -/
def KeptData (c c' : Client) : Prop :=
  c'.conf.m.data = c.conf.m.data ∨ c'.conf.m.data = pruneD c.conf.m.data

theorem KeptData.refl (c : Client) : KeptData c c := .inl rfl

theorem KeptData.congr {c d c' : Client} (hc : d.conf = c.conf) (h : KeptData d c') : KeptData c c' := by
  unfold KeptData at h ⊢; rw [hc] at h; exact h

theorem touched_kept {c : Client} (h : ConfWF c.conf) : KeptData c c.touched := .inr (refresh_data_eq h)

theorem increment_data (env : Env) (c : Conf) :
    (c.increment env).m.data = c.m.data ∨ (c.increment env).m.data = pruneD c.m.data := by
  obtain ⟨m, o⟩ := c
  cases o with
  | none => exact .inl rfl
  | some o => exact .inr rfl

theorem dirty_kept (S : Sys) (c : Client) : KeptData c (c.dirty S).1 := by
  rcases dirty_fst (S := S) (c := c) with h | ⟨_, _, _, h⟩
  · rw [h]; exact .refl c
  · rw [h]; exact increment_data _ _

theorem dirty_kept' {S : Sys} {c d : Client} (hc : d.conf = c.conf) : KeptData c (d.dirty S).1 :=
  (dirty_kept S d).congr hc

theorem removeKey_kept (S : Sys) (c : Client) (k : Bytes) (n : Nat) (d : Bool) :
    KeptData c (c.removeKey S k n d).1 := by
  unfold Client.removeKey
  split
  · exact .refl c
  split
  · exact .refl c
  dsimp only
  split
  · have := dirty_kept' (S := S) (c := c)
      (d := { c with keys := c.keys.take n ++ (c.keys.drop n).filter (· ≠ k) }) rfl
    split <;> rename_i he <;> rw [he] at this <;> exact this
  · exact .inl rfl

theorem addKey_kept (S : Sys) (c : Client) (k : Bytes) (hi d : Bool) : KeptData c (c.addKey S k hi d).1 := by
  unfold Client.addKey
  split
  · exact .refl c
  split
  · exact .refl c
  split
  · exact .refl c
  dsimp only
  cases hi with
  | true =>
    simp only [if_true]
    obtain ⟨h1, _⟩ := removeKey_same S c k 1
    split
    · exact dirty_kept' h1
    · left
      show (c.removeKey S k 1 false).1.conf.m.data = _
      rw [h1]
  | false =>
    simp only [Bool.false_eq_true, if_false]
    split
    · exact dirty_kept' rfl
    · exact .inl rfl

theorem clearKeys_kept (S : Sys) (c : Client) (d : Bool) : KeptData c (c.clearKeys S d).1 := by
  unfold Client.clearKeys
  dsimp only
  split
  · exact dirty_kept' rfl
  · exact .inl rfl

theorem replaceKeys_kept (S : Sys) (c : Client) (ks : List Bytes) (d : Bool) :
    KeptData c (c.replaceKeys S ks d).1 := by
  unfold Client.replaceKeys
  split
  · split
    · exact .refl c
    · exact clearKeys_kept S c d
  split
  · exact .refl c
  dsimp only
  rename_i k ks _
  have h1 := congrArg Client.conf (addKeys_conf S (k :: ks) { c with keys := [] })
  split
  · exact dirty_kept' h1
  · exact .inl (by rw [h1])

theorem push_kept {S : Sys} {c : Client} (h : ConfWF c.conf) : KeptData c (c.push S).1 := by
  unfold Client.push
  split
  · exact .refl c
  split
  · split
    · exact touched_kept h
    · dsimp only
      split
      · right
        show (c.touched.setState .waiting).conf.m.data = _
        rw [setState_conf]; exact refresh_data_eq h
      · exact touched_kept h
  · exact touched_kept h
  · exact .refl c
  · exact .refl c

theorem merge_kept {S : Sys} (hS : S.Good) {c : Client} (h : CInv S c) {configs : List (Bytes × Bytes)}
    (hf : ∀ p ∈ gather S c.keys configs, Fair S.env p.2)
    (hn : NoCollision S.env ((c.allConfs S.env (gather S c.keys configs)).map (·.2)))
    (hs : (c.merge S configs).2.safe = true) (hq : (c.merge S configs).1.seqno = c.seqno) :
    KeptData c (c.merge S configs).1 := by
  have hcf : ∀ x : Client, x.conf = (if c.hasMine then c.conf.refresh else c.conf) → KeptData c x := by
    intro x hx
    unfold KeptData
    rw [hx]
    split
    · exact .inr (refresh_data_eq h.wf)
    · exact .inl rfl
  rcases merge_cases hs with ⟨e, _, h2 | h2⟩ | ⟨R, bad, _, hR, hm⟩
  · rw [h2]; exact .refl c
  · rw [h2]; exact hcf _ rfl
  · rw [hm] at hq ⊢
    rcases (absorb_cases hS h hf hn hR).2 with h1 | ⟨_, _, h1, _, h2⟩ | ⟨top, i, x, y, _, _, _, _, _, h1, _, h2⟩
    · rw [h1]; exact hcf _ rfl
    · rw [h2] at hq
      unfold Client.seqno at hq
      rw [setState_conf] at hq
      have hmm : R.seqno ≤ (mutFromMerge S.env R).m.seqno := by
        unfold mutFromMerge
        by_cases hu : R.unmerged = -1
        · rw [if_pos hu]
        · rw [if_neg hu]
          show R.seqno ≤ R.seqno + 1
          omega
      have : R.seqno ≤ (c.mergedConf S R).m.seqno := by
        unfold Client.mergedConf Client.newConf
        by_cases hd : c.st = .dirty
        · simp only [hd, if_true]; exact hmm
        · simp only [hd, if_false]; exact le_refl _
      have hq' : (c.mergedConf S R).m.seqno = c.conf.m.seqno := hq
      omega
    · rw [h2] at hq
      have hq' : (c.newConf S R).m.seqno = c.conf.m.seqno := hq
      omega

/-! ### The collections -/

/-- How a collection is stored. -/
structure Shelf (R : Type) where
  path : List Bytes
  byte : UInt8
  key : Bytes
  load : Bytes → Dict → R
  fields : R → Bytes → List (Bytes × Option Val)

/-- Every entry of the table is a record: a dict, with the string that `set` always writes, under the
bytes of an id. -/
def Shelf.Clean {R : Type} (Q : Shelf R) (c : Client) : Prop :=
  ∀ pk v, c.get (Q.path ++ [pk]) = some v → pk.length = 33 ∧ pk.head? = some Q.byte ∧
    ∃ e, v = .dict e ∧ (maybeStr e Q.key).isSome = true

structure Shelf.Lawful {R : Type} (Q : Shelf R) (A : MapApi R) (sp : MapSpec R) : Prop where
  path : Q.path ≠ []
  find : ∀ c id, A.find c id = c.getRec Q.path sp.pre Q.load id
  put : ∀ S c r, A.put S c r = c.setRec S Q.path sp.pre (sp.rid r) (Q.fields r)
  remove : ∀ S c id, A.remove S c id = c.eraseRec S Q.path sp.pre id
  count : ∀ c, A.count c = (c.table Q.path).length
  list : ∀ {S : Sys}, S.Good → ∀ {c : Client}, Reach S c → Q.Clean c →
    A.list c = .ok (c.recs Q.path Q.byte Q.load)
  nodup : ∀ r pk, ((Q.fields r pk).map (·.1)).Nodup
  wf : ∀ r, sp.fits r → ∀ pk, ∀ f ∈ Q.fields r pk, wfO f.2 = true
  str : ∀ r pk, ∃ s, (Q.key, some (.scalar (.str s))) ∈ Q.fields r pk
  congr : ∀ id d d', SameReads d d' → Q.load id d' = Q.load id d
  rid : ∀ id d, sp.rid (Q.load id d) = id
  ofHex : ∀ {pk : Bytes}, pk.length = 33 → pk.head? = some Q.byte → idBytes (toHex pk) sp.pre = .ok pk
  bytes : ∀ {id pk : Bytes}, idBytes id sp.pre = .ok pk → pk.length = 33 ∧ pk.head? = some Q.byte
  spelled : ∀ id pk d, idBytes id sp.pre = .ok pk → Q.load id d = sp.spelled id (Q.load (lower id) d)
  kept : ∀ r pk e old, sp.fits r → idBytes (sp.rid r) sp.pre = .ok pk →
    (∀ f ∈ Q.fields r pk, mget f.1 e = f.2) →
    (∀ k, k ∉ (Q.fields r pk).map (·.1) → mget k e = mget k (curDict old)) →
    Q.load (lower (sp.rid r)) e = sp.kept (loadAt (Q.load (lower (sp.rid r))) old) r

/-- The map a device holds. -/
def Shelf.view {R : Type} (Q : Shelf R) (pre : Bytes) (c : Client) : RecMap R := fun k =>
  if checkId k pre = true ∧ lower k = k then loadAt (Q.load k) (c.get (Q.path ++ [fromHex k])) else none

theorem idBytes_of {id pre : Bytes} (h : checkId id pre = true) : idBytes id pre = .ok (fromHex id) := by
  unfold idBytes; rw [if_pos h]

theorem idBytes_bad {id pre : Bytes} (h : checkId id pre = false) : idBytes id pre = .err .foreign := by
  unfold idBytes; rw [if_neg (by rw [h]; simp)]

theorem view_lower {R : Type} {Q : Shelf R} {A : MapApi R} {sp : MapSpec R} (hQ : Q.Lawful A sp) (c : Client) {id : Bytes}
    (h : checkId id sp.pre = true) :
    Q.view sp.pre c (lower id) = loadAt (Q.load (lower id)) (c.get (Q.path ++ [fromHex id])) := by
  have hi := idBytes_of h
  have hl : lower id = toHex (fromHex id) := lower_id hi
  obtain ⟨b1, b2⟩ := hQ.bytes hi
  have h2 := hQ.ofHex b1 b2
  rw [← hl] at h2
  have hc : checkId (lower id) sp.pre = true := by
    cases hh : checkId (lower id) sp.pre with
    | true => rfl
    | false => rw [idBytes_bad hh] at h2; cases h2
  have hf : fromHex (lower id) = fromHex id := by rw [hl, fromHex_toHex]
  have hll : lower (lower id) = lower id := by rw [hl, toHex_lower]
  unfold Shelf.view
  rw [if_pos ⟨hc, hll⟩, hf]

theorem view_of_get {R : Type} (Q : Shelf R) (pre : Bytes) {c c' : Client}
    (h : ∀ pk, c'.get (Q.path ++ [pk]) = c.get (Q.path ++ [pk])) : Q.view pre c' = Q.view pre c := by
  funext k; unfold Shelf.view; rw [h]

/-- One entry changed. -/
theorem view_upd {R : Type} {Q : Shelf R} {A : MapApi R} {sp : MapSpec R} (hQ : Q.Lawful A sp) {c c' : Client} {id : Bytes}
    (h : checkId id sp.pre = true)
    (ho : ∀ pk, pk ≠ fromHex id → c'.get (Q.path ++ [pk]) = c.get (Q.path ++ [pk])) :
    Q.view sp.pre c' = (Q.view sp.pre c).upd (lower id)
      (loadAt (Q.load (lower id)) (c'.get (Q.path ++ [fromHex id]))) := by
  funext k
  unfold RecMap.upd
  by_cases hk : k = lower id
  · rw [if_pos hk, hk, view_lower hQ c' h]
  · rw [if_neg hk]
    unfold Shelf.view
    by_cases hc : checkId k sp.pre = true ∧ lower k = k
    · rw [if_pos hc, if_pos hc, ho]
      intro he
      apply hk
      rw [← hc.2, lower_id (idBytes_of hc.1), lower_id (idBytes_of h), he]
    · rw [if_neg hc, if_neg hc]

/-- The collection is stored properly and shows the map. -/
structure Holds {R : Type} (S : Sys) (Q : Shelf R) (sp : MapSpec R) (c : Client) (M : RecMap R) : Prop where
  reach : Reach S c
  clean : Q.Clean c
  view : Q.view sp.pre c = M

theorem kept_holds {R : Type} {S : Sys} (hS : S.Good) {Q : Shelf R} {A : MapApi R} {sp : MapSpec R} (hQ : Q.Lawful A sp) {c c' : Client} {M : RecMap R}
    (h : Holds S Q sp c M) (hk : KeptData c c') (hr : Reach S c') : Holds S Q sp c' M := by
  have ht := (h.reach.inv hS).wf.data
  rcases hk with hk | hk
  · have hg : ∀ p, c'.get p = c.get p := fun p => by unfold Client.get; rw [hk]
    exact ⟨hr, fun pk v hv => h.clean pk v (by rw [← hg]; exact hv), by
      rw [← h.view]; exact view_of_get _ _ fun _ => hg _⟩
  · have hp := fun p => get_pruned_rec ht hk p
    have key : ∀ pk, (c.get (Q.path ++ [pk]) = none ∧ c'.get (Q.path ++ [pk]) = none) ∨
        ∃ e e', c.get (Q.path ++ [pk]) = some (.dict e) ∧ c'.get (Q.path ++ [pk]) = some (.dict e') ∧ SameReads e e' := by
      intro pk
      cases hv : c.get (Q.path ++ [pk]) with
      | none => exact .inl ⟨rfl, (hp _).1 hv⟩
      | some v =>
        obtain ⟨_, _, e, rfl, hs⟩ := h.clean pk v hv
        obtain ⟨e', he', hse⟩ := (hp _).2 e Q.key hv hs
        exact .inr ⟨e, e', rfl, he', hse⟩
    refine ⟨hr, fun pk v hv => ?_, ?_⟩
    · rcases key pk with ⟨_, h2⟩ | ⟨e, e', h1, h2, h3⟩
      · rw [h2] at hv; cases hv
      · obtain ⟨a, b, e1, he1, hs⟩ := h.clean pk _ h1
        rw [h2] at hv; cases hv; cases he1
        exact ⟨a, b, e', rfl, by rw [(h3 _).2.1]; exact hs⟩
    · rw [← h.view]
      funext k
      unfold Shelf.view
      split
      · rcases key (fromHex k) with ⟨h1, h2⟩ | ⟨e, e', h1, h2, h3⟩
        · rw [h1, h2]
        · rw [h1, h2]; simp only [loadAt, hQ.congr k e e' h3]
      · rfl

theorem new_holds {R : Type} {S : Sys} {Q : Shelf R} {A : MapApi R} {sp : MapSpec R} (hQ : Q.Lawful A sp) :
    Holds S Q sp (Client.new S) RecMap.empty := by
  have hg : ∀ pk, (Client.new S).get (Q.path ++ [pk]) = none := by
    intro pk
    have hh := hQ.path
    unfold Client.get
    cases hp : Q.path with
    | nil => exact absurd hp hh
    | cons a t => cases t <;> rfl
  refine ⟨.new, fun pk v hv => ?_, ?_⟩
  · rw [hg] at hv; cases hv
  · funext k
    unfold Shelf.view
    rw [hg]
    split <;> rfl

theorem holds_listing {R : Type} {S : Sys} (hS : S.Good) {Q : Shelf R} {A : MapApi R} {sp : MapSpec R} (hQ : Q.Lawful A sp)
    {c : Client} {M : RecMap R} (h : Holds S Q sp c M) :
    Listing sp.rid M (c.recs Q.path Q.byte Q.load) ∧ A.count c = (c.recs Q.path Q.byte Q.load).length := by
  obtain ⟨r1, r2, _, r4⟩ := recs_spec hS h.reach hQ.path (pre := sp.pre) (b := Q.byte) Q.load sp.rid hQ.rid hQ.ofHex hQ.bytes
  refine ⟨⟨r2, fun k r => ?_⟩, ?_⟩
  · rw [r1 r, ← h.view]
    constructor
    · intro hk
      unfold Shelf.view at hk
      by_cases hc : checkId k sp.pre = true ∧ lower k = k
      · rw [if_pos hc] at hk
        have hid : sp.rid r = k := by
          cases hv : c.get (Q.path ++ [fromHex k]) with
          | none => rw [hv] at hk; cases hk
          | some v =>
            rw [hv] at hk
            cases v with
            | dict e => have := Option.some.inj hk; rw [← this, hQ.rid]
            | set s => cases hk
            | scalar x => cases hk
        rw [hid]
        exact ⟨⟨hc.2, by rw [getRec_eq (idBytes_of hc.1), hk]⟩, rfl⟩
      · rw [if_neg hc] at hk; cases hk
    · rintro ⟨⟨h1, h2⟩, rfl⟩
      unfold Shelf.view
      cases hch : checkId (sp.rid r) sp.pre with
      | true =>
        rw [if_pos ⟨rfl, h1⟩]
        rw [getRec_eq (idBytes_of hch)] at h2
        exact Out.ok.inj h2
      | false =>
        unfold Client.getRec at h2
        rw [idBytes_bad hch] at h2; cases h2
  · rw [hQ.count, r4 fun pk v hv => ?_]
    obtain ⟨a, b, e, he, _⟩ := h.clean pk v hv
    exact ⟨a, b, e, he⟩

theorem mget_curDict {c : Client} {p : List Bytes} (hp : p ≠ []) (k : Bytes) :
    c.get (p ++ [k]) = mget k (curDict (c.get p)) := (table_mget hp k).symm

theorem call_says {R : Type} {S : Sys} (hS : S.Good) (hro : S.env.readonly = false) {Q : Shelf R} {A : MapApi R}
    {sp : MapSpec R} (hQ : Q.Lawful A sp) {c : Client} {M : RecMap R} (h : Holds S Q sp c M) (k : MapCall R)
    (hk : ∀ r, k = .set r → sp.fits r) (hov : int64Ok (c.seqno + 1) = true) :
    ∃ M', Says sp M k (A.run S c k).2 M' ∧ Holds S Q sp (A.run S c k).1 M' := by
  cases k with
  | get id =>
    refine ⟨M, ?_, h⟩
    show Says sp M (.get id) (.got (A.find c id)) M
    rw [hQ.find]
    cases hc : checkId id sp.pre with
    | true =>
      have hi := idBytes_of hc
      have : loadAt (Q.load id) (c.get (Q.path ++ [fromHex id])) = (M (lower id)).map (sp.spelled id) := by
        rw [← h.view, view_lower hQ c hc]
        cases c.get (Q.path ++ [fromHex id]) with
        | none => rfl
        | some v =>
          cases v with
          | dict e => simp only [loadAt, Option.map_some, ← hQ.spelled id _ e hi]
          | set s => rfl
          | scalar x => rfl
      rw [getRec_eq hi, this]
      exact .get id hc
    | false =>
      unfold Client.getRec
      rw [idBytes_bad hc]
      exact .getBad id hc
  | set r =>
    have hfit := hk r rfl
    have herr := setRec_error hS (P := Q.path) (pre := sp.pre) (id := sp.rid r) (fs := Q.fields r) (hQ.wf r hfit) h.reach
    show ∃ M', Says sp M (.set r) (.done (A.put S c r).2) M' ∧ Holds S Q sp (A.put S c r).1 M'
    rw [hQ.put]
    cases hc : checkId (sp.rid r) sp.pre with
    | false =>
      have h2 := herr.2.1 hc
      have h1 := herr.1 (by rw [h2]; simp)
      rw [h1, h2]
      exact ⟨M, .setBad r hc, h⟩
    | true =>
      have h2 := herr.2.2 hc hro hov
      rw [h2]
      have hset : c.setRec S Q.path sp.pre (sp.rid r) (Q.fields r) =
          ((c.setRec S Q.path sp.pre (sp.rid r) (Q.fields r)).1, .ok ()) := by rw [← h2]
      generalize (c.setRec S Q.path sp.pre (sp.rid r) (Q.fields r)).1 = c' at hset ⊢
      obtain ⟨g1, pk, hpk, ⟨e, he, hf⟩, g3, g4, _⟩ := setRec_spec hS hQ.path (hQ.nodup r) (hQ.wf r hfit)
        (fun pk => by obtain ⟨s, hs⟩ := hQ.str r pk; exact ⟨_, hs, rfl⟩) h.reach hset
      have hpk2 := hpk
      rw [idBytes_of hc] at hpk2
      have hpe : fromHex (sp.rid r) = pk := Out.ok.inj hpk2
      refine ⟨_, .set r hc, g1, ?_, ?_⟩
      · intro pk' v hv
        by_cases hp : pk' = pk
        · subst hp
          rw [he] at hv; cases hv
          obtain ⟨b1, b2⟩ := hQ.bytes hpk
          obtain ⟨s, hs⟩ := hQ.str r pk'
          exact ⟨b1, b2, e, rfl, by rw [maybeStr_of (hf _ hs)]; rfl⟩
        · rw [g4 pk' hp] at hv
          exact h.clean pk' v hv
      · rw [view_upd hQ hc (by rw [hpe]; exact g4), h.view, ← h.view, view_lower hQ c hc, hpe, he]
        congr 1
        show some _ = some _
        rw [hQ.kept r pk e (c.get (Q.path ++ [pk])) hfit hpk hf]
        intro k hkn
        rw [← mget_curDict (by simp), ← g3 k hkn, get_entry (by simp) he]
  | erase id =>
    show ∃ M', Says sp M (.erase id) (.erased (A.remove S c id).2) M' ∧ Holds S Q sp (A.remove S c id).1 M'
    rw [hQ.remove]
    cases hc : checkId id sp.pre with
    | false =>
      unfold Client.eraseRec
      rw [idBytes_bad hc]
      exact ⟨M, .eraseBad id hc, h⟩
    | true =>
      have hi := idBytes_of hc
      obtain ⟨c', hce⟩ := field_succeeds hS h.reach hro hov (Q.path ++ [fromHex id]) .erase
      have hce : c.erase S (Q.path ++ [fromHex id]) = (c', .ok ()) := hce
      have he : c.eraseRec S Q.path sp.pre id = (c', .ok (c.get (Q.path ++ [fromHex id])).isSome) := by
        unfold Client.eraseRec
        rw [hi]
        show c.eraseImpl S _ = _
        unfold Client.eraseImpl
        rw [hce]
      rw [he]
      obtain ⟨g1, g2, g3, _⟩ := record_erased hS hQ.path h.reach hce
      have hb : (c.get (Q.path ++ [fromHex id])).isSome = (M (lower id)).isSome := by
        rw [← h.view, view_lower hQ c hc]
        cases hv : c.get (Q.path ++ [fromHex id]) with
        | none => rfl
        | some v => obtain ⟨_, _, e, rfl, _⟩ := h.clean _ v hv; rfl
      rw [hb]
      refine ⟨_, .erase id hc, g1, ?_, ?_⟩
      · intro pk' v hv
        by_cases hp : pk' = fromHex id
        · subst hp; rw [g2] at hv; cases hv
        · rw [g3 pk' hp] at hv; exact h.clean pk' v hv
      · rw [view_upd hQ hc g3, h.view, g2]; rfl
  | list =>
    refine ⟨M, ?_, h⟩
    show Says sp M .list (.listed (A.list c)) M
    rw [hQ.list hS h.reach h.clean]
    exact .list _ (holds_listing hS hQ h).1
  | size =>
    refine ⟨M, ?_, h⟩
    show Says sp M .size (.counted (A.count c)) M
    obtain ⟨h1, h2⟩ := holds_listing hS hQ h
    rw [h2]
    exact .size _ h1

theorem between_kept {S : Sys} (hS : S.Good) (hro : S.env.readonly = false) {P : List Bytes} {c c' : Client}
    (hc : Reach S c) (hb : Between S P c c') : Reach S c' ∧ (KeptData c c' ∨ c'.get P = c.get P) := by
  have hinv := hc.inv hS
  cases hb with
  | push => exact ⟨.step hc (.push _), .inl (push_kept hinv.wf)⟩
  | confirm s x =>
    refine ⟨.step hc (.confirm _ s x), .inl ?_⟩
    unfold Client.confirm
    split
    · left
      show (Client.setState _ .clean).conf.m.data = _
      rw [setState_conf]
    · exact .refl c
  | dump => exact ⟨.step hc (.dump _), .inl (touched_kept hinv.wf)⟩
  | addKey k hi d hs => exact ⟨.step hc (.addKey _ k hi d hs), .inl (addKey_kept S c k hi d)⟩
  | removeKey k n d hs => exact ⟨.step hc (.removeKey _ k n d hs), .inl (removeKey_kept S c k n d)⟩
  | clearKeys d hs => exact ⟨.step hc (.clearKeys _ d hs), .inl (clearKeys_kept S c d)⟩
  | replaceKeys ks d hs => exact ⟨.step hc (.replaceKeys _ ks d hs), .inl (replaceKeys_kept S c ks d)⟩
  | merge configs hf hn hs hq =>
    exact ⟨.step hc (.merge _ configs hf hn hs), .inl (merge_kept hS hinv hf hn hs hq)⟩
  | elsewhere d ht hs hd =>
    have hr : Reach S (c.edit S d).1 := .step hc (.edit _ d ht hs)
    by_cases hk : (c.dirty S).2 = .ok ()
    · exact ⟨hr, .inr (by rw [edit_eq_ok hk]; exact hd)⟩
    · refine ⟨hr, .inl ?_⟩
      rw [edit_eq_err hk]; exact dirty_kept S c
  | @restart _ ord hord hres =>
    have hn : ord.Nodup := by
      rw [hord.nodup_iff]; split
      · exact List.nodup_nil
      · exact hinv.old
    refine ⟨.restore hc hord hres, .inl ?_⟩
    obtain ⟨rfl, _⟩ := restore_inv hS hinv hn hres
    right
    unfold Client.reloaded
    dsimp only
    split
    · exact dumpedMsg_data (env := S.env) hinv.wf false
    · exact dumpedMsg_data (env := S.env) hinv.wf true
  | @takeOver r s m obs x hr hp hs hk hst hknown hnc hov =>
    have hrec : receive S r.keys m = some (c.plain S) := push_received (sg := S.env.signer) hS hS hc hp hk
    obtain ⟨h2, hd, _⟩ := delivery_full (sg := S.env.signer) hS hS hc hr hp hs hk hst hknown hnc hov x
    refine ⟨.step hr (.merge _ _ ?_ ?_ ?_), .inl (.inr hd)⟩
    · intro p hp'
      rw [gather_one (b := c.plain S) hrec] at hp'
      rw [List.mem_singleton] at hp'
      subst hp'
      exact (hinv.published_rw hS hro).fair hS.sane hinv.wf hinv.seq
    · rw [gather_one (b := c.plain S) hrec]
      have hpl : r.plain S = r.conf.ser S.env true := rfl
      unfold Client.allConfs NoCollision
      rw [← hpl]
      intro a ha b hb e
      split at ha <;> split at hb <;>
        simp only [List.map_cons, List.map_nil, List.cons_append, List.nil_append, List.mem_cons,
          List.not_mem_nil, or_false] at ha hb
      · rcases ha with rfl | rfl <;> rcases hb with rfl | rfl
        · rfl
        · exact (hnc e.symm).symm
        · exact hnc e
        · rfl
      · contradiction
      · contradiction
      · rw [ha, hb]
    · have h2 : (r.merge S [(x, m)]).2 = .ok [x] := h2
      rw [h2]; rfl

theorem between_holds {R : Type} {S : Sys} (hS : S.Good) (hro : S.env.readonly = false) {Q : Shelf R} {A : MapApi R}
    {sp : MapSpec R} (hQ : Q.Lawful A sp) {c c' : Client} {M : RecMap R} (h : Holds S Q sp c M)
    (hb : Between S Q.path c c') : Holds S Q sp c' M := by
  obtain ⟨hr, hk | hg⟩ := between_kept hS hro h.reach hb
  · exact kept_holds hS hQ h hk hr
  · have hg2 : ∀ pk, c'.get (Q.path ++ [pk]) = c.get (Q.path ++ [pk]) := by
      intro pk
      rw [mget_curDict hQ.path, mget_curDict hQ.path, hg]
    exact ⟨hr, fun pk v hv => h.clean pk v (by rw [← hg2]; exact hv), by
      rw [← h.view]; exact view_of_get _ _ hg2⟩

/-- C136, for any collection. -/
theorem map_behaves {R : Type} {S : Sys} (hS : S.Good) (hro : S.env.readonly = false) {Q : Shelf R} {A : MapApi R}
    {sp : MapSpec R} (hQ : Q.Lawful A sp) {t : List (MapCall R × MapRes R)} {c0 c : Client}
    (h0 : c0 = Client.new S) (h : MapRun S A sp Q.path c0 t c) :
    ∃ M, Explained sp RecMap.empty t M ∧ Holds S Q sp c M := by
  induction h with
  | nil => subst h0; exact ⟨_, .nil _, new_holds hQ⟩
  | call k _ hf hov ih =>
    obtain ⟨M, he, hh⟩ := ih
    obtain ⟨M', h1, h2⟩ := call_says hS hro hQ hh k hf hov
    exact ⟨M', .snoc he h1, h2⟩
  | between _ hb ih =>
    obtain ⟨M, he, hh⟩ := ih
    exact ⟨M, he, between_holds hS hro hQ hh hb⟩

/-! ### The four collections -/

/-- `Contacts` (src/config/contacts.cpp:162-366) -/
def contactApi : MapApi Contact where
  find c id := c.getContact id
  put S c r := c.setContact S r
  remove S c id := c.eraseContact S id
  list c := c.contacts
  count c := c.contactsSize

/-- A contact is kept as far as it can be stored, its id in lower case, whatever was there before. -/
def contactSpec : MapSpec Contact where
  pre := pre05
  rid := Contact.id
  fits r := r.inRange = true
  kept _ r := { r.norm with id := lower r.id }
  spelled id r := { r with id := id }

def contactShelf : Shelf Contact := ⟨pathC, 5, [110], Contact.load, fun r _ => r.fields⟩

theorem iter_clean {R : Type} {S : Sys} (hS : S.Good) {c : Client} (hc : Reach S c) {Q : Shelf R} (hP : Q.path ≠ [])
    (hb : Q.byte = 5) (hq : Q.Clean c) :
    iterRecs Q.load (c.table Q.path) = .ok (c.recs Q.path Q.byte Q.load) := by
  have hs := table_sorted hS hc Q.path
  have := (iterRecs_eq Q.load (c.table Q.path)).1 fun ⟨k, v⟩ hx e he hl => by
    rw [← mget_iff_mem hs, table_mget hP] at hx
    have := (hq k v hx).2.1
    rw [hb] at this; exact this
  rw [this, hb]; rfl

theorem contactShelf_lawful : contactShelf.Lawful contactApi contactSpec where
  path := by simp [contactShelf, pathC]
  find c id := by
    show c.getContact id = c.getRec pathC pre05 Contact.load id
    unfold Client.getContact Client.getRec
    cases idBytes id pre05 with
    | ok pk =>
      show Out.ok _ = Out.ok _
      cases c.get (pathC ++ [pk]) with
      | none => rfl
      | some v => cases v <;> rfl
    | err e => rfl
    | hang => rfl
    | ub => rfl
  put S c r := rfl
  remove S c id := by
    show c.eraseContact S id = c.eraseRec S pathC pre05 id
    unfold Client.eraseContact Client.eraseRec Client.eraseImpl
    cases idBytes id pre05 with
    | ok pk => rfl
    | err e => rfl
    | hang => rfl
    | ub => rfl
  count c := rfl
  list hS c hc hq := by
    show c.contacts = _
    unfold Client.contacts
    rw [iterContacts_eq]
    exact iter_clean hS hc (by simp [contactShelf, pathC]) rfl hq
  nodup r _ := contact_fields_nodup r
  wf r h _ := contact_fields_wf h
  str r _ := ⟨r.name.take maxName, by simp [contactShelf, Contact.fields]⟩
  congr id d d' h := load_congr (fun k => ⟨(h k).1, (h k).2.1⟩) id
  rid id d := rfl
  ofHex := idBytes_toHex05
  bytes h := ⟨idBytes_len rfl h, idBytes_head05 h⟩
  spelled id pk d h := rfl
  kept r pk e old h hpk hf ho := by
    have h : r.inRange = true := h
    simp only [Contact.inRange, Bool.and_eq_true] at h
    exact contact_load h.1.1.1 hf _

/-- `Members` (src/config/groups/members.cpp:16-128) -/
def memberApi : MapApi GMember where
  find c id := c.getMember id
  put S c r := c.setMember S r
  remove S c id := c.eraseGMember S id
  list c := c.members
  count c := c.membersSize

/-- A member is kept as far as it can be stored, its id in lower case. -/
def memberSpec : MapSpec GMember where
  pre := pre05
  rid := GMember.id
  fits r := r.inRange = true
  kept _ r := { r.norm with id := lower r.id }
  spelled id r := { r with id := id }

def memberShelf : Shelf GMember := ⟨pathM, 5, [110], GMember.load, fun r _ => r.fields⟩

theorem memberShelf_lawful : memberShelf.Lawful memberApi memberSpec where
  path := by simp [memberShelf, pathM]
  find c id := rfl
  put S c r := rfl
  remove S c id := rfl
  count c := rfl
  list hS c hc hq := iter_clean hS hc (by simp [memberShelf, pathM]) rfl hq
  nodup r _ := gmember_fields_nodup r
  wf r h _ := gmember_fields_wf h
  str r _ := ⟨r.name.take 100, by simp [memberShelf, GMember.fields]⟩
  congr id d d' h := GMember.load_congr id d d' h
  rid id d := rfl
  ofHex := idBytes_toHex05
  bytes h := ⟨idBytes_len rfl h, idBytes_head05 h⟩
  spelled id pk d h := rfl
  kept r pk e old h hpk hf ho := gmember_load h hf _

/-- The legacy groups of `UserGroups` (src/config/user_groups.cpp:323-333,390-411,462-464,495-499,511-574) -/
def legacyApi : MapApi Legacy where
  find c id := c.getLegacy id
  put S c r := c.setLegacy S r
  remove S c id := c.eraseLegacy S id
  list c := .ok c.legacies
  count c := c.legacySize

/-- Who is a member: the ids in lower case; an id given both as admin and as plain member, in different
spellings, is a plain member. -/
def Members.tidy (m : Members) : Members :=
  (m.filter fun x => !x.2).foldl (fun a x => mput (lower x.1) false a)
    ((m.filter fun x => x.2).foldl (fun a x => mput (lower x.1) true a) [])

/-- A legacy group is kept as far as it can be stored, the ids in lower case. -/
def legacySpec : MapSpec Legacy where
  pre := pre05
  rid := Legacy.id
  fits r := r.inRange = true ∧ MembersOk r.members
  kept _ r := { r.norm with id := lower r.id, members := Members.tidy r.members }
  spelled id r := { r with id := id }

def legacyShelf : Shelf Legacy := ⟨pathL, 5, [110], Legacy.load, fun r _ => r.fields⟩

theorem foldl_mput_lower (adm : Bool) (l : Members) : ∀ {a : Members}, KSorted a →
    KSorted (l.foldl (fun a x => mput (lower x.1) adm a) a) ∧
    ∀ k, mget k (l.foldl (fun a x => mput (lower x.1) adm a) a) =
      if ∃ x ∈ l, lower x.1 = k then some adm else mget k a := by
  induction l with
  | nil => intro a ha; exact ⟨ha, fun k => by simp⟩
  | cons b t ih =>
    intro a ha
    obtain ⟨i1, i2⟩ := ih (ha.mput (lower b.1) adm)
    refine ⟨i1, fun k => ?_⟩
    rw [List.foldl_cons, i2 k, mget_mput ha]
    by_cases h1 : ∃ x ∈ t, lower x.1 = k
    · obtain ⟨x, hx, hk⟩ := h1
      rw [if_pos ⟨x, hx, hk⟩, if_pos ⟨x, by simp [hx], hk⟩]
    · rw [if_neg h1]
      by_cases h2 : k = lower b.1
      · rw [if_pos h2, if_pos ⟨b, by simp, h2.symm⟩]
      · rw [if_neg h2, if_neg]
        rintro ⟨x, hx, hk⟩
        rcases List.mem_cons.1 hx with rfl | hx
        · exact h2 hk.symm
        · exact h1 ⟨x, hx, hk⟩

theorem members_tidy {m : Members} (hm : ∀ x ∈ m, checkId x.1 pre05 = true) {e : Dict}
    (h1 : mget [109] e = fSet (memberSet false m)) (h2 : mget [97] e = fSet (memberSet true m)) :
    loadMembers e = Members.tidy m := by
  obtain ⟨s1, s2⟩ := stored_members hm h1 h2
  obtain ⟨a1, a2⟩ := foldl_mput_lower true (m.filter fun x => x.2) KSorted.nil
  obtain ⟨b1, b2⟩ := foldl_mput_lower false (m.filter fun x => !x.2) a1
  refine map_ext s1 b1 fun k => ?_
  rw [s2 k]
  unfold Members.tidy
  rw [b2 k, a2 k]
  have e1 : (∃ x ∈ m.filter (fun x => !x.2), lower x.1 = k) ↔ ∃ x ∈ m, lower x.1 = k ∧ x.2 = false := by
    simp only [List.mem_filter, Bool.not_eq_true']
    constructor
    · rintro ⟨x, ⟨p, q⟩, r⟩; exact ⟨x, p, r, q⟩
    · rintro ⟨x, p, r, q⟩; exact ⟨x, ⟨p, q⟩, r⟩
  have e2 : (∃ x ∈ m.filter (fun x => x.2), lower x.1 = k) ↔ ∃ x ∈ m, lower x.1 = k ∧ x.2 = true := by
    simp only [List.mem_filter]
    constructor
    · rintro ⟨x, ⟨p, q⟩, r⟩; exact ⟨x, p, r, q⟩
    · rintro ⟨x, p, r, q⟩; exact ⟨x, ⟨p, q⟩, r⟩
  simp only [e1, e2]
  rfl

theorem legacyShelf_lawful : legacyShelf.Lawful legacyApi legacySpec where
  path := by simp [legacyShelf, pathL]
  find c id := rfl
  put S c r := rfl
  remove S c id := rfl
  count c := rfl
  list hS c hc hq := rfl
  nodup r _ := legacy_fields_nodup r
  wf r h _ := legacy_fields_wf h.1
  str r _ := ⟨r.name.take 100, by simp [legacyShelf, Legacy.fields]⟩
  congr id d d' h := Legacy.load_congr id d d' h
  rid id d := rfl
  ofHex := idBytes_toHex05
  bytes h := ⟨idBytes_len rfl h, idBytes_head05 h⟩
  spelled id pk d h := rfl
  kept r pk e old h hpk hf ho := by
    have hf : ∀ f ∈ r.fields, mget f.1 e = f.2 := hf
    have := legacy_load h.1 h.2.2 hf (lower r.id)
    rw [members_tidy h.2.2 (hf ([109], fSet (memberSet false r.members)) (by simp [Legacy.fields]))
      (hf ([97], fSet (memberSet true r.members)) (by simp [Legacy.fields]))] at this
    exact this

/-- The groups of `UserGroups` (src/config/user_groups.cpp:341-351,413-435,459-461,501-505,511-574) -/
def groupApi (pub : Bytes → Bytes) : MapApi Group where
  find c id := c.getGroup pub id
  put S c r := c.setGroup S r
  remove S c id := c.eraseGroup S id
  list c := .ok (c.groups pub)
  count c := c.groupsSize

open Classical in
/-- A group is kept with its id in lower case, the common fields without negative times, the name cut to 100
bytes, and the secret key if it is the group's.  The authentication data is kept if it has 100 bytes;
but setting a group with a secret key that ends with the group's public key leaves the authentication
data as it was.  A group asked for under an id that is not in lower case shows no secret key. -/
noncomputable def groupSpec (pub : Bytes → Bytes) : MapSpec Group where
  pre := pre03
  rid := Group.id
  fits r := r.base.inRange = true
  kept old r :=
    { id := lower r.id
      base := r.base.norm
      name := r.name.take 100
      secret := if r.Genuine pub then r.secret else []
      auth := if r.LooksAdmin then (old.map Group.auth).getD []
        else if r.auth.length = 100 then r.auth else [] }
  spelled id r := { r with id := id, secret := if lower id = id then r.secret else [] }

def groupShelf (pub : Bytes → Bytes) : Shelf Group := ⟨pathG, 3, [75], Group.load pub, fun r pk => r.fields pk⟩

theorem loadSecret_upper (pub : Bytes → Bytes) {id : Bytes} (h : lower id ≠ id) (d : Dict) :
    loadSecret pub id d = [] := by
  unfold loadSecret
  cases maybeStr d [75] with
  | none => rfl
  | some s =>
    simp only
    rw [if_neg]
    rintro ⟨_, h2⟩
    exact h (by rw [h2, toHex_lower])

theorem group_kept {pub : Bytes → Bytes} (hpub : ∀ s, (pub s).length = 32) {g : Group} {pk : Bytes} {e : Dict}
    {old : Option Val} (hr : g.base.inRange = true) (hpk : idBytes g.id pre03 = .ok pk)
    (hf : ∀ f ∈ g.fields pk, mget f.1 e = f.2)
    (ho : ∀ k, k ∉ (g.fields pk).map (·.1) → mget k e = mget k (curDict old)) :
    Group.load pub (lower g.id) e = (groupSpec pub).kept (loadAt (Group.load pub (lower g.id)) old) g := by
  have hlg : lower g.id = toHex pk := lower_id hpk
  have hpc := pk_cons hpk
  have hb : GroupBase.load e = g.base.norm :=
    base_load hr fun f hm => hf f (by unfold Group.fields; exact List.mem_append_left _ hm)
  have hn : (maybeStr e [110]).getD [] = g.name.take 100 :=
    read_str (hf ([110], fStr (g.name.take 100)) (by unfold Group.fields; simp))
  have hKa : g.admin pk = true → maybeStr e [75] = some (g.secret.take 32) := by
    intro ha
    have := hf ([75], some (.scalar (.str (g.secret.take 32)))) (by unfold Group.fields; rw [if_pos ha]; simp)
    rw [maybeStr_of this]; rfl
  have hKn : g.admin pk = false → maybeStr e [75] = some [] := by
    intro ha
    have := hf ([75], some (.scalar (.str []))) (by unfold Group.fields; rw [if_neg (by simp [ha])]; simp)
    rw [maybeStr_of this]; rfl
  have hsec : loadSecret pub (lower g.id) e = @ite _ (g.Genuine pub) (Classical.propDecidable _) g.secret [] := by
    by_cases hg : g.Genuine pub
    · rw [if_pos hg]
      have hl := (admin_iff hpk).2 (hg.looks hpub)
      obtain ⟨seed, s1, s2, s3⟩ := hg
      have ht : g.secret.take 32 = seed := by rw [s2, ← s1, List.take_left]
      unfold loadSecret
      rw [hKa hl, ht]
      simp only
      rw [if_pos ⟨s1, s3⟩, s2]
    · rw [if_neg hg]
      unfold loadSecret
      cases ha : g.admin pk with
      | false => rw [hKn ha]; rfl
      | true =>
        rw [hKa ha]
        simp only
        rw [if_neg]
        rintro ⟨k1, k2⟩
        apply hg
        refine ⟨g.secret.take 32, k1, ?_, k2⟩
        have hpp : pub (g.secret.take 32) = pk.drop 1 := by
          rw [hlg] at k2; rw [toHex_inj k2]; rfl
        simp only [Group.admin, Bool.and_eq_true, beq_iff_eq] at ha
        rw [hpp, ← ha.2, List.take_append_drop]
  have haut : loadAuth e = @ite _ g.LooksAdmin (Classical.propDecidable _)
      (((loadAt (Group.load pub (lower g.id)) old).map Group.auth).getD [])
        (if g.auth.length = 100 then g.auth else []) := by
    by_cases hl : g.LooksAdmin
    · rw [if_pos hl]
      have ha := (admin_iff hpk).2 hl
      have hs := ho [115] (by
        unfold Group.fields; rw [if_pos ha]
        simp only [GroupBase.fields, List.map_cons, List.map_nil, List.map_append]; decide)
      unfold loadAuth maybeStr
      rw [hs]
      cases old with
      | none => rfl
      | some v => cases v <;> rfl
    · rw [if_neg hl]
      have hna : ¬ g.admin pk = true := fun hh => hl ((admin_iff hpk).1 hh)
      have := hf ([115], fIf (g.auth.length == 100) (.str g.auth)) (by
        unfold Group.fields; rw [if_neg hna]; simp)
      unfold loadAuth
      rw [maybeStr_of this]
      by_cases ha : g.auth.length = 100
      · simp [fIf, ha, strOf]
      · simp [fIf, ha, strOf]
  unfold Group.load groupSpec
  simp only [hb, hn]
  rw [hsec, haut]
  rfl

theorem groupShelf_lawful {pub : Bytes → Bytes} (hpub : ∀ s, (pub s).length = 32) :
    (groupShelf pub).Lawful (groupApi pub) (groupSpec pub) where
  path := by simp [groupShelf, pathG]
  find c id := rfl
  put S c r := rfl
  remove S c id := rfl
  count c := rfl
  list hS c hc hq := rfl
  nodup r pk := group_fields_nodup pk r
  wf r h pk := group_fields_wf h pk
  str r pk := group_fields_K r pk
  congr id d d' h := Group.load_congr pub id d d' h
  rid id d := rfl
  ofHex := idBytes_toHex03
  bytes h := ⟨idBytes_len rfl h, idBytes_head03 h⟩
  spelled id pk d h := by
    show Group.load pub id d = { Group.load pub (lower id) d with
      id := id, secret := if lower id = id then (Group.load pub (lower id) d).secret else [] }
    unfold Group.load
    dsimp only
    by_cases hl : lower id = id
    · rw [if_pos hl, hl]
    · rw [if_neg hl, loadSecret_upper pub hl]
  kept r pk e old h hpk hf ho := group_kept hpub h hpk hf ho

/-! ### C136 -/

theorem listing_unique {R : Type} {rid : R → Bytes} {M : RecMap R} {l l' : List R} (h : Listing rid M l)
    (h' : Listing rid M l') : l = l' := by
  have hp := List.pairwise_map.1 h.sorted
  have hp' := List.pairwise_map.1 h'.sorted
  have nd : ∀ {x : List R}, x.Pairwise (fun a b => fromHex (rid a) < fromHex (rid b)) → x.Nodup := fun hx =>
    hx.imp fun {a b} hab hne => by rw [hne] at hab; exact lt_irrefl _ hab
  have hperm : l.Perm l' := (List.perm_ext_iff_of_nodup (nd hp) (nd hp')).2 fun r =>
    ⟨fun hr => ((h'.all _ r).1 ((h.all _ r).2 ⟨hr, rfl⟩)).1, fun hr => ((h.all _ r).1 ((h'.all _ r).2 ⟨hr, rfl⟩)).1⟩
  exact hperm.eq_of_pairwise (fun a b _ _ h1 h2 => absurd (lt_trans h1 h2) (lt_irrefl _)) hp hp'

/-- C136.  The specification leaves no choice: a map answers a call in one way. -/
theorem says_unique {R : Type} {sp : MapSpec R} {M M1 M2 : RecMap R} {k : MapCall R} {x1 x2 : MapRes R}
    (h1 : Says sp M k x1 M1) (h2 : Says sp M k x2 M2) : x1 = x2 ∧ M1 = M2 := by
  cases h1 <;> cases h2 <;> first
    | exact ⟨rfl, rfl⟩
    | (rename_i a b; rw [a] at b; cases b)
    | (rename_i l a l' b; rw [listing_unique a b]; exact ⟨rfl, rfl⟩)

/-- C136.  Contacts, group members, legacy groups and groups behave as maps from ids: whatever sequence of
`get`, `set`, `erase`, iteration and `size` is made, starting with a new object, with any publishing,
confirming, saving, key changes, merges that bring nothing new and edits elsewhere in between, restarts
from a dump at any point, and other devices taking over, every call returns what a map with the same
history of `set` and `erase` would, and throws exactly for ids that are not valid. -/
theorem collections_are_maps {S : Sys} (hS : S.Good) (hro : S.env.readonly = false) {pub : Bytes → Bytes}
    (hpub : ∀ s, (pub s).length = 32) {c : Client} :
    (∀ t, MapRun S contactApi contactSpec [[99]] (Client.new S) t c →
      ∃ M, Explained contactSpec RecMap.empty t M) ∧
    (∀ t, MapRun S memberApi memberSpec [[109]] (Client.new S) t c →
      ∃ M, Explained memberSpec RecMap.empty t M) ∧
    (∀ t, MapRun S legacyApi legacySpec [[67]] (Client.new S) t c →
      ∃ M, Explained legacySpec RecMap.empty t M) ∧
    (∀ t, MapRun S (groupApi pub) (groupSpec pub) [[103]] (Client.new S) t c →
      ∃ M, Explained (groupSpec pub) RecMap.empty t M) := by
  refine ⟨fun t h => ?_, fun t h => ?_, fun t h => ?_, fun t h => ?_⟩
  · obtain ⟨M, hM, _⟩ := map_behaves hS hro contactShelf_lawful rfl h; exact ⟨M, hM⟩
  · obtain ⟨M, hM, _⟩ := map_behaves hS hro memberShelf_lawful rfl h; exact ⟨M, hM⟩
  · obtain ⟨M, hM, _⟩ := map_behaves hS hro legacyShelf_lawful rfl h; exact ⟨M, hM⟩
  · obtain ⟨M, hM, _⟩ := map_behaves hS hro (groupShelf_lawful hpub) rfl h; exact ⟨M, hM⟩

/-! ### A concrete case -/

def exMap1 : Client := (exC0.setContact exSys exContact).1
def exMapSent : Int × Bytes × List Bytes := match (exMap1.push exSys).2 with
  | .ok x => x
  | _ => (0, [], [])
/-- A new device takes over. -/
def exMap2 : Client := (exC0.merge exSys [([107], exMapSent.2.1)]).1
/-- It is restarted. -/
def exMap3 : Client := exMap2.reloaded exSys exMap2.old
def exMap4 : Client := (exMap3.setContact exSys { id := exId2, name := [88] }).1
def exMap5 : Client := (exMap4.eraseContact exSys exId).1

def exMapTrace : List (MapCall Contact × MapRes Contact) :=
  [(.set exContact, .done (.ok ())), (.get (lower exId), .got (.ok (some { exContact with id := lower exId }))),
   (.set { id := exId2, name := [88] }, .done (.ok ())), (.size, .counted 2), (.erase exId, .erased (.ok true)),
   (.list, .listed (.ok [{ id := lower exId2, name := [88] }])), (.get [48], .got (.err .foreign))]

/-- A history of the kind C136 is about: a contact is set; another device takes over what was pushed and
is restarted; there the contact is found, another one is set and the first one erased. -/
theorem exMap_runs {c0 c1 c2 c3 c4 c5 : Client} {sent : Int × Bytes × List Bytes} {r : Contact} {id2 : Bytes} {r2 : Contact}
    {low bad : Bytes} {x1 : Out Unit} {x2 : Out (Option Contact)} {x3 : Out Unit} {n : Nat} {x4 : Out Bool}
    {x5 : Out (List Contact)} {x6 : Out (Option Contact)}
    (h0 : MapRun exSys contactApi contactSpec [[99]] (Client.new exSys) [] c0) (hr0 : Reach exSys c0)
    (hr2 : Reach exSys c2)
    (k1 : exSys.env.readonly = false)
    (h1 : c0.setContact exSys r = (c1, x1)) (o0 : int64Ok (c0.seqno + 1) = true) (f1 : r.inRange = true)
    (p1 : (c1.push exSys).2 = .ok sent) (s1 : sent.1 ≠ 0) (q1 : c0.keys.head? = c1.keys.head?) (d1 : c0.st ≠ .dirty)
    (z1 : c0.seqno = 0)
    (n1 : exSys.env.H (c1.plain exSys) = exSys.env.H (c0.plain exSys) → c1.plain exSys = c0.plain exSys)
    (v1 : int64Ok (sent.1 + exSys.env.lag) = true)
    (h2 : (c0.merge exSys [([107], sent.2.1)]).1 = c2)
    (v2 : int64Ok (c2.conf.m.seqno + exSys.env.lag) = true)
    (h3 : c2.reloaded exSys c2.old = c3)
    (o3 : int64Ok (c3.seqno + 1) = true) (g3 : c3.getContact low = x2)
    (h4 : c3.setContact exSys r2 = (c4, x3)) (f4 : r2.inRange = true) (o4 : int64Ok (c4.seqno + 1) = true)
    (g4 : c4.contactsSize = n) (h5 : c4.eraseContact exSys id2 = (c5, x4)) (o5 : int64Ok (c5.seqno + 1) = true)
    (g5 : c5.contacts = x5) (g6 : c5.getContact bad = x6) :
    MapRun exSys contactApi contactSpec [[99]] (Client.new exSys)
      [(.set r, .done x1), (.get low, .got x2), (.set r2, .done x3), (.size, .counted n), (.erase id2, .erased x4),
       (.list, .listed x5), (.get bad, .got x6)] c5 := by
  have a1 := MapRun.call (.set r) h0 (by rintro _ ⟨⟩; exact f1) o0
  have e1 : contactApi.run exSys c0 (.set r) = (c1, .done x1) := by
    show ((c0.setContact exSys r).1, MapRes.done (c0.setContact exSys r).2) = _
    rw [h1]
  rw [e1] at a1
  have a2 := MapRun.between a1 (.takeOver [107] hr0 p1 s1 q1 d1 (.inl z1) n1 v1)
  rw [h2] at a2
  have a3 := MapRun.between a2 (.restart (c' := c3) (ord := c2.old) (by rw [k1]; exact List.Perm.refl _)
    (by rw [← h3]; exact load_dump exSys_good (hr2.inv exSys_good) (hr2.inv exSys_good).old v2))
  have a4 := MapRun.call (.get low) a3 (by rintro _ ⟨⟩) o3
  have e4 : contactApi.run exSys c3 (.get low) = (c3, .got x2) := by
    show (c3, MapRes.got (c3.getContact low)) = _
    rw [g3]
  rw [e4] at a4
  have a5 := MapRun.call (.set r2) a4 (by rintro _ ⟨⟩; exact f4) o3
  have e5 : contactApi.run exSys c3 (.set r2) = (c4, .done x3) := by
    show ((c3.setContact exSys r2).1, MapRes.done (c3.setContact exSys r2).2) = _
    rw [h4]
  rw [e5] at a5
  have a6 := MapRun.call .size a5 (by rintro _ ⟨⟩) o4
  have e6 : contactApi.run exSys c4 .size = (c4, .counted n) := by
    show (c4, MapRes.counted c4.contactsSize) = _
    rw [g4]
  rw [e6] at a6
  have a7 := MapRun.call (.erase id2) a6 (by rintro _ ⟨⟩) o4
  have e7 : contactApi.run exSys c4 (.erase id2) = (c5, .erased x4) := by
    show ((c4.eraseContact exSys id2).1, MapRes.erased (c4.eraseContact exSys id2).2) = _
    rw [h5]
  rw [e7] at a7
  have a8 := MapRun.call .list a7 (by rintro _ ⟨⟩) o5
  have e8 : contactApi.run exSys c5 .list = (c5, .listed x5) := by
    show (c5, MapRes.listed c5.contacts) = _
    rw [g5]
  rw [e8] at a8
  have a9 := MapRun.call (.get bad) a8 (by rintro _ ⟨⟩) o5
  have e9 : contactApi.run exSys c5 (.get bad) = (c5, .got x6) := by
    show (c5, MapRes.got (c5.getContact bad)) = _
    rw [g6]
  rw [e9] at a9
  exact a9

theorem exMap2_reach : Reach exSys exMap2 := by
  refine .step exC0_reach (.merge _ _ ?_ ?_ (by decide +kernel))
  · have : (gather exSys exC0.keys [([107], exMapSent.2.1)]).map (·.2) = [exMap1.plain exSys] := by decide +kernel
    intro p hp
    have hp : p.2 ∈ (gather exSys exC0.keys [([107], exMapSent.2.1)]).map (·.2) := List.mem_map.2 ⟨p, hp, rfl⟩
    rw [this, List.mem_singleton] at hp
    rw [hp]
    have h1 : Reach exSys exMap1 := (contact_set_get exSys_good exC0_reach (r := exContact) (by decide +kernel)
      (c' := exMap1) (pair_is (by decide +kernel))).1
    have hi := h1.inv exSys_good
    exact (hi.published_rw exSys_good (by decide +kernel)).fair exSys_good.sane hi.wf hi.seq
  · have : (exC0.allConfs exSys.env (gather exSys exC0.keys [([107], exMapSent.2.1)])).map (·.2) =
      [exMap1.plain exSys] := by decide +kernel
    rw [this]
    intro a ha b hb _
    rw [List.mem_singleton] at ha hb
    rw [ha, hb]

private theorem exMap_k1 : exSys.env.readonly = false := by decide +kernel
private theorem exMap_h1 : exC0.setContact exSys exContact = (exMap1, .ok ()) := pair_is (by decide +kernel)
private theorem exMap_o0 : int64Ok (exC0.seqno + 1) = true := by decide +kernel
private theorem exMap_f1 : exContact.inRange = true := by decide +kernel
private theorem exMap_p1 : (exMap1.push exSys).2 = .ok exMapSent := by decide +kernel
private theorem exMap_s1 : exMapSent.1 ≠ 0 := by decide +kernel
private theorem exMap_q1 : exC0.keys.head? = exMap1.keys.head? := by decide +kernel
private theorem exMap_d1 : exC0.st ≠ .dirty := by decide +kernel
private theorem exMap_z1 : exC0.seqno = 0 := by decide +kernel
private theorem exMap_n1 : exSys.env.H (exMap1.plain exSys) = exSys.env.H (exC0.plain exSys) → exMap1.plain exSys = exC0.plain exSys := by decide +kernel
private theorem exMap_v1 : int64Ok (exMapSent.1 + exSys.env.lag) = true := by decide +kernel
private theorem exMap_v2 : int64Ok (exMap2.conf.m.seqno + exSys.env.lag) = true := by decide +kernel
private theorem exMap_o3 : int64Ok (exMap3.seqno + 1) = true := by decide +kernel
private theorem exMap_g3 : exMap3.getContact (lower exId) = .ok (some { exContact with id := lower exId }) := by decide +kernel
private theorem exMap_h4 : exMap3.setContact exSys { id := exId2, name := [88] } = (exMap4, .ok ()) := pair_is (by decide +kernel)
private theorem exMap_f4 : ({ id := exId2, name := [88] } : Contact).inRange = true := by decide +kernel
private theorem exMap_o4 : int64Ok (exMap4.seqno + 1) = true := by decide +kernel
private theorem exMap_g4 : exMap4.contactsSize = 2 := by decide +kernel
private theorem exMap_h5 : exMap4.eraseContact exSys exId = (exMap5, .ok true) := pair_is (by decide +kernel)
private theorem exMap_o5 : int64Ok (exMap5.seqno + 1) = true := by decide +kernel
private theorem exMap_g5 : exMap5.contacts = .ok [{ id := lower exId2, name := [88] }] := by decide +kernel
private theorem exMap_g6 : exMap5.getContact [48] = .err .foreign := by decide +kernel

example : MapRun exSys contactApi contactSpec [[99]] (Client.new exSys) exMapTrace exMap5 :=
  exMap_runs (c0 := exC0) (c1 := exMap1) (c2 := exMap2) (c3 := exMap3) (c4 := exMap4) (sent := exMapSent)
    (.between (.nil _) (.addKey _ _ _ _ (by decide +kernel))) exC0_reach exMap2_reach exMap_k1 exMap_h1 exMap_o0
    exMap_f1 exMap_p1 exMap_s1 exMap_q1 exMap_d1 exMap_z1 exMap_n1 exMap_v1 rfl exMap_v2 rfl exMap_o3 exMap_g3
    exMap_h4 exMap_f4 exMap_o4 exMap_g4 exMap_h5 exMap_o5 exMap_g5 exMap_g6

end Verif
