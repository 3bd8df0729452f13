import Verif.CStructs
import Verif.Props.Maps
import Verif.Props.CErr
import Verif.Props.CCrypt
import Verif.Props.CProfile
import Verif.Props.UserGroupsNet

/-!
# Collections through the C interface: C137

A C program that gets, constructs, sets, erases, counts and loops over contacts, group members, groups and legacy groups, with
structs in memory.
-/

namespace Verif

/-! ### The specification -/

/-- The C functions of one collection; `T` is the struct, `Nat` the number of rounds a loop is given. -/
structure CMapApi (T : Type) where
  get : Client → T → Bytes → Out (CReply T)
  orNew : Client → T → Bytes → Out (CReply T)
  set : Sys → Client → T → Client × Out Unit
  erase : Sys → Client → Bytes → Client × Out Bool
  size : Client → Nat
  loop : Client → T → Nat → Out (List T)
  rounds : Client → Nat

/-- A call, with the struct passed to it and what is in it at that time. -/
inductive SCall (T : Type) where
  | get (s : T) (id : Bytes)
  | orNew (s : T) (id : Bytes)
  | set (s : T)
  | erase (id : Bytes)
  | size
  | loop (s : T) (fuel : Nat)

/-- What the caller gets: the struct as it is afterwards (none: false or null was returned and nothing written) and the
error; for a loop the contents of the struct in each round. -/
inductive SRes (T : Type) where
  | reply (o : Out (CReply T))
  | done (o : Out Unit)
  | erased (o : Out Bool)
  | counted (n : Nat)
  | looped (o : Out (List T))

def CMapApi.run {T : Type} (A : CMapApi T) (S : Sys) (c : Client) : SCall T → Client × SRes T
  | .get s id => (c, .reply (A.get c s id))
  | .orNew s id => (c, .reply (A.orNew c s id))
  | .set s => ((A.set S c s).1, .done (A.set S c s).2)
  | .erase id => ((A.erase S c id).1, .erased (A.erase S c id).2)
  | .size => (c, .counted (A.size c))
  | .loop s fuel => (c, .looped (A.loop c s fuel))

/-- How a struct represents a record: the memory has the right size (`mem`), a caller finds the record in it (`shows`), the
library takes it for the record (`means`); the record made up for a new id, and the ids whose error message fits. -/
structure CView (R T : Type) where
  mem : T → Prop
  shows : T → R → Prop
  means : T → R → Prop
  blank : Bytes → R
  ids : Bytes → Prop

/-- What a map answers to a C call, and the map afterwards. -/
inductive CSays {R T : Type} (sp : MapSpec R) (V : CView R T) (M : RecMap R) : SCall T → SRes T → RecMap R → Prop
  | get (s s' : T) (id : Bytes) (r : R) : checkId id sp.pre = true → M (lower id) = some r → V.shows s' (sp.spelled id r) →
      CSays sp V M (.get s id) (.reply (.ok ⟨some s', none⟩)) M
  | getNone (s : T) (id : Bytes) : checkId id sp.pre = true → M (lower id) = none →
      CSays sp V M (.get s id) (.reply (.ok ⟨none, none⟩)) M
  | getBad (s : T) (id : Bytes) : checkId id sp.pre = false →
      CSays sp V M (.get s id) (.reply (.ok ⟨none, some (sessionIdMsg sp.pre id)⟩)) M
  | orNew (s s' : T) (id : Bytes) : checkId id sp.pre = true →
      V.shows s' (((M (lower id)).map (sp.spelled id)).getD (V.blank id)) →
      CSays sp V M (.orNew s id) (.reply (.ok ⟨some s', none⟩)) M
  | orBad (s : T) (id : Bytes) : checkId id sp.pre = false →
      CSays sp V M (.orNew s id) (.reply (.ok ⟨none, some (sessionIdMsg sp.pre id)⟩)) M
  | set (s : T) (r : R) : V.means s r → checkId (sp.rid r) sp.pre = true →
      CSays sp V M (.set s) (.done (.ok ())) (M.upd (lower (sp.rid r)) (some (sp.kept (M (lower (sp.rid r))) r)))
  | setBad (s : T) (r : R) : V.means s r → checkId (sp.rid r) sp.pre = false →
      CSays sp V M (.set s) (.done (.err .foreign)) M
  | erase (id : Bytes) : checkId id sp.pre = true →
      CSays sp V M (.erase id) (.erased (.ok (M (lower id)).isSome)) (M.upd (lower id) none)
  | eraseBad (id : Bytes) : checkId id sp.pre = false → CSays sp V M (.erase id) (.erased (.ok false)) M
  | size (l : List R) : Listing sp.rid M l → CSays sp V M .size (.counted l.length) M
  | loop (s : T) (fuel : Nat) (l : List R) (ss : List T) : Listing sp.rid M l → List.Forall₂ V.shows ss l →
      CSays sp V M (.loop s fuel) (.looped (.ok ss)) M

/-- A sequence of C calls with their results, explained by a map. -/
inductive CExplained {R T : Type} (sp : MapSpec R) (V : CView R T) : RecMap R → List (SCall T × SRes T) → RecMap R → Prop
  | nil (M : RecMap R) : CExplained sp V M [] M
  | snoc {M M' M'' : RecMap R} {t : List (SCall T × SRes T)} {k : SCall T} {x : SRes T} :
      CExplained sp V M t M' → CSays sp V M' k x M'' → CExplained sp V M (t ++ [(k, x)]) M''

/-- What a C program has to see to: structs it passes are memory of the right size, holding C strings where the library reads
them; ids are not so long that the error message overflows the buffer (C109); a loop has rounds enough. -/
def CProper {R T : Type} (V : CView R T) (A : CMapApi T) (c : Client) : SCall T → Prop
  | .get s id => V.mem s ∧ V.ids id
  | .orNew s id => V.mem s ∧ V.ids id
  | .set s => V.mem s ∧ ∃ r, V.means s r
  | .erase _ => True
  | .size => True
  | .loop s fuel => V.mem s ∧ A.rounds c < fuel

/-- A history of C calls, with anything in between. -/
inductive CRun {R T : Type} (S : Sys) (A : CMapApi T) (V : CView R T) (P : List Bytes) :
    Client → List (SCall T × SRes T) → Client → Prop
  | nil (c : Client) : CRun S A V P c [] c
  | call {c c' : Client} {t : List (SCall T × SRes T)} (k : SCall T) : CRun S A V P c t c' →
      CProper V A c' k → int64Ok (c'.seqno + 1) = true →
      CRun S A V P c (t ++ [(k, (A.run S c' k).2)]) (A.run S c' k).1
  | between {c c' c'' : Client} {t : List (SCall T × SRes T)} : CRun S A V P c t c' →
      Between S P c' c'' → CRun S A V P c t c''

/-! ### The generic part -/

/-- The C functions are the C++ ones with the structs converted. -/
structure CLaws {R T : Type} (sp : MapSpec R) (V : CView R T) (A : MapApi R) (C : CMapApi T) (clean : R → Prop) (plain : Bytes → R → Prop)
    (conv : R → T → Out T) (back : T → Out R) : Prop where
  into : ∀ r s, clean r → V.mem s → ∃ s', conv r s = .ok s' ∧ V.mem s' ∧ V.shows s' r
  read : ∀ s r, V.mem s → V.means s r → back s = .ok r ∧ sp.fits r ∧
    ∀ old, checkId (sp.rid r) sp.pre = true → (∀ o, old = some o → clean o) → clean (sp.kept old r)
  spelled : ∀ id r, checkId id sp.pre = true → clean r → sp.rid r = lower id → clean (sp.spelled id r)
  blank : ∀ id, checkId id sp.pre = true → clean (V.blank id)
  again : ∀ s id r, checkId id sp.pre = true → clean r → sp.rid r = lower id → plain id r → V.shows s (sp.spelled id r) →
    V.means s (sp.spelled id r) ∧ sp.rid (sp.spelled id r) = id ∧ sp.kept (some r) (sp.spelled id r) = r
  getBad : ∀ c s id, V.ids id → A.find c id = .err .foreign → C.get c s id = .ok ⟨none, some (sessionIdMsg sp.pre id)⟩
  getOk : ∀ c s id o, V.mem s → A.find c id = .ok o → ∃ s0, V.mem s0 ∧ C.get c s id = match o with
    | none => .ok ⟨none, none⟩
    | some r => (conv r s0).bind fun t => .ok ⟨some t, none⟩
  orBad : ∀ c s id, V.ids id → A.find c id = .err .foreign → C.orNew c s id = .ok ⟨none, some (sessionIdMsg sp.pre id)⟩
  orOk : ∀ c s id o, V.mem s → checkId id sp.pre = true → A.find c id = .ok o →
    ∃ s0, V.mem s0 ∧ C.orNew c s id = (conv (o.getD (V.blank id)) s0).bind fun t => .ok ⟨some t, none⟩
  set : ∀ S c s, C.set S c s = sSet c (back s) (A.put S c)
  erase : ∀ S c id, C.erase S c id = cErase (A.remove S c id)
  size : ∀ c, C.size c = A.count c
  loop : ∀ c s fuel l, V.mem s → C.rounds c < fuel → A.list c = .ok l →
    (∀ r ∈ l, ∀ s, V.mem s → ∃ s', conv r s = .ok s' ∧ V.mem s' ∧ V.shows s' r) →
    ∃ ss, C.loop c s fuel = .ok ss ∧ List.Forall₂ V.shows ss l

/-- A loop of the C program shows what a C++ loop shows. -/
theorem struct_loop {I A R T : Type} {stop : I → Bool} {deref : I → Out A} {next : I → Out I} {fill : I → T → Out (Option T)}
    {kind : A → Option R} {mem : T → Prop} {shows : T → R → Prop}
    (h0 : ∀ it a s, deref it = .ok a → kind a = none → fill it s = .ok none)
    (P : R → Prop)
    (h1 : ∀ it a r s, deref it = .ok a → kind a = some r → P r → mem s → ∃ s', fill it s = .ok (some s') ∧ mem s' ∧ shows s' r) :
    ∀ (fuel : Nat) (it : I) (s : T) (l : List A), loopList stop deref next fuel it = .ok l → mem s →
      (∀ a ∈ l, ∀ r, kind a = some r → P r) →
      ∃ ss, structLoop stop fill next fuel it s = .ok ss ∧ List.Forall₂ shows ss (l.filterMap kind)
  | 0, _, _, _, h, _, _ => by cases h
  | fuel + 1, it, s, l, h, hm, hP => by
    unfold loopList at h
    unfold structLoop
    by_cases hs : stop it = true
    · rw [if_pos hs] at h ⊢
      cases h
      exact ⟨[], rfl, .nil⟩
    · rw [if_neg hs] at h ⊢
      obtain ⟨a, ha, h⟩ := Out.bind_eq_ok.1 h
      obtain ⟨it', hn, h⟩ := Out.bind_eq_ok.1 h
      obtain ⟨t, ht, h⟩ := Out.bind_eq_ok.1 h
      cases h
      have hob : ∀ {α β : Type} (a : α) (f : α → Out β), Out.bind (.ok a) f = f a := fun _ _ => rfl
      cases hk : kind a with
      | none =>
        obtain ⟨ss, e1, e2⟩ := struct_loop h0 P h1 fuel it' s t ht hm fun x hx => hP x (List.mem_cons_of_mem _ hx)
        refine ⟨ss, ?_, by rw [List.filterMap_cons, hk]; exact e2⟩
        rw [h0 it a s ha hk, hob, hn, hob]
        show Out.bind (structLoop stop fill next fuel it' s) _ = _
        rw [e1]; rfl
      | some r =>
        obtain ⟨s', f1, f2, f3⟩ := h1 it a r s ha hk (hP a (by simp) r hk) hm
        obtain ⟨ss, e1, e2⟩ := struct_loop h0 P h1 fuel it' s' t ht f2 fun x hx => hP x (List.mem_cons_of_mem _ hx)
        refine ⟨s' :: ss, ?_, by rw [List.filterMap_cons, hk]; exact .cons f3 e2⟩
        rw [f1, hob, hn, hob]
        show Out.bind (structLoop stop fill next fuel it' s') _ = _
        rw [e1]; rfl

theorem holds_rid {R : Type} {S : Sys} {Q : Shelf R} {A : MapApi R} {sp : MapSpec R} (hQ : Q.Lawful A sp) {c : Client}
    {M : RecMap R} (h : Holds S Q sp c M) {k : Bytes} {r : R} (hr : M k = some r) : sp.rid r = k := by
  rw [← h.view] at hr
  unfold Shelf.view at hr
  split at hr
  · cases hv : c.get (Q.path ++ [fromHex k]) with
    | none => rw [hv] at hr; cases hr
    | some v =>
      rw [hv] at hr
      cases v with
      | dict e => rw [← Option.some.inj hr, hQ.rid]
      | _ => cases hr
  · cases hr

theorem c_call_says {R T : Type} {S : Sys} (hS : S.Good) (hro : S.env.readonly = false) {Q : Shelf R} {A : MapApi R}
    {sp : MapSpec R} (hQ : Q.Lawful A sp) {V : CView R T} {C : CMapApi T} {clean : R → Prop} {plain : Bytes → R → Prop}
    {into : R → T → Out T} {read : T → Out R} (L : CLaws sp V A C clean plain into read) {c : Client} {M : RecMap R} (h : Holds S Q sp c M)
    (hc : ∀ k r, M k = some r → clean r) (k : SCall T) (hk : CProper V C c k) (hov : int64Ok (c.seqno + 1) = true) :
    ∃ M', CSays sp V M k (C.run S c k).2 M' ∧ Holds S Q sp (C.run S c k).1 M' ∧ ∀ k r, M' k = some r → clean r := by
  have find : ∀ id, (checkId id sp.pre = true → A.find c id = .ok ((M (lower id)).map (sp.spelled id))) ∧
      (checkId id sp.pre = false → A.find c id = .err .foreign) := by
    intro id
    obtain ⟨M', hs, _⟩ := call_says hS hro hQ h (.get id) (by rintro _ ⟨⟩) hov
    have hs : Says sp M (.get id) (.got (A.find c id)) M' := hs
    generalize A.find c id = o at hs
    cases hs with
    | get _ hh => exact ⟨fun _ => rfl, fun h2 => by rw [hh] at h2; cases h2⟩
    | getBad _ hh => exact ⟨fun h2 => (by rw [hh] at h2; cases h2), fun _ => rfl⟩
  have hob : ∀ {α β : Type} (a : α) (f : α → Out β), Out.bind (.ok a) f = f a := fun _ _ => rfl
  cases k with
  | get s id =>
    obtain ⟨hm, hi⟩ := hk
    refine ⟨M, ?_, h, hc⟩
    show CSays sp V M (.get s id) (.reply (C.get c s id)) M
    cases hid : checkId id sp.pre with
    | false =>
      rw [L.getBad c s id hi ((find id).2 hid)]
      exact .getBad s id hid
    | true =>
      obtain ⟨s0, hs0, e⟩ := L.getOk c s id _ hm ((find id).1 hid)
      rw [e]
      cases hr : M (lower id) with
      | none => exact .getNone s id hid hr
      | some r =>
        obtain ⟨s', e1, _, e3⟩ := L.into _ s0 (L.spelled id r hid (hc _ r hr) (holds_rid hQ h hr)) hs0
        show CSays sp V M _ (.reply (Out.bind (into (sp.spelled id r) s0) _)) M
        rw [e1]
        exact .get s s' id r hid hr e3
  | orNew s id =>
    obtain ⟨hm, hi⟩ := hk
    refine ⟨M, ?_, h, hc⟩
    show CSays sp V M (.orNew s id) (.reply (C.orNew c s id)) M
    cases hid : checkId id sp.pre with
    | false =>
      rw [L.orBad c s id hi ((find id).2 hid)]
      exact .orBad s id hid
    | true =>
      obtain ⟨s0, hs0, e⟩ := L.orOk c s id _ hm hid ((find id).1 hid)
      rw [e]
      have hcl : clean (((M (lower id)).map (sp.spelled id)).getD (V.blank id)) := by
        cases hr : M (lower id) with
        | none => exact L.blank id hid
        | some r => exact L.spelled id r hid (hc _ r hr) (holds_rid hQ h hr)
      obtain ⟨s', e1, _, e3⟩ := L.into _ s0 hcl hs0
      rw [e1]
      exact .orNew s s' id hid e3
  | set s =>
    obtain ⟨hm, r, hr⟩ := hk
    obtain ⟨r1, r2, r3⟩ := L.read s r hm hr
    obtain ⟨M', hs, hh⟩ := call_says hS hro hQ h (.set r) (by rintro _ ⟨⟩; exact r2) hov
    have e : C.set S c s = A.put S c r := by rw [L.set, r1]; rfl
    have hs : Says sp M (.set r) (.done (A.put S c r).2) M' := hs
    have hh : Holds S Q sp (A.put S c r).1 M' := hh
    rw [← e] at hs hh
    refine ⟨M', ?_, hh, ?_⟩
    · show CSays sp V M (.set s) (.done (C.set S c s).2) M'
      generalize (C.set S c s).2 = o at hs
      cases hs with
      | set _ g => exact .set s r hr g
      | setBad _ g => exact .setBad s r hr g
    · generalize (C.set S c s).2 = o at hs
      cases hs with
      | set _ g =>
        intro k r' hk'
        unfold RecMap.upd at hk'
        by_cases hkk : k = lower (sp.rid r)
        · rw [if_pos hkk] at hk'
          rw [← Option.some.inj hk']
          exact r3 _ g fun o ho => hc _ o ho
        · rw [if_neg hkk] at hk'; exact hc k r' hk'
      | setBad _ g => exact hc
  | erase id =>
    obtain ⟨M', hs, hh⟩ := call_says hS hro hQ h (.erase id) (by rintro _ ⟨⟩) hov
    have hs : Says sp M (.erase id) (.erased (A.remove S c id).2) M' := hs
    have hh : Holds S Q sp (A.remove S c id).1 M' := hh
    have e1 : (C.erase S c id).1 = (A.remove S c id).1 := by
      rw [L.erase]; unfold cErase
      split
      · rename_i heq; rw [heq]
      · rfl
    refine ⟨M', ?_, by show Holds S Q sp (C.erase S c id).1 M'; rw [e1]; exact hh, ?_⟩
    · show CSays sp V M (.erase id) (.erased (C.erase S c id).2) M'
      rw [L.erase]
      generalize hx : A.remove S c id = x at hs
      obtain ⟨x1, x2⟩ := x
      have hs : Says sp M (.erase id) (.erased x2) M' := hs
      cases hs with
      | erase _ g => exact .erase id g
      | eraseBad _ g => exact .eraseBad id g
    · generalize (A.remove S c id).2 = o at hs
      cases hs with
      | erase _ g =>
        intro k r' hk'
        unfold RecMap.upd at hk'
        by_cases hkk : k = lower id
        · rw [if_pos hkk] at hk'; cases hk'
        · rw [if_neg hkk] at hk'; exact hc k r' hk'
      | eraseBad _ g => exact hc
  | size =>
    obtain ⟨M', hs, hh⟩ := call_says hS hro hQ h .size (by rintro _ ⟨⟩) hov
    have hs : Says sp M .size (.counted (A.count c)) M' := hs
    refine ⟨M, ?_, h, hc⟩
    show CSays sp V M .size (.counted (C.size c)) M
    rw [L.size]
    generalize A.count c = n at hs
    cases hs with
    | size l g => exact .size l g
  | loop s fuel =>
    obtain ⟨hm, hf⟩ := hk
    obtain ⟨M', hs, hh⟩ := call_says hS hro hQ h .list (by rintro _ ⟨⟩) hov
    have hs : Says sp M .list (.listed (A.list c)) M' := hs
    refine ⟨M, ?_, h, hc⟩
    show CSays sp V M (.loop s fuel) (.looped (C.loop c s fuel)) M
    generalize hx : A.list c = x at hs
    cases hs with
    | list l g =>
      obtain ⟨ss, e1, e2⟩ := L.loop c s fuel l hm hf hx fun r hr s hs =>
        L.into r s (hc _ r ((g.all _ r).2 ⟨hr, rfl⟩)) hs
      rw [e1]
      exact .loop s fuel l ss g e2

theorem c_map_behaves {R T : Type} {S : Sys} (hS : S.Good) (hro : S.env.readonly = false) {Q : Shelf R} {A : MapApi R}
    {sp : MapSpec R} (hQ : Q.Lawful A sp) {V : CView R T} {C : CMapApi T} {clean : R → Prop} {plain : Bytes → R → Prop}
    {into : R → T → Out T} {read : T → Out R} (L : CLaws sp V A C clean plain into read) {P : List Bytes} (hP : Q.path = P) {c : Client}
    {t : List (SCall T × SRes T)} (h : CRun S C V P (Client.new S) t c) :
    ∃ M, CExplained sp V RecMap.empty t M ∧ Holds S Q sp c M ∧ ∀ k r, M k = some r → clean r := by
  induction h with
  | nil => exact ⟨_, .nil _, new_holds hQ, by rintro _ _ ⟨⟩⟩
  | call k _ hk hov ih =>
    obtain ⟨M, e1, e2, e3⟩ := ih
    obtain ⟨M', f1, f2, f3⟩ := c_call_says hS hro hQ L e2 e3 k hk hov
    exact ⟨M', .snoc e1 f1, f2, f3⟩
  | between _ hb ih =>
    obtain ⟨M, e1, e2, e3⟩ := ih
    subst hP
    exact ⟨M, e1, between_holds hS hro hQ e2 hb, e3⟩

/-! ### Arrays -/

/-- The array holds this string, followed by a NUL. -/
def HoldsStr (a s : Bytes) : Prop := (0 : UInt8) ∉ s ∧ ∃ rest, a = s ++ 0 :: rest

theorem HoldsStr.get {a s : Bytes} (h : HoldsStr a s) : getStr a = .ok s ∧ s.length < a.length := by
  obtain ⟨h0, rest, rfl⟩ := h
  refine ⟨?_, by simp⟩
  unfold getStr
  rw [if_pos (by simp)]
  congr 1
  unfold cStr
  induction s with
  | nil => rfl
  | cons x t ih =>
    simp only [List.mem_cons, not_or] at h0
    have : (x ≠ 0) := fun hh => h0.1 hh.symm
    show List.takeWhile _ (x :: (t ++ 0 :: rest)) = _
    rw [List.takeWhile_cons_of_pos (by simpa using this), ih h0.2]

theorem putStr_holds {a s : Bytes} (h : s.length < a.length) (h0 : (0 : UInt8) ∉ s) :
    ∃ a', putStr a s = .ok a' ∧ a'.length = a.length ∧ HoldsStr a' s := by
  refine ⟨s ++ 0 :: a.drop (s.length + 1), by unfold putStr; rw [if_pos h], ?_, h0, _, rfl⟩
  simp; omega

theorem putBytes_exact {n : Nat} {a s : Bytes} (ha : a.length = n) (hs : s.length = n) : putBytes n a s = .ok s := by
  unfold putBytes
  rw [if_neg (by omega), List.take_of_length_le (by omega), List.drop_of_length_le (by omega), List.append_nil]

theorem getBytes_take {n : Nat} {a : Bytes} (ha : n ≤ a.length) : getBytes n a = .ok (a.take n) := by
  unfold getBytes; rw [if_neg (by omega)]

theorem putStr_exact {a s : Bytes} (h : a.length = s.length + 1) : putStr a s = .ok (s ++ [0]) := by
  unfold putStr
  rw [if_pos (by omega), List.drop_of_length_le (by omega)]

/-- The picture of a record, in a struct: with an empty URL the key says nothing. -/
structure ShowsPic (ua ka u k : Bytes) : Prop where
  url : HoldsStr ua u
  key : u ≠ [] → ka = k

/-- A picture that fits: either none, or a URL that fits and a key of 32 bytes. -/
def PicClean (url key : Bytes) : Prop :=
  (0 : UInt8) ∉ url ∧ url.length ≤ 223 ∧ (url = [] → key = []) ∧ (url ≠ [] → key.length = 32)

theorem putPic_shows {ua ka url key : Bytes} (hu : ua.length = 224) (hk : ka.length = 32) (h : PicClean url key) :
    ∃ p, putPic ua ka url key = .ok p ∧ p.1.length = 224 ∧ p.2.length = 32 ∧ ShowsPic p.1 p.2 url key := by
  obtain ⟨h0, h1, h2, h3⟩ := h
  obtain ⟨a', e1, e2, e3⟩ := putStr_holds (a := ua) (s := url) (by omega) h0
  by_cases hn : url = []
  · have hp : picOk url key = false := by unfold picOk; rw [hn]; rfl
    refine ⟨(a', ka), ?_, by rw [← hu, ← e2], hk, e3, fun hh => absurd hn hh⟩
    unfold putPic
    rw [if_neg (by rw [hp]; simp)]
    rw [hn] at e1
    rw [e1]; rfl
  · have hp : picOk url key = true := by
      unfold picOk
      rw [Bool.and_eq_true]
      exact ⟨by simpa using hn, by simpa using h3 hn⟩
    refine ⟨(a', key), ?_, by rw [← hu, ← e2], h3 hn, e3, fun _ => rfl⟩
    unfold putPic
    rw [if_pos hp, e1]
    show Out.bind (putBytes 32 ka key) _ = _
    rw [putBytes_exact hk (h3 hn)]; rfl

/-- What the library reads. -/
structure MeansPic (ua ka u k : Bytes) : Prop where
  url : HoldsStr ua u
  key : u ≠ [] → k = ka
  noKey : u = [] → k = []

theorem getPicOf_means {ua ka url key : Bytes} (hk : ka.length = 32) (h : MeansPic ua ka url key) :
    getPicOf ua ka = .ok (url, key) := by
  unfold getPicOf
  rw [h.url.get.1]
  show (if url = [] then _ else _) = _
  by_cases hn : url = []
  · rw [if_pos hn, h.noKey hn, hn]
  · rw [if_neg hn, getBytes_take (by omega), List.take_of_length_le (by omega), h.key hn]; rfl

theorem MeansPic.clean {ua ka url key : Bytes} (hu : ua.length = 224) (hk : ka.length = 32) (h : MeansPic ua ka url key) :
    PicClean url key := by
  have := h.url.get.2
  exact ⟨h.url.1, by omega, h.noKey, fun hn => by rw [h.key hn]; exact hk⟩

theorem PicClean.norm {url key : Bytes} (h : PicClean url key) :
    PicClean (if picOk url key then url else []) (if picOk url key then key else []) := by
  by_cases hp : picOk url key = true
  · simp only [hp, if_true]; exact h
  · simp only [hp, Bool.false_eq_true, if_false]
    exact ⟨by simp, by simp, fun _ => rfl, fun hh => absurd rfl hh⟩

theorem checkId_facts {id pre : Bytes} (hp : pre.length = 2) (h : checkId id pre = true) :
    id.length = 66 ∧ (0 : UInt8) ∉ id := by
  unfold checkId at h
  simp only [Bool.and_eq_true, beq_iff_eq, isHex] at h
  refine ⟨by omega, fun h0 => ?_⟩
  have := List.all_eq_true.1 h.1.2.2 0 h0
  revert this; decide

theorem lower_facts {id : Bytes} (h0 : (0 : UInt8) ∉ id) : (lower id).length = id.length ∧ (0 : UInt8) ∉ lower id := by
  refine ⟨by unfold lower; simp, fun hh => ?_⟩
  unfold lower at hh
  obtain ⟨x, hx, he⟩ := List.mem_map.1 hh
  have : x = 0 := by
    revert he
    revert x
    have : ∀ x : UInt8, lowerC x = 0 → x = 0 := by
      refine forall_uint8 ?_
      decide +kernel
    intro x _ h; exact this x h
  exact h0 (this ▸ hx)

theorem take_clean {s : Bytes} (n : Nat) (h : (0 : UInt8) ∉ s) : (0 : UInt8) ∉ s.take n := fun hh => h (List.mem_of_mem_take hh)

/-! ### Contacts -/

/-- A struct holds a contact. -/
structure ContactShown (s : CContact) (r : Contact) : Prop where
  sid : s.sid = r.id ++ [0]
  name : HoldsStr s.name r.name
  nick : HoldsStr s.nick r.nick
  pic : ShowsPic s.url s.key r.url r.key
  flags : s.approved = r.approved ∧ s.approvedMe = r.approvedMe ∧ s.blocked = r.blocked
  priority : s.priority = r.priority
  notify : s.notify = r.notify
  exp : s.exp = r.exp ∧ s.secs = r.timer
  created : s.created = r.created

/-- What `contacts_set` takes from a struct: the first 66 bytes of the id, the strings, the picture if the URL is not empty;
an expiration mode counts only with a positive time; `mute_until` is ignored. -/
structure ContactMeant (s : CContact) (r : Contact) : Prop where
  sid : r.id = s.sid.take 66
  name : HoldsStr s.name r.name
  nick : HoldsStr s.nick r.nick
  pic : MeansPic s.url s.key r.url r.key
  flags : r.approved = s.approved ∧ r.approvedMe = s.approvedMe ∧ r.blocked = s.blocked
  priority : r.priority = s.priority
  notify : r.notify = s.notify
  mute : r.mute = 0
  exp : r.exp = if 0 < s.secs then s.exp else .none
  timer : r.timer = if s.exp = .none then 0 else s.secs
  created : r.created = s.created

def contactView : CView Contact CContact where
  mem s := s.sid.length = 67 ∧ s.name.length = 101 ∧ s.nick.length = 101 ∧ s.url.length = 224 ∧ s.key.length = 32 ∧
    int32Ok s.priority = true ∧ int32Ok s.secs = true ∧ int64Ok s.created = true
  shows := ContactShown
  means := ContactMeant
  blank id := { id := id }
  ids id := id.length < 191

/-- `contacts_get`, `contacts_get_or_construct`, `contacts_set`, `contacts_erase`, `contacts_size` and the loop -/
def contactCApi : CMapApi CContact where
  get c s id := c.sContactsGet s id
  orNew c s id := c.sContactsOr s id
  set S c s := c.sContactsSet S s
  erase S c id := c.sContactsErase S id
  size c := c.contactsSize
  loop c s fuel := c.sContactsLoop s fuel
  rounds c := c.contactsSize

structure Contact.CClean (r : Contact) : Prop where
  id : r.id.length = 66
  stored : r.norm = r
  mute : r.mute = 0
  name : (0 : UInt8) ∉ r.name ∧ r.name.length ≤ 100
  nick : (0 : UInt8) ∉ r.nick ∧ r.nick.length ≤ 100
  pic : PicClean r.url r.key
  exp : r.exp = .none ∨ 0 < r.timer
  timer : int32Ok r.timer = true
  priority : int32Ok r.priority = true
  created : int64Ok r.created = true

theorem contact_norm_norm (r : Contact) (ht : int32Ok r.timer = true) : r.norm.norm = r.norm := by
  unfold Contact.norm
  dsimp only
  have e0 := toInt32_of_ok ht
  by_cases hp : picOk r.url r.key = true <;> by_cases hc : r.exp ≠ .none ∧ 0 < r.timer ∧ 0 < toInt32 r.timer
  · have hc' : r.exp ≠ .none ∧ 0 < r.timer ∧ 0 < r.timer := by rw [e0] at hc; exact hc
    simp [hp, hc'.1, hc'.2.1, e0]
    cases r.notify <;> simp
  · rw [if_neg hc]
    simp [hp]
    cases r.notify <;> simp
  · have hc' : r.exp ≠ .none ∧ 0 < r.timer ∧ 0 < r.timer := by rw [e0] at hc; exact hc
    simp [hp, hc'.1, hc'.2.1, e0]
    cases r.notify <;> simp
  · rw [if_neg hc]
    simp [hp]
    cases r.notify <;> simp

theorem contact_into {r : Contact} {s : CContact} (hr : r.CClean) (hs : contactView.mem s) :
    ∃ s', r.into s = .ok s' ∧ contactView.mem s' ∧ ContactShown s' r := by
  obtain ⟨m1, m2, m3, m4, m5, m6, m7, m8⟩ := hs
  obtain ⟨n', a1, a2, a3⟩ := putStr_holds (a := s.name) (s := r.name) (by have := hr.name.2; omega) hr.name.1
  obtain ⟨k', b1, b2, b3⟩ := putStr_holds (a := s.nick) (s := r.nick) (by have := hr.nick.2; omega) hr.nick.1
  obtain ⟨p, c1, c2, c3, c4⟩ := putPic_shows m4 m5 hr.pic
  have hid := putBytes_exact (a := s.sid) (s := r.id ++ [0]) m1 (by simp [hr.id])
  have ht := toInt32_of_ok hr.timer
  have he : (if toInt32 r.timer ≤ 0 ∧ r.exp ≠ .none then ExpMode.none else r.exp) = r.exp := by
    rw [ht]
    rcases hr.exp with h | h
    · rw [h]; simp
    · rw [if_neg (by omega)]
  refine ⟨{ s with
      sid := r.id ++ [0], name := n', nick := k', url := p.1, key := p.2
      approved := r.approved, approvedMe := r.approvedMe, blocked := r.blocked
      priority := r.priority, notify := r.notify, exp := r.exp, secs := r.timer, created := r.created }, ?_, ?_, ?_⟩
  · unfold Contact.into
    rw [hid, a1, b1, c1, he, ht]; rfl
  · exact ⟨by simp [hr.id], by rw [← m2, ← a2], by rw [← m3, ← b2], c2, c3, hr.priority, hr.timer, hr.created⟩
  · exact ⟨rfl, a3, b3, c4, ⟨rfl, rfl, rfl⟩, rfl, rfl, ⟨rfl, rfl⟩, rfl⟩

theorem contact_back {r : Contact} {s : CContact} (hs : contactView.mem s) (h : ContactMeant s r) :
    s.read = .ok r ∧ r.inRange = true ∧ (checkId r.id pre05 = true → ({ r.norm with id := lower r.id } : Contact).CClean) := by
  obtain ⟨m1, m2, m3, m4, m5, m6, m7, m8⟩ := hs
  have hzero : int32Ok 0 = true := by decide
  have ht : int32Ok r.timer = true := by
    rw [h.timer]; split
    · exact hzero
    · exact m7
  have hn := h.name.get
  have hk := h.nick.get
  refine ⟨?_, ?_, fun hid => ?_⟩
  · unfold CContact.read
    rw [getBytes_take (by omega), hn.1, hk.1, getPicOf_means m5 h.pic]
    have e1 : (if (if s.exp = .none then (0 : Int) else s.secs) ≤ 0 ∧ s.exp ≠ .none then ExpMode.none else s.exp) = r.exp := by
      rw [h.exp]
      by_cases h1 : s.exp = .none
      · rw [h1]; simp
      · by_cases h2 : 0 < s.secs
        · rw [if_neg h1, if_neg (by omega), if_pos h2]
        · rw [if_neg h1, if_pos ⟨by omega, h1⟩, if_neg h2]
    obtain ⟨f1, f2, f3⟩ := h.flags
    show Out.ok _ = Out.ok _
    rw [e1, ← h.timer, ← h.sid, ← f1, ← f2, ← f3, ← h.priority, ← h.notify, ← h.created]
    obtain ⟨id, name, nick, url, key, x1, x2, x3, x4, x5, mute, x7, x8, x9⟩ := r
    have := h.mute
    dsimp only at this
    subst this
    rfl
  · simp only [Contact.inRange, Bool.and_eq_true]
    have h64 : ∀ i, int32Ok i = true → int64Ok i = true := by
      intro i hi
      simp only [int32Ok, int64Ok, Bool.and_eq_true, decide_eq_true_eq] at hi ⊢
      omega
    exact ⟨⟨⟨by rw [h.priority]; exact m6, by rw [h.mute]; decide⟩, h64 _ ht⟩, by rw [h.created]; exact m8⟩
  · obtain ⟨i1, i2⟩ := checkId_facts rfl hid
    constructor
    · show (lower r.id).length = 66
      rw [(lower_facts i2).1, i1]
    · have := contact_norm_norm r ht
      show ({ r.norm.norm with id := lower r.id } : Contact) = _
      rw [this]
    · show max r.mute 0 = 0
      rw [h.mute]; rfl
    · exact ⟨take_clean _ h.name.1, by show (r.name.take 100).length ≤ 100; simp⟩
    · exact ⟨take_clean _ h.nick.1, by show (r.nick.take 100).length ≤ 100; simp⟩
    · exact (h.pic.clean m4 m5).norm
    · unfold Contact.norm
      dsimp only
      by_cases hc : r.exp ≠ .none ∧ 0 < r.timer ∧ 0 < toInt32 r.timer
      · rw [if_pos hc]; exact .inr hc.2.2
      · rw [if_neg hc]; exact .inl rfl
    · unfold Contact.norm
      dsimp only
      by_cases hc : r.exp ≠ .none ∧ 0 < r.timer ∧ 0 < toInt32 r.timer
      · rw [if_pos hc]; show int32Ok (toInt32 r.timer) = true; rw [toInt32_of_ok ht]; exact ht
      · rw [if_neg hc]; exact hzero
    · show int32Ok r.priority = true
      rw [h.priority]; exact m6
    · show int64Ok (max r.created 0) = true
      rw [max_comm]; exact int64Ok_max (by rw [h.created]; exact m8)

/-- A loop over an iterator of contacts or members -/
theorem rec_struct_loop {R T : Type} {L : Bytes → Dict → R} {conv : R → T → Out T} {mem : T → Prop} {shows : T → R → Prop}
    {d : Option Dict} {fuel : Nat} {l : List R} {s : T} (hs : mem s) (hl : recLoop L RecIter.done fuel d = .ok l)
    (hc : ∀ r ∈ l, ∀ s, mem s → ∃ s', conv r s = .ok s' ∧ mem s' ∧ shows s' r) :
    ∃ ss, ((RecIter.start L d).bind fun it => structLoop RecIter.done (fillRec conv) (·.next L) fuel it s) = .ok ss ∧
      List.Forall₂ shows ss l := by
  unfold recLoop at hl
  obtain ⟨it, h1, h2⟩ := Out.bind_eq_ok.1 hl
  rw [h1]
  obtain ⟨ss, e1, e2⟩ := struct_loop (fill := fillRec conv) (kind := fun r : R => some r) (mem := mem) (shows := shows)
    (by rintro _ _ _ _ ⟨⟩) (fun r => ∀ s, mem s → ∃ s', conv r s = .ok s' ∧ mem s' ∧ shows s' r)
    (by
      intro it a r s ha hk hP hm
      cases hk
      obtain ⟨s', f1, f2, f3⟩ := hP s hm
      refine ⟨s', ?_, f2, f3⟩
      unfold fillRec
      rw [ha]
      show Out.bind (conv a s) _ = _
      rw [f1]; rfl)
    fuel it s l h2 hs (by intro a ha r hr; cases hr; exact hc a ha)
  exact ⟨ss, e1, by simpa using e2⟩

theorem cGet_err {R T : Type} {id pre : Bytes} (hp : pre.length = 2) {conv : R → Out T} (hl : id.length < 191) :
    cGet (sessionIdMsg pre id) conv (.err .foreign) = .ok ⟨none, some (sessionIdMsg pre id)⟩ := by
  show (copyCStr 256 _).bind _ = _
  unfold copyCStr
  rw [if_pos (by rw [sessionIdMsg_length hp]; omega)]
  rfl

theorem contact_laws : CLaws contactSpec contactView contactApi contactCApi Contact.CClean (fun _ _ => True)
    Contact.into CContact.read where
  into r s hr hs := contact_into hr hs
  read s r hs h := by
    obtain ⟨h1, h2, h3⟩ := contact_back hs h
    exact ⟨h1, h2, fun _ hid _ => h3 hid⟩
  spelled id r hid hr _ := { hr with
    id := (checkId_facts rfl hid).1
    stored := by show ({ r.norm with id := id } : Contact) = { r with id := id }; rw [hr.stored] }
  again s id r hid hr he _ hs := by
    have hm : ({ r with id := id } : Contact).CClean := { hr with
      id := (checkId_facts rfl hid).1
      stored := by show ({ r.norm with id := id } : Contact) = { r with id := id }; rw [hr.stored] }
    have hs : ContactShown s { r with id := id } := hs
    refine ⟨⟨?_, hs.name, hs.nick, ⟨hs.pic.url, fun hn => (hs.pic.key hn).symm, fun hn => hr.pic.2.2.1 hn⟩,
      ⟨hs.flags.1.symm, hs.flags.2.1.symm, hs.flags.2.2.symm⟩, hs.priority.symm, hs.notify.symm, hr.mute, ?_, ?_,
      hs.created.symm⟩, rfl, ?_⟩
    · rw [hs.sid, List.take_append_of_le_length (by rw [hm.id]), List.take_of_length_le (by rw [hm.id])]; rfl
    · show r.exp = _
      have h1 : s.exp = r.exp := hs.exp.1
      have h2 : s.secs = r.timer := hs.exp.2
      rw [h1, h2]
      rcases hr.exp with h | h
      · rw [h]; split <;> rfl
      · rw [if_pos h]
    · show r.timer = _
      have h1 : s.exp = r.exp := hs.exp.1
      have h2 : s.secs = r.timer := hs.exp.2
      rw [h1, h2]
      by_cases hx : r.exp = .none
      · rw [if_pos hx]
        have : r.norm.timer = r.timer := by rw [hr.stored]
        rw [← this]
        unfold Contact.norm
        dsimp only
        rw [if_neg (fun hh => hh.1 hx)]
      · rw [if_neg hx]
    · show ({ r.norm with id := lower id } : Contact) = r
      rw [hr.stored, ← he]; rfl
  blank id hid := by
    refine ⟨(checkId_facts rfl hid).1, rfl, rfl,
      ⟨by show (0 : UInt8) ∉ []; simp, by show ([] : Bytes).length ≤ 100; simp⟩,
      ⟨by show (0 : UInt8) ∉ []; simp, by show ([] : Bytes).length ≤ 100; simp⟩, ?_, .inl rfl,
      by show int32Ok 0 = true; decide, by show int32Ok 0 = true; decide, by show int64Ok 0 = true; decide⟩
    exact ⟨by simp [contactView], by simp [contactView], fun _ => rfl, fun hh => absurd rfl hh⟩
  getBad c s id hi h := by
    have h : c.getContact id = .err .foreign := h
    show c.sContactsGet s id = _
    unfold Client.sContactsGet
    rw [h]; exact cGet_err rfl hi
  getOk c s id o hs h := by
    have h : c.getContact id = .ok o := h
    refine ⟨s, hs, ?_⟩
    show c.sContactsGet s id = _
    unfold Client.sContactsGet
    rw [h]; cases o <;> rfl
  orBad c s id hi h := by
    have h : c.getContact id = .err .foreign := h
    show c.sContactsOr s id = _
    unfold Client.sContactsOr Client.getOrConstruct
    rw [h]; exact cGet_err rfl hi
  orOk c s id o hs hid h := by
    have h : c.getContact id = .ok o := h
    have hid : checkId id pre05 = true := hid
    refine ⟨s, hs, ?_⟩
    show c.sContactsOr s id = _
    unfold Client.sContactsOr Client.getOrConstruct
    rw [h]
    cases o with
    | none =>
      show cGet _ _ (Out.bind (if checkId id pre05 = true then _ else _) _) = _
      rw [if_pos hid]; rfl
    | some r => rfl
  set S c s := rfl
  erase S c id := rfl
  size c := rfl
  loop c s fuel l hs hf hl hc := by
    refine rec_struct_loop hs ?_ hc
    rw [contacts_loop c hf _ (.inl rfl)]; exact hl

/-! ### Members of a group -/

/-- A struct holds a member. -/
structure MemberShown (s : CMember) (r : GMember) : Prop where
  sid : s.sid = r.id ++ [0]
  name : HoldsStr s.name r.name
  pic : ShowsPic s.url s.key r.url r.key
  admin : s.admin = r.admin
  status : s.invited = r.invite ∧ s.promoted = r.promotion ∧ s.removed = r.removed
  supplement : s.supplement = r.supplement

/-- What `groups_members_set` takes from a struct; a status other than 1 and 2 counts as 0. -/
structure MemberMeant (s : CMember) (r : GMember) : Prop where
  sid : r.id = s.sid.take 66
  name : HoldsStr s.name r.name
  pic : MeansPic s.url s.key r.url r.key
  admin : r.admin = s.admin
  invite : r.invite = if s.invited = 1 ∨ s.invited = 2 then s.invited else 0
  promotion : r.promotion = if s.promoted = 1 ∨ s.promoted = 2 then s.promoted else 0
  removed : r.removed = if s.removed = 1 ∨ s.removed = 2 then s.removed else 0
  supplement : r.supplement = s.supplement

def memberView : CView GMember CMember where
  mem s := s.sid.length = 67 ∧ s.name.length = 101 ∧ s.url.length = 224 ∧ s.key.length = 32
  shows := MemberShown
  means := MemberMeant
  blank id := { id := id }
  ids id := id.length < 191

/-- `groups_members_get`, `_get_or_construct`, `_set`, `_erase`, `_size` and the loop -/
def memberCApi : CMapApi CMember where
  get c s id := c.sMemberGet s id
  orNew c s id := c.sMemberOr s id
  set S c s := c.sMemberSet S s
  erase S c id := c.sMemberErase S id
  size c := c.membersSize
  loop c s fuel := c.sMemberLoop s fuel
  rounds c := c.membersSize

structure GMember.CClean (r : GMember) : Prop where
  id : r.id.length = 66
  stored : r.norm = r
  status : knownStatus r.invite = r.invite ∧ knownStatus r.promotion = r.promotion ∧ knownStatus r.removed = r.removed
  name : (0 : UInt8) ∉ r.name ∧ r.name.length ≤ 100
  pic : PicClean r.url r.key

theorem member_norm_norm (r : GMember) : r.norm.norm = r.norm := by
  unfold GMember.norm
  dsimp only
  have hm0 : ∀ i : Int, (0 < max 0 i) ↔ 0 < i := fun i => by omega
  have hm1 : ∀ i : Int, (max 0 i ≤ 0) ↔ i ≤ 0 := fun i => by omega
  by_cases hp : r.url ≠ [] ∧ r.key.length = 32
  · simp only [if_pos hp]
    cases hadm : r.admin <;> simp [hm0, hm1]
    cases r.supplement <;> cases decide (0 < r.invite) <;> cases decide (r.promotion ≤ 0) <;> rfl
  · simp only [if_neg hp]
    cases hadm : r.admin <;> simp [hm0, hm1]
    cases r.supplement <;> cases decide (0 < r.invite) <;> cases decide (r.promotion ≤ 0) <;> rfl

theorem member_into {r : GMember} {s : CMember} (hr : r.CClean) (hs : memberView.mem s) :
    ∃ s', r.into s = .ok s' ∧ memberView.mem s' ∧ MemberShown s' r := by
  obtain ⟨m1, m2, m4, m5⟩ := hs
  obtain ⟨n', a1, a2, a3⟩ := putStr_holds (a := s.name) (s := r.name) (by have := hr.name.2; omega) hr.name.1
  obtain ⟨p, c1, c2, c3, c4⟩ := putPic_shows m4 m5 hr.pic
  have hid := putBytes_exact (a := s.sid) (s := r.id ++ [0]) m1 (by simp [hr.id])
  refine ⟨{ sid := r.id ++ [0], name := n', url := p.1, key := p.2, admin := r.admin, invited := r.invite
            promoted := r.promotion, removed := r.removed, supplement := r.supplement }, ?_, ?_, ?_⟩
  · unfold GMember.into
    rw [hid, a1, c1]; rfl
  · exact ⟨by simp [hr.id], by rw [← m2, ← a2], c2, c3⟩
  · exact ⟨rfl, a3, c4, rfl, ⟨rfl, rfl, rfl⟩, rfl⟩

theorem member_back {r : GMember} {s : CMember} (hs : memberView.mem s) (h : MemberMeant s r) :
    s.read = .ok r ∧ r.inRange = true ∧ (checkId r.id pre05 = true → ({ r.norm with id := lower r.id } : GMember).CClean) := by
  obtain ⟨m1, m2, m4, m5⟩ := hs
  have hn := h.name.get
  refine ⟨?_, ?_, fun hid => ?_⟩
  · unfold CMember.read
    rw [getBytes_take (by omega), hn.1, getPicOf_means m5 h.pic]
    show Out.ok _ = Out.ok _
    unfold knownStatus
    rw [← h.invite, ← h.promotion, ← h.removed, ← h.sid, ← h.admin, ← h.supplement]
  · have st : ∀ i : Int, int32Ok (if i = 1 ∨ i = 2 then i else 0) = true := by
      intro i
      split
      · rename_i hh; rcases hh with rfl | rfl <;> decide
      · decide
    simp only [GMember.inRange, Bool.and_eq_true]
    rw [h.invite, h.promotion, h.removed]
    exact ⟨⟨st _, st _⟩, st _⟩
  · obtain ⟨i1, i2⟩ := checkId_facts rfl hid
    constructor
    · show (lower r.id).length = 66
      rw [(lower_facts i2).1, i1]
    · show ({ r.norm.norm with id := lower r.id } : GMember) = _
      rw [member_norm_norm]
    · have k0 : ∀ i : Int, knownStatus (knownStatus i) = knownStatus i := by
        intro i; unfold knownStatus; by_cases hi : i = 1 ∨ i = 2
        · rw [if_pos hi, if_pos hi]
        · rw [if_neg hi]; rfl
      have k1 : ∀ i : Int, max 0 (knownStatus i) = knownStatus i := by
        intro i; unfold knownStatus; split
        · rename_i hh; rcases hh with rfl | rfl <;> rfl
        · rfl
      have q1 : r.invite = knownStatus s.invited := h.invite
      have q2 : r.promotion = knownStatus s.promoted := h.promotion
      have q3 : r.removed = knownStatus s.removed := h.removed
      refine ⟨?_, ?_, ?_⟩
      · show knownStatus (if r.admin then 0 else max 0 r.invite) = if r.admin then 0 else max 0 r.invite
        rw [q1, k1]; split
        · rfl
        · exact k0 _
      · show knownStatus (if r.admin then 0 else max 0 r.promotion) = if r.admin then 0 else max 0 r.promotion
        rw [q2, k1]; split
        · rfl
        · exact k0 _
      · show knownStatus (max 0 r.removed) = max 0 r.removed
        rw [q3, k1]; exact k0 _
    · exact ⟨take_clean _ h.name.1, by show (r.name.take 100).length ≤ 100; simp⟩
    · have := (h.pic.clean m4 m5).norm
      have e : picOk r.url r.key = decide (r.url ≠ [] ∧ r.key.length = 32) := by
        unfold picOk
        by_cases h1 : r.url = [] <;> by_cases h2 : r.key.length = 32 <;> simp [h1, h2]
      rw [e] at this
      simp only [decide_eq_true_eq] at this
      exact this

theorem member_laws : CLaws memberSpec memberView memberApi memberCApi GMember.CClean (fun _ _ => True)
    GMember.into CMember.read where
  into r s hr hs := member_into hr hs
  read s r hs h := by
    obtain ⟨h1, h2, h3⟩ := member_back hs h
    exact ⟨h1, h2, fun _ hid _ => h3 hid⟩
  spelled id r hid hr _ := { hr with
    id := (checkId_facts rfl hid).1
    stored := by show ({ r.norm with id := id } : GMember) = { r with id := id }; rw [hr.stored] }
  again s id r hid hr he _ hs := by
    have hl : id.length = 66 := (checkId_facts rfl hid).1
    have hs : MemberShown s { r with id := id } := hs
    have h1 : s.invited = r.invite := hs.status.1
    have h2 : s.promoted = r.promotion := hs.status.2.1
    have h3 : s.removed = r.removed := hs.status.2.2
    refine ⟨⟨?_, hs.name, ⟨hs.pic.url, fun hn => (hs.pic.key hn).symm, fun hn => hr.pic.2.2.1 hn⟩, hs.admin.symm,
      by rw [h1]; exact hr.status.1.symm, by rw [h2]; exact hr.status.2.1.symm, by rw [h3]; exact hr.status.2.2.symm,
      hs.supplement.symm⟩, rfl, ?_⟩
    · rw [hs.sid]
      show id = (id ++ [0]).take 66
      rw [List.take_append_of_le_length (by rw [hl]), List.take_of_length_le (by rw [hl])]
    · show ({ r.norm with id := lower id } : GMember) = r
      rw [hr.stored, ← he]; rfl
  blank id hid := by
    refine ⟨(checkId_facts rfl hid).1, rfl, ⟨rfl, rfl, rfl⟩, ⟨by show (0 : UInt8) ∉ []; simp, by show ([] : Bytes).length ≤ 100; simp⟩, ?_⟩
    exact ⟨by simp [memberView], by simp [memberView], fun _ => rfl, fun hh => absurd rfl hh⟩
  getBad c s id hi h := by
    have h : c.getMember id = .err .foreign := h
    show c.sMemberGet s id = _
    unfold Client.sMemberGet
    rw [h]; exact cGet_err rfl hi
  getOk c s id o hs h := by
    have h : c.getMember id = .ok o := h
    refine ⟨s, hs, ?_⟩
    show c.sMemberGet s id = _
    unfold Client.sMemberGet
    rw [h]; cases o <;> rfl
  orBad c s id hi h := by
    have h : c.getMember id = .err .foreign := h
    show c.sMemberOr s id = _
    unfold Client.sMemberOr Client.memberOr
    rw [h]; exact cGet_err rfl hi
  orOk c s id o hs hid h := by
    have h : c.getMember id = .ok o := h
    refine ⟨s, hs, ?_⟩
    show c.sMemberOr s id = _
    unfold Client.sMemberOr Client.memberOr
    rw [h]; rfl
  set S c s := rfl
  erase S c id := rfl
  size c := rfl
  loop c s fuel l hs hf hl hc := by
    refine rec_struct_loop hs ?_ hc
    rw [gmembers_loop c hf _ (.inl rfl)]; exact hl

/-! ### Groups -/

/-- A struct holds a group. -/
structure GroupShown (s : CGroup) (r : Group) : Prop where
  id : s.id = r.id ++ [0]
  name : HoldsStr s.name r.name
  secret : s.haveSecret = true ∧ s.secret = r.secret ∨ s.haveSecret = false ∧ r.secret = []
  auth : s.haveAuth = true ∧ s.auth = r.auth ∨ s.haveAuth = false ∧ r.auth = []
  base : s.base = r.base

/-- What `user_groups_set_group` takes from a struct. -/
structure GroupMeant (s : CGroup) (r : Group) : Prop where
  id : r.id = s.id.take 66
  name : HoldsStr s.name r.name
  secret : r.secret = if s.haveSecret then s.secret else []
  auth : r.auth = if s.haveAuth then s.auth else []
  base : r.base = s.base

def groupView : CView Group CGroup where
  mem s := s.id.length = 67 ∧ s.name.length = 101 ∧ s.secret.length = 64 ∧ s.auth.length = 100 ∧ s.base.inRange = true
  shows := GroupShown
  means := GroupMeant
  blank id := { id := id }
  ids _ := True

/-- `user_groups_get_group`, `_get_or_construct_group`, `_set_group`, `_erase_group`, `_size_groups` and the loop with
`user_groups_it_is_group`, over the groups only or over everything -/
def groupCApi (pub : Bytes → Bytes) (only : Bool) : CMapApi CGroup where
  get c s id := c.sGroupGet pub s id
  orNew c s id := c.sGroupOr pub s id
  set S c s := c.sGroupSet S s
  erase S c id := c.sGroupErase S id
  size c := c.groupsSize
  loop c s fuel := c.sGroupLoop pub only s fuel
  rounds c := (c.allGroups pub).length

structure Group.CClean (pub : Bytes → Bytes) (r : Group) : Prop where
  id : r.id.length = 66
  name : (0 : UInt8) ∉ r.name ∧ r.name.length ≤ 100
  genuine : r.secret = [] ∨ r.Genuine pub
  secret : r.secret = [] ∨ r.secret.length = 64
  stored : r.base.norm = r.base
  auth : r.auth = [] ∨ r.auth.length = 100
  base : r.base.inRange = true

theorem putOpt {n : Nat} {a s : Bytes} (hn : 0 < n) (ha : a.length = n) (h : s = [] ∨ s.length = n) :
    (if s.length = n then putBytes n a s else .ok a) = .ok (if s = [] then a else s) := by
  rcases h with rfl | h
  · rw [if_neg (by simp; omega), if_pos rfl]
  · have : s ≠ [] := fun hh => by rw [hh] at h; simp at h; omega
    rw [if_pos h, if_neg this, putBytes_exact ha h]

theorem group_into {pub : Bytes → Bytes} {r : Group} {s : CGroup} (hr : r.CClean pub) (hs : groupView.mem s) :
    ∃ s', r.into s = .ok s' ∧ groupView.mem s' ∧ GroupShown s' r := by
  obtain ⟨m1, m2, m3, m4, m5⟩ := hs
  obtain ⟨n', a1, a2, a3⟩ := putStr_holds (a := s.name) (s := r.name) (by have := hr.name.2; omega) hr.name.1
  have hid := putStr_exact (a := s.id) (s := r.id) (by rw [hr.id]; exact m1)
  have len : ∀ {a b : Bytes} {n : Nat}, a.length = n → (b = [] ∨ b.length = n) → (if b = [] then a else b).length = n := by
    intro a b n ha hb
    by_cases h : b = []
    · rw [if_pos h]; exact ha
    · rw [if_neg h]; exact hb.resolve_left h
  have sh : ∀ {a b : Bytes} {n : Nat}, 0 < n → (b = [] ∨ b.length = n) →
      (decide (b.length = n) = true ∧ (if b = [] then a else b) = b ∨ decide (b.length = n) = false ∧ b = []) := by
    intro a b n hn hb
    by_cases h : b = []
    · right; exact ⟨by rw [h]; simp; omega, h⟩
    · left; exact ⟨by rw [hb.resolve_left h]; simp, if_neg h⟩
  refine ⟨{ id := r.id ++ [0], name := n', haveSecret := decide (r.secret.length = 64)
            secret := if r.secret = [] then s.secret else r.secret, haveAuth := decide (r.auth.length = 100)
            auth := if r.auth = [] then s.auth else r.auth, base := r.base }, ?_, ?_, ?_⟩
  · unfold Group.into
    rw [hid, a1, putOpt (by omega) m3 hr.secret, putOpt (by omega) m4 hr.auth]; rfl
  · exact ⟨by simp [hr.id], by rw [← m2, ← a2], len m3 hr.secret, len m4 hr.auth, hr.base⟩
  · exact ⟨rfl, a3, sh (by omega) hr.secret, sh (by omega) hr.auth, rfl⟩

theorem base_norm_inRange {b : GroupBase} (h : b.inRange = true) : b.norm.inRange = true := by
  simp only [GroupBase.inRange, Bool.and_eq_true, GroupBase.norm] at h ⊢
  exact ⟨⟨h.1.1, int64Ok_max h.1.2⟩, int64Ok_max h.2⟩

theorem base_norm_norm (b : GroupBase) : b.norm.norm = b.norm := by
  unfold GroupBase.norm; simp

theorem group_back {pub : Bytes → Bytes} {r : Group} {s : CGroup} (hpub : ∀ s, (pub s).length = 32) (hs : groupView.mem s)
    (h : GroupMeant s r) :
    s.read = .ok r ∧ r.base.inRange = true ∧ ∀ old : Option Group, checkId r.id pre03 = true → (∀ o, old = some o → o.CClean pub) →
      ((groupSpec pub).kept old r).CClean pub := by
  obtain ⟨m1, m2, m3, m4, m5⟩ := hs
  have hn := h.name.get
  refine ⟨?_, by rw [h.base]; exact m5, fun old hid ho => ?_⟩
  · unfold CGroup.read
    rw [getBytes_take (by omega), hn.1]
    have e1 : (if s.haveSecret then getBytes 64 s.secret else .ok []) = .ok r.secret := by
      rw [h.secret]
      split
      · rw [getBytes_take (by omega), List.take_of_length_le (by omega)]
      · rfl
    have e2 : (if s.haveAuth then getBytes 100 s.auth else .ok []) = .ok r.auth := by
      rw [h.auth]
      split
      · rw [getBytes_take (by omega), List.take_of_length_le (by omega)]
      · rfl
    show Out.bind _ (fun sec => Out.bind _ _) = _
    rw [e1, e2]
    show Out.ok _ = Out.ok _
    rw [← h.id, ← h.base]
  · obtain ⟨i1, i2⟩ := checkId_facts rfl hid
    constructor
    · show (lower r.id).length = 66
      rw [(lower_facts i2).1, i1]
    · exact ⟨take_clean _ h.name.1, by show (r.name.take 100).length ≤ 100; simp⟩
    · by_cases hg : r.Genuine pub
      · right
        obtain ⟨seed, g1, g2, g3⟩ := hg
        refine ⟨seed, g1, ?_, ?_⟩
        · show (@ite _ (r.Genuine pub) (Classical.propDecidable _) r.secret []) = _
          rw [if_pos ⟨seed, g1, g2, g3⟩, g2]
        · show lower (lower r.id) = _
          rw [g3, toHex_lower]
      · left
        show (@ite _ (r.Genuine pub) (Classical.propDecidable _) r.secret []) = []
        rw [if_neg hg]
    · show (@ite _ (r.Genuine pub) (Classical.propDecidable _) r.secret []) = [] ∨ _
      by_cases hg : r.Genuine pub
      · right
        show (@ite _ (r.Genuine pub) (Classical.propDecidable _) r.secret []).length = 64
        rw [if_pos hg]
        obtain ⟨seed, g1, g2, _⟩ := hg
        rw [g2, List.length_append, g1, hpub]
      · left; rw [if_neg hg]
    · show r.base.norm.norm = r.base.norm
      exact base_norm_norm _
    · show (@ite _ r.LooksAdmin (Classical.propDecidable _) ((old.map Group.auth).getD [])
        (if r.auth.length = 100 then r.auth else [])) = [] ∨ (@ite _ r.LooksAdmin (Classical.propDecidable _)
          ((old.map Group.auth).getD []) (if r.auth.length = 100 then r.auth else [])).length = 100
      by_cases hl : r.LooksAdmin
      · rw [if_pos hl]
        cases old with
        | none => exact .inl rfl
        | some o => exact (ho o rfl).auth
      · rw [if_neg hl]
        by_cases ha : r.auth.length = 100
        · rw [if_pos ha]; exact .inr ha
        · rw [if_neg ha]; exact .inl rfl
    · exact base_norm_inRange (by rw [h.base]; exact m5)

theorem ugroup_struct_loop {R T : Type} {pub : Bytes → Bytes} {it : UGroupIter} {kind : AnyGroup → Option R}
    {fill : UGroupIter → T → Out (Option T)} {conv : R → T → Out T} {mem : T → Prop} {shows : T → R → Prop}
    (hfill : ∀ it a s, derefVal it.val = .ok a →
      (∀ r, kind a = some r → fill it s = (conv r s).bind fun s => .ok (some s)) ∧ (kind a = none → fill it s = .ok none))
    {fuel : Nat} {l : List AnyGroup} {s : T} (hs : mem s)
    (hl : loopList UGroupIter.done (fun it => derefVal it.val) (·.next pub) fuel it = .ok l)
    (hc : ∀ r ∈ l.filterMap kind, ∀ s, mem s → ∃ s', conv r s = .ok s' ∧ mem s' ∧ shows s' r) :
    ∃ ss, structLoop UGroupIter.done fill (·.next pub) fuel it s = .ok ss ∧ List.Forall₂ shows ss (l.filterMap kind) := by
  refine struct_loop (fill := fill) (kind := kind) (mem := mem) (shows := shows) ?_
    (fun r => ∀ s, mem s → ∃ s', conv r s = .ok s' ∧ mem s' ∧ shows s' r) ?_ fuel it s l hl hs ?_
  · intro it a s ha hk
    exact (hfill it a s ha).2 hk
  · intro it a r s ha hk hP hm
    obtain ⟨s', f1, f2, f3⟩ := hP s hm
    refine ⟨s', ?_, f2, f3⟩
    rw [(hfill it a s ha).1 r hk, f1]; rfl
  · intro a ha r hr
    exact hc r (List.mem_filterMap.2 ⟨a, ha, hr⟩)

def kindGroup : AnyGroup → Option Group
  | .group g => some g
  | _ => none

def kindLegacy : AnyGroup → Option Legacy
  | .legacy g => some g
  | _ => none

theorem filter_none {A B : Type} {f : A → Option B} {l : List A} (h : ∀ a ∈ l, f a = none) : l.filterMap f = [] := by
  induction l with
  | nil => rfl
  | cons a t ih => rw [List.filterMap_cons, h a (by simp)]; exact ih fun x hx => h x (by simp [hx])

theorem filter_all {A B : Type} {f : A → Option B} {g : B → A} (h : ∀ b, f (g b) = some b) (l : List B) :
    (l.map g).filterMap f = l := by
  induction l with
  | nil => rfl
  | cons a t ih => rw [List.map_cons, List.filterMap_cons, h a]; simp only [ih]

theorem allGroups_kinds (pub : Bytes → Bytes) (c : Client) :
    (c.allGroups pub).filterMap kindGroup = c.groups pub ∧ (c.allGroups pub).filterMap kindLegacy = c.legacies := by
  unfold Client.allGroups
  simp only [List.filterMap_append]
  constructor
  · rw [filter_all (f := kindGroup) (g := AnyGroup.group) (fun _ => rfl), filter_none (l := c.ucomms.map _), filter_none (l := c.legacies.map _)]
    · simp
    · intro a ha; obtain ⟨x, _, rfl⟩ := List.mem_map.1 ha; rfl
    · intro a ha; obtain ⟨x, _, rfl⟩ := List.mem_map.1 ha; rfl
  · rw [filter_none (l := (c.groups pub).map _), filter_none (l := c.ucomms.map _),
      filter_all (f := kindLegacy) (g := AnyGroup.legacy) (fun _ => rfl)]
    · simp
    · intro a ha; obtain ⟨x, _, rfl⟩ := List.mem_map.1 ha; rfl
    · intro a ha; obtain ⟨x, _, rfl⟩ := List.mem_map.1 ha; rfl

theorem group_laws {pub : Bytes → Bytes} (hpub : ∀ s, (pub s).length = 32) (only : Bool) :
    CLaws (groupSpec pub) groupView (groupApi pub) (groupCApi pub only) (Group.CClean pub)
      (fun id r => lower id = id ∨ r.secret = []) Group.into CGroup.read where
  into r s hr hs := group_into hr hs
  read s r hs h := group_back hpub hs h
  spelled id r hid hr he := by
    have he : r.id = lower id := he
    refine ⟨(checkId_facts rfl hid).1, hr.name, ?_, ?_, hr.stored, hr.auth, hr.base⟩
    · show (if lower id = id then r.secret else []) = [] ∨ _
      by_cases hl : lower id = id
      · rcases hr.genuine with hg | ⟨seed, g1, g2, g3⟩
        · left; rw [if_pos hl]; exact hg
        · right
          refine ⟨seed, g1, ?_, ?_⟩
          · show (if lower id = id then r.secret else []) = _
            rw [if_pos hl]; exact g2
          · show lower id = _
            rw [he, hl, hl] at g3; rw [hl]; exact g3
      · left; rw [if_neg hl]
    show (if lower id = id then r.secret else []) = [] ∨ (if lower id = id then r.secret else []).length = 64
    split
    · exact hr.secret
    · exact .inl rfl
  again s id r hid hr he hp hs := by
    have he : r.id = lower id := he
    have hl : id.length = 66 := (checkId_facts rfl hid).1
    have hsec : (if lower id = id then r.secret else []) = r.secret := by
      rcases hp with h | h
      · rw [if_pos h]
      · rw [h]; split <;> rfl
    have hs : GroupShown s { r with id := id, secret := if lower id = id then r.secret else [] } := hs
    rw [hsec] at hs
    have hsp : (groupSpec pub).spelled id r = { r with id := id } := by
      show ({ r with id := id, secret := if lower id = id then r.secret else [] } : Group) = _
      rw [hsec]
    rw [hsp]
    refine ⟨⟨?_, hs.name, ?_, ?_, hs.base.symm⟩, rfl, ?_⟩
    · rw [hs.id]
      show id = (id ++ [0]).take 66
      rw [List.take_append_of_le_length (by rw [hl]), List.take_of_length_le (by rw [hl])]
    · rcases hs.secret with ⟨a, b⟩ | ⟨a, b⟩
      · rw [a, if_pos rfl]; exact b.symm
      · rw [a]; exact b
    · rcases hs.auth with ⟨a, b⟩ | ⟨a, b⟩
      · rw [a, if_pos rfl]; exact b.symm
      · rw [a]; exact b
    · have hll : lower r.id = lower id := by
        have := lower_id (idBytes_of hid); rw [he, this, toHex_lower]
      have hgen : (@ite _ (({ r with id := id } : Group).Genuine pub) (Classical.propDecidable _) r.secret []) = r.secret := by
        by_cases hg : ({ r with id := id } : Group).Genuine pub
        · rw [if_pos hg]
        · rw [if_neg hg]
          rcases hr.genuine with h | ⟨seed, g1, g2, g3⟩
          · exact h.symm
          · exact absurd ⟨seed, g1, g2, by show lower id = _; rw [← hll]; exact g3⟩ hg
      have haut : (@ite _ (({ r with id := id } : Group).LooksAdmin) (Classical.propDecidable _) r.auth
          (if r.auth.length = 100 then r.auth else [])) = r.auth := by
        by_cases hg : ({ r with id := id } : Group).LooksAdmin
        · rw [if_pos hg]
        · rw [if_neg hg]
          rcases hr.auth with h | h
          · rw [h]; rfl
          · rw [if_pos h]
      show ({ id := lower id, base := r.base.norm, name := r.name.take 100
              secret := @ite _ (({ r with id := id } : Group).Genuine pub) (Classical.propDecidable _) r.secret []
              auth := @ite _ (({ r with id := id } : Group).LooksAdmin) (Classical.propDecidable _) r.auth
                (if r.auth.length = 100 then r.auth else []) } : Group) = r
      rw [hgen, haut, hr.stored, List.take_of_length_le hr.name.2, ← he]
  blank id hid :=
    ⟨(checkId_facts rfl hid).1, ⟨by show (0 : UInt8) ∉ []; simp, by show ([] : Bytes).length ≤ 100; simp⟩,
      .inl rfl, .inl rfl, rfl, .inl rfl, by show ({} : GroupBase).inRange = true; decide⟩
  getBad c s id hi h := by
    have h : c.getGroup pub id = .err .foreign := h
    show c.sGroupGet pub s id = _
    unfold Client.sGroupGet
    rw [h]; rfl
  getOk c s id o hs h := by
    have h : c.getGroup pub id = .ok o := h
    refine ⟨s, hs, ?_⟩
    show c.sGroupGet pub s id = _
    unfold Client.sGroupGet
    rw [h]; cases o <;> rfl
  orBad c s id hi h := by
    have h : c.getGroup pub id = .err .foreign := h
    show c.sGroupOr pub s id = _
    unfold Client.sGroupOr Client.groupOr
    rw [h]; rfl
  orOk c s id o hs hid h := by
    have h : c.getGroup pub id = .ok o := h
    refine ⟨s, hs, ?_⟩
    show c.sGroupOr pub s id = _
    unfold Client.sGroupOr Client.groupOr
    rw [h]; rfl
  set S c s := rfl
  erase S c id := rfl
  size c := rfl
  loop c s fuel l hs hf hl hc := by
    have hl : Out.ok (c.groups pub) = .ok l := hl
    cases hl
    have hf : (c.allGroups pub).length < fuel := hf
    have hfill : ∀ (it : UGroupIter) a s, derefVal it.val = .ok a →
        (∀ r, kindGroup a = some r → fillGroup it s = (Group.into r s).bind fun s => .ok (some s)) ∧
        (kindGroup a = none → fillGroup it s = .ok none) := by
      intro it a s ha
      unfold fillGroup
      rw [ha]
      cases a <;> exact ⟨fun r hr => (by cases hr <;> rfl), fun hn => (by cases hn <;> rfl)⟩
    show ∃ ss, c.sGroupLoop pub only s fuel = .ok ss ∧ _
    unfold Client.sGroupLoop
    cases only with
    | false =>
      have e := (allGroups_kinds pub c).1
      have := ugroup_struct_loop (kind := kindGroup) hfill hs (ugroup_loop pub c hf _ (.inl rfl)).1 (by rw [e]; exact hc)
      rw [e] at this; exact this
    | true =>
      have e : ((c.groups pub).map AnyGroup.group).filterMap kindGroup = c.groups pub :=
        filter_all (f := kindGroup) (g := AnyGroup.group) (fun _ => rfl) _
      have := ugroup_struct_loop (kind := kindGroup) hfill hs (ugroup_loop pub c hf _ (.inl rfl)).2.1 (by rw [e]; exact hc)
      rw [e] at this; exact this

/-! ### Legacy groups -/

/-- A struct holds a legacy group; the members are reached through the pointer, which is not null. -/
structure LegacyShown (s : CLegacy) (r : Legacy) : Prop where
  id : s.id = r.id ++ [0]
  name : HoldsStr s.name r.name
  keys : (s.haveKeys = true ∧ s.encPub = r.encPub ∧ s.encSec = r.encSec) ∨
    (s.haveKeys = false ∧ r.encPub = [] ∧ r.encSec = [])
  timer : s.timer = r.timer
  base : s.base = r.base
  members : s.internal = some r.members

/-- What `user_groups_set_legacy_group` takes from a struct; a null pointer means no members. -/
structure LegacyMeant (s : CLegacy) (r : Legacy) : Prop where
  id : r.id = s.id.take 66
  name : HoldsStr s.name r.name
  keys : r.encPub = (if s.haveKeys then s.encPub else []) ∧ r.encSec = if s.haveKeys then s.encSec else []
  timer : r.timer = s.timer
  base : r.base = s.base
  members : r.members = s.internal.getD []

def legacyView : CView Legacy CLegacy where
  mem s := s.id.length = 67 ∧ s.name.length = 101 ∧ s.encPub.length = 32 ∧ s.encSec.length = 32 ∧ s.base.inRange = true ∧
    int64Ok s.timer = true ∧ ∀ m, s.internal = some m → MembersOk m
  shows := LegacyShown
  means := LegacyMeant
  blank id := { id := id }
  ids id := id.length < 191

/-- `user_groups_get_legacy_group`, `_get_or_construct_legacy_group` (which allocate the struct), `_set_legacy_group` or
`_set_free_legacy_group`, `_erase_legacy_group`, `_size_legacy_groups` and the loop with `user_groups_it_is_legacy_group`, over
the legacy groups only or over everything -/
def legacyCApi (pub : Bytes → Bytes) (only free : Bool) : CMapApi CLegacy where
  get c _ id := c.sLegacyGet id
  orNew c _ id := c.sLegacyOr id
  set S c s := if free then (c.sLegacySetFree S s).1 else c.sLegacySet S s
  erase S c id := c.sLegacyErase S id
  size c := c.legacySize
  loop c s fuel := c.sLegacyLoop pub only s fuel
  rounds c := (c.allGroups pub).length

structure Legacy.CClean (r : Legacy) : Prop where
  id : r.id.length = 66
  name : (0 : UInt8) ∉ r.name ∧ r.name.length ≤ 100
  keys : (r.encPub = [] ∧ r.encSec = []) ∨ (r.encPub.length = 32 ∧ r.encSec.length = 32)
  base : r.base.inRange = true
  timer : int64Ok r.timer = true
  members : MembersOk r.members
  stored : r.norm = r
  tidy : Members.tidy r.members = r.members

theorem legacy_into {r : Legacy} {s : CLegacy} (hr : r.CClean) (hs : legacyView.mem s) :
    ∃ s', r.into s = .ok s' ∧ legacyView.mem s' ∧ LegacyShown s' r := by
  obtain ⟨m1, m2, m3, m4, m5, m6, m7⟩ := hs
  obtain ⟨n', a1, a2, a3⟩ := putStr_holds (a := s.name) (s := r.name) (by have := hr.name.2; omega) hr.name.1
  have hid := putStr_exact (a := s.id) (s := r.id) (by rw [hr.id]; exact m1)
  rcases hr.keys with ⟨k1, k2⟩ | ⟨k1, k2⟩
  · have hp : decide (r.encPub.length = 32 ∧ r.encSec.length = 32) = false := by rw [k1]; simp
    refine ⟨⟨r.id ++ [0], n', false, s.encPub, s.encSec, r.timer, r.base, some r.members⟩, ?_, ?_, ?_⟩
    · unfold Legacy.into
      rw [hid, a1, hp]; rfl
    · exact ⟨by simp [hr.id], by rw [← m2, ← a2], m3, m4, hr.base, hr.timer, fun m hm => by cases hm; exact hr.members⟩
    · exact ⟨rfl, a3, .inr ⟨rfl, k1, k2⟩, rfl, rfl, rfl⟩
  · have hp : decide (r.encPub.length = 32 ∧ r.encSec.length = 32) = true := by rw [k1, k2]; simp
    refine ⟨⟨r.id ++ [0], n', true, r.encPub, r.encSec, r.timer, r.base, some r.members⟩, ?_, ?_, ?_⟩
    · unfold Legacy.into
      rw [hid, a1, hp]
      show Out.bind (putBytes 32 s.encPub r.encPub) _ = _
      rw [putBytes_exact m3 k1]
      show Out.bind (putBytes 32 s.encSec r.encSec) _ = _
      rw [putBytes_exact m4 k2]; rfl
    · exact ⟨by simp [hr.id], by rw [← m2, ← a2], k1, k2, hr.base, hr.timer, fun m hm => by cases hm; exact hr.members⟩
    · exact ⟨rfl, a3, .inl ⟨rfl, rfl, rfl⟩, rfl, rfl, rfl⟩

theorem checkId_lower05 {id : Bytes} (h : checkId id pre05 = true) : checkId (lower id) pre05 = true := by
  have hi := idBytes_of h
  have hl : lower id = toHex (fromHex id) := lower_id hi
  have := idBytes_toHex05 (idBytes_len rfl hi) (idBytes_head05 hi)
  rw [← hl] at this
  cases hh : checkId (lower id) pre05 with
  | true => rfl
  | false => rw [idBytes_bad hh] at this; cases this

theorem tidy_ok {m : Members} (h : MembersOk m) : MembersOk (Members.tidy m) := by
  obtain ⟨a1, a2⟩ := foldl_mput_lower true (m.filter fun x => x.2) KSorted.nil
  obtain ⟨b1, b2⟩ := foldl_mput_lower false (m.filter fun x => !x.2) a1
  refine ⟨b1, fun x hx => ?_⟩
  have hx' : mget x.1 (Members.tidy m) = some x.2 := (mget_iff_mem b1).2 hx
  unfold Members.tidy at hx'
  rw [b2 x.1] at hx'
  by_cases h1 : ∃ y ∈ m.filter (fun x => !x.2), lower y.1 = x.1
  · obtain ⟨y, hy, he⟩ := h1
    rw [← he]; exact checkId_lower05 (h.2 y (List.mem_filter.1 hy).1)
  · rw [if_neg h1, a2 x.1] at hx'
    by_cases h2 : ∃ y ∈ m.filter (fun x => x.2), lower y.1 = x.1
    · obtain ⟨y, hy, he⟩ := h2
      rw [← he]; exact checkId_lower05 (h.2 y (List.mem_filter.1 hy).1)
    · rw [if_neg h2] at hx'; cases hx'

theorem tidy_tidy {m : Members} (h : MembersOk m) : Members.tidy (Members.tidy m) = Members.tidy m := by
  have ht := tidy_ok h
  have low : ∀ x ∈ Members.tidy m, lower x.1 = x.1 := by
    obtain ⟨a1, a2⟩ := foldl_mput_lower true (m.filter fun x => x.2) KSorted.nil
    obtain ⟨b1, b2⟩ := foldl_mput_lower false (m.filter fun x => !x.2) a1
    intro x hx
    have ll : ∀ y ∈ m, lower (lower y.1) = lower y.1 := fun y hy => by
      rw [lower_id (idBytes_of (h.2 y hy)), toHex_lower]
    have hx' : mget x.1 (Members.tidy m) = some x.2 := (mget_iff_mem b1).2 hx
    unfold Members.tidy at hx'
    rw [b2 x.1] at hx'
    by_cases h1 : ∃ y ∈ m.filter (fun x => !x.2), lower y.1 = x.1
    · obtain ⟨y, hy, he⟩ := h1
      rw [← he]; exact ll y (List.mem_filter.1 hy).1
    · rw [if_neg h1, a2 x.1] at hx'
      by_cases h2 : ∃ y ∈ m.filter (fun x => x.2), lower y.1 = x.1
      · obtain ⟨y, hy, he⟩ := h2
        rw [← he]; exact ll y (List.mem_filter.1 hy).1
      · rw [if_neg h2] at hx'; cases hx'
  generalize Members.tidy m = n at ht low
  obtain ⟨a1, a2⟩ := foldl_mput_lower true (n.filter fun x => x.2) KSorted.nil
  obtain ⟨b1, b2⟩ := foldl_mput_lower false (n.filter fun x => !x.2) a1
  refine map_ext b1 ht.1 fun k => ?_
  unfold Members.tidy
  rw [b2 k, a2 k]
  have one : ∀ y ∈ n, lower y.1 = k → mget k n = some y.2 := fun y hy he => by
    rw [low y hy] at he
    exact (mget_iff_mem ht.1).2 (by rw [← he]; exact hy)
  by_cases h1 : ∃ y ∈ n.filter (fun x => !x.2), lower y.1 = k
  · rw [if_pos h1]
    obtain ⟨y, hy, he⟩ := h1
    obtain ⟨hy1, hy2⟩ := List.mem_filter.1 hy
    rw [one y hy1 he]
    simp at hy2; rw [hy2]
  · rw [if_neg h1]
    by_cases h2 : ∃ y ∈ n.filter (fun x => x.2), lower y.1 = k
    · rw [if_pos h2]
      obtain ⟨y, hy, he⟩ := h2
      obtain ⟨hy1, hy2⟩ := List.mem_filter.1 hy
      rw [one y hy1 he]
      rw [hy2]
    · rw [if_neg h2]
      cases hg : mget k n with
      | none => rfl
      | some a =>
        exfalso
        have hm := (mget_iff_mem ht.1).1 hg
        cases a with
        | true => exact h2 ⟨(k, true), List.mem_filter.2 ⟨hm, rfl⟩, low _ hm⟩
        | false => exact h1 ⟨(k, false), List.mem_filter.2 ⟨hm, rfl⟩, low _ hm⟩

theorem legacy_norm_norm (r : Legacy) : r.norm.norm = r.norm := by
  unfold Legacy.norm
  dsimp only
  rw [base_norm_norm]
  by_cases hk : r.encPub.length = 32 ∧ r.encSec.length = 32
  · simp [hk]
  · simp only [if_neg hk]; simp

theorem legacy_back {r : Legacy} {s : CLegacy} (hs : legacyView.mem s) (h : LegacyMeant s r) :
    s.read = .ok r ∧ (r.inRange = true ∧ MembersOk r.members) ∧ (checkId r.id pre05 = true → (legacySpec.kept none r).CClean) := by
  obtain ⟨m1, m2, m3, m4, m5, m6, m7⟩ := hs
  have hn := h.name.get
  have hm : MembersOk r.members := by
    rw [h.members]
    cases hi : s.internal with
    | none => exact (⟨KSorted.nil, by intro x hx; cases hx⟩ : MembersOk [])
    | some m => exact m7 m hi
  refine ⟨?_, ⟨?_, hm⟩, fun hid => ?_⟩
  · unfold CLegacy.read
    rw [getBytes_take (by omega), hn.1]
    have e1 : (if s.haveKeys then getBytes 32 s.encPub else .ok []) = .ok r.encPub := by
      rw [h.keys.1]
      split
      · rw [getBytes_take (by omega), List.take_of_length_le (by omega)]
      · rfl
    have e2 : (if s.haveKeys then getBytes 32 s.encSec else .ok []) = .ok r.encSec := by
      rw [h.keys.2]
      split
      · rw [getBytes_take (by omega), List.take_of_length_le (by omega)]
      · rfl
    show Out.bind _ (fun sec => Out.bind _ _) = _
    rw [e1, e2]
    show Out.ok _ = Out.ok _
    rw [← h.id, ← h.base, ← h.timer, ← h.members]
  · unfold Legacy.inRange
    rw [h.base, h.timer, m5, m6]; rfl
  · obtain ⟨i1, i2⟩ := checkId_facts rfl hid
    constructor
    · show (lower r.id).length = 66
      rw [(lower_facts i2).1, i1]
    · exact ⟨take_clean _ h.name.1, by show (r.name.take 100).length ≤ 100; simp⟩
    · show ((if r.encPub.length = 32 ∧ r.encSec.length = 32 then r.encPub else []) = [] ∧
        (if r.encPub.length = 32 ∧ r.encSec.length = 32 then r.encSec else []) = []) ∨
        ((if r.encPub.length = 32 ∧ r.encSec.length = 32 then r.encPub else []).length = 32 ∧
        (if r.encPub.length = 32 ∧ r.encSec.length = 32 then r.encSec else []).length = 32)
      by_cases hk : r.encPub.length = 32 ∧ r.encSec.length = 32
      · simp only [if_pos hk]; exact .inr hk
      · simp only [if_neg hk]; exact .inl ⟨trivial, trivial⟩
    · exact base_norm_inRange (by rw [h.base]; exact m5)
    · exact int64Ok_max (by rw [h.timer]; exact m6)
    · exact tidy_ok hm
    · show ({ r.norm.norm with id := lower r.id, members := Members.tidy r.members } : Legacy) = _
      rw [legacy_norm_norm]; rfl
    · exact tidy_tidy hm

theorem legacy_laws (pub : Bytes → Bytes) (only free : Bool) :
    CLaws legacySpec legacyView legacyApi (legacyCApi pub only free) Legacy.CClean (fun _ _ => True)
      Legacy.into CLegacy.read where
  into r s hr hs := legacy_into hr hs
  read s r hs h := by
    obtain ⟨h1, h2, h3⟩ := legacy_back hs h
    exact ⟨h1, h2, fun _ hid _ => h3 hid⟩
  spelled id r hid hr _ := { hr with
    id := (checkId_facts rfl hid).1
    stored := by show ({ r.norm with id := id } : Legacy) = { r with id := id }; rw [hr.stored] }
  again s id r hid hr he _ hs := by
    have hl : id.length = 66 := (checkId_facts rfl hid).1
    have hs : LegacyShown s { r with id := id } := hs
    refine ⟨⟨?_, hs.name, ?_, hs.timer.symm, hs.base.symm, by rw [hs.members]; rfl⟩, rfl, ?_⟩
    · rw [hs.id]
      show id = (id ++ [0]).take 66
      rw [List.take_append_of_le_length (by rw [hl]), List.take_of_length_le (by rw [hl])]
    · rcases hs.keys with ⟨a, b, c⟩ | ⟨a, b, c⟩
      · rw [a]; exact ⟨b.symm, c.symm⟩
      · rw [a]; exact ⟨b, c⟩
    · show ({ r.norm with id := lower id, members := Members.tidy r.members } : Legacy) = r
      rw [hr.stored, hr.tidy, ← he]; rfl
  blank id hid :=
    ⟨(checkId_facts rfl hid).1, ⟨by show (0 : UInt8) ∉ []; simp, by show ([] : Bytes).length ≤ 100; simp⟩,
      .inl ⟨rfl, rfl⟩, by show ({} : GroupBase).inRange = true; decide, by show int64Ok 0 = true; decide,
      (⟨KSorted.nil, by intro x hx; cases hx⟩ : MembersOk []), rfl, rfl⟩
  getBad c s id hi h := by
    have h : c.getLegacy id = .err .foreign := h
    show c.sLegacyGet id = _
    unfold Client.sLegacyGet
    rw [h]; exact cGet_err rfl hi
  getOk c s id o hs h := by
    have h : c.getLegacy id = .ok o := h
    refine ⟨CLegacy.fresh, ?_, ?_⟩
    · exact ⟨rfl, rfl, rfl, rfl, by decide, by decide, by rintro m ⟨⟩⟩
    · show c.sLegacyGet id = _
      unfold Client.sLegacyGet
      rw [h]; cases o <;> rfl
  orBad c s id hi h := by
    have h : c.getLegacy id = .err .foreign := h
    show c.sLegacyOr id = _
    unfold Client.sLegacyOr Client.legacyOr
    rw [h]; exact cGet_err rfl hi
  orOk c s id o hs hid h := by
    have h : c.getLegacy id = .ok o := h
    refine ⟨CLegacy.fresh, ?_, ?_⟩
    · exact ⟨rfl, rfl, rfl, rfl, by decide, by decide, by rintro m ⟨⟩⟩
    · show c.sLegacyOr id = _
      unfold Client.sLegacyOr Client.legacyOr
      rw [h]; rfl
  set S c s := by
    show (if free then _ else _) = _
    cases free <;> rfl
  erase S c id := rfl
  size c := rfl
  loop c s fuel l hs hf hl hc := by
    have hl : Out.ok c.legacies = .ok l := hl
    cases hl
    have hf : (c.allGroups pub).length < fuel := hf
    have hfill : ∀ (it : UGroupIter) a s, derefVal it.val = .ok a →
        (∀ r, kindLegacy a = some r → fillLegacy it s = (Legacy.into r s).bind fun s => .ok (some s)) ∧
        (kindLegacy a = none → fillLegacy it s = .ok none) := by
      intro it a s ha
      unfold fillLegacy
      rw [ha]
      cases a <;> exact ⟨fun r hr => (by cases hr <;> rfl), fun hn => (by cases hn <;> rfl)⟩
    show ∃ ss, c.sLegacyLoop pub only s fuel = .ok ss ∧ _
    unfold Client.sLegacyLoop
    cases only with
    | false =>
      have e := (allGroups_kinds pub c).2
      have := ugroup_struct_loop (kind := kindLegacy) hfill hs (ugroup_loop pub c hf _ (.inl rfl)).1 (by rw [e]; exact hc)
      rw [e] at this; exact this
    | true =>
      have e : (c.legacies.map AnyGroup.legacy).filterMap kindLegacy = c.legacies :=
        filter_all (f := kindLegacy) (g := AnyGroup.legacy) (fun _ => rfl) _
      have := ugroup_struct_loop (kind := kindLegacy) hfill hs (ugroup_loop pub c hf _ (.inl rfl)).2.2.2 (by rw [e]; exact hc)
      rw [e] at this; exact this

/-! ### C137 -/

/-- C137.  A C program's view of contacts, group members, legacy groups and groups: for every history of `get`,
`get_or_construct`, `set`, `erase`, `size` and loops over the iterator, with structs in any state that the functions do not have to
reject and anything C136 allows in between, nothing is read or written outside the arrays of a struct (the calls return), and
every call returns, and leaves in the struct, what a map with the same history of `set` and `erase` would. -/
theorem c_collections_are_maps {S : Sys} (hS : S.Good) (hro : S.env.readonly = false) {pub : Bytes → Bytes}
    (hpub : ∀ s, (pub s).length = 32) (only free : Bool) {c : Client} :
    (∀ t, CRun S contactCApi contactView [[99]] (Client.new S) t c →
      ∃ M, CExplained contactSpec contactView RecMap.empty t M) ∧
    (∀ t, CRun S memberCApi memberView [[109]] (Client.new S) t c →
      ∃ M, CExplained memberSpec memberView RecMap.empty t M) ∧
    (∀ t, CRun S (legacyCApi pub only free) legacyView [[67]] (Client.new S) t c →
      ∃ M, CExplained legacySpec legacyView RecMap.empty t M) ∧
    (∀ t, CRun S (groupCApi pub only) groupView [[103]] (Client.new S) t c →
      ∃ M, CExplained (groupSpec pub) groupView RecMap.empty t M) := by
  refine ⟨fun t h => ?_, fun t h => ?_, fun t h => ?_, fun t h => ?_⟩
  · obtain ⟨M, hM, _⟩ := c_map_behaves hS hro contactShelf_lawful contact_laws rfl h; exact ⟨M, hM⟩
  · obtain ⟨M, hM, _⟩ := c_map_behaves hS hro memberShelf_lawful member_laws rfl h; exact ⟨M, hM⟩
  · obtain ⟨M, hM, _⟩ := c_map_behaves hS hro legacyShelf_lawful (legacy_laws pub only free) rfl h; exact ⟨M, hM⟩
  · obtain ⟨M, hM, _⟩ := c_map_behaves hS hro (groupShelf_lawful hpub) (group_laws hpub only) rfl h; exact ⟨M, hM⟩

theorem holds_find {R : Type} {S : Sys} (hS : S.Good) (hro : S.env.readonly = false) {Q : Shelf R} {A : MapApi R}
    {sp : MapSpec R} (hQ : Q.Lawful A sp) {c : Client} {M : RecMap R} (h : Holds S Q sp c M)
    (hov : int64Ok (c.seqno + 1) = true) (id : Bytes) :
    A.find c id = if checkId id sp.pre = true then .ok ((M (lower id)).map (sp.spelled id)) else .err .foreign := by
  obtain ⟨M', hs, _⟩ := call_says hS hro hQ h (.get id) (by rintro _ ⟨⟩) hov
  have hs : Says sp M (.get id) (.got (A.find c id)) M' := hs
  generalize A.find c id = o at hs
  cases hs with
  | get _ hh => rw [if_pos hh]
  | getBad _ hh => rw [if_neg (by rw [hh]; simp)]

/-- What a C program got, it can put back: nothing a reader sees changes. -/
theorem c_put_back {R T : Type} {S : Sys} (hS : S.Good) (hro : S.env.readonly = false) {Q : Shelf R} {A : MapApi R}
    {sp : MapSpec R} (hQ : Q.Lawful A sp) {V : CView R T} {C : CMapApi T} {clean : R → Prop} {plain : Bytes → R → Prop}
    {into : R → T → Out T} {read : T → Out R} (L : CLaws sp V A C clean plain into read) {P : List Bytes} (hP : Q.path = P)
    {c : Client} {t : List (SCall T × SRes T)} (h : CRun S C V P (Client.new S) t c) {s s' : T} {id : Bytes} (hm : V.mem s)
    (hi : V.ids id) (hov : int64Ok (c.seqno + 1) = true) (hg : C.get c s id = .ok ⟨some s', none⟩)
    (hp : ∀ r, A.find c id = .ok (some (sp.spelled id r)) → sp.rid r = lower id → plain id r) :
    (C.set S c s').2 = .ok () ∧ ∃ M, CExplained sp V RecMap.empty t M ∧
      CExplained sp V RecMap.empty (t ++ [(.get s id, .reply (.ok ⟨some s', none⟩))] ++ [(.set s', .done (.ok ()))]) M ∧
      Holds S Q sp c M ∧ Holds S Q sp (C.set S c s').1 M := by
  obtain ⟨M, e1, e2, e3⟩ := c_map_behaves hS hro hQ L hP h
  have hfind := holds_find hS hro hQ e2 hov id
  obtain ⟨M1, f1, _, _⟩ := c_call_says hS hro hQ L e2 e3 (.get s id) ⟨hm, hi⟩ hov
  have f1 : CSays sp V M (.get s id) (.reply (C.get c s id)) M1 := f1
  rw [hg] at f1
  cases f1 with
  | get _ _ _ r hid hr hsh =>
    rw [if_pos hid, hr] at hfind
    have hrid := holds_rid hQ e2 hr
    obtain ⟨a1, a2, a3⟩ := L.again s' id r hid (e3 _ r hr) hrid (hp r hfind hrid) hsh
    have hm' : V.mem s' := by
      obtain ⟨s0, hs0, e⟩ := L.getOk c s id _ hm hfind
      obtain ⟨s1, b1, b2, b3⟩ := L.into _ s0 (L.spelled id r hid (e3 _ r hr) hrid) hs0
      rw [hg] at e
      have e : (.ok ⟨some s', none⟩ : Out (CReply T)) = (into (sp.spelled id r) s0).bind fun t => .ok ⟨some t, none⟩ := e
      rw [b1] at e
      have e : (.ok ⟨some s', none⟩ : Out (CReply T)) = .ok ⟨some s1, none⟩ := e
      cases e
      exact b2
    obtain ⟨M2, g1, g2, _⟩ := c_call_says hS hro hQ L e2 e3 (.set s') ⟨hm', _, a1⟩ hov
    have g2 : Holds S Q sp (C.set S c s').1 M2 := g2
    obtain ⟨r1, r2, _⟩ := L.read s' _ hm' a1
    obtain ⟨M3, k1, k2⟩ := call_says hS hro hQ e2 (.set (sp.spelled id r)) (by rintro _ ⟨⟩; exact r2) hov
    have e : C.set S c s' = A.put S c (sp.spelled id r) := by rw [L.set, r1]; rfl
    have k1 : Says sp M (.set (sp.spelled id r)) (.done (A.put S c (sp.spelled id r)).2) M3 := k1
    have k2 : Holds S Q sp (A.put S c (sp.spelled id r)).1 M3 := k2
    rw [← e] at k1 k2
    generalize hw : (C.set S c s').2 = w at k1
    cases k1 with
    | set _ g =>
      have hM : M.upd (lower (sp.rid (sp.spelled id r))) (some (sp.kept (M (lower (sp.rid (sp.spelled id r)))) (sp.spelled id r))) = M := by
        rw [a2, hr, a3]
        funext k
        unfold RecMap.upd
        by_cases hk : k = lower id
        · rw [if_pos hk, hk, hr]
        · rw [if_neg hk]
      have hs := CSays.set (M := M) s' _ a1 g
      rw [hM] at hs k2
      exact ⟨rfl, M, e1, .snoc (.snoc e1 (.get s s' id r hid hr hsh)) hs, e2, k2⟩
    | setBad _ g => rw [a2] at g; rw [g] at hid; cases hid

/-- Two objects holding the same map read the same. -/
theorem holds_reads {R : Type} {S : Sys} (hS : S.Good) (hro : S.env.readonly = false) {Q : Shelf R} {A : MapApi R}
    {sp : MapSpec R} (hQ : Q.Lawful A sp) {c c' : Client} {M : RecMap R} (h : Holds S Q sp c M) (h' : Holds S Q sp c' M)
    (hov : int64Ok (c.seqno + 1) = true) (hov' : int64Ok (c'.seqno + 1) = true) :
    (∀ id, A.find c' id = A.find c id) ∧ A.list c' = A.list c ∧ A.count c' = A.count c := by
  have two : ∀ {k : MapCall R}, (∀ r, k ≠ .set r) → (A.run S c' k).2 = (A.run S c k).2 := by
    intro k hk
    obtain ⟨M1, a1, _⟩ := call_says hS hro hQ h k (fun r hh => absurd hh (hk r)) hov
    obtain ⟨M2, a2, _⟩ := call_says hS hro hQ h' k (fun r hh => absurd hh (hk r)) hov'
    exact (says_unique a2 a1).1
  refine ⟨fun id => ?_, ?_, ?_⟩
  · exact MapRes.got.inj (two (k := .get id) (by rintro _ ⟨⟩))
  · exact MapRes.listed.inj (two (k := .list) (by rintro _ ⟨⟩))
  · exact MapRes.counted.inj (two (k := .size) (by rintro _ ⟨⟩))

/-- C137.  What a C program read into a struct it can `set` again, and nothing changes for any reader: no field is lost on
the way.  (A group has to be asked for in lower case: under another spelling its admin key is not returned, and setting the
struct would drop the key.) -/
theorem c_get_set_keeps {S : Sys} (hS : S.Good) (hro : S.env.readonly = false) {pub : Bytes → Bytes}
    (hpub : ∀ s, (pub s).length = 32) (only free : Bool) {c : Client} (hov : int64Ok (c.seqno + 1) = true) :
    (∀ t s s' id d, CRun S contactCApi contactView [[99]] (Client.new S) t c → contactView.mem s → id.length < 191 →
      c.sContactsGet s id = .ok ⟨some s', none⟩ → d = (c.sContactsSet S s').1 → int64Ok (d.seqno + 1) = true →
      (c.sContactsSet S s').2 = .ok () ∧ (∀ x, d.getContact x = c.getContact x) ∧ d.contacts = c.contacts ∧
        d.contactsSize = c.contactsSize) ∧
    (∀ t s s' id d, CRun S memberCApi memberView [[109]] (Client.new S) t c → memberView.mem s → id.length < 191 →
      c.sMemberGet s id = .ok ⟨some s', none⟩ → d = (c.sMemberSet S s').1 → int64Ok (d.seqno + 1) = true →
      (c.sMemberSet S s').2 = .ok () ∧ (∀ x, d.getMember x = c.getMember x) ∧ d.members = c.members ∧
        d.membersSize = c.membersSize) ∧
    (∀ t s' id d, CRun S (legacyCApi pub only free) legacyView [[67]] (Client.new S) t c → id.length < 191 →
      c.sLegacyGet id = .ok ⟨some s', none⟩ → d = (c.sLegacySet S s').1 → int64Ok (d.seqno + 1) = true →
      (c.sLegacySet S s').2 = .ok () ∧ (∀ x, d.getLegacy x = c.getLegacy x) ∧ d.legacies = c.legacies ∧
        d.legacySize = c.legacySize) ∧
    (∀ t s s' id d, CRun S (groupCApi pub only) groupView [[103]] (Client.new S) t c → groupView.mem s → lower id = id →
      c.sGroupGet pub s id = .ok ⟨some s', none⟩ → d = (c.sGroupSet S s').1 → int64Ok (d.seqno + 1) = true →
      (c.sGroupSet S s').2 = .ok () ∧ (∀ x, d.getGroup pub x = c.getGroup pub x) ∧ d.groups pub = c.groups pub ∧
        d.groupsSize = c.groupsSize) := by
  refine ⟨fun t s s' id d h hm hi hg hd ho => ?_, fun t s s' id d h hm hi hg hd ho => ?_, fun t s' id d h hi hg hd ho => ?_,
    fun t s s' id d h hm hi hg hd ho => ?_⟩
  · obtain ⟨a, M, _, _, b1, b2⟩ := c_put_back hS hro contactShelf_lawful contact_laws rfl h hm hi hov hg (fun _ _ _ => trivial)
    rw [hd] at ho ⊢
    exact ⟨a, holds_reads hS hro contactShelf_lawful b1 b2 hov ho⟩
  · obtain ⟨a, M, _, _, b1, b2⟩ := c_put_back hS hro memberShelf_lawful member_laws rfl h hm hi hov hg (fun _ _ _ => trivial)
    rw [hd] at ho ⊢
    exact ⟨a, holds_reads hS hro memberShelf_lawful b1 b2 hov ho⟩
  · have e : ∀ s, (legacyCApi pub only free).set S c s = c.sLegacySet S s := fun s => by cases free <;> rfl
    have hm : legacyView.mem CLegacy.fresh := by
      refine ⟨by decide, by decide, by decide, by decide, by decide, by decide, ?_⟩
      rintro _ ⟨⟩
    obtain ⟨a, M, _, _, b1, b2⟩ := c_put_back hS hro legacyShelf_lawful (legacy_laws pub only free) rfl h (s := CLegacy.fresh) hm
      hi hov hg (fun _ _ _ => trivial)
    rw [e] at a b2
    rw [hd] at ho ⊢
    obtain ⟨x1, x2, x3⟩ := holds_reads hS hro legacyShelf_lawful b1 b2 hov ho
    exact ⟨a, x1, Out.ok.inj x2, x3⟩
  · obtain ⟨a, M, _, _, b1, b2⟩ := c_put_back hS hro (groupShelf_lawful hpub) (group_laws hpub only) rfl h hm trivial hov hg
      (fun _ _ _ => .inl hi)
    rw [hd] at ho ⊢
    obtain ⟨x1, x2, x3⟩ := holds_reads hS hro (groupShelf_lawful hpub) b1 b2 hov ho
    exact ⟨a, x1, Out.ok.inj x2, x3⟩

/-! ### The conversions of C49, C89 and C95 are these -/

theorem cStr_put (s r : Bytes) : cStr (s ++ 0 :: r) = cStr s := by
  unfold cStr
  induction s with
  | nil => rfl
  | cons x t ih =>
    show List.takeWhile _ (x :: (t ++ 0 :: r)) = _
    by_cases hx : x = 0
    · rw [List.takeWhile_cons_of_neg (by simp [hx]), List.takeWhile_cons_of_neg (by simp [hx])]
    · rw [List.takeWhile_cons_of_pos (by simp [hx]), List.takeWhile_cons_of_pos (by simp [hx]), ih]

theorem putStr_getStr {n : Nat} {a s : Bytes} (ha : a.length = n) :
    (putStr a s = .ub ∧ copyCStr n s = .ub) ∨
    ∃ a', putStr a s = .ok a' ∧ copyCStr n s = .ok s ∧ getStr a' = .ok (cStr s) := by
  unfold putStr copyCStr
  rw [ha]
  by_cases h : s.length < n
  · right
    rw [if_pos h, if_pos h]
    refine ⟨_, rfl, rfl, ?_⟩
    unfold getStr
    rw [if_pos (by simp), cStr_put]
  · left; rw [if_neg h, if_neg h]; exact ⟨rfl, rfl⟩

theorem putPic_getPic {ua ka u k : Bytes} (hu : ua.length = 224) (hk : ka.length = 32) :
    (putPic ua ka u k = .ub ∧ copyPic u k = .ub) ∨
    ∃ p v, putPic ua ka u k = .ok p ∧ copyPic u k = .ok v ∧
      getPicOf p.1 p.2 = .ok (cStr v, if cStr v = [] then [] else k) := by
  unfold putPic copyPic
  by_cases hp : picOk u k = true
  · rw [if_pos hp, if_pos hp]
    rcases putStr_getStr (s := u) hu with ⟨h1, h2⟩ | ⟨a', h1, h2, h3⟩
    · left; rw [h1, h2]; exact ⟨rfl, rfl⟩
    · right
      have hl : k.length = 32 := by
        unfold picOk at hp
        rw [Bool.and_eq_true] at hp
        exact eq_of_beq hp.2
      rw [h1, h2]
      refine ⟨(a', k), u, ?_, rfl, ?_⟩
      · show Out.bind (putBytes 32 ka k) _ = _
        rw [putBytes_exact hk hl]; rfl
      · unfold getPicOf
        rw [h3]
        show (if cStr u = [] then _ else _) = _
        by_cases hn : cStr u = []
        · rw [if_pos hn, if_pos hn, hn]
        · show (if cStr u = [] then _ else Out.bind (getBytes 32 k) _) = _
          rw [if_neg hn, if_neg hn, getBytes_take (by omega), List.take_of_length_le (by omega)]; rfl
  · rw [if_neg hp, if_neg hp]
    right
    rcases putStr_getStr (s := []) hu with ⟨h1, h2⟩ | ⟨a', h1, h2, h3⟩
    · exfalso
      unfold copyCStr at h2
      rw [if_pos (by simp)] at h2; cases h2
    · rw [h1]
      refine ⟨(a', ka), [], rfl, rfl, ?_⟩
      unfold getPicOf
      rw [h3]; rfl

theorem opt_get {n : Nat} {a s : Bytes} (ha : a.length = n) :
    ∃ a', (if s.length = n then putBytes n a s else .ok a) = .ok a' ∧
      (if decide (s.length = n) = true then getBytes n a' else .ok []) = .ok (if s.length = n then s else []) := by
  by_cases h : s.length = n
  · refine ⟨s, by rw [if_pos h, putBytes_exact ha h], ?_⟩
    rw [if_pos (by simpa using h), if_pos h, getBytes_take (by omega), List.take_of_length_le (by omega)]
  · exact ⟨a, by rw [if_neg h], by rw [if_neg (by simpa using h), if_neg h]⟩

/-- C137.  Written into a struct and read from it, a record becomes what C49, C89 and C95 say, whatever was in the struct. -/
theorem c_struct_roundtrip :
    (∀ (r : Contact) s, r.id.length = 66 → contactView.mem s → (r.into s).bind CContact.read = r.viaC) ∧
    (∀ (r : GMember) s, r.id.length = 66 → memberView.mem s → (r.into s).bind CMember.read = r.viaC) ∧
    (∀ (r : Group) s, r.id.length = 66 → groupView.mem s → (r.into s).bind CGroup.read = r.viaC) ∧
    (∀ (r : Legacy) s, r.id.length = 66 → legacyView.mem s → (r.into s).bind CLegacy.read = r.viaC) := by
  have hob : ∀ {α β : Type} (a : α) (f : α → Out β), Out.bind (.ok a) f = f a := fun _ _ => rfl
  have hid : ∀ {id : Bytes}, id.length = 66 → getBytes 66 (id ++ [0]) = .ok id := fun {id} h => by
    rw [getBytes_take (by simp [h]), List.take_append_of_le_length (by rw [h]), List.take_of_length_le (by rw [h])]
  refine ⟨fun r s hr hs => ?_, fun r s hr hs => ?_, fun r s hr hs => ?_, fun r s hr hs => ?_⟩
  · obtain ⟨m1, m2, m3, m4, m5, _⟩ := hs
    have h0 := putBytes_exact (a := s.sid) (s := r.id ++ [0]) m1 (by simp [hr])
    unfold Contact.into Contact.viaC
    rw [h0, hob]
    show _ = Out.bind (copyCStr 101 r.name) _
    rcases putStr_getStr (s := r.name) m2 with ⟨a1, a2⟩ | ⟨a', a1, a2, a3⟩
    · rw [a1, a2]; rfl
    · rw [a1, a2, hob, hob]
      show _ = Out.bind (copyCStr 101 r.nick) _
      rcases putStr_getStr (s := r.nick) m3 with ⟨b1, b2⟩ | ⟨b', b1, b2, b3⟩
      · rw [b1, b2]; rfl
      · rw [b1, b2, hob, hob]
        show _ = Out.bind (copyPic r.url r.key) _
        rcases putPic_getPic (u := r.url) (k := r.key) m4 m5 with ⟨c1, c2⟩ | ⟨p, v, c1, c2, c3⟩
        · rw [c1, c2]; rfl
        · rw [c1, c2, hob, hob, hob]
          unfold CContact.read
          dsimp only
          rw [hid hr, hob, a3, hob, b3, hob, c3, hob]
  · obtain ⟨m1, m2, m4, m5⟩ := hs
    have h0 := putBytes_exact (a := s.sid) (s := r.id ++ [0]) m1 (by simp [hr])
    unfold GMember.into GMember.viaC
    rw [h0, hob]
    show _ = Out.bind (copyCStr 101 r.name) _
    rcases putStr_getStr (s := r.name) m2 with ⟨a1, a2⟩ | ⟨a', a1, a2, a3⟩
    · rw [a1, a2]; rfl
    · rw [a1, a2, hob, hob]
      show _ = Out.bind (copyPic r.url r.key) _
      rcases putPic_getPic (u := r.url) (k := r.key) m4 m5 with ⟨c1, c2⟩ | ⟨p, v, c1, c2, c3⟩
      · rw [c1, c2]; rfl
      · rw [c1, c2, hob, hob, hob]
        unfold CMember.read
        dsimp only
        rw [hid hr, hob, a3, hob, c3, hob]
  · obtain ⟨m1, m2, m3, m4, _⟩ := hs
    have h0 := putStr_exact (a := s.id) (s := r.id) (by rw [m1, hr])
    unfold Group.into Group.viaC
    rw [h0, hob]
    show _ = Out.bind (copyCStr 101 r.name) _
    rcases putStr_getStr (s := r.name) m2 with ⟨a1, a2⟩ | ⟨a', a1, a2, a3⟩
    · rw [a1, a2]; rfl
    · obtain ⟨x, x1, x2⟩ := opt_get (s := r.secret) m3
      obtain ⟨y, y1, y2⟩ := opt_get (s := r.auth) m4
      rw [a1, a2, hob, hob, x1, hob, y1, hob, hob]
      unfold CGroup.read
      dsimp only
      rw [hid hr, hob, a3, hob, x2, hob, y2, hob]
  · obtain ⟨m1, m2, m3, m4, _⟩ := hs
    have h0 := putStr_exact (a := s.id) (s := r.id) (by rw [m1, hr])
    unfold Legacy.into Legacy.viaC
    rw [h0, hob]
    show _ = Out.bind (copyCStr 101 r.name) _
    rcases putStr_getStr (s := r.name) m2 with ⟨a1, a2⟩ | ⟨a', a1, a2, a3⟩
    · rw [a1, a2]; rfl
    · rw [a1, a2, hob, hob]
      have hd : (r.encPub.length == 32 && r.encSec.length == 32) = decide (r.encPub.length = 32 ∧ r.encSec.length = 32) := by
        rw [Bool.decide_and]; rfl
      dsimp only
      rw [hd]
      by_cases hk : r.encPub.length = 32 ∧ r.encSec.length = 32
      · simp only [hk, and_self, decide_true, if_true]
        rw [putBytes_exact m3 hk.1, putBytes_exact m4 hk.2, hob, hob, hob]
        unfold CLegacy.read
        dsimp only
        rw [hid hr, hob, a3, hob, if_pos rfl, if_pos rfl, getBytes_take (by omega), getBytes_take (by omega), hob, hob,
          List.take_of_length_le (by omega), List.take_of_length_le (by omega)]
        rfl
      · simp only [hk, decide_false, Bool.false_eq_true, if_false]
        rw [hob, hob, hob]
        unfold CLegacy.read
        dsimp only
        rw [hid hr, hob, a3, hob]
        rfl

/-- C137.  `ugroups_group_is_kicked` says of a struct whether the group it holds has neither key; after
`ugroups_group_set_kicked` it holds the same group without them. -/
theorem c_struct_kicked {s : CGroup} {r : Group} (hs : groupView.mem s) (h : GroupMeant s r) :
    (s.isKicked = true ↔ r.secret = [] ∧ r.auth = []) ∧ s.setKicked.isKicked = true ∧ groupView.mem s.setKicked ∧
    GroupMeant s.setKicked { r with secret := [], auth := [] } := by
  obtain ⟨_, _, m3, m4, _⟩ := id hs
  refine ⟨?_, rfl, hs, ⟨h.id, h.name, rfl, rfl, h.base⟩⟩
  rw [h.secret, h.auth]
  unfold CGroup.isKicked
  have n1 : s.secret ≠ [] := fun hh => by rw [hh] at m3; cases m3
  have n2 : s.auth ≠ [] := fun hh => by rw [hh] at m4; cases m4
  cases s.haveSecret <;> cases s.haveAuth <;> simp [n1, n2]

/-- C137.  `user_groups_set_free_legacy_group` does to the config what `user_groups_set_legacy_group` does; afterwards the struct
holds the same legacy group without members, whether it was stored or not, and freeing it once more does nothing. -/
theorem c_set_free {S : Sys} {c : Client} {s : CLegacy} {r : Legacy} (hs : legacyView.mem s) (h : LegacyMeant s r) :
    (c.sLegacySetFree S s).1 = c.sLegacySet S s ∧ legacyView.mem (c.sLegacySetFree S s).2 ∧
    LegacyMeant (c.sLegacySetFree S s).2 { r with members := [] } ∧ (c.sLegacySetFree S s).2.free = (c.sLegacySetFree S s).2 := by
  obtain ⟨m1, m2, m3, m4, m5, m6, _⟩ := id hs
  exact ⟨rfl, ⟨m1, m2, m3, m4, m5, m6, fun m hm => by cases hm⟩, ⟨h.id, h.name, h.keys, h.timer, h.base, rfl⟩, rfl⟩

/-- A struct with one member -/
def exLegacyBox : CLegacy :=
  { CLegacy.fresh with id := exId ++ [0], name := [65] ++ List.replicate 100 0, internal := some [(exId, true)] }

example : legacyView.mem exLegacyBox ∧ LegacyMeant exLegacyBox { id := exId, name := [65], members := [(exId, true)] } ∧
    ((Client.new exSys).sLegacySetFree exSys exLegacyBox).1.2 = .ok () ∧
    ((Client.new exSys).sLegacySetFree exSys exLegacyBox).2 ≠ exLegacyBox := by
  refine ⟨⟨by decide +kernel, by decide +kernel, by decide +kernel, by decide +kernel, by decide +kernel, by decide +kernel,
    fun m hm => ?_⟩, ⟨by decide +kernel, ⟨by decide, List.replicate 99 0, by decide +kernel⟩, ⟨rfl, rfl⟩, rfl, rfl, rfl⟩,
    by decide +kernel, by decide +kernel⟩
  rw [← Option.some.inj hm]
  refine ⟨?_, fun x hx => ?_⟩
  · simp [KSorted]
  · rw [List.mem_singleton.1 hx]; decide +kernel

/-! ### A concrete case -/

/-- A struct with anything in it. -/
def exBox : CContact where
  sid := List.replicate 67 7
  name := List.replicate 101 7
  nick := List.replicate 101 7
  url := List.replicate 224 7
  key := List.replicate 32 7
  approved := false
  approvedMe := true
  blocked := false
  priority := 7
  notify := .all
  mute := 7
  exp := .none
  secs := 7
  created := 7

def exPlain : Contact := { exContact with mute := 0, exp := .afterRead, timer := 3600 }

/-- What the C program passes to `contacts_set`. -/
def exArg : CContact := match exPlain.into exBox with
  | .ok s => s
  | _ => exBox
def exStr1 : Client := (exC0.sContactsSet exSys exArg).1
/-- The struct after `contacts_get` with the lower-case spelling. -/
def exGot : CContact := match exStr1.sContactsGet exBox (lower exId) with
  | .ok ⟨some s, _⟩ => s
  | _ => exBox
def exStr2 : Client := (exStr1.sContactsSet exSys exGot).1
def exStr3 : Client := (exStr2.sContactsErase exSys exId).1

private theorem exBox_mem : contactView.mem exBox := by
  refine ⟨?_, ?_, ?_, ?_, ?_, ?_, ?_, ?_⟩ <;> decide +kernel

private theorem exPlain_clean : exPlain.CClean := by
  refine ⟨?_, ?_, ?_, ⟨?_, ?_⟩, ⟨?_, ?_⟩, ⟨?_, ?_, ?_, ?_⟩, .inr ?_, ?_, ?_, ?_⟩ <;> decide +kernel

private theorem exArg_meant : contactView.mem exArg ∧ ∃ r, contactView.means exArg r := by
  obtain ⟨s', h1, h2, h3⟩ := contact_into exPlain_clean exBox_mem
  have e : exArg = s' := by unfold exArg; rw [h1]
  rw [e]
  refine ⟨h2, exPlain, ?_⟩
  have hl : lower exPlain.id ++ [] = lower exPlain.id := by simp
  obtain ⟨a, _, _⟩ := contact_laws.again s' exPlain.id ({ exPlain with id := lower exPlain.id }) (by decide +kernel)
    (by
      refine { exPlain_clean with id := ?_, stored := ?_ }
      · decide +kernel
      · decide +kernel) rfl trivial h3
  exact a

/-- A history of the kind C137 is about: a contact is set from a struct, read into another one, that one is set, then the
contact is erased and a loop finds none. -/
theorem exCRun_runs {c0 c1 c2 c3 : Client} {s b g : CContact} {id low : Bytes} {x1 x3 : Out Unit} {x2 : Out (CReply CContact)}
    {x4 : Out Bool} {x5 : Out (List CContact)}
    (h0 : CRun exSys contactCApi contactView [[99]] (Client.new exSys) [] c0)
    (hs : contactView.mem s ∧ ∃ r, contactView.means s r) (hb : contactView.mem b) (hl : low.length < 191)
    (hg : contactView.mem g ∧ ∃ r, contactView.means g r)
    (o0 : int64Ok (c0.seqno + 1) = true) (o1 : int64Ok (c1.seqno + 1) = true) (o2 : int64Ok (c2.seqno + 1) = true)
    (o3 : int64Ok (c3.seqno + 1) = true)
    (h1 : c0.sContactsSet exSys s = (c1, x1)) (h2 : c1.sContactsGet b low = x2) (h3 : c1.sContactsSet exSys g = (c2, x3))
    (h4 : c2.sContactsErase exSys id = (c3, x4)) (h5 : c3.sContactsLoop b 1 = x5) (h6 : c3.contactsSize = 0) :
    CRun exSys contactCApi contactView [[99]] (Client.new exSys)
      [(.set s, .done x1), (.get b low, .reply x2), (.set g, .done x3), (.erase id, .erased x4), (.loop b 1, .looped x5)] c3 := by
  have a1 := CRun.call (.set s) h0 hs o0
  have e1 : contactCApi.run exSys c0 (.set s) = (c1, .done x1) := by
    show ((c0.sContactsSet exSys s).1, SRes.done (c0.sContactsSet exSys s).2) = _
    rw [h1]
  rw [e1] at a1
  have a2 := CRun.call (.get b low) a1 ⟨hb, hl⟩ o1
  have e2 : contactCApi.run exSys c1 (.get b low) = (c1, .reply x2) := by
    show (c1, SRes.reply (c1.sContactsGet b low)) = _
    rw [h2]
  rw [e2] at a2
  have a3 := CRun.call (.set g) a2 hg o1
  have e3 : contactCApi.run exSys c1 (.set g) = (c2, .done x3) := by
    show ((c1.sContactsSet exSys g).1, SRes.done (c1.sContactsSet exSys g).2) = _
    rw [h3]
  rw [e3] at a3
  have a4 := CRun.call (.erase id) a3 trivial o2
  have e4 : contactCApi.run exSys c2 (.erase id) = (c3, .erased x4) := by
    show ((c2.sContactsErase exSys id).1, SRes.erased (c2.sContactsErase exSys id).2) = _
    rw [h4]
  rw [e4] at a4
  have a5 := CRun.call (.loop b 1) a4 ⟨hb, by show c3.contactsSize < 1; rw [h6]; decide⟩ o3
  have e5 : contactCApi.run exSys c3 (.loop b 1) = (c3, .looped x5) := by
    show (c3, SRes.looped (c3.sContactsLoop b 1)) = _
    rw [h5]
  rw [e5] at a5
  exact a5

private theorem exStr_o0 : int64Ok (exC0.seqno + 1) = true := by decide +kernel
private theorem exStr_o1 : int64Ok (exStr1.seqno + 1) = true := by decide +kernel
private theorem exStr_o2 : int64Ok (exStr2.seqno + 1) = true := by decide +kernel
private theorem exStr_o3 : int64Ok (exStr3.seqno + 1) = true := by decide +kernel
private theorem exStr_h1 : exC0.sContactsSet exSys exArg = (exStr1, .ok ()) := pair_is (by decide +kernel)
private theorem exStr_h2 : exStr1.sContactsGet exBox (lower exId) = .ok ⟨some exGot, none⟩ := by decide +kernel
private theorem exStr_h3 : exStr1.sContactsSet exSys exGot = (exStr2, .ok ()) := pair_is (by decide +kernel)
private theorem exStr_h4 : exStr2.sContactsErase exSys exId = (exStr3, .ok true) := pair_is (by decide +kernel)
private theorem exStr_h5 : exStr3.sContactsLoop exBox 1 = .ok [] := by decide +kernel
private theorem exStr_h6 : exStr3.contactsSize = 0 := by decide +kernel

private theorem exGot_meant : contactView.mem exGot ∧ ∃ r, contactView.means exGot r := by
  have hc : ({ exPlain with id := lower exId } : Contact).CClean := by
    refine { exPlain_clean with id := ?_, stored := ?_ } <;> decide +kernel
  obtain ⟨s', h1, h2, h3⟩ := contact_into hc exBox_mem
  have e : exGot = s' := by
    have : Out.ok exGot = .ok s' := by rw [← h1]; decide +kernel
    exact Out.ok.inj this
  rw [e]
  obtain ⟨a, _, _⟩ := contact_laws.again s' (lower exId) ({ exPlain with id := lower exId }) (by decide +kernel) hc
    (by decide +kernel) trivial h3
  exact ⟨h2, _, a⟩

example : CRun exSys contactCApi contactView [[99]] (Client.new exSys)
    [(.set exArg, .done (.ok ())), (.get exBox (lower exId), .reply (.ok ⟨some exGot, none⟩)), (.set exGot, .done (.ok ())),
      (.erase exId, .erased (.ok true)), (.loop exBox 1, .looped (.ok []))] exStr3 :=
  exCRun_runs (c0 := exC0) (.between (.nil _) (.addKey _ _ _ _ (by decide +kernel))) exArg_meant exBox_mem (by decide +kernel)
    exGot_meant exStr_o0 exStr_o1 exStr_o2 exStr_o3 exStr_h1 exStr_h2 exStr_h3 exStr_h4 exStr_h5 exStr_h6

end Verif
