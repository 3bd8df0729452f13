import Verif.Props.Maps
import Verif.Props.Convo
import Verif.Props.CComm

/-!
# Conversations behave as a map with pruning, whatever is done in between: C138

`ConvoInfoVolatile`: `get`, `get_or_construct`, `set`, `erase`, iteration, `size`, for the conversations
with an id and for communities, `prune_stale` and `push`, over whole histories.
-/

namespace Verif

/-! ### The specification -/

/-- What is known about the conversations: by kind and id (in lower case); by server and room (in canonical
form); the key last given for a server. -/
structure Book where
  ids : ConvoKind → Bytes → Option Convo
  rooms : Bytes → Bytes → Option Convo
  key : Bytes → Bytes

def Book.empty : Book := ⟨fun _ _ => none, fun _ _ => none, fun _ => []⟩

def Book.setId (B : Book) (k : ConvoKind) (id : Bytes) (o : Option Convo) : Book :=
  { B with ids := fun k' id' => if k' = k ∧ id' = id then o else B.ids k' id' }

def Book.setRoom (B : Book) (b r : Bytes) (o : Option Convo) : Book :=
  { B with rooms := fun b' r' => if b' = b ∧ r' = r then o else B.rooms b' r' }

def Book.setKey (B : Book) (b pk : Bytes) : Book :=
  { B with key := fun b' => if b' = b then pk else B.key b' }

/-- What is held after `set`: the flag as given; the time as given if it goes back, or is not more than 30
days ago, otherwise the time held before.  A conversation that is new, read more than 30 days ago and not
marked unread is not stored at all. -/
def Convo.put (now : Int) (old : Option Convo) (x : Convo) : Option Convo :=
  if old.isSome = true ∨ x.unread = true ∨ x.lastRead * 10 ^ 6 > now - 30 * 24 * 3600 * 10 ^ 9 then
    some ((old.getD {}).after now x)
  else none

/-- What `prune_stale` leaves of an entry. -/
def Convo.prune (now : Int) (o : Option Convo) : Option Convo := o.filter fun x => decide (¬ x.Old now)

/-- Pruning: everything last read more than 45 days ago and not marked unread goes, except groups. -/
def Book.prune (now : Int) (B : Book) : Book :=
  { B with
    ids := fun k id => if k = .group then B.ids k id else Convo.prune now (B.ids k id)
    rooms := fun b r => Convo.prune now (B.rooms b r) }

/-- The one thing that may happen to what is held without a call: a conversation that says nothing (never
read, not marked unread) may go. -/
structure Book.Fades (B B' : Book) : Prop where
  ids : ∀ k id, B'.ids k id = B.ids k id ∨ (B.ids k id = some {} ∧ B'.ids k id = none)
  rooms : ∀ b r, B'.rooms b r = B.rooms b r ∨ (B.rooms b r = some {} ∧ B'.rooms b r = none)
  key : B'.key = B.key

inductive BookCall where
  | get (k : ConvoKind) (id : Bytes)
  | orNew (k : ConvoKind) (id : Bytes)
  | set (now : Int) (k : ConvoKind) (id : Bytes) (x : Convo)
  | erase (k : ConvoKind) (id : Bytes)
  | list (k : ConvoKind)
  | size (k : ConvoKind)
  | getC (base room : Bytes)
  | orNewC (base room pk : Bytes)
  | setC (now : Int) (base room pk : Bytes) (x : Convo)
  | eraseC (base room : Bytes)
  | listC
  | sizeC
  | prune (now : Int)
  | push (now : Int)

inductive BookRes where
  | got (o : Out (Option Convo))
  | made (o : Out Convo)
  | done (o : Out Unit)
  | erased (o : Out Bool)
  | listed (l : List (Bytes × Convo))
  | counted (n : Nat)
  | gotC (o : Out (Option CommConvo))
  | madeC (o : Out CommConvo)
  | listedC (l : List CommConvo)
  | pushed (o : Out (Int × Bytes × List Bytes))

/-- The call on the object. -/
def BookCall.run (S : Sys) (c : Client) : BookCall → Client × BookRes
  | .get k id => (c, .got (c.getConvo k id))
  | .orNew k id => (c, .made (c.convo k id))
  | .set now k id x => ((c.setConvo S now k id x).1, .done (c.setConvo S now k id x).2)
  | .erase k id => ((c.eraseConvo S k id).1, .erased (c.eraseConvo S k id).2)
  | .list k => (c, .listed (c.convos k))
  | .size k => (c, .counted (c.convoSize k))
  | .getC b r => (c, .gotC (c.getComm b r))
  | .orNewC b r pk => (c, .madeC (c.commConvo b r pk))
  | .setC now b r pk x => ((c.setComm S now b r pk x).1, .done (c.setComm S now b r pk x).2)
  | .eraseC b r => ((c.eraseComm S b r).1, .erased (c.eraseComm S b r).2)
  | .listC => (c, .listedC c.comms)
  | .sizeC => (c, .counted c.commSize)
  | .prune now => ((c.pruneStale S now).1, .done (c.pruneStale S now).2)
  | .push now => ((c.pushConvos S now).1, .pushed (c.pushConvos S now).2)

/-- Times a caller can hand over: from 1970 to 2262. -/
def Convo.fits (x : Convo) : Prop := 0 ≤ x.lastRead ∧ x.lastRead ≤ 9223372036854

def BookCall.proper : BookCall → Prop
  | .set _ _ _ x => x.fits
  | .setC _ _ _ _ x => x.fits
  | _ => True

/-- The conversations of one kind, in the order of their ids. -/
structure Book.Lists (B : Book) (k : ConvoKind) (l : List (Bytes × Convo)) : Prop where
  sorted : l.Pairwise fun a b => fromHex a.1 < fromHex b.1
  all : ∀ id x, (id, x) ∈ l ↔ checkId id k.pre = true ∧ lower id = id ∧ B.ids k id = some x

/-- The communities, in the order of their servers and rooms, each with the key of its server. -/
structure Book.ListsC (B : Book) (l : List CommConvo) : Prop where
  sorted : l.Pairwise fun x y => x.base < y.base ∨ (x.base = y.base ∧ x.room < y.room)
  all : ∀ x, x ∈ l ↔ B.rooms x.base x.room = some x.convo ∧ x.pubkey = B.key x.base

/-- The server and room given by the caller are acceptable, and in canonical form they are `b` and `r` (see
C51). -/
def CommNames (base room b r : Bytes) : Prop :=
  Spells base b ∧ r = lower room ∧ room ≠ [] ∧ room.length ≤ 64 ∧ ∀ c ∈ lower room, isRoomC c = true

def BadName (base room : Bytes) : Prop := ∀ b r, ¬ CommNames base room b r

/-- What a book answers to a call, and the book afterwards. -/
inductive BookSays (B : Book) : BookCall → BookRes → Book → Prop
  | get (k id) : checkId id k.pre = true → BookSays B (.get k id) (.got (.ok (B.ids k (lower id)))) B
  | getBad (k id) : checkId id k.pre = false → BookSays B (.get k id) (.got (.err .foreign)) B
  | orNew (k id) : checkId id k.pre = true →
      BookSays B (.orNew k id) (.made (.ok ((B.ids k (lower id)).getD {}))) B
  | orNewBad (k id) : checkId id k.pre = false → BookSays B (.orNew k id) (.made (.err .foreign)) B
  | set (now k id x) : checkId id k.pre = true → BookSays B (.set now k id x) (.done (.ok ()))
      (B.setId k (lower id) (Convo.put now (B.ids k (lower id)) x))
  | setBad (now k id x) : checkId id k.pre = false → BookSays B (.set now k id x) (.done (.err .foreign)) B
  | erase (k id) : checkId id k.pre = true →
      BookSays B (.erase k id) (.erased (.ok (B.ids k (lower id)).isSome)) (B.setId k (lower id) none)
  | eraseBad (k id) : checkId id k.pre = false → BookSays B (.erase k id) (.erased (.err .foreign)) B
  | list (k l) : B.Lists k l → BookSays B (.list k) (.listed l) B
  | size (k l) : B.Lists k l → BookSays B (.size k) (.counted l.length) B
  | getC {base room b r} : CommNames base room b r →
      BookSays B (.getC base room) (.gotC (.ok ((B.rooms b r).map fun x => ⟨b, r, B.key b, x⟩))) B
  | getCBad {base room} : BadName base room → BookSays B (.getC base room) (.gotC (.err .foreign)) B
  | orNewC {base room b r} (pk : Bytes) : CommNames base room b r → pk.length = 32 →
      BookSays B (.orNewC base room pk) (.madeC (.ok ⟨b, r, pk, (B.rooms b r).getD {}⟩)) B
  | orNewCBad {base room pk} : BadName base room ∨ pk.length ≠ 32 →
      BookSays B (.orNewC base room pk) (.madeC (.err .foreign)) B
  | setC {base room b r} (now pk x) : CommNames base room b r → pk.length = 32 →
      BookSays B (.setC now base room pk x) (.done (.ok ()))
        ((B.setKey b pk).setRoom b r (Convo.put now (B.rooms b r) x))
  | setCBad {base room pk} (now x) : BadName base room ∨ pk.length ≠ 32 →
      BookSays B (.setC now base room pk x) (.done (.err .foreign)) B
  | eraseC {base room b r} : CommNames base room b r →
      BookSays B (.eraseC base room) (.erased (.ok (B.rooms b r).isSome)) (B.setRoom b r none)
  | eraseCBad {base room} : BadName base room → BookSays B (.eraseC base room) (.erased (.err .foreign)) B
  | listC (l) : B.ListsC l → BookSays B .listC (.listedC l) B
  | sizeC (l) : B.ListsC l → BookSays B .sizeC (.counted l.length) B
  | prune (now) : BookSays B (.prune now) (.done (.ok ())) (B.prune now)
  | push (now o) {B'} : (B.prune now).Fades B' → BookSays B (.push now) (.pushed o) B'

/-- A sequence of calls with their results, explained by a book. -/
inductive BookExplained : Book → List (BookCall × BookRes) → Book → Prop
  | nil (B : Book) : BookExplained B [] B
  | snoc {B B' B'' : Book} {t : List (BookCall × BookRes)} {k : BookCall} {x : BookRes} :
      BookExplained B t B' → BookSays B' k x B'' → BookExplained B (t ++ [(k, x)]) B''
  | fade {B B' B'' : Book} {t : List (BookCall × BookRes)} : BookExplained B t B' → B'.Fades B'' → BookExplained B t B''

/-- A history: calls, with anything in between that does not edit the conversations (see C136). -/
inductive BookRun (S : Sys) : Client → List (BookCall × BookRes) → Client → Prop
  | nil (c : Client) : BookRun S c [] c
  | call {c c' : Client} {t : List (BookCall × BookRes)} (k : BookCall) : BookRun S c t c' → k.proper →
      int64Ok (c'.seqno + 1) = true → BookRun S c (t ++ [(k, (k.run S c').2)]) (k.run S c').1
  | between {c c' c'' : Client} {t : List (BookCall × BookRes)} : BookRun S c t c' →
      (∀ P ∈ [[[49]], [[103]], [[67]], [[111]]], Between S P c' c'') → BookRun S c t c''

/-! ### How it is stored -/

/-- Nothing but a dict, if anything. -/
def DictOnly (o : Option Val) : Prop := ∀ v, o = some v → ∃ e, v = .dict e

theorem DictOnly.load {o : Option Val} (h : DictOnly o) : (loadConvo o).isSome = o.isSome := by
  cases o with
  | none => rfl
  | some v => obtain ⟨e, rfl⟩ := h v rfl; rfl

theorem valAt_delAt_parent (k : Bytes) : ∀ (p : List Bytes) {d : Dict}, typedD d = true → p ≠ [] →
    valAt (delAt d (p ++ [k])) p = (valAt d p).map fun v => match v with
      | .dict e => .dict (mdel k e)
      | v => v
  | [], _, _, h => absurd rfl h
  | [a], d, hd, _ => by
    simp only [List.cons_append, List.nil_append, delAt, valAt]
    cases hm : mget a d with
    | none => simp only; rw [hm]; rfl
    | some v =>
      cases v with
      | dict e => simp only; rw [mget_mput (typedD_sorted hd), if_pos rfl]; rfl
      | set s => simp only; rw [hm]; rfl
      | scalar s => simp only; rw [hm]; rfl
  | a :: b :: ps, d, hd, _ => by
    have h1 : valAt (delAt d (a :: b :: ps ++ [k])) (a :: b :: ps) =
        valAt (delAt (curDict (mget a d)) (b :: (ps ++ [k]))) (b :: ps) := delAt_eq a b (ps ++ [k]) d b ps hd
    rw [h1, valAt_curDict]
    exact valAt_delAt_parent k (b :: ps) (curDict_mget_typed hd a) (by simp)

/-- Erasing a field of a dict leaves the dict. -/
theorem erase_parent {S : Sys} (hS : S.Good) {c c' : Client} (hr : Reach S c) {p : List Bytes} (hp : p ≠ []) {k : Bytes}
    (h : c.erase S (p ++ [k]) = (c', .ok ())) (hd : DictOnly (c.get p)) :
    DictOnly (c'.get p) ∧ (c'.get p).isSome = (c.get p).isSome := by
  unfold Client.erase at h
  split at h
  · cases h; exact ⟨hd, rfl⟩
  · obtain ⟨_, h2, _⟩ := modify_ok hS hr (fun d hd => delAt_typed (p ++ [k]) hd) h
    have ht := (hr.inv hS).wf.data
    have hg : c'.get p = (c.get p).map fun v => match v with
        | .dict e => .dict (mdel k e)
        | v => v := by
      unfold Client.get; rw [h2]; exact valAt_delAt_parent k p ht hp
    rw [hg]
    cases hv : c.get p with
    | none => exact ⟨(by intro v hv; cases hv), rfl⟩
    | some v =>
      obtain ⟨e, rfl⟩ := hd v hv
      exact ⟨fun w hw => ⟨_, (Option.some.inj hw).symm⟩, rfl⟩

theorem readWrites_eq {c : Client} {now : Int} {p : List Bytes} (hp : p ≠ []) {x : Convo} (hx : x.fits) :
    c.readWrites now p x = .ok (if x.lastRead < (c.convoAt p).lastRead ∨
        x.lastRead * 10 ^ 6 > now - 30 * 24 * 3600 * 10 ^ 9 then
      [(p ++ [[114]], some (.scalar (.int x.lastRead)))] else []) := by
  obtain ⟨x0, x1⟩ := hx
  have hns : int64Ok (x.lastRead * 10 ^ 6) = true := by
    simp only [int64Ok, Bool.and_eq_true, decide_eq_true_eq]; omega
  have hold : (c.convoAt p).lastRead = (intOf (c.get (p ++ [[114]]))).getD 0 := by rw [convoAt_eq c hp]
  have hany : (intOf (c.get (p ++ [[114]]))).any (fun v => decide (x.lastRead < v)) = true ↔
      x.lastRead < (c.convoAt p).lastRead := by
    rw [hold]
    cases intOf (c.get (p ++ [[114]])) with
    | none => simp; omega
    | some v => simp
  unfold Client.readWrites
  by_cases h : x.lastRead < (c.convoAt p).lastRead
  · rw [if_pos (hany.2 h), if_pos (.inl h)]
  · rw [if_neg (fun hh => h (hany.1 hh)), if_pos hns]
    have : pruneLow = 30 * 24 * 3600 * 10 ^ 9 := rfl
    rw [this]
    by_cases hr : x.lastRead * 10 ^ 6 > now - 30 * 24 * 3600 * 10 ^ 9
    · rw [if_pos hr, if_pos (.inr hr)]
    · rw [if_neg hr, if_neg (by rintro (hh | hh); exacts [h hh, hr hh])]

theorem writeAll_cons {S : Sys} {w : List Bytes × Option Val} {ws : List (List Bytes × Option Val)} {c c' : Client}
    (h : c.writeAll S (w :: ws) = (c', .ok ())) :
    ∃ c1, c.write S w.1 w.2 = (c1, .ok ()) ∧ c1.writeAll S ws = (c', .ok ()) := by
  obtain ⟨p, v⟩ := w
  unfold Client.writeAll at h
  split at h
  · rename_i c1 h1; exact ⟨c1, h1, h⟩
  · rename_i c1 o hne heq
    obtain ⟨rfl, rfl⟩ := Prod.mk.inj h
    exact absurd rfl hne

theorem writeAll_one {S : Sys} {w : List Bytes × Option Val} {c c' : Client}
    (h : c.writeAll S [w] = (c', .ok ())) : c.write S w.1 w.2 = (c', .ok ()) := by
  obtain ⟨c1, h1, h2⟩ := writeAll_cons h
  unfold Client.writeAll at h2
  obtain ⟨rfl, _⟩ := Prod.mk.inj h2
  exact h1

/-- `set_base`, exactly. -/
theorem setBase_exact {S : Sys} (hS : S.Good) {now : Int} {c c' : Client} (hc : Reach S c) {p : List Bytes}
    (hp : p ≠ []) {x : Convo} (hx : x.fits) (hd : DictOnly (c.get p)) (h : c.setBase S now p x = (c', .ok ())) :
    Reach S c' ∧ DictOnly (c'.get p) ∧ loadConvo (c'.get p) = Convo.put now (loadConvo (c.get p)) x ∧
    (∀ q, ¬ Nested p q → c'.get q = c.get q) := by
  have hx64 : int64Ok x.lastRead = true := by
    simp only [int64Ok, Bool.and_eq_true, decide_eq_true_eq]; have := hx.1; have := hx.2; omega
  obtain ⟨h1, h2, _, h4⟩ := setBase_spec hS hc hp hx64 hx.1 h
  have hbare : DictOnly (c'.get p) ∧ ((c'.get p).isSome = true ↔ (c.get p).isSome = true ∨ x.unread = true ∨
      x.lastRead * 10 ^ 6 > now - 30 * 24 * 3600 * 10 ^ 9) := by
    have some_dict : ∀ k v, c'.get (p ++ [k]) = some v → DictOnly (c'.get p) ∧ (c'.get p).isSome = true := by
      intro k v hv
      obtain ⟨e, he, _⟩ := get_dict hp hv
      rw [he]
      exact ⟨fun w hw => ⟨e, (Option.some.inj hw).symm⟩, rfl⟩
    unfold Client.setBase at h
    rw [readWrites_eq hp hx] at h
    simp only at h
    by_cases hu : x.unread = true
    · have hw : c'.get (p ++ [[117]]) = some (.scalar (.int 1)) := by
        have hsplit : ∃ cm, Reach S cm ∧ cm.write S (p ++ [[117]]) (fFlag x.unread) = (c', .ok ()) := by
          split at h
          · rw [List.cons_append, List.nil_append] at h
            obtain ⟨c1, w1, w2⟩ := writeAll_cons h
            exact ⟨c1, (write_get hS hc (by simp) (wfO_int hx64) w1).2.2, writeAll_one w2⟩
          · exact ⟨c, hc, writeAll_one h⟩
        obtain ⟨cm, r1, r2⟩ := hsplit
        have := (write_get hS r1 (by simp) (wfO_flag _) r2).1
        rw [this, hu]; rfl
      obtain ⟨a, b⟩ := some_dict _ _ hw
      exact ⟨a, fun _ => .inr (.inl hu), fun _ => b⟩
    · have hu' : x.unread = false := by cases hh : x.unread <;> simp_all
      rw [hu'] at h
      split at h
      · rename_i hcond
        rw [List.cons_append, List.nil_append] at h
        obtain ⟨c1, w1, w2⟩ := writeAll_cons h
        have w2 : c1.write S (p ++ [[117]]) (fFlag false) = (c', .ok ()) := writeAll_one w2
        obtain ⟨g1, _, g3⟩ := write_get hS hc (by simp) (wfO_int hx64) w1
        have g4 : c'.get (p ++ [[114]]) = some (.scalar (.int x.lastRead)) := by
          rw [(write_get hS g3 (by simp) (wfO_flag _) w2).2.1 _ (not_nested_snoc (by decide)), g1]
        obtain ⟨a, b⟩ := some_dict _ _ g4
        refine ⟨a, fun _ => ?_, fun _ => b⟩
        rcases hcond with hh | hh
        · left
          rw [← hd.load]
          unfold Client.convoAt at hh
          cases hl : loadConvo (c.get p) with
          | none =>
            rw [hl] at hh
            have : x.lastRead < 0 := hh
            have := hx.1
            omega
          | some _ => rfl
        · exact .inr (.inr hh)
      · rename_i hcond
        have w2 := writeAll_one h
        obtain ⟨a, b⟩ := erase_parent hS hc hp (show c.erase S (p ++ [[117]]) = (c', .ok ()) from w2) hd
        refine ⟨a, ?_⟩
        rw [b]
        constructor
        · exact .inl
        · rintro (hh | hh | hh)
          · exact hh
          · exact absurd hh hu
          · exact absurd (.inr hh) hcond
  refine ⟨h1, hbare.1, ?_, h4⟩
  unfold Convo.put
  have hat : ∀ {c : Client}, (loadConvo (c.get p)).getD {} = c.convoAt p := rfl
  rw [hd.load, hat, ← h2]
  by_cases hs : (c'.get p).isSome = true
  · rw [if_pos (hbare.2.1 hs)]
    have := hbare.1.load
    rw [hs] at this
    obtain ⟨y, hy⟩ := Option.isSome_iff_exists.1 this
    unfold Client.convoAt
    rw [hy]; rfl
  · rw [if_neg (fun hh => hs (hbare.2.2 hh))]
    rw [Option.not_isSome_iff_eq_none] at hs
    rw [hs]; rfl

/-- The book a device holds, properly stored. -/
structure BookHolds (S : Sys) (c : Client) (B : Book) : Prop where
  reach : Reach S c
  clean : ∀ k pk v, c.get (ConvoKind.path k ++ [pk]) = some v → pk.length = 33 ∧ pk.head? = some k.byte ∧ ∃ e, v = .dict e
  cleanC : ∀ b r v, c.get (roomPath b r) = some v → canonUrl b = .ok b ∧ canonRoom r = .ok r ∧ ∃ e, v = .dict e
  ids : ∀ k id, checkId id (ConvoKind.pre k) = true → loadConvo (c.get (k.path ++ [fromHex id])) = B.ids k (lower id)
  rooms : ∀ b r, loadConvo (c.get (roomPath b r)) = B.rooms b r
  key : ∀ b r, c.get (roomPath b r) ≠ none → c.serverKey b = B.key b ∧ (B.key b).length = 32

theorem names_iff {base room b r : Bytes} : CommNames base room b r ↔ canonUrl base = .ok b ∧ canonRoom room = .ok r := by
  unfold CommNames; rw [canonical_url_iff, canonical_room_iff]

theorem names_cases (base room : Bytes) : (∃ b r, CommNames base room b r) ∨ BadName base room := by
  by_cases h : ∃ b r, CommNames base room b r
  · exact .inl h
  · exact .inr fun b r hn => h ⟨b, r, hn⟩

theorem badName_err {base room : Bytes} (h : BadName base room) :
    canonUrl base = .err .foreign ∨ canonRoom room = .err .foreign := by
  by_cases hu : ∃ b, canonUrl base = .ok b
  · obtain ⟨b, hb⟩ := hu
    exact .inr (canonRoom_err fun r hr => h b r (names_iff.2 ⟨hb, hr⟩))
  · exact .inl (canonUrl_err fun b hb => hu ⟨b, hb⟩)

theorem bad_room_or {base room : Bytes} (h : BadName base room) :
    canonRoom room = .err .foreign ∨ ∃ r, canonRoom room = .ok r ∧ canonUrl base = .err .foreign := by
  by_cases hu : ∃ r, canonRoom room = .ok r
  · obtain ⟨r, hr⟩ := hu
    exact .inr ⟨r, hr, canonUrl_err fun b hb => h b r (names_iff.2 ⟨hb, hr⟩)⟩
  · exact .inl (canonRoom_err fun b hb => hu ⟨b, hb⟩)

theorem check_lower {k : ConvoKind} {id : Bytes} (h : checkId id k.pre = true) :
    checkId (lower id) k.pre = true ∧ fromHex (lower id) = fromHex id := by
  have hi := idBytes_of h
  have hl := lower_id hi
  obtain ⟨b1, b2⟩ := idBytes_kind_head hi
  have h2 := idBytes_kind_toHex b1 b2
  rw [← hl] at h2
  refine ⟨?_, by rw [hl, fromHex_toHex]⟩
  cases hh : checkId (lower id) k.pre with
  | true => rfl
  | false => rw [idBytes_bad hh] at h2; cases h2

theorem lower_inj {k : ConvoKind} {a b : Bytes} (ha : checkId a k.pre = true) (hb : checkId b k.pre = true) :
    lower a = lower b ↔ fromHex a = fromHex b := by
  have h1 := lower_id (idBytes_of ha)
  have h2 := lower_id (idBytes_of hb)
  constructor
  · intro h; rw [h1, h2] at h; rw [← fromHex_toHex (fromHex a), ← fromHex_toHex (fromHex b), h]
  · intro h; rw [h1, h2, h]

theorem BookHolds.dictOnly {S : Sys} {c : Client} {B : Book} (h : BookHolds S c B) (k : ConvoKind) (pk : Bytes) :
    DictOnly (c.get (k.path ++ [pk])) := fun v hv => (h.clean k pk v hv).2.2

theorem BookHolds.dictOnlyC {S : Sys} {c : Client} {B : Book} (h : BookHolds S c B) (b r : Bytes) :
    DictOnly (c.get (roomPath b r)) := fun v hv => (h.cleanC b r v hv).2.2

theorem BookHolds.canon {S : Sys} {c : Client} {B : Book} (h : BookHolds S c B) : c.CanonNames := by
  intro b r hg
  obtain ⟨v, hv⟩ := Option.ne_none_iff_exists'.1 hg
  exact ⟨(h.cleanC b r v hv).1, (h.cleanC b r v hv).2.1⟩

theorem new_bholds (S : Sys) : BookHolds S (Client.new S) Book.empty := by
  have hg : ∀ a q, (Client.new S).get (a :: q) = none := by
    intro a q
    unfold Client.get
    cases q <;> rfl
  have hk : ∀ k pk, (Client.new S).get (ConvoKind.path k ++ [pk]) = none := by
    intro k pk; cases k <;> exact hg _ _
  refine ⟨.new, fun k pk v hv => ?_, fun b r v hv => ?_, fun k id _ => ?_, fun b r => ?_, fun b r hb => ?_⟩
  · rw [hk] at hv; cases hv
  · rw [show (Client.new S).get (roomPath b r) = none from hg _ _] at hv; cases hv
  · rw [hk]; rfl
  · rw [show (Client.new S).get (roomPath b r) = none from hg _ _]; rfl
  · exact absurd (hg _ _) hb

/-! ### What happens in between -/

/-- The value is the same, or the same without empty containers. -/
def Trimmed (o o' : Option Val) : Prop :=
  o' = o ∨ o' = o.bind fun v => if v.prune.emptyVal then none else some v.prune

theorem Trimmed.str {o o' : Option Val} (h : Trimmed o o') : strOf o' = strOf o := by
  rcases h with rfl | rfl
  · rfl
  · cases o with
    | none => rfl
    | some v =>
      rw [Option.bind_some]
      cases v with
      | scalar x => rfl
      | set s => split <;> rfl
      | dict e => split <;> rfl

theorem Trimmed.some {o o' : Option Val} (h : Trimmed o o') {v' : Val} (hv : o' = some v') :
    ∃ v, o = some v ∧ (v' = v ∨ v' = v.prune) := by
  rcases h with rfl | rfl
  · exact ⟨v', hv, .inl rfl⟩
  · cases o with
    | none => cases hv
    | some v =>
      rw [Option.bind_some] at hv
      split at hv
      · cases hv
      · exact ⟨v, rfl, .inr (Option.some.inj hv).symm⟩

theorem load_prune {e : Dict} (h : typedD e = true) : Convo.load (pruneD e) = Convo.load e := by
  have hm : ∀ k, maybeInt (pruneD e) k = maybeInt e k := by
    intro k
    show intOf (mget k (pruneD e)) = intOf (mget k e)
    rw [mget_pruneD (typedD_sorted h)]
    cases mget k e with
    | none => rfl
    | some v =>
      rw [Option.bind_some]
      cases v with
      | scalar x => rfl
      | set s => split <;> rfl
      | dict e => split <;> rfl
  unfold Convo.load; rw [hm, hm]

theorem Trimmed.load {o o' : Option Val} (h : Trimmed o o') (ht : ∀ v, o = Option.some v → v.typed = true)
    (hd : DictOnly o) :
    loadConvo o' = loadConvo o ∨ (loadConvo o = Option.some {} ∧ loadConvo o' = none) := by
  rcases h with rfl | rfl
  · exact .inl rfl
  · cases o with
    | none => exact .inl rfl
    | some v =>
      obtain ⟨e, rfl⟩ := hd v rfl
      have he : typedD e = true := by simpa [Val.typed] using ht _ rfl
      rw [Option.bind_some]
      by_cases hp : pruneD e = []
      · right
        rw [if_pos (by simp [Val.prune, Val.emptyVal, hp])]
        refine ⟨?_, rfl⟩
        show Option.some (Convo.load e) = _
        rw [← load_prune he, hp]; rfl
      · left
        rw [if_neg (by simp [Val.prune, Val.emptyVal, hp])]
        show Option.some (Convo.load (pruneD e)) = Option.some (Convo.load e)
        rw [load_prune he]

/-- What happens in between may at most drop conversations that say nothing. -/
theorem trimmed_holds {S : Sys} (hS : S.Good) {c c' : Client} {B : Book} (h : BookHolds S c B) (hr : Reach S c')
    (hk : ∀ k pk, Trimmed (c.get (ConvoKind.path k ++ [pk])) (c'.get (k.path ++ [pk])))
    (hO : ∀ q, Trimmed (c.get (pathO ++ q)) (c'.get (pathO ++ q))) :
    ∃ B', B.Fades B' ∧ BookHolds S c' B' := by
  have ht : ∀ p v, c.get p = some v → v.typed = true := fun p v hv => valAt_typed p (h.reach.inv hS).wf.data hv
  have hroom : ∀ b r, Trimmed (c.get (roomPath b r)) (c'.get (roomPath b r)) := fun b r => hO _
  have hfade : ∀ k id, checkId id (ConvoKind.pre k) = true →
      loadConvo (c'.get (k.path ++ [fromHex id])) = B.ids k (lower id) ∨
        (B.ids k (lower id) = some {} ∧ loadConvo (c'.get (k.path ++ [fromHex id])) = none) := by
    intro k id hid
    rw [← h.ids k id hid]
    exact (hk k _).load (ht _) (h.dictOnly k _)
  refine ⟨⟨fun k id => if checkId id k.pre = true ∧ lower id = id then loadConvo (c'.get (k.path ++ [fromHex id]))
    else B.ids k id, fun b r => loadConvo (c'.get (roomPath b r)), B.key⟩, ⟨fun k id => ?_, fun b r => ?_, rfl⟩,
    hr, fun k pk v hv => ?_, fun b r v hv => ?_, fun k id hid => ?_, fun b r => rfl, fun b r hb => ?_⟩
  · dsimp only
    by_cases hid : checkId id k.pre = true ∧ lower id = id
    · rw [if_pos hid]
      have := hfade k id hid.1
      rw [hid.2] at this; exact this
    · rw [if_neg hid]; exact .inl rfl
  · dsimp only
    rw [← h.rooms b r]
    exact (hroom b r).load (ht _) (h.dictOnlyC b r)
  · obtain ⟨w, hw, hvw⟩ := (hk k pk).some hv
    obtain ⟨a, b, e, rfl⟩ := h.clean k pk w hw
    refine ⟨a, b, ?_⟩
    rcases hvw with rfl | rfl
    · exact ⟨e, rfl⟩
    · exact ⟨pruneD e, rfl⟩
  · obtain ⟨w, hw, hvw⟩ := (hroom b r).some hv
    obtain ⟨a, b, e, rfl⟩ := h.cleanC b r w hw
    refine ⟨a, b, ?_⟩
    rcases hvw with rfl | rfl
    · exact ⟨e, rfl⟩
    · exact ⟨pruneD e, rfl⟩
  · dsimp only
    obtain ⟨h1, h2⟩ := check_lower hid
    rw [if_pos ⟨h1, lower_idem _⟩, h2]
  · obtain ⟨v, hv⟩ := Option.ne_none_iff_exists'.1 hb
    obtain ⟨w, hw, _⟩ := (hroom b r).some hv
    have hk := h.key b r (by rw [hw]; simp)
    unfold Client.serverKey at hk ⊢
    rw [(hO [b, [35]]).str]
    exact hk

theorem KeptData.trimmed {S : Sys} (hS : S.Good) {c c' : Client} (hr : Reach S c) (h : KeptData c c') (p : List Bytes) :
    Trimmed (c.get p) (c'.get p) := by
  rcases h with h | h
  · left; unfold Client.get; rw [h]
  · right; unfold Client.get; rw [h]; exact valAt_pruneD _ (hr.inv hS).wf.data

theorem same_under {c c' : Client} {a : Bytes} (h : c'.get [a] = c.get [a]) (q : List Bytes) :
    c'.get ([a] ++ q) = c.get ([a] ++ q) := by
  have h : mget a c'.conf.m.data = mget a c.conf.m.data := h
  cases q with
  | nil => exact h
  | cons b q =>
    show valAt _ (a :: b :: q) = valAt _ (a :: b :: q)
    rw [valAt_curDict, valAt_curDict, h]

theorem between_book {S : Sys} (hS : S.Good) (hro : S.env.readonly = false) {c c' : Client} {B : Book}
    (h : BookHolds S c B) (hb : ∀ P ∈ [[[49]], [[103]], [[67]], [[111]]], Between S P c c') :
    ∃ B', B.Fades B' ∧ BookHolds S c' B' := by
  have tab : ∀ a, [a] ∈ [[[49]], [[103]], [[67]], ([[111]] : List Bytes)] → ∀ q, Trimmed (c.get ([a] ++ q)) (c'.get ([a] ++ q)) := by
    intro a ha q
    rcases (between_kept hS hro h.reach (hb [a] ha)).2 with hk | hg
    · exact hk.trimmed hS h.reach _
    · exact .inl (same_under hg q)
  refine trimmed_holds hS h (between_kept hS hro h.reach (hb [[49]] (by simp))).1 (fun k pk => ?_) (fun q => ?_)
  · cases k
    · exact tab [49] (by simp) [pk]
    · exact tab [103] (by simp) [pk]
    · exact tab [67] (by simp) [pk]
  · exact tab [111] (by simp) q

/-! ### The calls -/

theorem ids_lists {S : Sys} (hS : S.Good) {c : Client} {B : Book} (h : BookHolds S c B) (k : ConvoKind) :
    B.Lists k (c.convos k) ∧ c.convoSize k = (c.convos k).length := by
  refine ⟨⟨?_, fun id x => ?_⟩, ((convo_iter hS h.reach k).2.2.2 fun pk v hv => h.clean k pk v hv).symm⟩
  · unfold Client.convos
    rw [List.pairwise_filterMap]
    refine (show (c.table k.path).Pairwise (fun a b => a.1 < b.1) from table_sorted hS h.reach k.path).imp ?_
    intro a b hab x hx y hy
    rw [(convoEntry_some.1 hx).2.2.2, (convoEntry_some.1 hy).2.2.2, fromHex_toHex, fromHex_toHex]
    exact hab
  · rw [(convo_iter hS h.reach k).1]
    constructor
    · rintro ⟨hl, hg⟩
      cases hid : checkId id k.pre with
      | false => unfold Client.getConvo at hg; rw [idBytes_bad hid] at hg; cases hg
      | true =>
        rw [getConvo_eq (idBytes_of hid), h.ids k id hid, hl] at hg
        exact ⟨rfl, hl, Out.ok.inj hg⟩
    · rintro ⟨hid, hl, hx⟩
      exact ⟨hl, by rw [getConvo_eq (idBytes_of hid), h.ids k id hid, hl, hx]⟩

/-- The rooms of one server, as the iterator and `size` see them. -/
theorem server_rooms {S : Sys} (hS : S.Good) {c : Client} {B : Book} (h : BookHolds S c B) {b pk : Bytes} {e rooms : Dict}
    (hm : (b, Val.dict e) ∈ c.table pathO) (hpk : maybeStr e [35] = some pk) (hR : mget [82] e = some (.dict rooms)) :
    KSorted rooms ∧ ∀ x ∈ rooms, ∃ e', roomEntry b pk x = some ⟨b, x.1, B.key b, Convo.load e'⟩ := by
  rw [← mget_iff_mem (table_sorted hS h.reach pathO), table_mget pathO_ne] at hm
  have hsub : ∀ k, c.get (pathO ++ [b, k]) = mget k e := by
    intro k
    have := get_entry (by simp) hm k
    rw [List.append_assoc] at this; exact this
  have hRg : c.get (pathO ++ [b, [82]]) = some (.dict rooms) := by rw [hsub, hR]
  have hRs : KSorted rooms := by
    have := table_sorted hS h.reach (pathO ++ [b, [82]])
    unfold Client.table at this; rw [hRg] at this; exact this
  refine ⟨hRs, fun ⟨r, w⟩ hx => ?_⟩
  rw [← mget_iff_mem hRs] at hx
  have hroom : c.get (roomPath b r) = some w := by rw [roomsPath, get_entry (by simp) hRg r, hx]
  obtain ⟨cb, cr, e', rfl⟩ := h.cleanC b r w hroom
  obtain ⟨k1, k2⟩ := h.key b r (by rw [hroom]; simp)
  have hk : pk.length = 32 ∧ pk = B.key b := by
    unfold Client.serverKey at k1
    rw [hsub, show strOf (mget [35] e) = some pk from hpk] at k1
    simp only at k1
    split at k1
    · rename_i hl; exact ⟨hl, k1⟩
    · rw [← k1] at k2; cases k2
  refine ⟨e', ?_⟩
  unfold roomEntry
  simp only [cb, cr]
  rw [if_pos hk.1, ← hk.2]

theorem rooms_lists {S : Sys} (hS : S.Good) {c : Client} {B : Book} (h : BookHolds S c B) :
    B.ListsC c.comms ∧ c.commSize = c.comms.length := by
  have hent : ∀ y ∈ c.table pathO, serverEntry y = [] ∧ serverSize y = 0 ∨
      ∃ pk rooms, serverEntry y = rooms.filterMap (roomEntry y.1 pk) ∧ serverSize y = rooms.length ∧ KSorted rooms ∧
        ∀ x ∈ rooms, ∃ e', roomEntry y.1 pk x = some ⟨y.1, x.1, B.key y.1, Convo.load e'⟩ := by
    rintro ⟨b, v⟩ hy
    cases v with
    | scalar x => exact .inl ⟨rfl, rfl⟩
    | set x => exact .inl ⟨rfl, rfl⟩
    | dict e =>
      cases hpk : maybeStr e [35] with
      | none => left; unfold serverEntry serverSize; simp [hpk]
      | some pk =>
        cases hR : mget [82] e with
        | none => left; unfold serverEntry serverSize; simp [hpk, hR]
        | some w =>
          cases w with
          | scalar x => left; unfold serverEntry serverSize; simp [hpk, hR]
          | set x => left; unfold serverEntry serverSize; simp [hpk, hR]
          | dict rooms =>
            right
            obtain ⟨a, b⟩ := server_rooms hS h hy hpk hR
            refine ⟨pk, rooms, ?_, ?_, a, b⟩
            · unfold serverEntry; simp only [hpk, hR]
            · unfold serverSize; simp only [hpk, hR]
  refine ⟨⟨?_, fun x => ?_⟩, ?_⟩
  · unfold Client.comms
    rw [List.pairwise_flatMap]
    have hbase : ∀ y ∈ c.table pathO, ∀ z ∈ serverEntry y, z.base = y.1 := by
      intro y hy z hz
      rcases hent y hy with ⟨h1, _⟩ | ⟨pk, rooms, h1, _, _, h4⟩
      · rw [h1] at hz; cases hz
      · rw [h1, List.mem_filterMap] at hz
        obtain ⟨x, hx, hxz⟩ := hz
        obtain ⟨e', he'⟩ := h4 x hx
        rw [he'] at hxz; rw [← Option.some.inj hxz]
    refine ⟨fun y hy => ?_, ?_⟩
    · rcases hent y hy with ⟨h1, _⟩ | ⟨pk, rooms, h1, _, h3, h4⟩
      · rw [h1]; exact List.Pairwise.nil
      · rw [h1, List.pairwise_filterMap]
        refine List.Pairwise.imp_of_mem ?_ (show rooms.Pairwise (fun a b => a.1 < b.1) from h3)
        intro a b ha hb hab x hx z hz
        obtain ⟨e1, he1⟩ := h4 a ha
        obtain ⟨e2, he2⟩ := h4 b hb
        rw [he1] at hx; rw [he2] at hz
        rw [← Option.some.inj hx, ← Option.some.inj hz]
        exact .inr ⟨rfl, hab⟩
    · refine List.Pairwise.imp_of_mem ?_
        (show (c.table pathO).Pairwise (fun a b => a.1 < b.1) from table_sorted hS h.reach pathO)
      intro a b ha hb hab x hx z hz
      left
      rw [hbase a ha x hx, hbase b hb z hz]; exact hab
  · rw [mem_comms hS h.reach]
    constructor
    · rintro ⟨b, r, h1, h2, h3, _, h5⟩
      have hne : c.get (roomPath b r) ≠ none := by intro hn; rw [hn] at h5; cases h5
      obtain ⟨v, hv⟩ := Option.ne_none_iff_exists'.1 hne
      obtain ⟨cb, cr, _⟩ := h.cleanC b r v hv
      rw [cb] at h1; rw [cr] at h2
      have e1 := Out.ok.inj h1
      have e2 := Out.ok.inj h2
      rw [← e1, ← e2, ← h.rooms, h5, ← h3]
      exact ⟨rfl, (h.key b r hne).1⟩
    · rintro ⟨h1, h2⟩
      rw [← h.rooms] at h1
      have hne : c.get (roomPath x.base x.room) ≠ none := by intro hn; rw [hn] at h1; cases h1
      obtain ⟨v, hv⟩ := Option.ne_none_iff_exists'.1 hne
      obtain ⟨cb, cr, _⟩ := h.cleanC _ _ v hv
      obtain ⟨k1, k2⟩ := h.key _ _ hne
      exact ⟨x.base, x.room, cb, cr, by rw [k1, h2], by rw [h2]; exact k2, h1⟩
  · unfold Client.comms Client.commSize
    rw [length_flatMap_eq serverEntry serverSize]
    intro y hy
    rcases hent y hy with ⟨h1, h2⟩ | ⟨pk, rooms, h1, h2, _, h4⟩
    · rw [h1, h2]; rfl
    · rw [h1, h2]
      refine length_filterMap_eq _ _ fun x hx => ?_
      obtain ⟨e', he'⟩ := h4 x hx
      rw [he']; rfl

theorem write_ready {S : Sys} (hS : S.Good) {c : Client} (hc : Reach S c) (h : c.Ready S) {p : List Bytes} (hp : p ≠ [])
    {v : Option Val} (hv : wfO v = true) : ∃ c', c.write S p v = (c', .ok ()) ∧ Reach S c' ∧ c'.Ready S := by
  have hex : ∃ c', c.write S p v = (c', .ok ()) := by
    rcases h with ⟨h1, h2⟩ | h
    · rw [write_eq_field]; exact field_succeeds hS hc h1 h2 p _
    · exact write_dirty_ok hS hc h p v
  obtain ⟨c', hc'⟩ := hex
  refine ⟨c', hc', (write_get hS hc hp hv hc').2.2, ?_⟩
  rcases write_pending hc' with ⟨he, _⟩ | hd
  · rw [he]; exact h
  · exact .inr hd

theorem setBase_ready {S : Sys} (hS : S.Good) {now : Int} {c : Client} (hc : Reach S c) (h : c.Ready S) {p : List Bytes}
    (hp : p ≠ []) {x : Convo} (hx : x.fits) : ∃ c', c.setBase S now p x = (c', .ok ()) := by
  have hx64 : int64Ok x.lastRead = true := by
    simp only [int64Ok, Bool.and_eq_true, decide_eq_true_eq]; have := hx.1; have := hx.2; omega
  have key : ∀ (ws : List (List Bytes × Option Val)) {c : Client}, Reach S c → c.Ready S →
      (∀ w ∈ ws, w.1 ≠ [] ∧ wfO w.2 = true) → ∃ c', c.writeAll S ws = (c', .ok ()) := by
    intro ws
    induction ws with
    | nil => intro c _ _ _; exact ⟨c, rfl⟩
    | cons w t ih =>
      intro c hc h hw
      obtain ⟨p, v⟩ := w
      obtain ⟨a, b⟩ := hw (p, v) (by simp)
      obtain ⟨c1, h1, h2, h3⟩ := write_ready hS hc h a b
      obtain ⟨c2, h4⟩ := ih h2 h3 fun w hw' => hw w (by simp [hw'])
      exact ⟨c2, by unfold Client.writeAll; rw [h1]; exact h4⟩
  have hrw := readWrites_eq (c := c) (now := now) hp hx
  have hwf := setBase_wf hx64 hrw
  unfold Client.setBase
  rw [hrw]
  exact key _ hc h hwf

theorem setId_book {S : Sys} {c c' : Client} {B : Book} (h : BookHolds S c B) (hr : Reach S c') {k : ConvoKind} {id : Bytes}
    (hid : checkId id k.pre = true) {o : Option Convo} (hd : DictOnly (c'.get (k.path ++ [fromHex id])))
    (hl : loadConvo (c'.get (k.path ++ [fromHex id])) = o)
    (ho : ∀ q, ¬ Nested (k.path ++ [fromHex id]) q → c'.get q = c.get q) :
    BookHolds S c' (B.setId k (lower id) o) := by
  have hO : ∀ q, c'.get (pathO ++ q) = c.get (pathO ++ q) := fun q => ho _ (kind_path_O k _ _)
  refine ⟨hr, fun k' pk v hv => ?_, fun b r v hv => ?_, fun k' id' hid' => ?_, fun b r => ?_, fun b r hb => ?_⟩
  · by_cases hk : k' = k
    · subst hk
      by_cases hp : pk = fromHex id
      · subst hp
        obtain ⟨a, b⟩ := idBytes_kind_head (idBytes_of hid)
        exact ⟨a, b, hd v hv⟩
      · rw [ho _ (not_nested_snoc (Ne.symm hp))] at hv
        exact h.clean k' pk v hv
    · rw [ho _ (kind_path_ne (Ne.symm hk) _ _)] at hv
      exact h.clean k' pk v hv
  · rw [roomPath, hO] at hv; exact h.cleanC b r v hv
  · unfold Book.setId
    dsimp only
    by_cases hk : k' = k
    · subst hk
      by_cases hp : fromHex id' = fromHex id
      · rw [if_pos ⟨rfl, (lower_inj hid' hid).2 hp⟩, hp, hl]
      · rw [if_neg (fun hh => hp ((lower_inj hid' hid).1 hh.2)), ho _ (not_nested_snoc (Ne.symm hp)), h.ids k' id' hid']
    · rw [if_neg (fun hh => hk hh.1), ho _ (kind_path_ne (Ne.symm hk) _ _), h.ids k' id' hid']
  · rw [roomPath, hO]; exact h.rooms b r
  · rw [roomPath, hO] at hb
    rw [serverKey_congr (hO [b, [35]])]
    exact h.key b r hb

theorem setComm_book {S : Sys} (hS : S.Good) {now : Int} {c c' : Client} {B : Book} (h : BookHolds S c B) {base room b r pk : Bytes}
    (hn : CommNames base room b r) (hpk : pk.length = 32) {x : Convo} (hx : x.fits)
    (hs : c.setComm S now base room pk x = (c', .ok ())) :
    BookHolds S c' ((B.setKey b pk).setRoom b r (Convo.put now (B.rooms b r) x)) := by
  obtain ⟨b', r', c1, hb, hr, _, h1, h2⟩ := setComm_ok hs
  obtain ⟨nb, nr⟩ := names_iff.1 hn
  rw [nb] at hb; cases hb
  rw [nr] at hr; cases hr
  have cb := canonical_url_idem _ _ nb
  have cr := (canonical_room_case _ _ nr).2
  obtain ⟨a1, a2, a3⟩ := assign_get hS h.reach (by simp) (v := .scalar (.str pk)) rfl h1
  have hkeyroom : ∀ b' r', ¬ Nested (pathO ++ [b, [35]]) (roomPath b' r') := by
    intro b' r' hn
    rw [roomPath, nested_append_left] at hn
    rcases hn with hn | hn
    · have := (List.cons_prefix_cons.1 (List.cons_prefix_cons.1 hn).2).1
      exact absurd this (by decide)
    · have := hn.length_le; simp at this
  have hrooms : ∀ b' r', c1.get (roomPath b' r') = c.get (roomPath b' r') := fun b' r' => a2 _ (hkeyroom b' r')
  obtain ⟨b1, b2, b3, b4⟩ := setBase_exact hS a3 (by simp [roomPath]) hx (by rw [hrooms]; exact h.dictOnlyC b r) h2
  have hroom : ∀ b' r', ¬ (b' = b ∧ r' = r) → c'.get (roomPath b' r') = c.get (roomPath b' r') := by
    intro b' r' hne
    rw [b4 _ fun hn => hne (by obtain ⟨e1, e2⟩ := room_inj hn; exact ⟨e1.symm, e2.symm⟩), hrooms]
  have hkey1 : ∀ b', c'.get (pathO ++ [b', [35]]) = c1.get (pathO ++ [b', [35]]) := by
    intro b'
    refine b4 _ fun hn => ?_
    have e := room_server hn
    subst e
    exact absurd (room_field hn) (by decide)
  have hkey : c'.serverKey b = pk := by
    unfold Client.serverKey
    rw [hkey1, a1]
    simp only [strOf]
    rw [if_pos hpk]
  have hkey' : ∀ b', b' ≠ b → c'.serverKey b' = c.serverKey b' := fun b' hne =>
    serverKey_congr (by
      rw [hkey1, a2 _ fun hn => ?_]
      rw [nested_append_left] at hn
      exact hne (nested_head hn).symm)
  have hk : ∀ k q, c'.get (ConvoKind.path k ++ q) = c.get (k.path ++ q) := by
    intro k q
    rw [b4 _ fun hn => kind_path_O k q _ hn.symm, a2 _ fun hn => kind_path_O k q _ hn.symm]
  refine ⟨b1, fun k pk' v hv => ?_, fun b' r' v hv => ?_, fun k id hid => ?_, fun b' r' => ?_, fun b' r' hb' => ?_⟩
  · rw [hk] at hv; exact h.clean k pk' v hv
  · by_cases he : b' = b ∧ r' = r
    · obtain ⟨rfl, rfl⟩ := he; exact ⟨cb, cr, b2 v hv⟩
    · rw [hroom _ _ he] at hv; exact h.cleanC b' r' v hv
  · rw [hk]; exact h.ids k id hid
  · unfold Book.setRoom Book.setKey
    dsimp only
    by_cases he : b' = b ∧ r' = r
    · obtain ⟨rfl, rfl⟩ := he
      rw [if_pos ⟨rfl, rfl⟩, b3, hrooms, h.rooms]
    · rw [if_neg he, hroom _ _ he]; exact h.rooms b' r'
  · unfold Book.setRoom Book.setKey
    dsimp only
    by_cases he : b' = b
    · subst he
      rw [if_pos rfl]; exact ⟨hkey, hpk⟩
    · rw [if_neg he, hkey' b' he]
      refine h.key b' r' ?_
      rw [hroom _ _ fun hh => he hh.1] at hb'; exact hb'

theorem eraseComm_book {S : Sys} (hS : S.Good) {c c' : Client} {B : Book} (h : BookHolds S c B) {base room b r : Bytes}
    (hn : CommNames base room b r) {res : Bool} (hs : c.eraseComm S base room = (c', .ok res)) :
    BookHolds S c' (B.setRoom b r none) ∧ res = (B.rooms b r).isSome := by
  obtain ⟨nb, nr⟩ := names_iff.1 hn
  obtain ⟨a1, a2, a3, a4, a5, a6, _, a8⟩ := eraseComm_spec hS h.reach nb nr hs
  have hk : ∀ k q, c'.get (ConvoKind.path k ++ q) = c.get (k.path ++ q) := by
    intro k q
    refine a8 _ fun hh => ?_
    have := kind_path_O k q []
    rw [List.append_nil] at this
    exact this hh.symm
  have hroom : ∀ b' r', ¬ (b' = b ∧ r' = r) → c'.get (roomPath b' r') = c.get (roomPath b' r') := fun b' r' hne =>
    a4 b' r' fun hh => hne ⟨hh.1.symm, hh.2.symm⟩
  refine ⟨⟨a1, fun k pk v hv => ?_, fun b' r' v hv => ?_, fun k id hid => ?_, fun b' r' => ?_, fun b' r' hb' => ?_⟩, ?_⟩
  · rw [hk] at hv; exact h.clean k pk v hv
  · by_cases he : b' = b ∧ r' = r
    · obtain ⟨rfl, rfl⟩ := he; rw [a3] at hv; cases hv
    · rw [hroom _ _ he] at hv; exact h.cleanC b' r' v hv
  · rw [hk]; exact h.ids k id hid
  · unfold Book.setRoom
    dsimp only
    by_cases he : b' = b ∧ r' = r
    · obtain ⟨rfl, rfl⟩ := he
      rw [if_pos ⟨rfl, rfl⟩, a3]; rfl
    · rw [if_neg he, hroom _ _ he]; exact h.rooms b' r'
  · have hne : ¬ (b' = b ∧ r' = r) := by rintro ⟨rfl, rfl⟩; exact hb' a3
    have hold := h.key b' r' (by rw [← hroom _ _ hne]; exact hb')
    rw [serverKey_congr ?_]
    · exact hold
    · by_cases he : b' = b
      · subst he
        exact a6 (fun _ => ⟨r', hb'⟩) [35] (by decide)
      · exact a5 b' [[35]] (Ne.symm he)
  · rw [a2, ← h.rooms, (h.dictOnlyC b r).load]

theorem kind_paths {S : Sys} (hS : S.Good) {now : Int} {c c' : Client} (hc : Reach S c) {k : ConvoKind}
    (h : c.pruneKind S now k = (c', .ok ())) : ∀ pk, c'.get (k.path ++ [pk]) = none ∨ c'.get (k.path ++ [pk]) = c.get (k.path ++ [pk]) := by
  intro pk
  unfold Client.pruneKind at h
  obtain ⟨_, h2, _⟩ := eraseConvos_spec hS k hc (fun id hid => by
    obtain ⟨z, hz, rfl⟩ := List.mem_map.1 hid
    obtain ⟨pk, a, b, _, e⟩ := (mem_convos hS hc k z).1 (List.mem_filter.1 hz).1
    exact ⟨pk, a, b, e⟩) h
  rw [h2]
  split
  · exact .inl rfl
  · exact .inr rfl

theorem prune_paths {S : Sys} (hS : S.Good) {now : Int} {c c' : Client} (hc : Reach S c)
    (h : c.pruneStale S now = (c', .ok ())) :
    (∀ k pk, c'.get (ConvoKind.path k ++ [pk]) = none ∨ c'.get (k.path ++ [pk]) = c.get (k.path ++ [pk])) ∧
    (∀ b r, c'.get (roomPath b r) = none ∨ c'.get (roomPath b r) = c.get (roomPath b r)) ∧
    (∀ b r, c'.get (roomPath b r) ≠ none → c'.serverKey b = c.serverKey b) := by
  unfold Client.pruneStale at h
  split at h
  · rename_i c1 h1
    obtain ⟨a1, _, a3⟩ := pruneKind_spec hS hc h1
    split at h
    · rename_i c2 h2
      obtain ⟨b1, _, b3⟩ := pruneKind_spec hS a1 h2
      have hO : ∀ q, c2.get (pathO ++ q) = c.get (pathO ++ q) := by
        intro q
        have n1 := kind_path_O .legacy [] q
        have n2 := kind_path_O .oneToOne [] q
        rw [List.append_nil] at n1 n2
        rw [b3 _ n1, a3 _ n2]
      unfold Client.pruneComms at h
      obtain ⟨_, d2, d3, d4⟩ := eraseComms_spec hS b1 (fun z hz => by
        obtain ⟨x, hx, rfl⟩ := List.mem_map.1 hz
        obtain ⟨b, r, e1, e2, _⟩ := (mem_comms hS b1 x).1 (List.mem_filter.1 hx).1
        exact ⟨canonical_url_idem _ _ e1, (canonical_room_case _ _ e2).2⟩) h
      refine ⟨fun k pk => ?_, fun b r => ?_, fun b r hb => ?_⟩
      · have h3 : c'.get (k.path ++ [pk]) = c2.get (k.path ++ [pk]) := by
          refine d4 _ fun hn => ?_
          have := kind_path_O k [pk] []
          rw [List.append_nil] at this
          exact this hn.symm
        rw [h3]
        have other : ∀ k', k ≠ k' → ¬ Nested k'.path (k.path ++ [pk]) := by
          intro k' hne
          have := kind_path_ne (Ne.symm hne) [] [pk]
          rwa [List.append_nil] at this
        cases k with
        | oneToOne =>
          rw [b3 _ (other .legacy (by decide))]
          exact kind_paths hS hc h1 pk
        | legacy =>
          have := kind_paths hS a1 h2 pk
          rw [a3 _ (other .oneToOne (by decide))] at this
          exact this
        | group => right; rw [b3 _ (other .legacy (by decide)), a3 _ (other .oneToOne (by decide))]
      · rw [d2]
        split
        · exact .inl rfl
        · right; rw [roomPath, hO]
      · rw [d3 b r hb, serverKey_congr (hO [b, [35]])]
    · rename_i c2 o hne heq
      obtain ⟨rfl, rfl⟩ := Prod.mk.inj h
      exact absurd rfl hne
  · rename_i c2 o hne heq
    obtain ⟨rfl, rfl⟩ := Prod.mk.inj h
    exact absurd rfl hne

theorem prune_some {now : Int} {o : Option Convo} {x : Convo} :
    Convo.prune now o = some x ↔ o = some x ∧ ¬ x.Old now := by
  unfold Convo.prune
  rw [Option.filter_eq_some_iff]
  simp

theorem prune_book {S : Sys} (hS : S.Good) {now : Int} {c c' : Client} {B : Book} (h : BookHolds S c B)
    (hs : c.pruneStale S now = (c', .ok ())) : BookHolds S c' (B.prune now) := by
  obtain ⟨r1, r2, r3, r4, _, _⟩ := prune_stale_partial hS h.reach h.canon hs
  obtain ⟨p1, p2, p3⟩ := prune_paths hS h.reach hs
  refine ⟨r1, fun k pk v hv => ?_, fun b r v hv => ?_, fun k id hid => ?_, fun b r => ?_, fun b r hb => ?_⟩
  · rcases p1 k pk with e | e
    · rw [e] at hv; cases hv
    · rw [e] at hv; exact h.clean k pk v hv
  · rcases p2 b r with e | e
    · rw [e] at hv; cases hv
    · rw [e] at hv; exact h.cleanC b r v hv
  · unfold Book.prune
    dsimp only
    by_cases hk : k = .group
    · subst hk
      rw [if_pos rfl, ← h.ids _ id hid]
      have := r4 id
      rw [getConvo_eq (idBytes_of hid), getConvo_eq (idBytes_of hid)] at this
      exact Out.ok.inj this
    · rw [if_neg hk, ← h.ids _ id hid]
      refine Option.ext fun x => ?_
      rw [prune_some]
      have := r2 k id x hk
      rw [getConvo_eq (idBytes_of hid), getConvo_eq (idBytes_of hid)] at this
      simpa using this
  · unfold Book.prune
    dsimp only
    rw [← h.rooms]
    cases hg : c.get (roomPath b r) with
    | none =>
      have : c'.get (roomPath b r) = none := by
        rcases p2 b r with e | e
        · exact e
        · rw [e, hg]
      rw [this]; rfl
    | some v =>
      obtain ⟨cb, cr, e, rfl⟩ := h.cleanC b r v hg
      obtain ⟨k1, k2⟩ := h.key b r (by rw [hg]; simp)
      have hkn : c.serverKey b ≠ [] := by rw [k1]; intro hh; rw [hh] at k2; cases k2
      refine Option.ext fun x => ?_
      rw [prune_some]
      have hc : ∀ z : CommConvo, c'.getComm b r = .ok (some z) ↔ _ := fun z => r3 b r z
      rw [getComm_eq cb cr, getComm_eq cb cr, hg] at hc
      constructor
      · intro hx
        have hne : c'.get (roomPath b r) ≠ none := by intro hn; rw [hn] at hx; cases hx
        obtain ⟨y1, y2⟩ := (hc ⟨b, r, c'.serverKey b, x⟩).1 (by rw [hx]; rfl)
        have y1 := Option.some.inj (Out.ok.inj y1)
        have hl : Convo.load e = x := congrArg CommConvo.convo y1
        refine ⟨by rw [← hl]; rfl, fun hold => y2 ⟨hold, ?_⟩⟩
        show c'.serverKey b ≠ []
        rw [p3 b r hne]; exact hkn
      · rintro ⟨hx, hold⟩
        have hx : Convo.load e = x := Option.some.inj hx
        have := (hc ⟨b, r, c.serverKey b, x⟩).2 ⟨by rw [← hx]; rfl, fun hh => hold hh.1⟩
        have := Out.ok.inj this
        cases hl : loadConvo (c'.get (roomPath b r)) with
        | none => rw [hl] at this; cases this
        | some y =>
          rw [hl] at this
          exact congrArg some (congrArg CommConvo.convo (Option.some.inj this))
  · have hold := p2 b r
    have : c.get (roomPath b r) ≠ none := by
      rcases hold with e | e
      · exact absurd e hb
      · rw [← e]; exact hb
    rw [p3 b r hb]
    exact h.key b r this

/-- Every call, on an object that holds a book. -/
theorem call_book {S : Sys} (hS : S.Good) (hro : S.env.readonly = false) {c : Client} {B : Book} (h : BookHolds S c B)
    (k : BookCall) (hk : k.proper) (hov : int64Ok (c.seqno + 1) = true) :
    ∃ B', BookSays B k (k.run S c).2 B' ∧ BookHolds S (k.run S c).1 B' := by
  have hready : c.Ready S := .inl ⟨hro, hov⟩
  cases k with
  | get k id =>
    refine ⟨B, ?_, h⟩
    show BookSays B (.get k id) (.got (c.getConvo k id)) B
    cases hc : checkId id k.pre with
    | true => rw [getConvo_eq (idBytes_of hc), h.ids k id hc]; exact .get k id hc
    | false => unfold Client.getConvo; rw [idBytes_bad hc]; exact .getBad k id hc
  | orNew k id =>
    refine ⟨B, ?_, h⟩
    show BookSays B (.orNew k id) (.made (c.convo k id)) B
    cases hc : checkId id k.pre with
    | true =>
      rw [convo_eq (idBytes_of hc)]
      unfold Client.convoAt
      rw [h.ids k id hc]; exact .orNew k id hc
    | false => unfold Client.convo Client.getConvo; rw [idBytes_bad hc]; exact .orNewBad k id hc
  | set now k id x =>
    show ∃ B', BookSays B (.set now k id x) (.done (c.setConvo S now k id x).2) B' ∧ BookHolds S (c.setConvo S now k id x).1 B'
    cases hc : checkId id k.pre with
    | false =>
      unfold Client.setConvo; rw [idBytes_bad hc]
      exact ⟨B, .setBad now k id x hc, h⟩
    | true =>
      obtain ⟨c', hs⟩ := setBase_ready hS (now := now) h.reach hready (path_snoc_ne k (fromHex id)) hk
      have he : c.setConvo S now k id x = (c', .ok ()) := by
        unfold Client.setConvo; rw [idBytes_of hc]; exact hs
      rw [he]
      obtain ⟨g1, g2, g3, g4⟩ := setBase_exact hS h.reach (path_snoc_ne k (fromHex id)) hk (h.dictOnly k _) hs
      refine ⟨_, .set now k id x hc, ?_⟩
      rw [h.ids k id hc] at g3
      exact setId_book h g1 hc g2 g3 g4
  | erase k id =>
    show ∃ B', BookSays B (.erase k id) (.erased (c.eraseConvo S k id).2) B' ∧ BookHolds S (c.eraseConvo S k id).1 B'
    cases hc : checkId id k.pre with
    | false =>
      unfold Client.eraseConvo; rw [idBytes_bad hc]
      exact ⟨B, .eraseBad k id hc, h⟩
    | true =>
      obtain ⟨c', hs, hr, _⟩ := erase_ready hS h.reach hready (k.path ++ [fromHex id])
      have he : c.eraseConvo S k id = (c', .ok (B.ids k (lower id)).isSome) := by
        unfold Client.eraseConvo; rw [idBytes_of hc]
        simp only [Client.eraseImpl, hs]
        rw [← h.ids k id hc, (h.dictOnly k _).load]
      rw [he]
      obtain ⟨g1, g2, _⟩ := erase_get hS h.reach hs
      exact ⟨_, .erase k id hc, setId_book h hr hc (by rw [g1]; intro v hv; cases hv) (by rw [g1]; rfl) g2⟩
  | list k => exact ⟨B, .list k _ (ids_lists hS h k).1, h⟩
  | size k =>
    refine ⟨B, ?_, h⟩
    show BookSays B (.size k) (.counted (c.convoSize k)) B
    rw [(ids_lists hS h k).2]
    exact .size k _ (ids_lists hS h k).1
  | getC base room =>
    refine ⟨B, ?_, h⟩
    show BookSays B (.getC base room) (.gotC (c.getComm base room)) B
    rcases names_cases base room with ⟨b, r, hn⟩ | hn
    · obtain ⟨nb, nr⟩ := names_iff.1 hn
      have : c.getComm base room = .ok ((B.rooms b r).map fun x => ⟨b, r, B.key b, x⟩) := by
        rw [getComm_eq nb nr, h.rooms]
        cases hx : B.rooms b r with
        | none => rfl
        | some x =>
          rw [← h.rooms] at hx
          rw [(h.key b r (by intro hh; rw [hh] at hx; cases hx)).1]
      rw [this]
      exact .getC hn
    · have : c.getComm base room = .err .foreign := by
        unfold Client.getComm
        rcases bad_room_or hn with e | ⟨r, e, e'⟩
        · rw [e]; rfl
        · rw [e, e']; rfl
      rw [this]
      exact .getCBad hn
  | orNewC base room pk =>
    refine ⟨B, ?_, h⟩
    show BookSays B (.orNewC base room pk) (.madeC (c.commConvo base room pk)) B
    rcases names_cases base room with ⟨b, r, hn⟩ | hn
    · obtain ⟨nb, nr⟩ := names_iff.1 hn
      by_cases hl : pk.length = 32
      · have : c.commConvo base room pk = .ok ⟨b, r, pk, (B.rooms b r).getD {}⟩ := by
          unfold Client.commConvo
          rw [nr, nb]
          show (if pk.length = 32 then _ else _) = _
          rw [if_pos hl, h.rooms]
        rw [this]
        exact .orNewC pk hn hl
      · have : c.commConvo base room pk = .err .foreign := by
          unfold Client.commConvo
          rw [nr, nb]
          show (if pk.length = 32 then _ else _) = _
          rw [if_neg hl]
        rw [this]
        exact .orNewCBad (.inr hl)
    · have : c.commConvo base room pk = .err .foreign := by
        unfold Client.commConvo
        rcases bad_room_or hn with e | ⟨r, e, e'⟩
        · rw [e]; rfl
        · rw [e, e']; rfl
      rw [this]
      exact .orNewCBad (.inl hn)
  | setC now base room pk x =>
    show ∃ B', BookSays B (.setC now base room pk x) (.done (c.setComm S now base room pk x).2) B' ∧
      BookHolds S (c.setComm S now base room pk x).1 B'
    rcases names_cases base room with ⟨b, r, hn⟩ | hn
    · obtain ⟨nb, nr⟩ := names_iff.1 hn
      by_cases hl : pk.length = 32
      · obtain ⟨c1, a1, a2, a3⟩ := write_ready hS h.reach hready (p := pathO ++ [b, [35]]) (by simp)
          (v := some (.scalar (.str pk))) rfl
        obtain ⟨c', a4⟩ := setBase_ready hS (now := now) a2 a3 (p := roomPath b r) (by simp [roomPath]) hk
        have he : c.setComm S now base room pk x = (c', .ok ()) := by
          unfold Client.setComm
          rw [nb, nr]
          simp only [hl, if_true]
          rw [show c.assign S (pathO ++ [b, [35]]) (.scalar (.str pk)) = (c1, .ok ()) from a1]
          exact a4
        rw [he]
        exact ⟨_, .setC now pk x hn hl, setComm_book hS h hn hl hk he⟩
      · have he : c.setComm S now base room pk x = (c, .err .foreign) := by
          unfold Client.setComm
          rw [nb, nr]
          simp only [hl, if_false]
        rw [he]
        exact ⟨B, .setCBad now x (.inr hl), h⟩
    · have he : c.setComm S now base room pk x = (c, .err .foreign) := by
        unfold Client.setComm
        rcases badName_err hn with e | e
        · rw [e]
        · rw [e]; cases canonUrl base <;> rfl
      rw [he]
      exact ⟨B, .setCBad now x (.inl hn), h⟩
  | eraseC base room =>
    show ∃ B', BookSays B (.eraseC base room) (.erased (c.eraseComm S base room).2) B' ∧
      BookHolds S (c.eraseComm S base room).1 B'
    rcases names_cases base room with ⟨b, r, hn⟩ | hn
    · obtain ⟨nb, nr⟩ := names_iff.1 hn
      obtain ⟨c', hs, _, _⟩ := eraseComms_ready hS (l := [(base, room)]) h.reach hready (by
        intro z hz
        rw [List.mem_singleton] at hz
        rw [hz]
        exact ⟨⟨b, nb⟩, r, nr⟩)
      unfold Client.eraseComms at hs
      split at hs
      · rename_i c1 res h1
        rw [h1]
        obtain ⟨g1, g2⟩ := eraseComm_book hS h hn h1
        rw [g2]
        exact ⟨_, .eraseC hn, g1⟩
      · cases (Prod.mk.inj hs).2
      · cases (Prod.mk.inj hs).2
      · cases (Prod.mk.inj hs).2
    · have he : c.eraseComm S base room = (c, .err .foreign) := by
        unfold Client.eraseComm
        rcases badName_err hn with e | e
        · rw [e]
        · rw [e]; cases canonUrl base <;> rfl
      rw [he]
      exact ⟨B, .eraseCBad hn, h⟩
  | listC => exact ⟨B, .listC _ (rooms_lists hS h).1, h⟩
  | sizeC =>
    refine ⟨B, ?_, h⟩
    show BookSays B .sizeC (.counted c.commSize) B
    rw [(rooms_lists hS h).2]
    exact .sizeC _ (rooms_lists hS h).1
  | prune now =>
    show ∃ B', BookSays B (.prune now) (.done (c.pruneStale S now).2) B' ∧ BookHolds S (c.pruneStale S now).1 B'
    obtain ⟨c', hs⟩ := prune_succeeds hS (now := now) h.reach hro hov
    rw [hs]
    exact ⟨_, .prune now, prune_book hS h hs⟩
  | push now =>
    show ∃ B', BookSays B (.push now) (.pushed (c.pushConvos S now).2) B' ∧ BookHolds S (c.pushConvos S now).1 B'
    obtain ⟨c', hs⟩ := prune_succeeds hS (now := now) h.reach hro hov
    have hb := prune_book hS h hs
    have he : c.pushConvos S now = c'.push S := by unfold Client.pushConvos; rw [hs]
    rw [he]
    have hkept := push_kept (S := S) (hb.reach.inv hS).wf
    obtain ⟨B', f, g⟩ := trimmed_holds hS hb (.step hb.reach (.push _)) (fun k pk => hkept.trimmed hS hb.reach _)
      (fun q => hkept.trimmed hS hb.reach _)
    exact ⟨B', .push now _ f, g⟩

/-- C138, with what the object looks like at the end. -/
theorem book_behaves {S : Sys} (hS : S.Good) (hro : S.env.readonly = false) {c0 c : Client}
    (h0 : c0 = Client.new S) {t : List (BookCall × BookRes)} (h : BookRun S c0 t c) :
    ∃ B, BookExplained Book.empty t B ∧ BookHolds S c B := by
  induction h with
  | nil => subst h0; exact ⟨_, .nil _, new_bholds S⟩
  | call k _ hk hov ih =>
    obtain ⟨B, he, hb⟩ := ih
    obtain ⟨B', h1, h2⟩ := call_book hS hro hb k hk hov
    exact ⟨B', .snoc he h1, h2⟩
  | between _ hb ih =>
    obtain ⟨B, he, hh⟩ := ih
    obtain ⟨B', h1, h2⟩ := between_book hS hro hh hb
    exact ⟨B', .fade he h1, h2⟩

theorem names_unique {base room b r b' r' : Bytes} (h : CommNames base room b r) (h' : CommNames base room b' r') : b = b' ∧ r = r' := by
  obtain ⟨h1, h2⟩ := names_iff.1 h
  obtain ⟨h3, h4⟩ := names_iff.1 h'
  rw [h1] at h3; rw [h2] at h4
  exact ⟨Out.ok.inj h3, Out.ok.inj h4⟩

theorem lists_unique {B : Book} {k : ConvoKind} {l l' : List (Bytes × Convo)} (h : B.Lists k l) (h' : B.Lists k l') :
    l = l' := by
  have nd : ∀ {x : List (Bytes × Convo)}, x.Pairwise (fun a b => fromHex a.1 < fromHex b.1) → x.Nodup := fun hx =>
    hx.imp fun {a b} hab hne => by rw [hne] at hab; exact lt_irrefl _ hab
  have hperm : l.Perm l' := (List.perm_ext_iff_of_nodup (nd h.sorted) (nd h'.sorted)).2 fun ⟨id, x⟩ =>
    (h.all id x).trans (h'.all id x).symm
  exact hperm.eq_of_pairwise (fun a b _ _ h1 h2 => absurd (lt_trans h1 h2) (lt_irrefl _)) h.sorted h'.sorted

theorem listsC_unique {B : Book} {l l' : List CommConvo} (h : B.ListsC l) (h' : B.ListsC l') : l = l' := by
  have irr : ∀ {x y : CommConvo}, (x.base < y.base ∨ (x.base = y.base ∧ x.room < y.room)) →
      (y.base < x.base ∨ (y.base = x.base ∧ y.room < x.room)) → False := by
    rintro x y (a | ⟨a, b⟩) (d | ⟨d, e⟩)
    · exact lt_irrefl _ (lt_trans a d)
    · rw [d] at a; exact lt_irrefl _ a
    · rw [a] at d; exact lt_irrefl _ d
    · exact lt_irrefl _ (lt_trans b e)
  have nd : ∀ {x : List CommConvo}, x.Pairwise (fun x y => x.base < y.base ∨ (x.base = y.base ∧ x.room < y.room)) →
      x.Nodup := fun hx => hx.imp fun {a b} hab hne => by rw [hne] at hab; exact irr hab hab
  have hperm : l.Perm l' := (List.perm_ext_iff_of_nodup (nd h.sorted) (nd h'.sorted)).2 fun x =>
    (h.all x).trans (h'.all x).symm
  exact hperm.eq_of_pairwise (fun a b _ _ h1 h2 => (irr h1 h2).elim) h.sorted h'.sorted

/-- C138.  The specification leaves no choice: a book answers every call but `push` in one way. -/
theorem book_unique {B B1 B2 : Book} {k : BookCall} {x1 x2 : BookRes} (hk : ∀ now, k ≠ .push now)
    (h1 : BookSays B k x1 B1) (h2 : BookSays B k x2 B2) : x1 = x2 ∧ B1 = B2 := by
  cases h1 <;> cases h2 <;> first
    | exact ⟨rfl, rfl⟩
    | exact (‹BadName _ _› _ _ ‹CommNames _ _ _ _›).elim
    | (rename_i a b; rw [a] at b; exact Bool.noConfusion b)
    | (rename_i l a l' b; rw [lists_unique a b]; exact ⟨rfl, rfl⟩)
    | (rename_i l a l' b; rw [listsC_unique a b]; exact ⟨rfl, rfl⟩)
    | (rename_i a _ _ b; obtain ⟨rfl, rfl⟩ := names_unique a b; exact ⟨rfl, rfl⟩)
    | (rename_i a _ _ _ b _; obtain ⟨rfl, rfl⟩ := names_unique a b; exact ⟨rfl, rfl⟩)
    | (rcases ‹BadName _ _ ∨ _› with d | d; exacts [(d _ _ ‹CommNames _ _ _ _›).elim, absurd ‹_› d])
    | exact absurd rfl (hk _)

/-- C138.  The conversations behave as a book: whatever sequence of `get`, `get_or_construct`, `set`, `erase`,
iteration, `size`, `prune_stale` and `push` is made, for one-to-one conversations, groups, legacy groups and
communities together, starting with a new object, with any confirming, saving, key changes, merges that
bring nothing new and edits elsewhere in between, restarts from a dump at any point, and other devices
taking over, every call returns what a book with the same history would, and throws exactly for ids, URLs,
rooms and keys that are not valid. -/
theorem conversations_are_a_book {S : Sys} (hS : S.Good) (hro : S.env.readonly = false) {c : Client}
    {t : List (BookCall × BookRes)} (h : BookRun S (Client.new S) t c) : ∃ B, BookExplained Book.empty t B := by
  obtain ⟨B, hB, _⟩ := book_behaves hS hro rfl h; exact ⟨B, hB⟩

/-! ### A concrete case -/

def exBUrl : Bytes := [72, 84, 84, 80, 58, 47, 47, 97, 46, 66, 67]
def exBPk : Bytes := List.replicate 32 1
def exB1 : Client := (exC0.setComm exSys exNow exBUrl [82] exBPk ⟨exRecent, false⟩).1
def exB2 : Client := (exB1.setConvo exSys exNow .oneToOne exId ⟨exRecent, false⟩).1
def exB3 : Client := (exB2.setConvo exSys exNow .oneToOne exId ⟨exOldTime, false⟩).1
/-- Restarted. -/
def exB4 : Client := exB3.reloaded exSys exB3.old
def exB5 : Client := (exB4.pruneStale exSys exNow).1

def exBTrace : List (BookCall × BookRes) :=
  [(.setC exNow exBUrl [82] exBPk ⟨exRecent, false⟩, .done (.ok ())),
   (.set exNow .oneToOne exId ⟨exRecent, false⟩, .done (.ok ())),
   (.set exNow .oneToOne exId ⟨exOldTime, false⟩, .done (.ok ())),
   (.get .oneToOne (lower exId), .got (.ok (some ⟨exOldTime, false⟩))),
   (.prune exNow, .done (.ok ())),
   (.size .oneToOne, .counted 0),
   (.listC, .listedC [⟨lower exBUrl, [114], exBPk, ⟨exRecent, false⟩⟩])]

/-- A history of the kind C138 is about: a community and a conversation are set, the conversation's time is
put back; the device is restarted; pruning then removes the conversation and keeps the community. -/
theorem exBook_runs {c0 c1 c2 c3 c4 c5 : Client} {now : Int} {url room pk id low : Bytes} {x y : Convo}
    {o1 o2 o3 o5 : Out Unit} {o4 : Out (Option Convo)} {n : Nat} {l : List CommConvo}
    (h0 : BookRun exSys (Client.new exSys) [] c0) (hr3 : Reach exSys c3) (k1 : exSys.env.readonly = false)
    (fx : x.fits) (fy : y.fits)
    (h1 : c0.setComm exSys now url room pk x = (c1, o1)) (v0 : int64Ok (c0.seqno + 1) = true)
    (h2 : c1.setConvo exSys now .oneToOne id x = (c2, o2)) (v1 : int64Ok (c1.seqno + 1) = true)
    (h3 : c2.setConvo exSys now .oneToOne id y = (c3, o3)) (v2 : int64Ok (c2.seqno + 1) = true)
    (v3 : int64Ok (c3.conf.m.seqno + exSys.env.lag) = true) (h4 : c3.reloaded exSys c3.old = c4)
    (v4 : int64Ok (c4.seqno + 1) = true) (g4 : c4.getConvo .oneToOne low = o4)
    (h5 : c4.pruneStale exSys now = (c5, o5)) (v5 : int64Ok (c5.seqno + 1) = true)
    (g5 : c5.convoSize .oneToOne = n) (g6 : c5.comms = l) :
    BookRun exSys (Client.new exSys) [(.setC now url room pk x, .done o1), (.set now .oneToOne id x, .done o2),
      (.set now .oneToOne id y, .done o3), (.get .oneToOne low, .got o4), (.prune now, .done o5),
      (.size .oneToOne, .counted n), (.listC, .listedC l)] c5 := by
  have a1 := BookRun.call (.setC now url room pk x) h0 fx v0
  have e1 : BookCall.run exSys c0 (.setC now url room pk x) = (c1, .done o1) := by
    show ((c0.setComm exSys now url room pk x).1, BookRes.done (c0.setComm exSys now url room pk x).2) = _
    rw [h1]
  rw [e1] at a1
  have a2 := BookRun.call (.set now .oneToOne id x) a1 fx v1
  have e2 : BookCall.run exSys c1 (.set now .oneToOne id x) = (c2, .done o2) := by
    show ((c1.setConvo exSys now .oneToOne id x).1, BookRes.done (c1.setConvo exSys now .oneToOne id x).2) = _
    rw [h2]
  rw [e2] at a2
  have a3 := BookRun.call (.set now .oneToOne id y) a2 fy v2
  have e3 : BookCall.run exSys c2 (.set now .oneToOne id y) = (c3, .done o3) := by
    show ((c2.setConvo exSys now .oneToOne id y).1, BookRes.done (c2.setConvo exSys now .oneToOne id y).2) = _
    rw [h3]
  rw [e3] at a3
  have a4 := BookRun.between (c'' := c4) a3 (fun P _ => .restart (ord := c3.old) (by rw [k1]; exact List.Perm.refl _)
    (by rw [← h4]; exact load_dump exSys_good (hr3.inv exSys_good) (hr3.inv exSys_good).old v3))
  have a5 := BookRun.call (.get .oneToOne low) a4 trivial v4
  have e5 : BookCall.run exSys c4 (.get .oneToOne low) = (c4, .got o4) := by
    show (c4, BookRes.got (c4.getConvo .oneToOne low)) = _
    rw [g4]
  rw [e5] at a5
  have a6 := BookRun.call (.prune now) a5 trivial v4
  have e6 : BookCall.run exSys c4 (.prune now) = (c5, .done o5) := by
    show ((c4.pruneStale exSys now).1, BookRes.done (c4.pruneStale exSys now).2) = _
    rw [h5]
  rw [e6] at a6
  have a7 := BookRun.call (.size .oneToOne) a6 trivial v5
  have e7 : BookCall.run exSys c5 (.size .oneToOne) = (c5, .counted n) := by
    show (c5, BookRes.counted (c5.convoSize .oneToOne)) = _
    rw [g5]
  rw [e7] at a7
  have a8 := BookRun.call .listC a7 trivial v5
  have e8 : BookCall.run exSys c5 .listC = (c5, .listedC l) := by
    show (c5, BookRes.listedC c5.comms) = _
    rw [g6]
  rw [e8] at a8
  exact a8

private theorem exB_k1 : exSys.env.readonly = false := by decide +kernel
private theorem exB_fx : Convo.fits ⟨exRecent, false⟩ := by unfold Convo.fits exRecent; decide
private theorem exB_fy : Convo.fits ⟨exOldTime, false⟩ := by unfold Convo.fits exOldTime; decide
private theorem exB_h1 : exC0.setComm exSys exNow exBUrl [82] exBPk ⟨exRecent, false⟩ = (exB1, .ok ()) := pair_is (by decide +kernel)
private theorem exB_h2 : exB1.setConvo exSys exNow .oneToOne exId ⟨exRecent, false⟩ = (exB2, .ok ()) := pair_is (by decide +kernel)
private theorem exB_h3 : exB2.setConvo exSys exNow .oneToOne exId ⟨exOldTime, false⟩ = (exB3, .ok ()) := pair_is (by decide +kernel)
private theorem exB_v0 : int64Ok (exC0.seqno + 1) = true := by decide +kernel
private theorem exB_v1 : int64Ok (exB1.seqno + 1) = true := by decide +kernel
private theorem exB_v2 : int64Ok (exB2.seqno + 1) = true := by decide +kernel
private theorem exB_v3 : int64Ok (exB3.conf.m.seqno + exSys.env.lag) = true := by decide +kernel
private theorem exB_v4 : int64Ok (exB4.seqno + 1) = true := by decide +kernel
private theorem exB_g4 : exB4.getConvo .oneToOne (lower exId) = .ok (some ⟨exOldTime, false⟩) := by decide +kernel
private theorem exB_h5 : exB4.pruneStale exSys exNow = (exB5, .ok ()) := pair_is (by decide +kernel)
private theorem exB_v5 : int64Ok (exB5.seqno + 1) = true := by decide +kernel
private theorem exB_g5 : exB5.convoSize .oneToOne = 0 := by decide +kernel
private theorem exB_g6 : exB5.comms = [⟨lower exBUrl, [114], exBPk, ⟨exRecent, false⟩⟩] := by decide +kernel
private theorem exB3_reach : Reach exSys exB3 := by
  have h64 : ∀ {x : Convo}, x.fits → int64Ok x.lastRead = true := by
    intro x hx
    simp only [int64Ok, Bool.and_eq_true, decide_eq_true_eq]; have := hx.1; have := hx.2; omega
  have r1 : Reach exSys exB1 := (comm_set_get exSys_good exC0_reach (h64 exB_fx) exB_fx.1 exB_h1).1
  have r2 : Reach exSys exB2 := (convo_set_get exSys_good r1 (h64 exB_fx) exB_fx.1 exB_h2).1
  exact (convo_set_get exSys_good r2 (h64 exB_fy) exB_fy.1 exB_h3).1

example : BookRun exSys (Client.new exSys) exBTrace exB5 :=
  exBook_runs (c0 := exC0) (c1 := exB1) (c2 := exB2) (c3 := exB3) (c4 := exB4)
    (.between (.nil _) (fun _ _ => .addKey _ _ _ _ (by decide +kernel))) exB3_reach exB_k1 exB_fx exB_fy exB_h1 exB_v0
    exB_h2 exB_v1 exB_h3 exB_v2 exB_v3 rfl exB_v4 exB_g4 exB_h5 exB_v5 exB_g5 exB_g6

end Verif
