import Verif.CConvo
import Verif.Props.ConvoMap
import Verif.Props.CStructs

/-!
# Conversations through the C interface are a book, with the structs in memory: C145
-/

namespace Verif

/-! ### The specification -/

/-- The struct has the arrays of the declaration. -/
def CConvoRec.mem (s : CConvoRec) : Prop := s.id.length = 67
def CConvoComm.mem (s : CConvoComm) : Prop := s.url.length = 268 ∧ s.room.length = 65 ∧ s.pubkey.length = 32
def ConvoBoxes.mem (b : ConvoBoxes) : Prop := b.one.mem ∧ b.group.mem ∧ b.comm.mem ∧ b.legacy.mem

/-- The struct is one that can be handed back: its strings end within the arrays. -/
def CConvoComm.whole (s : CConvoComm) : Prop := s.mem ∧ (0 : UInt8) ∈ s.url ∧ (0 : UInt8) ∈ s.room
def CConvoAny.whole : CConvoAny → Prop
  | .oneToOne s => s.mem
  | .group s => s.mem
  | .comm s => s.whole
  | .legacy s => s.mem

/-- The C calls; `s` is the struct the program passes. -/
inductive CBookCall where
  | get (k : ConvoKind) (s : CConvoRec) (id : Bytes)
  | orNew (k : ConvoKind) (s : CConvoRec) (id : Bytes)
  | set (now : Int) (k : ConvoKind) (s : CConvoRec)
  | erase (k : ConvoKind) (id : Bytes)
  | size (k : ConvoKind)
  | getC (s : CConvoComm) (base room : Bytes)
  | orNewC (s : CConvoComm) (base room pk : Bytes)
  | setC (now : Int) (s : CConvoComm)
  | eraseC (base room : Bytes)
  | sizeC
  | sizeAll
  | loop (sel : ConvoSel) (b : ConvoBoxes) (fuel : Nat)
  | push (now : Int)

inductive CBookRes where
  | reply (o : Out (CReply CConvoRec))
  | replyC (o : Out (CReply CConvoComm))
  | done (o : Out Unit)
  | erased (o : Out Bool)
  | counted (n : Nat)
  | looped (o : Out (List CConvoAny))
  | pushed (o : Out (Int × Bytes × List Bytes))

/-- The call on the object. -/
def CBookCall.run (S : Sys) (c : Client) : CBookCall → Client × CBookRes
  | .get k s id => (c, .reply (c.sConvoGet k s id))
  | .orNew k s id => (c, .reply (c.sConvoOr k s id))
  | .set now k s => ((c.sConvoSet S now k s).1, .done (c.sConvoSet S now k s).2)
  | .erase k id => ((c.sConvoErase S k id).1, .erased (c.sConvoErase S k id).2)
  | .size k => (c, .counted (c.convoSize k))
  | .getC s b r => (c, .replyC (c.sCommGet s b r))
  | .orNewC s b r pk => (c, .replyC (c.sCommOr s b r pk))
  | .setC now s => ((c.sCommSet S now s).1, .done (c.sCommSet S now s).2)
  | .eraseC b r => ((c.cCommErase S b r).1, .erased (c.cCommErase S b r).2)
  | .sizeC => (c, .counted c.commSize)
  | .sizeAll => (c, .counted c.convoSizeAll)
  | .loop sel b fuel => (c, .looped (boxLoop fuel (c.selIter sel) b))
  | .push now => ((c.pushConvos S now).1, .pushed (c.pushConvos S now).2)

/-- What a C program has to see to: structs and keys it passes are memory of the right size, with terminated strings where the
library reads them; ids are not so long that the error message overflows the buffer (C109); times are between 1970 and 2262; a
loop has rounds enough. -/
def CBookCall.proper (c : Client) : CBookCall → Prop
  | .get _ s id => s.mem ∧ id.length < 191
  | .orNew _ s id => s.mem ∧ id.length < 191
  | .set _ _ s => s.mem ∧ s.convo.fits
  | .getC s _ _ => s.mem
  | .orNewC s _ _ pk => s.mem ∧ pk.length = 32
  | .setC _ s => s.mem ∧ (0 : UInt8) ∈ s.url ∧ (0 : UInt8) ∈ s.room ∧ s.convo.fits
  | .loop _ b fuel => b.mem ∧ c.convoList.length < fuel
  | _ => True

/-- The room alone is acceptable. -/
def RoomOk (room : Bytes) : Prop := room ≠ [] ∧ room.length ≤ 64 ∧ ∀ c ∈ lower room, isRoomC c = true

/-- The text about what is wrong: the room, if it is, otherwise the URL. -/
def TellsWhy (room m : Bytes) : Prop := (¬ RoomOk room → m ∈ roomTexts) ∧ (RoomOk room → m ∈ urlTexts)

/-- The conversations of a book that a loop is about, in order: by type (one-to-one, groups, communities, legacy groups), then
by id, or by server and room. -/
inductive Book.Shows (B : Book) : ConvoSel → List ConvoAny → Prop
  | one (l) : B.Lists .oneToOne l → B.Shows (.kind .oneToOne) (l.map fun y => .oneToOne y.1 y.2)
  | group (l) : B.Lists .group l → B.Shows (.kind .group) (l.map fun y => .group y.1 y.2)
  | legacy (l) : B.Lists .legacy l → B.Shows (.kind .legacy) (l.map fun y => .legacy y.1 y.2)
  | comms (l) : B.ListsC l → B.Shows .comms (l.map .comm)
  | all (l1 l2 l3 l4) : B.Lists .oneToOne l1 → B.Lists .group l2 → B.ListsC l3 → B.Lists .legacy l4 →
      B.Shows .all (l1.map (fun y => ConvoAny.oneToOne y.1 y.2) ++ l2.map (fun y => ConvoAny.group y.1 y.2) ++
        l3.map ConvoAny.comm ++ l4.map (fun y => ConvoAny.legacy y.1 y.2))

/-- What a book answers to a C call, and the book afterwards. -/
inductive CBookSays (B : Book) : CBookCall → CBookRes → Book → Prop
  | get (k s id t x) : checkId id k.pre = true → B.ids k (lower id) = some x → t.mem → t.Holds id x →
      CBookSays B (.get k s id) (.reply (.ok ⟨some t, none⟩)) B
  | getNone (k s id) : checkId id k.pre = true → B.ids k (lower id) = none →
      CBookSays B (.get k s id) (.reply (.ok ⟨none, none⟩)) B
  | getBad (k s id) : checkId id k.pre = false →
      CBookSays B (.get k s id) (.reply (.ok ⟨none, some (sessionIdMsg k.pre id)⟩)) B
  | orNew (k s id t) : checkId id k.pre = true → t.mem → t.Holds id ((B.ids k (lower id)).getD {}) →
      CBookSays B (.orNew k s id) (.reply (.ok ⟨some t, none⟩)) B
  | orNewBad (k s id) : checkId id k.pre = false →
      CBookSays B (.orNew k s id) (.reply (.ok ⟨none, some (sessionIdMsg k.pre id)⟩)) B
  | set (now k) (s : CConvoRec) : checkId (s.id.take 66) k.pre = true → CBookSays B (.set now k s) (.done (.ok ()))
      (B.setId k (lower (s.id.take 66)) (Convo.put now (B.ids k (lower (s.id.take 66))) s.convo))
  | setBad (now k) (s : CConvoRec) : checkId (s.id.take 66) k.pre = false →
      CBookSays B (.set now k s) (.done (.err .foreign)) B
  | erase (k id) : checkId id k.pre = true →
      CBookSays B (.erase k id) (.erased (.ok (B.ids k (lower id)).isSome)) (B.setId k (lower id) none)
  | eraseBad (k id) : checkId id k.pre = false → CBookSays B (.erase k id) (.erased (.ok false)) B
  | size (k l) : B.Shows (.kind k) l → CBookSays B (.size k) (.counted l.length) B
  | getC {base room b r} (s t x) : CommNames base room b r → B.rooms b r = some x → CConvoComm.whole t →
      t.Holds ⟨b, r, B.key b, x⟩ → CBookSays B (.getC s base room) (.replyC (.ok ⟨some t, none⟩)) B
  | getCNone {base room b r} (s) : CommNames base room b r → B.rooms b r = none →
      CBookSays B (.getC s base room) (.replyC (.ok ⟨none, none⟩)) B
  | getCBad {base room} (s m) : BadName base room → TellsWhy room m →
      CBookSays B (.getC s base room) (.replyC (.ok ⟨none, some m⟩)) B
  | orNewC {base room b r} (s t pk) : CommNames base room b r → CConvoComm.whole t →
      t.Holds ⟨b, r, pk, (B.rooms b r).getD {}⟩ → CBookSays B (.orNewC s base room pk) (.replyC (.ok ⟨some t, none⟩)) B
  | orNewCBad {base room} (s pk m) : BadName base room → TellsWhy room m →
      CBookSays B (.orNewC s base room pk) (.replyC (.ok ⟨none, some m⟩)) B
  | setC {b r} (now) (s : CConvoComm) : CommNames (cStr s.url) (cStr s.room) b r →
      CBookSays B (.setC now s) (.done (.ok ())) ((B.setKey b s.pubkey).setRoom b r (Convo.put now (B.rooms b r) s.convo))
  | setCBad (now) (s : CConvoComm) : BadName (cStr s.url) (cStr s.room) → CBookSays B (.setC now s) (.done (.err .foreign)) B
  | eraseC {base room b r} : CommNames base room b r →
      CBookSays B (.eraseC base room) (.erased (.ok (B.rooms b r).isSome)) (B.setRoom b r none)
  | eraseCBad {base room} : BadName base room → CBookSays B (.eraseC base room) (.erased (.ok false)) B
  | sizeC (l) : B.Shows .comms l → CBookSays B .sizeC (.counted l.length) B
  | sizeAll (l) : B.Shows .all l → CBookSays B .sizeAll (.counted l.length) B
  | loop (sel b fuel l L) : B.Shows sel l → List.Forall₂ (fun s a => s.whole ∧ s.Holds a) L l →
      CBookSays B (.loop sel b fuel) (.looped (.ok L)) B
  | push (now o) {B'} : (B.prune now).Fades B' → CBookSays B (.push now) (.pushed o) B'

/-- A sequence of C calls with their results, explained by a book. -/
inductive CBookExplained : Book → List (CBookCall × CBookRes) → Book → Prop
  | nil (B : Book) : CBookExplained B [] B
  | snoc {B B' B'' : Book} {t : List (CBookCall × CBookRes)} {k : CBookCall} {x : CBookRes} :
      CBookExplained B t B' → CBookSays B' k x B'' → CBookExplained B (t ++ [(k, x)]) B''
  | fade {B B' B'' : Book} {t : List (CBookCall × CBookRes)} : CBookExplained B t B' → B'.Fades B'' → CBookExplained B t B''

/-- A history of C calls, with anything in between that does not edit the conversations (see C136). -/
inductive CBookRun (S : Sys) : Client → List (CBookCall × CBookRes) → Client → Prop
  | nil (c : Client) : CBookRun S c [] c
  | call {c c' : Client} {t : List (CBookCall × CBookRes)} (k : CBookCall) : CBookRun S c t c' → k.proper c' →
      int64Ok (c'.seqno + 1) = true → CBookRun S c (t ++ [(k, (k.run S c').2)]) (k.run S c').1
  | between {c c' c'' : Client} {t : List (CBookCall × CBookRes)} : CBookRun S c t c' →
      (∀ P ∈ [[[49]], [[103]], [[67]], [[111]]], Between S P c' c'') → CBookRun S c t c''

/-! ### The structs -/

theorem CConvoRec.fill_ok {s : CConvoRec} (hs : s.mem) {id : Bytes} (h : id.length = 66) (x : Convo) :
    ∃ t, s.fill id x = .ok t ∧ t.mem ∧ t.Holds id x := by
  refine ⟨⟨id ++ [0], x⟩, ?_, by show (id ++ [0]).length = 67; simp [h], rfl, by simp [h], rfl⟩
  unfold CConvoRec.fill
  rw [putBytes_exact hs (by simp [h])]; rfl

theorem HoldsStr.cStr {a s : Bytes} (h : HoldsStr a s) : cStr a = s := by
  have := h.get.1
  unfold getStr at this
  split at this
  · exact Out.ok.inj this
  · cases this

theorem HoldsStr.nul {a s : Bytes} (h : HoldsStr a s) : (0 : UInt8) ∈ a := by
  have := h.get.1
  unfold getStr at this
  split at this
  · assumption
  · cases this

theorem CConvoComm.fill_ok {s : CConvoComm} (hs : s.mem) {x : CommConvo} {r : Bytes} (hb : canonUrl x.base = .ok x.base)
    (hr : canonRoom x.room = .ok r) (hk : x.pubkey.length = 32) : ∃ t, s.fill x = .ok t ∧ t.whole ∧ t.Holds x := by
  obtain ⟨n1, n2⟩ := canon_no_nul hb
  obtain ⟨m1, m2⟩ := room_no_nul hr
  obtain ⟨h1, h2, h3⟩ := hs
  obtain ⟨u, u1, u2, u3⟩ := putStr_holds (a := s.url) (s := x.base) (by omega) n1
  obtain ⟨v, v1, v2, v3⟩ := putStr_holds (a := s.room) (s := x.room) (by omega) m1
  refine ⟨⟨u, v, x.pubkey, x.convo⟩, ?_, ⟨⟨u2.trans h1, v2.trans h2, hk⟩, u3.nul, v3.nul⟩, u3.cStr, v3.cStr, rfl, rfl⟩
  unfold CConvoComm.fill
  rw [u1]
  show (putStr s.room x.room).bind _ = _
  rw [v1]
  show (putBytes 32 s.pubkey x.pubkey).bind _ = _
  rw [putBytes_exact h3 hk]; rfl

theorem CConvoRec.read_ok {s : CConvoRec} (hs : s.mem) : s.read = .ok (s.id.take 66, s.convo) := by
  unfold CConvoRec.read
  rw [getBytes_take (by unfold CConvoRec.mem at hs; omega)]; rfl

theorem CConvoComm.read_ok {s : CConvoComm} (hs : s.mem) (hu : (0 : UInt8) ∈ s.url) (hr : (0 : UInt8) ∈ s.room) :
    s.read = .ok ⟨cStr s.url, cStr s.room, s.pubkey, s.convo⟩ := by
  unfold CConvoComm.read getStr
  rw [if_pos hu, if_pos hr, getBytes_take (by have := hs.2.2; omega), List.take_of_length_le (by have := hs.2.2; omega)]
  rfl

theorem roomOk_iff {room : Bytes} : RoomOk room ↔ ∃ r, canonRoom room = .ok r := by
  unfold RoomOk
  constructor
  · rintro ⟨h1, h2, h3⟩
    exact ⟨lower room, (canonical_room_iff _ _).2 ⟨rfl, h1, h2, h3⟩⟩
  · rintro ⟨r, h⟩
    exact ((canonical_room_iff _ _).1 h).2

theorem tellsWhy (base room : Bytes) : TellsWhy room (convoCommMsg base room) := by
  unfold TellsWhy convoCommMsg
  rw [roomOk_iff]
  cases h : canonRoom room with
  | ok r => exact ⟨fun hn => absurd ⟨r, rfl⟩ hn, fun _ => urlMsg_mem _⟩
  | _ => exact ⟨fun _ => roomMsg_mem _, (fun hr => by obtain ⟨r, hr⟩ := hr; cases hr)⟩

theorem commMsg_err {R T : Type} {base room : Bytes} {conv : R → Out T} :
    cGet (convoCommMsg base room) conv (.err .foreign) = .ok ⟨none, some (convoCommMsg base room)⟩ := by
  show (copyCStr 256 _).bind _ = _
  have hl : (convoCommMsg base room).length < 256 := by
    rcases List.mem_append.1 (convoCommMsg_cases base room).2.2 with h | h
    · exact texts_short.1 _ h
    · exact texts_short.2 _ h
  rw [copyCStr_fits hl]; rfl

/-! ### The loop -/

theorem ask_ok {b : ConvoBoxes} (hb : b.mem) {c : Client} {a : ConvoAny} (h : a ∈ c.convoList) :
    ∃ p, b.ask a = .ok p ∧ p.1.mem ∧ p.2.whole ∧ p.2.Holds a := by
  obtain ⟨m1, m2, m3, m4⟩ := hb
  unfold Client.convoList at h
  simp only [List.mem_append, List.mem_map] at h
  rcases h with ((⟨y, hy, rfl⟩ | ⟨y, hy, rfl⟩) | ⟨x, hx, rfl⟩) | ⟨y, hy, rfl⟩
  · obtain ⟨s, hs, hm, hh⟩ := CConvoRec.fill_ok m1 (convos_id_length hy) y.2
    exact ⟨({ b with one := s }, .oneToOne s), by show Out.bind _ _ = _; rw [hs]; rfl, ⟨hm, m2, m3, m4⟩, hm, hh⟩
  · obtain ⟨s, hs, hm, hh⟩ := CConvoRec.fill_ok m2 (convos_id_length hy) y.2
    exact ⟨({ b with group := s }, .group s), by show Out.bind _ _ = _; rw [hs]; rfl, ⟨m1, hm, m3, m4⟩, hm, hh⟩
  · obtain ⟨e1, e2, e3⟩ := comms_fields hx
    obtain ⟨s, hs, hm, hh⟩ := CConvoComm.fill_ok m3 e1 e2 e3
    exact ⟨({ b with comm := s }, .comm s), by show Out.bind _ _ = _; rw [hs]; rfl, ⟨m1, m2, hm.1, m4⟩, hm, hh⟩
  · obtain ⟨s, hs, hm, hh⟩ := CConvoRec.fill_ok m4 (convos_id_length hy) y.2
    exact ⟨({ b with legacy := s }, .legacy s), by show Out.bind _ _ = _; rw [hs]; rfl, ⟨m1, m2, m3, hm⟩, hm, hh⟩

theorem boxLoop_of {c : Client} : ∀ (fuel : Nat) (it : ConvoIter) (b : ConvoBoxes) (l : List ConvoAny),
    loopList ConvoIter.done (fun it => derefVal it.val) ConvoIter.next fuel it = .ok l → b.mem → (∀ a ∈ l, a ∈ c.convoList) →
      ∃ L, boxLoop fuel it b = .ok L ∧ List.Forall₂ (fun s a => s.whole ∧ s.Holds a) L l
  | 0, _, _, _, h, _, _ => by cases h
  | fuel + 1, it, b, l, h, hm, hall => by
    unfold loopList at h
    unfold boxLoop
    by_cases hs : it.done = true
    · rw [if_pos hs] at h ⊢
      cases h
      exact ⟨[], rfl, .nil⟩
    · rw [if_neg hs] at h ⊢
      obtain ⟨a, ha, h⟩ := Out.bind_eq_ok.1 h
      obtain ⟨it', hi, h⟩ := Out.bind_eq_ok.1 h
      obtain ⟨t, ht, h⟩ := Out.bind_eq_ok.1 h
      cases h
      obtain ⟨p, hp, hpm, hh⟩ := ask_ok hm (hall a List.mem_cons_self)
      obtain ⟨L, hL, hF⟩ := boxLoop_of fuel it' p.1 t ht hpm fun x hx => hall x (List.mem_cons_of_mem _ hx)
      refine ⟨p.2 :: L, ?_, .cons hh hF⟩
      rw [ha]
      show (b.ask a).bind _ = _
      rw [hp]
      show it.next.bind _ = _
      rw [hi]
      show (boxLoop fuel it' p.1).bind _ = _
      rw [hL]; rfl

/-! ### Every call -/

theorem room_facts {S : Sys} {c : Client} {B : Book} (h : BookHolds S c B) {b r : Bytes} {x : Convo} (hx : B.rooms b r = some x) :
    canonUrl b = .ok b ∧ canonRoom r = .ok r ∧ (B.key b).length = 32 := by
  have hl := h.rooms b r
  rw [hx] at hl
  cases hg : c.get (roomPath b r) with
  | none => rw [hg] at hl; cases hl
  | some v =>
    obtain ⟨e1, e2, _⟩ := h.cleanC b r v hg
    exact ⟨e1, e2, (h.key b r (by rw [hg]; simp)).2⟩

theorem c_call_book {S : Sys} (hS : S.Good) (hro : S.env.readonly = false) {c : Client} {B : Book} (h : BookHolds S c B)
    (k : CBookCall) (hk : k.proper c) (hov : int64Ok (c.seqno + 1) = true) :
    ∃ B', CBookSays B k (k.run S c).2 B' ∧ BookHolds S (k.run S c).1 B' := by
  have idl : ∀ {id} {k : ConvoKind}, checkId id k.pre = true → id.length = 66 := fun {id k} hc =>
    (checkId_facts (by cases k <;> rfl) hc).1
  have pre2 : ∀ k : ConvoKind, k.pre.length = 2 := fun k => by cases k <;> rfl
  cases k with
  | get k s id =>
    obtain ⟨hm, hl⟩ := hk
    obtain ⟨B', hs, _⟩ := call_book hS hro h (.get k id) trivial hov
    have hs : BookSays B (.get k id) (.got (c.getConvo k id)) B' := hs
    show ∃ B', CBookSays B (.get k s id) (.reply (c.sConvoGet k s id)) B' ∧ BookHolds S c B'
    refine ⟨B, ?_, h⟩
    unfold Client.sConvoGet
    generalize c.getConvo k id = o at hs
    cases hs with
    | get _ _ hc =>
      cases hx : B.ids k (lower id) with
      | none => exact .getNone k s id hc hx
      | some x =>
        obtain ⟨t, ht, tm, th⟩ := CConvoRec.fill_ok hm (idl hc) x
        show CBookSays B _ (.reply ((s.fill id x).bind _)) B
        rw [ht]; exact .get k s id t x hc hx tm th
    | getBad _ _ hc => rw [cGet_err (pre2 k) hl]; exact .getBad k s id hc
  | orNew k s id =>
    obtain ⟨hm, hl⟩ := hk
    obtain ⟨B', hs, _⟩ := call_book hS hro h (.orNew k id) trivial hov
    have hs : BookSays B (.orNew k id) (.made (c.convo k id)) B' := hs
    show ∃ B', CBookSays B (.orNew k s id) (.reply (c.sConvoOr k s id)) B' ∧ BookHolds S c B'
    refine ⟨B, ?_, h⟩
    unfold Client.sConvoOr
    generalize c.convo k id = o at hs
    cases hs with
    | orNew _ _ hc =>
      obtain ⟨t, ht, tm, th⟩ := CConvoRec.fill_ok hm (idl hc) ((B.ids k (lower id)).getD {})
      show CBookSays B _ (.reply ((s.fill id _).bind _)) B
      rw [ht]; exact .orNew k s id t hc tm th
    | orNewBad _ _ hc =>
      show CBookSays B _ (.reply (cGet _ _ (.err .foreign))) B
      rw [cGet_err (pre2 k) hl]; exact .orNewBad k s id hc
  | set now k s =>
    obtain ⟨hm, hf⟩ := hk
    obtain ⟨B', hs, hh⟩ := call_book hS hro h (.set now k (s.id.take 66) s.convo) hf hov
    have hs : BookSays B (.set now k (s.id.take 66) s.convo) (.done (c.setConvo S now k (s.id.take 66) s.convo).2) B' := hs
    have hh : BookHolds S (c.setConvo S now k (s.id.take 66) s.convo).1 B' := hh
    show ∃ B', CBookSays B (.set now k s) (.done (c.sConvoSet S now k s).2) B' ∧ BookHolds S (c.sConvoSet S now k s).1 B'
    have e : c.sConvoSet S now k s = c.setConvo S now k (s.id.take 66) s.convo := by
      unfold Client.sConvoSet; rw [CConvoRec.read_ok hm]; rfl
    rw [e]
    refine ⟨B', ?_, hh⟩
    generalize (c.setConvo S now k (s.id.take 66) s.convo).2 = o at hs
    cases hs with
    | set _ _ _ _ hc => exact .set now k s hc
    | setBad _ _ _ _ hc => exact .setBad now k s hc
  | erase k id =>
    obtain ⟨B', hs, hh⟩ := call_book hS hro h (.erase k id) trivial hov
    have hs : BookSays B (.erase k id) (.erased (c.eraseConvo S k id).2) B' := hs
    have hh : BookHolds S (c.eraseConvo S k id).1 B' := hh
    show ∃ B', CBookSays B (.erase k id) (.erased (cErase (c.eraseConvo S k id)).2) B' ∧
      BookHolds S (cErase (c.eraseConvo S k id)).1 B'
    rcases hr : c.eraseConvo S k id with ⟨c1, o⟩
    rw [hr] at hs hh
    simp only at hs hh
    cases hs with
    | erase _ _ hc => exact ⟨_, .erase k id hc, hh⟩
    | eraseBad _ _ hc => exact ⟨_, .eraseBad k id hc, hh⟩
  | size k =>
    obtain ⟨B', hs, _⟩ := call_book hS hro h (.size k) trivial hov
    have hs : BookSays B (.size k) (.counted (c.convoSize k)) B' := hs
    show ∃ B', CBookSays B (.size k) (.counted (c.convoSize k)) B' ∧ BookHolds S c B'
    refine ⟨B, ?_, h⟩
    generalize c.convoSize k = n at hs
    cases hs with
    | size _ l hl =>
      cases k with
      | oneToOne => have := CBookSays.size (B := B) _ _ (.one l hl); rwa [List.length_map] at this
      | group => have := CBookSays.size (B := B) _ _ (.group l hl); rwa [List.length_map] at this
      | legacy => have := CBookSays.size (B := B) _ _ (.legacy l hl); rwa [List.length_map] at this
  | getC s base room =>
    have hm : s.mem := hk
    obtain ⟨B', hs, _⟩ := call_book hS hro h (.getC base room) trivial hov
    have hs : BookSays B (.getC base room) (.gotC (c.getComm base room)) B' := hs
    show ∃ B', CBookSays B (.getC s base room) (.replyC (c.sCommGet s base room)) B' ∧ BookHolds S c B'
    refine ⟨B, ?_, h⟩
    unfold Client.sCommGet
    generalize c.getComm base room = o at hs
    cases hs with
    | @getC _ _ b r hn =>
      cases hx : B.rooms b r with
      | none => exact .getCNone s hn hx
      | some x =>
        obtain ⟨e1, e2, e3⟩ := room_facts h hx
        obtain ⟨t, ht, tm, th⟩ := CConvoComm.fill_ok hm (x := ⟨b, r, B.key b, x⟩) e1 e2 e3
        show CBookSays B _ (.replyC ((s.fill _).bind _)) B
        rw [ht]; exact .getC s t x hn hx tm th
    | getCBad hn => rw [commMsg_err]; exact .getCBad s _ hn (tellsWhy base room)
  | orNewC s base room pk =>
    obtain ⟨hm, hpk⟩ := hk
    obtain ⟨B', hs, _⟩ := call_book hS hro h (.orNewC base room pk) trivial hov
    have hs : BookSays B (.orNewC base room pk) (.madeC (c.commConvo base room pk)) B' := hs
    show ∃ B', CBookSays B (.orNewC s base room pk) (.replyC (c.sCommOr s base room pk)) B' ∧ BookHolds S c B'
    refine ⟨B, ?_, h⟩
    unfold Client.sCommOr
    rw [getBytes_take (by omega), List.take_of_length_le (by omega)]
    show CBookSays B _ (.replyC (cGet _ _ ((c.commConvo base room pk).bind _))) B
    generalize c.commConvo base room pk = o at hs
    cases hs with
    | @orNewC _ _ b r _ hn _ =>
      obtain ⟨n1, n2⟩ := names_iff.1 hn
      obtain ⟨t, ht, tm, th⟩ := CConvoComm.fill_ok hm (x := ⟨b, r, pk, (B.rooms b r).getD {}⟩) (canonical_url_idem _ _ n1)
        (canonical_room_case _ _ n2).2 hpk
      show CBookSays B _ (.replyC ((s.fill _).bind _)) B
      rw [ht]; exact .orNewC s t pk hn tm th
    | orNewCBad hb =>
      have hb : BadName base room := hb.resolve_right (fun hne => hne hpk)
      show CBookSays B _ (.replyC (cGet _ _ (.err .foreign))) B
      rw [commMsg_err]; exact .orNewCBad s pk _ hb (tellsWhy base room)
  | setC now s =>
    obtain ⟨hm, hu, hr, hf⟩ := hk
    obtain ⟨B', hs, hh⟩ := call_book hS hro h (.setC now (cStr s.url) (cStr s.room) s.pubkey s.convo) hf hov
    have hs : BookSays B (.setC now (cStr s.url) (cStr s.room) s.pubkey s.convo)
      (.done (c.setComm S now (cStr s.url) (cStr s.room) s.pubkey s.convo).2) B' := hs
    have hh : BookHolds S (c.setComm S now (cStr s.url) (cStr s.room) s.pubkey s.convo).1 B' := hh
    show ∃ B', CBookSays B (.setC now s) (.done (c.sCommSet S now s).2) B' ∧ BookHolds S (c.sCommSet S now s).1 B'
    have e : c.sCommSet S now s = c.setComm S now (cStr s.url) (cStr s.room) s.pubkey s.convo := by
      unfold Client.sCommSet; rw [CConvoComm.read_ok hm hu hr]; rfl
    rw [e]
    refine ⟨B', ?_, hh⟩
    generalize (c.setComm S now (cStr s.url) (cStr s.room) s.pubkey s.convo).2 = o at hs
    cases hs with
    | setC _ _ _ hn _ => exact .setC now s hn
    | setCBad _ _ hb => exact .setCBad now s (hb.resolve_right fun hne => hne hm.2.2)
  | eraseC base room =>
    obtain ⟨B', hs, hh⟩ := call_book hS hro h (.eraseC base room) trivial hov
    have hs : BookSays B (.eraseC base room) (.erased (c.eraseComm S base room).2) B' := hs
    have hh : BookHolds S (c.eraseComm S base room).1 B' := hh
    show ∃ B', CBookSays B (.eraseC base room) (.erased (cErase (c.eraseComm S base room)).2) B' ∧
      BookHolds S (cErase (c.eraseComm S base room)).1 B'
    rcases hr : c.eraseComm S base room with ⟨c1, o⟩
    rw [hr] at hs hh
    simp only at hs hh
    cases hs with
    | eraseC hn => exact ⟨_, .eraseC hn, hh⟩
    | eraseCBad hn => exact ⟨_, .eraseCBad hn, hh⟩
  | sizeC =>
    obtain ⟨B', hs, _⟩ := call_book hS hro h .sizeC trivial hov
    have hs : BookSays B .sizeC (.counted c.commSize) B' := hs
    show ∃ B', CBookSays B .sizeC (.counted c.commSize) B' ∧ BookHolds S c B'
    refine ⟨B, ?_, h⟩
    generalize c.commSize = n at hs
    cases hs with
    | sizeC l hl => have := CBookSays.sizeC (B := B) _ (.comms l hl); rwa [List.length_map] at this
  | sizeAll =>
    show ∃ B', CBookSays B .sizeAll (.counted c.convoSizeAll) B' ∧ BookHolds S c B'
    refine ⟨B, ?_, h⟩
    have hz : ∀ k, ∃ l, B.Lists k l ∧ c.convoSize k = l.length := by
      intro k
      obtain ⟨B', hs, _⟩ := call_book hS hro h (.size k) trivial hov
      have hs : BookSays B (.size k) (.counted (c.convoSize k)) B' := hs
      generalize c.convoSize k = n at hs
      cases hs with
      | size _ l hl => exact ⟨l, hl, rfl⟩
    obtain ⟨B', hs, _⟩ := call_book hS hro h .sizeC trivial hov
    have hs : BookSays B .sizeC (.counted c.commSize) B' := hs
    unfold Client.convoSizeAll
    generalize c.commSize = n at hs
    obtain ⟨l1, a1, b1⟩ := hz .oneToOne
    obtain ⟨l2, a2, b2⟩ := hz .group
    obtain ⟨l4, a4, b4⟩ := hz .legacy
    rw [b1, b2, b4]
    cases hs with
    | sizeC l3 a3 =>
      have := CBookSays.sizeAll (B := B) _ (.all l1 l2 l3 l4 a1 a2 a3 a4)
      simp only [List.length_append, List.length_map] at this
      have e : l1.length + l3.length + l4.length + l2.length = l1.length + l2.length + l3.length + l4.length := by omega
      rw [e]; exact this
  | loop sel b fuel =>
    obtain ⟨hm, hf⟩ := hk
    show ∃ B', CBookSays B (.loop sel b fuel) (.looped (boxLoop fuel (c.selIter sel) b)) B' ∧ BookHolds S c B'
    refine ⟨B, ?_, h⟩
    have hz : ∀ k, B.Lists k (c.convos k) := by
      intro k
      obtain ⟨B', hs, _⟩ := call_book hS hro h (.list k) trivial hov
      have hs : BookSays B (.list k) (.listed (c.convos k)) B' := hs
      generalize c.convos k = n at hs
      cases hs with
      | list _ l hl => exact hl
    have hzc : B.ListsC c.comms := by
      obtain ⟨B', hs, _⟩ := call_book hS hro h .listC trivial hov
      have hs : BookSays B .listC (.listedC c.comms) B' := hs
      generalize c.comms = n at hs
      cases hs with
      | listC l hl => exact hl
    obtain ⟨q1, q2, q3, q4, q5⟩ := convo_loop c hf ConvoIter.done (.inl rfl)
    have go : ∀ l, B.Shows sel l → loopList ConvoIter.done (fun it => derefVal it.val) ConvoIter.next fuel (c.selIter sel) = .ok l →
        (∀ a ∈ l, a ∈ c.convoList) → CBookSays B (.loop sel b fuel) (.looped (boxLoop fuel (c.selIter sel) b)) B := by
      intro l hl hlo hin
      obtain ⟨L, hL, hF⟩ := boxLoop_of fuel _ b l hlo hm hin
      rw [hL]; exact .loop sel b fuel l L hl hF
    have sub : ∀ {a}, a ∈ c.convoList ↔ a ∈ c.convoList := Iff.rfl
    cases sel with
    | all => exact go _ (.all _ _ _ _ (hz _) (hz _) hzc (hz _)) q1 fun a ha => ha
    | comms =>
      refine go _ (.comms _ hzc) q3 fun a ha => ?_
      unfold Client.convoList
      exact List.mem_append_left _ (List.mem_append_right _ ha)
    | kind k =>
      cases k with
      | oneToOne =>
        refine go _ (.one _ (hz _)) q2 fun a ha => ?_
        unfold Client.convoList
        exact List.mem_append_left _ (List.mem_append_left _ (List.mem_append_left _ ha))
      | group =>
        refine go _ (.group _ (hz _)) q4 fun a ha => ?_
        unfold Client.convoList
        exact List.mem_append_left _ (List.mem_append_left _ (List.mem_append_right _ ha))
      | legacy =>
        refine go _ (.legacy _ (hz _)) q5 fun a ha => ?_
        unfold Client.convoList
        exact List.mem_append_right _ ha
  | push now =>
    obtain ⟨B', hs, hh⟩ := call_book hS hro h (.push now) trivial hov
    have hs : BookSays B (.push now) (.pushed (c.pushConvos S now).2) B' := hs
    have hh : BookHolds S (c.pushConvos S now).1 B' := hh
    show ∃ B', CBookSays B (.push now) (.pushed (c.pushConvos S now).2) B' ∧ BookHolds S (c.pushConvos S now).1 B'
    refine ⟨B', ?_, hh⟩
    generalize (c.pushConvos S now).2 = o at hs
    cases hs with
    | push _ _ hf => exact .push now _ hf

/-- C145, with what the object looks like at the end. -/
theorem c_book_behaves {S : Sys} (hS : S.Good) (hro : S.env.readonly = false) {c0 c : Client}
    (h0 : c0 = Client.new S) {t : List (CBookCall × CBookRes)} (h : CBookRun S c0 t c) :
    ∃ B, CBookExplained Book.empty t B ∧ BookHolds S c B := by
  induction h with
  | nil => subst h0; exact ⟨_, .nil _, new_bholds S⟩
  | call k _ hk hov ih =>
    obtain ⟨B, he, hb⟩ := ih
    obtain ⟨B', h1, h2⟩ := c_call_book hS hro hb k hk hov
    exact ⟨B', .snoc he h1, h2⟩
  | between _ hb ih =>
    obtain ⟨B, he, hh⟩ := ih
    obtain ⟨B', h1, h2⟩ := between_book hS hro hh hb
    exact ⟨B', .fade he h1, h2⟩

/-- C145.  A C program that keeps conversations through `convo_info_volatile_*` sees a book: whatever sequence of `get`,
`get_or_construct`, `set`, `erase`, `size`, loops (over everything or one type) and `config_push` it makes, with structs of its
own that hold anything beforehand, and with anything of C136 in between, every call fills the right struct with exactly what a
book with the same history holds, touches no memory outside, reports errors with the text for what is wrong, and lets an
exception out exactly when a struct with an invalid id, URL or room is set. -/
theorem c_conversations_are_a_book {S : Sys} (hS : S.Good) (hro : S.env.readonly = false) {c : Client}
    {t : List (CBookCall × CBookRes)} (h : CBookRun S (Client.new S) t c) : ∃ B, CBookExplained Book.empty t B := by
  obtain ⟨B, hB, _⟩ := c_book_behaves hS hro rfl h; exact ⟨B, hB⟩

/-! ### Putting back what was read -/

theorem put_same (now : Int) (x : Convo) : Convo.put now (some x) x = some x := by
  unfold Convo.put Convo.after
  rw [if_pos (.inl rfl)]
  show some (Convo.mk (if _ then x.lastRead else x.lastRead) x.unread) = _
  rw [ite_self]

theorem Book.setId_same {B : Book} {k : ConvoKind} {id : Bytes} : B.setId k id (B.ids k id) = B := by
  unfold Book.setId
  cases B with
  | mk a b c =>
    congr 1; funext k' id'
    by_cases h : k' = k ∧ id' = id
    · rw [if_pos h, h.1, h.2]
    · rw [if_neg h]

theorem Book.setRoom_same {B : Book} {b r : Bytes} : (B.setKey b (B.key b)).setRoom b r (B.rooms b r) = B := by
  unfold Book.setRoom Book.setKey
  cases B with
  | mk x y z =>
    congr 1
    · funext b' r'
      by_cases h : b' = b ∧ r' = r
      · rw [if_pos h, h.1, h.2]
      · rw [if_neg h]
    · funext b'
      show (if b' = b then z b else z b') = z b'
      by_cases h : b' = b
      · rw [if_pos h, h]
      · rw [if_neg h]

theorem same_answers {S : Sys} (hS : S.Good) (hro : S.env.readonly = false) {c d : Client} {B : Book} (hc : BookHolds S c B)
    (hd : BookHolds S d B) (ho : int64Ok (c.seqno + 1) = true) (ho' : int64Ok (d.seqno + 1) = true) {k : BookCall}
    (hk : ∀ now, k ≠ .push now) (hp : k.proper) : (k.run S d).2 = (k.run S c).2 := by
  obtain ⟨_, a, _⟩ := call_book hS hro hc k hp ho
  obtain ⟨_, b, _⟩ := call_book hS hro hd k hp ho'
  exact (book_unique hk b a).1

/-- C145.  What a C program read into a struct it can `set` again at any time, and nothing changes for any reader: every call
of C138 on the object is answered as before.  (A time the struct holds has to be one between 1970 and 2262, as in all of this.) -/
theorem c_convo_put_back {S : Sys} (hS : S.Good) (hro : S.env.readonly = false) {c : Client} {t : List (CBookCall × CBookRes)}
    (h : CBookRun S (Client.new S) t c) (hov : int64Ok (c.seqno + 1) = true) (now : Int) :
    (∀ k s s' id d, s.mem → id.length < 191 → c.sConvoGet k s id = .ok ⟨some s', none⟩ → s'.convo.fits →
      d = (c.sConvoSet S now k s').1 → int64Ok (d.seqno + 1) = true →
      (c.sConvoSet S now k s').2 = .ok () ∧
        ∀ q : BookCall, (∀ now, q ≠ .push now) → q.proper → (q.run S d).2 = (q.run S c).2) ∧
    (∀ s s' base room d, s.mem → c.sCommGet s base room = .ok ⟨some s', none⟩ → s'.convo.fits →
      d = (c.sCommSet S now s').1 → int64Ok (d.seqno + 1) = true →
      (c.sCommSet S now s').2 = .ok () ∧
        ∀ q : BookCall, (∀ now, q ≠ .push now) → q.proper → (q.run S d).2 = (q.run S c).2) := by
  obtain ⟨B, _, hB⟩ := c_book_behaves hS hro rfl h
  refine ⟨fun k s s' id d hm hi hg hf hd ho => ?_, fun s s' base room d hm hg hf hd ho => ?_⟩
  · obtain ⟨B1, a1, _⟩ := c_call_book hS hro hB (.get k s id) ⟨hm, hi⟩ hov
    have a1 : CBookSays B (.get k s id) (.reply (c.sConvoGet k s id)) B1 := a1
    rw [hg] at a1
    cases a1 with
    | get _ _ _ _ x hc hx tm th =>
      obtain ⟨B2, a2, b2⟩ := c_call_book hS hro hB (.set now k s') ⟨tm, hf⟩ hov
      have a2 : CBookSays B (.set now k s') (.done (c.sConvoSet S now k s').2) B2 := a2
      have b2 : BookHolds S (c.sConvoSet S now k s').1 B2 := b2
      have l66 : id.length = 66 := (checkId_facts (by cases k <;> rfl) hc).1
      have e : s'.id.take 66 = id := by rw [th.1, List.take_append_of_le_length (by omega), List.take_of_length_le (by omega)]
      generalize (c.sConvoSet S now k s').2 = o at a2
      cases a2 with
      | set _ _ _ _ =>
        rw [e, hx, th.2.2, put_same, ← hx, Book.setId_same] at b2
        subst hd
        exact ⟨rfl, fun q q1 q2 => same_answers hS hro hB b2 hov ho q1 q2⟩
      | setBad _ _ _ hb => rw [e, hc] at hb; cases hb
  · obtain ⟨B1, a1, _⟩ := c_call_book hS hro hB (.getC s base room) hm hov
    have a1 : CBookSays B (.getC s base room) (.replyC (c.sCommGet s base room)) B1 := a1
    rw [hg] at a1
    cases a1 with
    | @getC _ _ b r _ _ x hn hx tm th =>
      obtain ⟨B2, a2, b2⟩ := c_call_book hS hro hB (.setC now s') ⟨tm.1, tm.2.1, tm.2.2, hf⟩ hov
      have a2 : CBookSays B (.setC now s') (.done (c.sCommSet S now s').2) B2 := a2
      have b2 : BookHolds S (c.sCommSet S now s').1 B2 := b2
      obtain ⟨e1, e2, e3⟩ := room_facts hB hx
      have hn' : CommNames (cStr s'.url) (cStr s'.room) b r := names_iff.2 (by rw [th.1, th.2.1]; exact ⟨e1, e2⟩)
      generalize (c.sCommSet S now s').2 = o at a2
      cases a2 with
      | setC _ _ hn2 =>
        obtain ⟨rfl, rfl⟩ := names_unique hn' hn2
        rw [hx, th.2.2.2, th.2.2.1, put_same, ← hx, Book.setRoom_same] at b2
        subst hd
        exact ⟨rfl, fun q q1 q2 => same_answers hS hro hB b2 hov ho q1 q2⟩
      | setCBad _ _ hb => exact (hb _ _ hn').elim

/-! ### An example -/

/-- Structs on the stack of a C program: the strings, then whatever was there. -/
def exCComm : CConvoComm := ⟨exBUrl ++ 0 :: List.replicate 256 7, [82, 0] ++ List.replicate 63 7, exBPk, ⟨exRecent, false⟩⟩
def exCOne : CConvoRec := ⟨exId ++ [0], ⟨exRecent, false⟩⟩
def exCJunk : CConvoRec := ⟨List.replicate 67 9, {}⟩
def exCBoxes : ConvoBoxes := ⟨exCJunk, exCJunk, ⟨List.replicate 268 9, List.replicate 65 9, List.replicate 32 9, {}⟩, exCJunk⟩

theorem exCBook_runs {c0 c1 c2 : Client} {now : Int} {cs : CConvoComm} {os : CConvoRec} {j : CConvoRec} {b : ConvoBoxes} {low : Bytes}
    {fuel : Nat} {o1 o2 : Out Unit} {o3 : Out (CReply CConvoRec)} {o4 : Out (List CConvoAny)}
    (h0 : CBookRun exSys (Client.new exSys) [] c0) (p1 : cs.whole) (f1 : cs.convo.fits) (p2 : os.mem) (f2 : os.convo.fits)
    (p3 : j.mem) (l3 : low.length < 191) (p4 : b.mem) (l4 : c2.convoList.length < fuel)
    (h1 : c0.sCommSet exSys now cs = (c1, o1)) (v0 : int64Ok (c0.seqno + 1) = true)
    (h2 : c1.sConvoSet exSys now .oneToOne os = (c2, o2)) (v1 : int64Ok (c1.seqno + 1) = true)
    (v2 : int64Ok (c2.seqno + 1) = true) (h3 : c2.sConvoGet .oneToOne j low = o3)
    (h4 : boxLoop fuel (c2.selIter .all) b = o4) :
    CBookRun exSys (Client.new exSys) [(.setC now cs, .done o1), (.set now .oneToOne os, .done o2),
      (.get .oneToOne j low, .reply o3), (.loop .all b fuel, .looped o4)] c2 := by
  have r1 := CBookRun.call (.setC now cs) h0 ⟨p1.1, p1.2.1, p1.2.2, f1⟩ v0
  have e1 : (CBookCall.setC now cs).run exSys c0 = (c1, .done o1) := by show (_, CBookRes.done _) = _; rw [h1]
  rw [e1] at r1
  have r2 := CBookRun.call (.set now .oneToOne os) r1 ⟨p2, f2⟩ v1
  have e2 : (CBookCall.set now .oneToOne os).run exSys c1 = (c2, .done o2) := by show (_, CBookRes.done _) = _; rw [h2]
  rw [e2] at r2
  have r3 := CBookRun.call (.get .oneToOne j low) r2 ⟨p3, l3⟩ v2
  have e3 : (CBookCall.get .oneToOne j low).run exSys c2 = (c2, .reply o3) := by show (_, CBookRes.reply _) = _; rw [h3]
  rw [e3] at r3
  have r4 := CBookRun.call (.loop .all b fuel) r3 ⟨p4, l4⟩ v2
  have e4 : (CBookCall.loop .all b fuel).run exSys c2 = (c2, .looped o4) := by show (_, CBookRes.looped _) = _; rw [h4]
  rw [e4] at r4
  exact r4

private theorem exCB_p1 : exCComm.whole := by unfold CConvoComm.whole CConvoComm.mem; decide +kernel
private theorem exCB_f : Convo.fits ⟨exRecent, false⟩ := by unfold Convo.fits exRecent; decide
private theorem exCB_p2 : exCOne.mem := by unfold CConvoRec.mem; decide +kernel
private theorem exCB_p3 : exCJunk.mem := by unfold CConvoRec.mem; decide +kernel
private theorem exCB_p4 : exCBoxes.mem := by unfold ConvoBoxes.mem CConvoRec.mem CConvoComm.mem; decide +kernel
private theorem exCB_l4 : exB2.convoList.length < 5 := by decide +kernel
private theorem exCB_h1 : exC0.sCommSet exSys exNow exCComm = (exB1, .ok ()) := pair_is (by decide +kernel)
private theorem exCB_h2 : exB1.sConvoSet exSys exNow .oneToOne exCOne = (exB2, .ok ()) := pair_is (by decide +kernel)
private theorem exCB_v0 : int64Ok (exC0.seqno + 1) = true := by decide +kernel
private theorem exCB_v1 : int64Ok (exB1.seqno + 1) = true := by decide +kernel
private theorem exCB_v2 : int64Ok (exB2.seqno + 1) = true := by decide +kernel
private theorem exCB_h3 : exB2.sConvoGet .oneToOne exCJunk (lower exId) = .ok ⟨some ⟨lower exId ++ [0], ⟨exRecent, false⟩⟩, none⟩ := by
  decide +kernel
private theorem exCB_h4 : boxLoop 5 (exB2.selIter .all) exCBoxes = .ok [.oneToOne ⟨lower exId ++ [0], ⟨exRecent, false⟩⟩,
    .comm ⟨lower exBUrl ++ 0 :: List.replicate 256 9, [114, 0] ++ List.replicate 63 9, exBPk, ⟨exRecent, false⟩⟩] := by
  decide +kernel

/-- A history of the kind C145 is about: a community and a conversation set from structs, one read back into a struct full of
nines, and a loop over both. -/
example : CBookRun exSys (Client.new exSys)
    [(.setC exNow exCComm, .done (.ok ())), (.set exNow .oneToOne exCOne, .done (.ok ())),
     (.get .oneToOne exCJunk (lower exId), .reply (.ok ⟨some ⟨lower exId ++ [0], ⟨exRecent, false⟩⟩, none⟩)),
     (.loop .all exCBoxes 5, .looped (.ok [.oneToOne ⟨lower exId ++ [0], ⟨exRecent, false⟩⟩,
       .comm ⟨lower exBUrl ++ 0 :: List.replicate 256 9, [114, 0] ++ List.replicate 63 9, exBPk, ⟨exRecent, false⟩⟩]))] exB2 :=
  exCBook_runs (c0 := exC0) (c1 := exB1)
    (.between (.nil _) (fun _ _ => .addKey _ _ _ _ (by decide +kernel))) exCB_p1 exCB_f exCB_p2 exCB_f exCB_p3 (by decide +kernel)
    exCB_p4 exCB_l4 exCB_h1 exCB_v0 exCB_h2 exCB_v1 exCB_v2 exCB_h3 exCB_h4

end Verif
