import Verif.CRoll
import Verif.Props.GroupList
import Verif.Props.CConvo

/-!
# The list of groups through the C interface is a roll, with the structs in memory: C146
-/

namespace Verif

/-! ### The specification -/

/-- The struct has the arrays and integers of the declaration. -/
def CUComm.mem (s : CUComm) : Prop :=
  s.url.length = 268 ∧ s.room.length = 65 ∧ s.pubkey.length = 32 ∧ s.info.inRange = true

/-- It can be handed back: its strings end within the arrays. -/
def CUComm.whole (s : CUComm) : Prop := s.mem ∧ (0 : UInt8) ∈ s.url ∧ (0 : UInt8) ∈ s.room

def GroupBoxes.mem (b : GroupBoxes) : Prop := groupView.mem b.group ∧ b.comm.mem ∧ legacyView.mem b.legacy

/-- The struct of the right type was filled with the group, and can be handed back. -/
def CGroupAny.Shows : CGroupAny → AnyGroup → Prop
  | .group s, .group g => groupView.mem s ∧ GroupShown s g
  | .comm s, .comm x => s.whole ∧ s.Holds x
  | .legacy s, .legacy g => legacyView.mem s ∧ LegacyShown s g
  | _, _ => False

/-- The C calls.  `only`: the loop is from the iterator of that kind rather than of everything; `free`: the legacy group is set
with `user_groups_set_free_legacy_group`. -/
inductive CRollCall where
  | group (only : Bool) (k : SCall CGroup)
  | legacy (only free : Bool) (k : SCall CLegacy)
  | getC (s : CUComm) (base room : Bytes)
  | orNewC (s : CUComm) (base room pk : Bytes)
  | setC (s : CUComm)
  | eraseC (base room : Bytes)
  | sizeC
  | sizeAll
  | loop (sel : GroupSel) (b : GroupBoxes) (fuel : Nat)

inductive CRollRes where
  | group (x : SRes CGroup)
  | legacy (x : SRes CLegacy)
  | reply (o : Out (CReply CUComm))
  | done (o : Out Unit)
  | erased (o : Out Bool)
  | counted (n : Nat)
  | looped (o : Out (List CGroupAny))

/-- The call on the object. -/
def CRollCall.run (pub : Bytes → Bytes) (S : Sys) (c : Client) : CRollCall → Client × CRollRes
  | .group only k => (((groupCApi pub only).run S c k).1, .group ((groupCApi pub only).run S c k).2)
  | .legacy only free k => (((legacyCApi pub only free).run S c k).1, .legacy ((legacyCApi pub only free).run S c k).2)
  | .getC s b r => (c, .reply (c.sUCommGet s b r))
  | .orNewC s b r pk => (c, .reply (c.sUCommOr s b r pk))
  | .setC s => ((c.sUCommSet S s).1, .done (c.sUCommSet S s).2)
  | .eraseC b r => ((c.cCommErase S b r).1, .erased (c.cCommErase S b r).2)
  | .sizeC => (c, .counted c.commSize)
  | .sizeAll => (c, .counted c.allGroupsSize)
  | .loop sel b fuel => (c, .looped (groupLoop pub fuel (c.groupSelIter pub sel) b))

/-- What a C program has to see to: structs and keys it passes are memory of the right size, with terminated strings where the
library reads them (`CProper` for groups and legacy groups, C137); a loop has rounds enough. -/
def CRollCall.proper (pub : Bytes → Bytes) (c : Client) : CRollCall → Prop
  | .group only k => CProper groupView (groupCApi pub only) c k
  | .legacy only free k => CProper legacyView (legacyCApi pub only free) c k
  | .getC s _ _ => s.mem
  | .orNewC s _ _ pk => s.mem ∧ pk.length = 32
  | .setC s => s.whole
  | .loop _ b fuel => b.mem ∧ (c.allGroups pub).length < fuel
  | _ => True

/-- The URL alone is acceptable: with some room it names a community. -/
def UrlOk (base : Bytes) : Prop := ∃ room b r, CommNames base room b r

/-- The text about what is wrong: the URL, if it is, otherwise the room. -/
def TellsWhyU (base m : Bytes) : Prop := (¬ UrlOk base → m ∈ urlTexts) ∧ (UrlOk base → m ∈ roomTexts)

/-- The groups of a roll that a loop is about, in order: groups, communities, legacy groups; by id, or by server and room. -/
inductive Roll.Shows (R : Roll) : GroupSel → List AnyGroup → Prop
  | groups (l) : Listing Group.id R.groups l → R.Shows .groups (l.map .group)
  | comms (l) : R.ListsC l → R.Shows .comms (l.map .comm)
  | legacy (l) : Listing Legacy.id R.legacy l → R.Shows .legacy (l.map .legacy)
  | all (l1 l2 l3) : Listing Group.id R.groups l1 → R.ListsC l2 → Listing Legacy.id R.legacy l3 →
      R.Shows .all (l1.map .group ++ l2.map .comm ++ l3.map .legacy)

/-- What a roll answers to a C call, and the roll afterwards. -/
inductive CRollSays (pub : Bytes → Bytes) (R : Roll) : CRollCall → CRollRes → Roll → Prop
  | group (only) {k x M} : CSays (groupSpec pub) groupView R.groups k x M →
      CRollSays pub R (.group only k) (.group x) { R with groups := M }
  | legacy (only free) {k x M} : CSays legacySpec legacyView R.legacy k x M →
      CRollSays pub R (.legacy only free k) (.legacy x) { R with legacy := M }
  | getC {base room b r} (s t x) : CommNames base room b r → R.rooms b r = some x → CUComm.whole t →
      t.Holds ⟨b, x.1, R.key b, x.2⟩ → CRollSays pub R (.getC s base room) (.reply (.ok ⟨some t, none⟩)) R
  | getCNone {base room b r} (s) : CommNames base room b r → R.rooms b r = none →
      CRollSays pub R (.getC s base room) (.reply (.ok ⟨none, none⟩)) R
  | getCBad {base room} (s m) : BadName base room → TellsWhyU base m →
      CRollSays pub R (.getC s base room) (.reply (.ok ⟨none, some m⟩)) R
  | orNewC {base room b r} (s t pk) : CommNames base room b r → CUComm.whole t →
      t.Holds (((R.rooms b r).map fun x => ⟨b, x.1, pk, x.2⟩).getD ⟨b, room, pk, {}⟩) →
      CRollSays pub R (.orNewC s base room pk) (.reply (.ok ⟨some t, none⟩)) R
  | orNewCBad {base room} (s pk m) : BadName base room → TellsWhyU base m →
      CRollSays pub R (.orNewC s base room pk) (.reply (.ok ⟨none, some m⟩)) R
  | setC {b r} (s : CUComm) : CommNames (cStr s.url) (cStr s.room) b r → CRollSays pub R (.setC s) (.done (.ok ()))
      ((R.setKey b s.pubkey).setRoom b r (some (cStr s.room, s.info.norm)))
  | setCBad (s : CUComm) : BadName (cStr s.url) (cStr s.room) → CRollSays pub R (.setC s) (.done (.err .foreign)) R
  | eraseC {base room b r} : CommNames base room b r →
      CRollSays pub R (.eraseC base room) (.erased (.ok (R.rooms b r).isSome)) (R.setRoom b r none)
  | eraseCBad {base room} : BadName base room → CRollSays pub R (.eraseC base room) (.erased (.ok false)) R
  | sizeC (l) : R.Shows .comms l → CRollSays pub R .sizeC (.counted l.length) R
  | sizeAll (l) : R.Shows .all l → CRollSays pub R .sizeAll (.counted l.length) R
  | loop (sel b fuel l L) : R.Shows sel l → List.Forall₂ CGroupAny.Shows L l →
      CRollSays pub R (.loop sel b fuel) (.looped (.ok L)) R

/-- A sequence of C calls with their results, explained by a roll. -/
inductive CRollExplained (pub : Bytes → Bytes) : Roll → List (CRollCall × CRollRes) → Roll → Prop
  | nil (R : Roll) : CRollExplained pub R [] R
  | snoc {R R' R'' : Roll} {t : List (CRollCall × CRollRes)} {k : CRollCall} {x : CRollRes} :
      CRollExplained pub R t R' → CRollSays pub R' k x R'' → CRollExplained pub R (t ++ [(k, x)]) R''

/-- A history of C calls, with anything in between that does not edit the groups (see C136). -/
inductive CRollRun (pub : Bytes → Bytes) (S : Sys) : Client → List (CRollCall × CRollRes) → Client → Prop
  | nil (c : Client) : CRollRun pub S c [] c
  | call {c c' : Client} {t : List (CRollCall × CRollRes)} (k : CRollCall) : CRollRun pub S c t c' → k.proper pub c' →
      int64Ok (c'.seqno + 1) = true → CRollRun pub S c (t ++ [(k, (k.run pub S c').2)]) (k.run pub S c').1
  | between {c c' c'' : Client} {t : List (CRollCall × CRollRes)} : CRollRun pub S c t c' →
      (∀ P ∈ [[[103]], [[67]], [[111]]], Between S P c' c'') → CRollRun pub S c t c''

/-! ### The structs -/

theorem CUComm.fill_ok {s : CUComm} (hs : s.mem) {x : Comm} {r : Bytes} (hb : canonUrl x.base = .ok x.base)
    (hr : canonRoom x.room = .ok r) (hk : x.pubkey.length = 32) (hi : x.info.inRange = true) :
    ∃ t, s.fill x = .ok t ∧ t.whole ∧ t.Holds x := by
  obtain ⟨n1, n2⟩ := canon_no_nul hb
  obtain ⟨m1, m2⟩ := room_no_nul hr
  obtain ⟨h1, h2, h3, _⟩ := hs
  obtain ⟨u, u1, u2, u3⟩ := putStr_holds (a := s.url) (s := x.base) (by omega) n1
  obtain ⟨v, v1, v2, v3⟩ := putStr_holds (a := s.room) (s := x.room) (by omega) m1
  refine ⟨⟨u, v, x.pubkey, x.info⟩, ?_, ⟨⟨u2.trans h1, v2.trans h2, hk, hi⟩, u3.nul, v3.nul⟩, u3.cStr, v3.cStr, rfl, rfl⟩
  unfold CUComm.fill
  rw [u1]
  show (putStr s.room x.room).bind _ = _
  rw [v1]
  show (putBytes 32 s.pubkey x.pubkey).bind _ = _
  rw [putBytes_exact h3 hk]; rfl

theorem CUComm.read_ok {s : CUComm} (hs : s.whole) : s.read = .ok ⟨cStr s.url, cStr s.room, s.pubkey, s.info⟩ := by
  obtain ⟨⟨_, _, h3, _⟩, hu, hr⟩ := hs
  unfold CUComm.read getStr
  rw [if_pos hu, if_pos hr, getBytes_take (by omega), List.take_of_length_le (by omega)]
  rfl

theorem urlOk_iff {base : Bytes} : UrlOk base ↔ ∃ b, canonUrl base = .ok b := by
  constructor
  · rintro ⟨room, b, r, h⟩; exact ⟨b, (names_iff.1 h).1⟩
  · rintro ⟨b, h⟩
    exact ⟨[97], b, [97], names_iff.2 ⟨h, by decide⟩⟩

theorem ucommMsg_tells {c : Client} {base room : Bytes} (hn : BadName base room) :
    TellsWhyU base (c.ucommMsg base room) := by
  unfold TellsWhyU
  rw [urlOk_iff]
  unfold Client.ucommMsg
  cases hb : canonUrl base with
  | ok b =>
    refine ⟨fun h => absurd ⟨b, rfl⟩ h, fun _ => ?_⟩
    cases hr : canonRoom room with
    | ok r => exact (hn b r (names_iff.2 ⟨hb, hr⟩)).elim
    | _ => exact roomMsg_mem _
  | _ => exact ⟨fun _ => urlMsg_mem _, (fun h => by obtain ⟨b, h⟩ := h; cases h)⟩

theorem ucommMsg_err {R T : Type} {c : Client} {base room : Bytes} {conv : R → Out T} :
    cGet (c.ucommMsg base room) conv (.err .foreign) = .ok ⟨none, some (c.ucommMsg base room)⟩ := by
  show (copyCStr 256 _).bind _ = _
  have hl : (c.ucommMsg base room).length < 256 := by
    rcases List.mem_append.1 (ucommMsg_cases c base room).2.2.1 with h | h
    · exact texts_short.1 _ h
    · exact texts_short.2 _ h
  rw [copyCStr_fits hl]; rfl

/-! ### The roll held -/

/-- What C programs can have put there. -/
structure Roll.Clean (pub : Bytes → Bytes) (R : Roll) : Prop where
  groups : ∀ k r, R.groups k = some r → r.CClean pub
  legacy : ∀ k r, R.legacy k = some r → r.CClean
  rooms : ∀ b r x, R.rooms b r = some x → x.2.inRange = true ∧ x.2.norm = x.2

theorem roll_room_facts {pub : Bytes → Bytes} {S : Sys} {c : Client} {R : Roll} (h : RollHolds pub S c R) {b r : Bytes}
    {x : Bytes × GroupBase} (hx : R.rooms b r = some x) :
    canonUrl b = .ok b ∧ canonRoom x.1 = .ok r ∧ (R.key b).length = 32 := by
  rcases h.room b r with ⟨_, g⟩ | ⟨e, n, _, cb, _, _, g3, g4, _, k2⟩
  · rw [g] at hx; cases hx
  · rw [g4] at hx; cases hx
    exact ⟨cb, g3, k2⟩

/-- What a C call on one collection does not touch. -/
theorem c_call_other {R T : Type} {S : Sys} (hS : S.Good) {Q : Shelf R} {A : MapApi R} {sp : MapSpec R} (hQ : Q.Lawful A sp)
    {V : CView R T} {C : CMapApi T} {clean : R → Prop} {plain : Bytes → R → Prop} {conv : R → T → Out T} {back : T → Out R}
    (L : CLaws sp V A C clean plain conv back) {c : Client} (hc : Reach S c) (k : SCall T) (hk : CProper V C c k) {q : List Bytes}
    (hq : ¬ Nested Q.path q) : (C.run S c k).1.get q = c.get q := by
  cases k with
  | get s id => rfl
  | orNew s id => rfl
  | size => rfl
  | loop s fuel => rfl
  | set s =>
    obtain ⟨hm, r, hr⟩ := hk
    obtain ⟨r1, r2, _⟩ := L.read s r hm hr
    show (C.set S c s).1.get q = _
    rw [L.set, r1]
    exact call_other hS hQ hc (.set r) (by rintro _ ⟨⟩; exact r2) hq
  | erase id =>
    show (C.erase S c id).1.get q = _
    have e1 : (C.erase S c id).1 = (A.remove S c id).1 := by
      rw [L.erase]; unfold cErase
      split
      · rename_i heq; rw [heq]
      · rfl
    rw [e1]
    exact call_other hS hQ hc (.erase id) (by rintro _ ⟨⟩) hq

/-! ### The loop -/

theorem groupLoop_of {pub : Bytes → Bytes} : ∀ (fuel : Nat) (it : UGroupIter) (b : GroupBoxes) (l : List AnyGroup),
    loopList UGroupIter.done (fun it => derefVal it.val) (·.next pub) fuel it = .ok l → b.mem →
      (∀ a ∈ l, ∀ b : GroupBoxes, b.mem → ∃ p, b.ask a = .ok p ∧ p.1.mem ∧ p.2.Shows a) →
      ∃ L, groupLoop pub fuel it b = .ok L ∧ List.Forall₂ CGroupAny.Shows L l
  | 0, _, _, _, h, _, _ => by cases h
  | fuel + 1, it, b, l, h, hm, hall => by
    unfold loopList at h
    unfold groupLoop
    by_cases hs : it.done = true
    · rw [if_pos hs] at h ⊢
      cases h
      exact ⟨[], rfl, .nil⟩
    · rw [if_neg hs] at h ⊢
      obtain ⟨a, ha, h⟩ := Out.bind_eq_ok.1 h
      obtain ⟨it', hi, h⟩ := Out.bind_eq_ok.1 h
      obtain ⟨t, ht, h⟩ := Out.bind_eq_ok.1 h
      cases h
      obtain ⟨p, hp, hpm, hh⟩ := hall a List.mem_cons_self b hm
      obtain ⟨L, hL, hF⟩ := groupLoop_of fuel it' p.1 t ht hpm fun x hx => hall x (List.mem_cons_of_mem _ hx)
      refine ⟨p.2 :: L, ?_, .cons hh hF⟩
      rw [ha]
      show (b.ask a).bind _ = _
      rw [hp]
      show (it.next pub).bind _ = _
      rw [hi]
      show (groupLoop pub fuel it' p.1).bind _ = _
      rw [hL]; rfl

theorem groups_ask {pub : Bytes → Bytes} {g : Group} (hg : g.CClean pub) {b : GroupBoxes} (hb : b.mem) :
    ∃ p, b.ask (.group g) = .ok p ∧ p.1.mem ∧ p.2.Shows (.group g) := by
  obtain ⟨s, h1, h2, h3⟩ := group_into hg hb.1
  exact ⟨({ b with group := s }, .group s), by show Out.bind _ _ = _; rw [h1]; rfl, ⟨h2, hb.2.1, hb.2.2⟩, h2, h3⟩

theorem legacy_ask {g : Legacy} (hg : g.CClean) {b : GroupBoxes} (hb : b.mem) :
    ∃ p, b.ask (.legacy g) = .ok p ∧ p.1.mem ∧ p.2.Shows (.legacy g) := by
  obtain ⟨s, h1, h2, h3⟩ := legacy_into hg hb.2.2
  exact ⟨({ b with legacy := s }, .legacy s), by show Out.bind _ _ = _; rw [h1]; rfl, ⟨hb.1, hb.2.1, h2⟩, h2, h3⟩

theorem comm_ask {pub : Bytes → Bytes} {S : Sys} {c : Client} {R : Roll} (h : RollHolds pub S c R) (hc : R.Clean pub) {x : Comm}
    (hx : R.rooms x.base (lower x.room) = some (x.room, x.info) ∧ x.pubkey = R.key x.base) {b : GroupBoxes} (hb : b.mem) :
    ∃ p, b.ask (.comm x) = .ok p ∧ p.1.mem ∧ p.2.Shows (.comm x) := by
  obtain ⟨e1, e2, e3⟩ := roll_room_facts h hx.1
  obtain ⟨s, h1, h2, h3⟩ := CUComm.fill_ok hb.2.1 e1 e2 (by rw [hx.2]; exact e3) (hc.rooms _ _ _ hx.1).1
  exact ⟨({ b with comm := s }, .comm s), by show Out.bind _ _ = _; rw [h1]; rfl, ⟨hb.1, h2.1, hb.2.2⟩, h2, h3⟩

/-! ### Every call -/

theorem c_call_roll {pub : Bytes → Bytes} (hpub : ∀ s, (pub s).length = 32) {S : Sys} (hS : S.Good)
    (hro : S.env.readonly = false) {c : Client} {R : Roll} (h : RollHolds pub S c R) (hcl : R.Clean pub) (k : CRollCall)
    (hk : k.proper pub c) (hov : int64Ok (c.seqno + 1) = true) :
    ∃ R', CRollSays pub R k (k.run pub S c).2 R' ∧ RollHolds pub S (k.run pub S c).1 R' ∧ R'.Clean pub := by
  have hG := groupShelf_lawful hpub
  have hL := legacyShelf_lawful
  have rest : ∀ {c' : Client} {a : Bytes}, (∀ q, ¬ Nested [a] q → c'.get q = c.get q) → a ≠ [111] →
      (∀ b r, c'.get (roomPath b r) = c.get (roomPath b r)) ∧ ∀ b, c'.serverKey b = c.serverKey b := by
    intro c' a ho ha
    refine ⟨fun b r => ho _ fun hn => ha (nested_head hn), fun b => ?_⟩
    refine serverKey_congr (ho _ fun hn => ha (nested_head hn))
  cases k with
  | group only k =>
    obtain ⟨M, h1, h2, h3⟩ := c_call_says hS hro hG (group_laws hpub only) h.groups hcl.groups k hk hov
    have ho : ∀ q, ¬ Nested [[103]] q → ((groupCApi pub only).run S c k).1.get q = c.get q :=
      fun q hq => c_call_other hS hG (group_laws hpub only) h.groups.reach k hk hq
    obtain ⟨r1, r2⟩ := rest ho (by decide)
    refine ⟨_, .group only h1, ⟨h2, ?_, fun b r v hv => ?_, fun b r => ?_, fun b r hb => ?_⟩, h3, hcl.legacy, hcl.rooms⟩
    · exact untouched_holds hL h.legacy h2.reach (ho _ fun hn => absurd (nested_head hn) (by decide))
    · exact h.clean b r v (by rw [← r1]; exact hv)
    · exact (congrArg loadSpelled (r1 b r)).trans (h.rooms b r)
    · exact (r2 b) ▸ h.key b r (by rw [← r1]; exact hb)
  | legacy only free k =>
    obtain ⟨M, h1, h2, h3⟩ := c_call_says hS hro hL (legacy_laws pub only free) h.legacy hcl.legacy k hk hov
    have ho : ∀ q, ¬ Nested [[67]] q → ((legacyCApi pub only free).run S c k).1.get q = c.get q :=
      fun q hq => c_call_other hS hL (legacy_laws pub only free) h.legacy.reach k hk hq
    obtain ⟨r1, r2⟩ := rest ho (by decide)
    refine ⟨_, .legacy only free h1, ⟨?_, h2, fun b r v hv => ?_, fun b r => ?_, fun b r hb => ?_⟩, hcl.groups, h3, hcl.rooms⟩
    · exact untouched_holds hG h.groups h2.reach (ho _ fun hn => absurd (nested_head hn) (by decide))
    · exact h.clean b r v (by rw [← r1]; exact hv)
    · exact (congrArg loadSpelled (r1 b r)).trans (h.rooms b r)
    · exact (r2 b) ▸ h.key b r (by rw [← r1]; exact hb)
  | getC s base room =>
    obtain ⟨R', hs, _⟩ := call_roll hpub hS hro h (.getC base room) trivial hov
    have hs : RollSays pub R (.getC base room) (.gotC (c.getUComm base room)) R' := hs
    show ∃ R', CRollSays pub R (.getC s base room) (.reply (c.sUCommGet s base room)) R' ∧ RollHolds pub S c R' ∧ R'.Clean pub
    refine ⟨R, ?_, h, hcl⟩
    unfold Client.sUCommGet
    generalize c.getUComm base room = o at hs
    cases hs with
    | @getC _ _ b r hn =>
      cases hx : R.rooms b r with
      | none => exact .getCNone s hn hx
      | some x =>
        obtain ⟨e1, e2, e3⟩ := roll_room_facts h hx
        obtain ⟨t, ht, tm, th⟩ := CUComm.fill_ok (x := ⟨b, x.1, R.key b, x.2⟩) hk e1 e2 e3 (hcl.rooms _ _ _ hx).1
        show CRollSays pub R _ (.reply ((s.fill _).bind _)) R
        rw [ht]; exact .getC s t x hn hx tm th
    | getCBad hn => rw [ucommMsg_err]; exact .getCBad s _ hn (ucommMsg_tells hn)
  | orNewC s base room pk =>
    obtain ⟨hm, hl⟩ := hk
    obtain ⟨R', hs, _⟩ := call_roll hpub hS hro h (.orNewC base room pk) trivial hov
    have hs : RollSays pub R (.orNewC base room pk) (.madeC (c.ucommOr base room pk)) R' := hs
    show ∃ R', CRollSays pub R (.orNewC s base room pk) (.reply (c.sUCommOr s base room pk)) R' ∧ RollHolds pub S c R' ∧ R'.Clean pub
    refine ⟨R, ?_, h, hcl⟩
    unfold Client.sUCommOr
    rw [getBytes_take (by omega), List.take_of_length_le (by omega)]
    show CRollSays pub R _ (.reply (cGet _ _ _)) R
    generalize c.ucommOr base room pk = o at hs
    cases hs with
    | @orNewC _ _ b r _ hn _ =>
      obtain ⟨nb, nr⟩ := names_iff.1 hn
      have hf : ∃ t, s.fill (((R.rooms b r).map fun x => ⟨b, x.1, pk, x.2⟩).getD ⟨b, room, pk, {}⟩) = .ok t ∧ t.whole ∧
          t.Holds (((R.rooms b r).map fun x => ⟨b, x.1, pk, x.2⟩).getD ⟨b, room, pk, {}⟩) := by
        cases hx : R.rooms b r with
        | none => exact CUComm.fill_ok (x := ⟨b, room, pk, {}⟩) hm (canonical_url_idem _ _ nb) nr hl (by show GroupBase.inRange {} = true; decide)
        | some x =>
          obtain ⟨e1, e2, e3⟩ := roll_room_facts h hx
          exact CUComm.fill_ok (x := ⟨b, x.1, pk, x.2⟩) hm e1 e2 hl (hcl.rooms _ _ _ hx).1
      obtain ⟨t, ht, tm, th⟩ := hf
      show CRollSays pub R _ (.reply ((s.fill _).bind _)) R
      rw [ht]; exact .orNewC s t pk hn tm th
    | orNewCBad hn =>
      rcases hn with hn | hn
      · show CRollSays pub R _ (.reply (cGet _ _ (.err .foreign))) R
        rw [ucommMsg_err]; exact .orNewCBad s pk _ hn (ucommMsg_tells hn)
      · exact absurd hl hn
  | setC s =>
    obtain ⟨⟨m1, m2, m3, m4⟩, _⟩ := id hk
    obtain ⟨R', hs, hh⟩ := call_roll hpub hS hro h (.setC ⟨cStr s.url, cStr s.room, s.pubkey, s.info⟩) m4 hov
    have e : c.sUCommSet S s = c.setUComm S ⟨cStr s.url, cStr s.room, s.pubkey, s.info⟩ := by
      unfold Client.sUCommSet; rw [CUComm.read_ok hk]; rfl
    have hs : RollSays pub R (.setC ⟨cStr s.url, cStr s.room, s.pubkey, s.info⟩) (.done (c.sUCommSet S s).2) R' := by
      rw [e]; exact hs
    have hh : RollHolds pub S (c.sUCommSet S s).1 R' := by rw [e]; exact hh
    show ∃ R', CRollSays pub R (.setC s) (.done (c.sUCommSet S s).2) R' ∧ RollHolds pub S (c.sUCommSet S s).1 R' ∧ R'.Clean pub
    refine ⟨R', ?_, hh, ?_⟩
    · generalize (c.sUCommSet S s).2 = o at hs
      cases hs with
      | setC hn _ => exact .setC s hn
      | setCBad hn =>
        rcases hn with hn | hn
        · exact .setCBad s hn
        · exact absurd m3 hn
    · generalize (c.sUCommSet S s).2 = o at hs
      cases hs with
      | @setC _ b r hn _ =>
        refine ⟨hcl.groups, hcl.legacy, fun b' r' x hx => ?_⟩
        have hx : (if b' = b ∧ r' = r then some (cStr s.room, s.info.norm) else R.rooms b' r') = some x := hx
        by_cases hb : b' = b ∧ r' = r
        · rw [if_pos hb] at hx; cases hx
          exact ⟨base_norm_inRange m4, base_norm_norm _⟩
        · rw [if_neg hb] at hx; exact hcl.rooms _ _ _ hx
      | setCBad hn => exact hcl
  | eraseC base room =>
    obtain ⟨R', hs, hh⟩ := call_roll hpub hS hro h (.eraseC base room) trivial hov
    have hs : RollSays pub R (.eraseC base room) (.erased (c.eraseComm S base room).2) R' := hs
    have hh : RollHolds pub S (c.eraseComm S base room).1 R' := hh
    show ∃ R', CRollSays pub R (.eraseC base room) (.erased (c.cCommErase S base room).2) R' ∧
      RollHolds pub S (c.cCommErase S base room).1 R' ∧ R'.Clean pub
    unfold Client.cCommErase
    generalize hr : c.eraseComm S base room = x at hs hh
    obtain ⟨c1, o⟩ := x
    simp only at hs hh
    cases hs with
    | @eraseC _ _ b r hn =>
      refine ⟨_, .eraseC hn, hh, hcl.groups, hcl.legacy, fun b' r' x hx => ?_⟩
      have hx : (if b' = b ∧ r' = r then none else R.rooms b' r') = some x := hx
      by_cases hb : b' = b ∧ r' = r
      · rw [if_pos hb] at hx; cases hx
      · rw [if_neg hb] at hx; exact hcl.rooms _ _ _ hx
    | eraseCBad hn => exact ⟨_, .eraseCBad hn, hh, hcl⟩
  | sizeC =>
    refine ⟨R, ?_, h, hcl⟩
    show CRollSays pub R .sizeC (.counted c.commSize) R
    rw [(urooms_lists hS h).2]
    have := CRollSays.sizeC (pub := pub) _ (.comms _ (urooms_lists hS h).1)
    rwa [List.length_map] at this
  | sizeAll =>
    refine ⟨R, ?_, h, hcl⟩
    show CRollSays pub R .sizeAll (.counted c.allGroupsSize) R
    obtain ⟨g1, g2⟩ := holds_listing hS hG h.groups
    obtain ⟨l1, l2⟩ := holds_listing hS hL h.legacy
    obtain ⟨u1, u2⟩ := urooms_lists hS h
    have : c.allGroupsSize = (c.groups pub).length + c.ucomms.length + c.legacies.length := by
      unfold Client.allGroupsSize
      rw [u2, show c.legacySize = c.legacies.length from l2, show c.groupsSize = (c.groups pub).length from g2]
      omega
    rw [this]
    have := CRollSays.sizeAll (pub := pub) _ (.all _ _ _ g1 u1 l1)
    simp only [List.length_append, List.length_map] at this
    exact this
  | loop sel b fuel =>
    obtain ⟨hm, hf⟩ := hk
    refine ⟨R, ?_, h, hcl⟩
    show CRollSays pub R (.loop sel b fuel) (.looped (groupLoop pub fuel (c.groupSelIter pub sel) b)) R
    have g1 := (holds_listing hS hG h.groups).1
    have l1 := (holds_listing hS hL h.legacy).1
    have u1 := (urooms_lists hS h).1
    obtain ⟨q1, q2, q3, q4⟩ := ugroup_loop pub c hf UGroupIter.done (.inl rfl)
    have a1 : ∀ a ∈ (c.groups pub).map AnyGroup.group, ∀ b : GroupBoxes, b.mem → ∃ p, b.ask a = .ok p ∧ p.1.mem ∧ p.2.Shows a := by
      intro a ha b hb
      obtain ⟨g, hg, rfl⟩ := List.mem_map.1 ha
      exact groups_ask (hcl.groups _ g ((g1.all _ g).2 ⟨hg, rfl⟩)) hb
    have a2 : ∀ a ∈ c.ucomms.map AnyGroup.comm, ∀ b : GroupBoxes, b.mem → ∃ p, b.ask a = .ok p ∧ p.1.mem ∧ p.2.Shows a := by
      intro a ha b hb
      obtain ⟨x, hx, rfl⟩ := List.mem_map.1 ha
      exact comm_ask h hcl ((u1.all x).1 hx) hb
    have a3 : ∀ a ∈ c.legacies.map AnyGroup.legacy, ∀ b : GroupBoxes, b.mem → ∃ p, b.ask a = .ok p ∧ p.1.mem ∧ p.2.Shows a := by
      intro a ha b hb
      obtain ⟨g, hg, rfl⟩ := List.mem_map.1 ha
      exact legacy_ask (hcl.legacy _ g ((l1.all _ g).2 ⟨hg, rfl⟩)) hb
    have go : ∀ l, R.Shows sel l →
        loopList UGroupIter.done (fun it => derefVal it.val) (·.next pub) fuel (c.groupSelIter pub sel) = .ok l →
        (∀ a ∈ l, ∀ b : GroupBoxes, b.mem → ∃ p, b.ask a = .ok p ∧ p.1.mem ∧ p.2.Shows a) →
        CRollSays pub R (.loop sel b fuel) (.looped (groupLoop pub fuel (c.groupSelIter pub sel) b)) R := by
      intro l hl hlo hin
      obtain ⟨L, hL, hF⟩ := groupLoop_of fuel _ b l hlo hm hin
      rw [hL]; exact .loop sel b fuel l L hl hF
    cases sel with
    | groups => exact go _ (.groups _ g1) q2 a1
    | comms => exact go _ (.comms _ u1) q3 a2
    | legacy => exact go _ (.legacy _ l1) q4 a3
    | all =>
      refine go _ (.all _ _ _ g1 u1 l1) q1 fun a ha => ?_
      rcases List.mem_append.1 ha with ha | ha
      · rcases List.mem_append.1 ha with ha | ha
        · exact a1 a ha
        · exact a2 a ha
      · exact a3 a ha

/-- C146, with what the object looks like at the end. -/
theorem c_roll_behaves {pub : Bytes → Bytes} (hpub : ∀ s, (pub s).length = 32) {S : Sys} (hS : S.Good)
    (hro : S.env.readonly = false) {c0 c : Client} (h0 : c0 = Client.new S) {t : List (CRollCall × CRollRes)}
    (h : CRollRun pub S c0 t c) : ∃ R, CRollExplained pub Roll.empty t R ∧ RollHolds pub S c R ∧ R.Clean pub := by
  induction h with
  | nil => subst h0; exact ⟨_, .nil _, new_rollHolds hpub S, by rintro _ _ ⟨⟩, by rintro _ _ ⟨⟩, by rintro _ _ _ ⟨⟩⟩
  | call k _ hk hov ih =>
    obtain ⟨R, he, hb, hc⟩ := ih
    obtain ⟨R', h1, h2, h3⟩ := c_call_roll hpub hS hro hb hc k hk hov
    exact ⟨R', .snoc he h1, h2, h3⟩
  | between _ hb ih =>
    obtain ⟨R, he, hh, hc⟩ := ih
    exact ⟨R, he, between_roll hpub hS hro hh hb, hc⟩

/-- C146.  A C program that keeps the user's groups through `user_groups_*` sees a roll: whatever sequence of `get`,
`get_or_construct`, `set`, `set_free`, `erase`, `size` and loops (over everything or one type) it makes on groups, communities and
legacy groups, with structs of its own that hold anything beforehand, and with anything of C136 in between, every call fills the
right struct with exactly what a roll with the same history holds, touches no memory outside, reports errors with the text for
what is wrong, and lets an exception out exactly when a struct with an invalid id, URL or room is set. -/
theorem c_group_list_is_a_roll {pub : Bytes → Bytes} (hpub : ∀ s, (pub s).length = 32) {S : Sys} (hS : S.Good)
    (hro : S.env.readonly = false) {c : Client} {t : List (CRollCall × CRollRes)} (h : CRollRun pub S (Client.new S) t c) :
    ∃ R, CRollExplained pub Roll.empty t R := by
  obtain ⟨R, hR, _⟩ := c_roll_behaves hpub hS hro rfl h; exact ⟨R, hR⟩

/-! ### Putting back what was read -/

/-- What a C program got from a collection it can set, and the map stays as it is. -/
theorem c_set_back {R T : Type} {S : Sys} (hS : S.Good) (hro : S.env.readonly = false) {Q : Shelf R} {A : MapApi R}
    {sp : MapSpec R} (hQ : Q.Lawful A sp) {V : CView R T} {C : CMapApi T} {clean : R → Prop} {plain : Bytes → R → Prop}
    {conv : R → T → Out T} {back : T → Out R} (L : CLaws sp V A C clean plain conv back) {c : Client} {M : RecMap R}
    (h : Holds S Q sp c M) (hc : ∀ k r, M k = some r → clean r) {s s' : T} {id : Bytes} (hm : V.mem s) (hi : V.ids id)
    (hov : int64Ok (c.seqno + 1) = true) (hg : C.get c s id = .ok ⟨some s', none⟩)
    (hp : ∀ r, M (lower id) = some r → plain id r) :
    CProper V C c (.set s') ∧ ∀ x M', CSays sp V M (.set s') x M' → x = .done (.ok ()) ∧ M' = M := by
  have hfind := holds_find hS hro hQ h hov id
  obtain ⟨M1, f1, _, _⟩ := c_call_says hS hro hQ L h hc (.get s id) ⟨hm, hi⟩ hov
  have f1 : CSays sp V M (.get s id) (.reply (C.get c s id)) M1 := f1
  rw [hg] at f1
  cases f1 with
  | get _ _ _ r hid hr hsh =>
    rw [if_pos hid, hr] at hfind
    have hrid := holds_rid hQ h hr
    obtain ⟨a1, a2, a3⟩ := L.again s' id r hid (hc _ r hr) hrid (hp r hr) hsh
    have hm' : V.mem s' := by
      obtain ⟨s0, hs0, e⟩ := L.getOk c s id _ hm hfind
      obtain ⟨s1, b1, b2, b3⟩ := L.into _ s0 (L.spelled id r hid (hc _ r hr) hrid) hs0
      rw [hg] at e
      have e : (.ok ⟨some s', none⟩ : Out (CReply T)) = (conv (sp.spelled id r) s0).bind fun t => .ok ⟨some t, none⟩ := e
      rw [b1] at e
      have e : (.ok ⟨some s', none⟩ : Out (CReply T)) = .ok ⟨some s1, none⟩ := e
      cases e
      exact b2
    refine ⟨⟨hm', _, a1⟩, fun x M' hx => ?_⟩
    have one : ∀ q, V.means s' q → q = sp.spelled id r := fun q hq =>
      Out.ok.inj ((L.read s' q hm' hq).1.symm.trans (L.read s' _ hm' a1).1)
    cases hx with
    | set _ q hq g =>
      rw [one q hq, a2, hr, a3]
      refine ⟨rfl, ?_⟩
      funext k
      unfold RecMap.upd
      by_cases hk : k = lower id
      · rw [if_pos hk, hk, hr]
      · rw [if_neg hk]
    | setBad _ q hq g => rw [one q hq, a2, hid] at g; cases g

theorem Roll.setRoom_same {R : Roll} {b r : Bytes} : (R.setKey b (R.key b)).setRoom b r (R.rooms b r) = R := by
  unfold Roll.setRoom Roll.setKey
  cases R with
  | mk g l x z =>
    congr 1
    · funext b' r'
      by_cases h : b' = b ∧ r' = r
      · rw [if_pos h, h.1, h.2]
      · rw [if_neg h]
    · funext b'
      show (if b' = b then z b else z b') = z b'
      by_cases h : b' = b
      · rw [if_pos h, h]
      · rw [if_neg h]

theorem same_roll {pub : Bytes → Bytes} (hpub : ∀ s, (pub s).length = 32) {S : Sys} (hS : S.Good) (hro : S.env.readonly = false)
    {c d : Client} {R : Roll} (hc : RollHolds pub S c R) (hd : RollHolds pub S d R) (ho : int64Ok (c.seqno + 1) = true)
    (ho' : int64Ok (d.seqno + 1) = true) {k : RollCall} (hp : k.proper pub) : (k.run pub S d).2 = (k.run pub S c).2 := by
  obtain ⟨_, a, _⟩ := call_roll hpub hS hro hc k hp ho
  obtain ⟨_, b, _⟩ := call_roll hpub hS hro hd k hp ho'
  exact (roll_unique b a).1

/-- C146.  What a C program read into a struct it can `set` again at any time, and nothing changes for any reader: every call of
C139 on the object, about this or any other group, is answered as before.  (A group that has an admin key must be asked for in
lower case, as in C137.) -/
theorem c_group_put_back {pub : Bytes → Bytes} (hpub : ∀ s, (pub s).length = 32) {S : Sys} (hS : S.Good)
    (hro : S.env.readonly = false) {c : Client} {t : List (CRollCall × CRollRes)} (h : CRollRun pub S (Client.new S) t c)
    (hov : int64Ok (c.seqno + 1) = true) :
    (∀ s s' base room d, s.mem → c.sUCommGet s base room = .ok ⟨some s', none⟩ →
      d = (c.sUCommSet S s').1 → int64Ok (d.seqno + 1) = true →
      (c.sUCommSet S s').2 = .ok () ∧ ∀ q : RollCall, q.proper pub → (q.run pub S d).2 = (q.run pub S c).2) ∧
    (∀ s s' id d, groupView.mem s → lower id = id → c.sGroupGet pub s id = .ok ⟨some s', none⟩ →
      d = (c.sGroupSet S s').1 → int64Ok (d.seqno + 1) = true →
      (c.sGroupSet S s').2 = .ok () ∧ ∀ q : RollCall, q.proper pub → (q.run pub S d).2 = (q.run pub S c).2) ∧
    (∀ s' id d, id.length < 191 → c.sLegacyGet id = .ok ⟨some s', none⟩ →
      d = (c.sLegacySet S s').1 → int64Ok (d.seqno + 1) = true →
      (c.sLegacySet S s').2 = .ok () ∧ ∀ q : RollCall, q.proper pub → (q.run pub S d).2 = (q.run pub S c).2) := by
  obtain ⟨R, _, hB, hcl⟩ := c_roll_behaves hpub hS hro rfl h
  refine ⟨fun s s' base room d hm hg hd ho => ?_, fun s s' id d hm hi hg hd ho => ?_, fun s' id d hi hg hd ho => ?_⟩
  · obtain ⟨R1, a1, _⟩ := c_call_roll hpub hS hro hB hcl (.getC s base room) hm hov
    have a1 : CRollSays pub R (.getC s base room) (.reply (c.sUCommGet s base room)) R1 := a1
    rw [hg] at a1
    cases a1 with
    | @getC _ _ b r _ _ x hn hx tm th =>
      obtain ⟨R2, a2, b2, _⟩ := c_call_roll hpub hS hro hB hcl (.setC s') tm hov
      have a2 : CRollSays pub R (.setC s') (.done (c.sUCommSet S s').2) R2 := a2
      have b2 : RollHolds pub S (c.sUCommSet S s').1 R2 := b2
      obtain ⟨e1, e2, e3⟩ := roll_room_facts hB hx
      have hn' : CommNames (cStr s'.url) (cStr s'.room) b r := names_iff.2 (by rw [th.1, th.2.1]; exact ⟨e1, e2⟩)
      generalize (c.sUCommSet S s').2 = o at a2
      cases a2 with
      | setC _ hn2 =>
        obtain ⟨rfl, rfl⟩ := names_unique hn' hn2
        have e : (some (cStr s'.room, s'.info.norm) : Option (Bytes × GroupBase)) = R.rooms b r := by
          rw [hx, th.2.1, th.2.2.2, (hcl.rooms _ _ _ hx).2]
        rw [e, th.2.2.1, Roll.setRoom_same] at b2
        subst hd
        exact ⟨rfl, fun q q1 => same_roll hpub hS hro hB b2 hov ho q1⟩
      | setCBad _ hb => exact (hb _ _ hn').elim
  · obtain ⟨p1, p2⟩ := c_set_back hS hro (groupShelf_lawful hpub) (group_laws hpub true) hB.groups hcl.groups hm trivial hov hg
      (fun _ _ => .inl hi)
    obtain ⟨R2, a2, b2, _⟩ := c_call_roll hpub hS hro hB hcl (.group true (.set s')) p1 hov
    have a2 : CRollSays pub R (.group true (.set s')) (.group (.done (c.sGroupSet S s').2)) R2 := a2
    have b2 : RollHolds pub S (c.sGroupSet S s').1 R2 := b2
    cases a2 with
    | group _ hs =>
      obtain ⟨x1, rfl⟩ := p2 _ _ hs
      subst hd
      exact ⟨SRes.done.inj x1, fun q q1 => same_roll hpub hS hro hB b2 hov ho q1⟩
  · have hm : legacyView.mem CLegacy.fresh := by
      refine ⟨by decide, by decide, by decide, by decide, by decide, by decide, ?_⟩
      rintro _ ⟨⟩
    obtain ⟨p1, p2⟩ := c_set_back hS hro legacyShelf_lawful (legacy_laws pub true false) hB.legacy hcl.legacy
      (s := CLegacy.fresh) hm hi hov hg (fun _ _ => trivial)
    obtain ⟨R2, a2, b2, _⟩ := c_call_roll hpub hS hro hB hcl (.legacy true false (.set s')) p1 hov
    have a2 : CRollSays pub R (.legacy true false (.set s')) (.legacy (.done (c.sLegacySet S s').2)) R2 := a2
    have b2 : RollHolds pub S (c.sLegacySet S s').1 R2 := b2
    cases a2 with
    | legacy _ _ hs =>
      obtain ⟨x1, rfl⟩ := p2 _ _ hs
      subst hd
      exact ⟨SRes.done.inj x1, fun q q1 => same_roll hpub hS hro hB b2 hov ho q1⟩

/-! ### An example -/

/-- Structs on the stack of a C program: the strings, then whatever was there. -/
def exCU : CUComm := ⟨exServer ++ 0 :: List.replicate (267 - exServer.length) 7, [82, 111, 111, 109, 0] ++ List.replicate 60 7,
  List.replicate 32 3, { priority := 2, notify := .mentions }⟩
def exCG : CGroup := ⟨exOwn.id ++ [0], 0 :: List.replicate 100 7, true, exOwn.secret, false, List.replicate 100 7, exOwn.base⟩
def exCUJunk : CUComm := ⟨List.replicate 268 9, List.replicate 65 9, List.replicate 32 9, {}⟩
def exCGJunk : CGroup := ⟨List.replicate 67 9, List.replicate 101 9, true, List.replicate 64 9, true, List.replicate 100 9, {}⟩
def exCGBoxes : GroupBoxes := ⟨exCGJunk, exCUJunk, CLegacy.fresh⟩
/-- The same structs filled by the library. -/
def exCUGot : CUComm := ⟨exServer ++ 0 :: List.replicate (267 - exServer.length) 9, [82, 111, 111, 109, 0] ++ List.replicate 60 9,
  List.replicate 32 3, { priority := 2, notify := .mentions }⟩
def exCGGot : CGroup := ⟨exOwn.id ++ [0], 0 :: List.replicate 100 9, true, exOwn.secret, false, List.replicate 100 9, exOwn.base⟩

theorem exCRoll_runs {pub : Bytes → Bytes} {c0 c1 c2 : Client} {cs : CUComm} {gs : CGroup} {j : CUComm} {b : GroupBoxes}
    {base room : Bytes} {fuel : Nat} {g : Group} {o1 o2 : Out Unit} {o3 : Out (CReply CUComm)} {o4 : Out (List CGroupAny)}
    (h0 : CRollRun pub exSys (Client.new exSys) [] c0) (p1 : cs.whole) (p2 : groupView.mem gs) (q2 : GroupMeant gs g)
    (p3 : j.mem) (p4 : b.mem) (l4 : (c2.allGroups pub).length < fuel)
    (h1 : c0.sUCommSet exSys cs = (c1, o1)) (v0 : int64Ok (c0.seqno + 1) = true)
    (h2 : c1.sGroupSet exSys gs = (c2, o2)) (v1 : int64Ok (c1.seqno + 1) = true)
    (v2 : int64Ok (c2.seqno + 1) = true) (h3 : c2.sUCommGet j base room = o3)
    (h4 : groupLoop pub fuel (c2.groupSelIter pub .all) b = o4) :
    CRollRun pub exSys (Client.new exSys) [(.setC cs, .done o1), (.group true (.set gs), .group (.done o2)),
      (.getC j base room, .reply o3), (.loop .all b fuel, .looped o4)] c2 := by
  have r1 := CRollRun.call (.setC cs) h0 p1 v0
  have e1 : (CRollCall.setC cs).run pub exSys c0 = (c1, .done o1) := by show (_, CRollRes.done _) = _; rw [h1]
  rw [e1] at r1
  have r2 := CRollRun.call (.group true (.set gs)) r1 ⟨p2, g, q2⟩ v1
  have e2 : (CRollCall.group true (.set gs)).run pub exSys c1 = (c2, .group (.done o2)) := by
    show ((c1.sGroupSet exSys gs).1, CRollRes.group (.done (c1.sGroupSet exSys gs).2)) = _
    rw [h2]
  rw [e2] at r2
  have r3 := CRollRun.call (.getC j base room) r2 p3 v2
  have e3 : (CRollCall.getC j base room).run pub exSys c2 = (c2, .reply o3) := by show (_, CRollRes.reply _) = _; rw [h3]
  rw [e3] at r3
  have r4 := CRollRun.call (.loop .all b fuel) r3 ⟨p4, l4⟩ v2
  have e4 : (CRollCall.loop .all b fuel).run pub exSys c2 = (c2, .looped o4) := by show (_, CRollRes.looped _) = _; rw [h4]
  rw [e4] at r4
  exact r4

private theorem exCR_p1 : exCU.whole := by unfold CUComm.whole CUComm.mem; decide +kernel
private theorem exCR_p2 : groupView.mem exCG := by
  show exCG.id.length = 67 ∧ exCG.name.length = 101 ∧ exCG.secret.length = 64 ∧ exCG.auth.length = 100 ∧ exCG.base.inRange = true
  decide +kernel
private theorem exCR_q2 : GroupMeant exCG exOwn :=
  ⟨by decide +kernel, ⟨by decide +kernel, List.replicate 100 7, by decide +kernel⟩, by decide +kernel, by decide +kernel, rfl⟩
private theorem exCR_p3 : exCUJunk.mem := by unfold CUComm.mem; decide +kernel
private theorem exCR_g : groupView.mem exCGJunk := by
  show exCGJunk.id.length = 67 ∧ exCGJunk.name.length = 101 ∧ exCGJunk.secret.length = 64 ∧ exCGJunk.auth.length = 100 ∧
    exCGJunk.base.inRange = true
  decide +kernel
private theorem exCR_p4 : exCGBoxes.mem := by
  refine ⟨exCR_g, exCR_p3, by decide, by decide, by decide, by decide, by decide, by decide, ?_⟩
  rintro _ ⟨⟩
private theorem exCR_l4 : (exR2.allGroups exPub).length < 5 := by decide +kernel
private theorem exCR_h1 : exC0.sUCommSet exSys exCU = (exR1, .ok ()) := pair_is (by decide +kernel)
private theorem exCR_h2 : exR1.sGroupSet exSys exCG = (exR2, .ok ()) := pair_is (by decide +kernel)
private theorem exCR_v0 : int64Ok (exC0.seqno + 1) = true := by decide +kernel
private theorem exCR_v1 : int64Ok (exR1.seqno + 1) = true := by decide +kernel
private theorem exCR_v2 : int64Ok (exR2.seqno + 1) = true := by decide +kernel
private theorem exCR_h3 : exR2.sUCommGet exCUJunk exServer [114, 79, 79, 77] = .ok ⟨some exCUGot, none⟩ := by decide +kernel
private theorem exCR_h4 : groupLoop exPub 5 (exR2.groupSelIter exPub .all) exCGBoxes = .ok [.group exCGGot, .comm exCUGot] := by
  decide +kernel

/-- A history of the kind C146 is about: a community and a group set from structs, the community read back under another
spelling into a struct full of nines, and a loop over both. -/
example : CRollRun exPub exSys (Client.new exSys)
    [(.setC exCU, .done (.ok ())), (.group true (.set exCG), .group (.done (.ok ()))),
     (.getC exCUJunk exServer [114, 79, 79, 77], .reply (.ok ⟨some exCUGot, none⟩)),
     (.loop .all exCGBoxes 5, .looped (.ok [.group exCGGot, .comm exCUGot]))] exR2 :=
  exCRoll_runs (c0 := exC0) (c1 := exR1)
    (.between (.nil _) (fun _ _ => .addKey _ _ _ _ (by decide +kernel))) exCR_p1 exCR_p2 exCR_q2 exCR_p3 exCR_p4 exCR_l4
    exCR_h1 exCR_v0 exCR_h2 exCR_v1 exCR_v2 exCR_h3 exCR_h4

end Verif
