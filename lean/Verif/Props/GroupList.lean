import Verif.Props.ConvoMap
import Verif.Props.UserGroupsNet
import Verif.Props.UserGroupsWitness

/-!
# The list of groups behaves as one object, whatever is done in between: C139

`UserGroups`: groups, legacy groups and communities together; `get`, `get_or_construct`, `set`, `erase`,
iteration and `size`, of each kind and of all, over whole histories.
-/

namespace Verif

/-! ### The specification -/

/-- The groups a user is in: groups and legacy groups by id (in lower case); communities by server and room
(in canonical form), with the room as it was spelled and the settings; the key last given for a server. -/
structure Roll where
  groups : RecMap Group
  legacy : RecMap Legacy
  rooms : Bytes → Bytes → Option (Bytes × GroupBase)
  key : Bytes → Bytes

def Roll.empty : Roll := ⟨RecMap.empty, RecMap.empty, fun _ _ => none, fun _ => []⟩

def Roll.setRoom (R : Roll) (b r : Bytes) (o : Option (Bytes × GroupBase)) : Roll :=
  { R with rooms := fun b' r' => if b' = b ∧ r' = r then o else R.rooms b' r' }

def Roll.setKey (R : Roll) (b pk : Bytes) : Roll :=
  { R with key := fun b' => if b' = b then pk else R.key b' }

inductive RollCall where
  | group (k : MapCall Group)
  | groupOr (id : Bytes)
  | legacy (k : MapCall Legacy)
  | legacyOr (id : Bytes)
  | getC (base room : Bytes)
  | orNewC (base room pk : Bytes)
  | setC (x : Comm)
  | eraseC (base room : Bytes)
  | listC
  | sizeC
  | listAll
  | sizeAll

inductive RollRes where
  | group (x : MapRes Group)
  | madeG (o : Out Group)
  | legacy (x : MapRes Legacy)
  | madeL (o : Out Legacy)
  | gotC (o : Out (Option Comm))
  | madeC (o : Out Comm)
  | done (o : Out Unit)
  | erased (o : Out Bool)
  | listedC (l : List Comm)
  | counted (n : Nat)
  | listed (l : List AnyGroup)

/-- The call on the object. -/
def RollCall.run (pub : Bytes → Bytes) (S : Sys) (c : Client) : RollCall → Client × RollRes
  | .group k => (((groupApi pub).run S c k).1, .group ((groupApi pub).run S c k).2)
  | .groupOr id => (c, .madeG (c.groupOr pub id))
  | .legacy k => ((legacyApi.run S c k).1, .legacy (legacyApi.run S c k).2)
  | .legacyOr id => (c, .madeL (c.legacyOr id))
  | .getC b r => (c, .gotC (c.getUComm b r))
  | .orNewC b r pk => (c, .madeC (c.ucommOr b r pk))
  | .setC x => ((c.setUComm S x).1, .done (c.setUComm S x).2)
  | .eraseC b r => ((c.eraseComm S b r).1, .erased (c.eraseComm S b r).2)
  | .listC => (c, .listedC c.ucomms)
  | .sizeC => (c, .counted c.commSize)
  | .listAll => (c, .listed (c.allGroups pub))
  | .sizeAll => (c, .counted c.allGroupsSize)

/-- Records a caller can hand over. -/
def RollCall.proper (pub : Bytes → Bytes) : RollCall → Prop
  | .group k => ∀ r, k = .set r → (groupSpec pub).fits r
  | .legacy k => ∀ r, k = .set r → legacySpec.fits r
  | .setC x => x.info.inRange = true
  | _ => True

/-- The communities, in the order of their servers and rooms, each as spelled, with its settings and the key
of its server. -/
structure Roll.ListsC (R : Roll) (l : List Comm) : Prop where
  sorted : l.Pairwise fun x y => x.base < y.base ∨ (x.base = y.base ∧ lower x.room < lower y.room)
  all : ∀ x, x ∈ l ↔ R.rooms x.base (lower x.room) = some (x.room, x.info) ∧ x.pubkey = R.key x.base

/-- What a roll answers to a call, and the roll afterwards. -/
inductive RollSays (pub : Bytes → Bytes) (R : Roll) : RollCall → RollRes → Roll → Prop
  | group {k x M} : Says (groupSpec pub) R.groups k x M →
      RollSays pub R (.group k) (.group x) { R with groups := M }
  | groupOr {id} : checkId id pre03 = true → RollSays pub R (.groupOr id)
      (.madeG (.ok (((R.groups (lower id)).map ((groupSpec pub).spelled id)).getD { id := id }))) R
  | groupOrBad {id} : checkId id pre03 = false → RollSays pub R (.groupOr id) (.madeG (.err .foreign)) R
  | legacy {k x M} : Says legacySpec R.legacy k x M → RollSays pub R (.legacy k) (.legacy x) { R with legacy := M }
  | legacyOr {id} : checkId id pre05 = true → RollSays pub R (.legacyOr id)
      (.madeL (.ok (((R.legacy (lower id)).map (legacySpec.spelled id)).getD { id := id }))) R
  | legacyOrBad {id} : checkId id pre05 = false → RollSays pub R (.legacyOr id) (.madeL (.err .foreign)) R
  | getC {base room b r} : CommNames base room b r → RollSays pub R (.getC base room)
      (.gotC (.ok ((R.rooms b r).map fun x => ⟨b, x.1, R.key b, x.2⟩))) R
  | getCBad {base room} : BadName base room → RollSays pub R (.getC base room) (.gotC (.err .foreign)) R
  | orNewC {base room b r pk} : CommNames base room b r → pk.length = 32 → RollSays pub R (.orNewC base room pk)
      (.madeC (.ok (((R.rooms b r).map fun x => ⟨b, x.1, pk, x.2⟩).getD ⟨b, room, pk, {}⟩))) R
  | orNewCBad {base room pk} : BadName base room ∨ pk.length ≠ 32 →
      RollSays pub R (.orNewC base room pk) (.madeC (.err .foreign)) R
  | setC {x b r} : CommNames x.base x.room b r → x.pubkey.length = 32 → RollSays pub R (.setC x) (.done (.ok ()))
      ((R.setKey b x.pubkey).setRoom b r (some (x.room, x.info.norm)))
  | setCBad {x} : BadName x.base x.room ∨ x.pubkey.length ≠ 32 →
      RollSays pub R (.setC x) (.done (.err .foreign)) R
  | eraseC {base room b r} : CommNames base room b r → RollSays pub R (.eraseC base room)
      (.erased (.ok (R.rooms b r).isSome)) (R.setRoom b r none)
  | eraseCBad {base room} : BadName base room → RollSays pub R (.eraseC base room) (.erased (.err .foreign)) R
  | listC {l} : R.ListsC l → RollSays pub R .listC (.listedC l) R
  | sizeC {l} : R.ListsC l → RollSays pub R .sizeC (.counted l.length) R
  | listAll {lg lc ll} : Listing Group.id R.groups lg → R.ListsC lc → Listing Legacy.id R.legacy ll →
      RollSays pub R .listAll (.listed (lg.map .group ++ lc.map .comm ++ ll.map .legacy)) R
  | sizeAll {lg lc ll} : Listing Group.id R.groups lg → R.ListsC lc → Listing Legacy.id R.legacy ll →
      RollSays pub R .sizeAll (.counted (lg.length + lc.length + ll.length)) R

/-- A sequence of calls with their results, explained by a roll. -/
inductive RollExplained (pub : Bytes → Bytes) : Roll → List (RollCall × RollRes) → Roll → Prop
  | nil (R : Roll) : RollExplained pub R [] R
  | snoc {R R' R'' : Roll} {t : List (RollCall × RollRes)} {k : RollCall} {x : RollRes} :
      RollExplained pub R t R' → RollSays pub R' k x R'' → RollExplained pub R (t ++ [(k, x)]) R''

/-- A history: calls, with anything in between that does not edit the groups (see C136). -/
inductive RollRun (pub : Bytes → Bytes) (S : Sys) : Client → List (RollCall × RollRes) → Client → Prop
  | nil (c : Client) : RollRun pub S c [] c
  | call {c c' : Client} {t : List (RollCall × RollRes)} (k : RollCall) : RollRun pub S c t c' → k.proper pub →
      int64Ok (c'.seqno + 1) = true → RollRun pub S c (t ++ [(k, (k.run pub S c').2)]) (k.run pub S c').1
  | between {c c' c'' : Client} {t : List (RollCall × RollRes)} : RollRun pub S c t c' →
      (∀ P ∈ [[[103]], [[67]], [[111]]], Between S P c' c'') → RollRun pub S c t c''

/-! ### How it is stored -/

/-- A room as stored: its spelling and settings. -/
def loadSpelled : Option Val → Option (Bytes × GroupBase)
  | some (.dict e) => (maybeStr e [110]).map fun n => (n, GroupBase.load e)
  | _ => none

/-- The roll a device holds, properly stored. -/
structure RollHolds (pub : Bytes → Bytes) (S : Sys) (c : Client) (R : Roll) : Prop where
  groups : Holds S (groupShelf pub) (groupSpec pub) c R.groups
  legacy : Holds S legacyShelf legacySpec c R.legacy
  clean : ∀ b r v, c.get (roomPath b r) = some v → canonUrl b = .ok b ∧ canonRoom r = .ok r ∧
    ∃ e n, v = .dict e ∧ maybeStr e [110] = some n ∧ canonRoom n = .ok r
  rooms : ∀ b r, loadSpelled (c.get (roomPath b r)) = R.rooms b r
  key : ∀ b r, c.get (roomPath b r) ≠ none → c.serverKey b = R.key b ∧ (R.key b).length = 32

theorem RollHolds.room {pub : Bytes → Bytes} {S : Sys} {c : Client} {R : Roll} (h : RollHolds pub S c R) (b r : Bytes) :
    (c.get (roomPath b r) = none ∧ R.rooms b r = none) ∨
    ∃ e n, c.get (roomPath b r) = some (.dict e) ∧ canonUrl b = .ok b ∧ canonRoom r = .ok r ∧ maybeStr e [110] = some n ∧
      canonRoom n = .ok r ∧ R.rooms b r = some (n, GroupBase.load e) ∧ c.serverKey b = R.key b ∧ (R.key b).length = 32 := by
  cases hg : c.get (roomPath b r) with
  | none => left; refine ⟨rfl, ?_⟩; rw [← h.rooms, hg]; rfl
  | some v =>
    obtain ⟨a1, a2, e, n, rfl, a3, a4⟩ := h.clean b r v hg
    obtain ⟨k1, k2⟩ := h.key b r (by rw [hg]; simp)
    right
    refine ⟨e, n, rfl, a1, a2, a3, a4, ?_, k1, k2⟩
    rw [← h.rooms, hg]; simp only [loadSpelled, a3, Option.map_some]

theorem new_rollHolds {pub : Bytes → Bytes} (hpub : ∀ s, (pub s).length = 32) (S : Sys) :
    RollHolds pub S (Client.new S) Roll.empty := by
  have hg : ∀ a q, (Client.new S).get (a :: q) = none := by
    intro a q
    unfold Client.get
    cases q <;> rfl
  refine ⟨new_holds (groupShelf_lawful hpub), new_holds legacyShelf_lawful, fun b r v hv => ?_, fun b r => ?_, fun b r hb => ?_⟩
  · rw [show (Client.new S).get (roomPath b r) = none from hg _ _] at hv; cases hv
  · rw [show (Client.new S).get (roomPath b r) = none from hg _ _]; rfl
  · exact absurd (hg _ _) hb

/-- A collection that was not touched. -/
theorem untouched_holds {R : Type} {S : Sys} {Q : Shelf R} {A : MapApi R} {sp : MapSpec R} (hQ : Q.Lawful A sp)
    {c c' : Client} {M : RecMap R} (h : Holds S Q sp c M) (hr : Reach S c') (hg : c'.get Q.path = c.get Q.path) :
    Holds S Q sp c' M := by
  have hg2 : ∀ pk, c'.get (Q.path ++ [pk]) = c.get (Q.path ++ [pk]) := by
    intro pk
    rw [mget_curDict hQ.path, mget_curDict hQ.path, hg]
  exact ⟨hr, fun pk v hv => h.clean pk v (by rw [← hg2]; exact hv), by
    rw [← h.view]; exact view_of_get _ _ hg2⟩

/-- What a call does not touch. -/
theorem call_other {R : Type} {S : Sys} (hS : S.Good) {Q : Shelf R} {A : MapApi R} {sp : MapSpec R} (hQ : Q.Lawful A sp)
    {c : Client} (hc : Reach S c) (k : MapCall R) (hk : ∀ r, k = .set r → sp.fits r) {q : List Bytes}
    (hq : ¬ Nested Q.path q) : (A.run S c k).1.get q = c.get q := by
  cases k with
  | get id => rfl
  | list => rfl
  | size => rfl
  | set r =>
    have hfit := hk r rfl
    show (A.put S c r).1.get q = _
    rw [hQ.put]
    by_cases h2 : (c.setRec S Q.path sp.pre (sp.rid r) (Q.fields r)).2 = .ok ()
    · obtain ⟨_, _, _, _, _, _, g, _⟩ := setRec_spec hS hQ.path (hQ.nodup r) (hQ.wf r hfit)
        (fun pk => by obtain ⟨s, hs⟩ := hQ.str r pk; exact ⟨_, hs, rfl⟩) hc (Prod.ext rfl h2)
      exact g q hq
    · rw [(setRec_error hS (hQ.wf r hfit) hc).1 h2]
  | erase id =>
    show (A.remove S c id).1.get q = _
    rw [hQ.remove]
    unfold Client.eraseRec
    cases hi : idBytes id sp.pre with
    | ok pk =>
      show (c.eraseImpl S (Q.path ++ [pk])).1.get q = _
      unfold Client.eraseImpl
      by_cases h2 : (c.erase S (Q.path ++ [pk])).2 = .ok ()
      · have h3 : c.erase S (Q.path ++ [pk]) = ((c.erase S (Q.path ++ [pk])).1, .ok ()) := Prod.ext rfl h2
        rw [h3]
        obtain ⟨_, _, _, g, _⟩ := record_erased hS hQ.path hc h3
        exact g q hq
      · have h1 := field_error S c (Q.path ++ [pk]) .erase h2
        have h1 : (c.erase S (Q.path ++ [pk])).1 = c := h1
        split
        · rename_i c1 heq
          rw [heq] at h2; exact absurd rfl h2
        all_goals (rename_i c1 _ heq; rw [heq] at h1; exact congrArg (fun d => Client.get d q) h1)
    | err e => rfl
    | hang => rfl
    | ub => rfl

/-! ### What happens in between -/

theorem between_roll {pub : Bytes → Bytes} (hpub : ∀ s, (pub s).length = 32) {S : Sys} (hS : S.Good)
    (hro : S.env.readonly = false) {c c' : Client} {R : Roll} (h : RollHolds pub S c R)
    (hb : ∀ P ∈ [[[103]], [[67]], [[111]]], Between S P c c') : RollHolds pub S c' R := by
  have hg := between_holds hS hro (groupShelf_lawful hpub) h.groups (hb [[103]] (by simp))
  have hl := between_holds hS hro legacyShelf_lawful h.legacy (hb [[67]] (by simp))
  have htrim : ∀ q, Trimmed (c.get (pathO ++ q)) (c'.get (pathO ++ q)) := by
    intro q
    rcases (between_kept hS hro h.groups.reach (hb [[111]] (by simp))).2 with hk | hk
    · exact hk.trimmed hS h.groups.reach _
    · exact .inl (same_under hk q)
  have hroom : ∀ b r, (c.get (roomPath b r) = none ∧ c'.get (roomPath b r) = none) ∨
      ∃ e e', c.get (roomPath b r) = some (.dict e) ∧ c'.get (roomPath b r) = some (.dict e') ∧
        maybeStr e' [110] = maybeStr e [110] ∧ GroupBase.load e' = GroupBase.load e := by
    intro b r
    have ht := (h.groups.reach.inv hS).wf.data
    rcases h.room b r with ⟨h1, _⟩ | ⟨e, n, h1, _, _, h2, _⟩
    · left
      refine ⟨h1, ?_⟩
      have : Trimmed (c.get (roomPath b r)) (c'.get (roomPath b r)) := htrim _
      rw [h1] at this
      rcases this with hh | hh <;> exact hh
    · right
      rcases (between_kept hS hro h.groups.reach (hb [[111]] (by simp))).2 with (hk | hk) | hk
      · exact ⟨e, e, h1, by unfold Client.get at h1 ⊢; rw [hk]; exact h1, rfl, rfl⟩
      · obtain ⟨e', he', hs⟩ := (get_pruned_rec ht hk (roomPath b r)).2 e [110] h1 (by rw [h2]; rfl)
        exact ⟨e, e', h1, he', (hs _).2.1, GroupBase.load_congr hs⟩
      · exact ⟨e, e, h1, (same_under hk [b, [82], r]).trans h1, rfl, rfl⟩
  refine ⟨hg, hl, fun b r v hv => ?_, fun b r => ?_, fun b r hne => ?_⟩
  · rcases hroom b r with ⟨_, h2⟩ | ⟨e, e', h1, h2, h3, _⟩
    · rw [h2] at hv; cases hv
    · rw [h2] at hv
      obtain ⟨a1, a2, e1, n, he, a3, a4⟩ := h.clean b r _ h1
      cases he
      exact ⟨a1, a2, e', n, (Option.some.inj hv).symm, by rw [h3]; exact a3, a4⟩
  · rw [← h.rooms]
    rcases hroom b r with ⟨h1, h2⟩ | ⟨e, e', h1, h2, h3, h4⟩
    · rw [h1, h2]
    · rw [h1, h2]; simp only [loadSpelled, h3, h4]
  · have : c.get (roomPath b r) ≠ none := by
      rcases hroom b r with ⟨_, h2⟩ | ⟨e, e', h1, _⟩
      · exact absurd h2 hne
      · rw [h1]; simp
    have hk := h.key b r this
    unfold Client.serverKey at hk ⊢
    rw [(htrim [b, [35]]).str]
    exact hk

/-! ### The communities -/

theorem canon_lower {n r : Bytes} (h : canonRoom n = .ok r) : lower n = r :=
  ((canonical_room_iff _ _).1 h).1.symm

theorem urooms_lists {pub : Bytes → Bytes} {S : Sys} (hS : S.Good) {c : Client} {R : Roll} (h : RollHolds pub S c R) :
    R.ListsC c.ucomms ∧ c.commSize = c.ucomms.length := by
  have hreach := h.groups.reach
  have hent : ∀ y ∈ c.table pathO, userverEntry y = [] ∧ serverSize y = 0 ∨
      ∃ pk rooms, userverEntry y = rooms.filterMap (uroomEntry y.1 pk) ∧ serverSize y = rooms.length ∧ KSorted rooms ∧
        ∀ x ∈ rooms, ∃ n i, uroomEntry y.1 pk x = some ⟨y.1, n, R.key y.1, i⟩ ∧ lower n = x.1 ∧
          R.rooms y.1 x.1 = some (n, i) := by
    rintro ⟨b, v⟩ hy
    cases v with
    | scalar x => exact .inl ⟨rfl, rfl⟩
    | set x => exact .inl ⟨rfl, rfl⟩
    | dict e =>
      cases hpk : maybeStr e [35] with
      | none => left; unfold userverEntry serverSize; simp [hpk]
      | some pk =>
        cases hR : mget [82] e with
        | none => left; unfold userverEntry serverSize; simp [hpk, hR]
        | some w =>
          cases w with
          | scalar x => left; unfold userverEntry serverSize; simp [hpk, hR]
          | set x => left; unfold userverEntry serverSize; simp [hpk, hR]
          | dict rooms =>
            right
            rw [← mget_iff_mem (table_sorted hS hreach pathO), table_mget pathO_ne] at hy
            have hsub : ∀ k, c.get (pathO ++ [b, k]) = mget k e := by
              intro k
              have := get_entry (by simp) hy k
              rw [List.append_assoc] at this; exact this
            have hRg : c.get (pathO ++ [b, [82]]) = some (.dict rooms) := by rw [hsub, hR]
            have hRs : KSorted rooms := by
              have := table_sorted hS hreach (pathO ++ [b, [82]])
              unfold Client.table at this; rw [hRg] at this; exact this
            refine ⟨pk, rooms, by unfold userverEntry; simp only [hpk, hR], by unfold serverSize; simp only [hpk, hR], hRs, ?_⟩
            rintro ⟨r, w⟩ hx
            rw [← mget_iff_mem hRs] at hx
            have hroom : c.get (roomPath b r) = some w := by rw [roomsPath, get_entry (by simp) hRg r, hx]
            rcases h.room b r with ⟨h1, _⟩ | ⟨e', n, h1, cb, cr, h2, h3, h4, k1, k2⟩
            · rw [h1] at hroom; cases hroom
            · rw [h1] at hroom; cases hroom
              have hk : pk.length = 32 ∧ pk = R.key b := by
                unfold Client.serverKey at k1
                rw [hsub, show strOf (mget [35] e) = some pk from hpk] at k1
                simp only at k1
                split at k1
                · rename_i hl; exact ⟨hl, k1⟩
                · rw [← k1] at k2; cases k2
              refine ⟨n, GroupBase.load e', ?_, (canon_lower h3), h4⟩
              unfold uroomEntry
              simp only [cb, cr]
              rw [if_pos hk.1, ← hk.2]
              simp only [loadComm, loadRoom, h2, h3, Out.bind]
  refine ⟨⟨?_, fun x => ?_⟩, ?_⟩
  · unfold Client.ucomms
    rw [List.pairwise_flatMap]
    have hbase : ∀ y ∈ c.table pathO, ∀ z ∈ userverEntry y, z.base = y.1 := by
      intro y hy z hz
      rcases hent y hy with ⟨h1, _⟩ | ⟨pk, rooms, h1, _, _, h4⟩
      · rw [h1] at hz; cases hz
      · rw [h1, List.mem_filterMap] at hz
        obtain ⟨x, hx, hxz⟩ := hz
        obtain ⟨n, i, he', _⟩ := h4 x hx
        rw [he'] at hxz; rw [← Option.some.inj hxz]
    refine ⟨fun y hy => ?_, ?_⟩
    · rcases hent y hy with ⟨h1, _⟩ | ⟨pk, rooms, h1, _, hsrt, h4⟩
      · rw [h1]; exact List.Pairwise.nil
      · rw [h1, List.pairwise_filterMap]
        refine List.Pairwise.imp_of_mem ?_ (show rooms.Pairwise (fun a b => a.1 < b.1) from hsrt)
        intro a b ha hb hab x hx z hz
        obtain ⟨n, i, he, hn, _⟩ := h4 a ha
        obtain ⟨n', i', he', hn', _⟩ := h4 b hb
        rw [he] at hx; rw [he'] at hz
        rw [← Option.some.inj hx, ← Option.some.inj hz]
        exact .inr ⟨rfl, by rw [hn, hn']; exact hab⟩
    · refine List.Pairwise.imp_of_mem ?_ (show (c.table pathO).Pairwise (fun a b => a.1 < b.1) from table_sorted hS hreach pathO)
      intro a b ha hb hab x hx z hz
      left
      rw [hbase a ha x hx, hbase b hb z hz]; exact hab
  · rw [mem_ucomms hS hreach]
    constructor
    · rintro ⟨b, r, rr, h1, h2, h3, h4, h5⟩
      rcases h.room b r with ⟨g, _⟩ | ⟨e', n, g, cb, cr, g2, g3, g4, k1, k2⟩
      · rw [g] at h5; cases h5
      · rw [cb] at h1
        have e1 := Out.ok.inj h1
        rw [g] at h5
        simp only [loadComm, loadRoom, g2, g3, Out.bind] at h5
        have hx := Option.some.inj (Out.ok.inj h5)
        have hr : lower x.room = r := by rw [← hx]; exact canon_lower g3
        have hrm : x.room = n := by rw [← hx]
        have hin : x.info = GroupBase.load e' := by rw [← hx]
        refine ⟨?_, by rw [← h3, k1, e1]⟩
        rw [hr, ← e1, g4, hrm, hin]
    · rintro ⟨h1, h2⟩
      rcases h.room x.base (lower x.room) with ⟨_, g⟩ | ⟨e', n, g, cb, cr, g2, g3, g4, k1, k2⟩
      · rw [g] at h1; cases h1
      · rw [g4] at h1
        have h1 := Option.some.inj h1
        have hn : n = x.room := congrArg Prod.fst h1
        have hi : GroupBase.load e' = x.info := congrArg Prod.snd h1
        refine ⟨x.base, lower x.room, lower x.room, cb, cr, by rw [k1, h2], by rw [h2]; exact k2, ?_⟩
        rw [g]
        subst hn
        simp only [loadComm, loadRoom, g2, g3, Out.bind, hi]
  · unfold Client.ucomms Client.commSize
    rw [length_flatMap_eq userverEntry serverSize]
    intro y hy
    rcases hent y hy with ⟨h1, h2⟩ | ⟨pk, rooms, h1, h2, _, h4⟩
    · rw [h1, h2]; rfl
    · rw [h1, h2]
      refine length_filterMap_eq _ _ fun x hx => ?_
      obtain ⟨n, i, he', _⟩ := h4 x hx
      rw [he']; rfl

theorem other_kinds (q : List Bytes) : ¬ Nested pathO ([103] :: q) ∧ ¬ Nested pathO ([67] :: q) :=
  ⟨fun hn => absurd (nested_head hn) (by decide), fun hn => absurd (nested_head hn) (by decide)⟩

theorem setUComm_roll {pub : Bytes → Bytes} (hpub : ∀ s, (pub s).length = 32) {S : Sys} (hS : S.Good) {c c' : Client} {R : Roll}
    (h : RollHolds pub S c R) {x : Comm} {b r : Bytes} (hn : CommNames x.base x.room b r) (hx : x.info.inRange = true)
    (hs : c.setUComm S x = (c', .ok ())) :
    RollHolds pub S c' ((R.setKey b x.pubkey).setRoom b r (some (x.room, x.info.norm))) := by
  obtain ⟨b', r', hb, hr, hpk, hw⟩ := setUComm_ok hs
  obtain ⟨nb, nr⟩ := names_iff.1 hn
  rw [nb] at hb; cases hb
  rw [nr] at hr; cases hr
  have cb := canonical_url_idem _ _ nb
  have cr := (canonical_room_case _ _ nr).2
  have hpair : (x.writes b r).Pairwise fun a b => ¬ Nested a.1 b.1 := by
    unfold Comm.writes
    rw [List.pairwise_cons]
    refine ⟨fun w hm => ?_, entries_pairwise _ ?_⟩
    · obtain ⟨f, _, rfl⟩ := List.mem_map.1 hm
      exact key_not_room b b r [f.1]
    · simp only [GroupBase.fields, List.map_cons, List.map_nil, List.map_append]; decide
  obtain ⟨w1, w2, w3⟩ := writeAll_get hS _ h.groups.reach (comm_writes_wf hx b r) hpair hw
  have hkeyval : c'.get (pathO ++ [b, [35]]) = some (.scalar (.str x.pubkey)) :=
    w2 (pathO ++ [b, [35]], _) (by unfold Comm.writes; simp)
  have hfield : ∀ f ∈ x.info.fields ++ [([110], some (.scalar (.str x.room)))],
      c'.get (roomPath b r ++ [f.1]) = f.2 := fun f hf =>
    w2 (roomPath b r ++ [f.1], f.2) (by
      unfold Comm.writes
      exact List.mem_cons_of_mem _ (List.mem_map.2 ⟨f, hf, rfl⟩))
  obtain ⟨e, he, hnm⟩ := get_dict (p := roomPath b r) (k := [110]) (by simp [roomPath])
    (hfield ([110], some (.scalar (.str x.room))) (by simp))
  have hnm : maybeStr e [110] = some x.room := maybeStr_of hnm
  have hload : GroupBase.load e = x.info.norm := base_load hx fun f hf => by
    rw [← get_entry (by simp [roomPath]) he, hfield f (List.mem_append_left _ hf)]
  have hout : ∀ q, ¬ Nested (pathO ++ [b, [35]]) q → ¬ Nested (roomPath b r) q → c'.get q = c.get q := by
    intro q h1 h2
    refine w3 q fun w hm hn => ?_
    unfold Comm.writes at hm
    rcases List.mem_cons.1 hm with rfl | hm
    · exact h1 hn
    · obtain ⟨f, _, rfl⟩ := List.mem_map.1 hm
      exact h2 (nested_trans_left (List.prefix_append _ _) hn)
  have hroom : ∀ b' r', ¬ (b' = b ∧ r' = r) → c'.get (roomPath b' r') = c.get (roomPath b' r') := by
    intro b' r' hne
    refine hout _ ?_ fun hn => hne ⟨(room_inj hn).1.symm, (room_inj hn).2.symm⟩
    have := key_not_room b b' r' []
    rwa [List.append_nil] at this
  have hkey : c'.serverKey b = x.pubkey := by
    unfold Client.serverKey
    rw [hkeyval]
    simp only [strOf]
    rw [if_pos hpk]
  have hkey' : ∀ b', b' ≠ b → c'.serverKey b' = c.serverKey b' := by
    intro b' hne
    refine serverKey_congr (hout _ (fun hn => ?_) fun hn => hne (room_server hn).symm)
    rw [nested_append_left] at hn
    exact hne (nested_head hn).symm
  have houter : ∀ q, ¬ Nested pathO q → c'.get q = c.get q := fun q hq =>
    hout q (fun hn => hq (nested_trans_left (List.prefix_append _ _) hn))
      (fun hn => hq (nested_trans_left (List.prefix_append _ _) hn))
  refine ⟨untouched_holds (groupShelf_lawful hpub) h.groups w1 (houter _ (other_kinds []).1),
    untouched_holds legacyShelf_lawful h.legacy w1 (houter _ (other_kinds []).2), fun b' r' v hv => ?_, fun b' r' => ?_,
    fun b' r' hb' => ?_⟩
  · by_cases hh : b' = b ∧ r' = r
    · obtain ⟨rfl, rfl⟩ := hh
      rw [he] at hv
      exact ⟨cb, cr, e, x.room, (Option.some.inj hv).symm, hnm, nr⟩
    · rw [hroom _ _ hh] at hv; exact h.clean b' r' v hv
  · unfold Roll.setRoom Roll.setKey
    dsimp only
    by_cases hh : b' = b ∧ r' = r
    · obtain ⟨rfl, rfl⟩ := hh
      rw [if_pos ⟨rfl, rfl⟩, he]
      simp only [loadSpelled, hnm, hload, Option.map_some]
    · rw [if_neg hh, hroom _ _ hh]; exact h.rooms b' r'
  · unfold Roll.setRoom Roll.setKey
    dsimp only
    by_cases hh : b' = b
    · subst hh
      rw [if_pos rfl]; exact ⟨hkey, hpk⟩
    · rw [if_neg hh, hkey' b' hh]
      refine h.key b' r' ?_
      rw [hroom _ _ fun z => hh z.1] at hb'; exact hb'

theorem eraseUComm_roll {pub : Bytes → Bytes} (hpub : ∀ s, (pub s).length = 32) {S : Sys} (hS : S.Good) {c c' : Client} {R : Roll}
    (h : RollHolds pub S c R) {base room b r : Bytes} (hn : CommNames base room b r) {res : Bool}
    (hs : c.eraseComm S base room = (c', .ok res)) :
    RollHolds pub S c' (R.setRoom b r none) ∧ res = (R.rooms b r).isSome := by
  obtain ⟨nb, nr⟩ := names_iff.1 hn
  obtain ⟨a1, a2, a3, a4, a5, a6, _, a8⟩ := eraseComm_spec hS h.groups.reach nb nr hs
  have hroom : ∀ b' r', ¬ (b' = b ∧ r' = r) → c'.get (roomPath b' r') = c.get (roomPath b' r') := fun b' r' hne =>
    a4 b' r' fun hh => hne ⟨hh.1.symm, hh.2.symm⟩
  refine ⟨⟨untouched_holds (groupShelf_lawful hpub) h.groups a1 (a8 _ (other_kinds []).1),
    untouched_holds legacyShelf_lawful h.legacy a1 (a8 _ (other_kinds []).2), fun b' r' v hv => ?_, fun b' r' => ?_,
    fun b' r' hb' => ?_⟩, ?_⟩
  · by_cases he : b' = b ∧ r' = r
    · obtain ⟨rfl, rfl⟩ := he; rw [a3] at hv; cases hv
    · rw [hroom _ _ he] at hv; exact h.clean b' r' v hv
  · unfold Roll.setRoom
    dsimp only
    by_cases he : b' = b ∧ r' = r
    · obtain ⟨rfl, rfl⟩ := he
      rw [if_pos ⟨rfl, rfl⟩, a3]; rfl
    · rw [if_neg he, hroom _ _ he]; exact h.rooms b' r'
  · have hne : ¬ (b' = b ∧ r' = r) := by rintro ⟨rfl, rfl⟩; exact hb' a3
    have hold := h.key b' r' (by rw [← hroom _ _ hne]; exact hb')
    rw [serverKey_congr ?_]
    · exact hold
    · by_cases he : b' = b
      · subst he
        exact a6 (fun _ => ⟨r', hb'⟩) [35] (by decide)
      · exact a5 b' [[35]] (Ne.symm he)
  · rw [a2]
    rcases h.room b r with ⟨h1, h2⟩ | ⟨e, n, h1, _, _, _, _, h2, _⟩ <;> rw [h1, h2] <;> rfl

/-! ### Every call -/

theorem call_roll {pub : Bytes → Bytes} (hpub : ∀ s, (pub s).length = 32) {S : Sys} (hS : S.Good)
    (hro : S.env.readonly = false) {c : Client} {R : Roll} (h : RollHolds pub S c R) (k : RollCall) (hk : k.proper pub)
    (hov : int64Ok (c.seqno + 1) = true) :
    ∃ R', RollSays pub R k (k.run pub S c).2 R' ∧ RollHolds pub S (k.run pub S c).1 R' := by
  have hready : c.Ready S := .inl ⟨hro, hov⟩
  have hG := groupShelf_lawful hpub
  have hL := legacyShelf_lawful
  -- a call on one of the two collections of records leaves the rest
  have rest : ∀ {c' : Client} {a : Bytes}, (∀ q, ¬ Nested [a] q → c'.get q = c.get q) → a ≠ [111] →
      (∀ b r, c'.get (roomPath b r) = c.get (roomPath b r)) ∧ ∀ b, c'.serverKey b = c.serverKey b := by
    intro c' a ho ha
    have : ∀ q, c'.get (pathO ++ q) = c.get (pathO ++ q) := fun q => ho _ fun hn => ha (nested_head hn)
    exact ⟨fun b r => this _, fun b => serverKey_congr (this [b, [35]])⟩
  cases k with
  | group k =>
    obtain ⟨M, h1, h2⟩ := call_says hS hro hG h.groups k hk hov
    have ho : ∀ q, ¬ Nested [[103]] q → ((groupApi pub).run S c k).1.get q = c.get q :=
      fun q hq => call_other hS hG h.groups.reach k hk hq
    obtain ⟨r1, r2⟩ := rest ho (by decide)
    refine ⟨_, .group h1, h2, ?_, fun b r v hv => ?_, fun b r => ?_, fun b r hb => ?_⟩
    · exact untouched_holds hL h.legacy h2.reach (ho _ fun hn => absurd (nested_head hn) (by decide))
    · exact h.clean b r v (by rw [← r1]; exact hv)
    · exact (congrArg loadSpelled (r1 b r)).trans (h.rooms b r)
    · exact (r2 b) ▸ h.key b r (by rw [← r1]; exact hb)
  | legacy k =>
    obtain ⟨M, h1, h2⟩ := call_says hS hro hL h.legacy k hk hov
    have ho : ∀ q, ¬ Nested [[67]] q → (legacyApi.run S c k).1.get q = c.get q :=
      fun q hq => call_other hS hL h.legacy.reach k hk hq
    obtain ⟨r1, r2⟩ := rest ho (by decide)
    refine ⟨_, .legacy h1, ?_, h2, fun b r v hv => ?_, fun b r => ?_, fun b r hb => ?_⟩
    · exact untouched_holds hG h.groups h2.reach (ho _ fun hn => absurd (nested_head hn) (by decide))
    · exact h.clean b r v (by rw [← r1]; exact hv)
    · exact (congrArg loadSpelled (r1 b r)).trans (h.rooms b r)
    · exact (r2 b) ▸ h.key b r (by rw [← r1]; exact hb)
  | groupOr id =>
    refine ⟨R, ?_, h⟩
    show RollSays pub R (.groupOr id) (.madeG (c.groupOr pub id)) R
    obtain ⟨M, h1, _⟩ := call_says hS hro hG h.groups (.get id) (fun _ hh => by cases hh) hov
    have h1 : Says (groupSpec pub) R.groups (.get id) (.got (c.getGroup pub id)) M := h1
    unfold Client.groupOr
    generalize c.getGroup pub id = o at h1
    cases h1 with
    | get _ hc => exact .groupOr hc
    | getBad _ hc => exact .groupOrBad hc
  | legacyOr id =>
    refine ⟨R, ?_, h⟩
    show RollSays pub R (.legacyOr id) (.madeL (c.legacyOr id)) R
    obtain ⟨M, h1, _⟩ := call_says hS hro hL h.legacy (.get id) (fun _ hh => by cases hh) hov
    have h1 : Says legacySpec R.legacy (.get id) (.got (c.getLegacy id)) M := h1
    unfold Client.legacyOr
    generalize c.getLegacy id = o at h1
    cases h1 with
    | get _ hc => exact .legacyOr hc
    | getBad _ hc => exact .legacyOrBad hc
  | getC base room =>
    refine ⟨R, ?_, h⟩
    show RollSays pub R (.getC base room) (.gotC (c.getUComm base room)) R
    rcases names_cases base room with ⟨b, r, hn⟩ | hn
    · obtain ⟨nb, nr⟩ := names_iff.1 hn
      have : c.getUComm base room = .ok ((R.rooms b r).map fun x => ⟨b, x.1, R.key b, x.2⟩) := by
        rw [getUComm_eq nb nr]
        rcases h.room b r with ⟨g1, g2⟩ | ⟨e, n, g1, _, _, g2, g3, g4, k1, _⟩
        · rw [g1, g2]; rfl
        · rw [g1, g4, k1]
          simp only [loadComm, loadRoom, g2, g3, Out.bind, Option.map_some]
      rw [this]
      exact .getC hn
    · have : c.getUComm base room = .err .foreign := by
        unfold Client.getUComm
        rcases badName_err hn with e | e
        · rw [e]; rfl
        · by_cases hu : ∃ b, canonUrl base = .ok b
          · obtain ⟨b, hb⟩ := hu
            rw [hb, e]; rfl
          · rw [canonUrl_err fun b hb => hu ⟨b, hb⟩]; rfl
      rw [this]
      exact .getCBad hn
  | orNewC base room pk =>
    refine ⟨R, ?_, h⟩
    show RollSays pub R (.orNewC base room pk) (.madeC (c.ucommOr base room pk)) R
    rcases names_cases base room with ⟨b, r, hn⟩ | hn
    · obtain ⟨nb, nr⟩ := names_iff.1 hn
      by_cases hl : pk.length = 32
      · have : c.ucommOr base room pk =
            .ok (((R.rooms b r).map fun x => ⟨b, x.1, pk, x.2⟩).getD ⟨b, room, pk, {}⟩) := by
          unfold Client.ucommOr
          rw [nb, nr]
          show (if pk.length = 32 then _ else _) = _
          rw [if_pos hl]
          rcases h.room b r with ⟨g1, g2⟩ | ⟨e, n, g1, _, _, g2, g3, g4, _⟩
          · rw [g1, g2]; rfl
          · rw [g1, g4]
            simp only [loadComm, loadRoom, g2, g3, Out.bind, Option.map_some, Option.getD_some]
        rw [this]
        exact .orNewC hn hl
      · have : c.ucommOr base room pk = .err .foreign := by
          unfold Client.ucommOr
          rw [nb, nr]
          show (if pk.length = 32 then _ else _) = _
          rw [if_neg hl]
        rw [this]
        exact .orNewCBad (.inr hl)
    · have : c.ucommOr base room pk = .err .foreign := by
        unfold Client.ucommOr
        rcases badName_err hn with e | e
        · rw [e]; rfl
        · by_cases hu : ∃ b, canonUrl base = .ok b
          · obtain ⟨b, hb⟩ := hu
            rw [hb, e]; rfl
          · rw [canonUrl_err fun b hb => hu ⟨b, hb⟩]; rfl
      rw [this]
      exact .orNewCBad (.inl hn)
  | setC x =>
    show ∃ R', RollSays pub R (.setC x) (.done (c.setUComm S x).2) R' ∧ RollHolds pub S (c.setUComm S x).1 R'
    rcases names_cases x.base x.room with ⟨b, r, hn⟩ | hn
    · obtain ⟨nb, nr⟩ := names_iff.1 hn
      by_cases hl : x.pubkey.length = 32
      · have h2 := (ucomm_set_error hS h.groups.reach hk).2.2 ⟨b, nb⟩ ⟨r, nr⟩ hl hro hov
        have he : c.setUComm S x = ((c.setUComm S x).1, .ok ()) := Prod.ext rfl h2
        rw [h2]
        exact ⟨_, .setC hn hl, setUComm_roll hpub hS h hn hk he⟩
      · have he : c.setUComm S x = (c, .err .foreign) := by
          unfold Client.setUComm
          rw [nb, nr]
          simp only [hl, if_false]
        rw [he]
        exact ⟨R, .setCBad (.inr hl), h⟩
    · have he : c.setUComm S x = (c, .err .foreign) := by
        unfold Client.setUComm
        rcases badName_err hn with e | e
        · rw [e]
        · rw [e]; cases canonUrl x.base <;> rfl
      rw [he]
      exact ⟨R, .setCBad (.inl hn), h⟩
  | eraseC base room =>
    show ∃ R', RollSays pub R (.eraseC base room) (.erased (c.eraseComm S base room).2) R' ∧
      RollHolds pub S (c.eraseComm S base room).1 R'
    rcases names_cases base room with ⟨b, r, hn⟩ | hn
    · obtain ⟨nb, nr⟩ := names_iff.1 hn
      obtain ⟨c', hs, _, _⟩ := eraseComms_ready hS (l := [(base, room)]) h.groups.reach hready (by
        intro z hz
        rw [List.mem_singleton] at hz
        rw [hz]
        exact ⟨⟨b, nb⟩, r, nr⟩)
      unfold Client.eraseComms at hs
      split at hs
      · rename_i c1 res h1
        rw [h1]
        obtain ⟨g1, g2⟩ := eraseUComm_roll hpub hS h hn h1
        rw [g2]
        exact ⟨_, .eraseC hn, g1⟩
      · cases (Prod.mk.inj hs).2
      · cases (Prod.mk.inj hs).2
      · cases (Prod.mk.inj hs).2
    · have he : c.eraseComm S base room = (c, .err .foreign) := by
        unfold Client.eraseComm
        rcases badName_err hn with e | e
        · rw [e]
        · rw [e]; cases canonUrl base <;> rfl
      rw [he]
      exact ⟨R, .eraseCBad hn, h⟩
  | listC => exact ⟨R, .listC (urooms_lists hS h).1, h⟩
  | sizeC =>
    refine ⟨R, ?_, h⟩
    show RollSays pub R .sizeC (.counted c.commSize) R
    rw [(urooms_lists hS h).2]
    exact .sizeC (urooms_lists hS h).1
  | listAll =>
    refine ⟨R, ?_, h⟩
    show RollSays pub R .listAll (.listed (c.allGroups pub)) R
    exact .listAll (holds_listing hS hG h.groups).1 (urooms_lists hS h).1 (holds_listing hS hL h.legacy).1
  | sizeAll =>
    refine ⟨R, ?_, h⟩
    show RollSays pub R .sizeAll (.counted c.allGroupsSize) R
    obtain ⟨g1, g2⟩ := holds_listing hS hG h.groups
    obtain ⟨l1, l2⟩ := holds_listing hS hL h.legacy
    obtain ⟨u1, u2⟩ := urooms_lists hS h
    have : c.allGroupsSize = (c.groups pub).length + c.ucomms.length + c.legacies.length := by
      unfold Client.allGroupsSize
      rw [u2, show c.legacySize = c.legacies.length from l2, show c.groupsSize = (c.groups pub).length from g2]
      omega
    rw [this]
    exact .sizeAll g1 u1 l1

/-- C139, with what the object looks like at the end. -/
theorem roll_behaves {pub : Bytes → Bytes} (hpub : ∀ s, (pub s).length = 32) {S : Sys} (hS : S.Good)
    (hro : S.env.readonly = false) {c0 c : Client} (h0 : c0 = Client.new S) {t : List (RollCall × RollRes)}
    (h : RollRun pub S c0 t c) : ∃ R, RollExplained pub Roll.empty t R ∧ RollHolds pub S c R := by
  induction h with
  | nil => subst h0; exact ⟨_, .nil _, new_rollHolds hpub S⟩
  | call k _ hk hov ih =>
    obtain ⟨R, he, hb⟩ := ih
    obtain ⟨R', h1, h2⟩ := call_roll hpub hS hro hb k hk hov
    exact ⟨R', .snoc he h1, h2⟩
  | between _ hb ih =>
    obtain ⟨R, he, hh⟩ := ih
    exact ⟨R, he, between_roll hpub hS hro hh hb⟩

theorem rollListsC_unique {R : Roll} {l l' : List Comm} (h : R.ListsC l) (h' : R.ListsC l') : l = l' := by
  have irr : ∀ {x y : Comm}, (x.base < y.base ∨ (x.base = y.base ∧ lower x.room < lower y.room)) →
      (y.base < x.base ∨ (y.base = x.base ∧ lower y.room < lower x.room)) → False := by
    rintro x y (a | ⟨a, b⟩) (d | ⟨d, e⟩)
    · exact lt_irrefl _ (lt_trans a d)
    · rw [d] at a; exact lt_irrefl _ a
    · rw [a] at d; exact lt_irrefl _ d
    · exact lt_irrefl _ (lt_trans b e)
  have nd : ∀ {x : List Comm}, x.Pairwise (fun x y => x.base < y.base ∨ (x.base = y.base ∧ lower x.room < lower y.room)) →
      x.Nodup := fun hx => hx.imp fun {a b} hab hne => by rw [hne] at hab; exact irr hab hab
  have hperm : l.Perm l' := (List.perm_ext_iff_of_nodup (nd h.sorted) (nd h'.sorted)).2 fun x =>
    (h.all x).trans (h'.all x).symm
  exact hperm.eq_of_pairwise (fun a b _ _ h1 h2 => (irr h1 h2).elim) h.sorted h'.sorted

/-- C139.  The specification leaves no choice: a roll answers a call in one way. -/
theorem roll_unique {pub : Bytes → Bytes} {R R1 R2 : Roll} {k : RollCall} {x1 x2 : RollRes}
    (h1 : RollSays pub R k x1 R1) (h2 : RollSays pub R k x2 R2) : x1 = x2 ∧ R1 = R2 := by
  cases h1 <;> cases h2 <;> first
    | exact ⟨rfl, rfl⟩
    | exact (‹BadName _ _› _ _ ‹CommNames _ _ _ _›).elim
    | (rename_i a b; rw [a] at b; exact Bool.noConfusion b)
    | (rename_i a _ _ b; obtain ⟨rfl, rfl⟩ := says_unique a b; exact ⟨rfl, rfl⟩)
    | (rename_i l a l' b; rw [rollListsC_unique a b]; exact ⟨rfl, rfl⟩)
    | (rename_i a _ _ b; obtain ⟨rfl, rfl⟩ := names_unique a b; exact ⟨rfl, rfl⟩)
    | (rename_i a _ _ _ b _; obtain ⟨rfl, rfl⟩ := names_unique a b; exact ⟨rfl, rfl⟩)
    | (rename_i a1 a2 a3 _ _ _ b1 b2 b3
       rw [listing_unique a1 b1, rollListsC_unique a2 b2, listing_unique a3 b3]; exact ⟨rfl, rfl⟩)
    | (rcases ‹BadName _ _ ∨ _› with d | d; exacts [(d _ _ ‹CommNames _ _ _ _›).elim, absurd ‹_› d])

/-- C139.  The list of groups behaves as one object: whatever sequence of `get`, `get_or_construct`, `set`,
`erase`, iteration and `size` is made on it, of groups, legacy groups, communities and all of them, starting
with a new object, with any publishing, confirming, saving, key changes, merges that bring nothing new and
edits elsewhere in between, restarts from a dump at any point, and other devices taking over, every call
returns what a roll with the same history would, and throws exactly for ids, URLs, rooms and keys that are
not valid. -/
theorem group_list_is_a_roll {pub : Bytes → Bytes} (hpub : ∀ s, (pub s).length = 32) {S : Sys} (hS : S.Good)
    (hro : S.env.readonly = false) {c : Client} {t : List (RollCall × RollRes)}
    (h : RollRun pub S (Client.new S) t c) : ∃ R, RollExplained pub Roll.empty t R := by
  obtain ⟨R, hR, _⟩ := roll_behaves hpub hS hro rfl h; exact ⟨R, hR⟩

/-! ### A concrete case -/

def exR1 : Client := (exC0.setUComm exSys exUComm).1
def exR2 : Client := (exR1.setGroup exSys exOwn).1
/-- Restarted. -/
def exR3 : Client := exR2.reloaded exSys exR2.old
def exR4 : Client := (exR3.eraseComm exSys exUComm.base exUComm.room).1

def exRTrace : List (RollCall × RollRes) :=
  [(.setC exUComm, .done (.ok ())), (.group (.set exOwn), .group (.done (.ok ()))),
   (.listAll, .listed [.group exOwn, .comm exUComm]), (.eraseC exUComm.base exUComm.room, .erased (.ok true)),
   (.getC exUComm.base exUComm.room, .gotC (.ok none)), (.sizeAll, .counted 1)]

/-- A history of the kind C139 is about: a community and a group are set, the device is restarted, all groups
are listed, the community is erased. -/
theorem exRoll_runs {pub : Bytes → Bytes} {c0 c1 c2 c3 c4 : Client} {x : Comm} {g : Group} {o1 o2 : Out Unit}
    {o4 : Out Bool} {l : List AnyGroup} {o5 : Out (Option Comm)} {n : Nat}
    (h0 : RollRun pub exSys (Client.new exSys) [] c0) (hr : Reach exSys c2) (k1 : exSys.env.readonly = false)
    (fx : x.info.inRange = true) (fg : g.base.inRange = true)
    (h1 : c0.setUComm exSys x = (c1, o1)) (v0 : int64Ok (c0.seqno + 1) = true)
    (h2 : c1.setGroup exSys g = (c2, o2)) (v1 : int64Ok (c1.seqno + 1) = true)
    (v2 : int64Ok (c2.conf.m.seqno + exSys.env.lag) = true) (h3 : c2.reloaded exSys c2.old = c3)
    (v3 : int64Ok (c3.seqno + 1) = true) (g3 : c3.allGroups pub = l)
    (h4 : c3.eraseComm exSys x.base x.room = (c4, o4)) (v4 : int64Ok (c4.seqno + 1) = true)
    (g5 : c4.getUComm x.base x.room = o5) (g6 : c4.allGroupsSize = n) :
    RollRun pub exSys (Client.new exSys) [(.setC x, .done o1), (.group (.set g), .group (.done o2)), (.listAll, .listed l),
      (.eraseC x.base x.room, .erased o4), (.getC x.base x.room, .gotC o5), (.sizeAll, .counted n)] c4 := by
  have a1 := RollRun.call (.setC x) h0 fx v0
  have e1 : RollCall.run pub exSys c0 (.setC x) = (c1, .done o1) := by
    show ((c0.setUComm exSys x).1, RollRes.done (c0.setUComm exSys x).2) = _
    rw [h1]
  rw [e1] at a1
  have a2 := RollRun.call (.group (.set g)) a1 (fun r hr => by cases hr; exact fg) v1
  have e2 : RollCall.run pub exSys c1 (.group (.set g)) = (c2, .group (.done o2)) := by
    show ((c1.setGroup exSys g).1, RollRes.group (.done (c1.setGroup exSys g).2)) = _
    rw [h2]
  rw [e2] at a2
  have a3 := RollRun.between (c'' := c3) a2 (fun P _ => .restart (ord := c2.old) (by rw [k1]; exact List.Perm.refl _)
    (by rw [← h3]; exact load_dump exSys_good (hr.inv exSys_good) (hr.inv exSys_good).old v2))
  have a4 := RollRun.call .listAll a3 trivial v3
  have e4 : RollCall.run pub exSys c3 .listAll = (c3, .listed l) := by
    show (c3, RollRes.listed (c3.allGroups pub)) = _
    rw [g3]
  rw [e4] at a4
  have a5 := RollRun.call (.eraseC x.base x.room) a4 trivial v3
  have e5 : RollCall.run pub exSys c3 (.eraseC x.base x.room) = (c4, .erased o4) := by
    show ((c3.eraseComm exSys x.base x.room).1, RollRes.erased (c3.eraseComm exSys x.base x.room).2) = _
    rw [h4]
  rw [e5] at a5
  have a6 := RollRun.call (.getC x.base x.room) a5 trivial v4
  have e6 : RollCall.run pub exSys c4 (.getC x.base x.room) = (c4, .gotC o5) := by
    show (c4, RollRes.gotC (c4.getUComm x.base x.room)) = _
    rw [g5]
  rw [e6] at a6
  have a7 := RollRun.call .sizeAll a6 trivial v4
  have e7 : RollCall.run pub exSys c4 .sizeAll = (c4, .counted n) := by
    show (c4, RollRes.counted c4.allGroupsSize) = _
    rw [g6]
  rw [e7] at a7
  exact a7

private theorem exR_k1 : exSys.env.readonly = false := by decide +kernel
private theorem exR_fx : exUComm.info.inRange = true := by decide +kernel
private theorem exR_fg : exOwn.base.inRange = true := by decide +kernel
private theorem exR_h1 : exC0.setUComm exSys exUComm = (exR1, .ok ()) := pair_is (by decide +kernel)
private theorem exR_h2 : exR1.setGroup exSys exOwn = (exR2, .ok ()) := pair_is (by decide +kernel)
private theorem exR_v0 : int64Ok (exC0.seqno + 1) = true := by decide +kernel
private theorem exR_v1 : int64Ok (exR1.seqno + 1) = true := by decide +kernel
private theorem exR_v2 : int64Ok (exR2.conf.m.seqno + exSys.env.lag) = true := by decide +kernel
private theorem exR_v3 : int64Ok (exR3.seqno + 1) = true := by decide +kernel
private theorem exR_g3 : exR3.allGroups exPub = [.group exOwn, .comm exUComm] := by decide +kernel
private theorem exR_h4 : exR3.eraseComm exSys exUComm.base exUComm.room = (exR4, .ok true) := pair_is (by decide +kernel)
private theorem exR_v4 : int64Ok (exR4.seqno + 1) = true := by decide +kernel
private theorem exR_g5 : exR4.getUComm exUComm.base exUComm.room = .ok none := by decide +kernel
private theorem exR_g6 : exR4.allGroupsSize = 1 := by decide +kernel
private theorem exR2_reach : Reach exSys exR2 := by
  have r1 : Reach exSys exR1 := (ucomm_set_get exSys_good exC0_reach exR_fx exR_h1).1
  exact (setRec_spec exSys_good (by simp [pathG]) (group_fields_nodup · exOwn) (group_fields_wf exR_fg)
    (fun pk => by obtain ⟨s, hs⟩ := group_fields_K exOwn pk; exact ⟨_, hs, rfl⟩) r1 exR_h2).1

example : RollRun exPub exSys (Client.new exSys) exRTrace exR4 :=
  exRoll_runs (c0 := exC0) (c1 := exR1) (c2 := exR2) (c3 := exR3)
    (.between (.nil _) (fun _ _ => .addKey _ _ _ _ (by decide +kernel))) exR2_reach exR_k1 exR_fx exR_fg exR_h1 exR_v0
    exR_h2 exR_v1 exR_v2 rfl exR_v3 exR_g3 exR_h4 exR_v4 exR_g5 exR_g6

end Verif
