import Verif.Props.LegacyNet

/-!
# User groups: concrete cases, and what does not hold
-/

namespace Verif

theorem pair_ok {p : Client × Out Unit} (h : p.2 = .ok ()) : p = (p.1, .ok ()) := by
  cases p; cases h; rfl

/-- A toy `crypto_sign_seed_keypair`: the public key is the seed, padded or cut to 32 bytes. -/
def exPub (s : Bytes) : Bytes := (s ++ List.replicate 32 0).take 32

theorem exPub_len (s : Bytes) : (exPub s).length = 32 := by
  unfold exPub; rw [List.length_take, List.length_append, List.length_replicate]; omega

def exSeed : Bytes := List.replicate 32 172
/-- The id of the group with that seed -/
def exOwn : Group := newGroup exPub exSeed
def exAuth : Bytes := List.replicate 100 5
/-- A group with everything set -/
def exGroup : Group :=
  { id := exGid, base := { priority := -1, joined := 17, notify := .mentions, mute := 5, invited := true },
    name := [65, 66], auth := exAuth }

/-- C83: set and read under another spelling; the key of a created group; kicked; erased. -/
example :
    let a := (exC3.setGroup exSys exGroup).1
    let b := (a.setGroup exSys exOwn).1
    exGroup.base.inRange = true ∧ (exC3.setGroup exSys exGroup).2 = .ok () ∧
      SameRec pre03 (lower exGid) exGid ∧ lower exGid ≠ exGid ∧
      b.getGroup exPub (lower exGid) = .ok (some { exGroup with id := lower exGid }) ∧
      exOwn.Genuine exPub ∧ b.getGroup exPub exOwn.id = .ok (some exOwn) ∧ exOwn.kicked = false ∧
      b.groupsSize = 2 ∧ b.groups exPub = [{ exGroup with id := lower exGid }, exOwn] ∧
      (b.eraseGroup exSys exGid).2 = .ok true ∧
      ((b.setGroup exSys exOwn.setKicked).1.getGroup exPub exOwn.id).toOption.join.map (·.kicked) = some true := by
  refine ⟨by decide +kernel, by decide +kernel, ⟨fromHex exGid, by decide +kernel, by decide +kernel⟩,
    by decide +kernel, by decide +kernel, ⟨exSeed, by decide +kernel⟩, by decide +kernel⟩

/-- C83, what does not hold.  1. `get_group` under the upper-case spelling of the id of a group one is
admin of returns it without the secret key, and writing it back unchanged destroys the key for good.
2. Contrary to the documentation ("s" is only there without "K"), setting the secret key of a group leaves
the old authentication data in place. -/
theorem group_admin_lost :
    (∃ (c : Client) (g : Group), Reach exSys c ∧ checkId g.id pre03 = true ∧
      c.getGroup exPub (lower g.id) = .ok (some exOwn) ∧ exOwn.kicked = false ∧
      c.getGroup exPub g.id = .ok (some g) ∧ g.kicked = true ∧
      ((c.setGroup exSys g).1.getGroup exPub (lower g.id)).toOption.join.map (·.kicked) = some true) ∧
    (∃ (c : Client) (g : Group), Reach exSys c ∧ g.Genuine exPub ∧ g.auth = [] ∧
      (c.setGroup exSys g).2 = .ok () ∧
      ((c.setGroup exSys g).1.getGroup exPub g.id).toOption.join.map (·.auth) = some exAuth) := by
  have hr : Reach exSys (exC3.setGroup exSys exOwn).1 := by
    have h : exC3.setGroup exSys exOwn = ((exC3.setGroup exSys exOwn).1, .ok ()) :=
      pair_ok (by decide +kernel)
    exact (group_set_get exSys_good exPub_len exC3_reach (g := exOwn) (by decide +kernel) h).1
  have hr2 : Reach exSys (exC3.setGroup exSys { exOwn with secret := [], auth := exAuth }).1 := by
    have h : exC3.setGroup exSys { exOwn with secret := [], auth := exAuth } =
        ((exC3.setGroup exSys { exOwn with secret := [], auth := exAuth }).1, .ok ()) :=
      pair_ok (by decide +kernel)
    exact (group_set_get exSys_good exPub_len exC3_reach (g := { exOwn with secret := [], auth := exAuth })
      (by decide +kernel) h).1
  refine ⟨⟨(exC3.setGroup exSys exOwn).1, { id := [48, 51] ++ (List.replicate 32 [65, 67]).flatten }, hr,
    by decide +kernel⟩, ⟨_, exOwn, hr2, ⟨exSeed, by decide +kernel⟩, by decide +kernel⟩⟩

/-! ### Legacy groups -/

def exMemA : Bytes := lower exId
def exMemB : Bytes := lower exId2
def exMemC : Bytes := [48, 53] ++ (List.replicate 32 [97, 100]).flatten
def exLegId : Bytes := [48, 53] ++ (List.replicate 32 [97, 49]).flatten

/-- A legacy group with a plain member and an admin -/
def exLegacy : Legacy :=
  { id := exLegId, base := { joined := 17 }, name := [65], encPub := List.replicate 32 1,
    encSec := List.replicate 32 2, timer := 60, members := [(exMemA, false), (exMemB, true)] }

theorem exLegacy_ok : MembersOk exLegacy.members := by
  unfold MembersOk
  refine ⟨by decide +kernel, by decide +kernel⟩

/-- C84: set, read back, erased; members inserted and removed. -/
example :
    let a := (exC3.setLegacy exSys exLegacy).1
    exLegacy.inRange = true ∧ exLegacy.Valid ∧ (exC3.setLegacy exSys exLegacy).2 = .ok () ∧
      a.getLegacy exLegId = .ok (some exLegacy) ∧ a.legacies = [exLegacy] ∧ a.legacySize = 1 ∧
      (a.eraseLegacy exSys exLegId).2 = .ok true ∧
      insertMember exLegacy.members exMemC true =
        .ok ([(exMemA, false), (exMemB, true), (exMemC, true)], true) ∧
      memberCounts exLegacy.members = (1, 1) := by
  refine ⟨by decide +kernel, ?_, by decide +kernel⟩
  exact ⟨by unfold GroupBase.Valid; decide +kernel, by decide +kernel, by decide +kernel, by decide +kernel,
    by decide +kernel⟩

/-- C84, what does not hold: `insert` takes two spellings of one id as two members; after storing there is
one, and it is not an admin although it was inserted as one last. -/
theorem legacy_member_spellings : ∃ m m' : Members,
    insertMember [] exMemA false = .ok (m, true) ∧ insertMember m exId true = .ok (m', true) ∧
    memberCounts m' = (1, 1) ∧
    ((exC3.setLegacy exSys { id := exLegId, members := m' }).1.getLegacy exLegId).toOption.join.map
      (·.members) = some [(exMemA, false)] := by
  refine ⟨[(exMemA, false)], mput exId true [(exMemA, false)], ?_⟩
  decide +kernel


/-! ### Communities, iteration, delivery, the C structs -/

/-- "http://ab.c" -/
def exServer : Bytes := [104, 116, 116, 112, 58, 47, 47, 97, 98, 46, 99]
/-- "HTTP://AB.C:80/" -/
def exServer2 : Bytes := [72, 84, 84, 80, 58, 47, 47, 65, 66, 46, 67, 58, 56, 48, 47]
/-- Room "Room" -/
def exUComm : Comm := ⟨exServer, [82, 111, 111, 109], List.replicate 32 3, { priority := 2, notify := .mentions }⟩

/-- C85, C86: a community stored under one spelling and read under another; another room with a new key;
everything listed. -/
example :
    let a := (exC3.setUComm exSys exUComm).1
    let b := (a.setUComm exSys ⟨exServer, [120], List.replicate 32 4, {}⟩).1
    let d := ((b.setLegacy exSys exLegacy).1.setGroup exSys exOwn).1
    exUComm.info.inRange = true ∧ (exC3.setUComm exSys exUComm).2 = .ok () ∧
      SameComm exServer2 [114, 79, 111, 109] exUComm.base exUComm.room ∧
      a.getUComm exServer2 [114, 79, 111, 109] = .ok (some exUComm) ∧
      b.getUComm exServer exUComm.room = .ok (some { exUComm with pubkey := List.replicate 32 4 }) ∧
      (b.eraseComm exSys exServer2 [88]).2 = .ok true ∧
      d.allGroups exPub = [.group exOwn, .comm { exUComm with pubkey := List.replicate 32 4 },
        .comm ⟨exServer, [120], List.replicate 32 4, {}⟩, .legacy exLegacy] ∧
      d.allGroupsSize = 4 ∧ exUComm.viaC = .ok exUComm := by
  refine ⟨by decide +kernel, by decide +kernel, ⟨exServer, [114, 111, 111, 109], by decide +kernel⟩,
    by decide +kernel⟩

/-- C86: the hypothesis of `ucomm_iter` holds of an object without communities, and `set` keeps it
(`ucomm_set_canon`). -/
example : exC3.CanonRooms := by
  have h0 : ∀ b r, exC3.get (roomPath b r) = none := fun b r => by
    have h1 : exC3.get pathO = none := by decide +kernel
    have h2 : valAt exC3.conf.m.data ([111] :: ([b, [82], r] : List Bytes)) = none := by
      have h1 : mget [111] exC3.conf.m.data = none := h1
      show valAt exC3.conf.m.data ([111] :: b :: [[82], r]) = none
      rw [valAt_curDict, h1]; rfl
    exact h2
  exact ⟨fun b r hg => absurd (h0 b r) (by simpa using hg), fun b r e he => by rw [h0] at he; cases he⟩

/-- C88: set, pushed, delivered to a device that has what was published before. -/
example :
    let c := (((exC3.setGroup exSys exOwn).1.setLegacy exSys exLegacy).1.setUComm exSys exUComm).1
    let m := match (c.push exSys).2 with | .ok (_, m, _) => m | _ => []
    let r := (exD1.merge exSys [([107], m)]).1
    r.getGroup exPub exOwn.id = .ok (some exOwn) ∧ r.getLegacy exLegId = .ok (some exLegacy) ∧
      r.getUComm exServer exUComm.room = .ok (some exUComm) ∧ exD1.getLegacy exLegId = .ok none := by
  decide +kernel

/-- C87: a stored record with a secret key of another group, a timer of the wrong type, an admin who is
also a plain member and a member id of the wrong length, still reads as something well-formed. -/
example :
    Group.load exPub exGid [([75], .scalar (.str exSeed)), ([115], .scalar (.str [1, 2]))] = { id := exGid } ∧
    Legacy.load exLegId [([69], .scalar (.int (-5))), ([75], .scalar (.str (List.replicate 32 1))),
      ([97], .set [.str (fromHex exMemA)]), ([109], .set [.int 4, .str [5], .str (fromHex exMemA)])] =
      { id := exLegId, members := [(exMemA, false)] } := by decide +kernel

/-- C89: what `get` returns goes through the C structs. -/
example : exOwn.viaC = .ok exOwn ∧ exGroup.viaC = .ok exGroup ∧ exLegacy.viaC = .ok exLegacy := by decide +kernel

/-! ### Members edited on two devices -/

/-- A hash under which the messages below do not collide -/
def laterH (b : Bytes) : Bytes := ((b.drop 190) ++ List.replicate 32 0).take 32

/-- Unsigned configs (as user groups are), that hash -/
def exSysK : Sys := { exSys with env := ⟨laterH, none, none, 5⟩ }

theorem exSysK_good : exSysK.Good where
  sane := ⟨fun b => by simp [exSysK, laterH], fun f hf b => by cases hf⟩
  lag1 := by decide
  lagU := by decide
  prims := toyPrims_good
  dom := by decide
  zip := fun _ => rfl
  sig := fun v f hv hf b => by cases hv
  proto := fun w u h => by cases h

def exK0 : Client := ((Client.new exSysK).addKey exSysK exKey true false).1
theorem exK0_peer : Peer exSysK exK0 := .step .new (.addKey _ _ _ _ (by decide +kernel))
theorem exK0_reach : Reach exSysK exK0 := .step .new (.addKey _ _ _ _ (by decide +kernel))

/-- C89: records with everything set go through the C structs; a name is cut at a NUL, a key of a wrong length is dropped. -/
example : exGroup.Sound (fun _ => List.replicate 32 0) ∧ exGroup.name.length ≤ 100 ∧ (0 : UInt8) ∉ exGroup.name ∧
    exGroup.viaC = .ok exGroup ∧ exLegacy.Sound ∧ exLegacy.name.length ≤ 100 ∧ (0 : UInt8) ∉ exLegacy.name ∧
    exLegacy.viaC = .ok exLegacy ∧
    ({ exLegacy with name := [65, 0, 66], encSec := [1] } : Legacy).viaC =
      .ok { exLegacy with name := [65], encPub := [], encSec := [] } ∧
    ({ exGroup with auth := [1] } : Group).viaC = .ok { exGroup with auth := [] } := by
  refine ⟨⟨by decide, fun h => absurd rfl h, .inr (by decide +kernel)⟩, by decide +kernel, by decide +kernel, by decide +kernel,
    ⟨by decide, .inl (by decide +kernel), by decide, by unfold KSorted; decide +kernel, by decide +kernel⟩,
    by decide +kernel, by decide +kernel, by decide +kernel, by decide +kernel, by decide +kernel⟩

/-- The object with the group stored and published -/
def exLB : Client := ((exK0.setLegacy exSysK exLegacy).1.push exSysK).1.confirm 1 [105]

theorem exLB_peer : Peer exSysK exLB := by
  unfold exLB
  refine .step (.step ?_ (.push _)) (.confirm _ _ _)
  have h : exK0.setLegacy exSysK exLegacy = ((exK0.setLegacy exSysK exLegacy).1, .ok ()) := pair_ok (by decide +kernel)
  exact (setRec_edits exSysK_good exK0_reach (fun _ => legacy_fields_wf (g := exLegacy) (by decide +kernel)) h).peer
    exK0_peer

theorem exLB_stored : StoredLegacy exLB exLegacy := by
  refine ⟨by decide +kernel, exLegacy_ok, by decide +kernel, ?_⟩
  decide +kernel

def exMemD : Bytes := [48, 53] ++ (List.replicate 32 [98, 100]).flatten
/-- One device adds a plain member, -/
def exLeg1 : Legacy := { exLegacy with members := [(exMemA, false), (exMemB, true), (exMemC, false)] }
/-- another makes the plain member an admin, and adds one, -/
def exLeg2 : Legacy := { exLegacy with members := [(exMemA, true), (exMemB, true), (exMemD, false)] }
/-- a third removes the only plain member. -/
def exLeg3 : Legacy := { exLegacy with members := [(exMemB, true)], name := [66] }
def exL1 : Client := (exLB.setLegacy exSysK exLeg1).1
def exL2 : Client := (exLB.setLegacy exSysK exLeg2).1
def exL3 : Client := (exLB.setLegacy exSysK exLeg3).1
def exML2 : Bytes := match (exL2.push exSysK).2 with
  | .ok (_, m, _) => m
  | _ => []
def exML3 : Bytes := match (exL3.push exSysK).2 with
  | .ok (_, m, _) => m
  | _ => []

theorem LegacyEdit.mk' {S : Sys} {B c c' : Client} {g : Legacy} (h1 : Peer S c) (h2 : c.st ≠ .dirty)
    (h3 : SameConfig S c B) (h4 : g.inRange = true) (h5 : MembersOk g.members)
    (h6 : ∀ x ∈ g.members, Verif.lower x.1 = x.1) (h7 : (c.setLegacy S g).2 = .ok ())
    (h8 : c' = (c.setLegacy S g).1) (h9 : c'.st = .dirty) : LegacyEdit S B c g c' :=
  ⟨h1, h2, h3, h4, h5, h6, by rw [h8]; exact pair_ok h7, h9⟩

theorem exL1_edit : LegacyEdit exSysK exLB exLB exLeg1 exL1 :=
  .mk' exLB_peer (by decide +kernel) (.inl (by decide +kernel)) (by decide +kernel)
    ⟨by decide +kernel, by decide +kernel⟩ (by decide +kernel) (by decide +kernel) (by unfold exL1; rfl)
    (by decide +kernel)

theorem exL2_edit : LegacyEdit exSysK exLB exLB exLeg2 exL2 :=
  .mk' exLB_peer (by decide +kernel) (.inl (by decide +kernel)) (by decide +kernel)
    ⟨by decide +kernel, by decide +kernel⟩ (by decide +kernel) (by decide +kernel) (by unfold exL2; rfl)
    (by decide +kernel)

/-- C90: the first device merges the message of the second: it has both new members and the promotion. -/
example :
    LegacyEdit exSysK exLB exLB exLeg1 exL1 ∧ LegacyEdit exSysK exLB exLB exLeg2 exL2 ∧
    exLeg1.id = exLegacy.id ∧ exLeg2.id = exLegacy.id ∧ StoredLegacy exLB exLegacy ∧
    (exL1.push exSysK).2.isOk = true ∧
    gather exSysK exL1.keys [([1], exML2), ([3], [7])] = [([1], exL2.plain exSysK)] ∧
    NoCollision exSysK.env [exL1.plain exSysK, exL2.plain exSysK] ∧
    ((exL1.push exSysK).1.merge exSysK [([1], exML2), ([3], [7])]).2.isOk = true ∧
    (∀ adm, (∃ y ∈ exLeg1.members, y.2 = adm) ∧ ∃ y ∈ exLeg2.members, y.2 = adm) ∧
    (((exL1.push exSysK).1.merge exSysK [([1], exML2), ([3], [7])]).1.getLegacy exLegId).toOption.join.map
      (·.members) = some [(exMemA, true), (exMemB, true), (exMemC, false), (exMemD, false)] := by
  refine ⟨exL1_edit, exL2_edit, rfl, rfl, exLB_stored, by decide +kernel, by decide +kernel,
    by unfold NoCollision; decide +kernel, by decide +kernel, by decide +kernel, by decide +kernel⟩

/-- C90, what does not hold without the assumption that no device removes the last plain member or the
last admin: one device adds the member C, another removes the member A, which was the only plain member;
after the merge neither is a member. -/
theorem legacy_member_lost :
    Peer exSysK exLB ∧ exLB.getLegacy exLegId = .ok (some exLegacy) ∧
    (exLB.setLegacy exSysK exLeg1).2 = .ok () ∧ (exLB.setLegacy exSysK exLeg3).2 = .ok () ∧
    mget exMemC exLegacy.members = none ∧ mget exMemC exLeg3.members = none ∧
    mget exMemC exLeg1.members = some false ∧
    gather exSysK exL1.keys [([1], exML3)] = [([1], exL3.plain exSysK)] ∧
    NoCollision exSysK.env [exL1.plain exSysK, exL3.plain exSysK] ∧
    (((exL1.push exSysK).1.merge exSysK [([1], exML3)]).1.getLegacy exLegId).toOption.join.map
      (·.members) = some [(exMemB, true)] := by
  refine ⟨exLB_peer, by decide +kernel, by decide +kernel, by decide +kernel, by decide +kernel,
    by decide +kernel, by decide +kernel, by decide +kernel, by unfold NoCollision; decide +kernel,
    by decide +kernel⟩

end Verif
