import Verif.GroupMembers
import Verif.GroupKeysInv
import Verif.Props.ClientKeys

/-!
# The three objects of a group together

Models how `Keys`, `Info` and `Members` work together: the constructor of `Keys`
(src/config/groups/keys.cpp:35-62), `rekey` (244-414) and `load_key_message` (907-1114), which read the
list of members and hand the encryption keys to the other two objects.
-/

namespace Verif

/-- The keys and primitives of one device: of `Keys`, of `Info` and of `Members`. -/
structure GroupSys where
  P : GPrims
  e : GEnv
  SI : Sys
  SM : Sys

/-- The objects of one group on one device. -/
structure GState where
  keys : GKeys
  info : Client
  members : Client

/-- Newly constructed objects, without dumps (src/config/groups/keys.cpp:35-62, info.cpp:17-27,
members.cpp:10-19) -/
def GState.new (G : GroupSys) : GState := ⟨.init, Client.new G.SI, Client.new G.SM⟩

/-- `members.replace_keys(group_keys(), dirty); info.replace_keys(group_keys(), dirty)`
(src/config/groups/keys.cpp:58-60, 406-409, 1102-1104): if the first throws, the second is not called. -/
def GState.giveKeys (G : GroupSys) (g : GState) (dirty : Bool) : GState × Out Unit :=
  let m := g.members.replaceKeys G.SM g.keys.groupKeys dirty
  match m.2 with
  | .ok _ =>
    let i := g.info.replaceKeys G.SI g.keys.groupKeys dirty
    (⟨g.keys, i.1, m.1⟩, i.2)
  | r => (⟨g.keys, g.info, m.1⟩, r)

/-- Constructing `Keys` with a dump for given `Info` and `Members` (src/config/groups/keys.cpp:56-61) -/
def GState.restore (G : GroupSys) (dump : Bytes) (info members : Client) : Out GState :=
  loadDump dump >>= fun k =>
    let r := (GState.mk k info members).giveKeys G false
    r.2 >>= fun _ => .ok r.1

/-- `rekey(info, members)` (src/config/groups/keys.cpp:244-414): `needs_dump_` is set last. -/
def GState.rekey (G : GroupSys) (g : GState) : GState × Out Bytes :=
  match g.members.members >>= fun ms => g.keys.rekey G.P G.e (ms.map GMember.id) with
  | .ok (k, msg) =>
    let r := GState.giveKeys G { g with keys := { k with needsDump := g.keys.needsDump } } true
    match r.2 with
    | .ok _ => ({ r.1 with keys := { r.1.keys with needsDump := true } }, .ok msg)
    | .err x => (r.1, .err x)
    | .hang => (r.1, .hang)
    | .ub => (r.1, .ub)
  | .err x => (g, .err x)
  | .hang => (g, .hang)
  | .ub => (g, .ub)

/-- `load_key_message(hash, data, timestamp, info, members)` (src/config/groups/keys.cpp:907-1114) -/
def GState.load (G : GroupSys) (g : GState) (hash data : Bytes) (ts : Int) : GState × Out Bool :=
  match g.keys.load G.P G.e hash data ts with
  | .ok (k, true) =>
    let r := GState.giveKeys G { g with keys := k } false
    (r.1, r.2 >>= fun _ => .ok true)
  | .ok (k, false) => ({ g with keys := k }, .ok false)
  | .err x => (g, .err x)
  | .hang => (g, .hang)
  | .ub => (g, .ub)

/-- A call of the application on `Info` or `Members` that is not about encryption keys (those are the
business of `Keys`). -/
inductive AppStep (S : Sys) : Client → Client → Prop
  | edit (c : Client) (d : Dict) : typedD d = true → (c.edit S d).2.safe = true →
      AppStep S c (c.edit S d).1
  | merge (c : Client) (configs : List (Bytes × Bytes)) :
      (∀ p ∈ gather S c.keys configs, Fair S.env p.2) →
      NoCollision S.env ((c.allConfs S.env (gather S c.keys configs)).map (·.2)) →
      (c.merge S configs).2.safe = true → AppStep S c (c.merge S configs).1
  | push (c : Client) : AppStep S c (c.push S).1
  | confirm (c : Client) (s : Int) (h : Bytes) : AppStep S c (c.confirm s h)
  | dump (c : Client) : AppStep S c (c.dumped S)

/-- The keys of a device whose user has become an admin: `load_admin_key` (src/config/groups/keys.cpp:212-233)
gives all three objects the signing key. -/
def GroupSys.promoted (G : GroupSys) (sk : Bytes) (fi fm : Bytes → Bytes) : GroupSys :=
  ⟨G.P, { G.e with groupSk := some sk }, G.SI.as (some fi), G.SM.as (some fm)⟩

/-- The device of a member: no signing key in any of the objects. -/
structure GroupSys.Member (G : GroupSys) : Prop where
  k : G.e.groupSk = none
  i : G.SI.env.readonly = true
  m : G.SM.env.readonly = true

/-- `G` is the device `G'`, possibly before its user became an admin. -/
def Older (G G' : GroupSys) : Prop := G = G' ∨ G.Member ∧ ∃ sk fi fm, G' = G.promoted sk fi fm

/-- The states of a group on a device, with the key messages loaded so far: calls on `Info` and
`Members`, key messages, rekeys and dumps in any order, and restarts from dumps of the three objects -
which need not have been made at the same time.  A member may become an admin on the way, also by restarting
from dumps made before. -/
inductive GReach : GroupSys → GState → List (Bytes × Found) → Prop
  | new {G : GroupSys} : GReach G (GState.new G) []
  | info {G : GroupSys} {g : GState} {log : List (Bytes × Found)} {c : Client} : GReach G g log → AppStep G.SI g.info c →
      GReach G { g with info := c } log
  | members {G : GroupSys} {g : GState} {log : List (Bytes × Found)} {c : Client} : GReach G g log →
      AppStep G.SM g.members c → GReach G { g with members := c } log
  | load {G : GroupSys} {g : GState} {log : List (Bytes × Found)} {hash data : Bytes} {ts : Int} {f : Found} :
      GReach G g log → parseKeyMsg G.P G.e data ts = .ok f → (g.load G hash data ts).2.safe = true →
      GReach G (g.load G hash data ts).1 (log ++ [(hash, f)])
  | rekey {G : GroupSys} {g : GState} {log : List (Bytes × Found)} : GReach G g log → (g.rekey G).2.safe = true →
      GReach G (g.rekey G).1 log
  | dump {G : GroupSys} {g : GState} {log : List (Bytes × Found)} : GReach G g log →
      GReach G { g with keys := g.keys.dump.1 } log
  | promote {G : GroupSys} {g : GState} {log : List (Bytes × Found)} {sk : Bytes} {fi fm : Bytes → Bytes} :
      GReach G g log → G.Member → GReach (G.promoted sk fi fm) g log
  | restart {G Gk Gi Gm : GroupSys} {g gi gm g' : GState} {log li lm : List (Bytes × Found)} {oi om : List Bytes}
      {i m : Client} :
      GReach Gk g log → GReach Gi gi li → GReach Gm gm lm → Older Gk G → Older Gi G → Older Gm G →
      oi.Perm (if Gi.SI.env.readonly then [] else gi.info.old) →
      om.Perm (if Gm.SM.env.readonly then [] else gm.members.old) →
      Client.restore G.SI (gi.info.dumpBytes Gi.SI oi) = .ok i →
      Client.restore G.SM (gm.members.dumpBytes Gm.SM om) = .ok m →
      GState.restore G g.keys.makeDump i m = .ok g' → GReach G g' log

end Verif
