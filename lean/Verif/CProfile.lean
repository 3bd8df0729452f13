import Verif.GroupMembers
import Verif.Promotion
import Verif.CBase

/-!
# The user profile and the description of a group through the C interface

src/config/user_profile.cpp:35-153 and src/config/groups/info.cpp:122-387, and `c_group_wrapper_init`
(src/config/internal.hpp:56-75).  The texts of the error messages are not modelled.  An outcome `.err` of a C function means that the
exception leaves it.
-/

namespace Verif

/-- What the `int` functions with a handler return: true for 0, false for an error (e.g. src/config/user_profile.cpp:44-51) -/
def cStatus (r : Client × Out Unit) : Client × Out Bool := match r with
  | (c, .ok _) => (c, .ok true)
  | (c, .err _) => (c, .ok false)
  | (c, .hang) => (c, .hang)
  | (c, .ub) => (c, .ub)

/-- What the `void` functions do: there is no handler (e.g. src/config/user_profile.cpp:108-110) -/
def cVoid (r : Client × Out Unit) : Client × Out Bool := match r with
  | (c, .ok _) => (c, .ok true)
  | (c, .err e) => (c, .err e)
  | (c, .hang) => (c, .hang)
  | (c, .ub) => (c, .ub)

/-- A `user_profile_pic` (include/session/config/profile_pic.h:15-22) as returned: the URL, and the key unless it was left
uninitialised (src/config/user_profile.cpp:62-71, src/config/groups/info.cpp:224-233) -/
def cPic (url key : Bytes) : Out (Bytes × Option Bytes) :=
  if picOk url key then (copyCStr 224 url).bind fun u => (readN key 32).bind fun k => .ok (u, some k) else .ok ([], none)

/-- A `user_profile_pic` as an argument: the 224 bytes of the URL and the 32 of the key.  A URL without NUL is read past its end
(src/config/user_profile.cpp:81-95, src/config/groups/info.cpp:245-258). -/
def Client.cSetPic (S : Sys) (c : Client) (url key : Bytes) : Client × Out Bool :=
  if 0 ∈ url then cStatus (c.setPic S (cStr url) (if cStr url = [] then [] else key)) else (c, .ub)

/-! ### Profile -/

/-- `user_profile_get_name` (src/config/user_profile.cpp:35-39): what a C program reads at the pointer, or null -/
def Client.cName (c : Client) : Option Bytes := if c.getName = [] then none else some (cStr c.getName)

/-- `user_profile_set_name` (src/config/user_profile.cpp:44-51) -/
def Client.cSetName (S : Sys) (c : Client) (name : Bytes) : Client × Out Bool := cStatus (c.setName S (cStr name))

/-- `user_profile_get_pic` (src/config/user_profile.cpp:62-71) -/
def Client.cGetPic (c : Client) : Out (Bytes × Option Bytes) := cPic c.getPic.1 c.getPic.2

/-- `user_profile_get_nts_priority`, `user_profile_set_nts_priority` (src/config/user_profile.cpp:105-111) -/
def Client.cPriority (c : Client) : Int := c.getNtsPriority
/-- `user_profile_set_nts_priority` (src/config/user_profile.cpp:108-110) -/
def Client.cSetPriority (S : Sys) (c : Client) (i : Int) : Client × Out Bool := cVoid (c.setNtsPriority S i)

/-- `user_profile_get_nts_expiry`, `user_profile_set_nts_expiry` (src/config/user_profile.cpp:123-129): the number of seconds is
converted to `int` -/
def Client.cExpiry (c : Client) : Int := toInt32 (c.getNtsExpiry.getD 0)
/-- `user_profile_set_nts_expiry` (src/config/user_profile.cpp:126-128) -/
def Client.cSetExpiry (S : Sys) (c : Client) (i : Int) : Client × Out Bool := cVoid (c.setNtsExpiry S (max 0 i))

/-- `user_profile_get_blinded_msgreqs`, `user_profile_set_blinded_msgreqs` (src/config/user_profile.cpp:144-155) -/
def Client.cMsgreqs (c : Client) : Int := match c.getMsgreqs with
  | some b => if b then 1 else 0
  | none => -1
/-- `user_profile_set_blinded_msgreqs` (src/config/user_profile.cpp:149-154) -/
def Client.cSetMsgreqs (S : Sys) (c : Client) (i : Int) : Client × Out Bool :=
  cVoid (c.setMsgreqs S (if i ≥ 0 then some (i != 0) else none))

/-! ### Group info -/

/-- `groups_info_get_name`, `groups_info_set_name` (src/config/groups/info.cpp:148-172) -/
def Client.cInfoName (c : Client) : Option Bytes := c.infoName.map cStr
/-- `groups_info_set_name` (src/config/groups/info.cpp:165-174) -/
def Client.cSetInfoName (S : Sys) (c : Client) (n : Bytes) : Client × Out Bool := cStatus (c.setInfoName S (cStr n))

/-- `groups_info_get_description`, `groups_info_set_description` (src/config/groups/info.cpp:186-210) -/
def Client.cInfoDescr (c : Client) : Option Bytes := c.infoDescr.map cStr
/-- `groups_info_set_description` (src/config/groups/info.cpp:203-212) -/
def Client.cSetInfoDescr (S : Sys) (c : Client) (n : Bytes) : Client × Out Bool := cStatus (c.setInfoDescr S (cStr n))

/-- `groups_info_get_pic` (src/config/groups/info.cpp:224-233) -/
def Client.cInfoPic (c : Client) : Out (Bytes × Option Bytes) := cPic c.infoPic.1 c.infoPic.2

/-- `groups_info_get_expiry_timer`, `groups_info_set_expiry_timer` (src/config/groups/info.cpp:269-285): converted to `int` -/
def Client.cInfoExpiry (c : Client) : Int := match c.infoExpiry with
  | some t => if t > 0 then toInt32 t else 0
  | none => 0
/-- `groups_info_set_expiry_timer` (src/config/groups/info.cpp:283-285) -/
def Client.cSetInfoExpiry (S : Sys) (c : Client) (i : Int) : Client × Out Bool := cVoid (c.setInfoExpiry S (max 0 i))

/-- `groups_info_get_created`, `groups_info_set_created` (src/config/groups/info.cpp:296-310) -/
def Client.cInfoCreated (c : Client) : Int := c.infoCreated.getD 0
/-- `groups_info_set_created` (src/config/groups/info.cpp:308-310) -/
def Client.cSetInfoCreated (S : Sys) (c : Client) (i : Int) : Client × Out Bool := cVoid (c.setInfoCreated S (max 0 i))

/-- `groups_info_get_delete_before`, `groups_info_set_delete_before` (src/config/groups/info.cpp:322-336) -/
def Client.cInfoDelete (c : Client) : Int := c.infoDeleteBefore.getD 0
/-- `groups_info_set_delete_before` (src/config/groups/info.cpp:334-336) -/
def Client.cSetInfoDelete (S : Sys) (c : Client) (i : Int) : Client × Out Bool := cVoid (c.setInfoDeleteBefore S (max 0 i))

/-- `groups_info_get_attach_delete_before`, `groups_info_set_attach_delete_before` (src/config/groups/info.cpp:348-362) -/
def Client.cInfoAttach (c : Client) : Int := c.infoDeleteAttach.getD 0
/-- `groups_info_set_attach_delete_before` (src/config/groups/info.cpp:360-362) -/
def Client.cSetInfoAttach (S : Sys) (c : Client) (i : Int) : Client × Out Bool := cVoid (c.setInfoDeleteAttach S (max 0 i))

/-- `groups_info_is_destroyed`, `groups_info_destroy_group` (src/config/groups/info.cpp:374-386) -/
def Client.cInfoDestroyed (c : Client) : Bool := c.infoDestroyed
/-- `groups_info_destroy_group` (src/config/groups/info.cpp:384-386) -/
def Client.cDestroyInfo (S : Sys) (c : Client) : Client × Out Bool := cVoid (c.destroyInfo S)

/-- `c_group_wrapper_init` (src/config/internal.hpp:56-75), i.e. `groups_info_init` and `groups_members_init`, with the constructor of
`ConfigBase` (src/config/base.cpp:349-376): the object with its signing keys, or what is in the caller's error buffer.  `secret` and
`dump` may be null pointers. -/
def cGroupInit (P : GPrims) (S : Sys) (pubkey : Bytes) (secret dump : Option Bytes) (dumplen : Nat) (error what : Bytes) :
    Out ((SigKeys × Client) ⊕ Bytes) :=
  (readN pubkey 32).bind fun pk =>
  Out.bind (match secret with
    | some s => (readN s 64).bind fun x => .ok (some x)
    | none => .ok none) fun sk =>
  Out.bind (match dump with
    | some d => if dumplen = 0 then .ok none else (readN d dumplen).bind fun x => .ok (some x)
    | none => .ok none) fun d =>
  match (match d with
    | some d => Client.restore S d
    | none => .ok (Client.new S)) with
  | .ok c => match SigKeys.init P (some pk) sk with
    | .ok k => .ok (.inl (k, c))
    | .err _ => (initError error what).bind fun e => .ok (.inr e)
    | .hang => .hang
    | .ub => .ub
  | .err _ => (initError error what).bind fun e => .ok (.inr e)
  | .hang => .hang
  | .ub => .ub

end Verif
