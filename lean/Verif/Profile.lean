import Verif.Contacts

/-!
# User profile

Models src/config/user_profile.cpp: every getter and setter of `UserProfile`.
-/

namespace Verif

/-- The integer in a field (`DictFieldProxy::integer`, include/session/config/base.hpp:478) -/
def Client.intAt (c : Client) (p : List Bytes) : Option Int := intOf (c.get p)

/-- The string in a field (`DictFieldProxy::string`, include/session/config/base.hpp:449) -/
def Client.strAt (c : Client) (p : List Bytes) : Option Bytes := strOf (c.get p)

/-- `UserProfile::get_name` (src/config/user_profile.cpp:30-34); no name is the empty string -/
def Client.getName (c : Client) : Bytes := (c.strAt [[110]]).getD []

/-- `UserProfile::set_name` (src/config/user_profile.cpp:41-43) -/
def Client.setName (S : Sys) (c : Client) (n : Bytes) : Client × Out Unit :=
  c.setNonempty S [[110]] n

/-- `UserProfile::get_profile_pic` (src/config/user_profile.cpp:53-60) -/
def Client.getPic (c : Client) : Bytes × Bytes :=
  ((c.strAt [[112]]).getD [],
   match c.strAt [[113]] with
   | some k => if k.length = 32 then k else []
   | none => [])

/-- `UserProfile::set_profile_pic` (src/config/user_profile.cpp:73-79) -/
def Client.setPic (S : Sys) (c : Client) (url key : Bytes) : Client × Out Unit :=
  c.writeAll S [([[112]], fIf (picOk url key) (.str url)), ([[113]], fIf (picOk url key) (.str key))]

/-- `UserProfile::get_nts_priority` (src/config/user_profile.cpp:101-103): an `int` -/
def Client.getNtsPriority (c : Client) : Int := toInt32 ((c.intAt [[43]]).getD 0)

/-- `UserProfile::set_nts_priority` (src/config/user_profile.cpp:97-99) -/
def Client.setNtsPriority (S : Sys) (c : Client) (i : Int) : Client × Out Unit :=
  c.setNonzero S [[43]] i

/-- `UserProfile::get_nts_expiry` (src/config/user_profile.cpp:117-121) -/
def Client.getNtsExpiry (c : Client) : Option Int := match c.intAt [[101]] with
  | some e => if e > 0 then some e else none
  | none => none

/-- `UserProfile::set_nts_expiry` (src/config/user_profile.cpp:113-115) -/
def Client.setNtsExpiry (S : Sys) (c : Client) (i : Int) : Client × Out Unit :=
  c.setPositive S [[101]] i

/-- `UserProfile::get_blinded_msgreqs` (src/config/user_profile.cpp:138-142) -/
def Client.getMsgreqs (c : Client) : Option Bool := (c.intAt [[77]]).map fun i => i != 0

/-- `UserProfile::set_blinded_msgreqs` (src/config/user_profile.cpp:131-136) -/
def Client.setMsgreqs (S : Sys) (c : Client) (b : Option Bool) : Client × Out Unit :=
  c.write S [[77]] (b.map fun b => .scalar (.int (if b then 1 else 0)))

end Verif
