import Verif.Data

/-!
# Specification vocabulary

What a user sees in a config: the *leaves*.  A leaf is either a scalar stored at a path of keys, or
an element of a set stored at a path of keys.  These definitions do not use the library's diff, apply
or prune functions.
-/

namespace Verif

/-- The scalar stored at a path, if any. -/
def scalarAt (d : Dict) : List Bytes → Option Scalar
  | [] => none
  | [k] => match mget k d with
    | some (.scalar x) => some x
    | _ => none
  | k :: k2 :: ps => match mget k d with
    | some (.dict e) => scalarAt e (k2 :: ps)
    | _ => none

/-- Whether the set stored at a path contains an element (`false` if there is no set there). -/
def memberAt (d : Dict) : List Bytes → Scalar → Bool
  | [], _ => false
  | [k], x => match mget k d with
    | some (.set s) => decide (x ∈ s)
    | _ => false
  | k :: k2 :: ps, x => match mget k d with
    | some (.dict e) => memberAt e (k2 :: ps) x
    | _ => false

/-- The dict stored as a value; a value that is no dict, and no value, count as the empty dict. -/
def subDict : Option Val → Dict
  | some (.dict d) => d
  | _ => []

/-- The content `b` leaves what the content `a` has at a path alone: walking down the path through
dicts of `b`, one reaches a key (on the path) that has the same value, or no value, in both.  A dict
on the way may be missing in `a`: then `b` created it, for something not on the path. -/
def sameAt (a b : Dict) : List Bytes → Bool
  | [] => decide (a = b)
  | [k] => decide (mget k a = mget k b)
  | k :: k2 :: ps => decide (mget k a = mget k b) ||
    match mget k b with
    | some (.dict y) => sameAt (subDict (mget k a)) y (k2 :: ps)
    | _ => false

/-- What a published change record says about the scalar at a path when its values are taken from
`src`: nothing, or "it is now `v`" (`none` = there is no scalar there any more). -/
def effScalar (df : BtDict) (src : Dict) : List Bytes → Option (Option Scalar)
  | [] => none
  | [k] => match mget k df with
    | none => none
    | some (.str s) => match mget k src with
      | some (.scalar x) => if s = [45] then some none else some (some x)
      | _ => some none
    | some _ => some none
  | k :: k2 :: ps => match mget k df with
    | none => none
    | some (.dict dd) => match mget k src with
      | some (.dict sd) => effScalar dd sd (k2 :: ps)
      | _ => some none
    | some _ => some none

/-- What a published change record says about an element of the set at a path. -/
def effMember (df : BtDict) (src : Dict) : List Bytes → Scalar → Option Bool
  | [], _ => none
  | [k], x => match mget k df with
    | none => none
    | some (.list [.list add, .list del]) => match mget k src with
      | some (.set _) =>
        if x.bt ∈ del then some false else if x.bt ∈ add then some true else none
      | _ => some false
    | some _ => some false
  | k :: k2 :: ps, x => match mget k df with
    | none => none
    | some (.dict dd) => match mget k src with
      | some (.dict sd) => effMember dd sd (k2 :: ps) x
      | _ => some false
    | some _ => some false

end Verif
