import Verif.OMap
import Verif.Bt

/-!
# Merging bencoded values

Models src/bt_merge.cpp and include/session/bt_merge.hpp.
-/

namespace Verif

/-- `session::bt::merge` (src/bt_merge.cpp:4-19); a `bt_dict` is a map, sorted by key -/
def btMerge : BtDict → BtDict → BtDict
  | [], b => b
  | a, [] => a
  | (ka, va) :: ta, (kb, vb) :: tb =>
    if ka < kb then (ka, va) :: btMerge ta ((kb, vb) :: tb)
    else if ka = kb then (ka, va) :: btMerge ta tb
    else (kb, vb) :: btMerge ((ka, va) :: ta) tb
termination_by a b => a.length + b.length

/-- `merge_sorted` with `duplicates` (include/session/bt_merge.hpp:35-41, 52-55) -/
def mergeDup (cmp : Bt → Bt → Bool) : List Bt → List Bt → List Bt
  | [], b => b
  | a, [] => a
  | x :: a, y :: b =>
    if cmp x y = false then y :: mergeDup cmp (x :: a) b
    else x :: mergeDup cmp a (y :: b)
termination_by a b => a.length + b.length

/-- `merge_sorted` without `duplicates` (include/session/bt_merge.hpp:42-55) -/
def mergeUniq (cmp : Bt → Bt → Bool) : List Bt → List Bt → List Bt
  | [], b => b
  | a, [] => a
  | x :: a, y :: b =>
    if cmp y x = true then y :: mergeUniq cmp (x :: a) b
    else if cmp x y = true then x :: mergeUniq cmp a (y :: b)
    else mergeUniq cmp (x :: a) b
termination_by a b => a.length + b.length

/-- `merge_sorted` (include/session/bt_merge.hpp:25-58) -/
def mergeSorted (a b : List Bt) (cmp : Bt → Bt → Bool) (duplicates : Bool := false) : List Bt :=
  if duplicates then mergeDup cmp a b else mergeUniq cmp a b

end Verif
