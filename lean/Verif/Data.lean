import Verif.Bt
import Mathlib.Data.Sum.Order

/-!
# Config data: values, pruning, diffs, applying diffs, (de)serialisation

Models include/session/config.hpp:21-39 and the anonymous-namespace functions of
src/config.cpp:26-430.
-/

namespace Verif

/-- `scalar = std::variant<int64_t, std::string>` (include/session/config.hpp:22). -/
inductive Scalar where
  | int (i : Int)
  | str (s : Bytes)
deriving Repr

/-- `std::variant` comparison: smaller alternative index first, then the values
(`operator<` of `std::variant<int64_t, std::string>`): integers before strings. -/
def Scalar.toLexSum : Scalar → Int ⊕ₗ Bytes
  | .int i => toLex (Sum.inl i)
  | .str s => toLex (Sum.inr s)

theorem Scalar.toLexSum_inj : Function.Injective Scalar.toLexSum := by
  intro a b h
  cases a <;> cases b <;> simp [Scalar.toLexSum] at h <;> simp [h]

instance : LinearOrder Scalar := LinearOrder.lift' Scalar.toLexSum Scalar.toLexSum_inj

/-- `dict_value = std::variant<dict, set, scalar>` (include/session/config.hpp:24-31).  `std::map`
and `std::set` are represented by their in-order traversal. -/
inductive Val where
  | dict (d : List (Bytes × Val))
  | set (s : List Scalar)
  | scalar (x : Scalar)
deriving Repr

/-- `dict = std::map<std::string, dict_value>` (include/session/config.hpp:26). -/
abbrev Dict := List (Bytes × Val)

mutual
/-- `operator==` of `dict_value` (include/session/config.hpp:24-31). -/
def Val.beq : Val → Val → Bool
  | .dict a, .dict b => Val.beqD a b
  | .set a, .set b => a == b
  | .scalar a, .scalar b => a == b
  | _, _ => false
termination_by structural x => x
/-- `operator==` of `dict` (include/session/config.hpp:26). -/
def Val.beqD : List (Bytes × Val) → List (Bytes × Val) → Bool
  | [], [] => true
  | (k, a) :: s, (k', b) :: t => k == k' && (Val.beq a b && Val.beqD s t)
  | _, _ => false
termination_by structural x => x
end

mutual
theorem Val.beq_iff : ∀ a b : Val, Val.beq a b = true ↔ a = b
  | .dict a, b => by cases b <;> simp [Val.beq, Val.beqD_iff]
  | .set a, b => by cases b <;> simp [Val.beq]
  | .scalar a, b => by cases b <;> simp [Val.beq]
theorem Val.beqD_iff : ∀ a b : List (Bytes × Val), Val.beqD a b = true ↔ a = b
  | [], b => by cases b <;> simp [Val.beqD]
  | (k, a) :: s, b => by
    cases b with
    | nil => simp [Val.beqD]
    | cons x t => obtain ⟨k', v⟩ := x; simp [Val.beqD, Val.beqD_iff s, Val.beq_iff a, and_assoc]
end

instance : DecidableEq Val := fun a b => decidable_of_iff _ (Val.beq_iff a b)

/-! ### Well-formedness -/

/-- The integer is an `int64_t` (include/session/config.hpp:22). -/
def Scalar.ok : Scalar → Bool
  | .int i => int64Ok i
  | .str _ => true

mutual
/-- What the C++ types guarantee of any value: maps and sets sorted without duplicates, integers in
the range of `int64_t`. -/
def Val.typed : Val → Bool
  | .dict d => typedD d
  | .set s => decide (SSorted s) && s.all Scalar.ok
  | .scalar x => x.ok
termination_by structural x => x
/-- `Val.typed` for the entries of a dict, with keys ascending as in a `std::map`. -/
def typedD : List (Bytes × Val) → Bool
  | [] => true
  | (k, v) :: t => Val.typed v && (t.all (fun b => decide (k < b.1)) && typedD t)
termination_by structural x => x
end

mutual
/-- No empty dict or empty set at any depth *inside* the value, nor the value itself. -/
def Val.full : Val → Bool
  | .dict d => !d.isEmpty && prunedD d
  | .set s => !s.isEmpty
  | .scalar _ => true
termination_by structural x => x
/-- No empty dict or empty set nested anywhere in the dict (the dict itself may be empty). -/
def prunedD : List (Bytes × Val) → Bool
  | [] => true
  | (_, v) :: t => Val.full v && prunedD t
termination_by structural x => x
end

/-- A dict as it appears in a serialised config message. -/
def wfD (d : Dict) : Bool := typedD d && prunedD d
/-- A value as it appears in a serialised config message. -/
def Val.wf (v : Val) : Bool := v.typed && v.full

theorem typedD_sorted {d : Dict} (h : typedD d = true) : KSorted d := by
  induction d with
  | nil => simp
  | cons a t ih =>
    obtain ⟨k, v⟩ := a
    simp only [typedD, Bool.and_eq_true, List.all_eq_true, decide_eq_true_eq] at h
    exact kSorted_cons.2 ⟨h.2.1, ih h.2.2⟩

theorem typedD_iff {d : Dict} : typedD d = true ↔ KSorted d ∧ ∀ b ∈ d, b.2.typed = true := by
  induction d with
  | nil => simp [typedD]
  | cons a t ih =>
    obtain ⟨k, v⟩ := a
    simp only [typedD, Bool.and_eq_true, List.all_eq_true, decide_eq_true_eq, kSorted_cons, ih,
      List.mem_cons, forall_eq_or_imp]
    tauto

theorem prunedD_iff {d : Dict} : prunedD d = true ↔ ∀ b ∈ d, b.2.full = true := by
  induction d with
  | nil => simp [prunedD]
  | cons a t ih =>
    obtain ⟨k, v⟩ := a
    simp [prunedD, ih]

theorem wfD_iff {d : Dict} : wfD d = true ↔ KSorted d ∧ ∀ b ∈ d, b.2.wf = true := by
  simp only [wfD, Bool.and_eq_true, typedD_iff, prunedD_iff, Val.wf]
  constructor
  · rintro ⟨⟨h1, h2⟩, h3⟩; exact ⟨h1, fun b hb => ⟨h2 b hb, h3 b hb⟩⟩
  · rintro ⟨h1, h2⟩; exact ⟨⟨h1, fun b hb => (h2 b hb).1⟩, fun b hb => (h2 b hb).2⟩

/-! ### Pruning (src/config.cpp:28-55) -/

/-- `rm_key`: whether a (pruned) value is to be removed from its parent. -/
def Val.emptyVal : Val → Bool
  | .dict d => d.isEmpty
  | .set s => s.isEmpty
  | .scalar _ => false

mutual
/-- `prune_(dict_value&)` (src/config.cpp:47-55): the value after pruning inside it. -/
def Val.prune : Val → Val
  | .dict d => .dict (pruneD d)
  | .set s => .set s
  | .scalar x => .scalar x
termination_by structural x => x
/-- `prune_(dict&)` (src/config.cpp:32-46). -/
def pruneD : List (Bytes × Val) → List (Bytes × Val)
  | [] => []
  | (k, v) :: t =>
    if (Val.prune v).emptyVal then pruneD t else (k, Val.prune v) :: pruneD t
termination_by structural x => x
end

/-! ### Diffs (src/config.cpp:57-157) -/

/-- Wire form of a scalar. -/
def Scalar.bt : Scalar → Bt
  | .int i => .int i
  | .str s => .str s

/-- One step of the loop of `diff_impl(set, set)` for the old element `o` (src/config.cpp:58-75); `k` is the rest of the loop. -/
def diffSetIns (o : Scalar) (k : List Scalar → List Scalar × List Scalar) :
    List Scalar → List Scalar × List Scalar
  | [] => let r := k []; (r.1, o :: r.2)
  | n :: ns =>
    if n < o then let r := diffSetIns o k ns; (n :: r.1, r.2)
    else if o < n then let r := k (n :: ns); (r.1, o :: r.2)
    else k ns

/-- The two-iterator loop of `diff_impl(set, set)` (src/config.cpp:58-75): the added and the removed
elements. -/
def diffSet : List Scalar → List Scalar → List Scalar × List Scalar
  | [], ns => (ns, [])
  | o :: os, ns => diffSetIns o (diffSet os) ns

/-- `[[added], [removed]]` (src/config.cpp:80-86). -/
def setDiffBt (p : List Scalar × List Scalar) : Bt :=
  .list [.list (p.1.map Scalar.bt), .list (p.2.map Scalar.bt)]

mutual
/-- Diff entry for a key whose value is new or changed its fundamental type
(src/config.cpp:141-149): `diff_impl({}, v)`.  An empty nested dict/set would dereference an empty
optional there; see `addUb`. -/
def addV : Val → Bt
  | .dict d => .dict (addD d)
  | .set s => setDiffBt (s, [])
  | .scalar _ => .str []
termination_by structural x => x
/-- `addV` for every entry of a new dict (src/config.cpp:141-149). -/
def addD : List (Bytes × Val) → List (Bytes × Bt)
  | [] => []
  | (k, v) :: t => (k, addV v) :: addD t
termination_by structural x => x
end

mutual
/-- Diff entry for a removed key (src/config.cpp:101-108): `diff_impl(v, {})`. -/
def delV : Val → Bt
  | .dict d => .dict (delD d)
  | .set s => setDiffBt ([], s)
  | .scalar _ => .str [45]
termination_by structural x => x
/-- `delV` for every entry of a removed dict (src/config.cpp:101-108). -/
def delD : List (Bytes × Val) → List (Bytes × Bt)
  | [] => []
  | (k, v) :: t => (k, delV v) :: delD t
termination_by structural x => x
end

/-- Does the optional returned by a `diff_impl` call hold a value?  (src/config.cpp:77-78,153-154) -/
def diffSetOpt (o n : List Scalar) : Option Bt :=
  let r := diffSet o n
  if r.1.isEmpty && r.2.isEmpty then none else some (setDiffBt r)

mutual
/-- Same key in old and new (src/config.cpp:113-149). -/
def diffV : Val → Val → Option Bt
  | .scalar a, n =>
    match n with
    | .scalar b => if a ≠ b then some (.str []) else none
    | n => some (addV n)
  | .set a, n =>
    match n with
    | .set b => diffSetOpt a b
    | n => some (addV n)
  | .dict a, n =>
    match n with
    | .dict b => let r := diffD a b; if r.isEmpty then none else some (.dict r)
    | n => some (addV n)
termination_by structural x => x
/-- `diff_impl(dict, dict)` (src/config.cpp:89-157); an empty result is `nullopt`.  The two-iterator
loop is grouped by the keys of `old`: the keys of `new` below the next old key come first. -/
def diffD : List (Bytes × Val) → List (Bytes × Val) → List (Bytes × Bt)
  | [], new => addD new
  | (k, o) :: old, new =>
    addD (new.takeWhile fun p => decide (p.1 < k)) ++
      match new.dropWhile (fun p => decide (p.1 < k)) with
      | [] => (k, delV o) :: diffD old []
      | (k', n) :: rest =>
        if k < k' then (k, delV o) :: diffD old ((k', n) :: rest)
        else match diffV o n with
          | none => diffD old rest
          | some b => (k, b) :: diffD old rest
termination_by structural x => x
end

/-- Whether computing the diff dereferences an empty `std::optional` (undefined behaviour at
src/config.cpp:104,106,145,147): it does so as soon as it enters an empty dict or set, which is
avoided by pruning first. -/
def addUb (v : Val) : Bool := !v.full

mutual
/-- The same for two values under one key (src/config.cpp:113-149). -/
def diffUbV : Val → Val → Bool
  | .scalar _, n =>
    match n with
    | .scalar _ => false
    | n => addUb n
  | .set _, n =>
    match n with
    | .set _ => false
    | n => addUb n
  | .dict a, n =>
    match n with
    | .dict b => diffUb a b
    | n => addUb n
termination_by structural x => x
/-- The same for two dicts (src/config.cpp:89-157). -/
def diffUb : List (Bytes × Val) → List (Bytes × Val) → Bool
  | [], new => new.any fun p => addUb p.2
  | (k, o) :: old, new =>
    (new.takeWhile fun p => decide (p.1 < k)).any (fun p => addUb p.2) ||
      match new.dropWhile (fun p => decide (p.1 < k)) with
      | [] => addUb o || diffUb old []
      | (k', n) :: rest =>
        if k < k' then addUb o || diffUb old ((k', n) :: rest)
        else diffUbV o n || diffUb old rest
termination_by structural x => x
end

/-! ### Applying a diff (src/config.cpp:357-429) -/

/-- `get_bt_scalar` (src/config.cpp:159-181): `oxenc::get_int<int64_t>` throws `std::overflow_error`
(not a `config_error`) for a `uint64_t` that does not fit. -/
def btScalar : Bt → Out (Option Scalar)
  | .int i => if int64Ok i then .ok (some (.int i)) else .err .foreign
  | .str s => .ok (some (.str s))
  | _ => .ok none

/-- The `added` loop (src/config.cpp:411-416). -/
def addAll : List Bt → List Scalar → Out (List Scalar)
  | [], s => .ok s
  | b :: t, s =>
    match btScalar b with
    | .ok (some x) => addAll t (sput x s)
    | .ok none => .err .config
    | .err e => .err e
    | .hang => .hang
    | .ub => .ub

/-- The `removed` loop (src/config.cpp:417-424). -/
def delAll : List Bt → List Scalar → Out (List Scalar)
  | [], s => .ok s
  | b :: t, s =>
    match btScalar b with
    | .ok (some x) => delAll t (sdel x s)
    | .ok none => .err .config
    | .err e => .err e
    | .hang => .hang
    | .ub => .ub

/-- `data[k] = v` or `data.erase(k)`. -/
def mset (k : Bytes) (v : Option Val) (m : Dict) : Dict :=
  match v with
  | none => mdel k m
  | some v => mput k v m

/-- `*set_diff->begin()` and `*std::next(set_diff->begin())` as `bt_list`s (src/config.cpp:411,418):
anything else is a bad variant access / out-of-range iterator, which `load_diff` excludes. -/
def setDiffParts : List Bt → Option (List Bt × List Bt)
  | .list a :: .list r :: _ => some (a, r)
  | _ => none

/-- `data[k]` as a dict, starting from an empty one if absent or of another type
(src/config.cpp:396-400). -/
def curDict : Option Val → Dict
  | some (.dict d) => d
  | _ => []

/-- `data[k]` as a set, starting from an empty one if absent or of another type
(src/config.cpp:404-409). -/
def curSet : Option Val → List Scalar
  | some (.set s) => s
  | _ => []

mutual
/-- One iteration of the loop of `apply_diff` (src/config.cpp:360-428), as a function of the value
currently at the key in `data` and in `source`; the result is the new value at the key. -/
def applyV : Bt → Option Val → Option Val → Out (Option Val)
  | .str s, _, src =>
    match src with
    | some (.scalar x) =>
      if s = [45] then .ok none
      else if s = [] then .ok (some (.scalar x))
      else .err .config
    | _ => .ok none
  | .dict dd, cur, src =>
    match src with
    | some (.dict sd) =>
      applyD dd (curDict cur) sd >>= fun r =>
        .ok (some (.dict r))
    | _ => .ok none
  | .list l, cur, src =>
    match src with
    | some (.set _) =>
      match setDiffParts l with
      | none => .ub
      | some (a, r) =>
        addAll a (curSet cur) >>= fun s1 =>
          delAll r s1 >>= fun s2 => .ok (some (.set s2))
    | _ => .ok none
  | .int _, _, src =>
    match src with
    | none => .ok none
    | some _ => .err .config
termination_by structural x => x
/-- `apply_diff(data, diff, source)` (src/config.cpp:359-429). -/
def applyD : List (Bytes × Bt) → Dict → Dict → Out Dict
  | [], data, _ => .ok data
  | (k, v) :: t, data, src =>
    applyV v (mget k data) (mget k src) >>= fun r => applyD t (mset k r data) src
termination_by structural x => x
end

/-! ### Serialising and parsing data (src/config.cpp:248-312) -/

mutual
/-- `serialize_data` (src/config.cpp:249-269). -/
def Val.bt : Val → Bt
  | .dict d => .dict (dictBt d)
  | .set s => .list (s.map Scalar.bt)
  | .scalar x => x.bt
termination_by structural x => x
/-- `serialize_data(dict)` (src/config.cpp:249-269). -/
def dictBt : List (Bytes × Val) → List (Bytes × Bt)
  | [] => []
  | (k, v) :: t => (k, Val.bt v) :: dictBt t
termination_by structural x => x
end

/-- The ordering test against the previously stored element (`key <= x.rbegin()->first`), vacuous for
the first one (src/config.cpp:210,277,306-308). -/
def outOfOrder {α : Type} [LinearOrder α] (last : Option α) (k : α) : Bool :=
  match last with
  | some y => decide (k ≤ y)
  | none => false

/-- One set element of `parse_data(set&, ...)` (src/config.cpp:299-305). -/
def parseScalar : Bt → Out Scalar
  | .int i => if int64Ok i then .ok (.int i) else .err .parse
  | .str s => .ok (.str s)
  | _ => .err .parse

/-- `parse_data(set&, ...)` (src/config.cpp:298-311), from the element after `last`. -/
def parseSet : Option Scalar → List Bt → Out (List Scalar)
  | _, [] => .ok []
  | last, b :: t =>
    parseScalar b >>= fun x =>
      if outOfOrder last x then .err .parse
      else parseSet (some x) t >>= fun r => .ok (x :: r)

mutual
/-- The value branches of `parse_data(dict&, ...)` (src/config.cpp:279-291).  All exceptions are
`bt_deserialize_invalid` or `config_parse_error`, i.e. `Err.parse` once past
src/config.cpp:562-564. -/
def parseV : Bt → Out Val
  | .int i => if int64Ok i then .ok (.scalar (.int i)) else .err .parse
  | .str s => .ok (.scalar (.str s))
  | .list l => if l.isEmpty then .err .parse else parseSet none l >>= fun s => .ok (.set s)
  | .dict d => if d.isEmpty then .err .parse else parseD none d >>= fun r => .ok (.dict r)
termination_by structural x => x
/-- `parse_data(dict&, ...)` (src/config.cpp:272-293), from the key after `last`. -/
def parseD : Option Bytes → List (Bytes × Bt) → Out (List (Bytes × Val))
  | _, [] => .ok []
  | last, (k, v) :: t =>
    if outOfOrder last k then .err .parse
    else parseV v >>= fun x => parseD (some k) t >>= fun r => .ok ((k, x) :: r)
termination_by structural _ x => x
end

/-! ### Loading and validating diffs (src/config.cpp:159-246) -/

/-- `check_scalar_order(a, b)` (src/config.cpp:186-203). -/
def checkOrder (a b : Bt) : Out Unit :=
  btScalar a >>= fun a => btScalar b >>= fun b =>
    match a, b with
    | some x, some y => if x < y then .ok () else .err .parse
    | _, _ => .err .parse

/-- The loop over adjacent elements (src/config.cpp:233-236): nothing at all is checked for lists of
zero or one element. -/
def checkAdj : List Bt → Out Unit
  | a :: b :: t => checkOrder a b >>= fun _ => checkAdj (b :: t)
  | _ => .ok ()

/-- One of the two sub-lists of a set diff (src/config.cpp:227-237). -/
def checkSub : Bt → Out Unit
  | .list l => checkAdj l
  | _ => .err .parse

/-- The sub-lists of a set diff, one after another (src/config.cpp:227-237). -/
def checkSubs : List Bt → Out Unit
  | [] => .ok ()
  | b :: t => checkSub b >>= fun _ => checkSubs t

mutual
/-- The value branches of `load_diff` (src/config.cpp:212-243).  There is no branch for an integer
value: nothing is consumed and the loop repeats forever.  (Simplification: `consume_list` would sort
the keys of a dict nested in a one-element sub-list, the only place where one passes the checks; here
it is kept as written.  Applying such a diff to a set throws either way.) -/
def loadV : Bt → Out Bt
  | .str s => if s = [] || s = [45] then .ok (.str s) else .err .parse
  | .list l => if l.length ≠ 2 then .err .parse else checkSubs l >>= fun _ => .ok (.list l)
  | .dict d => loadD none d >>= fun r => .ok (.dict r)
  | .int _ => .hang
termination_by structural x => x
/-- `load_diff` (src/config.cpp:206-246), from the key after `last`. -/
def loadD : Option Bytes → List (Bytes × Bt) → Out (List (Bytes × Bt))
  | _, [] => .ok []
  | last, (k, v) :: t =>
    if outOfOrder last k then .err .parse
    else loadV v >>= fun v' => loadD (some k) t >>= fun r => .ok ((k, v') :: r)
termination_by structural _ x => x
end

end Verif
