import Verif.Base.Vector
import Verif.Base.Ring
/-
Model of `src/base/MapString.cpp`, `src/base/MapInt.cpp` and their iterators. The two files differ
only in the key type, the key comparison and the growth step, so one model is parameterised over the
key order (`Ord K`: `strcmp` resp. `<` on `zs_int`) and the growth step `slot` (16 resp. 10).

Simplifications: `malloc`/`realloc` succeed; node addresses are never reused; freeing is not modelled
beyond the pointer resets the code itself performs; `_key == NULL` (checked in `get`) does not occur.
The item array is an explicit cell buffer, moved by the same shifting loops as in the Vector model.
-/
namespace Verif.Map
open Verif

/-- `MapString.h`/`MapInt.h`: items (key, node pointer), `_count`, `_size`, list header, and the
fields `key`/`value` of the nodes (`none` = not yet initialised). `fresh` is the next unused address. -/
structure MapS (K : Type u) (V : Type v) where
  items : List (Option (K × Nat))
  count : Nat
  cap : Nat
  heap : Ring.Heap
  hdr : Ring.Hdr
  nkey : Nat → Option K
  nval : Nat → Option V
  fresh : Nat

variable {K : Type u} {V : Type v} [Ord K]

/-- `MapString.cpp` 8, `MapInt.cpp` 8. -/
def maxItems : Nat := 1000000

/-- `MapString.cpp` 64-70. -/
def MapS.empty : MapS K V :=
  ⟨[], 0, 0, Ring.Heap.init, Ring.Hdr.init, fun _ => none, fun _ => none, 0⟩

/-- Read `items[i]`; cells at or beyond the initialised part are indeterminate. -/
def rdItem (items : List (Option (K × Nat))) (i : Int) : Out (K × Nat) :=
  (Vector.rd items i).bind fun c => match c with
    | some x => .ok x
    | none => .ub

/-- Loop of `search`, `MapString.cpp` 24-39. -/
def searchLoop (items : List (Option (K × Nat))) (key : K) (lo hi : Int) : Out Int :=
  if h : hi ≥ lo then
    let mid := (lo + hi) / 2
    (rdItem items mid).bind fun it =>
      match compare it.1 key with
      | .eq => .ok mid
      | .lt => searchLoop items key (mid + 1) hi
      | .gt => searchLoop items key lo (mid - 1)
  else .ok (-1)
termination_by (hi + 1 - lo).toNat
decreasing_by
  all_goals omega

/-- `search`, `MapString.cpp` 13-42. -/
def search (m : MapS K V) (key : K) : Out Int :=
  let hi : Int := (m.count : Int) - 1
  if hi < 0 then .ok (-1) else searchLoop m.items key 0 hi

/-- `pushSlot`, `MapString.cpp` 44-62. -/
def pushSlot (slot : Nat) (m : MapS K V) : Out (MapS K V) :=
  let m := if m.cap = 0 then { m with cap := slot, items := List.replicate slot none } else m
  if m.cap = m.count then
    if m.cap + slot ≥ maxItems then .err
    else .ok { m with cap := m.cap + slot, items := m.items ++ List.replicate slot none, count := m.count + 1 }
  else .ok { m with count := m.count + 1 }

/-- Upper-bound loop of `newSlot`, `MapString.cpp` 92-100. -/
def slotLoop (items : List (Option (K × Nat))) (key : K) (lo hi : Int) : Out Int :=
  if h : hi > lo then
    let mid := (lo + hi) / 2
    (rdItem items mid).bind fun it =>
      match compare it.1 key with
      | .gt => slotLoop items key lo mid
      | _ => slotLoop items key (mid + 1) hi
  else .ok lo
termination_by (hi - lo).toNat
decreasing_by
  all_goals omega

/-- Position computed by `newSlot`, `MapString.cpp` 83-102. -/
def slotPos (m : MapS K V) (key : K) : Out Int :=
  let hi : Int := (m.count : Int) - 1
  if m.count > 0 then
    (rdItem m.items hi).bind fun it =>
      if compare it.1 key = .lt then .ok (m.count : Int) else slotLoop m.items key 0 hi
  else .ok 0

/-- `newSlot`, `MapString.cpp` 81-112: position, `pushSlot`, shift the tail right. -/
def newSlot (slot : Nat) (m : MapS K V) (key : K) : Out (MapS K V × Int) :=
  (slotPos m key).bind fun pos =>
  (pushSlot slot m).bind fun m =>
  (Vector.shiftRightLoop (((m.count : Int) - 1) - pos).toNat ((m.count : Int) - 1) m.items).bind fun b =>
  .ok ({ m with items := b }, pos)

/-- `set`, `MapString.cpp` 114-162 / `MapInt.cpp` 116-158. The outer outcome is undefined behaviour
or not; the inner one whether an exception was thrown (with the state it leaves behind: the list
node is linked before the slot is allocated). -/
def set (slot : Nat) (m : MapS K V) (key : K) (value : V) : Out (MapS K V × Out Unit) :=
  (search m key).bind fun idx =>
  if idx ≠ -1 then
    (rdItem m.items idx).bind fun it =>
    .ok ({ m with nval := fun x => if x = it.2 then some value else m.nval x }, .ok ())
  else
    let n := m.fresh
    (Ring.append m.heap m.hdr n).bind fun (h, l) =>
    let m := { m with heap := h, hdr := l, fresh := n + 1 }
    match newSlot slot m key with
    | .ub => .ub
    | .err => .ok (m, .err)
    | .ok (m, pos) =>
      (Vector.wr m.items pos (some (key, n))).bind fun b =>
      .ok ({ m with items := b,
                    nkey := fun x => if x = n then some key else m.nkey x,
                    nval := fun x => if x = n then some value else m.nval x }, .ok ())

/-- `get`, `MapString.cpp` 168-186: value and the `exist` flag (`none` = not present). -/
def get (m : MapS K V) (key : K) : Out (Option V) :=
  (search m key).bind fun idx =>
  if idx ≠ -1 then
    (rdItem m.items idx).bind fun it =>
      match m.nval it.2 with
      | some v => .ok (some v)
      | none => .ub
  else .ok none

/-- `exist`, `MapString.cpp` 72-74. -/
def exist (m : MapS K V) (key : K) : Out Bool := (search m key).map (· ≠ -1)

/-- `erase`, `MapString.cpp` 203-243 / `MapInt.cpp` 188-235. -/
def erase (m : MapS K V) (key : K) : Out (MapS K V × Out Unit) :=
  (search m key).bind fun idx =>
  if idx = -1 then .ok (m, .err)
  else
    (rdItem m.items idx).bind fun it =>
    (Ring.detachElseIf m.heap m.hdr it.2).bind fun (h, l) =>
    (Vector.shiftLeftLoop (((m.count : Int) - 1) - idx).toNat idx m.items).bind fun b =>
    (Vector.wr b ((m.count : Int) - 1) none).bind fun b =>
    .ok ({ m with heap := h, hdr := l, items := b, count := m.count - 1 }, .ok ())

/-- `clear`, `MapString.cpp` 249-282. -/
def clear (m : MapS K V) : MapS K V :=
  { m with items := [], count := 0, cap := 0, hdr := Ring.Hdr.init }

/-- Loop `for(it=map.begin(); !it.end(); it.next()) { use it.key, it.value }` with
`MapStringIterator.cpp` 21-56; `none` = has not ended within `fuel` rounds. -/
def iterLoop (m : MapS K V) : (fuel : Nat) → (cur : Nat) → Option (Out (List (K × V)))
  | 0, _ => none
  | fuel+1, cur =>
    match m.nkey cur, m.nval cur, m.heap.next cur with
    | some k, some v, some x =>
      if some x = m.hdr.first then some (.ok [(k, v)])
      else (iterLoop m fuel x).map fun o => o.map ((k, v) :: ·)
    | _, _, _ => some .ub

/-- Enumerate the whole map with an iterator. -/
def enumerate (m : MapS K V) (fuel : Nat) : Option (Out (List (K × V))) :=
  match m.hdr.first with
  | none => some (.ok [])
  | some f => iterLoop m fuel f

/-- Client operations. -/
inductive Op (K : Type u) (V : Type v) where
  | set (k : K) (v : V) | get (k : K) | exist (k : K) | erase (k : K) | count | clear

/-- What a client sees from one call. -/
inductive Obs (V : Type v) where
  | done | thrown | value (v : Option V) | flag (b : Bool) | num (n : Nat)
  deriving DecidableEq, Repr

def thrownObs : Out Unit → Obs V
  | .ok _ => .done
  | _ => .thrown

def step (slot : Nat) (m : MapS K V) : Op K V → Out (MapS K V × Obs V)
  | .set k v => (set slot m k v).map fun (m', r) => (m', thrownObs r)
  | .get k => (get m k).map fun r => (m, .value r)
  | .exist k => (exist m k).map fun r => (m, .flag r)
  | .erase k => (erase m k).map fun (m', r) => (m', thrownObs r)
  | .count => .ok (m, .num m.count)
  | .clear => .ok (clear m, .done)

def run (slot : Nat) (m : MapS K V) : List (Op K V) → Out (MapS K V × List (Obs V))
  | [] => .ok (m, [])
  | op :: ops => (step slot m op).bind fun (m', r) => (run slot m' ops).map fun (m'', rs) => (m'', r :: rs)

/-- `strcmp` on C strings (byte lists without the terminating NUL), as used by `MapString`. -/
def strcmp : List UInt8 → List UInt8 → Ordering
  | [], [] => .eq
  | [], _ :: _ => .lt
  | _ :: _, [] => .gt
  | a :: as, b :: bs => if a < b then .lt else if b < a then .gt else strcmp as bs

end Verif.Map
