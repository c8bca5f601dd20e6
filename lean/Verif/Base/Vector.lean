import Verif.Common
/-
Model of `src/base/Vector.tcc` (class `Vector<_T>`), the storage of script arrays and of most
compiler tables.

Simplifications: `new` never fails; `int` counters are unbounded integers (the code caps capacities
at 2000000 elements far below 2^31); the element's copy constructor is the identity.
A cell is `none` while it has been allocated but never written (`new _T[n]` of a scalar type is
indeterminate); reading such a cell yields an indeterminate value and is modelled as `ub`.
-/
namespace Verif.Vector
open Verif

/-- `Vector.h` 51-56: `items` (NULL = `none`), `count`, `_size`. -/
structure Vec (α : Type u) where
  items : Option (List (Option α))
  count : Int
  cap : Nat
  deriving DecidableEq, Repr

variable {α : Type u}

/-- `Vector.tcc` 6. -/
def maxElements : Nat := 2000000
/-- `Vector.tcc` 7. -/
def expandSlot : Nat := 16

/-- `Vector.tcc` 70-74, default constructor. -/
def Vec.empty : Vec α := ⟨none, 0, 0⟩

/-- Raw cell read `buf[i]` (indeterminate content allowed; used by the copying loops). -/
def rd (buf : List (Option α)) (i : Int) : Out (Option α) :=
  if i < 0 then .ub else
  match buf[i.toNat]? with
  | some c => .ok c
  | none => .ub

/-- Raw cell write `buf[i] = c`. -/
def wr (buf : List (Option α)) (i : Int) (c : Option α) : Out (List (Option α)) :=
  if i < 0 then .ub else
  if i.toNat < buf.length then .ok (buf.set i.toNat c) else .ub

/-- Copy loop `for(i=0;i<n;i++) dst[i+d] = src[i+s]` (`Vector.tcc` 31-33, 63-65, 152-154, 219-221,
226-228, 233-235). `i` counts up, `n` is the number of iterations left. -/
def copyLoop (src : List (Option α)) (s : Int) (d : Int) :
    (n : Nat) → (i : Int) → List (Option α) → Out (List (Option α))
  | 0, _, dst => .ok dst
  | n+1, i, dst =>
    (rd src (i + s)).bind fun c => (wr dst (i + d) c).bind fun dst' => copyLoop src s d n (i+1) dst'

/-- `items` as a cell list; NULL has no cells. -/
def cells (v : Vec α) : List (Option α) := v.items.getD []

/-- `Vector.tcc` 15-48 `pushSlot`. `int new_size=_size+_size*1.5` is `⌊5*_size/2⌋`. -/
def pushSlot (v : Vec α) : Out (Vec α) :=
  let v := if v.cap = 0 then
      { v with cap := expandSlot, items := some (List.replicate expandSlot none) } else v
  if (v.cap : Int) = v.count then
    if v.cap + expandSlot ≥ maxElements then .err
    else
      let newSize := 5 * v.cap / 2
      (copyLoop (cells v) 0 0 v.count.toNat 0 (List.replicate newSize none)).bind fun buf =>
      .ok { items := some buf, cap := newSize, count := v.count + 1 }
  else .ok { v with count := v.count + 1 }

/-- `Vector.tcc` 169-175 `push`. -/
def push (v : Vec α) (x : α) : Out (Vec α) :=
  (pushSlot v).bind fun v => (wr (cells v) (v.count - 1) (some x)).bind fun b =>
  .ok { v with items := some b }

/-- The check `(size_t)_pos >= (size_t)_size` of `set`/`get`/`erase` (`Vector.tcc` 93,102,110):
a negative `int` becomes a huge `size_t`. NB: the bound is the capacity, not the length. -/
def outOfCap (v : Vec α) (pos : Int) : Bool := pos < 0 || pos ≥ (v.cap : Int)

/-- `Vector.tcc` 101-106 `get`. Reading a never-written cell is `ub`. -/
def get (v : Vec α) (pos : Int) : Out α :=
  if outOfCap v pos then .err
  else (rd (cells v) pos).bind fun c => match c with
    | some x => .ok x
    | none => .ub

/-- `Vector.tcc` 92-98 `set`. -/
def set (v : Vec α) (pos : Int) (x : α) : Out (Vec α) :=
  if outOfCap v pos then .err
  else (wr (cells v) pos (some x)).bind fun b => .ok { v with items := some b }

/-- Loop of `erase` (`Vector.tcc` 115-117): `for(i=pos;i<length-1;i++) items[i]=items[i+1]`. -/
def shiftLeftLoop : (n : Nat) → (i : Int) → List (Option α) → Out (List (Option α))
  | 0, _, b => .ok b
  | n+1, i, b => (rd b (i+1)).bind fun c => (wr b i c).bind fun b' => shiftLeftLoop n (i+1) b'

/-- `Vector.tcc` 109-120 `erase`. -/
def erase (v : Vec α) (pos : Int) : Out (Vec α) :=
  if outOfCap v pos then .err
  else (shiftLeftLoop ((v.count - 1) - pos).toNat pos (cells v)).bind fun b =>
    .ok { v with items := some b, count := v.count - 1 }

/-- `Vector.tcc` 123-128 `pop`. -/
def pop (v : Vec α) : Out (Vec α) :=
  if v.count = 0 then .err else erase v (v.count - 1)

/-- `Vector.tcc` 131-166 `resize`. -/
def resize (v : Vec α) (n : Int) : Out (Vec α) :=
  if n ≤ (v.cap : Int) then .ok { v with count := n }
  else if n ≥ (maxElements : Int) then .err
  else
    (copyLoop (cells v) 0 0 v.count.toNat 0 (List.replicate n.toNat none)).bind fun b =>
    .ok { items := some b, count := n, cap := n.toNat }

/-- Loop of `insert(pos,val)` (`Vector.tcc` 257-259): `for(i=length-1;i>pos;i--) items[i]=items[i-1]`. -/
def shiftRightLoop : (n : Nat) → (i : Int) → List (Option α) → Out (List (Option α))
  | 0, _, b => .ok b
  | n+1, i, b => (rd b (i-1)).bind fun c => (wr b i c).bind fun b' => shiftRightLoop n (i-1) b'

/-- `Vector.tcc` 249-263 `insert(int _pos, const _T & _val)`. -/
def insert (v : Vec α) (pos : Int) (x : α) : Out (Vec α) :=
  if pos > v.count + 1 then .err
  else (pushSlot v).bind fun v =>
    (shiftRightLoop ((v.count - 1) - pos).toNat (v.count - 1) (cells v)).bind fun b =>
    (wr b pos (some x)).bind fun b => .ok { v with items := some b }

/-- `Vector.tcc` 183-246 `insert(int _pos,const Vector & _src, int _n)`; `n = -1` is `npos`.
Note line 245: `count += _src_vector.length()` although only `n` elements were copied, and lines
208-213: `_size` is already changed when the maximum is exceeded (not visible in the outcome). -/
def insertVec (v : Vec α) (pos : Int) (src : Vec α) (n : Int) : Out (Vec α) :=
  if src.count = 0 then .ok v
  else
    let n := if n = -1 then src.count else n
    if src.count < n then .err
    else if pos > v.count then .err
    else
      let grow : Bool := (v.cap : Int) ≤ n + v.count
      let size := if grow then n + v.count else (v.cap : Int)
      if grow && decide (size ≥ (maxElements : Int)) then .err
      else
        (copyLoop (cells v) 0 0 pos.toNat 0 (List.replicate size.toNat none)).bind fun b =>
        (copyLoop (cells src) 0 pos n.toNat 0 b).bind fun b =>
        (copyLoop (cells v) pos (pos + n) (v.count - pos).toNat 0 b).bind fun b =>
        .ok { items := some b, count := v.count + src.count, cap := size.toNat }

/-- `Vector.tcc` 178-180 `concat`. -/
def concat (v : Vec α) (src : Vec α) : Out (Vec α) := insertVec v v.count src src.count

/-- `Vector.tcc` 266-274 `clear`. -/
def clear (_ : Vec α) : Vec α := Vec.empty

/-- `Vector.tcc` 52-67 `copy` (used by `operator=` 85-89): a NULL source leaves `this` untouched. -/
def assign (v : Vec α) (src : Vec α) : Out (Vec α) :=
  match src.items with
  | none => .ok v
  | some sb =>
    (copyLoop sb 0 0 src.count.toNat 0 (List.replicate src.cap none)).bind fun b =>
    .ok { items := some b, count := src.count, cap := src.cap }

/-- A vector filled by successive `push` calls. -/
def pushAll : List α → Vec α → Out (Vec α)
  | [], v => .ok v
  | x :: xs, v => (push v x).bind (pushAll xs)

/-- Operations a client performs. Source vectors are themselves built with `push`. -/
inductive Op (α : Type u) where
  | push (x : α) | pop | set (p : Int) (x : α) | get (p : Int) | erase (p : Int)
  | insert (p : Int) (x : α) | insertVec (p : Int) (xs : List α) | concat (xs : List α)
  | concatSelf | clear | assign (xs : List α) | shrink (n : Int)

/-- One client operation: new state and observable (value read by `get`, thrown or not, length). -/
def step (v : Vec α) : Op α → Out (Vec α × Option α)
  | .push x => (push v x).map (·, none)
  | .pop => (pop v).map (·, none)
  | .set p x => (set v p x).map (·, none)
  | .get p => (get v p).map fun x => (v, some x)
  | .erase p => (erase v p).map (·, none)
  | .insert p x => (insert v p x).map (·, none)
  | .insertVec p xs => (pushAll xs Vec.empty).bind fun s => (insertVec v p s (-1)).map (·, none)
  | .concat xs => (pushAll xs Vec.empty).bind fun s => (concat v s).map (·, none)
  | .concatSelf => (concat v v).map (·, none)
  | .clear => .ok (clear v, none)
  | .assign xs => (pushAll xs Vec.empty).bind fun s => (assign v s).map (·, none)
  | .shrink n => (resize v n).map (·, none)

/-- A thrown exception leaves the vector as it was before the call (all checks of the modelled
calls precede the first write, except the maximum-capacity case noted at `insertVec`). -/
def stepTotal (v : Vec α) (op : Op α) : Out (Vec α × Out (Option α)) :=
  match step v op with
  | .ok (v', r) => .ok (v', .ok r)
  | .err => .ok (v, .err)
  | .ub => .ub

/-- Run a history, collecting what the client observes: per call the value/exception and the new length. -/
def run (v : Vec α) : List (Op α) → Out (List (Out (Option α) × Int))
  | [] => .ok []
  | op :: ops => (stepTotal v op).bind fun (v', r) => (run v' ops).map fun rs => (r, v'.count) :: rs

end Verif.Vector
