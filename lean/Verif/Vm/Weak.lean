import Verif.Base.RingProps
/-
Model of methods stored in variables (`f = o.m`) and of the other objects that refer to an object without keeping it
(`src/core/object/RefScriptObject.cpp`, `MemberFunctionScriptObject.cpp`, the parts of `ScriptObject.cpp` for them), and of what is
done with them: calling (`src/vm/vm_call.cpp` 231-244), printing (`src/ScriptEngine.cpp` 427-433) and binding to a function of the host
(`src/ScriptEngine.tcc` 1688-1691).

Objects are their addresses; the address of a freed object may be used again. What an object holds is one number (`data`); a method
is one that returns it. When objects are freed is decided elsewhere (`Verif.Vm.Share`): here `destroy` can come at any time.
-/
namespace Verif.Vm.Weak
open Verif

/-- Memory: which objects exist, which of them are stored methods, `ref_object` of those (`RefScriptObject.h`), whether `ref_objects`
has been made, the lists `ref_objects` with the nodes of all stored methods (the node of `r` is `r`), and the functions that the host
has bound, with the object each has in it. -/
structure St where
  alive : Nat → Bool
  data : Nat → Nat
  isRef : Nat → Bool
  target : Nat → Option Nat
  made : Nat → Bool
  ring : Ring.State
  bound : Nat → Option (Option Nat)

/-- `f` changed at `x`. -/
def upd {β : Type u} (f : Nat → β) (x : Nat) (y : β) : Nat → β := fun z => if z = x then y else f z

/-- Nothing exists. -/
def St.init : St :=
  { alive := fun _ => false, data := fun _ => 0, isRef := fun _ => false, target := fun _ => none, made := fun _ => false
    ring := Ring.State.init, bound := fun _ => none }

/-- One operation on a list, its exception an error. -/
def onList (σ : St) (op : Ring.Op) : Out St :=
  match Ring.step σ.ring op with
  | .ok (s, .ok _) => .ok { σ with ring := s }
  | .ok (_, .err) => .err
  | .ok (_, .ub) => .ub
  | .err => .err
  | .ub => .ub

/-- `ScriptObject::attachRefObjectNode`, `src/core/object/ScriptObject.cpp` 208-213. -/
def attach (σ : St) (a r : Nat) : Out St :=
  if σ.alive a then onList { σ with made := upd σ.made a true } (.insert a r) else .ub

/-- `ScriptObject::deattachRefObjectNode`, 216-222. -/
def deattach (σ : St) (a r : Nat) : Out St :=
  if σ.alive a then
    if σ.made a then onList σ (.remove a r) else .err
  else .ub

/-- Constructor of `ScriptObject`, 10-24, at a free address. -/
def newObj (σ : St) (a d : Nat) : St :=
  { σ with alive := upd σ.alive a true, data := upd σ.data a d, isRef := upd σ.isRef a false, target := upd σ.target a none
           made := upd σ.made a false }

/-- `RefScriptObject::RefScriptObject`, `src/core/object/RefScriptObject.cpp` 9-18: `ref_object`, a new node, which is attached. -/
def newRef (σ : St) (r a d : Nat) : Out St :=
  let σ1 := newObj σ r d
  let σ2 := { σ1 with isRef := upd σ1.isRef r true, target := upd σ1.target r (some a)
                      ring := { σ1.ring with heap := Ring.nullify σ1.ring.heap r } }
  attach σ2 a r

/-- `RefScriptObject::dettachRefObject`, 41-47, of the destructor. -/
def dettachRef (σ : St) (r : Nat) : Out St :=
  match σ.target r with
  | some a => (deattach σ a r).map fun σ1 => { σ1 with target := upd σ1.target r none }
  | none => .ok σ

/-- `ScriptObject::onDettachRefObjectNode`, `ScriptObject.cpp` 229-231, with `RefScriptObject::setRefObject(NULL)`,
`RefScriptObject.cpp` 21-35. -/
def onDettach (σ : St) (r : Nat) : Out St :=
  if σ.alive r then
    match σ.target r with
    | some a => (deattach σ a r).map fun σ1 => { σ1 with target := upd σ1.target r none }
    | none => .ok { σ with target := upd σ.target r none }
  else .ub

/-- The loop of `List<_N>::dettachAllNodes` over the list of `a`, `src/base/List.tcc` 70-83; `none`: not finished after `fuel` rounds. -/
def dettachLoop (σ : St) (a : Nat) : (fuel : Nat) → Option Nat → Option (Out St)
  | 0, _ => none
  | fuel + 1, cur =>
    match cur with
    | none => some .ub
    | some c =>
      match onDettach σ c with
      | .ok σ1 => if (σ1.ring.hdr a).first ≠ none then dettachLoop σ1 a fuel (σ.ring.heap.next c) else some (.ok σ1)
      | .err => some .err
      | .ub => some .ub

/-- End of `ScriptObject::~ScriptObject`, `ScriptObject.cpp` 256-260, with `~List` of the then empty list. -/
def dettachAll (σ : St) (a fuel : Nat) : Option (Out St) :=
  if σ.made a then
    match (σ.ring.hdr a).first with
    | some f =>
      match dettachLoop σ a fuel (some f) with
      | some (.ok σ1) =>
        match Ring.destroy σ1.ring.heap (σ1.ring.hdr a) fuel with
        | some (.ok _) => some (.ok σ1)
        | some .err => some .err
        | some .ub => some .ub
        | none => none
      | x => x
    | none => some (.ok σ)
  else some (.ok σ)

/-- Destroying an object: `~RefScriptObject` if it is a stored method (`RefScriptObject.cpp` 49-53), then `~ScriptObject`. -/
def destroy (σ : St) (a fuel : Nat) : Option (Out St) :=
  match (if σ.isRef a then dettachRef σ a else .ok σ) with
  | .ok σ1 =>
    match dettachAll σ1 a fuel with
    | some (.ok σ2) => some (.ok { σ2 with alive := upd σ2.alive a false })
    | x => x
  | .err => some .err
  | .ub => some .ub

/-- A method runs on the object at the address: reads what it holds. -/
def readAt (σ : St) (a : Nat) : Out Nat := if σ.alive a then .ok (σ.data a) else .ub

/-- What is done. -/
inductive Op where
  /-- a new object at a free address that holds `d` -/
  | new (a d : Nat)
  /-- `r = a.m`: the stored method is an object itself, and holds `d` -/
  | method (r a d : Nat)
  | destroy (a : Nat)
  /-- `r()` -/
  | call (r : Nat)
  /-- `Console::outln(r)` -/
  | print (r : Nat)
  /-- the host binds `r` to a function of its own -/
  | bind (b r : Nat)
  /-- the host calls that function -/
  | callBound (b : Nat)

/-- One operation; the number is what a call returns. -/
def step (σ : St) (fuel : Nat) : Op → Option (Out (St × Out Nat))
  | .new a d => some (.ok (newObj σ a d, .ok 0))
  | .method r a d => some ((newRef σ r a d).map fun σ1 => (σ1, .ok 0))
  | .destroy a => (destroy σ a fuel).map fun o => o.map fun σ1 => (σ1, .ok 0)
  | .call r =>
    -- vm_call.cpp 231-244
    match σ.target r with
    | none => some (.ok (σ, .err))
    | some a => some ((readAt σ a).map fun d => (σ, .ok d))
  | .print r =>
    -- ScriptEngine.cpp 429-432: getRefObject()->getScriptType()
    match σ.target r with
    | none => some .ub
    | some a => some ((readAt σ a).map fun _ => (σ, .ok 0))
  | .bind b r =>
    -- ScriptEngine.tcc 1688-1691
    some (.ok ({ σ with bound := upd σ.bound b (some (σ.target r)) }, .ok 0))
  | .callBound b =>
    match σ.bound b with
    | some (some a) => some ((readAt σ a).map fun d => (σ, .ok d))
    | _ => some .ub

/-- A history with what its calls return. -/
def run (σ : St) (fuel : Nat) : List Op → Option (Out (List (Out Nat)))
  | [] => some (.ok [])
  | op :: ops =>
    match step σ fuel op with
    | some (.ok (σ1, x)) =>
      match run σ1 fuel ops with
      | some o => some (o.map (x :: ·))
      | none => none
    | some .err => some .err
    | some .ub => some .ub
    | none => none

end Verif.Vm.Weak
