import Verif.Common
import Verif.Vm.SlotsSyntax
/-
Model of containers in containers: `ContainerSlot` (`src/core/object/ContainerSlot.cpp`), the lists of slots that refer to a
container (`src/core/object/ContainerScriptObject.cpp`), assignment to variables and elements (`src/vm/vm_store.cpp` 37-61,
208-362, `src/vm/vm.cpp` 502-530), elements of literals (`src/vm/vm_container.cpp` 411-531), the operations that copy elements
(`src/ScriptEngine.cpp` 464-497, `src/core/object/ObjectScriptObject.cpp` 17-87, `ArrayScriptObject.cpp` 105-111), the
destruction of containers (`ScriptObject.cpp` 46-79, `ObjectScriptObject.cpp` 126-157) and `clearGlobalVariables`
(`src/vm/vm.cpp` 532-614, `src/ScriptEngine.cpp` 1131-1204).

Simplified: one scope block, whose list of objects without holder is a list (its links are modelled in `Verif/Vm/Share.lean`,
those of the slot lists in `Verif/Base/Ring.lean`); share counters do not wrap (see `refcount_wrap_violated`); addresses are
never used again, and no number is equal to one; all containers are objects, whose elements have a number for a name, and a
missing element reads as `undefined` (with brackets that is an error, `vm_container.cpp` 611); the map of cyclic references is
in order of insertion (its order is that of the addresses, which makes no difference to `derefCyclic`); strings, functions and native
objects are left out, `prim` stands for the values that need no memory.
-/
namespace Verif.Slots
open Verif

/-- Where a stack element lies: a variable, or an element of a container (a stack element of its own on the C++ heap). -/
inductive Loc where
  | var (x : Nat)
  | elem (o k : Nat)
  deriving DecidableEq, Repr

/-- Contents of a stack element: a value without memory (0 stands for `undefined`), `STACK_ELEMENT_PROPERTY_OBJECT`, or
`STACK_ELEMENT_PROPERTY_CONTAINER_SLOT`. -/
inductive Val where
  | prim (n : Nat)
  | obj (o : Nat)
  | slot (k : Nat)
  deriving DecidableEq, Repr

/-- `ContainerSlot`: `src_container_ref` and `ptr_stk`, `ContainerSlot.h` 53-56. -/
structure Slot where
  src : Option Nat
  cell : Loc
  deriving DecidableEq, Repr

/-- What is kept of a container beside its elements: `n_shares` and `container_slots`. -/
structure Obj where
  shares : Nat
  refs : List Nat
  deriving DecidableEq, Repr

/-- Memory: the stack elements in use, the containers and slots that are allocated, the list `unreferenced_objects`, the map
`cyclic_container_instances`, the next unused addresses. -/
structure S where
  mem : List (Loc × Val)
  live : List Nat
  obj : Nat → Obj
  slot : Nat → Option Slot
  zero : List Nat
  cyc : List Nat
  nextO : Nat
  nextS : Nat

def S.init : S := ⟨[], [], fun _ => ⟨0, []⟩, fun _ => none, [], [], 0, 0⟩

def S.get (s : S) (l : Loc) : Option Val := s.mem.lookup l

/-- Write a stack element that may be new. -/
def S.put (s : S) (l : Loc) (v : Val) : S :=
  { s with mem := if (s.get l).isSome then s.mem.map (fun e => if e.1 = l then (l, v) else e) else s.mem ++ [(l, v)] }

def S.del (s : S) (l : Loc) : S := { s with mem := s.mem.filter fun e => decide (e.1 ≠ l) }

def S.setObj (s : S) (o : Nat) (x : Obj) : S := { s with obj := fun o' => if o' = o then x else s.obj o' }

def S.setSlot (s : S) (k : Nat) (x : Option Slot) : S := { s with slot := fun k' => if k' = k then x else s.slot k' }

/-- The elements of a container, in order. -/
def S.cells (s : S) (o : Nat) : List Loc := (s.mem.map (·.1)).filter fun
  | .var _ => false
  | .elem p _ => decide (p = o)

/-! ### Shares -/

/-- `vm_share_object`, `vm_share_manager.cpp` 69-96. -/
def share (s : S) (o : Nat) : Out S :=
  if o ∉ s.live then .ub else
  let s1 := s.setObj o { s.obj o with shares := (s.obj o).shares + 1 }
  if (s.obj o).shares = 0 then
    if o ∈ s.zero then .ok { s1 with zero := s1.zero.erase o } else .err
  else .ok s1

/-- `vm_unref_shared_object` with a block, `vm_share_manager.cpp` 98-132: without holder the object waits. -/
def unrefBlock (s : S) (o : Nat) : Out S :=
  if o ∉ s.live then .ub else
  if (s.obj o).shares = 0 then .err else
  let s1 := s.setObj o { s.obj o with shares := (s.obj o).shares - 1 }
  if (s.obj o).shares = 1 then .ok { s1 with zero := s1.zero ++ [o] } else .ok s1

/-- Work of the destructors: a share to give back, a container with these elements left to release. -/
inductive Work where
  | unref (o : Nat)
  | kill (o : Nat) (ls : List Loc)
  deriving DecidableEq, Repr

/-- `removeContainerSlot` up to giving back the share, `ContainerScriptObject.cpp` 27-38: the slot leaves the list of its
container, which leaves the map of cyclic references if that was the last. A slot that is in no list throws (`List.tcc`
41-43), and so does a container that is not in the map (`MapInt.cpp` 225-231). -/
def unlink (s : S) (k o : Nat) : Out S :=
  if o ∉ s.live then .ub else
  if k ∉ (s.obj o).refs then .err else
  let r := (s.obj o).refs.erase k
  let s1 := s.setObj o { s.obj o with refs := r }
  if r = [] then
    if o ∈ s1.cyc then .ok { s1 with cyc := s1.cyc.erase o } else .err
  else .ok s1

/-- `unrefStackElementContainer` on contents `v` of a container `this`, `ScriptObject.cpp` 46-74, with `deleteContainerSlot`,
`ContainerSlot.cpp` 30-36: the state and the share to give back. -/
def release (s : S) (this : Nat) (v : Val) : Out (S × List Work) :=
  match v with
  | .prim _ => .ok (s, [])
  | .obj o => .ok (s, if o = this then [] else [.unref o])
  | .slot k =>
    match s.slot k with
    | none => .ub
    | some sl =>
      match sl.src with
      | none => .ok (s.setSlot k none, [])
      | some o => (unlink s k o).map fun s => (s.setSlot k none, [.unref o])

/-- `vm_unref_shared_object` without block and the destructors it runs, depth first: `vm_share_manager.cpp` 98-132,
`ObjectScriptObject.cpp` 139-146, 153-157, `ContainerScriptObject.cpp` 45-55, 74-77. The destructor of a container that slots still
refer to throws, which ends the process. The fuel `budget` is always enough for what is not undefined. -/
def drain : Nat → S → List Work → Out S
  | _, s, [] => .ok s
  | 0, _, _ :: _ => .ub
  | n + 1, s, .unref o :: w =>
    if o ∉ s.live then .ub else
    if (s.obj o).shares = 0 then .err else
    let s1 := s.setObj o { s.obj o with shares := (s.obj o).shares - 1 }
    if (s.obj o).shares = 1 then drain n s1 (.kill o (s.cells o) :: w) else drain n s1 w
  | n + 1, s, .kill o [] :: w =>
    if o ∉ s.live then .ub else
    if (s.obj o).refs = [] then drain n { s with live := s.live.erase o } w else .ub
  | n + 1, s, .kill o (l :: ls) :: w =>
    match s.get l with
    | none => .ub
    | some v => (release (s.del l) o v).bind fun r => drain n r.1 (r.2 ++ .kill o ls :: w)

def budget (s : S) (w : List Work) : Nat := w.length + 2 * s.mem.length + 2 * s.live.length

def run (s : S) (w : List Work) : Out S := drain (budget s w) s w

/-! ### Slots -/

/-- `ContainerSlot::newContainerSlot`, `ContainerSlot.cpp` 10-28, 38-51. -/
def newSlot (s : S) (l : Loc) : Nat × S := (s.nextS, { s.setSlot s.nextS (some ⟨none, l⟩) with nextS := s.nextS + 1 })

/-- `setSrcContainerRef`, `ContainerSlot.cpp` 53-75, on a container: the slot leaves the container it referred to, whose share
is given back at once; then it enters the list of the new one. (The old reference stays in the slot while this happens;
here it is cleared, which only a slot that is deleted meanwhile would notice.) -/
def setSrc (s : S) (k o : Nat) : Out S :=
  match s.slot k with
  | none => .ub
  | some sl =>
    Out.bind (match sl.src with
      | none => .ok s
      | some p =>
        if p = o then .ok s else
        (unlink s k p).bind fun s => run (s.setSlot k (some { sl with src := none })) [.unref p]) fun s =>
    if o ∉ s.live then .ub else
    match s.slot k with
    | none => .ub
    | some sl =>
      -- a node that is in a list already, `List.tcc` 18-20
      if sl.src ≠ none then .err else
      .ok ((s.setObj o { s.obj o with refs := (s.obj o).refs ++ [k] }).setSlot k (some { sl with src := some o }))

/-- `vm_assign_container_slot`, `vm.cpp` 502-525. -/
def assignSlot (s : S) (k o : Nat) : Out S :=
  match s.slot k with
  | none => .ub
  | some sl => (setSrc s k o).map fun s =>
    let s1 := s.put sl.cell (.slot k)
    if o ∈ s1.cyc then s1 else { s1 with cyc := s1.cyc ++ [o] }

/-- `deleteContainerSlot`, `ContainerSlot.cpp` 30-36. -/
def deleteSlot (s : S) (k : Nat) : Out S :=
  (release s s.nextO (.slot k)).bind fun r => run r.1 r.2

/-! ### Assignment -/

/-- The container a value stands for, `vm_store.cpp` 279-284, `vm_container.cpp` 75-80. A slot that refers to none gives a null
pointer, which is taken as undefined (an access with `.` reports it, 82-84). -/
def target (s : S) : Val → Out Nat
  | .prim _ => .err
  | .obj o => .ok o
  | .slot k => match s.slot k with
    | none => .ub
    | some sl => match sl.src with
      | none => .ub
      | some o => .ok o

/-- The target of an assignment on the stack: a pointer to a stack element, or a slot. -/
inductive Dst where
  | ptr (l : Loc)
  | slot (k : Nat)
  deriving DecidableEq, Repr

/-- What becomes of the old contents `old` of the stack element, `vm_store.cpp` 333-353, when a slot is the new contents
(`isSlot`) or not. -/
def dropOld (s : S) (old : Val) (isSlot : Bool) : Out S :=
  match old with
  | .prim _ => .ok s
  | .obj o => unrefBlock s o
  | .slot k => if isSlot then .ok s else deleteSlot s k

/-- A slot that refers to nothing at the end is deleted, `vm_store.cpp` 356-362. -/
def dropIdle (s : S) (k : Nat) : Out S :=
  match s.slot k with
  | none => .ub
  | some sl => if sl.src = none then deleteSlot s k else .ok s

/-- `vm_store` of one value, `vm_store.cpp` 37-61, 208-362. -/
def vmStore (s : S) (d : Dst) (v : Val) : Out S :=
  match d with
  | .ptr l =>
    match s.get l with
    | none => .ub
    | some old =>
      match v with
      | .prim n => dropOld (s.put l (.prim n)) old false
      | _ => (target s v).bind fun o =>
        if old = .obj o then .ok s else
        (share (s.put l (.obj o)) o).bind fun s => dropOld s old false
  | .slot k =>
    match s.slot k with
    | none => .ub
    | some sl =>
      match s.get sl.cell with
      | none => .ub
      | some old =>
        match v with
        | .prim n => (dropOld (s.put sl.cell (.prim n)) old false).bind fun s =>
            match old with
            | .slot _ => .ok s
            | _ => dropIdle s k
        | _ => (target s v).bind fun o =>
          if sl.src = some o then .ok s else
          (assignSlot s k o).bind fun s => (share s o).bind fun s => dropOld s old true

/-! ### Statements -/

/-- `ZS_NEW_OBJECT_SCRIPT_OBJECT` and `vm_create_shared_object`: waiting until it is held. -/
def alloc (s : S) : Nat × S :=
  (s.nextO, { s.setObj s.nextO ⟨0, []⟩ with live := s.live ++ [s.nextO], zero := s.zero ++ [s.nextO], nextO := s.nextO + 1 })

/-- Accesses `.k` one after another, `vm_container.cpp` 56-84, 224-228, 292-297, 327-337: a missing element is `undefined`, and `undefined` has no
elements. -/
def follow (s : S) (v : Val) : List Nat → Out Val
  | [] => .ok v
  | k :: ks => (target s v).bind fun o =>
    if o ∉ s.live then .ub else follow s ((s.get (.elem o k)).getD (.prim 0)) ks

/-- A variable and accesses. -/
def read (s : S) (x : Nat) (ks : List Nat) : Out Val := follow s ((s.get (.var x)).getD (.prim 0)) ks

/-- The container a variable and accesses stand for. -/
def base (s : S) (x : Nat) (ks : List Nat) : Out Nat :=
  (read s x ks).bind fun v => (target s v).bind fun o => if o ∉ s.live then .ub else .ok o

def eval (s : S) : Src → Out (Val × S)
  | .prim n => .ok (.prim n, s)
  | .path x ks => (read s x ks).map fun v => (v, s)
  | .new => let r := alloc s; .ok (.obj r.1, r.2)

/-- A stack element that is there from now on. -/
def ensure (s : S) (l : Loc) : S := if (s.get l).isSome then s else s.put l (.prim 0)

/-- `PUSH_STK_OBJECT_ITEM` of element `k` of `o`, `vm_container.cpp` 204-221, 302-337: the slot it holds, or a new one. -/
def pushElem (s : S) (o k : Nat) : Dst × S :=
  let s := ensure s (.elem o k)
  match s.get (.elem o k) with
  | some (.slot j) => (.slot j, s)
  | _ => let r := newSlot s (.elem o k); (.slot r.1, r.2)

/-- `PUSH_STK_ARRAY_ITEM` of element `k` of `o`, `vm_container.cpp` 593-635: always a new slot, whatever the element holds. -/
def pushItem (s : S) (o k : Nat) : Dst × S :=
  let r := newSlot (ensure s (.elem o k)) (.elem o k); (.slot r.1, r.2)

/-- `setStackElementByKeyName` up to line 78, `ObjectScriptObject.cpp` 57-78: an element that exists is released and keeps its
contents, which may refer to freed memory; else there is a new one. -/
def releaseElem (s : S) (o k : Nat) : Out S :=
  match s.get (.elem o k) with
  | none => .ok (s.put (.elem o k) (.prim 0))
  | some v => (release s o v).bind fun r => run r.1 r.2

/-- `setStackElementByKeyName` without value, `ObjectScriptObject.cpp` 57-87. -/
def resetElem (s : S) (o k : Nat) : Out S := (releaseElem s o k).map fun s => s.put (.elem o k) (.prim 0)

/-- `vm_push_container_item`, `vm_container.cpp` 411-531: an element of a literal. -/
def setElem (s : S) (o k : Nat) (v : Val) : Out S :=
  (resetElem s o k).bind fun s =>
    match v with
    | .prim n => .ok (s.put (.elem o k) (.prim n))
    | _ => (target s v).bind fun p =>
      let r := newSlot s (.elem o k)
      (assignSlot r.2 r.1 p).bind fun s => share s p

def setElems (s : S) (o : Nat) : List (Nat × Src) → Out S
  | [] => .ok s
  | f :: fs => (eval s f.2).bind fun r => (setElem r.2 o f.1 r.1).bind fun s => setElems s o fs

/-- `stackElementAssign`, `ScriptEngine.cpp` 464-497: a copy of the contents, with a share if it is an object. -/
def copyElem (s : S) (l : Loc) (v : Val) : Out S :=
  match v with
  | .obj o => share (s.put l v) o
  | _ => .ok (s.put l v)

/-- `setStackElementByKeyName` with a value, `ObjectScriptObject.cpp` 57-87: the value is read after the old
one was released. -/
def setByKey (s : S) (o k : Nat) (v : Loc) : Out S :=
  (releaseElem s o k).bind fun s =>
    match s.get v with
    | none => .ub
    | some c => copyElem s (.elem o k) c

/-- `ObjectScriptObject::append` and the loops of `concat`, 17-44: the elements of `p` one after another, as long as it
exists. -/
def append (s : S) (o p : Nat) : List Loc → Out S
  | [] => .ok s
  | .var _ :: _ => .ub
  | .elem q k :: ls => if p ∉ s.live then .ub else (setByKey s o k (.elem q k)).bind fun s => append s o p ls

/-- The store to a variable, a stack element that is always there. -/
def storeVar (s : S) (x : Nat) (v : Val) : Out S := vmStore (ensure s (.var x)) (.ptr (.var x)) v

/-- `vm_remove_empty_shared_pointers`, `vm_share_manager.cpp` 163-190. -/
def sweepAll (s : S) : List Nat → Out S
  | [] => .ok s
  | o :: os =>
    if o ∉ s.live then .ub else
    (run { s with zero := s.zero.erase o } [.kill o (s.cells o)]).bind fun s => sweepAll s os

/-- A variable goes out of scope, `vm_pop_scope`, `vm.tcc` 45-71, of an object that is not returned; `ScriptEngine.cpp` 1167-1183. -/
def leaveVar (s : S) (x : Nat) : Out S :=
  match s.get (.var x) with
  | some (.obj o) => run (s.del (.var x)) [.unref o]
  | _ => .ok (s.del (.var x))

def step (s : S) : Op → Out S
  | .setVar x e => (eval s e).bind fun r => storeVar r.2 x r.1
  | .setElem x ks k e => (eval s e).bind fun r => (base r.2 x ks).bind fun o =>
      let d := pushElem r.2 o k
      vmStore d.2 d.1 r.1
  | .setItem x ks k e => (eval s e).bind fun r => (base r.2 x ks).bind fun o =>
      let d := pushItem r.2 o k
      vmStore d.2 d.1 r.1
  | .lit x fs => let r := alloc s; (setElems r.2 r.1 fs).bind fun s => storeVar s x (.obj r.1)
  | .erase x ks k => (base s x ks).bind fun o =>
      match s.get (.elem o k) with
      | none => .err
      | some v => (release (s.del (.elem o k)) o v).bind fun r => run r.1 r.2
  | .push x ks k e => (eval s e).bind fun r => (base r.2 x ks).bind fun o =>
      if (r.2.get (.elem o k)).isSome then .err else
      match r.1 with
      | .prim n => .ok (r.2.put (.elem o k) (.prim n))
      | v => (target r.2 v).bind fun p => copyElem r.2 (.elem o k) (.obj p)
  | .extend x ks y js => (base s x ks).bind fun o => (base s y js).bind fun p => append s o p (s.cells p)
  | .plus z x ks y js => (base s x ks).bind fun o => (base s y js).bind fun p =>
      let r := alloc s
      (append r.2 r.1 o (s.cells o)).bind fun s => (append s r.1 p (s.cells p)).bind fun s => storeVar s z (.obj r.1)
  | .leave x => leaveVar s x
  | .sweep => sweepAll s s.zero

def steps (s : S) : List Op → Out S
  | [] => .ok s
  | op :: ops => (step s op).bind fun s => steps s ops

/-! ### clear -/

/-- The slots of one container are cut, `vm.cpp` 578-600. -/
def cutSlots (s : S) (c : Nat) : List Nat → Out S
  | [] => .ok s
  | k :: ks =>
    match s.slot k with
    | none => .ub
    | some sl =>
      if k ∉ (s.obj c).refs then .err else
      (unrefBlock (s.setObj c { s.obj c with refs := (s.obj c).refs.erase k }) c).bind fun s =>
        match s.get sl.cell with
        | some (.slot j) =>
          match s.slot j with
          | none => .ub
          | some _ => cutSlots ((s.setSlot j none).put sl.cell (.prim 0)) c ks
        | some _ => .err
        | none => .ub

/-- `vm_deref_cyclic_references`, `vm.cpp` 532-614: the containers that only slots hold. All slots in the list of a
container refer to it, so that the comparison of line 539 is true. -/
def derefCyclic (s : S) : List Nat → Out S
  | [] => .ok s
  | c :: cs =>
    if c ∉ s.live then .ub else
    let r := (s.obj c).refs
    if r ≠ [] ∧ r.length = (s.obj c).shares then
      (cutSlots s c r).bind fun s => derefCyclic { s with cyc := s.cyc.erase c } cs
    else derefCyclic s cs

def leaveVars (s : S) : List Nat → Out S
  | [] => .ok s
  | x :: xs => (leaveVar s x).bind fun s => leaveVars s xs

/-- `clearGlobalVariables`, `ScriptEngine.cpp` 1131-1204, with the variables `xs` above the saved state, the last first. -/
def clear (s : S) (xs : List Nat) : Out S :=
  (derefCyclic s s.cyc).bind fun s => (leaveVars s xs).bind fun s => sweepAll s s.zero

end Verif.Slots
