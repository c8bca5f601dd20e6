import Verif.Base.RingLemmas
/-
Model of the share manager `src/vm/vm_share_manager.cpp` and of `vm_pop_scope` (`src/vm/vm.tcc` 33-76).

Objects are natural numbers. A node (`InfoSharedPointerNode`) is named by the object it belongs to: a node is
made for one object, `_obj->shared_pointer` points to it and it points back, until it is freed. Scope blocks
are natural numbers.
-/
namespace Verif.Share
open Verif Verif.Ring

/-- `SharedPointerInfo`, `vm_share_manager.h` 6-11. -/
structure Info where
  shares : Nat
  home : Nat
  deriving DecidableEq, Repr

/-- Memory: the allocated objects, their CONSTANT flag, `shared_pointer` with the node's data, the links of the
nodes, the lists `unreferenced_objects` of the scope blocks, and the objects that the elements of an object
hold (each element holds one share, released by the destructor). -/
structure S where
  live : List Nat
  const : Nat → Bool
  info : Nat → Option Info
  heap : Heap
  hdr : Nat → Hdr
  kids : Nat → List Nat

def S.setInfo (s : S) (o : Nat) (i : Option Info) : S :=
  { s with info := fun x => if x = o then i else s.info x }

def S.setList (s : S) (b : Nat) (h : Heap) (d : Hdr) : S :=
  { s with heap := h, hdr := fun x => if x = b then d else s.hdr x }

def S.setKids (s : S) (o : Nat) (l : List Nat) : S :=
  { s with kids := fun x => if x = o then l else s.kids x }

/-- A pointer to a node that is written through: NULL is handled by the list code, a freed node is not
memory any more. -/
def S.nodeOk (s : S) : Option Nat → Bool
  | none => true
  | some n => (s.info n).isSome

/-- `vm_insert_shared_node`, `vm_share_manager.cpp` 46-67. -/
def insertNode (s : S) (b n : Nat) : Out S :=
  if !(s.nodeOk (s.hdr b).first && s.nodeOk (s.hdr b).last) then .ub else
  match Ring.insert s.heap (s.hdr b) n with
  | .ok (h, d) => .ok (s.setList b h d)
  | .err => .err
  | .ub => .ub

/-- `vm_deattach_shared_node`, `vm_share_manager.cpp` 134-161, on the list of block `b`. -/
def detachNode (s : S) (b n : Nat) : Out S :=
  if !(s.nodeOk (s.heap.next n) && s.nodeOk (s.heap.prev n)) then .ub else
  match deattachShared s.heap (s.hdr b) n with
  | .ok (h, d) => .ok (s.setList b h d)
  | .err => .err
  | .ub => .ub

/-- `vm_create_shared_object`, `vm_share_manager.cpp` 7-44, for the block it resolves to. -/
def create (s : S) (o b : Nat) : Out S :=
  if o ∉ s.live then .ub else
  if s.const o then .err else
  match s.info o with
  | some _ => .err
  | none =>
    -- the new node has NULL links (31-32)
    let s := { s with heap := nullify s.heap o }
    (insertNode s b o).bind fun s => .ok (s.setInfo o (some ⟨0, b⟩))

/-- `vm_share_object`, `vm_share_manager.cpp` 69-96. Without node: a null pointer is dereferenced (79-81).
The counter is an `unsigned short`. -/
def share (s : S) (o : Nat) : Out S :=
  if o ∉ s.live then .ub else
  if s.const o then .err else
  match s.info o with
  | none => .ub
  | some i =>
    let s := s.setInfo o (some { i with shares := (i.shares + 1) % 65536 })
    if i.shares = 0 then detachNode s i.home o else .ok s

/-- Pending work of a destructor: shares to give back, then the memory to free. -/
inductive Work where
  | unref (o : Nat)
  | free (o : Nat)
  deriving DecidableEq, Repr

/-- `delete obj; free(node)`, `vm_share_manager.cpp` 123-124 and 181-184. The destructors give back the share of each
element, except an element that is the object itself (`ScriptObject.cpp` 46-74, `ContainerSlot.cpp`
`deleteContainerSlot`, `ContainerScriptObject.cpp` 27-43); then the object and its node are freed. -/
def deletion (s : S) (o : Nat) : List Work :=
  ((s.kids o).filter (· ≠ o)).map .unref ++ [.free o]

/-- `vm_unref_shared_object(vm,obj,NULL)`, `vm_share_manager.cpp` 98-132, with the destructors it runs, as a
stack of work. `none`: still running after `fuel` steps. -/
def drain : (fuel : Nat) → S → List Work → Option (Out S)
  | _, s, [] => some (.ok s)
  | 0, _, _ => none
  | fuel + 1, s, .unref o :: w =>
    if o ∉ s.live then some .ub else
    if s.const o then some .err else
    match s.info o with
    | none => some .err
    | some i =>
      if i.shares = 0 then some .err else
      let s := s.setInfo o (some { i with shares := i.shares - 1 })
      if i.shares - 1 = 0 then drain fuel s (deletion s o ++ w) else drain fuel s w
  | fuel + 1, s, .free o :: w =>
    if o ∉ s.live then some .ub else
    drain fuel (({ s with live := s.live.erase o }).setInfo o none) w

/-- `vm_unref_shared_object`, `vm_share_manager.cpp` 98-132. -/
def unref (fuel : Nat) (s : S) (o : Nat) (blk : Option Nat) : Option (Out S) :=
  match blk with
  | none => drain fuel s [.unref o]
  | some b =>
    if o ∉ s.live then some .ub else
    if s.const o then some .err else
    match s.info o with
    | none => some .err
    | some i =>
      if i.shares = 0 then some .err else
      let s := s.setInfo o (some { i with shares := i.shares - 1 })
      if i.shares - 1 = 0 then some (insertNode s b o) else some (.ok s)

/-- The loop of `vm_remove_empty_shared_pointers`, `vm_share_manager.cpp` 171-188. `ret` are the objects found by
`vm_object_in_objects_to_return`. -/
def sweepLoop (b : Nat) (ret : Nat → Bool) : (fuel : Nat) → S → (cur : Option Nat) → Option (Out S)
  | 0, _, _ => none
  | fuel + 1, s, cur =>
    match cur with
    | none => some .ub
    | some c =>
      if (s.info c).isNone then some .ub else
      let next := s.heap.next c
      let finish := next = (s.hdr b).first
      match detachNode s b c with
      | .err => some .err
      | .ub => some .ub
      | .ok s =>
        if c ∉ s.live then some .ub else
        match (if ret c then some (.ok (s.setInfo c none)) else drain fuel s (deletion s c)) with
        | some (.ok s) => if finish then some (.ok s) else sweepLoop b ret fuel s next
        | r => r

/-- `vm_remove_empty_shared_pointers`, `vm_share_manager.cpp` 163-190. -/
def sweep (fuel : Nat) (s : S) (b : Nat) (ret : Nat → Bool) : Option (Out S) :=
  match (s.hdr b).first with
  | none => some (.ok s)
  | some c => sweepLoop b ret fuel s (some c)

/-- One local variable in `vm_pop_scope`, `vm.tcc` 45-70; `v` is the object it holds, if any. Afterwards the
variable is undefined (71). -/
def popVar (fuel : Nat) (ret : Nat → Bool) (s : S) (v : Option Nat) : Option (Out S) :=
  match v with
  | none => some (.ok s)
  | some o =>
    if o ∉ s.live then some .ub else
    match s.info o with
    | none => some (.ok s)
    | some i =>
      if 1 < i.shares || !ret o then unref fuel s o none
      else if i.shares = 0 then
        match detachNode s i.home o with
        | .ok s => some (.ok (s.setInfo o none))
        | .err => some .err
        | .ub => some .ub
      else some (.ok (s.setInfo o none))

def popVars (fuel : Nat) (ret : Nat → Bool) : S → List (Option Nat) → Option (Out S)
  | s, [] => some (.ok s)
  | s, v :: vs =>
    match popVar fuel ret s v with
    | some (.ok s) => popVars fuel ret s vs
    | r => r

/-- `vm_pop_scope`, `vm.tcc` 33-76, for block `b` with the given contents of its variables. All the variables are
set to undefined (71). -/
def popScope (fuel : Nat) (s : S) (b : Nat) (vars : List (Option Nat)) (ret : Nat → Bool) :
    Option (Out (S × List (Option Nat))) :=
  match popVars fuel ret s vars with
  | some (.ok s) =>
    match sweep fuel s b ret with
    | some (.ok s) => some (.ok (s, vars.map fun _ => none))
    | some .err => some .err
    | some .ub => some .ub
    | none => none
  | some .err => some .err
  | some .ub => some .ub
  | none => none

/-- A new object (`new ...ScriptObject`): `shared_pointer=NULL`, no elements. -/
def alloc (s : S) (o : Nat) (k : Bool) : S :=
  { s with
    live := o :: s.live
    const := fun x => if x = o then k else s.const x
    info := fun x => if x = o then none else s.info x
    kids := fun x => if x = o then [] else s.kids x }

/-- An element of container `p` is set to object `o`: `vm_container.cpp` 512-517, `vm_store.cpp` 308-312. -/
def attach (s : S) (p o : Nat) : Out S :=
  if p ∉ s.live then .ub else
  (share s o).bind fun s => .ok (s.setKids p (s.kids p ++ [o]))

/-- An element of container `p` that holds `o` is overwritten or erased: `vm_store.cpp` 339-341 (`blk` is the
current block) or `ScriptObject.cpp` 69 (no block). -/
def detach (fuel : Nat) (s : S) (p o : Nat) (blk : Option Nat) : Option (Out S) :=
  if p ∉ s.live then some .ub else
  unref fuel (s.setKids p ((s.kids p).erase o)) o blk

/-- `ScriptEngine::makeObjectShared`, `ScriptEngine.cpp` 1332-1340, with `b` the current block. -/
def makeObjectShared (s : S) (o b : Nat) : Out S :=
  if o ∉ s.live then .ub else
  if (s.info o).isSome then (create s o b).bind fun s => share s o else .err

/-- `VM_ScopeFunction()`, `vm_scope.h` 24-30: all lists empty. -/
def S.init : S := ⟨[], fun _ => false, fun _ => none, Heap.init, fun _ => Hdr.init, fun _ => []⟩

end Verif.Share
