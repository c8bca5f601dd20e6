import Verif.Common
/-
Intrusive circular doubly linked lists. The same pointer manipulation occurs in
`src/base/List.tcc` (16-61), `src/vm/vm_share_manager.cpp` (46-67, 134-161),
`src/base/MapString.cpp` (127-141, 213-228) and `src/base/MapInt.cpp` (128-142, 195-210).

Nodes are natural numbers (addresses); `none` is NULL. Dereferencing NULL is `ub`.
-/
namespace Verif.Ring
open Verif

/-- The `previous`/`next` fields of all nodes in memory (`List.h`, `ListNode`). -/
structure Heap where
  next : Nat → Option Nat
  prev : Nat → Option Nat

/-- List header (`List.h`, `first`/`last`). -/
structure Hdr where
  first : Option Nat
  last : Option Nat
  deriving DecidableEq, Repr

/-- `p->next = v`. -/
def Heap.setNext (h : Heap) (p : Nat) (v : Option Nat) : Heap :=
  { h with next := fun q => if q = p then v else h.next q }
/-- `p->previous = v`. -/
def Heap.setPrev (h : Heap) (p : Nat) (v : Option Nat) : Heap :=
  { h with prev := fun q => if q = p then v else h.prev q }

/-- A heap in which no node is attached. -/
def Heap.init : Heap := ⟨fun _ => none, fun _ => none⟩
/-- `List.tcc` 10-13. -/
def Hdr.init : Hdr := ⟨none, none⟩

/-- Append at the end, the common body: `List.tcc` 22-34, `vm_share_manager.cpp` 54-66,
`MapString.cpp` 129-141, `MapInt.cpp` 130-142. -/
def append (h : Heap) (l : Hdr) (n : Nat) : Out (Heap × Hdr) :=
  match l.first with
  | none =>
    -- _node->previous=_node->next= last = first =_node
    .ok ((h.setNext n (some n)).setPrev n (some n), ⟨some n, some n⟩)
  | some f =>
    match l.last with
    | none => .ub
    | some z =>
      let h := h.setPrev n (some z)     -- _node->previous=last
      let h := h.setNext z (some n)     -- last->next=_node ; last=_node
      let h := h.setNext n (some f)     -- _node->next=first
      let h := h.setPrev f (some n)     -- first->previous=_node
      .ok (h, ⟨some f, some n⟩)

/-- `List<_N>::insert`, `List.tcc` 16-35; `vm_insert_shared_node`, `vm_share_manager.cpp` 46-67. -/
def insert (h : Heap) (l : Hdr) (n : Nat) : Out (Heap × Hdr) :=
  if h.next n ≠ none ∨ h.prev n ≠ none then .err else append h l n

/-- The unlinking statements `_node->previous->next=_node->next; _node->next->previous=_node->previous`
(`List.tcc` 56-57, `vm_share_manager.cpp` 156-157, `MapString.cpp` 224-225, `MapInt.cpp` 206-207). -/
def unlink (h : Heap) (n : Nat) : Out Heap :=
  match h.prev n with
  | none => .ub
  | some p =>
    let h := h.setNext p (h.next n)
    match h.next n with
    | none => .ub
    | some x => .ok (h.setPrev x (h.prev n))

/-- `_node->previous = _node->next = NULL`. -/
def nullify (h : Heap) (n : Nat) : Heap := (h.setNext n none).setPrev n none

/-- Body of `List<_N>::remove` after its check, `List.tcc` 45-60 (two independent `if`s). -/
def detachTwoIfs (h : Heap) (l : Hdr) (n : Nat) : Out (Heap × Hdr) :=
  if h.prev n = some n ∧ h.next n = some n then
    .ok (nullify h n, ⟨none, none⟩)
  else
    let l := if l.first = some n then { l with first := h.next n } else l
    let l := if l.last = some n then { l with last := h.prev n } else l
    (unlink h n).bind fun h => .ok (nullify h n, l)

/-- Body with `if/else if`: `vm_share_manager.cpp` 146-160, `MapString.cpp` 213-228, `MapInt.cpp` 195-210. -/
def detachElseIf (h : Heap) (l : Hdr) (n : Nat) : Out (Heap × Hdr) :=
  if h.prev n = some n ∧ h.next n = some n then
    .ok (nullify h n, ⟨none, none⟩)
  else
    let l := if l.first = some n then { l with first := h.next n }
             else if l.last = some n then { l with last := h.prev n } else l
    (unlink h n).bind fun h => .ok (nullify h n, l)

/-- `List<_N>::remove`, `List.tcc` 39-61. -/
def remove (h : Heap) (l : Hdr) (n : Nat) : Out (Heap × Hdr) :=
  if h.next n = none ∨ h.prev n = none then .err else detachTwoIfs h l n

/-- `vm_deattach_shared_node`, `vm_share_manager.cpp` 134-161 (list header never NULL). -/
def deattachShared (h : Heap) (l : Hdr) (n : Nat) : Out (Heap × Hdr) :=
  if h.next n = none ∨ h.prev n = none then .err else detachElseIf h l n

/-- Forward walk: `for(node=first; ; node=node->next) … while(node!=first)`, collecting at most
`fuel` nodes; `none` when the walk does not close within the fuel or meets NULL. -/
def walk (h : Heap) (first : Nat) : (fuel : Nat) → (cur : Nat) → Option (List Nat)
  | 0, _ => none
  | fuel+1, cur =>
    match h.next cur with
    | none => none
    | some x => if x = first then some [cur] else (walk h first fuel x).map (cur :: ·)

/-- Backward walk along `previous`, from `last`. -/
def walkBack (h : Heap) (last : Nat) : (fuel : Nat) → (cur : Nat) → Option (List Nat)
  | 0, _ => none
  | fuel+1, cur =>
    match h.prev cur with
    | none => none
    | some x => if x = last then some [cur] else (walkBack h last fuel x).map (cur :: ·)

/-- `List<_N>::dettachAllNodes` with `_dettachNode == NULL` (`List.tcc` 65-83; called so by the
destructor, 86-88). `none`: still running after `fuel` iterations. -/
def detachAllNull (h : Heap) (l : Hdr) : (fuel : Nat) → (cur : Option Nat) → Option (Out Unit)
  | 0, _ => none
  | fuel+1, cur =>
    match cur with
    | none => some .ub
    | some c => if l.first ≠ none then detachAllNull h l fuel (h.next c) else some (.ok ())

/-- `List<_N>::~List`, `List.tcc` 86-88. -/
def destroy (h : Heap) (l : Hdr) (fuel : Nat) : Option (Out Unit) :=
  match l.first with
  | none => some (.ok ())
  | some f => detachAllNull h l fuel (some f)

end Verif.Ring
