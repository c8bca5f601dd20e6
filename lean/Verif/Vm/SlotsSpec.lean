import Verif.Vm.SlotsSyntax
/-
What a script may expect of containers in containers, without any memory management: a heap in which objects are never
deleted, and references to them. Nothing of `Verif/Vm/Slots.lean` is used here.
-/
namespace Verif.SlotsSpec
open Verif.Slots (Src Op)

/-- A value as a script sees it: one without memory (0 is `undefined`) or a reference to an object. -/
inductive AVal where
  | prim (n : Nat)
  | ref (o : Nat)
  deriving DecidableEq, Repr

/-- Variables, the elements of objects, and the number of the next object. -/
structure Heap where
  var : Nat → AVal
  elem : Nat → Nat → Option AVal
  next : Nat

def Heap.init : Heap := ⟨fun _ => .prim 0, fun _ _ => none, 0⟩

def Heap.setVar (h : Heap) (x : Nat) (v : AVal) : Heap := { h with var := fun y => if y = x then v else h.var y }

def Heap.setElem (h : Heap) (o k : Nat) (v : Option AVal) : Heap :=
  { h with elem := fun p j => if p = o ∧ j = k then v else h.elem p j }

/-- Accesses `.k` one after another; `none` is a script error. A missing element is `undefined`, which has no elements. -/
def Heap.follow (h : Heap) (v : AVal) : List Nat → Option AVal
  | [] => some v
  | k :: ks => match v with
    | .prim _ => none
    | .ref o => h.follow ((h.elem o k).getD (.prim 0)) ks

/-- What `x.ks` reads. -/
def Heap.read (h : Heap) (x : Nat) (ks : List Nat) : Option AVal := h.follow (h.var x) ks

/-- The object `x.ks` refers to. -/
def Heap.base (h : Heap) (x : Nat) (ks : List Nat) : Option Nat :=
  match h.read x ks with
  | some (.ref o) => some o
  | _ => none

/-- `h.Reach avoid o`: some variable leads to `o` through elements, none of which is in `avoid`. -/
inductive Heap.Reach (h : Heap) (avoid : Nat → Nat → Prop) : Nat → Prop where
  | var {x o : Nat} : h.var x = .ref o → Heap.Reach h avoid o
  | elem {p k o : Nat} : Heap.Reach h avoid p → ¬ avoid p k → h.elem p k = some (.ref o) → Heap.Reach h avoid o

/-- The value of a right side. `{}` is a new object. -/
def Heap.eval (h : Heap) : Src → Option (AVal × Heap)
  | .prim n => some (.prim n, h)
  | .path x ks => (h.read x ks).map fun v => (v, h)
  | .new => some (.ref h.next, { h with next := h.next + 1 })

/-- The fields of a literal, in order. -/
def Heap.fields (h : Heap) (o : Nat) : List (Nat × Src) → Option Heap
  | [] => some h
  | f :: fs => (h.eval f.2).bind fun r => (r.2.setElem o f.1 (some r.1)).fields o fs

/-- All elements of `p` are copied to `o`. -/
def Heap.copy (h : Heap) (o p : Nat) : Heap :=
  { h with elem := fun q k => if q = o then (h.elem p k).or (h.elem o k) else h.elem q k }

/-- What a statement does; `none` is a script error. -/
def Heap.step (h : Heap) : Op → Option Heap
  | .setVar x e => (h.eval e).map fun r => r.2.setVar x r.1
  | .setElem x ks k e => (h.eval e).bind fun r => (r.2.base x ks).map fun o => r.2.setElem o k (some r.1)
  | .setItem x ks k e => (h.eval e).bind fun r => (r.2.base x ks).map fun o => r.2.setElem o k (some r.1)
  | .lit x fs => (Heap.fields { h with next := h.next + 1 } h.next fs).map fun h' => h'.setVar x (.ref h.next)
  | .erase x ks k => (h.base x ks).bind fun o => if (h.elem o k).isSome then some (h.setElem o k none) else none
  | .push x ks k e => (h.eval e).bind fun r => (r.2.base x ks).bind fun o =>
      if (r.2.elem o k).isSome then none else some (r.2.setElem o k (some r.1))
  | .extend x ks y js => (h.base x ks).bind fun o => (h.base y js).map fun p => h.copy o p
  | .plus z x ks y js => (h.base x ks).bind fun o => (h.base y js).map fun p =>
      let n := h.next
      ((({ h with next := n + 1 } : Heap).copy n o).copy n p).setVar z (.ref n)
  | .leave x => some (h.setVar x (.prim 0))
  | .sweep => some h

def Heap.steps (h : Heap) : List Op → Option Heap
  | [] => some h
  | op :: ops => (h.step op).bind fun h => h.steps ops

/-- No element of `p` refers to an object. -/
def Heap.Flat (h : Heap) (p : Nat) : Prop := ∀ k o, h.elem p k ≠ some (.ref o)

/-- The statements the code is right about. Assigning an object to an element is fine if the object is new, is the one the
element holds, or can be reached without that element; between brackets only if the element holds no object. Only objects
whose elements are without memory may be copied with `extend` and `+`, and if `extend` overwrites elements, the object
that is read must be reached without them. -/
def Heap.Fine (h : Heap) : Op → Prop
  | .setElem x ks k (.path y js) => ∀ o p, h.base x ks = some o → h.base y js = some p →
      h.elem o k = some (.ref p) ∨ h.Reach (fun q j => q = o ∧ j = k) p
  | .setItem x ks k (.path y js) => ∀ o p q, h.base x ks = some o → h.base y js = some p → h.elem o k ≠ some (.ref q)
  | .setItem x ks k .new => ∀ o q, h.base x ks = some o → h.elem o k ≠ some (.ref q)
  | .extend x ks y js => ∀ o p, h.base x ks = some o → h.base y js = some p →
      h.Flat p ∧ h.Reach (fun q _ => q = o) p
  | .plus _ x ks y js => ∀ o p, h.base x ks = some o → h.base y js = some p → h.Flat o ∧ h.Flat p
  | _ => True

/-- An object is not put into itself with `push`. -/
def Heap.NoSelf (h : Heap) : Op → Prop
  | .push x ks _ (.path y js) => ∀ o, h.base x ks = some o → h.base y js ≠ some o
  | _ => True

/-- Each statement of a history is fine where it is executed. -/
def Heap.FineAll (h : Heap) : List Op → Prop
  | [] => True
  | op :: ops => h.Fine op ∧ ∀ h', h.step op = some h' → h'.FineAll ops

def Heap.NoSelfAll (h : Heap) : List Op → Prop
  | [] => True
  | op :: ops => h.NoSelf op ∧ ∀ h', h.step op = some h' → h'.NoSelfAll ops

/-- `h.Leads p o`: elements, one or more, lead from `p` to `o`. -/
inductive Heap.Leads (h : Heap) : Nat → Nat → Prop where
  | one {p k o : Nat} : h.elem p k = some (.ref o) → Heap.Leads h p o
  | more {p k q o : Nat} : h.elem p k = some (.ref q) → Heap.Leads h q o → Heap.Leads h p o

/-- Some object that contains itself, directly or through others, is `o` or contains it. -/
def Heap.Cyclic (h : Heap) (o : Nat) : Prop := ∃ p, h.Leads p p ∧ (p = o ∨ h.Leads p o)

end Verif.SlotsSpec
