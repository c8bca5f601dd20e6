/-
The statements of scripts over containers in containers, for `Verif/Vm/Slots.lean` (what the code does) and
`Verif/Vm/SlotsSpec.lean` (what a script may expect). Variables and the names of elements are numbers.
-/
namespace Verif.Slots

/-- The right side: a value without memory, a variable with accesses, `{}`. -/
inductive Src where
  | prim (n : Nat)
  | path (x : Nat) (ks : List Nat)
  | new
  deriving DecidableEq, Repr

/-- What a script does. -/
inductive Op where
  /-- `x = e` -/
  | setVar (x : Nat) (e : Src)
  /-- `x.ks.k = e` -/
  | setElem (x : Nat) (ks : List Nat) (k : Nat) (e : Src)
  /-- `x.ks[k] = e` -/
  | setItem (x : Nat) (ks : List Nat) (k : Nat) (e : Src)
  /-- `x = {k: e, ..}` -/
  | lit (x : Nat) (fs : List (Nat × Src))
  /-- `x.ks.erase(k)` -/
  | erase (x : Nat) (ks : List Nat) (k : Nat)
  /-- `x.ks.push(e)`, where `k` is the next element -/
  | push (x : Nat) (ks : List Nat) (k : Nat) (e : Src)
  /-- `x.ks.extend(y.js)` -/
  | extend (x : Nat) (ks : List Nat) (y : Nat) (js : List Nat)
  /-- `z = x.ks + y.js` -/
  | plus (z x : Nat) (ks : List Nat) (y : Nat) (js : List Nat)
  /-- the variable `x` goes out of scope -/
  | leave (x : Nat)
  /-- the end of a block: what nothing holds is deleted -/
  | sweep
  deriving DecidableEq, Repr

end Verif.Slots
