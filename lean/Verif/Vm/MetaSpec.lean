import Verif.Vm.Meta
import Verif.Core.TypesSpec
/-
What operators on class objects and member properties are supposed to do, from the manual (`doc/adoc/
language_class_metamethods.adoc`, `language_class_property.adoc`): the function that defines the operator in the class of
the object, or in the nearest class it extends, is called with the operands, and the operation has the value it returns.
-/
namespace Verif.Meta
open Verif Verif.Types

variable {W : World}

/-- The operators of the manual and the functions that define them. -/
def manual : List (String × String) :=
  [("+", "_add"), ("&", "_and"), ("/", "_div"), ("==", "_equ"), (">", "_gt"), (">=", "_gte"), ("<", "_lt"), ("<=", "_lte"),
   ("%", "_mod"), ("*", "_mul"), ("!=", "_nequ"), ("|", "_or"), ("<<", "_shl"), (">>", "_shr"), ("-", "_sub"), ("^", "_xor")]

/-- An operation that started with the stack `m` left the value `v` on it, and nothing else. -/
structure Leaves (m : Mach W) (v : W.V) (s : W.St) (m' : Mach W) : Prop where
  value : m'.mem m.cur = v
  height : m'.cur = m.cur + 1
  state : m'.st = s
  below : ∀ i, i < m.cur → m'.mem i = m.mem i

/-- The function nearest to class `c` that defines `n`, called with these arguments, returns `v`. -/
def Yields (W : World) (g : Reg) (ds : List Def) (c : Nat) (n : String) (this : Option W.V) (args : List W.V) (s : W.St)
    (v : W.V) (s' : W.St) : Prop :=
  ∃ k rest, Nearest g ds c n (some k) ∧ W.body k this args s = .ok (v :: rest, s')

/-- The value of `a op b`: of the operator of `a`'s class when `a` is an object, else of `b`'s. -/
inductive FirstObject (W : World) (g : Reg) (ds : List Def) (n : String) (a b : W.V) (s : W.St) (v : W.V) (s' : W.St) : Prop where
  | left {c : Nat} : W.cls a = some c → Yields W g ds c n none [a, b] s v s' → FirstObject W g ds n a b s v s'
  | right {c : Nat} : W.cls a = none → W.cls b = some c → Yields W g ds c n none [a, b] s v s' →
      FirstObject W g ds n a b s v s'

/-- The value of `a op b` when any of the two operands may provide the operator: the second one's class is asked when the
first one's does not define it. -/
inductive AnyObject (W : World) (g : Reg) (ds : List Def) (n : String) (a b : W.V) (s : W.St) (v : W.V) (s' : W.St) : Prop where
  | first : FirstObject W g ds n a b s v s' → AnyObject W g ds n a b s v s'
  | second {c d : Nat} : W.cls a = some c → Nearest g ds c n none → W.cls b = some d →
      Yields W g ds d n none [a, b] s v s' → AnyObject W g ds n a b s v s'

/-- Every function of that name takes `k` parameters, and is static or not as said. -/
def Declared (g : Reg) (n : String) (k : Nat) (static : Bool) : Prop :=
  ∀ ty ∈ g, ∀ s ∈ ty.funs, s.name = n → s.fn.params.length = k ∧ s.fn.static = static

/-- The objects of the world are of registered classes. -/
def Registered (W : World) (g : Reg) : Prop := ∀ v c, W.cls v = some c → c < g.length

/-- Only script classes and functions: no native function, no `extends<T,B>`. -/
def ScriptOnly (ops : List Op) : Prop :=
  ∀ op ∈ ops, match op with
    | .ext _ _ => False
    | .fun _ _ _ native _ _ => native = false
    | _ => True

/-- Two stacks with the same values in use. -/
structure SameStack (m m' : Mach W) : Prop where
  cur : m.cur = m'.cur
  st : m.st = m'.st
  mem : ∀ i, i < m.cur → m.mem i = m'.mem i

/-! ### The full claims -/

/-- C69 in full, two operands: `a op b` is what the operator of the operands' classes returns. -/
def BinaryOperators : Prop :=
  ∀ (W : World) (cpp : Cpp) (ops : List Op) (o : Bin) (a b : W.V) (m : Mach W) (v : W.V) (s' : W.St),
    CppAcyclic cpp → OrderlyRun cpp [] ops → Registered W (run cpp [] ops) → Declared (run cpp [] ops) o.sym 2 true →
    (o = .add → W.concat a b = none) → AnyObject W (run cpp [] ops) (defs cpp [] ops) o.sym a b m.st v s' →
    ∃ m', binary W (run cpp [] ops) o a b m = .ok m' ∧ Leaves m v s' m'

/-- C69 in full, compound assignments: `a op= x` calls the nearest function that defines it, and its value is `a`. -/
def CompoundOperators : Prop :=
  ∀ (W : World) (cpp : Cpp) (ops : List Op) (n : String) (a : W.V) (c : Nat) (m : Mach W) (k : Nat) (vs : List W.V) (s' : W.St),
    CppAcyclic cpp → OrderlyRun cpp [] ops → ScriptOnly ops → Registered W (run cpp [] ops) →
    Declared (run cpp [] ops) n 1 false → W.cls a = some c → W.nothing (m.mem m.cur) = false →
    Nearest (run cpp [] ops) (defs cpp [] ops) c n (some k) → W.body k (some a) [m.mem m.cur] m.st = .ok (vs, s') →
    ∃ m', compound W (run cpp [] ops) n a m = .ok m' ∧ Leaves m a s' m'

/-- C69 in full, `++` and `--`: they call the nearest function that defines them, and have the value it returns. -/
def StepOperators : Prop :=
  ∀ (W : World) (cpp : Cpp) (ops : List Op) (n : String) (a : W.V) (c : Nat) (m : Mach W) (v : W.V) (s' : W.St),
    CppAcyclic cpp → OrderlyRun cpp [] ops → ScriptOnly ops → Registered W (run cpp [] ops) →
    Declared (run cpp [] ops) n 0 false → W.cls a = some c →
    Yields W (run cpp [] ops) (defs cpp [] ops) c n (some a) [] m.st v s' →
    ∃ m', bump W (run cpp [] ops) n a m = .ok m' ∧ Leaves m v s' m'

/-- C69 in full, `=` on a variable that holds an object with `_set`: it calls the nearest `_set`. -/
def SetOperators : Prop :=
  ∀ (W : World) (cpp : Cpp) (ops : List Op) (a x : W.V) (c : Nat) (m : Mach W) (k : Nat) (vs : List W.V) (s' : W.St),
    CppAcyclic cpp → OrderlyRun cpp [] ops → ScriptOnly ops → Registered W (run cpp [] ops) →
    Declared (run cpp [] ops) "_set" 1 false → W.cls a = some c →
    Nearest (run cpp [] ops) (defs cpp [] ops) c "_set" (some k) → W.body k (some a) [x] m.st = .ok (vs, s') →
    ∃ m', store W (run cpp [] ops) a x m = .ok (.called m') ∧ m'.st = s' ∧ m'.cur = m.cur ∧ ∀ i, i < m.cur → m'.mem i = m.mem i

/-- C69 in full, redefinition: a class may define an operator that a class it extends defines too. -/
def Redefinable : Prop :=
  ∀ (cpp : Cpp) (g : Reg) (n b o : String) (i : Nat) (t : Ty) (ps : List String) (code : Nat),
    nameOk g n = true → findName g b = some i → g[i]? = some t → (∃ s ∈ t.funs, s.name = o ∧ s.fn.static = true ∧ s.fn.params.length = ps.length) →
    findName g o = none → n ≠ o →
    (step cpp (step cpp g (.cls n (some b))).1 (.fun g.length o ps false true code)).2 = true

/-- C69 in full, determinism: an operator depends on its operands and the state, not on what the stack held before. The
registration asks for at least two parameters. -/
def OperandsOnly : Prop :=
  ∀ (W : World) (g : Reg) (o : Bin) (a b : W.V) (m m' : Mach W), SameStack m m' →
    (∀ ty ∈ g, ∀ s ∈ ty.funs, s.name = o.sym → 2 ≤ s.fn.params.length) →
    ∀ r, binary W g o a b m = .ok r → ∃ r', binary W g o a b m' = .ok r' ∧ r.mem m.cur = r'.mem m.cur

/-- C70 in full, reading: `o.p` is what the getter returns. -/
def PropertyRead : Prop :=
  ∀ (W : World) (p : Property) (f : Fn) (o v : W.V) (m : Mach W) (rest : List W.V) (s' : W.St),
    p.getter = some f → f.params = [] → W.body f.code (some o) [] m.st = .ok (v :: rest, s') →
    ∃ m', readProp W p o m = .ok m' ∧ Leaves m v s' m'

/-- C70 in full, compound assignment: the value of `o.p op= x` is what the getter returns afterwards. -/
def PropertyCompound : Prop :=
  ∀ (W : World) (p : Property) (n : String) (f gt : Fn) (o v : W.V) (m : Mach W) (vs rest : List W.V) (s1 s2 : W.St),
    p.sets n = some f → p.getter = some gt → f.params.length = 1 → gt.params = [] → W.nothing (m.mem m.cur) = false →
    W.body f.code (some o) [m.mem m.cur] m.st = .ok (vs, s1) → W.body gt.code (some o) [] s1 = .ok (v :: rest, s2) →
    ∃ m', compoundProp W p n o m = .ok m' ∧ Leaves m v s2 m'

/-- C70 in full, `++` and `--`: a property's function without `return` leaves `undefined`. -/
def PropertyBump : Prop :=
  ∀ (W : World) (p : Property) (n : String) (f : Fn) (o : W.V) (m : Mach W) (s' : W.St),
    p.bumps n = some f → f.params = [] → W.body f.code (some o) [] m.st = .ok ([], s') →
    ∃ m', bumpProp W p n o m = .ok m' ∧ Leaves m W.undef s' m'

end Verif.Meta
