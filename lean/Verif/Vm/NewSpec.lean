import Verif.Vm.New
import Verif.Vm.MetaSpec
/-
What `new C(args)` is supposed to do, from the manual (`doc/adoc/language_class.adoc`): a new object whose fields have been
given the values written in the class and in the classes it extends, then the constructor of the class, or of the nearest
class it extends, called on it with the arguments. Stated on the text of the program, without the stack.
-/
namespace Verif.New
open Verif Verif.Types Verif.Meta

variable {W : World}

/-- The class and function declarations of a text. -/
def opsOf (is : List Item) : List Op := is.filterMap fun
  | .op o => some o
  | .field _ _ => none

/-- The field values written for class `c`, in the order of the text. -/
def fieldsOf (is : List Item) (c : Nat) : List Nat := is.filterMap fun
  | .op _ => none
  | .field c' k => if c' = c then some k else none

/-- The field values an object of class `c` is given: those of the class it extends, then its own. -/
inductive Fields (g : Reg) (is : List Item) : Nat → List Nat → Prop where
  | root {c} {ty : Ty} : g[c]? = some ty → ty.bases = [] → Fields g is c (fieldsOf is c)
  | up {c b l} {ty : Ty} : g[c]? = some ty → ty.bases = [b] → Fields g is b l → Fields g is c (l ++ fieldsOf is c)

/-- The stores of fields of `o`, run one after another, lead from one state to another. -/
inductive Runs (W : World) (o : W.V) : List Nat → W.St → W.St → Prop where
  | nil {s} : Runs W o [] s s
  | cons {k ks s s1 s' vs} : W.body k (some o) [] s = .ok (vs, s1) → Runs W o ks s1 s' → Runs W o (k :: ks) s s'

/-- The meaning of an expression: its value and the state it leaves. -/
abbrev Expr (W : World) := W.St → Out (W.V × W.St)

/-- Expressions evaluated left to right. -/
inductive Values (W : World) : List (Expr W) → W.St → List W.V → W.St → Prop where
  | nil {s} : Values W [] s [] s
  | cons {e es s s1 s' v vs} : e s = .ok (v, s1) → Values W es s1 vs s' → Values W (e :: es) s (v :: vs) s'

/-- The parameters of a function with body `k` and `n` parameters called with `vs`: the arguments, those that exceed dropped,
and the default values of the parameters left. -/
def Params (W : World) (k n : Nat) (vs : List W.V) (s : W.St) (ps : List W.V) (s' : W.St) : Prop :=
  ∃ ds, Values W ((List.range' vs.length (n - vs.length)).map (W.dflt k)) s ds s' ∧ ps = vs.take n ++ ds

/-- `new C(args)` for class `c` in the program `is` creates `o` and leads from `s` to `s'`; `arity` is the number of
parameters of each body. -/
inductive Constructs (W : World) (g : Reg) (ds : List Def) (is : List Item) (arity : Nat → Nat) (c : Nat) (args : List (Expr W))
    (s : W.St) (o : W.V) (s' : W.St) : Prop where
  /-- No class of the chain has a constructor: the arguments are evaluated for nothing. -/
  | plain {l s0 s1 vs} : Nearest g ds c "constructor" none → Fields g is c l → W.alloc c s = (o, s0) → Runs W o l s0 s1 →
      Values W args s1 vs s' → Constructs W g ds is arity c args s o s'
  | called {l k s0 s1 s2 s3 vs ps rs} : Nearest g ds c "constructor" (some k) → Fields g is c l → W.alloc c s = (o, s0) →
      Runs W o l s0 s1 → Values W args s1 vs s2 → Params W k (arity k) vs s2 ps s3 → W.body k (some o) ps s3 = .ok (rs, s') →
      Constructs W g ds is arity c args s o s'

/-- The code `a` computes `e`: it leaves the value on the stack and nothing else. -/
def Computes (a : Arg W) (e : Expr W) : Prop :=
  ∀ (m : M W) v s', e m.st = .ok (v, s') → ∃ m', a m = .ok m' ∧ Leaves m v s' m'

/-- Argument by argument. -/
inductive ComputesAll : List (Arg W) → List (Expr W) → Prop where
  | nil : ComputesAll [] []
  | cons {a e as es} : Computes a e → ComputesAll as es → ComputesAll (a :: as) (e :: es)

/-- Stack elements are what they say: a new object has its class, the element of a function refers to it and `undefined`
refers to none. -/
structure Lawful (W : World) : Prop where
  cls : ∀ c s, W.cls (W.alloc c s).1 = some c
  fn : ∀ f, W.asFn (W.fval f) = some f
  undef : W.asFn W.undef = none

/-- Every function has the number of parameters `arity` says. -/
def Arities (g : Reg) (arity : Nat → Nat) : Prop := ∀ ty ∈ g, ∀ s ∈ ty.funs, s.fn.params.length = arity s.fn.code

/-- No constructor is declared by these declarations. -/
def NoConstructor (is : List Item) : Prop := ∀ c ps native static k, Item.op (.fun c "constructor" ps native static k) ∉ is

/-- C93 in full: a `new N(..)` compiled when the text `before` was read and run when `after` was read too makes an object of
class `N` the way the whole program says. -/
def NewConstructs (cpp : Cpp) : Prop :=
  ∀ (W : World) (before after : List Item) (arity : Nat → Nat) (name : String) (c : Nat) (args : List (Arg W))
    (es : List (Expr W)) (value : List String → Arg W) (m : M W) (o : W.V) (s' : W.St),
    CppAcyclic cpp → Lawful W → OrderlyRun cpp [] (opsOf (before ++ after)) → ScriptOnly (opsOf (before ++ after)) →
    findName (run cpp [] (opsOf before)) name = some c → Arities (run cpp [] (opsOf (before ++ after))) arity →
    ComputesAll args es →
    Constructs W (run cpp [] (opsOf (before ++ after))) (defs cpp [] (opsOf (before ++ after))) (before ++ after) arity c es m.st o s' →
    ∃ m', exec W (load cpp empty (before ++ after)) value args m (compileNew (load cpp empty before).reg [name]) = .ok m' ∧
      Leaves m o s' m'

end Verif.New
