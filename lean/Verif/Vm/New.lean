import Verif.Vm.Meta
/-
Model of `new C(args)`: what the compiler emits for it (`src/compiler/compiler_object.cpp` 295-512), how a new object of a
script class is initialised (`src/core/object/ClassScriptObject.cpp` 16-127, `src/compiler/compiler_keyword_var.cpp` 45-215,
`src/compiler/compiler_keyword_function.cpp` 20-104) and how its constructor is called (`src/vm/vm_script_function.cpp`
511-523, 641-650, `src/vm/vm_new_object.cpp`, `src/vm/vm_call.cpp` 208-470, 600-640), over the stack of `Verif/Vm/Meta.lean`.

Not modelled: native classes and native constructors, constants and properties among the members (they are no code that
runs), parameters by reference and variable argument lists (see `Verif/Vm/Call.lean`), share counts.
-/
namespace Verif.New
open Verif Verif.Types Verif.Meta

/-- `Meta.World` with what object creation needs: a new object of a class; the stack element of a member function and the
function such an element refers to; the class a type value names; the default value of parameter `i` of body `k`, a constant
or the value of a function called then (`vm_call.cpp` 396-428). -/
structure World extends Meta.World where
  alloc : Nat → St → V × St
  fval : Fn → V
  asFn : V → Option Fn
  asType : V → Option Nat
  dflt : Nat → Nat → St → Out (V × St)

/-- What the text declares, in order: classes and functions, and `var x = e` in class `c` (or `var C::x = e`), whose code is
the body `k` that stores `e` in the field and has its value. A `var x;` without value leaves nothing
(`compiler_keyword_var.cpp` 96-186). -/
inductive Item where
  | op (o : Op)
  | field (c k : Nat)
  deriving DecidableEq, Repr

/-- The registry and the field initialiser of each class. -/
structure Prog where
  reg : Reg
  init : Nat → List Nat

/-- One declaration: `compiler_generate_byte_code_field_initializer` appends the code to that of the class,
`compiler_keyword_function.cpp` 20-104. -/
def load1 (cpp : Cpp) (p : Prog) : Item → Prog
  | .op o => { p with reg := (step cpp p.reg o).1 }
  | .field c k => { p with init := fun c' => if c' = c then p.init c ++ [k] else p.init c' }

/-- All declarations of a text. -/
def load (cpp : Cpp) (p : Prog) : List Item → Prog
  | [] => p
  | i :: is => load cpp (load1 cpp p i) is

/-- Before any declaration. -/
def empty : Prog := ⟨[], fun _ => []⟩

/-! ### Compiling -/

/-- What `new` compiles to: `NEW_OBJECT_BY_TYPE` and `LOAD_CONSTRUCTOR_FUNCT` with the position of the constructor if there is
one, or the expression and `NEW_OBJECT_BY_VALUE`. -/
inductive Code where
  | byType (c : Nat) (ctor : Option Nat)
  | byValue (path : List String)
  deriving DecidableEq, Repr

/-- The position of the last function of that name, `getSymbol` and the loop after it, `compiler_object.cpp` 470-482. -/
def lastIdx (fs : List Sym) (n : String) : Option Nat :=
  ((List.range fs.length).reverse).find? fun i => match fs[i]? with
    | some s => s.name == n
    | none => false

/-- `compiler_object_new` on `new a.b.N(..)`, `compiler_object.cpp` 321-372, 466-492: the last name is looked up among the
types, whatever precedes it. -/
def compileNew (g : Reg) (path : List String) : Code :=
  match findName g (path.getLast?.getD "") with
  | some c =>
    .byType c (match g[c]? with
      | some ty => lastIdx ty.funs "constructor"
      | none => none)
  | none => .byValue path

/-! ### Running -/

variable {W : World}

/-- The stack of this world. -/
abbrev M (W : World) := Mach W.toWorld

/-- The code of an argument. -/
abbrev Arg (W : World) := M W → Out (M W)

/-- The code of a field initialiser, `compiler_keyword_function.cpp` 57-93: for each field its value and the store, which
leaves the value on the stack (no `RESET_STACK`). -/
def pieces (W : World) (o : W.V) : List Nat → M W → Out (M W)
  | [], m => .ok m
  | k :: ks, m =>
    (W.body k (some o) [] m.st).bind fun r =>
      pieces W o ks (push { m with st := r.2 } (r.1.headD W.undef))

/-- `vm_execute(vm,this,sf_field_initializer)`, `vm.cpp` 263-265, 292, 336-341, 408 and `vm_script_function.cpp` 680-684: nothing
when there is no code, else the code runs above the stack, the next cell is set to `undefined` and the stack is put back. -/
def fieldInit (W : World) (ks : List Nat) (o : W.V) (m : M W) : Out (M W) :=
  match ks with
  | [] => .ok m
  | _ => (pieces W o ks m).map fun m' => { mem := put m'.mem m'.cur W.undef, cur := m.cur, st := m'.st }

/-- `callConstructorMemberVariables`, `ClassScriptObject.cpp` 112-127: the first base, then the class. Deeper than the fuel:
a recursion that never ends overflows the C++ stack. -/
def runInits (W : World) (p : Prog) (o : W.V) : Nat → Nat → M W → Out (M W)
  | 0, _, _ => .ub
  | n + 1, c, m =>
    match p.reg[c]? with
    | none => .ub
    | some ty =>
      Out.bind (match ty.bases with
        | [] => .ok m
        | b :: _ => runInits W p o n b m) (fieldInit W (p.init c) o)

/-- `NEW_OBJECT_BY_TYPE`, `vm_script_function.cpp` 511-523, `ClassScriptObject.cpp` 16-110. -/
def newObject (W : World) (p : Prog) (c : Nat) (m : M W) : Out (M W) :=
  (runInits W p (W.alloc c m.st).1 (p.reg.length + 1) c { m with st := (W.alloc c m.st).2 }).map fun m' =>
    push m' (W.alloc c m.st).1

/-- `LOAD_CONSTRUCTOR_FUNCT`, `vm_script_function.cpp` 641-650: the function at that position of the class of the object on
top of the stack. -/
def loadCtor (W : World) (p : Prog) (ctor : Option Nat) (m : M W) : Out (M W) :=
  match ctor with
  | none => .ok (push m W.undef)
  | some i =>
    match (W.cls (m.mem (m.cur - 1))).bind fun c => (p.reg[c]?).bind fun ty => ty.funs[i]? with
    | none => .ub
    | some s => .ok (push m (W.fval s.fn))

/-- `vm_new_object_by_value`, `vm_new_object.cpp` 7-67, the type value on top of the stack. -/
def newByValue (W : World) (p : Prog) (m : M W) : Out (M W) :=
  let v := m.mem (m.cur - 1)
  match W.asType v with
  | none => .err
  | some c =>
    (newObject W p c { m with cur := m.cur - 1 }).map fun m' =>
      push m' (match lookup p.reg c "constructor" with
        | some s => W.fval s.fn
        | none => W.undef)

/-- The arguments, left to right. -/
def evalArgs : List (Arg W) → M W → Out (M W)
  | [], m => .ok m
  | a :: as, m => (a m).bind (evalArgs as)

/-- The parameters that got no argument, `vm_call.cpp` 390-431: `count` of them from `h` on. -/
def fill (W : World) (k : Nat) : Nat → Nat → M W → Out (M W)
  | 0, _, m => .ok m
  | count + 1, h, m =>
    (W.dflt k h m.st).bind fun r => fill W k count (h + 1) (push { m with st := r.2 } r.1)

/-- `CONSTRUCTOR_CALL` with `n` arguments, `vm_call.cpp` 208-218, 230-265, 390-455, 600-640: below the arguments lie the
function and the object. Without function nothing is called; either way the object stays on top of the stack. -/
def ctorCall (W : World) (n : Nat) (m : M W) : Out (M W) :=
  let fr := m.cur - n - 1
  match W.asFn (m.mem fr) with
  | none => .ok { m with cur := fr }
  | some f =>
    (fill W f.code (f.params.length - n) n m).bind fun m1 =>
      (execute W.toWorld f (some (m1.mem (fr - 1))) (fr + 1) m1).map fun m' => { m' with cur := fr }

/-- The number of arguments an instruction keeps: four bits, `Instruction.h` 41-54. -/
def argCount (n : Nat) : Nat := n % 16

/-- The whole expression; `value` is the code of a dotted name. -/
def exec (W : World) (p : Prog) (value : List String → Arg W) (args : List (Arg W)) (m : M W) : Code → Out (M W)
  | .byType c ctor =>
    (newObject W p c m).bind fun m1 => (loadCtor W p ctor m1).bind fun m2 => (evalArgs args m2).bind (ctorCall W (argCount args.length))
  | .byValue path =>
    (value path m).bind fun m0 => (newByValue W p m0).bind fun m2 => (evalArgs args m2).bind (ctorCall W (argCount args.length))

end Verif.New
