import Verif.Common
/-
Model of the type registry: registering script and native types, inheritance, member functions, and how a
member function is found (`src/core/type/ScriptTypesFactory.cpp/.tcc`, `ScriptType.cpp`,
`src/core/function/ScriptFunctionsFactory.cpp`, `src/core/scope/ScriptScope.cpp`, `src/vm/vm_call.cpp`,
`src/vm/vm_container.cpp`, `src/compiler/compiler.cpp`).

Not modelled: member variables and member properties (so a member function never collides with a variable),
metamethod arity checks, the synthesised `@__field_initializer_..` function of each class (its name cannot be
written in a script), and global variables and functions (a type name collides only with type names).
-/
namespace Verif.Types

/-- What the registry uses of a `ScriptFunction` (`ScriptFunction.h`): which body or native pointer it runs
(`code`), the `NATIVE_OBJECT_REF` and `STATIC` properties, `owner_script_type_id`, the type owning its
scope (`scope->owner_type`) and the parameter names (for a native function these are type names). A function
registered through a class is static or a member (`MEMBER_FUNCTION`), `compiler_keyword_function.cpp` 517. -/
structure Fn where
  code : Nat
  native : Bool
  static : Bool
  owner : Nat
  site : Nat
  params : List String
  deriving DecidableEq, Repr

/-- A function `Symbol` of a class scope: name, and the function `ref_ptr` points to. `n_params` is the
number of parameters. -/
structure Sym where
  name : String
  fn : Fn
  deriving DecidableEq, Repr

/-- `ScriptType` (`ScriptType.h` 19-47): name, native name (`none` is `ZS_SCRIPT_TYPE_NAME_UNKNOWN`), base
type ids and the function symbols of its scope. Its id is its position in the registry. -/
structure Ty where
  name : String
  native : Option String
  bases : List Nat
  funs : List Sym
  deriving DecidableEq, Repr

/-- `script_types`. -/
abbrev Reg := List Ty

/-- The answer of `std::is_base_of<B,T>` for the C++ classes with the given native names. -/
abbrev Cpp := String → String → Bool

/-- One registration. -/
inductive Op where
  /-- `registerType(name, base)` (a script `class name extends base`). -/
  | cls (name : String) (base : Option String)
  /-- `SCF_REGISTER_NATIVE_TYPE(id, name, T)`: `registerType(name)` and the native name set. -/
  | prim (name native : String)
  /-- `registerType<T>(name)`. -/
  | nat (name native : String)
  /-- `extends<T,B>()`, by native names. -/
  | ext (t b : String)
  /-- `registerMemberFunction` on the type with the given id. -/
  | fun (c : Nat) (name : String) (params : List String) (native static : Bool) (code : Nat)
  deriving DecidableEq, Repr

/-- Registry after an operation and whether it returned normally (false: it threw). -/
abbrev Res := Reg × Bool

/-! ### Lookups by name, `ScriptTypesFactory.cpp` 590-625 -/

/-- `getScriptTypeId(name)`: first match. -/
def findName (g : Reg) (n : String) : Option Nat := g.findIdx? (fun t => t.name == n)

/-- `getScriptTypeIdFromNamePtr(native)`: first match. -/
def findNative (g : Reg) (n : String) : Option Nat := g.findIdx? (fun t => t.native == some n)

/-- `checkTypeName`, `ScriptTypesFactory.cpp` 377-407: at most 100 types, the name is not empty and is not
a symbol of the main scope (only type symbols here). -/
def nameOk (g : Reg) (n : String) : Bool :=
  decide (g.length < 100) && n != "" && (findName g n).isNone

/-! ### Functions of one class -/

/-- `ScriptType::getSymbolMemberFunction(name)`, `ScriptType.cpp` 713-733, inherited symbols included and
any number of parameters: last match. -/
def lastSym (fs : List Sym) (n : String) : Option Sym := fs.reverse.find? (fun s => s.name == n)

/-- `ScriptScope::getSymbol(name)` on a class scope, `ScriptScope.cpp` 247-280: first match. -/
def firstSym (fs : List Sym) (n : String) : Option Sym := fs.find? (fun s => s.name == n)

/-- `checkNativeFunctionParams`, `ScriptFunction.cpp` 482-509: no function of the scope has the same name and
the same parameter names. -/
def sigFree (fs : List Sym) (n : String) (ps : List String) : Bool :=
  !fs.any (fun s => s.name == n && s.fn.params == ps)

/-- Whether `newFunction`/`registerSymbolFunction` accept a script function named `n` in class `c`
(`ScriptFunctionsFactory.cpp` 34-60, `ScriptScope.cpp` 145-170, 225-243). A member function whose first
namesake is a member function owned by another class is not checked (it overrides); otherwise the name must
not be a type name (except, for a member function, the class's own) and no function of the scope may have
the same name and number of parameters. -/
def scriptNameFree (g : Reg) (c : Nat) (ty : Ty) (n : String) (ps : List String) (static : Bool) : Bool :=
  let overrides := !static && (match firstSym ty.funs n with
    | some s => !s.fn.static && s.fn.owner != c
    | none => false)
  overrides ||
    ((!static && n == ty.name) || (findName g n).isNone) &&
      !ty.funs.any (fun s => s.name == n && s.fn.params.length == ps.length)

/-- `ScriptType::registerMemberFunction`, `ScriptType.cpp` 310-365: `none` when it throws, else the class
with the new function at the end. A script function may not repeat a name already defined by this very class;
a native one may not repeat a signature. -/
def addFn (g : Reg) (c : Nat) (ty : Ty) (n : String) (ps : List String) (native static : Bool)
    (code site : Nat) : Option Ty :=
  let new : Sym := ⟨n, ⟨code, native, static, c, site, ps⟩⟩
  if native then
    if sigFree ty.funs n ps then some { ty with funs := ty.funs ++ [new] } else none
  else
    match lastSym ty.funs n with
    | some s =>
      if s.fn.site == c then none
      else if scriptNameFree g c ty n ps static then some { ty with funs := ty.funs ++ [new] } else none
    | none =>
      if scriptNameFree g c ty n ps static then some { ty with funs := ty.funs ++ [new] } else none

/-! ### Inheritance -/

/-- The loop over the bases, left to right, stopping at the first `true`; `none` when an answer never comes. -/
def anyBase (f : Nat → Option Bool) : List Nat → Option Bool
  | [] => some false
  | x :: xs =>
    match f x with
    | none => none
    | some true => some true
    | some false => anyBase f xs

/-- `scriptTypeInheritsFrom` (`ScriptTypesFactory.cpp` 683-699) and `extendsFrom` (`ScriptType.cpp` 123-135):
the same recursion over the base ids. `none`: the recursion is deeper than the fuel (a recursion deeper than
every fuel overflows the C++ stack). An id outside the registry would read past the vector: it counts as not
answering. -/
def inherits (g : Reg) : Nat → Nat → Nat → Option Bool
  | 0, _, _ => none
  | n + 1, a, b =>
    if a = b then some true
    else match g[a]? with
      | none => none
      | some ty => anyBase (fun x => inherits g n x b) ty.bases

/-- The copy loop of `extends<T,B>`, `ScriptTypesFactory.tcc` 202-242: each function of the base is registered
again on the class, and its scope set back to the base function's. Stops at the first one refused. -/
def copyFns (g : Reg) (c : Nat) : List Sym → Ty → Ty × Bool
  | [], ty => (ty, true)
  | s :: rest, ty =>
    match addFn g c ty s.name s.fn.params s.fn.native s.fn.static s.fn.code s.fn.site with
    | none => (ty, false)
    | some ty' => copyFns g c rest ty'

/-- The two checks of `extends<T,B>` against the bases the class already has, `ScriptTypesFactory.tcc` 146-186
(deeper than the fuel counts as refused: it would not return). -/
def basesOk (g : Reg) (fuel : Nat) (base : Nat) (bs : List Nat) : Bool :=
  bs.all (fun x => inherits g fuel x base == some false && inherits g fuel base x == some false)

/-- `registerType(name, base)`, `ScriptTypesFactory.cpp` 409-565. The type is pushed before its base is
looked up, so it can find itself, and it stays in the registry when the base is missing. -/
def regCls (g : Reg) (n : String) (base : Option String) : Res :=
  if nameOk g n then
    let g1 := g ++ [⟨n, none, [], []⟩]
    match base with
    | none => (g1, true)
    | some b =>
      match findName g1 b with
      | none => (g1, false)
      | some i =>
        let fs := match g1[i]? with | some t => t.funs | none => []
        (g ++ [⟨n, none, [i], fs⟩], true)
  else (g, false)

/-- One registration. The depth given to `inherits` is the number of types plus one. -/
def step (cpp : Cpp) (g : Reg) : Op → Res
  | .cls n base => regCls g n base
  | .prim n nat =>
    match regCls g n none with
    | (g1, true) => (g1.dropLast ++ [⟨n, some nat, [], []⟩], true)
    | r => r
  | .nat n nat =>
    if nameOk g n && (findNative g nat).isNone then (g ++ [⟨n, some nat, [], []⟩], true) else (g, false)
  | .ext t b =>
    match findNative g b, findNative g t with
    | some bi, some ti =>
      match g[ti]?, g[bi]? with
      | some ty, some bt =>
        if inherits g (g.length + 1) ti bi == some false && cpp b t
            && basesOk g (g.length + 1) bi ty.bases then
          let r := copyFns g ti bt.funs { ty with bases := ty.bases ++ [bi] }
          (g.set ti r.1, r.2)
        else (g, false)
      | _, _ => (g, false)
    | _, _ => (g, false)
  | .fun c n ps native static code =>
    match g[c]? with
    | none => (g, false)
    | some ty =>
      match addFn g c ty n ps native static code c with
      | none => (g, false)
      | some ty' => (g.set c ty', true)

/-- A history of registrations, from the empty registry of the constructor (`ScriptTypesFactory.cpp` 95-107);
the built-in types of `init` and `setup` are the first operations of every real history. -/
def run (cpp : Cpp) (g : Reg) : List Op → Reg
  | [] => g
  | op :: rest => run cpp (step cpp g op).1 rest

/-! ### Finding a member function -/

/-- `getSymbolMemberFunction(name)` on the type with id `c`. -/
def lookup (g : Reg) (c : Nat) (n : String) : Option Sym :=
  match g[c]? with
  | none => none
  | some ty => lastSym ty.funs n

/-- `super(..)` inside the function at position `idx` of class `c`, `compiler.cpp` 594-612: the last function
of that name at a smaller position. -/
def superOf (g : Reg) (c idx : Nat) : Option Sym :=
  match g[c]? with
  | none => none
  | some ty =>
    match ty.funs[idx]? with
    | none => none
    | some s => lastSym (ty.funs.take idx) s.name

/-- `this.name(..)` (`THIS_CALL`) on an object of type `c` when the compiler resolved the name in the class of
the running function, `vm_call.cpp` 128-141: looked up again in the type of the object; a null pointer is
dereferenced when that type has no such function. -/
def thisCall (g : Reg) (c : Nat) (n : String) : Out Fn :=
  match lookup g c n with
  | some s => .ok s.fn
  | none => .ub

/-- What an instruction `LOAD_OBJECT_ITEM` remembers between executions: its `value_op2`. -/
abbrev Site := Option Sym

/-- `o.name` on an object of type `c`, `vm_container.cpp` 85-106: a remembered symbol with the right name is
used, whatever the type of the object; otherwise the name is looked up and remembered. -/
def memberLoad (g : Reg) (site : Site) (c : Nat) (n : String) : Site × Option Sym :=
  match site with
  | some s => if s.name == n then (site, some s) else (lookup g c n, lookup g c n)
  | none => (lookup g c n, lookup g c n)

/-- Executing one instruction `o.name` on objects of the given types, one after another. -/
def memberLoads (g : Reg) (n : String) : Site → List Nat → List (Option Sym)
  | _, [] => []
  | site, c :: cs => (memberLoad g site c n).2 :: memberLoads g n (memberLoad g site c n).1 cs

end Verif.Types
