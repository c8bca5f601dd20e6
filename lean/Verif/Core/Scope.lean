import Verif.Common
/-
The compiler's scope tree and the symbols in it: `core/scope/ScriptScope.cpp`,
`core/scope/ScriptScopesFactory.cpp`, and the places in `compiler/compiler.cpp`,
`compiler/compiler_keyword_function.cpp` and `core/function/ScriptFunction.cpp` that open and close
scopes and register names while a script is being compiled.

Simplifications, also repeated at the definitions:
* the scopes live in a list and are named by their index (the C++ uses pointers); a scope that is
  flagged as unused stays in the list, which is what happens until the end of the compilation;
* a symbol carries the number of the declaration it stands for (the C++ carries file, line and a
  pointer), so that two declarations of one name can be told apart;
* native functions, class members and `import` are not modelled here.
-/
namespace Verif.Core.Scope

/-- `Symbol` (`core/Symbol.h`): the name, the declaration it stands for, the number of parameters
(functions only) and the function it names (`ref_ptr->id`, functions only). -/
structure Sym where
  name : String
  decl : Nat
  np : Nat := 0
  fid : Nat := 0
  deriving DecidableEq, Repr

/-- `ScriptScope` (`ScriptScope.h` 30–60): `id` is the function the scope belongs to, `scopes` its
children; `isBlock` is `SCOPE_PROPERTY_IS_SCOPE_BLOCK`, `unused` is `SCOPE_PROPERTY_UNUSUED`. -/
structure Scope where
  fid : Nat
  parent : Option Nat
  isBlock : Bool
  types : List Sym := []
  vars : List Sym := []
  funs : List Sym := []
  children : List Nat := []
  unused : Bool := false
  deriving DecidableEq, Repr

abbrev Arena := List Scope

/-- The three loops at the head of `ScriptScope::getSymbol` (`ScriptScope.cpp` 246–278): types, then
variables, then functions, first match; `q = none` is `ZS_NO_PARAMS_SYMBOL_ONLY`. -/
def own (s : Scope) (x : String) (q : Option Nat) : Option Sym :=
  match s.types.find? (fun y => y.name == x) with
  | some y => some y
  | none =>
    match s.vars.find? (fun y => y.name == x) with
    | some y => some y
    | none => s.funs.find? (fun y => y.name == x && (q == some y.np || q == none))

/-- `getSymbol` with direction `DOWN` (`ScriptScope.cpp` 246–288): own symbols, then the parent's, as
long as the parent belongs to the same function. The first argument bounds the recursion; callers pass
the number of scopes. -/
def down (a : Arena) (x : String) (q : Option Nat) : Nat → Nat → Option Sym
  | 0, _ => none
  | k + 1, s =>
    match a[s]? with
    | none => none
    | some sc =>
      match own sc x q with
      | some y => some y
      | none =>
        match sc.parent with
        | none => none
        | some p =>
          match a[p]? with
          | none => none
          | some pc => if pc.fid = sc.fid then down a x q k p else none

/-- `getSymbol` with direction `UP` (`ScriptScope.cpp` 246–278 and 290–302): own symbols, then those of
the children that belong to the same function, in order. -/
def up (a : Arena) (x : String) (q : Option Nat) : Nat → Nat → Option Sym
  | 0, _ => none
  | k + 1, s =>
    match a[s]? with
    | none => none
    | some sc =>
      match own sc x q with
      | some y => some y
      | none =>
        sc.children.findSome? (fun c =>
          match a[c]? with
          | none => none
          | some cc => if cc.fid = sc.fid then up a x q k c else none)

/-- `getSymbol` with direction `UP_AND_DOWN` (`ScriptScope.cpp` 246–304). When the parent belongs to the
same function its answer is returned at once, even `NULL`: the children are then never looked at. -/
def upDown (a : Arena) (s : Nat) (x : String) (q : Option Nat) : Option Sym :=
  match a[s]? with
  | none => none
  | some sc =>
    match own sc x q with
    | some y => some y
    | none =>
      match sc.parent.bind (fun p => a[p]?) with
      | some pc =>
        if pc.fid = sc.fid then down a x q a.length (sc.parent.getD 0)
        else up a x q a.length s
      | none => up a x q a.length s

/-- State of a compilation: the scopes, the scopes the recursive descent is in (innermost first: the
`scope_info` arguments on the C++ call stack), and the counters handing out function ids and
declaration numbers. -/
structure St where
  arena : Arena
  stack : List Nat
  nfun : Nat
  ndecl : Nat
  deriving Repr

/-- The state before anything is compiled: the main scope (id 0, function 0) holding the registered
type names (`ScriptScopesFactory::init`, `ScriptTypesFactory::registerType` 436–440). -/
def init (ts : List String) : St :=
  { arena := [{ fid := 0, parent := none, isBlock := false,
                types := ts.mapIdx (fun i t => { name := t, decl := i }) }],
    stack := [0], nfun := 1, ndecl := ts.length }

/-- `ScriptTypesFactory::getScriptTypeId(name) != ZS_UNDEFINED_IDX`. Every type is registered as a symbol
of the main scope (`ScriptTypesFactory.cpp` 440). -/
def isType (a : Arena) (x : String) : Bool :=
  match a[0]? with
  | none => false
  | some m => m.types.any (fun y => y.name == x)

/-- `new ScriptScope(…)` (`ScriptScope.cpp` 14–39): appended to the list of scopes, and to the parent's
children. -/
def newScope (a : Arena) (sc : Scope) (p : Nat) : Arena :=
  a.modify p (fun pc => { pc with children := pc.children ++ [a.length] }) ++ [sc]

/-- `ScriptScope::registerSymbolVariable` with the given check (`ScriptScope.cpp` 198–216 and
`checkPreRegisterSymbol` 144–176). `clash` is the result of `getSymbol`. -/
def addVar (a : Arena) (s : Nat) (x : String) (d : Nat) (clash : Bool) : Out Arena :=
  if isType a x then .err
  else if clash then .err
  else .ok (a.modify s (fun sc => { sc with vars := sc.vars ++ [{ name := x, decl := d }] }))

/-- The loop over the parameters in `compiler_block_function` (`compiler.cpp` 270–286): each is registered
with the direction `CURRENT_LEVEL` (`ScriptFunction::registerLocalArgument` 557–582). -/
def addArgs (s : Nat) : List String → Nat → Arena → Out Arena
  | [], _, a => .ok a
  | x :: xs, d, a =>
    match a[s]? with
    | none => .err
    | some sc =>
      match addVar a s x d (own sc x none).isSome with
      | .ok a' => addArgs s xs (d + 1) a'
      | .err => .err
      | .ub => .ub

/-- `ScriptScope::markAsUnusued` (`ScriptScope.cpp` 124–140): the children go to the parent, the scope is
flagged. -/
def markUnused (a : Arena) (s : Nat) : Arena :=
  match a[s]? with
  | none => a
  | some sc =>
    match sc.parent with
    | none => a.modify s (fun sc => { sc with unused := true })
    | some p =>
      let a1 := a.modify p (fun pc => { pc with children := pc.children ++ sc.children })
      let a2 := a1.mapIdx (fun i c => if sc.children.contains i then { c with parent := some p } else c)
      a2.modify s (fun sc => { sc with children := [], unused := true })

/-- What the compiler meets in a script, as far as scopes are concerned. -/
inductive Ev where
  /-- `{` of a block, or the scope of a `for` (`compiler_new_scope_block`) -/
  | block
  /-- `function x(args){` -/
  | fn (x : String) (args : List String)
  /-- `}`; `loop` says the block is the body of a loop -/
  | close (loop : Bool)
  /-- `var x` -/
  | var (x : String)
  /-- `class x {…}` -/
  | type (x : String)
  deriving DecidableEq, Repr

/-- `ScriptFunction::registerLocalFunction` for a script function (`ScriptFunction.cpp` 614–700), called
with the current scope. The result is the new arena, the function id and the counter of functions.

If the name is found in this scope or an enclosing one of the same function and is not a script function
of this very scope, the C++ throws with a message whose third `%s` receives the line number
(`ScriptFunction.cpp` 650–656): `vsnprintf` reads a string at that address, which is undefined
behaviour. A script function of this very scope is overwritten in place. Otherwise
`ScriptFunctionsFactory::newFunction` registers a new symbol, after the usual check with the number of
parameters. -/
def registerFn (st : St) (s : Nat) (x : String) (np : Nat) : Out (Arena × Nat × Nat) :=
  match down st.arena x none st.arena.length s with
  | some _ =>
    match st.arena[s]? with
    | none => .err
    | some sc =>
      if (sc.types.find? (fun y => y.name == x)).isSome then .ub
      else if (sc.vars.find? (fun y => y.name == x)).isSome then .ub
      else
        match sc.funs.find? (fun y => y.name == x) with
        | none => .ub
        | some y =>
          .ok (st.arena.modify s (fun sc =>
                { sc with funs := sc.funs.map (fun z =>
                    if z = y then { z with decl := st.ndecl, np := np } else z) }),
               y.fid, st.nfun)
  | none =>
    if isType st.arena x then .err
    else if (upDown st.arena s x (some np)).isSome then .err
    else
      .ok (st.arena.modify s (fun sc =>
            { sc with funs := sc.funs ++ [{ name := x, decl := st.ndecl, np := np, fid := st.nfun }] }),
           st.nfun, st.nfun + 1)

/-- One step of the compiler. `err` is a compilation error.

* `block`: `compiler_new_scope_block` (`compiler.cpp` 149–159). The limit on the nesting depth
  (`compiler.cpp` 198) is not part of this model.
* `fn`: `compiler_keyword_function` (`compiler_keyword_function.cpp` 516–590): register the name, open the
  function's scope (`compiler_new_scope_function`, `compiler.cpp` 136–147), register the parameters.
* `close`: the end of a block runs `compiler_check_scope` (`compiler.cpp` 161–181), which flags a block
  without variables that is not a loop body; the end of a function does not. A `}` too many is an error
  (`compiler.cpp` 95–101).
* `var`: `ScriptFunction::registerLocalVariable` (584–612).
* `type`: `ScriptTypesFactory::registerType` (407–449): the symbol goes to the main scope wherever the
  class is written. -/
def step (st : St) (e : Ev) : Out St :=
  match st.stack with
  | [] => .err
  | s :: rest =>
    match e with
    | .block =>
      match st.arena[s]? with
      | none => .err
      | some sc =>
        .ok { st with
          arena := newScope st.arena { fid := sc.fid, parent := some s, isBlock := true } s,
          stack := st.arena.length :: s :: rest }
    | .fn x args =>
      match registerFn st s x args.length with
      | .err => .err
      | .ub => .ub
      | .ok (a, f, nf) =>
        match addArgs a.length args (st.ndecl + 1)
            (newScope a { fid := f, parent := some s, isBlock := false } s) with
        | .err => .err
        | .ub => .ub
        | .ok a' =>
          .ok { arena := a', stack := a.length :: s :: rest, nfun := nf,
                ndecl := st.ndecl + 1 + args.length }
    | .close loop =>
      match rest, st.arena[s]? with
      | _ :: _, some sc =>
        .ok { st with
          arena := if sc.isBlock && sc.vars.isEmpty && !loop then markUnused st.arena s else st.arena,
          stack := rest }
      | _, _ => .err
    | .var x =>
      match addVar st.arena s x st.ndecl (upDown st.arena s x none).isSome with
      | .err => .err
      | .ub => .ub
      | .ok a => .ok { st with arena := a, ndecl := st.ndecl + 1 }
    | .type x =>
      if isType st.arena x then .err
      else if (upDown st.arena 0 x none).isSome then .err
      else
        .ok { st with
          arena := st.arena.modify 0 (fun m => { m with types := m.types ++ [{ name := x, decl := st.ndecl }] }),
          ndecl := st.ndecl + 1 }

/-- Compiling a script: one step after another; the first error ends it. -/
def run (st : St) : List Ev → Out St
  | [] => .ok st
  | e :: es =>
    match step st e with
    | .ok st' => run st' es
    | .err => .err
    | .ub => .ub

/-- `compiler_find_local_symbol` (`compiler.cpp` 451–454) from the innermost open scope: the declaration a
name written here stands for, if it is found while compiling. -/
def resolve (st : St) (x : String) : Option Nat :=
  match st.stack with
  | [] => none
  | s :: _ => (down st.arena x none st.arena.length s).map Sym.decl

/-- What `ScriptFunction::linkUnresolvedSymbols` (773–900) does, after the compilation, with a name that
was not found: a type name, or else a symbol of the main scope. Static members (`A::b`) and members of
the owner's class are not modelled here. -/
def link (st : St) (x : String) : Option Nat :=
  match st.arena[0]? with
  | none => none
  | some m => (own m x none).map Sym.decl

/-- The declarations whose `Symbol` is deleted by `ScriptScopesFactory::clearUnusuedScopes`
(`ScriptScopesFactory.cpp` 33–59, run at the end of every compilation, `compiler.cpp` 119; destructor
`ScriptScope.cpp` 333–372): those of the flagged scopes. -/
def freed (st : St) : List Nat :=
  (st.arena.filter (fun sc => sc.unused)).flatMap
    (fun sc => (sc.types ++ sc.vars ++ sc.funs).map Sym.decl)

end Verif.Core.Scope
