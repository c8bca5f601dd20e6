import Verif.Common
/-
Where global variables live: the table of local variables of the main function, the positions of the variables in
the VM stack, and what `eval`, `registerConstant…`, `saveState` and `clear` do to them
(`ScriptEngine.cpp`, `core/function/ScriptFunction.cpp`, `core/scope/ScriptScope.cpp`, `compiler/compiler.cpp`).

Simplifications, also repeated at the definitions:
* a `Symbol *` is a number that is never used again; `dead` lists the deleted ones, and reading one of those is `ub`;
* the block scopes of the main function are listed in the order in which they are opened, which is the order in which
  the recursive walks of `compiler.cpp` 473–511 meet them; a scope that is removed because it holds no variable
  contributes nothing to these walks and is not removed here;
* positions are unbounded numbers (`short` in the C++);
* what a running script does is reduced to writes: to a global (`write`), or to a slot of the VM stack that belongs to
  no global (`scratch`: block variables and the operand stack);
* names and the checks for repeated names are the subject of `Core/Scope.lean`.
-/
namespace Verif.Core.Globals

def upd {α : Type} (f : Nat → α) (i : Nat) (v : α) : Nat → α := fun j => if j = i then v else f j

/-- The parts of `ScriptEngine` that matter here. -/
structure Eng (V : Type) where
  /-- `main_function->local_variables` (`ScriptFunction.h` 62); `none` is an entry that was never written -/
  locals : List (Option Nat) := []
  /-- `Symbol::idx_position` -/
  pos : Nat → Nat := fun _ => 0
  /-- `main_scope->symbol_variables` -/
  vars : List Nat := []
  /-- the variables of the block scopes of the main function -/
  blocks : List (List Nat) := []
  /-- deleted symbols -/
  dead : List Nat := []
  fresh : Nat := 0
  /-- the VM stack, `none` is `undefined` -/
  stack : Nat → Option V := fun _ => none
  /-- `idx_current_global_variable_checkpoint` -/
  ckpt : Nat := 0
  /-- constants of classes with the position noted in `Symbol::ref_ptr` of the member (`compiler_keyword_var.cpp` 124–140) -/
  refs : List (Nat × Nat) := []

/-- `Vector::resize` (`Vector.tcc` 131–166). Growing exposes entries nobody has written. -/
def resize (l : List (Option Nat)) (n : Nat) : List (Option Nat) :=
  l.take n ++ List.replicate (n - l.length) none

/-- What the compiler meets in a script, as far as the variables of the main function are concerned. A script that
does not compile is the part before the error: the end of the compilation is the same (`compiler.cpp` 105–127). -/
inductive Ev where
  /-- `{`, or the scope of a `for` -/
  | open
  /-- `}` -/
  | close
  /-- `var x` -/
  | var
  /-- `const x` in a class, or `const A::x` -/
  | konst
  deriving DecidableEq, Repr

/-- `ScriptFunction::registerLocalVariable` for the main function (`ScriptFunction.cpp` 582–612), without the
registration in the scope. -/
def register {V : Type} (g : Eng V) : Eng V :=
  { g with
    pos := upd g.pos g.fresh g.locals.length
    stack := upd g.stack g.locals.length none
    locals := g.locals ++ [some g.fresh]
    fresh := g.fresh + 1 }

/-- One event while compiling; `cur` are the block scopes we are in, innermost first
(`compiler_keyword_var.cpp` 85–142; a constant of a class is registered in the main scope, line 83). -/
def evStep {V : Type} (g : Eng V) (cur : List Nat) : Ev → Eng V × List Nat
  | .open => ({ g with blocks := g.blocks ++ [[]] }, g.blocks.length :: cur)
  | .close => (g, cur.tail)
  | .var =>
    match cur with
    | [] => ({ register g with vars := g.vars ++ [g.fresh] }, cur)
    | b :: _ => ({ register g with blocks := g.blocks.modify b (· ++ [g.fresh]) }, cur)
  | .konst =>
    ({ register g with
        vars := g.vars ++ [g.fresh]
        refs := g.refs ++ [(g.fresh, g.locals.length)] }, cur)

def evRun {V : Type} (g : Eng V) (cur : List Nat) : List Ev → Eng V
  | [] => g
  | e :: es => evRun (evStep g cur e).1 (evStep g cur e).2 es

/-- `ScriptFunction::removeUnusuedScopes` of the main function (`ScriptFunction.cpp` 758–770), run at the start of
every `eval` (`compiler.cpp` 83): its block scopes are deleted with their symbols, and the table of local variables is
cut to the number of variables that are left. -/
def openEval {V : Type} (g : Eng V) : Eng V :=
  { g with dead := g.dead ++ g.blocks.flatten, blocks := [], locals := resize g.locals g.vars.length }

/-- The order of the walk in `compiler.cpp` 473–511: the variables of the main scope, then those of the block scopes. -/
def order {V : Type} (g : Eng V) : List Nat := g.vars ++ g.blocks.flatten

/-- `compiler_fill_lookup_local_variable` (`compiler.cpp` 496–511): `t` is the table of new positions; what is never
written stays as it was (uninitialised memory in the C++). -/
def table (pos : Nat → Nat) : List Nat → Nat → (Nat → Nat) → Nat → Nat
  | [], _, t => t
  | s :: r, i, t => table pos r (i + 1) (upd t (pos s) i)

/-- The new positions are written to the symbols (`compiler.cpp` 726–731). `ps` are pairs of a symbol and its new
position. -/
def setPos : List (Nat × Nat) → (Nat → Nat) → Nat → Nat
  | [], p => p
  | (s, i) :: r, p => setPos r (upd p s i)

/-- Reading this entry of the table of local variables as a `Symbol *` is undefined behaviour. -/
def bad (dead : List Nat) : Option Nat → Bool
  | none => true
  | some s => dead.contains s

/-- The part of `compiler_pop_and_compile_function` that sorts the variables (`compiler.cpp` 513–541, 576, 721–741).
The second component is the table that translates the positions in the instructions compiled so far (lines 671–700).
If the two counts differ nothing is sorted: the error set in line 527 is not looked at any more. -/
def sortVars {V : Type} (g : Eng V) : Out (Eng V × (Nat → Nat)) :=
  if (order g).map g.pos = List.range (order g).length then .ok (g, id)
  else if g.locals.length ≠ (order g).length then .ok (g, id)
  else if (order g).any (fun s => decide (g.locals.length ≤ g.pos s)) then .ub
  else
    let t := table g.pos (order g) 0 (fun _ => 0)
    let moved := (order g).map (fun s => (g.locals[g.pos s]?.getD none))
    if moved.any (bad g.dead) then .ub
    else
      .ok ({ g with
              locals := moved
              pos := setPos ((order g).filterMap (fun s =>
                (g.locals[g.pos s]?.getD none).map (fun y => (y, t (g.pos s))))) g.pos }, t)

/-- `ScriptEngine::eval`, compilation only (`compiler.cpp` 60–134). -/
def eval {V : Type} (g : Eng V) (es : List Ev) : Out (Eng V × (Nat → Nat)) :=
  sortVars (evRun (openEval g) [] es)

/-- `ScriptEngine::registerConstantInteger` and the like (`ScriptEngine.cpp` 1008–1060). -/
def constant {V : Type} (g : Eng V) (v : Option V) : Eng V :=
  let g1 := { register g with vars := g.vars ++ [g.fresh] }
  { g1 with stack := upd g1.stack g.locals.length v }

/-- `ScriptEngine::saveState` (`ScriptEngine.cpp` 1286–1296), variables only. -/
def save {V : Type} (g : Eng V) : Eng V := { g with ckpt := g.locals.length }

/-- `ScriptEngine::clear` (`ScriptEngine.cpp` 1131–1191 and 1230–1284), variables only. How many of the block scopes
survive `scope_factory->clear()` depends on how many scopes there were when the state was saved; here any number
`keep` may. -/
def clear {V : Type} (g : Eng V) (keep : Nat) : Out (Eng V) :=
  let gone := (g.blocks.drop keep).flatten
  if g.locals = [] then .ok { g with blocks := g.blocks.take keep, dead := g.dead ++ gone }
  else if (g.locals.drop g.ckpt).any (bad g.dead) then .ub
  else
    let found := (g.locals.drop g.ckpt).filterMap (fun y => y.filter (fun s => g.vars.contains s))
    if g.vars.length < found.length then .ub
    else
      .ok { g with
        stack := fun i => if g.ckpt ≤ i then none else g.stack i
        locals := resize g.locals g.ckpt
        vars := g.vars.take (g.vars.length - found.length)
        blocks := g.blocks.take keep
        dead := g.dead ++ found ++ gone }

/-- What the user does. -/
inductive Op (V : Type) where
  | eval (es : List Ev)
  /-- a registered constant -/
  | constant (v : Option V)
  /-- the running script assigns to the `k`-th global -/
  | write (k : Nat) (v : Option V)
  /-- the running script writes to a slot that belongs to no global -/
  | scratch (i : Nat) (v : Option V)
  | save
  | clear (keep : Nat)

def step {V : Type} (g : Eng V) : Op V → Out (Eng V)
  | .eval es =>
    match eval g es with
    | .ok (g', _) => .ok g'
    | .err => .err
    | .ub => .ub
  | .constant v => .ok (constant g v)
  | .write k v =>
    match g.vars[k]? with
    | some s => .ok { g with stack := upd g.stack (g.pos s) v }
    | none => .ok g
  | .scratch i v => .ok (if (g.vars.map g.pos).contains i then g else { g with stack := upd g.stack i v })
  | .save => .ok (save g)
  | .clear keep => clear g keep

def run {V : Type} (g : Eng V) : List (Op V) → Out (Eng V)
  | [] => .ok g
  | o :: os =>
    match step g o with
    | .ok g' => run g' os
    | .err => .err
    | .ub => .ub

/-- The value a script reads from the `k`-th global. -/
def read {V : Type} (g : Eng V) (k : Nat) : Option (Option V) := (g.vars[k]?).map (fun s => g.stack (g.pos s))

end Verif.Core.Globals
