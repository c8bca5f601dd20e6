import Verif.Common
/-
The tables of functions and types under `saveState` and `clear` (`ScriptEngine.cpp` 1230–1326,
`core/function/ScriptFunctionsFactory.cpp`, `core/type/ScriptTypesFactory.cpp` 360–375,
`core/function/ScriptFunction.cpp` 614–700 and 772–900). Global variables are in `Core/Globals.lean`.

Simplifications, also repeated at the definitions:
* a function object and the symbol that stands for it are made together and share one number, never used again; `dead`
  lists those that are deleted;
* the code of a function is a number (`code`) and the list of the functions it calls;
* calls are the only references from code to the tables (references to globals and types behave in the same way).
-/
namespace Verif.Core.Checkpoint

/-- `ScriptFunction`, with the calls in its code: the name called and the symbol the instruction is bound to, if the
name was found. -/
structure Fn where
  id : Nat
  name : String
  code : Nat
  calls : List (String × Option Nat) := []
  deriving DecidableEq, Repr

/-- `ScriptType`: its name and the functions its scope holds. -/
structure Ty where
  name : String
  members : List Nat := []
  deriving DecidableEq, Repr

structure Eng where
  /-- `ScriptFunctionsFactory::script_functions` -/
  table : List Fn := []
  /-- `main_scope->symbol_functions` -/
  funs : List Nat := []
  /-- `ScriptTypesFactory::script_types`, and `main_scope->symbol_types` at the same positions -/
  types : List Ty := []
  /-- `functions_with_unresolved_symbols` -/
  pending : List Nat := []
  dead : List Nat := []
  fresh : Nat := 0
  /-- the three checkpoints -/
  ckTable : Nat := 0
  ckFuns : Nat := 0
  ckTypes : Nat := 0
  deriving DecidableEq, Repr

def find (g : Eng) (i : Nat) : Option Fn := g.table.find? (fun f => f.id == i)

/-- `main_scope->getSymbol(name)` among the functions: the first match. -/
def byName (g : Eng) (x : String) : Option Nat :=
  g.funs.find? (fun i => match find g i with | some f => f.name == x | none => false)

/-- The body of the loop of `ScriptFunction::linkUnresolvedSymbols` (772–900): a call not bound yet is looked up. -/
def bindCall (g : Eng) (c : String × Option Nat) : String × Option Nat :=
  match c.2 with
  | some i => (c.1, some i)
  | none => (c.1, byName g c.1)

/-- `ScriptFunction::linkUnresolvedSymbols` (772–900). -/
def linkFn (g : Eng) (f : Fn) : Fn := { f with calls := f.calls.map (bindCall g) }

/-- `ScriptEngine::link` (1316–1326): only the functions of the list are looked at, and those that are complete leave
it. -/
def link (g : Eng) : Eng :=
  { g with
    table := g.table.map (fun f => if g.pending.contains f.id then linkFn g f else f)
    pending := g.pending.filter (fun i => match find g i with
      | some f => (linkFn g f).calls.any (fun c => c.2 == none)
      | none => false) }

/-- A script function `x` of the top level (`ScriptFunction::registerLocalFunction` 614–700 and
`ScriptFunctionsFactory::newFunction`): a function of that name is overwritten in place, otherwise a new one is made.
Its calls are to be linked (`ScriptEngine::addUnresolvedSymbol` 1309–1314). -/
def define (g : Eng) (x : String) (code : Nat) (calls : List String) : Eng :=
  let cs := calls.map (fun c => (c, none))
  match byName g x with
  | some i =>
    { g with
      table := g.table.map (fun f => if f.id = i then { f with code := code, calls := cs } else f)
      pending := if g.pending.contains i then g.pending else g.pending ++ [i] }
  | none =>
    { g with
      table := g.table ++ [⟨g.fresh, x, code, cs⟩]
      funs := g.funs ++ [g.fresh]
      pending := g.pending ++ [g.fresh]
      fresh := g.fresh + 1 }

inductive Op where
  /-- `eval` of a script that defines these functions (name, code, names of the functions called) -/
  | script (ds : List (String × Nat × List String))
  /-- `registerFunction` -/
  | native (x : String) (code : Nat)
  /-- `registerType`, or `class x{…}` without members -/
  | type (x : String)
  /-- `registerMemberFunction`, or `x::f(){…}`, for the `t`-th type -/
  | member (t : Nat) (f : String) (code : Nat)
  /-- `saveState` -/
  | save
  /-- `clear` -/
  | clear
  deriving DecidableEq, Repr

def step (g : Eng) : Op → Eng
  | .script ds => link (ds.foldl (fun g d => define g d.1 d.2.1 d.2.2) g)
  | .native x c =>
    { g with table := g.table ++ [⟨g.fresh, x, c, []⟩], funs := g.funs ++ [g.fresh], fresh := g.fresh + 1 }
  | .type x => { g with types := g.types ++ [⟨x, []⟩] }
  | .member t f c =>
    { g with
      table := g.table ++ [⟨g.fresh, f, c, []⟩]
      types := g.types.modify t (fun y => { y with members := y.members ++ [g.fresh] })
      fresh := g.fresh + 1 }
  -- `ScriptEngine::saveState` 1286–1296; the factories note the last index to keep
  | .save => { g with ckTable := g.table.length, ckFuns := g.funs.length, ckTypes := g.types.length }
  -- `ScriptEngine::clear` 1230–1284, `ScriptFunctionsFactory::clear`, `ScriptTypesFactory::clear`
  | .clear =>
    { g with
      dead := g.dead ++ (g.table.drop g.ckTable).map Fn.id
      table := g.table.take g.ckTable
      funs := g.funs.take g.ckFuns
      types := g.types.take g.ckTypes
      pending := [] }

def run (g : Eng) (os : List Op) : Eng := os.foldl step g

end Verif.Core.Checkpoint
