import Verif.Core.Scope
/-
A lexical specification of names, written without a scope tree: the scopes that are open, innermost
first, each with what has been declared in it so far. It shares only the events `Ev` with the model.
-/
namespace Verif.Core.Scope.Spec

inductive Kind where
  | type
  | var
  | fn (np : Nat)
  deriving DecidableEq, Repr

/-- A declaration: a name, what it declares, and which declaration of the script it is (they are numbered
in the order in which they are written). -/
structure Decl where
  name : String
  kind : Kind
  id : Nat
  deriving DecidableEq, Repr

/-- An open scope. `isFun`: the body of a function, or the script itself. `gone` lists the names declared
in blocks of the same function that were inside this scope and are closed already. -/
structure Frame where
  isFun : Bool
  decls : List Decl
  gone : List (String × Kind) := []
  deriving DecidableEq, Repr

def Frame.find (f : Frame) (x : String) : Option Decl := f.decls.find? (fun d => d.name == x)

def Frame.keys (f : Frame) : List (String × Kind) := f.decls.map (fun d => (d.name, d.kind))

/-- The parameters of a function: variables numbered from `n`. -/
def params : List String → Nat → List Decl
  | [], _ => []
  | x :: xs, n => ⟨x, .var, n⟩ :: params xs (n + 1)

/-- A function declared again in the same scope replaces the former one. -/
def declareFn (f : Frame) (x : String) (np n : Nat) : Frame :=
  match f.find x with
  | some _ => { f with decls := f.decls.map (fun d => if d.name = x then ⟨x, .fn np, n⟩ else d) }
  | none => { f with decls := f.decls ++ [⟨x, .fn np, n⟩] }

def declareLast (d : Decl) : List Frame → List Frame
  | [] => []
  | [f] => [{ f with decls := f.decls ++ [d] }]
  | f :: g :: r => f :: declareLast d (g :: r)

/-- The open scopes and the number of the next declaration after one more event. -/
def next (fs : List Frame) (n : Nat) : Ev → List Frame × Nat
  | .block => ({ isFun := false, decls := [] } :: fs, n)
  | .fn x args =>
    match fs with
    | [] => ([], n)
    | f :: r =>
      ({ isFun := true, decls := params args (n + 1) } :: declareFn f x args.length n :: r,
        n + 1 + args.length)
  | .close _ =>
    match fs with
    | f :: g :: r =>
      if f.isFun then (g :: r, n) else ({ g with gone := g.gone ++ f.keys ++ f.gone } :: r, n)
    | fs => (fs, n)
  | .var x =>
    match fs with
    | [] => ([], n)
    | f :: r => ({ f with decls := f.decls ++ [⟨x, .var, n⟩] } :: r, n + 1)
  | .type x => (declareLast ⟨x, .type, n⟩ fs, n + 1)

def start (ts : List String) : List Frame × Nat :=
  ([{ isFun := true, decls := ts.mapIdx (fun i t => ⟨t, .type, i⟩) }], ts.length)

/-- The open scopes after a script prefix. -/
def after (fs : List Frame × Nat) : List Ev → List Frame × Nat
  | [] => fs
  | e :: es => after (next fs.1 fs.2 e) es

/-- The declaration a name stands for: that of the innermost enclosing scope that declares it, going no
further than the body of the function the name is written in. -/
def lookup : List Frame → String → Option Decl
  | [], _ => none
  | f :: r, x =>
    match f.find x with
    | some d => some d
    | none => if f.isFun then none else lookup r x

/-- The declaration that the outermost scope has for a name. -/
def global : List Frame → String → Option Decl
  | [], _ => none
  | [f], x => f.find x
  | _ :: g :: r, x => global (g :: r) x

/-- The declaration a reader of the script expects: that of the innermost enclosing scope that declares
the name, whatever functions lie between. -/
def expected : List Frame → String → Option Decl
  | [], _ => none
  | f :: r, x =>
    match f.find x with
    | some d => some d
    | none => expected r x

/-- Some registered type has this name. -/
def typeName (fs : List Frame) (x : String) : Prop :=
  ∃ d : Decl, global fs x = some d ∧ d.kind = .type

/-- Two declarations of one name in the way of each other: always, except that functions with different
numbers of parameters are told apart when the number is given. -/
def clash (q : Option Nat) (k : Kind) : Prop :=
  match k with
  | .fn np => q = none ∨ q = some np
  | _ => True

/-- The names that blocks of the outermost scope, closed or still open, have declared. -/
def blockNames : List (String × Kind) → List Frame → List (String × Kind)
  | acc, [] => acc
  | acc, [f] => f.gone ++ acc
  | acc, f :: g :: r => blockNames (if f.isFun then [] else f.keys ++ f.gone ++ acc) (g :: r)

/-- A new name (of a variable, or of a function with `q` parameters) may be declared here: it is not the
name of a type, nothing of that name is visible from here in this function, and at the top level of a
function no closed block of that function has declared it either. -/
def free (fs : List Frame) (x : String) (q : Option Nat) : Prop :=
  ¬ typeName fs x ∧ lookup fs x = none ∧
    ∀ f r, fs = f :: r → f.isFun = true → ∀ k : Kind, (x, k) ∈ f.gone → ¬ clash q k

/-- The parameter names of one function are different from each other and from the type names. -/
def okParams (fs : List Frame) (args : List String) : Prop :=
  args.Nodup ∧ ∀ x ∈ args, ¬ typeName fs x

/-- When the compiler goes on after an event. -/
def Accepts (fs : List Frame) : Ev → Prop
  | .block => True
  | .close _ => 2 ≤ fs.length
  | .var x => free fs x none
  | .type x =>
    global fs x = none ∧ ∀ k : Kind, (x, k) ∉ blockNames [] fs
  | .fn x args =>
    (free fs x (some args.length) ∨
      ∃ (f : Frame) (r : List Frame) (d : Decl) (np : Nat),
        fs = f :: r ∧ f.find x = some d ∧ d.kind = .fn np) ∧
    okParams fs args

/-- When the outcome is undefined behaviour: a function gets a name that is visible from here in this
function, other than that of a function of this very scope. -/
def Undefined (fs : List Frame) : Ev → Prop
  | .fn x _ =>
    lookup fs x ≠ none ∧
      ¬ ∃ (f : Frame) (r : List Frame) (d : Decl) (np : Nat),
        fs = f :: r ∧ f.find x = some d ∧ d.kind = .fn np
  | _ => False

end Verif.Core.Scope.Spec
