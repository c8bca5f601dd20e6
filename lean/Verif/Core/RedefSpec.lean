import Verif.Core.RedefSyntax
/-
What calls by name mean: there is one function of each name, the last that was defined. No code, positions, links or memories of calls.
-/
namespace Verif.Redef

/-- The body of each function. -/
abbrev Env := String → Option Ex

/-- `d` is defined, or defined again. -/
def Env.define (g : Env) (d : Def) : Env := fun x => if x = d.name then some d.body else g x

mutual
/-- The value of an expression with `n` steps: a call runs the body that the name has now. -/
def exS (lib : Lib) (g : Env) : Nat → List V → Ex → R V
  | 0, _, _ => .late
  | _ + 1, _, .lit v => .ok v
  | _ + 1, args, .par i => .ok (args.getD i .undef)
  | n + 1, args, .add a b =>
    (exS lib g n args a).bind fun v => (exS lib g n args b).bind fun w => v.plus w
  | n + 1, args, .ite c a b =>
    (exS lib g n args c).bind fun v => if v.test then exS lib g n args a else exS lib g n args b
  | n + 1, args, .call f as =>
    (asS lib g n args as).bind fun vs =>
    match g f with
    | none => .err
    | some body => exS lib g n vs body
  | n + 1, args, .native f as =>
    (asS lib g n args as).bind fun vs =>
    match lib.find f vs with
    | none => .err
    | some i => .ok (lib.run i vs)
def asS (lib : Lib) (g : Env) : Nat → List V → List Ex → R (List V)
  | 0, _, _ => .late
  | _ + 1, _, [] => .ok []
  | n + 1, args, a :: as =>
    (exS lib g n args a).bind fun v => (asS lib g n args as).bind fun vs => .ok (v :: vs)
end

mutual
/-- The names of script functions in an expression. -/
def Ex.names : Ex → List String
  | .lit _ => []
  | .par _ => []
  | .add a b => a.names ++ b.names
  | .ite c a b => c.names ++ (a.names ++ b.names)
  | .call f as => f :: namesAll as
  | .native _ as => namesAll as
def namesAll : List Ex → List String
  | [] => []
  | a :: as => a.names ++ namesAll as
end

/-- A script is accepted when it has no syntax error and the functions that its statements name are defined before, in this script or
an earlier one. (The functions that functions name may come later.) -/
def accepts (g : Env) : List Item → Bool
  | [] => true
  | .fn d :: is => accepts (g.define d) is
  | .stm e :: is => e.names.all (fun f => (g f).isSome) && accepts g is
  | .cut _ :: _ => false
  | .bad :: _ => false

/-- The functions and the statements of a script. -/
def defs : List Item → List Def
  | [] => []
  | .fn d :: is => d :: defs is
  | _ :: is => defs is

def stms : List Item → List Ex
  | [] => []
  | .stm e :: is => e :: stms is
  | _ :: is => stms is

/-- The functions after a script: a refused one changes nothing. -/
def after (g : Env) (is : List Item) : Env := if accepts g is then (defs is).foldl Env.define g else g

/-- The values of statements, until an error. -/
def runS (lib : Lib) (g : Env) (n : Nat) : List Ex → List V × R Unit
  | [] => ([], .ok ())
  | e :: es =>
    match exS lib g n [] e with
    | .late => ([], .late)
    | .err => ([], .err)
    | .ub => ([], .ub)
    | .ok v => (v :: (runS lib g n es).1, (runS lib g n es).2)

/-- What the host sees of scripts that follow each other. -/
def seen (lib : Lib) (n : Nat) : Env → List (List Item) → List Seen
  | _, [] => []
  | g, is :: ss =>
    (if accepts g is then .ran (runS lib (after g is) n (stms is)).1 (runS lib (after g is) n (stms is)).2 else .refused)
      :: seen lib n (after g is) ss

mutual
/-- The names of native functions in an expression. -/
def Ex.natives : Ex → List String
  | .lit _ => []
  | .par _ => []
  | .add a b => a.natives ++ b.natives
  | .ite c a b => c.natives ++ (a.natives ++ b.natives)
  | .call _ as => nativesAll as
  | .native f as => f :: nativesAll as
def nativesAll : List Ex → List String
  | [] => []
  | a :: as => a.natives ++ nativesAll as
end

/-- The native functions of a name exclude each other: arguments that can be converted to the parameters of one are found to be its
(without this see C39). -/
structure Lib.Apart (lib : Lib) : Prop where
  named : ∀ x vs i, lib.find x vs = some i → lib.owner i = x
  one : ∀ i vs, lib.fits i vs = true → lib.find (lib.owner i) vs = some i

/-- Scripts that define functions are accepted. -/
def Clean : Env → List (List Item) → Prop
  | _, [] => True
  | g, is :: ss => (accepts g is = true ∨ (defs is = [] ∧ ∀ f, .cut f ∉ is)) ∧ Clean (after g is) ss

/-- All functions that scripts define, one after another. -/
def allDefs (ss : List (List Item)) : List Def := ss.flatMap defs

/-- Functions that call native functions are defined once. -/
def NativeOnce (ds : List Def) : Prop :=
  ∀ d ∈ ds, d.body.natives ≠ [] → (ds.filter fun e => e.name == d.name).length = 1

end Verif.Redef
