import Verif.Module.EvalSyntax
/-
What `System::eval` must do.
-/
namespace Verif.EvalSpec
open Verif.Eval

/-- Running simple statements: the values that are returned, or the variables afterwards. -/
def simples : List Simple → List Val → List Val ⊕ List Val
  | [], vars => .inr vars
  | .expr _ _ :: ss, vars => simples ss vars
  | .set i e :: ss, vars => simples ss (vars.set i (e.val vars))
  | .call _ :: ss, vars => simples ss vars
  | .ret es :: _, vars => .inl (es.map (·.val vars))

/-- Running code: the values that it returns, `none` if it ends without `return`. -/
def run : List Stmt → List Val → Option (List Val)
  | [], _ => none
  | .one s :: ss, vars =>
    match simples [s] vars with
    | .inl vs => some vs
    | .inr vars => run ss vars
  | .ite c body :: ss, vars =>
    if (c.val vars).true? then
      match simples body vars with
      | .inl vs => some vs
      | .inr vars => run ss vars
    else run ss vars

/-- The `i`-th value that the caller gets from code with the outcome `r`: those behind the returned ones are `undefined`. -/
def value (r : Option (List Val)) (i : Nat) : Val := ((r.getD [])[i]?).getD .undef

end Verif.EvalSpec
