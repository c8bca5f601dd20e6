/-
Code given to `System::eval`: syntax shared by the model (`Verif/Module/Eval.lean`) and its specification
(`Verif/Module/EvalSpec.lean`).
-/
namespace Verif.Eval

/-- A value. -/
inductive Val where
  | undef
  | num (n : Int)
  deriving DecidableEq, Repr

/-- An operand: a number, or a variable (parameters first). -/
inductive Src where
  | lit (n : Int)
  | var (i : Nat)
  deriving DecidableEq, Repr

/-- A statement without a block: expressions as a statement (`e, es`), an assignment, a call whose value is not used, `return`. -/
inductive Simple where
  | expr (e : Src) (es : List Src)
  | set (i : Nat) (e : Src)
  | call (es : List Src)
  | ret (es : List Src)
  deriving DecidableEq, Repr

/-- A statement: a simple one, or `if(c) { body }`. -/
inductive Stmt where
  | one (s : Simple)
  | ite (c : Src) (body : List Simple)
  deriving DecidableEq, Repr

def Src.val (vars : List Val) : Src → Val
  | .lit n => .num n
  | .var i => (vars[i]?).getD .undef

/-- What `if` takes for true. -/
def Val.true? : Val → Bool
  | .undef => false
  | .num n => n ≠ 0

end Verif.Eval
