import Verif.Compiler.Access
/-
C68: what an expression with accesses and calls means. From left to right; each access applies to the value of what stands before it. The
arguments of a call are evaluated before it is made; the name called is looked up when it is made.
-/
namespace Verif.Comp.Acc
open Verif

section
variable (W : World)

mutual
def evalE : E W.V → W.St → Out (W.V × W.St)
  | .lit v, s => .ok (v, s)
  | .post x, s => W.post x s
  | .bin o a b, s => (evalE a s).bind fun p => (evalE b p.2).bind fun q => W.bin o p.1 q.1 q.2
  | .var x (.call args rest), s => (evalArgs args s).bind fun p => (W.callFun (W.var x p.2) p.1 p.2).bind fun q => evalAccs rest q.1 q.2
  | .var x as, s => evalAccs as (W.var x s) s
  | .this k (.call args rest), s => (evalArgs args s).bind fun p => (W.callThis k p.1 p.2).bind fun q => evalAccs rest q.1 q.2
  | .this k as, s => (W.this k s).bind fun q => evalAccs as q.1 q.2
  | .super args as, s => (evalArgs args s).bind fun p => (W.callSuper p.1 p.2).bind fun q => evalAccs as q.1 q.2
/-- Accesses to the value `v`. -/
def evalAccs : Accs W.V → W.V → W.St → Out (W.V × W.St)
  | .nil, v, s => .ok (v, s)
  | .fld n (.call args rest), v, s =>
    match W.member v n s with
    | none => .err
    | some (.method m) => (evalArgs args s).bind fun p => (W.callMeth m v p.1 p.2).bind fun q => evalAccs rest q.1 q.2
    | some (.data f) => if W.isFun f then (evalArgs args s).bind fun p => (W.callFun f p.1 p.2).bind fun q => evalAccs rest q.1 q.2 else .err
    | some .missing => .err
  | .fld n rest, v, s =>
    match W.member v n s with
    | none => .err
    | some (.method m) => evalAccs rest (W.bind v m s).1 (W.bind v m s).2
    | some (.data w) => evalAccs rest w s
    | some .missing => evalAccs rest W.undef s
  | .idx e rest, v, s => (evalE e s).bind fun p => (W.index v p.1 p.2).bind fun q => evalAccs rest q.1 q.2
  | .call args rest, v, s => (evalArgs args s).bind fun p => (W.callFun v p.1 p.2).bind fun q => evalAccs rest q.1 q.2
def evalArgs : Args W.V → W.St → Out (List W.V × W.St)
  | .nil, s => .ok ([], s)
  | .cons e rest, s => (evalE e s).bind fun p => (evalArgs rest p.2).map fun q => (p.1 :: q.1, q.2)
end

/-- C68 in full: the code of an expression puts its value on the stack, and leaves what was on the stack as it was. -/
def AccessesCorrect : Prop :=
  ∀ (e : E W.V) (stk : List W.Elem) (s : W.St), run W (compE e) (stk, s) = (evalE W e s).map fun p => (.val p.1 :: stk, p.2)

end

/-! ### Restrictions of the partial theorem -/

section
variable {V : Type}

/-- A variable or a literal. -/
def E.still : E V → Bool
  | .lit _ => true
  | .var _ .nil => true
  | _ => false

def E.bare : E V → Bool
  | .var _ .nil => true
  | _ => false

def Args.still : Args V → Bool
  | .nil => true
  | .cons e rest => e.still && rest.still

/-- An argument that is just a variable is followed by variables and literals only. -/
def Args.ordered : Args V → Bool
  | .nil => true
  | .cons e rest => (!e.bare || rest.still) && rest.ordered

def Accs.calls : Accs V → Bool
  | .nil => false
  | .fld _ rest => rest.calls
  | .idx _ rest => rest.calls
  | .call _ _ => true

mutual
/-- No call of an element or of a result, no second call after `super(..)`, less than 16 arguments, and the order above. -/
def SafeE : E V → Prop
  | .lit _ => True
  | .post _ => True
  | .bin _ a b => SafeE a ∧ SafeE b
  | .var _ as => SafeAccs true as
  | .this _ as => SafeAccs true as
  | .super args as => SafeArgs args ∧ args.length < 16 ∧ args.ordered = true ∧ SafeAccs false as ∧ as.calls = false
def SafeAccs (callable : Bool) : Accs V → Prop
  | .nil => True
  | .fld _ rest => SafeAccs true rest
  | .idx e rest => SafeE e ∧ SafeAccs false rest
  | .call args rest => callable = true ∧ SafeArgs args ∧ args.length < 16 ∧ args.ordered = true ∧ SafeAccs false rest
def SafeArgs : Args V → Prop
  | .nil => True
  | .cons e rest => SafeE e ∧ SafeArgs rest
end
end
end Verif.Comp.Acc
