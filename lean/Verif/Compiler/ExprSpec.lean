import Verif.Compiler.Expr
import Verif.Compiler.PrecedenceProps
/-
Specification for C26: the value of an expression by the evaluation rules of the language (left to right,
short-circuit), independent of instructions and jumps.
-/
namespace Verif.Comp
open Verif Verif.Vm

section
variable {X : Type} (S : Sem X)

mutual
/-- Value of an expression: operands from left to right; `&&` and `||` look at the right operand only if the left one does
not decide, and their left operand must be a boolean. -/
def evalEx : Ex → S.St → Out (S.Val × S.St)
  | .opd o, s => evalOpd o s
  | .bin op l r, s =>
    (evalEx l s).bind fun p =>
      match op with
      | .land =>
        match S.truth p.1 with
        | none => .err
        | some true => evalEx r p.2
        | some false => .ok (S.lit (.bool false), p.2)
      | .lor =>
        match S.truth p.1 with
        | none => .err
        | some true => .ok (S.lit (.bool true), p.2)
        | some false => evalEx r p.2
      | .inst =>
        match r with
        | .opd (.ty t) => S.inst t p.1 p.2
        | _ => .err
      | op => (evalEx r p.2).bind fun q => S.bin op p.1 q.1 q.2
def evalOpd : Opd → S.St → Out (S.Val × S.St)
  | .lit k, s => .ok (S.lit k, s)
  | .reg r, s => .ok (S.reg r s, s)
  | .glb x, s => S.glb x s
  | .ty t, s => .ok (S.ty t, s)
  | .app f args, s => (evalArgs args s).bind fun p => S.app f p.1 p.2
  | .par none t, s => evalSub t s
  | .par (some u) t, s => (evalSub t s).bind fun p => S.un u p.1 p.2
def evalSub : Sub → S.St → Out (S.Val × S.St)
  | .plain e, s => evalEx e s
  | .tern c a b, s =>
    (evalEx c s).bind fun p =>
      match S.truth p.1 with
      | none => .err
      | some true => evalSub a p.2
      | some false => evalSub b p.2
def evalArgs : Args → S.St → Out (List S.Val × S.St)
  | .nil, s => .ok ([], s)
  | .cons t rest, s => (evalSub t s).bind fun p => (evalArgs rest p.2).bind fun q => .ok (p.1 :: q.1, q.2)
end

/-- `code`, wherever it stands in a program and whatever is on the stack, pushes the value `ev` gives and continues behind
its last instruction - or stops with the error `ev` gives. -/
def Correct (code : List (Ins X)) (ev : S.St → Out (S.Val × S.St)) : Prop :=
  ∀ (pre post : List (Ins X)) (stk : List S.Val) (s : S.St),
    Does S (pre ++ code ++ post) ⟨pre.length, stk, s⟩ ((ev s).map fun p => ⟨pre.length + code.length, p.1 :: stk, p.2⟩)

/-- Binary operators and operands of an expression as a tree. -/
def exTree : Ex → Tree Opd
  | .opd o => .leaf o
  | .bin op l r => .node op (exTree l) (exTree r)

mutual
/-- The expression is written so that the documented grouping of its tokens is the one of the tree (always the case for the
tree read from a source text, `parse_grouped`), and `instanceof` is followed by a type name. -/
def WfEx : Ex → Prop
  | .opd o => WfOpd o
  | .bin .inst l r => WfEx l ∧ ∃ t, r = .opd (.ty t)
  | .bin _ l r => WfEx l ∧ WfEx r
def WfOpd : Opd → Prop
  | .app _ args => WfArgs args
  | .par _ t => WfSub t
  | _ => True
def WfSub : Sub → Prop
  | .plain e => Grouped (exTree e) ∧ WfEx e
  | .tern c a b => (Grouped (exTree c) ∧ WfEx c) ∧ WfSub a ∧ WfSub b
def WfArgs : Args → Prop
  | .nil => True
  | .cons t rest => WfSub t ∧ WfArgs rest
end

/-- C26 in full: every expression that is accepted is compiled correctly. -/
def ExprCorrect : Prop :=
  ∀ (t : Sub) (code : List (Ins X)), WfSub t → compSub S.fold t [] = some code → Correct S code (evalSub S t)

/-! ### The expressions for which it holds

`c ? a : b`, `a && b` and `a || b` join two paths at their end. The peephole optimiser does not know about it: it looks at the
last two instructions only. -/

/-- How the value of an operand comes about: a constant, a local variable, a type name, a join whose last path loads a constant
(`joinK`) or a local variable (`joinR`), or anything else. -/
inductive Shape where
  | const (k : Const)
  | reg (r : Nat)
  | type (t : Nat)
  | joinK
  | joinR
  | other
  deriving DecidableEq, Repr

/-- Shape of `c ? a : b` from the shape of `b`. -/
def Shape.join : Shape → Shape
  | .const _ => .joinK
  | .reg _ => .joinR
  | .type _ => .other
  | s => s

mutual
def shapeEx : Ex → Shape
  | .opd o => shapeOpd o
  | .bin op l r =>
    if op = .land ∨ op = .lor then .joinK
    else if op = .inst then .other
    else match shapeEx l, shapeEx r with
      | .const a, .const b => match S.fold op a b with | some k => .const k | none => .other
      | _, _ => .other
def shapeOpd : Opd → Shape
  | .lit k => .const k
  | .reg r => if r < 128 then .reg r else .other
  | .ty t => .type t
  | .par none t => shapeSub t
  | _ => .other
def shapeSub : Sub → Shape
  | .plain e => shapeEx e
  | .tern _ _ b => (shapeSub b).join
end

/-- The operand combinations an ordinary binary operator is compiled correctly for: the right operand is not a ternary that ends
in a local variable, a join is not followed by a constant or a local variable, and folding two constants gives the value the
operator has at run time (C25). -/
def PairOk (op : BOp) : Shape → Shape → Prop
  | _, .joinR => False
  | .joinK, .const _ => False
  | .joinK, .reg _ => False
  | .joinR, .const _ => False
  | .joinR, .reg _ => False
  | .const a, .const b => ∀ k, S.fold op a b = some k → ∀ s, S.bin op (S.lit a) (S.lit b) s = .ok (S.lit k, s)
  | _, _ => True

mutual
/-- No operator of the expression has a bad pair of operands. -/
def SafeEx : Ex → Prop
  | .opd o => SafeOpd o
  | .bin op l r => SafeEx l ∧ SafeEx r ∧ (op = .land ∨ op = .lor ∨ op = .inst ∨ PairOk S op (shapeEx S l) (shapeEx S r))
def SafeOpd : Opd → Prop
  | .app _ args => SafeArgs args
  | .par _ t => SafeSub t
  | _ => True
def SafeSub : Sub → Prop
  | .plain e => SafeEx e
  | .tern c a b => SafeEx c ∧ SafeSub a ∧ SafeSub b
def SafeArgs : Args → Prop
  | .nil => True
  | .cons t rest => SafeSub t ∧ SafeArgs rest
end

end
end Verif.Comp
