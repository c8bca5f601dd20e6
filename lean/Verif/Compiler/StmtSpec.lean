import Verif.Compiler.Stmt
import Verif.Compiler.ExprSpec
/-
Specification for C27, C28, C29 and C34: what a statement does by the rules of the language, independent of instructions,
jumps and the stack of open scopes.

The run of a statement may not end. `n` bounds the number of rounds of each loop: the result is `none` if some loop needs more,
so that a statement never ends if and only if its result is `none` for every `n`.
-/
namespace Verif.Comp
open Verif Verif.Vm

/-- How a statement ends. -/
inductive Outc (V : Type) where
  | normal
  | brk
  | cont
  | ret (vs : List V)
  deriving DecidableEq, Repr

section
variable (B : Base)

/-- Result of a statement: not known within the bound, or an error, or an outcome and a state. -/
abbrev Base.Res := Option (Out (Outc B.S.Val × B.S.St))

/-- Go on after an operation of the machine. -/
def andThen {α β : Type} (o : Out α) (f : α → Option (Out β)) : Option (Out β) :=
  match o with
  | .ok a => f a
  | .err => some .err
  | .ub => some .ub

/-- Go on after a statement. -/
def thenRes {α β : Type} (o : Option (Out α)) (f : α → Option (Out β)) : Option (Out β) :=
  match o with
  | none => none
  | some o => andThen o f

/-- Repeat until a round ends the loop with an outcome. -/
def rounds {O S : Type} (round : S → Option (Out (Option O × S))) : Nat → S → Option (Out (O × S))
  | 0, _ => none
  | n + 1, s =>
    thenRes (round s) fun p =>
      match p.1 with
      | none => rounds round n p.2
      | some o => some (.ok (o, p.2))

/-- What the end of the body means for the loop: `none` = go on. -/
def Outc.turn {V : Type} : Outc V → Option (Outc V)
  | .normal => none
  | .cont => none
  | .brk => some .normal
  | .ret vs => some (.ret vs)

/-- What the end of a clause means for the `switch`. -/
def Outc.leaveSwitch {V : Type} : Outc V → Outc V
  | .brk => .normal
  | o => o

/-- The boolean a condition must give. -/
def test {β : Type} (v : B.S.Val) (f : Bool → Option (Out β)) : Option (Out β) :=
  match B.S.truth v with
  | none => some .err
  | some b => f b

def runAct : Act → B.S.St → Out B.S.St
  | .asg o r e, s => (evalSub B.S e s).bind fun p => (B.store o (B.ptr r) p.1 p.2).map Prod.snd
  | .inc o r, s => (B.step o (B.ptr r) s).map Prod.snd
  | .eff e, s => (evalSub B.S e s).map Prod.snd

def runActs : List Act → B.S.St → Out B.S.St
  | [], s => .ok s
  | a :: rest, s => (runAct B a s).bind (runActs rest)

def Lab.val : Lab → B.S.St → Out (B.S.Val × B.S.St)
  | .lit k, s => .ok (B.S.lit k, s)
  | .reg r, s => .ok (B.S.reg r s, s)
  | .glb x, s => B.S.glb x s

/-- The values of a list of expressions, from left to right. -/
def evalList : List Sub → B.S.St → Out (List B.S.Val × B.S.St)
  | [], s => .ok ([], s)
  | e :: rest, s => (evalSub B.S e s).bind fun p => (evalList rest p.2).map fun q => (p.1 :: q.1, q.2)

/-- The number of the first clause whose label is equal to `v`. -/
def pick (v : B.S.Val) : Cases → B.S.St → Out (Option Nat × B.S.St)
  | .nil, s => .ok (none, s)
  | .cons none _ _ rest, s => (pick v rest s).map fun p => (p.1.map (· + 1), p.2)
  | .cons (some l) _ _ rest, s =>
    (l.val B s).bind fun p => (B.eq v p.1 p.2).bind fun q =>
      if q.1 then .ok (some 0, q.2) else (pick v rest q.2).map fun r => (r.1.map (· + 1), r.2)

/-- The number of the clause `default`. -/
def defaultNo : Cases → Option Nat
  | .nil => none
  | .cons none _ _ _ => some 0
  | .cons (some _) _ _ rest => (defaultNo rest).map (· + 1)

/-- Leave the scope `k`, if there is one, however the statement ends. -/
def leave (k : Nat) (vars : Bool) (r : B.Res) : B.Res :=
  r.map fun o => o.map fun p => (p.1, if vars then B.close k p.2 else p.2)

mutual
/-- The run of a statement from a state. -/
def runStm (n : Nat) : Stm → B.S.St → B.Res
  | .nil, s => some (.ok (.normal, s))
  | .seq a b, s =>
    thenRes (runStm n a s) fun p =>
      match p.1 with
      | .normal => runStm n b p.2
      | o => some (.ok (o, p.2))
  | .acts _ l, s => some ((runActs B l s).map fun s => (.normal, s))
  | .block k vars b, s => leave B k vars (runStm n b s)
  | .if1 c a, s =>
    andThen (evalSub B.S c s) fun p => test B p.1 fun
      | true => runStm n a p.2
      | false => some (.ok (.normal, p.2))
  | .if2 c a b, s =>
    andThen (evalSub B.S c s) fun p => test B p.1 fun
      | true => runStm n a p.2
      | false => runStm n b p.2
  | .while c k b, s =>
    rounds (fun s => andThen (evalSub B.S c s) fun p => test B p.1 fun
      | true => thenRes (runStm n b p.2) fun q => some (.ok (q.1.turn, B.close k q.2))
      | false => some (.ok (some .normal, p.2))) n s
  | .doWhile k b c, s =>
    rounds (fun s => thenRes (runStm n b s) fun q =>
      match q.1.turn with
      | some o => some (.ok (some o, B.close k q.2))
      | none => andThen (evalSub B.S c (B.close k q.2)) fun p => test B p.1 fun
        | true => some (.ok (none, p.2))
        | false => some (.ok (some .normal, p.2))) n s
  | .for ki vars _ init cond post k b, s =>
    leave B ki vars (andThen (runActs B init s) fun s =>
      rounds (fun s =>
        let body : B.S.St → Option (Out (Option (Outc B.S.Val) × B.S.St)) := fun s =>
          thenRes (runStm n b s) fun q =>
            match q.1.turn with
            | some o => some (.ok (some o, B.close k q.2))
            | none => some ((runActs B post (B.close k q.2)).map fun s => (none, s))
        match cond with
        | none => body s
        | some c => andThen (evalSub B.S c s) fun p => test B p.1 fun
          | true => body p.2
          | false => some (.ok (some .normal, p.2))) n s)
  | .forIn ki it rs c k b, s =>
    leave B ki true (andThen (evalSub B.S c s) fun p => andThen (B.itInit p.1 (B.ptr it) p.2) fun s =>
      rounds (fun s => andThen (B.itEnd (B.S.reg it s) s) fun p => test B p.1 fun
        | true => some (.ok (some .normal, p.2))
        | false =>
          andThen (B.itGet rs.length (B.S.reg it p.2) p.2) fun q =>
          andThen (B.storeN (rs.map B.ptr).reverse q.1 q.2) fun s =>
          thenRes (runStm n b s) fun q =>
            match q.1.turn with
            | some o => some (.ok (some o, B.close k q.2))
            | none => some ((B.itNext (B.S.reg it (B.close k q.2)) (B.close k q.2)).map fun s => (none, s))) n s)
  | .switch e cs, s =>
    andThen (evalSub B.S e s) fun p => andThen (pick B p.1 cs p.2) fun q =>
      match q.1.or (defaultNo cs) with
      | none => some (.ok (.normal, q.2))
      | some j => thenRes (runAt n j cs q.2) fun r => some (.ok (r.1.leaveSwitch, r.2))
  | .brk, s => some (.ok (.brk, s))
  | .cont, s => some (.ok (.cont, s))
  | .ret es, s => some ((evalList B es s).map fun p => (.ret p.1, p.2))
/-- The clauses from number `j` on, one after the other until one ends with `break`. -/
def runAt (n : Nat) : Nat → Cases → B.S.St → B.Res
  | _, .nil, s => some (.ok (.normal, s))
  | 0, .cons _ b brk rest, s =>
    thenRes (runStm n b s) fun p =>
      match p.1 with
      | .normal => if brk then some (.ok (.brk, p.2)) else runAt n 0 rest p.2
      | o => some (.ok (o, p.2))
  | j + 1, .cons _ _ _ rest, s => runAt n j rest s
end

/-! ### Runs of the machine -/

/-- The machine can make `n` steps. -/
inductive Runs (S : Sem SIns) (P : List SI) : Nat → Cfg S.Val S.St → Prop
  | zero (c) : Runs S P 0 c
  | step {n c i c'} (h : P[c.pc]? = some i) (e : exec S i c = .ok c') (rest : Runs S P n c') : Runs S P (n + 1) c

/-- C27 in full. The code of every function body that is accepted, started with an empty operand stack and the scope of the
function (`k`, if any) open, does what the statements say:
* if they end, the machine stops with the values they return (none at the end of the body) and the state they give, after
  leaving all scopes;
* if they fail, the machine stops with the same kind of failure;
* if some loop needs more than `n` rounds, the machine makes more than `n` steps. -/
def StmtCorrect (halt : Nat) : Prop :=
  ∀ (b : Stm) (lvl : Nat) (sc : List Nat) (code : List SI), sc.length + 1 ≤ lvl → compFun B.S.fold B.isCall lvl b = some code →
    code.length ≤ halt → ∀ (n : Nat) (s : B.S.St),
    match runStm B n b s with
    | none => Runs (B.mach 10 halt) code n ⟨0, [], (s, sc)⟩
    | some o => Does (B.mach 10 halt) code ⟨0, [], (s, sc)⟩ (o.map fun p =>
        ⟨halt, match p.1 with | .ret vs => vs.reverse | _ => [], (B.closeAll sc p.2, [])⟩)

/-! ### The statements for which it holds -/

mutual
/-- Contains a `break` or `continue` that leaves the statement (`sw`: inside a `switch` of the statement). -/
def jumps (sw : Bool) : Stm → Bool
  | .nil => false
  | .seq a b => jumps sw a || jumps sw b
  | .acts _ _ => false
  | .block _ _ b => jumps sw b
  | .if1 _ a => jumps sw a
  | .if2 _ a b => jumps sw a || jumps sw b
  | .while _ _ _ => false
  | .doWhile _ _ _ => false
  | .for .. => false
  | .forIn .. => false
  | .switch _ cs => jumpsC cs
  | .brk => !sw
  | .cont => true
  | .ret _ => false
def jumpsC : Cases → Bool
  | .nil => false
  | .cons _ b _ rest => jumps true b || jumpsC rest
end

mutual
/-- Instructions are generated for the statement. -/
def emits : Stm → Bool
  | .nil => false
  | .seq a b => emits a || emits b
  | .acts _ l => !l.isEmpty
  | .block _ vars b => vars || emits b
  | .switch _ cs => emitsC cs
  | _ => true
def emitsC : Cases → Bool
  | .nil => false
  | .cons _ b brk rest => emits b || (brk && !rest.isNil) || emitsC rest
end

def Cases.hasCase : Cases → Bool
  | .nil => false
  | .cons l _ _ rest => l.isSome || rest.hasCase

/-- The expression is one for which the code is correct (C26). -/
def GoodSub (e : Sub) : Prop := WfSub e ∧ SafeSub B.S e

def GoodAct : Act → Prop
  | .asg _ _ e => GoodSub B e
  | .inc _ _ => True
  | .eff e => GoodSub B e

def GoodActs (l : List Act) : Prop := ∀ a ∈ l, GoodAct B a

mutual
/-- The conditions of the theorem: expressions as in C26; no `break` or `continue` out of a block that declares variables; a
`for` without condition has no initialiser; a `switch` has a `case`, and a clause with a statement. -/
def SafeStm : Stm → Prop
  | .nil => True
  | .seq a b => SafeStm a ∧ SafeStm b
  | .acts _ l => GoodActs B l
  | .block _ vars b => SafeStm b ∧ (vars = true → jumps false b = false)
  | .if1 c a => GoodSub B c ∧ SafeStm a
  | .if2 c a b => GoodSub B c ∧ SafeStm a ∧ SafeStm b
  | .while c _ b => GoodSub B c ∧ SafeStm b
  | .doWhile _ b c => GoodSub B c ∧ SafeStm b
  | .for _ _ _ init cond post _ b =>
    GoodActs B init ∧ GoodActs B post ∧ SafeStm b ∧ (match cond with | none => init = [] | some c => GoodSub B c)
  | .forIn _ _ _ c _ b => GoodSub B c ∧ SafeStm b
  | .switch e cs => GoodSub B e ∧ SafeCases cs ∧ cs.hasCase = true ∧ emitsC cs = true
  | .brk => True
  | .cont => True
  | .ret es => ∀ e ∈ es, GoodSub B e
def SafeCases : Cases → Prop
  | .nil => True
  | .cons _ b _ rest => SafeStm b ∧ SafeCases rest
end

/-- A single call. -/
def isCallSub : Sub → Bool
  | .plain (.opd (.app f _)) => B.isCall f
  | _ => false

/-- The last instruction of the expression may be a call that only one path goes through: a call at the end of `c ? a : b`, `a && b`
or `a || b`. -/
def lastActClean (stmt : Bool) : Act → Prop
  | .eff e => isCallSub B e = true ∨ (stmt = true ∧ ∀ code f m, compSub (X := SIns) B.S.fold e [] = some code →
      code.getLast? = some (.app f m) → B.isCall f = false)
  | _ => True

def ActsClean (stmt : Bool) : List Act → Prop
  | [] => True
  | [a] => lastActClean B stmt a
  | _ :: rest => ActsClean stmt rest

mutual
/-- Nothing is left behind on the operand stack: a `switch` has a `default`, and expression statements end as above. -/
def CleanStm : Stm → Prop
  | .nil => True
  | .seq a b => CleanStm a ∧ CleanStm b
  | .acts _ l => ActsClean B true l
  | .block _ _ b => CleanStm b
  | .if1 _ a => CleanStm a
  | .if2 _ a b => CleanStm a ∧ CleanStm b
  | .while _ _ b => CleanStm b
  | .doWhile _ b _ => CleanStm b
  | .for _ _ _ init _ post _ b => ActsClean B false init ∧ ActsClean B false post ∧ CleanStm b
  | .forIn _ _ _ _ _ b => CleanStm b
  | .switch _ cs => (defaultNo cs).isSome = true ∧ CleanCases cs
  | .brk => True
  | .cont => True
  | .ret _ => True
def CleanCases : Cases → Prop
  | .nil => True
  | .cons _ b _ rest => CleanStm b ∧ CleanCases rest
end

end
end Verif.Comp
