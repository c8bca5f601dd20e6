import Verif.Compiler.Expr
/-
Code generation for statements and the instructions it uses: `src/compiler/compiler.cpp` 149-250 (blocks and scopes),
`compiler_keyword_conditional.cpp` (`if`, `switch`), `compiler_keyword_loop.cpp` (`while`, `do`, `for`, `for-in`, `break`,
`continue`), `compiler_keyword_function.cpp` 606-672 (`return`), `compiler_expression.cpp` 243-485 (expression statements),
and their execution `src/vm/vm_script_function.cpp` 104-701, `src/vm/vm.tcc` 33-76.

Simplifications
* an expression is compiled into a vector of its own and then appended; in the C++ code the condition of `if`, `while` and `for`
  goes directly into the vector of the function. The only place where the code generator looks behind the start of an
  expression is `compiler_two_last_instruction_are_constants`, and no instruction that can stand before a condition is a
  constant load except a bare constant as initialiser of a `for`;
* the targets of assignments and increments are local variables (other targets differ in the load only);
* labels of `case` are single loads;
* the loop that gives `break` and `continue` their offsets looks at `value_op1` of every instruction; here only at jumps;
* the load of a member function of an iterator (`LOAD_OBJECT_ITEM`, `vm_container.cpp` 140-151) replaces the object by the
  object and the function; here the function is represented by a second copy of the object.
-/
namespace Verif.Comp
open Verif Verif.Vm

/-- Instructions of statements. `rst` = property `RESET_STACK`. -/
inductive SIns where
  /-- `PUSH_STK_LOCAL` -/
  | addr (r : Nat)
  /-- `STORE` (one value), `ADD_ASSIGN`, `SUB_ASSIGN`, ... -/
  | store (o : Nat) (rst : Bool)
  /-- `STORE` with `n` values, `RESET_STACK` -/
  | storeN (n : Nat)
  /-- `PRE_INC`, `POST_INC`, `PRE_DEC`, `POST_DEC` -/
  | step (o : Nat) (rst : Bool)
  /-- a call with `RESET_STACK` -/
  | callR (f n : Nat)
  /-- `RESET_STACK` -/
  | reset
  /-- `PUSH_SCOPE`, `k` = the scope -/
  | push (k : Nat)
  /-- `POP_SCOPE` -/
  | pop
  /-- `JE_CASE` -/
  | jeCase (off : Int)
  /-- `JMP_CASE` -/
  | jmpCase (off : Int)
  /-- `JMP` with `value_op1 = JMP_BREAK` and `value_op2 = 0` -/
  | brk
  /-- `JMP` with `value_op1 = JMP_CONTINUE` and `value_op2 = 0` -/
  | cont
  /-- `IT_INIT` -/
  | itInit
  /-- `LOAD_OBJECT_ITEM` of `_end`, `_get` or `_next` -/
  | member
  /-- `MEMBER_CALL` of `_end`, one result -/
  | itEnd
  /-- `MEMBER_CALL` of `_get`, `n` results -/
  | itGet (n : Nat)
  /-- `MEMBER_CALL` of `_next`, `RESET_STACK` -/
  | itNext
  /-- `RET` -/
  | ret
  /-- `END_FUNCTION` -/
  | fin
  deriving DecidableEq, Repr

abbrev SI := Ins SIns

/-! ### Machine -/

/-- Operations the machine takes from elsewhere: those of expressions, stores, increments, `==`, iterators, and leaving a
scope. -/
structure Base where
  S : Sem Empty
  /-- the function call operators among `app` -/
  isCall : Nat → Bool
  /-- pointer to a local variable -/
  ptr : Nat → S.Val
  /-- operator, pointer, value; result: what stays on the stack -/
  store : Nat → S.Val → S.Val → S.St → Out (S.Val × S.St)
  /-- pointers (last one first) and values (top first) -/
  storeN : List S.Val → List S.Val → S.St → Out S.St
  step : Nat → S.Val → S.St → Out (S.Val × S.St)
  eq : S.Val → S.Val → S.St → Out (Bool × S.St)
  /-- container, pointer to the iterator variable -/
  itInit : S.Val → S.Val → S.St → Out S.St
  itEnd : S.Val → S.St → Out (S.Val × S.St)
  itGet : Nat → S.Val → S.St → Out (List S.Val × S.St)
  itGet_length : ∀ n v s p, itGet n v s = .ok p → p.1.length = n
  itNext : S.Val → S.St → Out S.St
  /-- `vm_pop_scope`, `vm.tcc` 33-76: the variables of the scope are released and become `undefined` -/
  close : Nat → S.St → S.St

/-- Leave scopes, innermost first. -/
def Base.closeAll (B : Base) : List Nat → B.S.St → B.S.St
  | [], s => s
  | k :: sc, s => B.closeAll sc (B.close k s)

section Machine
variable (B : Base)

/-- The scopes that are open (innermost first) besides the rest of the state. -/
abbrev Base.SSt := B.S.St × List Nat

abbrev Base.C := Cfg B.S.Val B.SSt

/-- An operation that does not look at the scopes. -/
def Base.keep {α : Type} (sc : List Nat) (o : Out (α × B.S.St)) : Out (α × B.SSt) := o.map fun p => (p.1, (p.2, sc))

/-- Execution of the instructions above, `vm_script_function.cpp` 104-701. `cap` = `ZS_SCOPE_MAX_INNER_SCOPES_FUNCTION`,
the length of the array of open scopes, which is not checked at run time (`vm_scope.h` 5-7). `RET` and `END_FUNCTION` leave
the loop (360-398, 673-701): all scopes are left and the instruction pointer becomes `halt`; the results are on the stack. -/
def Base.exec (cap halt : Nat) : SIns → B.C → Out B.C
  | .addr r, c => .ok ⟨c.pc + 1, B.ptr r :: c.stk, c.st⟩
  | .store o rst, c =>
    match c.stk with
    | p :: v :: rest => (B.store o p v c.st.1).map fun q => ⟨c.pc + 1, if rst then [] else q.1 :: rest, (q.2, c.st.2)⟩
    | _ => .ub
  | .storeN n, c =>
    if c.stk.length < 2 * n then .ub
    else (B.storeN (c.stk.take n) ((c.stk.drop n).take n) c.st.1).map fun s => ⟨c.pc + 1, [], (s, c.st.2)⟩
  | .step o rst, c =>
    match c.stk with
    | p :: rest => (B.step o p c.st.1).map fun q => ⟨c.pc + 1, if rst then [] else q.1 :: rest, (q.2, c.st.2)⟩
    | _ => .ub
  | .callR f n, c =>
    if c.stk.length < n then .ub
    else (B.S.app f (c.stk.take n).reverse c.st.1).map fun q => ⟨c.pc + 1, [], (q.2, c.st.2)⟩
  | .reset, c => .ok ⟨c.pc + 1, [], c.st⟩
  | .push k, c => if cap ≤ c.st.2.length then .ub else .ok ⟨c.pc + 1, c.stk, (c.st.1, k :: c.st.2)⟩
  | .pop, c =>
    match c.st.2 with
    | k :: sc => .ok ⟨c.pc + 1, c.stk, (B.close k c.st.1, sc)⟩
    | [] => .ub
  | .jeCase off, c =>
    match c.stk with
    | b :: a :: rest =>
      (B.eq a b c.st.1).map fun q =>
        if q.1 then ⟨((c.pc : Int) + off).toNat, [], (q.2, c.st.2)⟩ else ⟨c.pc + 1, a :: rest, (q.2, c.st.2)⟩
    | _ => .ub
  | .jmpCase off, c => .ok ⟨((c.pc : Int) + off).toNat, [], c.st⟩
  | .brk, c => .ok c
  | .cont, c => .ok c
  | .itInit, c =>
    match c.stk with
    | p :: v :: _ => (B.itInit v p c.st.1).map fun s => ⟨c.pc + 1, [], (s, c.st.2)⟩
    | _ => .ub
  | .member, c =>
    match c.stk with
    | v :: rest => .ok ⟨c.pc + 1, v :: v :: rest, c.st⟩
    | _ => .ub
  | .itEnd, c =>
    match c.stk with
    | _ :: v :: rest => (B.itEnd v c.st.1).map fun q => ⟨c.pc + 1, q.1 :: rest, (q.2, c.st.2)⟩
    | _ => .ub
  | .itGet n, c =>
    match c.stk with
    | _ :: v :: rest => (B.itGet n v c.st.1).map fun q => ⟨c.pc + 1, q.1 ++ rest, (q.2, c.st.2)⟩
    | _ => .ub
  | .itNext, c =>
    match c.stk with
    | _ :: v :: _ => (B.itNext v c.st.1).map fun s => ⟨c.pc + 1, [], (s, c.st.2)⟩
    | _ => .ub
  | .ret, c => .ok ⟨halt, c.stk, (B.closeAll c.st.2 c.st.1, [])⟩
  | .fin, c => .ok ⟨halt, [], (B.closeAll c.st.2 c.st.1, [])⟩

/-- The machine of `Expr.lean` with these instructions. -/
@[reducible] def Base.mach (cap halt : Nat) : Sem SIns where
  Val := B.S.Val
  St := B.SSt
  lit := B.S.lit
  reg r s := B.S.reg r s.1
  glb x s := B.keep s.2 (B.S.glb x s.1)
  ty := B.S.ty
  bin o a b s := B.keep s.2 (B.S.bin o a b s.1)
  un u a s := B.keep s.2 (B.S.un u a s.1)
  inst t a s := B.keep s.2 (B.S.inst t a s.1)
  app f vs s := B.keep s.2 (B.S.app f vs s.1)
  truth := B.S.truth
  truth_bool := B.S.truth_bool
  fold := B.S.fold
  ext := B.exec cap halt

end Machine

/-! ### Statements -/

/-- One expression of an expression statement. -/
inductive Act where
  /-- `x = e`, `x += e`, ... (`o` = which) -/
  | asg (o r : Nat) (e : Sub)
  /-- `x++`, `--x`, ... -/
  | inc (o r : Nat)
  /-- any other expression -/
  | eff (e : Sub)

/-- Label of a `case`. -/
inductive Lab where
  | lit (k : Const)
  | reg (r : Nat)
  | glb (x : Nat)

mutual
/-- `k`, `ki` are names of scopes. -/
inductive Stm where
  | nil
  | seq (a b : Stm)
  /-- expressions separated by `,`; `each` = declaration with initialisers (`var a=1,b=2`), where each is a statement of its own -/
  | acts (each : Bool) (l : List Act)
  /-- `{ b }`; `vars` = it declares variables -/
  | block (k : Nat) (vars : Bool) (b : Stm)
  | if1 (c : Sub) (a : Stm)
  | if2 (c : Sub) (a b : Stm)
  | while (c : Sub) (k : Nat) (b : Stm)
  | doWhile (k : Nat) (b : Stm) (c : Sub)
  /-- `for(init; cond; post){ b }` -/
  | for (ki : Nat) (vars each : Bool) (init : List Act) (cond : Option Sub) (post : List Act) (k : Nat) (b : Stm)
  /-- `for(rs in c){ b }`; `it` = the hidden iterator variable -/
  | forIn (ki it : Nat) (rs : List Nat) (c : Sub) (k : Nat) (b : Stm)
  | switch (e : Sub) (cs : Cases)
  | brk
  | cont
  | ret (es : List Sub)
/-- Clauses of a `switch`: `case l:` or `default:` (`none`), the statements, and whether a `break` ends them. -/
inductive Cases where
  | nil
  | cons (l : Option Lab) (b : Stm) (brk : Bool) (rest : Cases)
end

/-! ### Code generation -/

/-- One instruction at position `i` when `break` and `continue` get their offsets. -/
def resolveAt (b c : Option Nat) (i : Nat) : SI → SI
  | .ext .brk => match b with | some b => .jmp ((b : Int) - i) | none => .ext .brk
  | .ext .cont => match c with | some c => .jmp ((c : Int) - i) | none => .ext .cont
  | x => x

/-- Offsets of `break` and `continue`: `link_loop_break_continues`, `compiler_keyword_loop.cpp` 19-38, and
`compiler_keyword_conditional.cpp` 448-455. `b`, `c` = positions of the targets in the vector; `none` = not given an offset. -/
def resolve (b c : Option Nat) (code : List SI) : List SI := code.mapIdx (resolveAt b c)

section
variable (fold : BOp → Const → Const → Option Const) (call : Nat → Bool)

/-- The end of an expression statement that is not an assignment or increment, `compiler_expression.cpp` 467-485: a call
at the end is marked; otherwise `RESET_STACK` follows if `stmt` (`EVAL_EXPRESSION_RESET_STACK_LAST_LOAD`). -/
def resetLast (stmt : Bool) (code : List SI) : List SI :=
  match code.getLast? with
  | some (.app f n) => if call f then code.dropLast ++ [.ext (.callR f n)] else if stmt then code ++ [.ext .reset] else code
  | _ => if stmt then code ++ [.ext .reset] else code

/-- One expression; `rst` = it is the last one of the statement. -/
def compAct (stmt rst : Bool) : Act → Option (List SI)
  | .asg o r e => (compSub fold e []).map fun c => c ++ [.ext (.addr r), .ext (.store o rst)]
  | .inc o r => some [.ext (.addr r), .ext (.step o rst)]
  | .eff e => (compSub fold e []).map fun c => if rst then resetLast call stmt c else c

/-- An expression statement. -/
def compActs (stmt each : Bool) : List Act → Option (List SI)
  | [] => some []
  | a :: rest =>
    (compAct fold call stmt (each || rest.isEmpty) a).bind fun c => (compActs stmt each rest).map fun d => c ++ d

def Lab.ins : Lab → SI
  | .lit k => .loadK k
  | .reg r => .loadR r
  | .glb x => .loadG x

/-- The loads and `JE_CASE`s of a `switch`, `compiler_keyword_conditional.cpp` 420-440: `size` = number of instructions of all of
them, `i` = number before this one; the table holds the offset of each clause in the statements. -/
def caseCode (size : Nat) : Nat → List (Option Lab × Nat) → List SI
  | _, [] => []
  | i, (some l, off) :: rest => l.ins :: .ext (.jeCase ((off : Int) + (size + 1) - (i + 2) + 1)) :: caseCode size (i + 2) rest
  | i, (none, _) :: rest => caseCode size i rest

def caseCount : List (Option Lab × Nat) → Nat
  | [] => 0
  | (some _, _) :: rest => caseCount rest + 1
  | (none, _) :: rest => caseCount rest

def defaultOff : List (Option Lab × Nat) → Option Nat
  | [] => none
  | (some _, _) :: rest => defaultOff rest
  | (none, off) :: _ => some off

/-- `compiler_keyword_switch`, `compiler_keyword_conditional.cpp` 392-469. -/
def switchCode (cond : List SI) (tab : List (Option Lab × Nat)) (bodies : List SI) : List SI :=
  if 0 < bodies.length ∧ 0 < caseCount tab then
    let size := 2 * caseCount tab
    let jmp : SI := match defaultOff tab with
      | some off => .ext (.jmpCase ((off : Int) + 1))
      | none => .jmp ((bodies.length + (size + cond.length + 1) : Nat) - (size : Int) - cond.length)
    let code := cond ++ caseCode size 0 tab ++ [jmp] ++ bodies
    resolve (some code.length) none code
  else bodies

/-- The loop around a body: `idx` = position of the first instruction of `head` the jump at the end goes back to, `tail` = what
comes between the body and the jump back. -/
def loopCode (pre head : List SI) (k : Nat) (body tail : List SI) : List SI :=
  let front := pre ++ head ++ [.ext (.push k)] ++ body
  let code := front ++ [.ext .pop] ++ tail ++ [.jmp (-(((front.length + 1 + tail.length : Nat) : Int) - pre.length)), .ext .pop]
  resolve (some (code.length - 1)) (some front.length) code

/-- `compiler_check_scope`, `compiler.cpp` 161-181. -/
def inScope (k : Nat) (vars : Bool) (code : List SI) : List SI := if vars then .ext (.push k) :: code ++ [.ext .pop] else code

/-- Values of `return`. -/
def compList : List Sub → Option (List SI)
  | [] => some []
  | e :: rest => (compSub fold e []).bind fun c => (compList rest).map fun d => c ++ d

/-- A `case` follows directly. -/
def followed : Stm → Cases → Bool
  | .nil, .cons (some _) _ _ _ => true
  | _, _ => false
def Cases.isNil : Cases → Bool
  | .nil => true
  | .cons .. => false
/-- number of `default`s (285-294) -/
def defaults : List (Option Lab × Nat) → Nat
  | [] => 0
  | (none, _) :: rest => defaults rest + 1
  | (some _, _) :: rest => defaults rest

mutual
/-- One statement. `lvl` = `numInnerScopes()` of the scope around it, `inL`, `inS` = inside a loop / `switch`
(`parsing_loop`, `parsing_switch`). `none` = compile error.

* block: `compiler.cpp` 183-250; `if`: `compiler_keyword_conditional.cpp` 18-140;
* `while`: `compiler_keyword_loop.cpp` 100-196; `do`: 198-312; `for`: 314-853; `break`, `continue`: 40-98. -/
def compStm (lvl : Nat) (inL inS : Bool) : Stm → Option (List SI)
  | .nil => some []
  | .seq a b => (compStm lvl inL inS a).bind fun ca => (compStm lvl inL inS b).map fun cb => ca ++ cb
  | .acts each l => compActs fold call true each l
  | .block k vars b =>
    if 10 ≤ lvl then none else (compStm (lvl + 1) inL inS b).map fun cb => inScope k vars cb
  | .if1 c a =>
    (compSub fold c []).bind fun cc => (compStm lvl inL inS a).map fun ca =>
      cc ++ [.jnt ((ca.length : Int) + 1)] ++ ca
  | .if2 c a b =>
    (compSub fold c []).bind fun cc => (compStm lvl inL inS a).bind fun ca => (compStm lvl inL inS b).map fun cb =>
      cc ++ [.jnt ((ca.length : Int) + 2)] ++ ca ++ [.jmp ((cb.length : Int) + 1)] ++ cb
  | .while c k b =>
    if 10 ≤ lvl then none else
    (compSub fold c []).bind fun cc => (compStm (lvl + 1) true inS b).map fun cb =>
      loopCode [] (cc ++ [.jnt ((cb.length : Int) + 5)]) k cb []
  | .doWhile k b c =>
    if 10 ≤ lvl then none else
    (compStm (lvl + 1) true inS b).bind fun cb => (compSub fold c []).map fun cc =>
      let front := [.ext (.push k)] ++ cb
      let code := front ++ [.ext .pop] ++ cc ++ [.jt (-((front.length + 1 + cc.length : Nat) : Int)), .jmp 2, .ext .pop]
      resolve (some (code.length - 1)) (some front.length) code
  | .for ki vars each init cond post k b =>
    if 10 ≤ lvl + 1 then none else
    (compActs fold call false each init).bind fun ci =>
    (compStm (lvl + 2) true inS b).bind fun cb =>
    (compActs fold call false false post).bind fun cp =>
      match cond with
      | none => some (inScope ki vars (loopCode [] ci k cb cp))
      | some c => (compSub fold c []).map fun cc =>
          inScope ki vars (loopCode ci (cc ++ [.jnt ((cb.length : Int) + cp.length + 5)]) k cb cp)
  | .forIn ki it rs c k b =>
    if 10 ≤ lvl + 1 then none else
    (compSub fold c []).bind fun cc => (compStm (lvl + 2) true inS b).map fun cb =>
      let get := [.loadR it, .ext .member, .ext (.itGet rs.length)] ++ rs.map (fun r => .ext (.addr r)) ++ [.ext (.storeN rs.length)]
      let body := get ++ cb
      inScope ki true (loopCode (cc ++ [.ext (.addr it), .ext .itInit])
        [.loadR it, .ext .member, .ext .itEnd, .jt ((body.length : Int) + 3 + 5)] k body [.loadR it, .ext .member, .ext .itNext])
  | .switch e cs =>
    (compSub fold e []).bind fun ce => (compCases lvl inL 0 cs).bind fun p =>
      if defaults p.1 ≤ 1 then some (switchCode ce p.1 p.2) else none
  | .brk => if inL || inS then some [.ext .brk] else none
  | .cont => if inL then some [.ext .cont] else none
  | .ret es => (compList fold es).map fun c => c ++ [.ext .ret]
/-- The clauses of a `switch`, `compiler_keyword_conditional.cpp` 231-381: the offset of each clause in the statements, and the
statements. A `break` before the closing brace emits nothing; `default` needs a `break` unless a `case` follows directly. -/
def compCases (lvl : Nat) (inL : Bool) (off : Nat) : Cases → Option (List (Option Lab × Nat) × List SI)
  | .nil => some ([], [])
  | .cons l b brk rest =>
    if l.isNone ∧ brk = false ∧ followed b rest = false then none else
    (compStm lvl inL true b).bind fun cb =>
      let cb' := cb ++ (if brk && !rest.isNil then [.ext .brk] else [])
      (compCases lvl inL (off + cb'.length) rest).map fun p => ((l, off) :: p.1, cb' ++ p.2)
end

/-- A function body: `compiler.cpp` 252-330 and the end instruction added at 565-570. -/
def compFun (lvl : Nat) (b : Stm) : Option (List SI) := (compStm fold call lvl false false b).map fun c => c ++ [.ext .fin]
end

end Verif.Comp
