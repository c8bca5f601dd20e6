import Verif.Vm.Container
/-
Model of a call of a script function: argument passing and default values (`src/vm/vm_call.cpp` 285-428), the
hand-over of returned values (`vm_call.cpp` 605-638, `RET` in `src/vm/vm_script_function.cpp` 360-398), and the
encoding of the argument count in the call instruction (`src/core/Instruction.h` 41-58).

Simplifications: reference counting is left out (see `Verif.Vm.Share`). The element kept by a `VarRefObject`
is represented by the address it points to: it is always an element with exactly the flag `PTR_STK`
(line 320 requires the flag, and the only producer, `ZS_VM_PUSH_STK_PTR`, sets no other).
-/
namespace Verif.Vm
open Verif

/-- `FunctionParam`, `src/core/function/ScriptFunctionParam.h`: `ref`, `...` and the default value. -/
structure Param where
  byRef : Bool := false
  varArgs : Bool := false
  dflt : Stk := mkUndefined
  deriving DecidableEq, Repr

/-- Memory with what argument passing also looks at: which string objects are program literals
(`SCRIPT_OBJECT_PROPERTY_CONSTANT`), the elements of the arrays it creates, and the addresses that the
allocator will return next (`fresh`; `room` = how many of them, further allocations are not described). -/
structure CallW extends World where
  konst : Word → Bool
  items : Word → List Stk
  fresh : Nat → Word
  room : Nat

/-- Use up one address of the allocator. -/
def CallW.tick (w : CallW) : CallW := { w with fresh := fun k => w.fresh (k + 1), room := w.room - 1 }

/-- A new string object with the text given by `StringScriptObject::set` (`StringScriptObject.cpp` 301-303). -/
def CallW.newStr (w : CallW) (t : List UInt8) : CallW :=
  { w.tick with
    obj := fun b => if b = w.fresh 0 then ⟨T_STRING_SO, setTextOf t⟩ else w.obj b
    konst := fun b => if b = w.fresh 0 then false else w.konst b }

/-- `ZS_NEW_OBJECT_VAR_REF`, `VarRefObject.cpp` 10-14: a new object referring to the variable at `p`. -/
def CallW.newRef (w : CallW) (p : Word) : CallW :=
  { w.tick with
    obj := fun b => if b = w.fresh 0 then ⟨T_VAR_REF, []⟩ else w.obj b
    refStk := fun b => if b = w.fresh 0 then p else w.refStk b }

/-- `ZS_NEW_ARRAY_SCRIPT_OBJECT`: a new empty array. -/
def CallW.newArr (w : CallW) : CallW :=
  { w.tick with
    obj := fun b => if b = w.fresh 0 then ⟨T_ARRAY_SO, []⟩ else w.obj b
    items := fun b => if b = w.fresh 0 then [] else w.items b }

/-- `ArrayScriptObject::pushStackElement`, `ArrayScriptObject.cpp` 105-107. (A literal string cannot arrive here: it
was replaced by a copy, `passVal`; so no string is allocated by `elementAssign` and the address it is offered does
not matter.) -/
def CallW.push (w : CallW) (arr : Word) (s : Stk) : CallW :=
  { w with items := fun b => if b = arr then w.items b ++ [(elementAssign w.toWorld w.konst (w.fresh 0) s).2] else w.items b }

/-- Conversion of an argument of a `ref` parameter, `vm_call.cpp` 310-334. -/
def passRef (w : CallW) (a : Stk) : Out (CallW × Stk) :=
  if isObjOf w.toMem T_VAR_REF a then .ok (w, a)
  else if has a.props P_PTR_STK then .ok (w.newRef a.value, ⟨w.fresh 0, P_OBJECT⟩)
  else .err

/-- Conversion of an argument of a by-value parameter, `vm_call.cpp` 335-361. -/
def passVal (w : CallW) (a : Stk) : CallW × Stk :=
  let a := if has a.props P_PTR_STK then w.stk a.value else a
  let a := if has a.props P_CONTAINER_SLOT then ⟨w.slot a.value, P_OBJECT⟩ else a
  let a := if isObjOf w.toMem T_VAR_REF a then ⟨w.refStk a.value, P_PTR_STK⟩ else a
  if has a.props P_OBJECT && ((w.obj a.value).typeId = T_STRING_SO && w.konst a.value) then
    (w.newStr (w.obj a.value).text, ⟨w.fresh 0, P_OBJECT⟩)
  else (w, a)

/-- Conversion of one argument, `vm_call.cpp` 308-361. -/
def passOne (w : CallW) (p : Param) (a : Stk) : Out (CallW × Stk) :=
  if p.byRef then passRef w a else .ok (passVal w a)

/-- The rounds of the loop once `var_args` is set, `vm_call.cpp` 363-364: every further argument is converted in
place and pushed into the array. -/
def passRest (w : CallW) (p : Param) (arr : Word) : List Stk → Out (CallW × List Stk)
  | [] => .ok (w, [])
  | a :: as =>
    (passOne w p a).bind fun (w1, a1) =>
      (passRest (w1.push arr a1) p arr as).map fun (w2, as2) => (w2, a1 :: as2)

/-- The loop over the arguments, `vm_call.cpp` 306-384, from round `i` on: the arguments and parameters still to
be handled. Reading past the last parameter would be `ub`; the `break` of line 379 prevents it. The result lists
what is in the places of these arguments afterwards. -/
def passArgs (w : CallW) (eff i : Nat) : List Param → List Stk → Out (CallW × List Stk)
  | _, [] => .ok (w, [])
  | [], _ :: _ => .ub
  | p :: ps, a :: as =>
    (passOne w p a).bind fun (w1, a1) =>
      if p.varArgs then
        let arr := w1.fresh 0
        (passRest (w1.newArr.push arr a1) p arr as).map fun (w2, as2) => (w2, ⟨arr, P_OBJECT⟩ :: as2)
      else if eff ≤ i + 1 then .ok (w1, a1 :: as)
      else (passArgs w1 eff (i + 1) ps as).map fun (w2, as2) => (w2, a1 :: as2)

/-- One default value, `vm_call.cpp` 392-425. `call` runs the function generated for a default expression that is not a
plain constant and gives its value. -/
def dfltOne (call : CallW → Word → Out (CallW × Stk)) (w : CallW) (p : Param) : Out (CallW × Stk) :=
  if p.dflt.props = P_UNDEFINED ∨ p.dflt.props = P_NULL ∨ p.dflt.props = P_INT ∨ p.dflt.props = P_BOOL ∨
      p.dflt.props = P_FLOAT then .ok (w, p.dflt)
  else if p.dflt.props = P_FUNCTION then call w p.dflt.value
  else .err

/-- The default values of the parameters without argument, `vm_call.cpp` 389-428. -/
def dflts (call : CallW → Word → Out (CallW × Stk)) (w : CallW) : List Param → Out (CallW × List Stk)
  | [] => .ok (w, [])
  | p :: ps => (dfltOne call w p).bind fun (w1, d) => (dflts call w1 ps).map fun (w2, ds) => (w2, d :: ds)

/-- `INSTRUCTION_GET_PARAMETER_COUNT`, `Instruction.h` 41 and 50-51: the argument count is kept in four bits. The
compiler writes it without a check (`compiler_expression_token_symbol.cpp` 615, 638). -/
def argCount (n : Nat) : Nat := n % 16

/-- The arguments that the called function is given: the topmost `argCount` elements of the operand stack
(`vm_call.cpp` 112-113). -/
def givenArgs (pushed : List Stk) : List Stk := pushed.drop (pushed.length - argCount pushed.length)

/-- What the variables of the parameters hold when the body starts: `vm_call.cpp` 296-428, then
`vm_script_function.cpp` 93-98 (places after the parameters are set to `undefined`, so surplus arguments are not
seen). `pushed` are the arguments as pushed on the operand stack. -/
def bindArgs (call : CallW → Word → Out (CallW × Stk)) (w : CallW) (ps : List Param) (pushed : List Stk) :
    Out (CallW × List Stk) :=
  let args := givenArgs pushed
  let passed : Out (CallW × List Stk) :=
    if 0 < args.length ∧ 0 < ps.length then passArgs w (min args.length ps.length) 0 ps args else .ok (w, args)
  passed.bind fun (w1, xs) =>
    (dflts call w1 (ps.drop args.length)).map fun (w2, ds) => (w2, (xs ++ ds).take ps.length)

/-- The parameters' variables in memory: the element of each is put at its address (`_stk_local_var + i`). -/
def place (w : CallW) : List Word → List Stk → CallW
  | p :: ps, s :: ss => { place w ps ss with stk := fun q => if q = p then s else (place w ps ss).stk q }
  | _, _ => w

/-- `LOAD_REF`, `vm_script_function.cpp` 505-507: how a `ref` parameter is read or assigned inside the function. Its
element is taken to be an object reference without a check. -/
def loadRef (w : CallW) (s : Stk) : Out Stk :=
  if isObjOf w.toMem T_VAR_REF s then .ok ⟨w.refStk s.value, P_PTR_STK⟩ else .ub

/-! ## Returned values -/

/-- One value at `RET`, `vm_script_function.cpp` 362-397: a literal string is replaced by a copy. -/
def retOne (w : CallW) (s : Stk) : CallW × Stk :=
  if has s.props P_OBJECT && ((w.obj s.value).typeId = T_STRING_SO && w.konst s.value) then
    (w.newStr (w.obj s.value).text, ⟨w.fresh 0, P_OBJECT⟩)
  else (w, s)

/-- All values at `RET`, from the topmost down. -/
def retAll (w : CallW) : List Stk → CallW × List Stk
  | [] => (w, [])
  | s :: ss =>
    let r := retAll w ss
    let q := retOne r.1 s
    (q.1, q.2 :: r.2)

/-- The hand-over of returned values, `vm_call.cpp` 605-638 (not for a call used as a statement). `mem` is the
operand stack, `start` the place of the first argument, `locals` the number of variables of the called function,
`cur` = `vm_stk_current` when it ended, `m` the number of values expected. The result is what is pushed for the
call, bottom first. -/
def handOver (mem : Nat → Stk) (start locals cur m : Nat) : List Stk :=
  let ret := start + locals
  let n : Int := (cur : Int) - ret
  let pad := ((m : Int) - n).toNat
  let mem1 : Nat → Stk := fun j => if cur ≤ j ∧ j < cur + pad then mkUndefined else mem j
  let n1 : Nat := (max n m).toNat
  (List.range m).map fun i => mem1 (ret + n1 - i - 1)

/-- End of a function: by `RET` with `vals` on its operand stack (`vm_script_function.cpp` 360-398), or by running off its
end (682-685: `vm_stk_current` is set back to the first variable). -/
def endCur (start locals : Nat) : Option (List Stk) → Nat
  | some vals => start + locals + vals.length
  | none => start

/-- The operand stack at the end of a function whose variables hold `vars`. -/
def endMem (start : Nat) (vars : List Stk) (vals : Option (List Stk)) : Nat → Stk := fun j =>
  ((vars ++ vals.getD [])[j - start]?).getD mkUndefined

/-- A call that expects `m` values, of a function with variables `vars` that ends with `vals` (`none` = without
`return`). -/
def callValues (start : Nat) (vars : List Stk) (vals : Option (List Stk)) (m : Nat) : List Stk :=
  handOver (endMem start vars vals) start vars.length (endCur start vars.length vals) m

/-- The operand stack of `l_0, …, l_{m-1} = f(…)` (`compiler_expression.cpp` 349-403): `undefined` for each
missing right side, the `m` values of the call, the destinations. -/
def assignCallStack (lefts : List Stk) (values : List Stk) : List Stk :=
  List.replicate (lefts.length - 1) mkUndefined ++ values ++ lefts

end Verif.Vm
