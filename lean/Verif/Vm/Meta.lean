import Verif.Core.Types
/-
Model of operators on class objects and of member properties (`src/vm/vm_call_metamethod.cpp`, `src/vm/vm_call.cpp`
`vm_inner_call`, the setter part of `src/vm/vm_store.cpp`, the property part of `src/vm/vm_container.cpp`,
`src/core/MetamethodHelper.cpp`, `src/core/MetamethodMembers.cpp`) over the cells of the operand stack.

The stack is a total function from positions to values, with the position of the next free cell. Cells at and above that
position keep what was last written there: reading one of them is reading stale memory, which is how arguments that were
never pushed and results that were never returned show up.

Not modelled: native objects (`vm_find_native_function`), strings, arrays and plain objects on the left of `+=`
(`vm_call_metamethod.cpp` 281-296), share counts, the operators on numbers tried before any of this, and the end of the stack.
-/
namespace Verif.Meta
open Verif Verif.Types

/-- What the operators need to know of values and bodies. `body k this args s` is what the script function with body `k`
returns (all the values of its `return`, none when it has none) and the state it leaves; `locals k` is the length of its
`local_variables`, parameters included; `cls` is the class of an object; `nothing` holds of `undefined` and `null`;
`concat` is the concatenation of strings, arrays and objects that `+` tries first (`vm_call_metamethod.cpp` 37-71). -/
structure World where
  V : Type
  St : Type
  undef : V
  nothing : V → Bool
  cls : V → Option Nat
  concat : V → V → Option V
  locals : Nat → Nat
  body : Nat → Option V → List V → St → Out (List V × St)

/-- The operand stack, the position of `vm_stk_current` and everything else. -/
structure Mach (W : World) where
  mem : Nat → W.V
  cur : Nat
  st : W.St

variable {W : World}

/-- Writes one cell. -/
def put (mem : Nat → W.V) (i : Nat) (v : W.V) : Nat → W.V := fun j => if j = i then v else mem j

/-- `*vm_stk_current++ = v`. -/
def push (m : Mach W) (v : W.V) : Mach W := { m with mem := put m.mem m.cur v, cur := m.cur + 1 }

/-- The cells from `b` on that hold the values of a `return`. -/
def puts (mem : Nat → W.V) (b : Nat) : List W.V → Nat → W.V
  | [] => mem
  | v :: vs => puts (put mem b v) (b + 1) vs

/-- `vm_execute_script_function` with the frame at `b` (`vm_script_function.cpp` 9-100, `vm.tcc` 33-75): the parameters are
the cells from `b` on, whatever they hold; when it ends every local is `undefined` again and the values returned lie after
the locals. -/
def execute (W : World) (f : Fn) (this : Option W.V) (b : Nat) (m : Mach W) : Out (Mach W) :=
  (W.body f.code this ((List.range f.params.length).map fun i => m.mem (b + i)) m.st).map fun r =>
    { mem := puts (fun j => if b ≤ j ∧ j < b + W.locals f.code then W.undef else m.mem j) (b + W.locals f.code) r.1
      cur := b + W.locals f.code + r.1.length
      st := r.2 }

/-! ### Operators that do not change their operands, `vm_call_metamethod` -/

/-- The operators called with two operands, `MetamethodHelper::isMetamethodStatic`, `MetamethodHelper.cpp` 134-160. -/
inductive Bin where
  | equ | nequ | lt | lte | gt | gte | add | sub | div | mul | mod | and | or | xor | shl | shr
  deriving DecidableEq, Repr

/-- `getMetamethodOperatorName`, `MetamethodHelper.cpp` 9-52. -/
def Bin.text : Bin → String
  | .equ => "==" | .nequ => "!=" | .lt => "<" | .lte => "<=" | .gt => ">" | .gte => ">="
  | .add => "+" | .sub => "-" | .div => "/" | .mul => "*" | .mod => "%"
  | .and => "&" | .or => "|" | .xor => "^" | .shl => "<<" | .shr => ">>"

/-- `getMetamethodSymbolName`, `MetamethodHelper.cpp` 54-101. -/
def Bin.sym : Bin → String
  | .equ => "_equ" | .nequ => "_nequ" | .lt => "_lt" | .lte => "_lte" | .gt => "_gt" | .gte => "_gte"
  | .add => "_add" | .sub => "_sub" | .div => "_div" | .mul => "_mul" | .mod => "_mod"
  | .and => "_and" | .or => "_or" | .xor => "_xor" | .shl => "_shl" | .shr => "_shr"

/-- Which operand's class is asked, `vm_call_metamethod.cpp` 81-87: the first one if it is an object, else the second. -/
def receiver (W : World) (a b : W.V) : Option Nat :=
  match W.cls a with
  | some c => some c
  | none => W.cls b

/-- The result of a call whose frame starts at `m.cur`, `vm_call_metamethod.cpp` 198-213: no value returned is an error, else
the first returned value is left at `m.cur`. -/
def result (m m' : Mach W) (locals : Nat) : Out (Mach W) :=
  if m'.cur = m.cur + locals then .err
  else .ok (push { m' with cur := m.cur } (m'.mem (m.cur + locals)))

/-- The call of a static operator of class `c`, `vm_call_metamethod.cpp` 107-215. -/
def callStatic (W : World) (g : Reg) (c : Nat) (n : String) (a b : W.V) (m : Mach W) : Out (Mach W) :=
  match lookup g c n with
  | none => .err
  | some s =>
    if s.fn.static then
      (execute W s.fn none m.cur (push (push m a) b)).bind fun m' => result m m' (W.locals s.fn.code)
    else .err

/-- `vm_call_metamethod` for a static operator, both operands popped, `vm_call_metamethod.cpp` 6-215. -/
def binary (W : World) (g : Reg) (o : Bin) (a b : W.V) (m : Mach W) : Out (Mach W) :=
  match (if o = .add then W.concat a b else none) with
  | some v => .ok (push m v)
  | none =>
    match receiver W a b with
    | none => .err
    | some c => callStatic W g c o.sym a b m

/-- The operators called on their only operand and `in`, `MetamethodHelper.cpp` 103-132: `! - ~` take no argument, `in` one. -/
inductive Un where
  | not | neg | bwc | in_ (x : W.V)

/-- `getMetamethodSymbolName`, `MetamethodHelper.cpp` 63-67, 97. -/
def Un.sym : Un (W := W) → String
  | .not => "_not" | .neg => "_neg" | .bwc => "_bwc" | .in_ _ => "_in"

/-- `vm_call_metamethod` for a member operator on `a`, operands popped, `vm_call_metamethod.cpp` 76-215. -/
def unary (W : World) (g : Reg) (o : Un (W := W)) (a : W.V) (m : Mach W) : Out (Mach W) :=
  match W.cls a with
  | none => .err
  | some c =>
    match lookup g c o.sym with
    | none => .err
    | some s =>
      if s.fn.static then .err
      else
        let m0 := match o with
          | .in_ x => push m x
          | _ => m
        (execute W s.fn (some a) m.cur m0).bind fun m' => result m m' (W.locals s.fn.code)

/-! ### Operators that change their operand -/

/-- The functions a class keeps for an assignment operator or `++`, `--` (`ScriptType::metamethod_members`): those registered
on the class itself (`ScriptType.cpp` 385-585). A script class gets its base's functions without passing there
(`ScriptTypesFactory.cpp` 456-535), so these have another owner. -/
def members (g : Reg) (c : Nat) (n : String) : List Sym :=
  match g[c]? with
  | none => []
  | some ty => ty.funs.filter fun s => s.name == n && s.fn.owner == c

/-- `vm_call_metamethod_set` on a class object with the right operand left at `m.cur`, `vm_call_metamethod.cpp` 299-402:
the result is the object. A script class has at most one function of a name (`ScriptType.cpp` 340-352), so the branch for
several is left out. -/
def compound (W : World) (g : Reg) (n : String) (a : W.V) (m : Mach W) : Out (Mach W) :=
  if W.nothing (m.mem m.cur) then .err
  else match W.cls a with
    | none => .err
    | some c =>
      match members g c n with
      | [] => .err
      | s :: _ => (execute W s.fn (some a) m.cur m).map fun m' => push { m' with cur := m.cur } a

/-- `vm_call_metamethod_operation_pre_post` on a class object, operand popped, `vm_call_metamethod.cpp` 409-468 and
`vm_call.cpp` 61-75: the cell after the locals is the result, whether or not anything was returned. -/
def bump (W : World) (g : Reg) (n : String) (a : W.V) (m : Mach W) : Out (Mach W) :=
  match W.cls a with
  | none => .err
  | some c =>
    match members g c n with
    | [] => .err
    | s :: _ => (execute W s.fn (some a) m.cur m).map fun m' =>
        push { m' with cur := m.cur } (m'.mem (m.cur + W.locals s.fn.code))

/-- What an assignment did: called the `_set` of the object held by the variable, or replaced what it holds. -/
inductive Stored (W : World) where
  | called (m : Mach W)
  | replaced (v : W.V)

/-- `vm_store` of `v` into a variable that holds `a`, `vm_store.cpp` 71-77, 90-215: the `_set` of a class object is called
with the value one cell above the stack, else the variable gets the value. -/
def store (W : World) (g : Reg) (a v : W.V) (m : Mach W) : Out (Stored W) :=
  match (W.cls a).map fun c => members g c "_set" with
  | some (s :: _) =>
    (execute W s.fn (some a) (m.cur + 1) { m with mem := put m.mem (m.cur + 1) v }).map fun m' =>
      .called { m' with cur := m.cur }
  | _ => .ok (.replaced v)

/-! ### Member properties -/

/-- `MemberProperty` with its `metamethod_members` (`MetamethodMembers.h`): the getter and the function of each assignment
operator (`_set` included), `++` and `--`. The compiler checks that a getter takes no parameter and a setter one
(`compiler_keyword_class.cpp` 390-455). -/
structure Property where
  getter : Option Fn
  sets : String → Option Fn
  bumps : String → Option Fn

/-- `vm_inner_call` without the result pushed, `vm_call.cpp` 7-79: the stack is back where it was, the caller reads the cell
there. -/
def inner (W : World) (f : Fn) (this : W.V) (m : Mach W) : Out (Mach W) :=
  (execute W f (some this) m.cur m).map fun m' => { m' with cur := m.cur }

/-- Reading `o.p`, `vm_container.cpp` 246-286: the getter is called on `o`, just popped, and the cell at the start of its frame
is the value. -/
def readProp (W : World) (p : Property) (o : W.V) (m : Mach W) : Out (Mach W) :=
  match p.getter with
  | none => .err
  | some f => (inner W f o m).map fun m' => { m' with cur := m'.cur + 1 }

/-- `o.p = v`, `vm_store.cpp` 78-88, 90-215. -/
def writeProp (W : World) (p : Property) (o v : W.V) (m : Mach W) : Out (Mach W) :=
  match p.sets "_set" with
  | none => .err
  | some f =>
    (execute W f (some o) (m.cur + 1) { m with mem := put m.mem (m.cur + 1) v }).map fun m' => { m' with cur := m.cur }

/-- `o.p += v` and the like with the right operand left at `m.cur`, `vm_call_metamethod.cpp` 299-402: the function of the
operator, then the getter, whose cell is the value. Without getter the value is the property element itself, which no
operation reads: `undef` stands for it. -/
def compoundProp (W : World) (p : Property) (n : String) (o : W.V) (m : Mach W) : Out (Mach W) :=
  if W.nothing (m.mem m.cur) then .err
  else match p.sets n with
    | none => .err
    | some f =>
      (inner W f o m).bind fun m' =>
        match p.getter with
        | none => .ok (push m' W.undef)
        | some gt => (inner W gt o m').map fun m'' => { m'' with cur := m''.cur + 1 }

/-- `o.p++` and the like, `vm_call_metamethod.cpp` 409-468. -/
def bumpProp (W : World) (p : Property) (n : String) (o : W.V) (m : Mach W) : Out (Mach W) :=
  match p.bumps n with
  | none => .err
  | some f => (execute W f (some o) m.cur m).map fun m' => push { m' with cur := m.cur } (m'.mem (m.cur + W.locals f.code))

end Verif.Meta
