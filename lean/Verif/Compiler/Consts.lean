import Verif.Compiler.Lexer
import Verif.Base.Str
/-
The constant strings of the compiler: how a string literal and the name of a field in an object literal are read from the text,
the table that makes one string object for all that look alike, sums of literals that the compiler adds itself, and the object that
is built from an object literal when it is evaluated.

Simplifications. The table (`stk_constants`, a `MapString`) is a list in order of entry (C02 covers the map). A position in it stands
for the address of its stack element, which the instructions hold; elements are never removed before the engine ends
(`ScriptEngine.cpp` 1377-1386). The values of fields are opaque: how they are stored is modelled in `Verif.Vm.Slots` and
`Verif.Vm.StrVal`. Blanks and the colon between name and value are left to `Verif.Compiler.Parse`.
-/
namespace Verif.Consts
open Verif

abbrev Bytes := List UInt8

/-- The loops that look for the closing quote, `compiler_object.cpp` 84-91 and `compiler_symbol.cpp` 83-85, with the character
before: the characters passed, and the text from where the loop stops on. The end of the list is the NUL. -/
def scan : UInt8 → Bytes → Bytes × Bytes
  | _, [] => ([], [])
  | prev, c :: r =>
    if (c = 34 ∧ prev ≠ 92) ∨ c = 0 ∨ c = 10 then ([], c :: r)
    else (c :: (scan c r).1, (scan c r).2)

/-- One constant: the key in the table and the text of its string object now. -/
structure Const where
  key : Bytes
  text : Bytes
  deriving DecidableEq, Repr

abbrev Table := List Const

/-- `getStkConstantStringScriptObject`, `ScriptEngine.cpp` 1109-1111. -/
def find (T : Table) (k : Bytes) : Option Nat := T.findIdx? (fun c => c.key = k)

/-- `registerStkConstantStringScriptObject`, `ScriptEngine.cpp` 1075-1107; `set` replaces the escapes
(`StringScriptObject.cpp` 301-303). Every entry of the table has the properties tested in line 1081. -/
def register (T : Table) (k v : Bytes) : Table × Nat :=
  match find T k with
  | some i => (T, i)
  | none => (T ++ [⟨k, Str.unescapeChars v⟩], T.length)

/-- A string literal, `compiler_symbol.cpp` 81-96, with `s` behind the opening quote. An interval of 4096 characters fills the
buffer of `compiler_copy_const_char_diff` without a NUL behind it, longer ones throw (`compiler.cpp` 37-59). -/
def literal (T : Table) (s : Bytes) : Out (Table × Nat × Bytes) :=
  let (w, q) := scan 34 s
  match q with
  | 34 :: rest =>
    if 4096 < w.length then .err
    else if w.length = 4096 then .ub
    else
      let (T, i) := register T (34 :: w ++ [34]) w
      .ok (T, i, rest)
  | _ => .err

/-- The name of a field in an object literal, `compiler_object.cpp` 178-201 and 78-112, with `s` at its first character. When the
quote is not closed the caller goes on with a null pointer (`compiler_object.cpp` 94, 203), unless the name is empty. -/
def fieldName (T : Table) (s : Bytes) : Out (Table × Nat × Bytes) := do
  let k ← Lex.isKeyword s
  if k.isSome then .err else
  match s with
  | 34 :: s =>
    let (w, q) := scan 34 s
    if w = [] then .err else
    match q with
    | 34 :: rest =>
      let (T, i) := register T (34 :: w ++ [34]) w
      .ok (T, i, rest)
    | _ => .ub
  | s => do
    let (n, rest) ← Lex.identifier s
    let (T, i) := register T (34 :: n ++ [34]) n
    .ok (T, i, rest)

/-- What is compiled, or done to constants, one after the other. An operand of a sum is the constant that an earlier event gave, or
another literal by its text (a number or truth value, `Instruction.cpp` 70-88). -/
inductive Operand where
  | earlier (n : Nat)
  | other (t : Bytes)
  deriving DecidableEq, Repr

inductive Event where
  | literal (s : Bytes)
  | fieldName (s : Bytes)
  | sum (a b : Operand)
  /-- an editing method called on the literal of an earlier event leaves it with this text -/
  | edit (n : Nat) (t : Bytes)
  deriving DecidableEq, Repr

/-- The text of the constant that the event with number `n` gave. -/
def textOf (T : Table) (is : List Nat) (n : Nat) : Bytes :=
  match is[n]? with
  | some i => ((T[i]?).map (·.text)).getD []
  | none => []

/-- `getConstantString`, `getConstantValueOp2ToString`, `Instruction.cpp` 27-88. -/
def operand (T : Table) (is : List Nat) : Operand → Bytes
  | .earlier n => textOf T is n
  | .other t => t

/-- Add with a string operand, `compiler_expression_optimize.cpp` 211-222 and 391-398; `String::format` writes into 4096 bytes
(`String.cpp` 27-36). -/
def sum (T : Table) (a b : Bytes) : Out (Table × Nat) :=
  if (a ++ b).length < 4096 then .ok (register T (34 :: (a ++ b) ++ [34]) (a ++ b)) else .ub

/-- One event: the table and the constant it gives. `StringScriptObjectZs_append` and the other editing methods change the string
object in place (`StringScriptObjectZs.cpp` 26-29, 37-53, 129-137); the event gives the same constant again. -/
def step (T : Table) (is : List Nat) : Event → Out (Table × Nat)
  | .literal s => (literal T s).map fun r => (r.1, r.2.1)
  | .fieldName s => (fieldName T s).map fun r => (r.1, r.2.1)
  | .sum a b => sum T (operand T is a) (operand T is b)
  | .edit n t =>
    match is[n]? with
    | some i => .ok (T.modify i (fun c => { c with text := t }), i)
    | none => .err

/-- A list of events; an error ends it. -/
def run (T : Table) (is : List Nat) : List Event → Out (Table × List Nat)
  | [] => .ok (T, is)
  | e :: es => do
    let (T, i) ← step T is e
    run T (is ++ [i]) es

/-! ### Objects from object literals -/

variable {α : Type}

/-- `map_fields->get`, `ObjectScriptObject.cpp` 68, 94; objects of this kind have no built-in fields
(`ScriptTypesFactory.cpp` 344-350 registers functions only). -/
def get (fs : List (Bytes × α)) (k : Bytes) : Option α := (fs.find? (fun f => f.1 = k)).map (·.2)

/-- `setStackElementByKeyName` followed by the store of the value, `ObjectScriptObject.cpp` 57-86, `vm_container.cpp` 430-526:
an existing field is written over where it stands, a new one comes last. -/
def put (fs : List (Bytes × α)) (k : Bytes) (v : α) : List (Bytes × α) :=
  if (get fs k).isSome then fs.map (fun f => if f.1 = k then (k, v) else f) else fs ++ [(k, v)]

/-- `NEW_OBJECT`, then `LOAD_STRING` of the name, the value and `PUSH_OBJECT_ITEM` for each field
(`compiler_object.cpp` 159, 195-228, `vm_container.cpp` 415-441). -/
def build (T : Table) (fs : List (Bytes × α)) : List (Nat × α) → Out (List (Bytes × α))
  | [] => .ok fs
  | (i, v) :: es =>
    match T[i]? with
    | some c => build T (put fs c.text v) es
    | none => .ub

/-- The names of the fields are compiled one after the other; the values in between may add constants of their own, here given as
the events of each value. The position of the constant of each name is kept. -/
def names (T : Table) : List (Bytes × List Event × α) → Out (Table × List (Nat × α))
  | [] => .ok (T, [])
  | (s, es, v) :: r => do
    let (T, i, _) ← fieldName T s
    let (T, _) ← run T [] es
    let (T, is) ← names T r
    .ok (T, (i, v) :: is)

/-- `o["..."]` with `s` behind the opening quote, `vm_container.cpp` 594-616: the value, or the error for a field that is not
there. -/
def index (T : Table) (fs : List (Bytes × α)) (s : Bytes) : Out α := do
  let (T, i, _) ← literal T s
  match T[i]? with
  | some c =>
    match get fs c.text with
    | some v => .ok v
    | none => .err
  | none => .ub

end Verif.Consts
