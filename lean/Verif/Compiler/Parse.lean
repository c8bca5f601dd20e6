import Verif.Compiler.Lexer
/-
Model of the recursive descent through a script text: `src/compiler/compiler.cpp`, `compiler_expression.cpp`,
`compiler_expression_token_symbol.cpp`, `compiler_symbol.cpp`, `compiler_object.cpp` and
`compiler_keyword*.cpp`, at the level of source positions.

What is modelled: every position the compiler moves to, every character it tests, every loop, every recursive
call, every `NULL` returned, the error flag of `CompilerData` and every exception thrown on the way. A
`const char *` is the text from that position up to its terminating NUL, as in `Lexer.lean`.

What is not modelled: the instructions emitted, the line counters, and the tables of symbols, types and scopes.
Wherever the source asks one of those tables (or inspects emitted instructions) before going on, the model asks
an arbitrary environment `Sem`, which may answer yes or no or throw; the theorems hold for every environment.
Memory exhaustion and C++ call-stack exhaustion are not modelled.
-/
namespace Verif.Parse
open Verif Verif.Str Verif.Lex

/-! ### The environment and the state -/

/-- The questions the parser puts to tables that are not modelled. -/
inductive Ask where
  /-- checks of `compiler_expression_to_byte_code` on the collected tokens, `compiler_expression_byte_code.cpp` -/
  | code
  /-- `compiler_check_all_instruction_only_load_op`, `compiler_expression.cpp` 232-241 -/
  | onlyLoads
  /-- fewer left sides than `ZS_SCRIPT_FUNCTION_RETURN_COUNT_MAX`, `compiler_expression.cpp` 335-343 -/
  | leftCount
  /-- the left sides can be assigned, `compiler_expression.cpp` 383-433 -/
  | leftSides
  /-- `Integer::parse`, `compiler_symbol.cpp` 36 -/
  | int
  /-- `Float::parse`, `compiler_symbol.cpp` 49 -/
  | float
  /-- the symbol is known or the function is not the main one, `compiler_symbol.cpp` 171-194 -/
  | symbol
  /-- the member may be accessed with `::`, `compiler_expression_token_symbol.cpp` 259-284 -/
  | staticAccess
  /-- the first instruction is `NEW_OBJECT_BY_TYPE`; throws when there is none,
  `compiler_expression_token_symbol.cpp` 348 -/
  | newFirst
  /-- the symbol is no type, `compiler_expression_token_symbol.cpp` 359-370 -/
  | noType
  /-- `super` and `this` are allowed here, and the emission of the access,
  `compiler_expression_token_symbol.cpp` 386-406, 559-588 -/
  | access
  /-- `this` is allowed here; throws when there is no instruction,
  `compiler_expression_token_symbol.cpp` 678-689 -/
  | single
  /-- the last instruction exists; throws otherwise, `compiler_expression_token_symbol.cpp` 716, 835 -/
  | last
  /-- the operand of `typeof` is no type, `compiler_expression_token_symbol.cpp` 825-832 -/
  | typeof
  /-- the type after `new` is known, `compiler_object.cpp` 352-355 -/
  | newType
  /-- the type can be instantiated, `compiler_object.cpp` 380-390 -/
  | instanceable
  /-- native type without constructor, `compiler_object.cpp` 400 -/
  | nativeNoCtor
  /-- a constructor with that many parameters exists, `compiler_object.cpp` 466-498 -/
  | constructor
  /-- the type before `::` exists, `compiler_keyword_class.cpp` 204 -/
  | type
  /-- an expression was emitted for a default value, `compiler_keyword_function.cpp` 428-435 -/
  | defaultValue
  /-- the function is registered, `compiler_keyword_function.cpp` 511-547 -/
  | register
  /-- the arguments are registered, `compiler.cpp` 271-286 -/
  | arguments
  /-- `compiler_pop_and_compile_function`, `compiler_keyword_function.cpp` 587 -/
  | finish
  /-- the scope nesting limit, `compiler.cpp` 198-200 -/
  | depth
  /-- the variable is registered, `compiler_keyword_var.cpp` 110-145 -/
  | variable
  /-- the initialiser of a constant or of a member is emitted; throws when there is no instruction,
  `compiler_keyword_var.cpp` 171-212 -/
  | initialiser
  /-- the class keyword is allowed here, `compiler_keyword_class.cpp` 36-38 -/
  | classAllowed
  /-- the class is registered, `compiler_keyword_class.cpp` 67-87 -/
  | classType
  /-- the property is registered, `compiler_keyword_class.cpp` 320-336 -/
  | property
  /-- the metamethod of the property is accepted, `compiler_keyword_class.cpp` 400-510 -/
  | metamethod
  /-- the enclosing statement is a loop or switch, `compiler_keyword_loop.cpp` 51-53, 78-84 -/
  | inLoop
  /-- there is no second `default`, `compiler_keyword_conditional.cpp` 286-294 -/
  | oneDefault
  /-- no instruction precedes `in`, `compiler_keyword_loop.cpp` 378-384 -/
  | noInit
  /-- the variables before `in` are locals, `compiler_keyword_loop.cpp` 421-441 -/
  | locals
  /-- the container is a constant; throws when there is no instruction, `compiler_keyword_loop.cpp` 490-506 -/
  | constant
  /-- the iterator variable is registered, `compiler_keyword_loop.cpp` 530-537 -/
  | iterator
  /-- the imported file exists, `compiler.cpp` 372-379 -/
  | fileExists
  /-- the imported file compiles, `compiler.cpp` 381-395 -/
  | fileCompiles
  deriving DecidableEq, Repr

/-- An environment: its states and its answers. `none`: a C++ exception is thrown. -/
structure Sem where
  State : Type
  ask : Ask → Bytes → State → Option Bool × State

/-- The part of `CompilerData` that steers the parser: `compiler_data->error`; and the environment. -/
structure St (E : Sem) where
  error : Bool
  sem : E.State

/-- How a function ends: it returns a value, it returns `NULL`, a C++ exception leaves it, or its behaviour is
undefined. -/
inductive Res (α : Type) where
  | val (a : α)
  | null
  | thrown
  | ub
  deriving DecidableEq, Repr

/-- A parser function. `none`: still running when the fuel is spent. -/
def P (E : Sem) (α : Type) : Type := St E → Option (Res α × St E)

variable {E : Sem} {α β : Type}

namespace P

/-- Sequence. Callers return `NULL` when a callee returned `NULL`, unless `catchNull` is used. -/
def andThen (m : P E α) (f : α → P E β) : P E β := fun st =>
  match m st with
  | none => none
  | some (.val a, st) => f a st
  | some (.null, st) => some (.null, st)
  | some (.thrown, st) => some (.thrown, st)
  | some (.ub, st) => some (.ub, st)

instance : Monad (P E) where
  pure a := fun st => some (.val a, st)
  bind := andThen

/-- `EVAL_ERROR...`, `compiler.h` 13-58: the error flag is set and `NULL` returned. -/
def fail : P E α := fun st => some (.null, { st with error := true })
/-- `return NULL`. -/
def nul : P E α := fun st => some (.null, st)
/-- A C++ exception is thrown. -/
def throw : P E α := fun st => some (.thrown, st)
/-- Undefined behaviour. -/
def ub : P E α := fun st => some (.ub, st)
/-- The fuel is spent. -/
def spent : P E α := fun _ => none
/-- `compiler_data->error=true`. -/
def mark : P E Unit := fun st => some (.val (), { st with error := true })
/-- `compiler_data->error`. -/
def flag : P E Bool := fun st => some (.val st.error, st)

/-- A lexical function; its errors set the error flag and return `NULL`. -/
def lift : Out α → P E α
  | .ok a => pure a
  | .err => fail
  | .ub => ub

/-- A call whose result is compared with `NULL` and used otherwise. -/
def catchNull (m : P E α) : P E (Option α) := fun st =>
  match m st with
  | none => none
  | some (.val a, st) => some (.val (some a), st)
  | some (.null, st) => some (.val none, st)
  | some (.thrown, st) => some (.thrown, st)
  | some (.ub, st) => some (.ub, st)

/-- A question to the environment. -/
def query (q : Ask) (s : Bytes) : P E Bool := fun st =>
  match E.ask q s st.sem with
  | (some b, x) => some (.val b, { st with sem := x })
  | (none, x) => some (.thrown, { st with sem := x })

/-- A question whose answer no is an error. -/
def need (q : Ask) (s : Bytes) : P E Unit := do
  if ← query q s then pure () else fail

/-- A C++ loop: `inl` goes on, `inr` leaves it. -/
def loop : (fuel : Nat) → (β → P E (β ⊕ α)) → β → P E α
  | 0, _, _ => spent
  | n + 1, f, b => do
    match ← f b with
    | .inl b => loop n f b
    | .inr a => pure a

end P
open P

/-! ### Lexical helpers -/

/-- `*s`. -/
def hd (s : Bytes) : UInt8 := s.headD 0
/-- `*(s+1)`, only used where `*s` is not the NUL. -/
def hd2 (s : Bytes) : UInt8 := hd s.tail

/-- `IGNORE_BLANKS`, `compiler_data.h`: `compiler_ignore_blanks`, returning `NULL` from the caller on error. The
line counter is dropped. -/
def blanks (N : Nat) (s : Bytes) : P E Bytes :=
  match ignoreBlanks N s 0 with
  | none => spent
  | some o => lift (o.map Prod.fst)

/-- `s+k`. -/
def skip (s : Bytes) (k : Nat) : P E Bytes := lift (adv s k)

/-- `function`. -/
def kFunction : Bytes := [102, 117, 110, 99, 116, 105, 111, 110]
/-- `this`. -/
def kThis : Bytes := [116, 104, 105, 115]
/-- `new`. -/
def kNew : Bytes := [110, 101, 119]
/-- `static`. -/
def kStatic : Bytes := [115, 116, 97, 116, 105, 99]
/-- `class`. -/
def kClass : Bytes := [99, 108, 97, 115, 115]
/-- `var`. -/
def kVar : Bytes := [118, 97, 114]
/-- `const`. -/
def kConst : Bytes := [99, 111, 110, 115, 116]
/-- `ref`. -/
def kRef : Bytes := [114, 101, 102]
/-- `if`. -/
def kIf : Bytes := [105, 102]
/-- `else`. -/
def kElse : Bytes := [101, 108, 115, 101]
/-- `for`. -/
def kFor : Bytes := [102, 111, 114]
/-- `while`. -/
def kWhile : Bytes := [119, 104, 105, 108, 101]
/-- `do`. -/
def kDo : Bytes := [100, 111]
/-- `switch`. -/
def kSwitch : Bytes := [115, 119, 105, 116, 99, 104]
/-- `case`. -/
def kCase : Bytes := [99, 97, 115, 101]
/-- `default`. -/
def kDefault : Bytes := [100, 101, 102, 97, 117, 108, 116]
/-- `break`. -/
def kBreak : Bytes := [98, 114, 101, 97, 107]
/-- `continue`. -/
def kContinue : Bytes := [99, 111, 110, 116, 105, 110, 117, 101]
/-- `return`. -/
def kReturn : Bytes := [114, 101, 116, 117, 114, 110]
/-- `delete`. -/
def kDelete : Bytes := [100, 101, 108, 101, 116, 101]
/-- `import`. -/
def kImport : Bytes := [105, 109, 112, 111, 114, 116]
/-- `extends`. -/
def kExtends : Bytes := [101, 120, 116, 101, 110, 100, 115]

/-- `keyw != KEYWORD_UNKNOWN && keyw < KEYWORDS_WITHIN_EXPRESSIONS`: every keyword but `this` and `new`,
`compiler_data.cpp` 83-110. -/
def isStatementWord (k : Option Bytes) : Bool := k.isSome && k != some kThis && k != some kNew

/-- `is_end_expression`, `compiler_expression.cpp` 8-10. -/
def endChar (s : Bytes) : Bool := [41, 44, 93, 59, 0, 125].contains (hd s)

/-- `is_anonymous_function`, `compiler_data.cpp` 571-586. A stray end of comment sets the error flag and gives
false. -/
def isAnon (N : Nat) (s : Bytes) : P E Bool := do
  let k ← lift (isKeyword s)
  if k = some kFunction then do
    let r ← catchNull (do let a ← skip s 8; blanks N a)
    match r with
    | none => pure false
    | some r => pure (hd r == 40)
  else pure false

/-- `is_end_expression_or_keyword`, `compiler_expression.cpp` 12-15. -/
def endOrKeyword (N : Nat) (s : Bytes) : P E Bool := do
  let k ← lift (isKeyword s)
  let anon ← isAnon N s
  pure (!anon && (endChar s || isStatementWord k))

/-- `is_end_symbol_token(s,pre)`, `compiler_data.cpp` 561-569. -/
def endSymbolPre (pre : UInt8) (s : Bytes) : Out Bool := do
  let o ← isOperator s
  if o.isSome && o != some instanceofStr && o != some inStr then .ok true else do
  let p ← isPost s
  if p.isSome then .ok true else do
  let c ← peek s 0
  .ok (isSeparator c || isSpecial c || (c == 34 && pre != 92))

/-- `compiler_copy_const_char_diff`, `compiler.cpp` 37-59, for an interval of `n` characters: it throws when
the interval is empty or longer than the 4096 bytes of the buffer, and with exactly 4096 characters the buffer
is read without a terminating NUL. -/
def copyDiff (n : Nat) : P E Unit :=
  if n = 0 ∨ 4096 < n then throw else if n = 4096 then ub else pure ()

/-- The scan for the closing quote, `compiler_symbol.cpp` 83-85, `compiler_object.cpp` 84-91,
`compiler.cpp` 355: up to a double quote that no backslash precedes, the NUL or the end of the line. -/
def quoteEnd : UInt8 → Bytes → Bytes
  | _, [] => []
  | prev, c :: r => if (c == 34 && prev != 92) || c == 0 || c == 10 then c :: r else quoteEnd c r

/-! ### Names -/

/-- `check_identifier_name_expression_ok`, `compiler_data.cpp` 588-630. Every failure of it ends in an error at
its callers. -/
def nameOk (w : Bytes) : Out Bool := do
  let k ← isKeyword w
  if k.isSome then .ok false else do
  let o ← isOperator w
  if o.isSome then .ok false else
  if w = [116, 114, 117, 101] ∨ w = [102, 97, 108, 115, 101] ∨ w = [110, 117, 108, 108] then .ok false
  else .ok (hd w != 0 && isIdStart (hd w))

/-- The loop of `compiler_get_accessor_name`, `compiler_expression_token_symbol.cpp` 18-20. At the NUL
`is_end_symbol_token` holds, so it stops there at the latest. -/
def takeSymbol : Bytes → Out (Bytes × Bytes)
  | [] => do
    if ← endSymbol [] then .ok ([], []) else .ub
  | c :: r => do
    if ← endSymbol (c :: r) then .ok ([], c :: r) else do
    let (n, t) ← takeSymbol r
    .ok (c :: n, t)

/-- `compiler_get_accessor_name`, `compiler_expression_token_symbol.cpp` 16-22, with the error of its callers. -/
def accessorName (s : Bytes) : P E (Bytes × Bytes) := do
  let (n, r) ← lift (takeSymbol s)
  if ← lift (nameOk n) then pure (n, r) else fail

/-- The identifier loop of `compiler_symbol`, `compiler_symbol.cpp` 97-107: a character is taken before the
first test, so at the end of the text the NUL is taken and the text behind it is read. -/
def scanSymbol : Bytes → Out (Bytes × Bytes)
  | [] => .ub
  | c :: r => do
    if ← endSymbolPre c r then .ok ([c], r) else do
    let (n, t) ← scanSymbol r
    .ok (c :: n, t)

/-! ### Literals -/

/-- `compiler_data.cpp` 653-697: a character literal, with `s` behind the opening quote. -/
def charLiteral (s : Bytes) : P E Bytes := do
  let s ←
    (if hd s = 92 then do
      let s ← skip s 1
      if hd s = 110 ∨ hd s = 114 ∨ hd s = 116 then pure s else fail
    else if hd s = 39 ∨ hd s = 0 then fail
    else pure s)
  let s ← skip s 1
  if hd s = 39 then skip s 1 else fail

/-- `compiler_data.cpp` 635-642, 700-709: hexadecimal prefix and first character. -/
def numHead (s : Bytes) : Out (Option (Num × Bytes)) := do
  let c ← peek s 0
  let m : Num := ⟨0, [], [], [], false, true, false⟩
  let (m, s) ←
    (if c = 48 then do
      let d ← peek s 1
      if d = 88 || d = 120 then do
        let s ← adv s 2
        .ok (({ m with hexa := true }.add c).add d, s)
      else .ok (m, s)
     else .ok (m, s))
  let c ← peek s 0
  if isDec c || m.hexa || c == 46 then .ok (some (m, s)) else .ok none

/-- `parse_literal_number`, `compiler_data.cpp` 632-773: the position behind the literal, `none` when the text
is no number (`NULL` without an error). -/
def literalNumber (N : Nat) (s : Bytes) : P E (Option Bytes) := do
  let t ← blanks N s
  let k ← lift (isKeyword s)
  if k.isSome then pure none
  else if hd t = 39 then do
    let a ← skip t 1
    let r ← charLiteral a
    pure (some r)
  else do
    match ← lift (numHead t) with
    | none => pure none
    | some (m, t) =>
      match numLoop N m t with
      | none => spent
      | some o => do
        let (_, t) ← lift o
        if ← lift (endSymbol t) then pure (some t) else pure none

/-! ### Expressions -/

/-- `_properties` of the expression functions, `compiler.h`: `EVAL_EXPRESSION_ALLOW_SEQUENCE_EXPRESSION`,
`EVAL_EXPRESSION_BREAK_ON_ASSIGNMENT_OPERATOR`, `EVAL_EXPRESSION_FOR_IN_VARIABLES`,
`EVAL_KEYWORD_VAR_PROPERTY_ALLOW_IN_OPERATOR`, `EVAL_EXPRESSION_ONLY_TOKEN_SYMBOL`. The others concern the
instructions emitted. -/
structure Props where
  seq : Bool := false
  breakAssign : Bool := false
  forIn : Bool := false
  allowIn : Bool := false
  onlyToken : Bool := false
  deriving DecidableEq, Repr

/-- The two functions through which every recursion runs: `compiler_sub_expression` (position, expected
endings, properties) and `compiler_compile_recursive` (stop at `break`, `case` and `default`?, position). -/
structure Rec (E : Sem) where
  sub : Bytes → Option Bytes → Props → P E Bytes
  recursive : Bool → Bytes → P E Bytes

/-- `compiler_is_access_punctuator`, `compiler_expression_token_symbol.cpp` 8-10. -/
def isAccess (s : Bytes) : Bool := hd s == 46 || hd s == 91 || hd s == 40

/-- `TokenType` of a symbol token; literals are split in strings and others. -/
inductive Kind where
  | ident
  | str
  | lit
  | sub
  | arr
  | obj
  | new
  | fn
  deriving DecidableEq, Repr

/-- A token read so far: its type, whether it is an identifier without `::`, the pre-operation still to be
emitted, the pre-operation stored with the token, the position behind it. -/
structure Tok where
  kind : Kind
  plain : Bool := false
  pre : Option Bytes
  pre0 : Option Bytes := none
  rest : Bytes

/-- `++`. -/
def opInc : Bytes := [43, 43]
/-- `--`. -/
def opDec : Bytes := [45, 45]
/-- `-`. -/
def opNeg : Bytes := [45]
/-- `~`. -/
def opBwc : Bytes := [126]
/-- `!`. -/
def opNot : Bytes := [33]
/-- The row of `is_operation_dec_inc_invalid`. -/
def opInvalid : Bytes := [43, 45, 47, 45, 43]

/-- Lower case, `Boolean::parse` (`src/base/Boolean.cpp` 9). -/
def lower (c : UInt8) : UInt8 := if 65 ≤ c && c ≤ 90 then c + 32 else c

/-- `compiler_symbol`, `compiler_symbol.cpp` 11-211: literal or identifier at `s`. -/
def symbol (N : Nat) (pre : Option Bytes) (s : Bytes) : P E Tok := do
  match ← literalNumber N s with
  | some r => do
    if ← query .int s then
      pure { kind := .lit, pre := if pre = some opNeg ∨ pre = some opBwc then none else pre, pre0 := pre, rest := r }
    else if ← query .float s then
      if pre = some opBwc then fail
      else pure { kind := .lit, pre := if pre = some opNeg then none else pre, pre0 := pre, rest := r }
    else fail
  | none => do
    if ← flag then nul
    else if hd s = 34 then do
      let q := quoteEnd 34 s.tail
      if hd q = 34 then do
        let n := s.tail.length - q.length
        if 0 < n then copyDiff n else pure ()
        pure { kind := .str, pre := pre, pre0 := pre, rest := q.tail }
      else fail
    else do
      let (w, r) ← lift (scanSymbol s)
      if w = [117, 110, 100, 101, 102, 105, 110, 101, 100] ∨ w = [110, 117, 108, 108] then
        pure { kind := .lit, pre := pre, pre0 := pre, rest := r }
      else if w.map lower = [116, 114, 117, 101] ∨ w.map lower = [102, 97, 108, 115, 101] then
        pure { kind := .lit, pre := if pre = some opNot then none else pre, pre0 := pre, rest := r }
      else if w = kThis then
        pure { kind := .ident, plain := true, pre := pre, pre0 := pre, rest := r }
      else if w = [115, 117, 112, 101, 114] then do
        let t ← blanks N r
        if hd t = 40 then pure { kind := .ident, plain := true, pre := pre, pre0 := pre, rest := r }
        else fail
      else do
        if ← lift (nameOk w) then do
          need .symbol s
          pure { kind := .ident, plain := true, pre := pre, pre0 := pre, rest := r }
        else fail

/-- `compiler_expression_token_symbol.cpp` 215-286: an access with `::` behind an identifier. -/
def staticRef (N : Nat) (t : Tok) : P E Tok :=
  if t.kind = .ident ∧ hd t.rest = 58 ∧ hd2 t.rest = 58 then do
    let p ← blanks N (t.rest.drop 2)
    let (_, r) ← accessorName p
    need .staticAccess p
    pure { t with plain := false, rest := r }
  else pure t

/-- One sub-expression of a sequence, the loop of `compiler_expression`, `compiler_expression.cpp` 288-347. The
state: right sides have begun, all left sides are loads, position. -/
def seqRound (sub : Bytes → Option Bytes → Props → P E Bytes) (props : Props) :
    Bool × Bool × Bytes → P E ((Bool × Bool × Bytes) ⊕ Bytes)
  | (right, only, q) => do
    let pr := if right then props else { props with breakAssign := props.breakAssign || only }
    let q ← sub q.tail none pr
    let op ← if props.forIn then lift (isOperator q) else pure none
    if op = some inStr then pure (.inr q) else do
    let o ← query .onlyLoads q
    let only := only && o
    let right ← if hd q = 61 ∧ only = true then do need .leftCount q; pure true else pure right
    if hd q = 44 ∨ hd q = 61 then pure (.inl (right, only, q)) else pure (.inr q)

/-- `compiler_expression`, `compiler_expression.cpp` 243-527, over `compiler_sub_expression`. -/
def expression (sub : Bytes → Option Bytes → Props → P E Bytes) (N : Nat) (s : Bytes) (props : Props) :
    P E Bytes := do
  let q ← sub s none props
  let q ← if props.seq = true ∧ hd q = 44 then do
      let only ← query .onlyLoads q
      loop N (seqRound sub props) (false, only, q)
    else pure q
  need .leftSides q
  pure q

/-! ### Blocks and functions -/

/-- `compiler_block_internal`, `compiler.cpp` 183-217. -/
def block (R : Rec E) (N : Nat) (s : Bytes) : P E Bytes := do
  let p ← blanks N s
  if hd p = 123 then do
    need .depth p
    let q ← R.recursive false p.tail
    if hd q = 125 then pure q.tail else fail
  else nul

/-- `is_class_member_extension`, `compiler_keyword_class.cpp` 175-215: the member name and the position behind it. -/
def memberExt (N : Nat) (s : Bytes) : P E (Bytes × Bytes) := do
  let p ← blanks N s
  let (_, r) ← lift (identifier p)
  let t ← blanks N r
  if hd t = 58 ∧ hd2 t = 58 then do
    let e ← catchNull (lift (identifier (t.drop 2)))
    need .type p
    match e with
    | some e => pure e
    | none => nul
  else nul

/-- How a parameter is passed. -/
inductive Passing where
  | value
  | byRef
  | varArgs
  deriving DecidableEq, Repr

/-- `compiler_keyword_function.cpp` 347-368: the marks before the name of a parameter. -/
def passing (N : Nat) (p : Bytes) : P E (Passing × Bytes) := do
  if startsWith [46, 46, 46] p then do
    let q ← blanks N (p.drop 3)
    pure (.varArgs, q)
  else do
    let k ← lift (isKeyword p)
    match k with
    | none => pure (.value, p)
    | some k =>
      if k = kRef then do
        let q ← blanks N (p.drop 3)
        pure (.byRef, q)
      else fail

/-- One iteration of the parameter loop, `compiler_keyword_function.cpp` 315-481. The state: a parameter has
been read, position. -/
def param (R : Rec E) (N : Nat) : Bool × Bytes → P E ((Bool × Bytes) ⊕ Bytes)
  | (some?, p) => do
    if hd p = 0 ∨ hd p = 41 then pure (.inr p) else do
    let p ← blanks N p
    let p ← if some? = true then (if hd p = 44 then blanks N p.tail else fail) else pure p
    if hd p = 41 ∨ hd p = 44 then fail else do
    let (k, p) ← passing N p
    let (n, r) ← lift (identifier p)
    copyDiff n.length
    let t ← blanks N r
    if k = .varArgs ∧ hd t ≠ 41 then fail
    else if hd t = 61 then
      if k = .byRef then fail
      else do
        let u ← blanks N t.tail
        let v ← expression R.sub N u {}
        need .defaultValue u
        pure (.inl (true, v))
    else pure (.inl (true, t))

/-- `compiler_keyword_function.cpp` 236-284: the name of a function, if any. -/
def functionName (N : Nat) (cls anon : Bool) (p : Bytes) : P E Bytes :=
  if hd p = 40 then (if anon then pure p else nul)
  else do
    let e ← if cls then pure none else do
      let e ← catchNull (memberExt N p)
      if ← flag then nul else pure e
    let e ← match e with
      | some (_, r) => pure r
      | none => do
        let (_, r) ← lift (identifier p)
        pure r
    blanks N e

/-- `compiler_keyword_function`, `compiler_keyword_function.cpp` 166-604. `cls`: directly within a class or as
metamethod of a property; `anon`: `EVAL_KEYWORD_FUNCTION_PROPERTY_IS_ANONYMOUS`. -/
def keywordFunction (R : Rec E) (N : Nat) (cls anon : Bool) (s : Bytes) : P E Bytes := do
  let k ← lift (isKeyword s)
  let static := k == some kStatic
  let p ← if static then do let a ← skip s 6; blanks N a else pure s
  let k ← lift (isKeyword p)
  let isFn := k == some kFunction
  let p ← if isFn then do let a ← skip p 8; blanks N a else pure p
  if (isFn || cls || static) = true then do
    let p ← blanks N p
    let p ← functionName N cls anon p
    if hd p = 40 then do
      let p ← blanks N p.tail
      let p ← loop N (param R N) (false, p)
      let p ← skip p 1
      let p ← blanks N p
      if hd p = 123 then do
        need .register p
        need .arguments p
        let p ← block R N p
        if ← query .finish p then pure p else do
        mark
        pure p
      else fail
    else fail
  else nul

/-! ### Inline objects -/

/-- `compiler_object_identifier`, `compiler_object.cpp` 78-112: the name read and the position behind it,
`none` for `NULL`. -/
def objectKey (p : Bytes) : P E (Bytes × Option Bytes) :=
  if hd p = 34 then do
    let q := quoteEnd 34 p.tail
    let n := p.tail.take (p.tail.length - q.length)
    if hd q = 34 then pure (n, some q.tail) else do
    mark
    pure (n, none)
  else
    match identifier p with
    | .ok (n, r) => pure (n, some r)
    | .err => pure ([], none)
    | .ub => ub

/-- `compiler_object_test`, `compiler_object.cpp` 114-144, for a text that begins with a brace: does an object
begin here? Errors of the blanks give false with the error flag set. -/
def objectTest (N : Nat) (s : Bytes) : P E Bool := do
  let r ← catchNull (α := Bool) (do
    let p ← blanks N s
    if hd p = 123 then do
      let p ← blanks N p.tail
      if hd p = 125 then pure false else do
      let (_, e) ← objectKey p
      if ← flag then pure false else
      match e with
      | none => pure false
      | some e => do
        let t ← blanks N e
        pure (hd t == 58 && hd2 t != 58)
    else pure false)
  match r with
  | some b => pure b
  | none => pure false

/-- One property of an inline object, `compiler_object.cpp` 165-231. -/
def objectItem (R : Rec E) (N : Nat) : Bool × Bytes → P E ((Bool × Bytes) ⊕ Bytes)
  | (some?, p) => do
    if hd p = 125 ∨ hd p = 0 then pure (.inr p) else do
    let p ← blanks N p
    let p ← if some? = true then (if hd p = 44 then blanks N p.tail else fail) else pure p
    let k ← lift (isKeyword p)
    if k.isSome then fail else do
    let (n, e) ← objectKey p
    if n = [] then fail else
    match e with
    | none => ub
    | some e => do
      let t ← blanks N e
      if hd t = 58 then do
        let u ← blanks N t.tail
        if hd u = 125 then fail else do
        let v ← R.sub u none {}
        pure (.inl (true, v))
      else fail

/-- `compiler_object_object`, `compiler_object.cpp` 146-238. -/
def objectObject (R : Rec E) (N : Nat) (s : Bytes) : P E Bytes := do
  if hd s = 123 then do
    let p ← blanks N s.tail
    let p ← loop N (objectItem R N) (false, p)
    if hd p = 125 then pure p.tail else fail
  else fail

/-- One element of an inline array, `compiler_object.cpp` 255-286. -/
def arrayItem (R : Rec E) (N : Nat) : Bool × Bytes → P E ((Bool × Bytes) ⊕ Bytes)
  | (some?, p) => do
    if hd p = 0 ∨ hd p = 93 then pure (.inr p) else do
    let p ← blanks N p
    let p ← if some? = true then (if hd p = 44 then blanks N p.tail else fail)
      else (if hd p = 44 then fail else pure p)
    let v ← R.sub p none {}
    pure (.inl (true, v))

/-- `compiler_object_vector`, `compiler_object.cpp` 240-293. -/
def objectVector (R : Rec E) (N : Nat) (s : Bytes) : P E Bytes := do
  let p ← blanks N s
  if hd p = 91 then do
    let p ← blanks N p.tail
    let p ← loop N (arrayItem R N) (false, p)
    if hd p = 93 then pure p.tail else fail
  else fail

/-- One name of a type after `new`, `compiler_object.cpp` 325-347. The state: text collected, position. -/
def newName (N : Nat) : Bytes × Bytes → P E ((Bytes × Bytes) ⊕ (Bytes × Bytes))
  | (x, p) => do
    let (n, r) ← lift (identifier p)
    let t ← blanks N r
    if hd t = 46 then do
      let u ← blanks N t.tail
      pure (.inl (x ++ n ++ [46], u))
    else if hd t = 40 then pure (.inr (x ++ n, t))
    else fail

/-- One constructor argument, `compiler_object.cpp` 426-451. -/
def newArg (R : Rec E) (N : Nat) (p : Bytes) : P E (Bytes ⊕ Bytes) := do
  let p ← if hd p = 41 then pure p else do
    let q ← R.sub p (some [44, 41]) {}
    if hd q = 44 then blanks N q.tail else pure q
  if hd p = 41 then pure (.inr p) else pure (.inl p)

/-- `compiler_object_new`, `compiler_object.cpp` 295-512. -/
def objectNew (R : Rec E) (N : Nat) (s : Bytes) : P E Bytes := do
  let p ← blanks N s
  let k ← lift (isKeyword p)
  if k = some kNew then do
    let p ← skip p 3
    let p ← blanks N p
    let (x, p) ← loop N (newName N) ([], p)
    let p ← blanks N p
    let native ← (do
      if ← query .newType p then do
        need .instanceable p
        query .nativeNoCtor p
      else do
        let _ ← R.sub x none { onlyToken := true }
        pure false)
    let p ← skip p 1
    let p ← blanks N p
    if hd p = 41 ∧ native = true then pure p.tail else do
    let p ← loop N (newArg R N) p
    need .constructor p
    pure p.tail
  else nul

/-! ### Tokens -/

/-- One argument of a call, `compiler_expression_token_symbol.cpp` 413-475. The state: the number of arguments
read, position. The counter `n_params` is an `int8_t`: it is positive when the number modulo 256 lies between 1
and 127. -/
def callArg (R : Rec E) (N : Nat) (props : Props) : Nat × Bytes → P E ((Nat × Bytes) ⊕ Bytes)
  | (k, p) => do
    if hd p = 41 then pure (.inr p) else
    if 0 < k % 256 ∧ k % 256 < 128 then
      if hd p = 44 then do
        let q ← blanks N p.tail
        if hd q = 41 then pure (.inr q) else do
        let v ← R.sub q none props
        pure (.inl (k + 1, v))
      else fail
    else do
      let v ← R.sub p none props
      pure (.inl (k + 1, v))

/-- One access behind a token, `compiler_expression_token_symbol.cpp` 382-674; `t` is at the punctuator. The
result is the next punctuator, or the position behind the last access. -/
def access (R : Rec E) (N : Nat) (props : Props) (t : Bytes) : P E (Bytes ⊕ Bytes) := do
  let p ←
    (if hd t = 40 then do
      need .access t
      let p ← blanks N t.tail
      let p ← loop N (callArg R N props) (0, p)
      pure p.tail
    else if hd t = 91 then do
      let q ← R.sub t.tail none props
      if hd q = 93 then pure q.tail else fail
    else do
      let p ← blanks N t.tail
      let (n, r) ← accessorName p
      if n = kThis then fail else do
      need .access p
      pure r)
  let u ← blanks N p
  if isAccess u then pure (.inl u) else pure (.inr p)

/-- `compiler_expression_token_symbol.cpp` 338-701: the accesses behind a token. -/
def accesses (R : Rec E) (N : Nat) (props : Props) (t : Tok) : P E Bytes := do
  let u ← blanks N t.rest
  if isAccess u then do
    let ok ← match t.kind with
      | .ident | .fn | .obj | .arr => pure true
      | .str => pure (hd u == 46)
      | .sub => do
        let b ← query .newFirst u
        pure (b && hd u == 46)
      | .lit | .new => pure false
    if ok then do
      if t.plain then need .noType u else pure ()
      loop N (access R N props) u
    else fail
  else do
    need .single u
    pure t.rest

/-- `compiler_expression_token_symbol.cpp` 704-747: a post-operation. -/
def postOp (t : Tok) (p : Bytes) : P E Bytes := do
  let o ← lift (isPost p)
  if o = some opInc ∨ o = some opDec then do
    need .last p
    if t.kind = .ident then
      if t.pre0 = none ∨ t.pre0 = some opNeg ∨ t.pre0 = some opBwc then pure (p.drop 2) else fail
    else fail
  else pure p

/-- `compiler_expression_token_symbol.cpp` 804-836: the checks on the pre-operation. -/
def preOp (t : Tok) (p : Bytes) : P E Unit :=
  if t.pre = some typeofStr then do
    need .typeof p
    need .last p
  else if t.pre = some opNeg ∨ t.pre = some opBwc ∨ t.pre = some opNot ∨ t.pre = some opInc ∨ t.pre = some opDec then
    if t.kind = .ident then need .last p else fail
  else pure ()

/-- `compiler_expression_token_symbol.cpp` 94-335: the token itself, with `p` behind the pre-operation and the
blanks. -/
def tokenStart (R : Rec E) (N : Nat) (props : Props) (pre : Option Bytes) (p : Bytes) : P E Tok := do
  if hd p = 40 then
    if pre = some opInc ∨ pre = some opDec then fail else do
    let q ← R.sub p.tail none props
    if hd q = 41 then
      pure { kind := .sub, rest := q.tail,
             pre := if pre = some opNeg ∨ pre = some opBwc ∨ pre = some opNot then none else pre }
    else fail
  else do
    let k ← lift (isKeyword p)
    if hd p = 91 then do
      let q ← objectVector R N p
      pure { kind := .arr, pre := pre, rest := q }
    else if hd p = 123 then do
      let q ← objectObject R N p
      pure { kind := .obj, pre := pre, rest := q }
    else if k = some kNew then do
      let q ← objectNew R N p
      pure { kind := .new, pre := pre, rest := q }
    else if k = some kFunction then do
      let q ← keywordFunction R N false true p
      pure { kind := .fn, pre := pre, rest := q }
    else do
      let t ← symbol N pre p
      staticRef N t

/-- `compiler_expression_token_symbol`, `compiler_expression_token_symbol.cpp` 57-886. -/
def token (R : Rec E) (N : Nat) (props : Props) (s : Bytes) : P E Bytes := do
  let pre ← lift (isPre s)
  if pre = some opInvalid then fail else do
  let p ← match pre with
    | none => pure s
    | some w => skip s w.length
  let p ← blanks N p
  let t ← tokenStart R N props pre p
  let p ← accesses R N props t
  let p ← postOp t p
  preOp t p
  pure p

/-! ### Sub-expressions -/

/-- `compiler_expression.cpp` 83-89: a line feed among the blanks behind the token, from `p` to `t`. -/
def lineBreak (p t : Bytes) : Bool := (p.take (p.length - t.length)).contains 10

/-- One iteration of the token loop, `compiler_expression.cpp` 69-137. -/
def subRound (R : Rec E) (N : Nat) (props : Props) (s : Bytes) : P E (Bytes ⊕ Bytes) := do
  let p ← token R N props s
  let t ← blanks N p
  let op ← lift (isOperator t)
  let e ← endOrKeyword N t
  if e = true ∨ op = some [63] ∨ op = some [58] ∨ (op = some [61] ∧ props.breakAssign = true)
      ∨ (op = some inStr ∧ (props.forIn = true ∨ props.allowIn = true)) ∨ props.onlyToken = true
      ∨ (lineBreak p t = true ∧ op = none) then pure (.inr t)
  else
    match op with
    | none => fail
    | some w => do
      let u ← skip t w.length
      let v ← blanks N u
      pure (.inl v)

/-- `compiler_expression.cpp` 140-179: the error flag and the expected endings. -/
def checkEnd (expect : Option Bytes) (p : Bytes) : P E Unit := do
  if ← flag then nul
  else
    match expect with
    | none => pure ()
    | some l => if l.contains (hd p) then pure () else fail

/-- `compiler_expression_byte_code.cpp` 445-526: the ternary operator. -/
def ternary (R : Rec E) (props : Props) (p : Bytes) : P E Bytes :=
  if hd p = 63 then do
    let q ← R.sub p.tail none props
    if hd q = 58 then R.sub q.tail none props else fail
  else pure p

/-- `compiler_sub_expression`, `compiler_expression.cpp` 25-230. -/
def subExp (R : Rec E) (N : Nat) (s : Bytes) (expect : Option Bytes) (props : Props) : P E Bytes := do
  let p ← blanks N s
  if hd s = 41 ∨ hd s = 44 ∨ hd s = 93 ∨ hd s = 0 ∨ hd s = 125 then fail else do
  if ← endOrKeyword N p then do
    checkEnd expect p
    pure p
  else do
    let p ← loop N (subRound R N props) p
    checkEnd expect p
    need .code p
    ternary R props p

/-! ### Statements -/

/-- One variable of a declaration, `compiler_keyword_var.cpp` 52-229. `const`: the keyword is `const`. -/
def variable1 (R : Rec E) (N : Nat) (cls const : Bool) (props : Props) (s : Bytes) : P E (Bytes ⊕ Bytes) := do
  let p ← blanks N s
  let e ← if cls then pure none else do
    match ← catchNull (memberExt N p) with
    | some e => pure (some e)
    | none => if ← flag then nul else pure none
  let (n, r) ← match e with
    | some e => pure e
    | none => lift (identifier p)
  let k ← lift (isKeyword n)
  if k.isSome then fail else do
  need .variable p
  let t ← blanks N r
  let v ←
    (if hd t = 61 then do
      let v ← expression (subExp R N) N (if cls ∨ e.isSome = true ∨ const then t.tail else p) props
      need .initialiser v
      pure v
    else if const then
      if e.isSome then ub else fail
    else pure t)
  if hd v = 44 then pure (.inl v.tail) else pure (.inr v)

/-- `compiler_keyword_var`, `compiler_keyword_var.cpp` 16-249. -/
def keywordVar (R : Rec E) (N : Nat) (cls : Bool) (props : Props) (s : Bytes) : P E Bytes := do
  let k ← lift (isKeyword s)
  if k = some kVar ∨ k = some kConst then do
    let const := k == some kConst
    let p ← skip s (if const then 5 else 3)
    let p ← blanks N p
    let p ← loop N (variable1 R N cls const props) p
    let op ← lift (isOperator p)
    match op with
    | none => pure p
    | some w => if props.allowIn = true ∧ w = inStr then pure p else fail
  else nul

/-- One metamethod of a property, `compiler_keyword_class.cpp` 343-513. -/
def propertyItem (R : Rec E) (N : Nat) (p : Bytes) : P E (Bytes ⊕ Bytes) := do
  if hd p = 125 ∨ hd p = 0 then pure (.inr p) else do
  let k ← lift (isKeyword p)
  let p ← if k = some kFunction then do let a ← skip p 8; blanks N a else pure p
  let (_, r) ← lift (identifier p)
  let q ← keywordFunction R N true true r
  need .metamethod q
  let t ← blanks N q
  pure (.inl t)

/-- `compiler_keyword_class_property`, `compiler_keyword_class.cpp` 278-530. -/
def classProperty (R : Rec E) (N : Nat) (s : Bytes) : P E Bytes := do
  let p ← blanks N s
  let (_, r) ← lift (identifier p)
  let p ← blanks N r
  if hd p = 123 then do
    let p ← blanks N p.tail
    need .property p
    let p ← loop N (propertyItem R N) p
    if hd p = 125 then pure p.tail else fail
  else nul

/-- One member of a class, `compiler_keyword_class.cpp` 99-166. -/
def classItem (R : Rec E) (N : Nat) (p : Bytes) : P E (Bytes ⊕ Bytes) := do
  if hd p = 125 ∨ hd p = 0 then pure (.inr p) else do
  let q ← (do
    match ← catchNull (classProperty R N p) with
    | some q => pure q
    | none =>
      if ← flag then nul else do
      let k ← lift (isKeyword p)
      if k = some kStatic ∨ k = some kFunction ∨ k = none then keywordFunction R N true false p
      else if k = some kVar ∨ k = some kConst then do
        let q ← keywordVar R N true {} p
        if hd q = 59 then pure q.tail else pure q
      else fail)
  let t ← blanks N q
  pure (.inl t)

/-- `get_name_identifier_token` where the result is not compared with `NULL` before the blanks behind it are
skipped, `compiler_keyword_class.cpp` 43-53, 57-65: without a name a null pointer is read. -/
def uncheckedName (s : Bytes) : P E Bytes :=
  match identifier s with
  | .ok (_, r) => pure r
  | .err => ub
  | .ub => ub

/-- `compiler_keyword_class`, `compiler_keyword_class.cpp` 18-173. -/
def keywordClass (R : Rec E) (N : Nat) (s : Bytes) : P E Bytes := do
  let p ← blanks N s
  let k ← lift (isKeyword p)
  if k = some kClass then do
    need .classAllowed p
    let p ← skip p 5
    let p ← blanks N p
    let r ← uncheckedName p
    let p ← blanks N r
    let p ← if startsWith kExtends p then do
        let p ← blanks N (p.drop 7)
        let r ← uncheckedName p
        blanks N r
      else pure p
    need .classType p
    if hd p = 123 then do
      let p ← blanks N p.tail
      let p ← loop N (classItem R N) p
      if hd p = 125 then pure p.tail else fail
    else fail
  else nul

/-- `compiler_keyword_delete`, `compiler_keyword_class.cpp` 217-276. -/
def keywordDelete (R : Rec E) (N : Nat) (s : Bytes) : P E Bytes := do
  let p ← blanks N s
  let k ← lift (isKeyword p)
  if k = some kDelete then do
    let p ← skip p 6
    let p ← blanks N p
    let op ← lift (isOperator p)
    if op.isSome then fail else do
    let k ← lift (isKeyword p)
    if k.isSome = true ∧ k ≠ some kThis then fail else do
    let q ← expression (subExp R N) N p { onlyToken := true }
    let op ← lift (isOperator q)
    if op.isSome then fail else do
    need .last q
    pure q
  else nul

/-- One returned value, `compiler_keyword_function.cpp` 623-665. -/
def returnItem (R : Rec E) (N : Nat) (s : Bytes) : P E (Bytes ⊕ Bytes) := do
  let p ← blanks N s
  let q ← subExp R N p none { seq := true }
  let t ← blanks N q
  if hd t = 44 then pure (.inl t.tail) else pure (.inr t)

/-- `compiler_keyword_return`, `compiler_keyword_function.cpp` 606-672. -/
def keywordReturn (R : Rec E) (N : Nat) (s : Bytes) : P E Bytes := do
  let p ← skip s 6
  loop N (returnItem R N) p

/-- One `if (...) {...}` and what follows it, `compiler_keyword_conditional.cpp` 34-131; `s` is at `if`. -/
def ifRound (R : Rec E) (N : Nat) (s : Bytes) : P E (Bytes ⊕ Bytes) := do
  let p ← skip s 2
  let p ← blanks N p
  if hd p = 40 then do
    let e ← subExp R N p.tail (some [41]) {}
    let p ← blanks N e.tail
    if hd p = 123 then do
      let q ← block R N p
      let p ← blanks N q
      let k ← lift (isKeyword p)
      if k = some kElse then do
        let p ← skip p 4
        let p ← blanks N p
        let k ← lift (isKeyword p)
        if k = some kIf then pure (.inl p)
        else if hd p = 123 then do
          let q ← block R N p
          pure (.inr q)
        else fail
      else pure (.inr p)
    else fail
  else fail

/-- `compiler_keyword_if_else`, `compiler_keyword_conditional.cpp` 18-140. -/
def keywordIf (R : Rec E) (N : Nat) (s : Bytes) : P E Bytes := loop N (ifRound R N) s

/-- `while(*aux_p==';') IGNORE_BLANKS(aux_p,..,aux_p+1,..)`, `compiler.cpp` 313-315,
`compiler_keyword_conditional.cpp` 353-355. -/
def semicolons (N : Nat) (p : Bytes) : P E (Bytes ⊕ Bytes) := do
  if hd p = 59 then do
    let q ← blanks N p.tail
    pure (.inl q)
  else pure (.inr p)

/-- One branch of a `switch`, `compiler_keyword_conditional.cpp` 231-381. -/
def switchItem (R : Rec E) (N : Nat) (p : Bytes) : P E (Bytes ⊕ Bytes) := do
  if hd p = 125 ∨ hd p = 0 then pure (.inr p) else do
  let k ← lift (isKeyword p)
  let q ←
    (if k = some kCase then do
      let p ← skip p 4
      let p ← blanks N p
      expression (subExp R N) N p { onlyToken := true }
    else if k = some kDefault then do
      need .oneDefault p
      let p ← skip p 7
      blanks N p
    else fail)
  if hd q = 58 then do
    let t ← blanks N q.tail
    let k2 ← lift (isKeyword t)
    if k2 = some kCase then pure (.inl t) else do
    let u ← R.recursive true t
    let k3 ← lift (isKeyword u)
    let v ←
      (if k3 = some kBreak then do
        let a ← skip u 5
        let a ← blanks N a
        loop N (semicolons N) a
      else if k = some kDefault then fail
      else pure u)
    let w ← blanks N v
    pure (.inl w)
  else fail

/-- `compiler_keyword_switch`, `compiler_keyword_conditional.cpp` 168-481. -/
def keywordSwitch (R : Rec E) (N : Nat) (s : Bytes) : P E Bytes := do
  let p ← skip s 6
  let p ← blanks N p
  if hd p = 40 then do
    let p ← blanks N p.tail
    let e ← subExp R N p (some [41]) {}
    let p ← blanks N e.tail
    if hd p = 123 then do
      let p ← blanks N p.tail
      let p ← loop N (switchItem R N) p
      if hd p = 125 then pure p.tail else fail
    else fail
  else fail

/-- `compiler_keyword_break`, `compiler_keyword_continue`, `compiler_keyword_loop.cpp` 40-98; `k` is the length
of the keyword. -/
def keywordJump (N k : Nat) (s : Bytes) : P E Bytes := do
  need .inLoop s
  let p ← skip s k
  blanks N p

/-- `compiler_keyword_while`, `compiler_keyword_loop.cpp` 100-196. The condition is copied before its position is
compared with `NULL`: then an exception is thrown. -/
def keywordWhile (R : Rec E) (N : Nat) (s : Bytes) : P E Bytes := do
  let p ← skip s 5
  let p ← blanks N p
  if hd p = 40 then do
    match ← catchNull (subExp R N p.tail (some [41]) {}) with
    | none => throw
    | some e => do
      copyDiff (p.tail.length - e.length)
      let p ← blanks N e.tail
      if hd p = 123 then block R N p else fail
  else fail

/-- `compiler_keyword_do_while`, `compiler_keyword_loop.cpp` 198-312. -/
def keywordDo (R : Rec E) (N : Nat) (s : Bytes) : P E Bytes := do
  let p ← skip s 2
  let p ← blanks N p
  if hd p = 123 then do
    let q ← block R N p
    let p ← blanks N q
    let k ← lift (isKeyword p)
    if k = some kWhile then do
      let p ← skip p 5
      let p ← blanks N p
      if hd p = 40 then do
        match ← catchNull (subExp R N p.tail (some [41]) {}) with
        | none => fail
        | some e => do
          copyDiff (p.tail.length - e.length)
          pure e.tail
      else fail
    else fail
  else fail

/-- `goto label_exit_for` with an error, `compiler_keyword_loop.cpp` 831-852: the error flag is set, and the
position reached, not `NULL`, is returned: the statements behind it are still parsed. -/
def exitFor (p : Bytes) : P E Bytes := do
  mark
  pure p

/-- `compiler_keyword_loop.cpp` 758-852: closing parenthesis and body of a `for`. -/
def forBody (R : Rec E) (N : Nat) (p : Bytes) : P E Bytes := do
  if hd p = 41 then do
    let p ← blanks N p.tail
    if hd p = 123 then block R N p else exitFor p
  else exitFor p

/-- `compiler_keyword_loop.cpp` 685-756: condition and post-operation of a `for` without `in`. Whether there is a
condition is decided by the character behind its first one. -/
def forHead (R : Rec E) (N : Nat) (p : Bytes) : P E Bytes := do
  let p ← blanks N p
  if hd p = 59 then do
    let p ← blanks N p.tail
    let p ← if hd p = 59 then pure p else do
      let a ← skip p 1
      let e ← blanks N a
      if hd e = 59 then pure p else subExp R N p none {}
    let p ← blanks N p
    if hd p = 59 then do
      let p ← blanks N p.tail
      if hd p = 41 then forBody R N p else do
      let p ← expression (subExp R N) N p { seq := true }
      forBody R N p
    else exitFor p
  else exitFor p

/-- `compiler_keyword_loop.cpp` 414-544: the container of a `for`-`in`; `t` is at `in`. The text of the container
is copied to a buffer of 1024 bytes. -/
def forIn (R : Rec E) (N : Nat) (t : Bytes) : P E Bytes := do
  if ← query .locals t then do
    let q ← skip t 2
    let q ← blanks N q
    let op ← lift (isOperator q)
    if op.isSome then exitFor q else do
    let k ← lift (isKeyword q)
    if k.isSome = true ∧ k ≠ some kThis then exitFor q else do
    match ← catchNull (subExp R N q none { onlyToken := true }) with
    | none => pure q
    | some u => do
      let n := q.length - u.length
      if 1024 < n then ub else do
      if ← query .constant u then (if n = 1024 then ub else exitFor q)
      else if hd u = 41 then do
        if ← query .iterator u then do
          let p ← blanks N u
          forBody R N p
        else pure u
      else exitFor u
  else exitFor t

/-- `compiler_keyword_loop.cpp` 392-412, 667-680: the initialisation of a `for`. When it does not compile the
position before it is returned. -/
def forInit (R : Rec E) (N : Nat) (p : Bytes) : P E Bytes := do
  match ← catchNull (expression (subExp R N) N p { seq := true, forIn := true }) with
  | none => pure p
  | some t => do
    let op ← lift (isOperator t)
    if op = some inStr then forIn R N t else forHead R N t

/-- `compiler_keyword_for`, `compiler_keyword_loop.cpp` 314-853. -/
def keywordFor (R : Rec E) (N : Nat) (s : Bytes) : P E Bytes := do
  let p ← skip s 3
  let p ← blanks N p
  if hd p = 40 then do
    let p ← blanks N p.tail
    let k ← lift (isKeyword p)
    if k = some kVar then do
      let q ← keywordVar R N false { allowIn := true } p
      let op ← lift (isOperator q)
      if op = some inStr then do
        need .noInit q
        let a ← skip p 3
        forInit R N a
      else forHead R N q
    else forInit R N p
  else fail

/-- `import`, `compiler.cpp` 345-406. The compilation of the imported file is one question. -/
def importFile (N : Nat) (s : Bytes) : P E Bytes := do
  let p ← skip s 6
  let p ← blanks N p
  if hd p = 34 then do
    let q := quoteEnd 34 p.tail
    if hd q = 34 then do
      copyDiff (p.tail.length - q.length)
      need .fileExists p
      need .fileCompiles p
      pure q.tail
    else fail
  else fail

/-- `compiler_keyword`, `compiler_keyword.cpp` 35-61, with the table of `compiler_data.cpp` 893-917. -/
def keyword (R : Rec E) (N : Nat) (k s : Bytes) : P E Bytes :=
  if k = kStatic ∨ k = kFunction then keywordFunction R N false false s
  else if k = kClass then keywordClass R N s
  else if k = kConst ∨ k = kVar then keywordVar R N false {} s
  else if k = kIf then keywordIf R N s
  else if k = kFor then keywordFor R N s
  else if k = kWhile then keywordWhile R N s
  else if k = kDo then keywordDo R N s
  else if k = kSwitch then keywordSwitch R N s
  else if k = kBreak then keywordJump N 5 s
  else if k = kContinue then keywordJump N 8 s
  else if k = kReturn then keywordReturn R N s
  else if k = kDelete then keywordDelete R N s
  else fail

/-- `compiler.cpp` 321-437: one statement at `p`, which is neither the end of the text nor a semicolon nor a
closing brace. `none`: `break`, `case` or `default` where they end the statements. -/
def statement (R : Rec E) (N : Nat) (ret : Bool) (p : Bytes) : P E (Option Bytes) := do
  let k ← lift (isKeyword p)
  let word ← if isStatementWord k then do
      let a ← isAnon N p
      pure (!a)
    else pure false
  if word = true then
    match k with
    | none => nul
    | some k =>
      if ret = true ∧ (k = kBreak ∨ k = kCase ∨ k = kDefault) then pure none
      else do
        let q ← keyword R N k p
        pure (some q)
  else if startsWith kImport p then do
    let q ← importFile N p
    pure (some q)
  else do
    let isBlock ← if hd p = 123 then do
        let o ← objectTest N p
        pure (!o)
      else pure false
    if isBlock = true then do
      if ← flag then nul else do
      let q ← block R N p
      pure (some q)
    else do
      let q ← expression (subExp R N) N p { seq := true }
      pure (some q)

/-- One iteration of the statement loop, `compiler.cpp` 310-441. -/
def statements1 (R : Rec E) (N : Nat) (ret : Bool) (p : Bytes) : P E (Bytes ⊕ Bytes) := do
  if hd p = 0 then pure (.inr p) else do
  let p ← loop N (semicolons N) p
  if hd p = 0 ∨ hd p = 125 then pure (.inr p) else do
  match ← statement R N ret p with
  | none => pure (.inr p)
  | some q => do
    let t ← blanks N q
    pure (.inl t)

/-- `compiler_compile_recursive`, `compiler.cpp` 298-443. -/
def statements (R : Rec E) (N : Nat) (ret : Bool) (s : Bytes) : P E Bytes := do
  let p ← blanks N s
  loop N (statements1 R N ret) p

/-! ### The whole -/

/-- The two mutually recursive functions, unfolded to a depth of at most the first argument, with loops of at
most `N` iterations. -/
def parser (N : Nat) : Nat → Rec E
  | 0 => ⟨fun _ _ _ => spent, fun _ _ => spent⟩
  | d + 1 => ⟨subExp (parser N d) N, statements (parser N d) N⟩

/-- What the caller of `compile` sees: a normal return, with the text left unread (`none`: the parser gave up
without reporting an error), an exception, or undefined behaviour. -/
inductive Verdict where
  | accepted (unread : Option Bytes)
  | rejected
  | ub
  deriving DecidableEq, Repr

/-- `compiler_compile_and_link`, `compiler.cpp` 62-134, for a text compiled on its own. `none`: still running
with that much fuel. -/
def compile (fuel : Nat) (x : E.State) (text : Bytes) : Option Verdict :=
  match (parser fuel fuel).recursive false text ⟨false, x⟩ with
  | none => none
  | some (.val p, st) => some (if st.error || hd p == 125 then .rejected else .accepted (some p))
  | some (.null, st) => some (if st.error then .rejected else .accepted none)
  | some (.thrown, _) => some .rejected
  | some (.ub, _) => some .ub

end Verif.Parse
