import Verif.Base.Integer
/-
Model of the lexical layer of the compiler, `src/compiler/compiler_data.cpp`: blanks and comments,
operator and keyword recognition, identifiers and numerals.

A `const char *` into the source is the text from that position up to (not including) the terminating
NUL, so the NUL itself is read at index `length` and every read behind it is undefined behaviour.
-/
namespace Verif.Lex
open Verif Verif.Str

/-- `*(s+k)`. Behind the terminating NUL: undefined behaviour. -/
def peek (s : Bytes) (k : Nat) : Out UInt8 :=
  match s[k]? with
  | some c => .ok c
  | none => if k = s.length then .ok 0 else .ub

/-- `s+k`. -/
def adv (s : Bytes) (k : Nat) : Out Bytes := if k ≤ s.length then .ok (s.drop k) else .ub

/-- `while(f(*p)) p++;`. -/
def skipWhile (f : UInt8 → Bool) : Bytes → Out Bytes
  | [] => if f 0 then .ub else .ok []
  | c :: r => if f c then skipWhile f r else .ok (c :: r)

/-! ### Character tests -/

/-- One conjunct of a recogniser: `*(s+k)==c` or `*(s+k)!=c`. -/
inductive Test where
  | eq (k : Nat) (c : UInt8)
  | ne (k : Nat) (c : UInt8)
  deriving DecidableEq, Repr

/-- A recogniser `t1 && t2 && ...`, evaluated left to right with short circuit. -/
def runPat : List Test → Bytes → Out Bool
  | [], _ => .ok true
  | .eq k c :: ts, s => do
    let d ← peek s k
    if d = c then runPat ts s else .ok false
  | .ne k c :: ts, s => do
    let d ← peek s k
    if d = c then .ok false else runPat ts s

/-- `is_comment_single_line`, `compiler_data.cpp` 346. -/
def isLine (s : Bytes) : Out Bool := runPat [.eq 0 47, .eq 1 47] s
/-- `is_comment_block_start`, `compiler_data.cpp` 347. -/
def isOpen (s : Bytes) : Out Bool := runPat [.eq 0 47, .eq 1 42] s
/-- `is_comment_block_end`, `compiler_data.cpp` 348. -/
def isClose (s : Bytes) : Out Bool := runPat [.eq 0 42, .eq 1 47] s

/-! ### Blanks and comments -/

/-- `compiler_data.cpp` 380-391: the scan for the end of a block comment, with the line counter. -/
def scanBlock : Bytes → Nat → Out (Bytes × Nat)
  | [], n => .ok ([], n)
  | c :: r, n =>
    if c = 0 then .ok (c :: r, n) else do
    let e ← runPat [.eq 0 42, .eq 1 47] (c :: r)
    if e then .ok (c :: r, n)
    else scanBlock r (if c = 10 then n + 1 else n)

/-- `advance_to_end_block_comment`, `compiler_data.cpp` 375-394. -/
def endBlock (s : Bytes) (n : Nat) : Out (Bytes × Nat) := do
  let b ← isOpen s
  if b then do
    let s ← adv s 2
    scanBlock s n
  else .ok (s, n)

/-- `compiler_data.cpp` 403-421: the comment part of one iteration; the flag is the negation of the local
`end`. -/
def comment (s : Bytes) (n : Nat) : Out (Bytes × Nat × Bool) := do
  if ← isLine s then do
    let s ← skipWhile (fun c => c != 0 && c != 10) s
    .ok (s, n, false)
  else if ← isOpen s then do
    let (s, n) ← endBlock s n
    if ← isClose s then do
      let s ← adv s 2
      .ok (s, n, true)
    else .ok (s, n, true)
  else if ← isClose s then .err
  else .ok (s, n, false)

/-- `compiler_data.cpp` 422-431: the end of a line. -/
def newline (s : Bytes) (n : Nat) (more : Bool) : Out (Bytes × Nat × Bool) := do
  let c ← peek s 0
  let s ← if c = 13 then adv s 1 else .ok s
  let c ← peek s 0
  if c = 10 then do
    let s ← adv s 1
    .ok (s, n + 1, true)
  else .ok (s, n, more)

/-- `compiler_data.cpp` 399-432: one iteration of the outer loop. The flag says to go on. -/
def round (s : Bytes) (n : Nat) : Out (Bytes × Nat × Bool) := do
  let s ← skipWhile (fun c => c != 0 && (c == 32 || c == 9)) s
  let (s, n, more) ← comment s n
  newline s n more

/-- `compiler_ignore_blanks`, `compiler_data.cpp` 396-433. `none`: still running after `fuel` rounds. `err`:
"Unexpected end comment block". -/
def ignoreBlanks : (fuel : Nat) → Bytes → Nat → Option (Out (Bytes × Nat))
  | 0, _, _ => none
  | fuel + 1, s, n => match round s n with
    | .ok (s, n, true) => ignoreBlanks fuel s n
    | .ok (s, n, false) => some (.ok (s, n))
    | .err => some .err
    | .ub => some .ub

/-! ### Operators -/

/-- `strncmp(w,s,strlen(w))==0`: `w` contains no NUL, so the comparison never reads behind the NUL of
`s`. -/
def startsWith (w s : Bytes) : Bool := w.isPrefixOf s

/-- `is_operator_typeof`, `is_operator_instanceof`, `is_operator_in`, `compiler_data.cpp` 351-373. -/
def wordOp (w s : Bytes) : Out Bool :=
  if startsWith w s then do
    let c ← peek s w.length
    .ok (c == 32 || c == 13 || c == 10)
  else .ok false

/-- One row of a table of recognisers: spelling and test. -/
structure Row where
  str : Bytes
  test : Bytes → Out Bool

/-- Rows of `compiler_data_operators` in the order of the enumeration (`compiler_operator.h` 75-121), with
the spelling set in `compiler_init` (`compiler_data.cpp` 828-864) and the recogniser of lines 309-339. -/
def symbolRows : List (Bytes × List Test) := [
  ([61], [.eq 0 61, .ne 1 61]),                         -- =
  ([43, 61], [.eq 0 43, .eq 1 61]),                     -- +=
  ([45, 61], [.eq 0 45, .eq 1 61]),                     -- -=
  ([42, 61], [.eq 0 42, .eq 1 61]),                     -- *=
  ([47, 61], [.eq 0 47, .eq 1 61]),                     -- /=
  ([37, 61], [.eq 0 37, .eq 1 61]),                     -- %=
  ([94, 61], [.eq 0 94, .eq 1 61]),                     -- ^=
  ([38, 61], [.eq 0 38, .eq 1 61]),                     -- &=
  ([124, 61], [.eq 0 124, .eq 1 61]),                   -- |=
  ([60, 60, 61], [.eq 0 60, .eq 1 60, .eq 2 61]),       -- <<=
  ([62, 62, 61], [.eq 0 62, .eq 1 62, .eq 2 61]),       -- >>=
  ([63], [.eq 0 63]),                                   -- ?
  ([58], [.eq 0 58]),                                   -- :
  ([38, 38], [.eq 0 38, .eq 1 38]),                     -- &&
  ([124, 124], [.eq 0 124, .eq 1 124]),                 -- ||
  ([61, 61], [.eq 0 61, .eq 1 61]),                     -- ==
  ([33, 61], [.eq 0 33, .eq 1 61]),                     -- !=
  ([62, 61], [.eq 0 62, .eq 1 61]),                     -- >=
  ([60, 61], [.eq 0 60, .eq 1 61]),                     -- <=
  ([62], [.eq 0 62, .ne 1 62]),                         -- >
  ([60], [.eq 0 60, .ne 1 60]),                         -- <
  ([43], [.eq 0 43, .ne 1 43]),                         -- +
  ([45], [.eq 0 45, .ne 1 45]),                         -- -
  ([94], [.eq 0 94, .ne 1 61]),                         -- ^
  ([42], [.eq 0 42, .ne 1 61]),                         -- *
  ([38], [.eq 0 38, .ne 1 38, .ne 1 61]),               -- &
  ([47], [.eq 0 47, .ne 1 61]),                         -- /
  ([37], [.eq 0 37, .ne 1 61]),                         -- %
  ([124], [.eq 0 124, .ne 1 124, .ne 1 61]),            -- |
  ([60, 60], [.eq 0 60, .eq 1 60, .ne 2 61]),           -- <<
  ([62, 62], [.eq 0 62, .eq 1 62, .ne 2 61])]           -- >>

/-- `instanceof`. -/
def instanceofStr : Bytes := [105, 110, 115, 116, 97, 110, 99, 101, 111, 102]
/-- `in`. -/
def inStr : Bytes := [105, 110]
/-- `typeof`. -/
def typeofStr : Bytes := [116, 121, 112, 101, 111, 102]

/-- `compiler_data_operators`. -/
def operatorRows : List Row :=
  symbolRows.map (fun r => ⟨r.1, runPat r.2⟩) ++ [⟨instanceofStr, wordOp instanceofStr⟩, ⟨inStr, wordOp inStr⟩]

/-- The loop of `is_operator`, `is_pre_operation` and `is_post_operation`: the first row whose test
holds. -/
def firstRow : List Row → Bytes → Out (Option Bytes)
  | [], _ => .ok none
  | r :: rs, s => do
    if ← r.test s then .ok (some r.str) else firstRow rs s

/-- `is_operator`, `compiler_data.cpp` 444-451; the operator is identified by its spelling. -/
def isOperator (s : Bytes) : Out (Option Bytes) := firstRow operatorRows s

/-- `is_operation_dec_inc_invalid`, `compiler_data.cpp` 345. -/
def decIncInvalid (s : Bytes) : Out Bool := do
  if ← runPat [.eq 0 45, .eq 1 43] s then .ok true else runPat [.eq 0 43, .eq 1 45] s

/-- `compiler_data_post_operations`, enumeration order (`compiler_data.cpp` 157-163) with the rows of lines
877-879. -/
def postRows : List Row := [
  ⟨[45, 45], runPat [.eq 0 45, .eq 1 45]⟩,
  ⟨[43, 43], runPat [.eq 0 43, .eq 1 43]⟩,
  ⟨[43, 45, 47, 45, 43], decIncInvalid⟩]

/-- `is_post_operation`, `compiler_data.cpp` 487-494. -/
def isPost (s : Bytes) : Out (Option Bytes) := firstRow postRows s

/-- `compiler_data_pre_operations`, enumeration order (`compiler_data.cpp` 142-155) with the rows of lines
867-874. -/
def preRows : List Row := [
  ⟨[45, 45], runPat [.eq 0 45, .eq 1 45]⟩,
  ⟨[43, 43], runPat [.eq 0 43, .eq 1 43]⟩,
  ⟨[43, 45, 47, 45, 43], decIncInvalid⟩,
  ⟨[33], runPat [.eq 0 33, .ne 1 61]⟩,
  ⟨typeofStr, wordOp typeofStr⟩,
  ⟨[43], runPat [.eq 0 43, .ne 1 43]⟩,
  ⟨[45], runPat [.eq 0 45, .ne 1 45]⟩,
  ⟨[126], runPat [.eq 0 126]⟩]

/-- `is_pre_operation`, `compiler_data.cpp` 478-485. -/
def isPre (s : Bytes) : Out (Option Bytes) := firstRow preRows s

/-! ### Separators, special characters, keywords -/

/-- `is_separator`, `compiler_data.cpp` 435-442 (rows 883-888): `, ; ( ) [ ]`. -/
def isSeparator (c : UInt8) : Bool := [44, 59, 40, 41, 91, 93].contains c

/-- `is_special_char`, `compiler_data.cpp` 496-511. -/
def isSpecial (c : UInt8) : Bool :=
  [0, 32, 9, 46, 40, 41, 123, 125, 91, 93, 10, 13, 58, 59].contains c

/-- Keyword spellings in the order of the enumeration (`compiler_data.cpp` 83-110, rows 893-917). -/
def keywords : List Bytes := [
  [105, 102],                                     -- if
  [101, 108, 115, 101],                           -- else
  [102, 111, 114],                                -- for
  [119, 104, 105, 108, 101],                      -- while
  [100, 111],                                     -- do
  [118, 97, 114],                                 -- var
  [99, 111, 110, 115, 116],                       -- const
  [115, 116, 97, 116, 105, 99],                   -- static
  [115, 119, 105, 116, 99, 104],                  -- switch
  [99, 97, 115, 101],                             -- case
  [100, 101, 102, 97, 117, 108, 116],             -- default
  [98, 114, 101, 97, 107],                        -- break
  [99, 111, 110, 116, 105, 110, 117, 101],        -- continue
  [114, 101, 116, 117, 114, 110],                 -- return
  [102, 117, 110, 99, 116, 105, 111, 110],        -- function
  [99, 108, 97, 115, 115],                        -- class
  [100, 101, 108, 101, 116, 101],                 -- delete
  [114, 101, 102],                                -- ref
  [46, 46, 46],                                   -- ...
  [116, 104, 105, 115],                           -- this
  [110, 101, 119]]                                -- new

/-- `is_special_char(aux) || is_comment_block_start(aux)`, `compiler_data.cpp` 523-525. -/
def wordEnd (s : Bytes) : Out Bool := do
  let c ← peek s 0
  if isSpecial c then .ok true else isOpen s

/-- `compiler_data.cpp` 518-530: the loop over the keyword table. -/
def firstKeyword : List Bytes → Bytes → Out (Option Bytes)
  | [], _ => .ok none
  | k :: ks, s =>
    if startsWith k s then do
      let aux ← adv s k.length
      if ← wordEnd aux then .ok (some k) else firstKeyword ks s
    else firstKeyword ks s

/-- `compiler_is_keyword`, `compiler_data.cpp` 513-533. -/
def isKeyword (s : Bytes) : Out (Option Bytes) := firstKeyword keywords s

/-- `is_end_symbol_token(s,0)`, `compiler_data.cpp` 561-569. -/
def endSymbol (s : Bytes) : Out Bool := do
  let o ← isOperator s
  if o.isSome && o != some instanceofStr && o != some inStr then .ok true else do
  let p ← isPost s
  if p.isSome then .ok true else do
  let c ← peek s 0
  .ok (isSeparator c || isSpecial c || c == 34)

/-! ### Identifiers -/

/-- `a..z`, `A..Z`, `_`: `compiler_data.cpp` 780-784. -/
def isIdStart (c : UInt8) : Bool := (97 ≤ c && c ≤ 122) || (65 ≤ c && c ≤ 90) || c == 95

/-- `compiler_data.cpp` 790-794. -/
def isIdChar (c : UInt8) : Bool :=
  (97 ≤ c && c ≤ 122) || (48 ≤ c && c ≤ 57) || c == 95 || (65 ≤ c && c ≤ 90)

/-- `compiler_data.cpp` 787-794: the loop that takes identifier characters. -/
def takeName : Bytes → Bytes × Bytes
  | [] => ([], [])
  | c :: r => if c != 0 && isIdChar c then let (n, t) := takeName r; (c :: n, t) else ([], c :: r)

/-- `get_name_identifier_token`, `compiler_data.cpp` 775-803: name and rest, `err` = "Unexpected char". -/
def identifier (s : Bytes) : Out (Bytes × Bytes) := do
  let c ← peek s 0
  if c != 0 && isIdStart c then do
    let t ← adv s 1
    let (n, t) := takeName t
    .ok (c :: n, t)
  else .err

/-! ### Numerals -/

/-- Local state of the scan, `compiler_data.cpp` 636-642. -/
structure Num where
  part : Nat
  p0 : Bytes
  p1 : Bytes
  p2 : Bytes
  hexa : Bool
  is01 : Bool
  float : Bool
  deriving DecidableEq, Repr

/-- `number_part[current_part]+=c`. -/
def Num.add (m : Num) (c : UInt8) : Num :=
  match m.part with
  | 0 => { m with p0 := m.p0 ++ [c] }
  | 1 => { m with p1 := m.p1 ++ [c] }
  | _ => { m with p2 := m.p2 ++ [c] }

/-- `number_part[0]+number_part[1]+number_part[2]`. -/
def Num.text (m : Num) : Bytes := m.p0 ++ m.p1 ++ m.p2

/-- `'0'<=c&&c<='9'`. -/
def isDec (c : UInt8) : Bool := 48 ≤ c && c ≤ 57

/-- `compiler_data.cpp` 714-726: the exponent mark and its sign. -/
def exponent (m : Num) (s : Bytes) : Out (Num × Bytes) := do
  let c ← peek s 0
  if m.float && (c == 101 || c == 69) then
    if m.part = 1 ∧ 1 < m.p1.length then do
      let m := { m with part := 2 }.add c
      let s ← adv s 1
      let d ← peek s 0
      if d == 43 || d == 45 then do
        let s ← adv s 1
        .ok (m.add d, s)
      else .ok (m, s)
    else .err
  else .ok (m, s)

/-- `compiler_data.cpp` 728-758: one character; the flag is `end`. -/
def numChar (m : Num) (c : UInt8) : Out (Num × Bool) := do
  let (m, e) ←
    (if isDec c then Out.ok (m.add c, false)
     else if ((97 ≤ c && c ≤ 102) || (65 ≤ c && c ≤ 70)) && m.hexa then .ok (m.add c, false)
     else if c = 46 then
       if !m.hexa && m.part = 0 then .ok ({ { m with part := m.part + 1 }.add 46 with float := true }, false)
       else .err
     else if c = 98 then
       if !m.is01 || m.part ≠ 0 then .err else .ok (m.add c, true)
     else .err)
  .ok ({ m with is01 := m.is01 && (c == 48 || c == 49) }, e)

/-- `compiler_data.cpp` 713-762: one iteration of the scan loop; the flag is the loop condition. -/
def numStep (m : Num) (s : Bytes) : Out (Num × Bytes × Bool) := do
  let (m, s) ← exponent m s
  let c ← peek s 0
  let (m, e) ← numChar m c
  let s ← adv s 1
  if e then Out.ok (m, s, false) else do
  let stop ← endSymbol s
  let d ← peek s 0
  .ok (m, s, !((stop || isSpecial d) && d != 46))

/-- `compiler_data.cpp` 712-762: the scan loop. `none`: still running after `fuel` iterations. -/
def numLoop : (fuel : Nat) → Num → Bytes → Option (Out (Num × Bytes))
  | 0, _, _ => none
  | fuel + 1, m, s =>
    match numStep m s with
    | .ok (m, s, true) => numLoop fuel m s
    | .ok (m, s, false) => some (.ok (m, s))
    | .err => some .err
    | .ub => some .ub

/-- `compiler_data.cpp` 647-709: keyword test, hexadecimal prefix, first character. -/
def numStart (s : Bytes) : Out (Option (Num × Bytes)) := do
  let k ← isKeyword s
  if k.isSome then Out.ok none else do
  let c ← peek s 0
  let m : Num := ⟨0, [], [], [], false, true, false⟩
  let (m, s) ←
    (if c = 48 then do
      let d ← peek s 1
      if d = 88 || d = 120 then do
        let s ← adv s 2
        .ok (({ m with hexa := true }.add c).add d, s)
      else .ok (m, s)
     else .ok (m, s))
  let c ← peek s 0
  if isDec c || m.hexa || c == 46 then .ok (some (m, s)) else .ok none

/-- The numeric part of `parse_literal_number`, `compiler_data.cpp` 700-771, with `s` already behind the
blanks: `some (value, rest)`, or `none` for "not a numeral" (`NULL` without an error). Simplified: the
character literals of lines 652-698 are not included, and the test `compiler_is_keyword(s)` of lines 647
and 767 is made at `s` after the blanks (its callers pass a position without leading blanks). -/
def numeral (fuel : Nat) (s : Bytes) : Option (Out (Option (Bytes × Bytes))) :=
  match numStart s with
  | .ok none => some (.ok none)
  | .ok (some (m, t)) =>
    (numLoop fuel m t).map fun r => do
      let (m, t) ← r
      if ← endSymbol t then Out.ok (some (m.text, t)) else .ok none
  | .err => some .err
  | .ub => some .ub

end Verif.Lex
