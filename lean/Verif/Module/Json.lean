import Verif.Common
import Verif.Base.Str
/-
`json` module: `src/module/JsonSerializeModule.cpp`, `JsonDeserializeModule.cpp`, `JsonModule.cpp`.

Simplifications, also repeated at the definitions:
* numbers are kept as values of an arbitrary type `F` with the three conversions the code uses (`Num`);
* line numbers and messages are dropped, a message is `err`;
* a text is a list of bytes without the final NUL; `[]` is the position of the NUL, reading behind it is `ub`;
* getters of classes are not called (objects have fields only).
-/
namespace Verif.Json
open Verif.Str (Bytes unescapeChars)

/-- `Integer::toString`, `Float::toString` and `Float::parse` (`base/Integer.cpp` 34, `base/Float.cpp` 10–39). -/
structure Num (F : Type) where
  intText : Int → Bytes
  fltText : F → Bytes
  parse : Bytes → Option F

/-- A value without sharing. `fn` is a function, which is not written. An object has the fields added by the script
(`map_fields`) and, for a class, those it was created with (`map_builtin_fields`). -/
inductive V (F : Type) where
  | undef
  | null
  | bool (b : Bool)
  | int (i : Int)
  | float (f : F)
  | str (s : Bytes)
  | fn
  | arr (l : List (V F))
  | obj (fields builtin : List (Bytes × V F))

/-! ### Writing -/

/-- The line break of the formatted output (`JsonSerializeModule.cpp` 104–109). -/
def newline (fmt : Bool) (n : Nat) : Bytes := if fmt then 10 :: List.replicate n 9 else []

mutual
/-- `serialize_stk` (`JsonSerializeModule.cpp` 202–267), for a value that does not contain the object the call began
with. -/
def write {F : Type} (N : Num F) (fmt strict : Bool) (ind : Nat) : V F → Bytes
  | .undef => if strict then [110, 117, 108, 108] else [117, 110, 100, 101, 102, 105, 110, 101, 100]
  | .null => [110, 117, 108, 108]
  | .bool b => if b then [116, 114, 117, 101] else [102, 97, 108, 115, 101]
  | .int i => N.intText i
  | .float f => N.fltText f
  | .str s => 34 :: (s ++ [34])
  | .fn => []
  | .arr l => 91 :: (writeElems N fmt strict ind 0 l ++ [93])
  | .obj fs bs =>
    123 :: (writeFields N fmt strict ind 0 fs ++ (writeFields N fmt strict ind 0 bs ++ (newline fmt ind ++ [125])))
/-- The loop of `serialize_array` (`JsonSerializeModule.cpp` 24–52). -/
def writeElems {F : Type} (N : Num F) (fmt strict : Bool) (ind : Nat) (k : Nat) : List (V F) → Bytes
  | [] => []
  | v :: r => (if 0 < k then [44] else []) ++ (write N fmt strict ind v ++ writeElems N fmt strict ind (k + 1) r)
/-- The loop over one of the two groups of fields in `serialize_object` (`JsonSerializeModule.cpp` 71–191). `k` counts
the fields written in this group. -/
def writeFields {F : Type} (N : Num F) (fmt strict : Bool) (ind : Nat) (k : Nat) : List (Bytes × V F) → Bytes
  | [] => []
  | (_, .fn) :: r => writeFields N fmt strict ind k r
  | (x, v) :: r =>
    newline fmt (ind + 1) ++ ((if 0 < k then [44] else []) ++ (34 :: (x ++ 34 :: 58 ::
      (write N fmt strict (ind + 1) v ++ writeFields N fmt strict ind (k + 1) r))))
end

/-- `JsonModule_serialize` (`JsonModule.cpp` 40–49): the text becomes a script string, which unescapes it
(`StringScriptObject.cpp` 301–303). -/
def serialize {F : Type} (N : Num F) (fmt : Bool) (v : V F) : Bytes := unescapeChars (write N fmt true 0 v)

/-! ### Reading -/

/-- Outcome of a loop: `none` is "not finished within the fuel". -/
abbrev R (α : Type) := Option (Out α)

def R.bind {α β : Type} (x : R α) (f : α → R β) : R β :=
  match x with
  | none => none
  | some .err => some .err
  | some .ub => some .ub
  | some (.ok a) => f a

def R.ok {α : Type} (a : α) : R α := some (.ok a)
def R.err {α : Type} : R α := some .err
def R.ub {α : Type} : R α := some .ub

/-- `is_single_comment` (`JsonDeserializeModule.cpp` 31–37). -/
def isSingle (s : Bytes) : Bool := s.head? == some 47 && s.tail.head? == some 47
/-- `is_start_comment` (39–45). -/
def isStart (s : Bytes) : Bool := s.head? == some 47 && s.tail.head? == some 42
/-- `is_end_comment` (47–53). -/
def isEnd (s : Bytes) : Bool := s.head? == some 42 && s.tail.head? == some 47

/-- `advance_to_char` (55–67). -/
def advToChar (c : UInt8) : Bytes → Bytes
  | [] => []
  | x :: r => if x = 10 then x :: r else if x = 13 then r else if x = c then x :: r else advToChar c r

/-- The loop of `advance_to_end_comment` (73–81). Line 80 looks at the byte behind the current one. -/
def advEndLoop : Nat → Bytes → R Bytes
  | 0, _ => none
  | n + 1, s =>
    if isEnd s || s.isEmpty then R.ok s
    else
      let s1 := advToChar 42 s
      let s2 := if s1.head? = some 10 then s1.tail else s1
      let s3 := if s2.head? = some 13 then s2.tail else s2
      match s3 with
      | [] => R.ub
      | c :: r => if r.head? = some 47 then advEndLoop n (c :: r) else advEndLoop n r

/-- A comment that starts here is passed (`advance_to_end_comment` and the two bytes that end it: 96–101, 125–129). -/
def skipComment (s : Bytes) : R Bytes :=
  R.bind (advEndLoop s.length (s.drop 2)) fun e => R.ok (if isEnd e then e.drop 2 else e)

/-- `eval_ignore_blanks` (86–114). -/
def blanks : Nat → Bytes → R Bytes
  | 0, _ => none
  | n + 1, s =>
    let s1 := s.dropWhile (fun c => c == 32 || c == 9)
    R.bind (if isSingle s1 then R.ok (advToChar 10 s1, true)
      else if isStart s1 then R.bind (skipComment s1) fun e => R.ok (e, false)
      else R.ok (s1, true)) fun p =>
    let s3 := if p.1.head? = some 13 then p.1.tail else p.1
    if s3.head? = some 10 then blanks n s3.tail
    else if p.2 then R.ok s3
    else blanks n s3

def skip (s : Bytes) : R Bytes := blanks (s.length + 1) s

/-- `json_deserialize_end_char_values` (18–27). -/
def endChars : List UInt8 := [44, 125, 32, 9, 10, 13, 93]

/-- `advance_to_one_of_collection_of_char` (116–143). -/
def advToEnd : Nat → Bytes → R Bytes
  | 0, _ => none
  | n + 1, s =>
    if s.isEmpty then R.ok s
    else
      R.bind (if isStart s then skipComment s else R.ok s) fun s1 =>
      match (if isSingle s1 then advToChar 10 s1 else s1) with
      | [] => R.ub
      | c :: r => if endChars.contains c then R.ok (c :: r) else advToEnd n r

/-- The loop of `read_string_between_quotes` (180–197): the bytes before the closing quote and what follows it.
`prev` is the byte before the current one. -/
def readQuoted (prev : UInt8) : Bytes → Option (Bytes × Bytes)
  | [] => none
  | c :: r =>
    if c = 10 ∨ c = 13 then none
    else if c = 34 ∧ prev ≠ 92 then some ([], r)
    else (readQuoted c r).map fun p => (c :: p.1, p.2)

/-- `read_string_between_quotes` (173–205). -/
def readString (s : Bytes) : R (Bytes × Bytes) :=
  if s.head? = some 34 then
    match readQuoted 34 s.tail with
    | none => R.err
    | some p => R.bind (skip p.2) fun r => R.ok (p.1, r)
  else R.err

/-- `deserialize_value` (207–271). A script string unescapes its text when it is set. The number is copied to a buffer
of 1024 bytes with `strncpy`; a text that is no number leaves the value `undefined`. -/
def readValue {F : Type} (N : Num F) (s : Bytes) : R (V F × Bytes) :=
  if s.head? = some 34 then R.bind (readString s) fun p => R.ok (.str (unescapeChars p.1), p.2)
  else if s.take 4 = [116, 114, 117, 101] then R.ok (.bool true, s.drop 4)
  else if s.take 5 = [102, 97, 108, 115, 101] then R.ok (.bool false, s.drop 5)
  else
    R.bind (advToEnd (s.length + 1) s) fun e =>
    let k := s.length - e.length
    if k = 0 then R.err
    else if 1024 ≤ k then R.ub
    else R.ok (match N.parse (s.take k) with | some f => .float f | none => .undef, e)

/-- `setStackElementByKeyName` and the assignment of the value (`ObjectScriptObject.cpp` 57–87): a key that exists keeps
its place. -/
def put {F : Type} (k : Bytes) (v : V F) : List (Bytes × V F) → List (Bytes × V F)
  | [] => [(k, v)]
  | (k', v') :: r => if k' = k then (k', v) :: r else (k', v') :: put k v r

mutual
/-- `deserialize` (405–422). -/
def read {F : Type} (N : Num F) : Nat → Bytes → R (V F × Bytes)
  | 0, _ => none
  | n + 1, s =>
    R.bind (skip s) fun s =>
    if s.head? = some 91 then
      R.bind (skip s.tail) fun s =>
      if s.head? = some 93 then R.ok (.arr [], s.tail) else readElems N n s []
    else if s.head? = some 123 then
      R.bind (skip s.tail) fun s =>
      if s.head? = some 125 then R.ok (.obj [] [], s.tail) else readMembers N n s []
    else readValue N s
/-- The loop of `deserialize_vector` (309–329). -/
def readElems {F : Type} (N : Num F) : Nat → Bytes → List (V F) → R (V F × Bytes)
  | 0, _, _ => none
  | n + 1, s, acc =>
    R.bind (read N n s) fun p =>
    R.bind (skip p.2) fun s =>
    if s.head? = some 44 then
      R.bind (skip s.tail) fun s =>
      if s.head? = some 93 then R.ok (.arr (acc ++ [p.1]), s.tail) else readElems N n s (acc ++ [p.1])
    else if s.head? = some 93 then R.ok (.arr (acc ++ [p.1]), s.tail)
    else R.err
/-- The loop of `deserialize_object` (368–400). -/
def readMembers {F : Type} (N : Num F) : Nat → Bytes → List (Bytes × V F) → R (V F × Bytes)
  | 0, _, _ => none
  | n + 1, s, acc =>
    R.bind (readString s) fun k =>
    if k.2.head? = some 58 then
      R.bind (skip k.2.tail) fun s =>
      R.bind (read N n s) fun p =>
      R.bind (skip p.2) fun s =>
      if s.head? = some 44 then
        R.bind (skip s.tail) fun s =>
        if s.head? = some 125 then R.ok (.obj (put k.1 p.1 acc) [], s.tail) else readMembers N n s (put k.1 p.1 acc)
      else if s.head? = some 125 then R.ok (.obj (put k.1 p.1 acc) [], s.tail)
      else R.err
    else R.err
end

/-- Enough rounds for a text of this length (`JsonProps.lean`: `deserialize_ends`). -/
def fuel (s : Bytes) : Nat := 2 * s.length + 2

/-- `JsonModule_deserialize` (`JsonModule.cpp` 15–38): the text is unescaped first; what follows the value is not
looked at. -/
def deserialize {F : Type} (N : Num F) (text : Bytes) : R (V F) :=
  R.bind (read N (fuel (unescapeChars text)) (unescapeChars text)) fun p => R.ok p.1

/-! ### Object graphs -/

/-- A value in the memory of the engine: objects and arrays are references. -/
inductive HV (F : Type) where
  | undef
  | null
  | bool (b : Bool)
  | int (i : Int)
  | float (f : F)
  | str (s : Bytes)
  | fn
  | ref (a : Nat)

inductive Node (F : Type) where
  | arr (l : List (HV F))
  | obj (fields builtin : List (Bytes × HV F))

/-- The loop of `serialize_array`; `rec` writes an element. -/
def graphElems {F : Type} (wr : HV F → R Bytes) (k : Nat) : List (HV F) → R Bytes
  | [] => R.ok []
  | v :: r => R.bind (wr v) fun t => R.bind (graphElems wr (k + 1) r) fun u =>
    R.ok ((if 0 < k then [44] else []) ++ (t ++ u))

/-- The loop over the fields in `serialize_object`. -/
def graphFields {F : Type} (wr : HV F → R Bytes) (fmt : Bool) (ind k : Nat) : List (Bytes × HV F) → R Bytes
  | [] => R.ok []
  | (_, .fn) :: r => graphFields wr fmt ind k r
  | (x, v) :: r => R.bind (wr v) fun t => R.bind (graphFields wr fmt ind (k + 1) r) fun u =>
    R.ok (newline fmt (ind + 1) ++ ((if 0 < k then [44] else []) ++ (34 :: (x ++ 34 :: 58 :: (t ++ u)))))

/-- `serialize_object` (54–200). -/
def graphObject {F : Type} (wr : Nat → HV F → R Bytes) (fmt : Bool) (ind : Nat) (fs bs : List (Bytes × HV F)) : R Bytes :=
  R.bind (graphFields (wr (ind + 1)) fmt ind 0 fs) fun t =>
  R.bind (graphFields (wr (ind + 1)) fmt ind 0 bs) fun u =>
  R.ok (123 :: (t ++ (u ++ (newline fmt ind ++ [125]))))

/-- The text written instead of the object the call began with (255–258), for a type of this name. -/
def selfText (name : Bytes) : Bytes := [83, 99, 114, 105, 112, 116, 79, 98, 106, 101, 99, 116, 64] ++ name

/-- `serialize_stk` (202–267) on the memory `h`. `top` is `_this_object` with the name of its type. `none`: not finished
within this depth of the C++ stack. -/
def graphWrite {F : Type} (N : Num F) (fmt strict : Bool) (h : Nat → Option (Node F)) (top : Option (Nat × Bytes)) :
    Nat → Nat → HV F → R Bytes
  | 0, _, _ => none
  | _ + 1, ind, .undef => R.ok (write N fmt strict ind .undef)
  | _ + 1, ind, .null => R.ok (write N fmt strict ind .null)
  | _ + 1, ind, .bool b => R.ok (write N fmt strict ind (.bool b))
  | _ + 1, ind, .int i => R.ok (write N fmt strict ind (.int i))
  | _ + 1, ind, .float f => R.ok (write N fmt strict ind (.float f))
  | _ + 1, ind, .str s => R.ok (write N fmt strict ind (.str s))
  | _ + 1, _, .fn => R.ok []
  | n + 1, ind, .ref a =>
    match h a with
    | none => R.ub
    | some (.arr l) => R.bind (graphElems (graphWrite N fmt strict h top n ind) 0 l) fun t => R.ok (91 :: (t ++ [93]))
    | some (.obj fs bs) =>
      match top with
      | some (b, name) =>
        if b = a then R.ok (34 :: (selfText name ++ [34]))
        else graphObject (graphWrite N fmt strict h top n) fmt ind fs bs
      | none => graphObject (graphWrite N fmt strict h top n) fmt ind fs bs

/-- `json::serialize` (`JsonSerializeModule.cpp` 269–282). -/
def graphSerialize {F : Type} (N : Num F) (fmt strict : Bool) (h : Nat → Option (Node F)) (name : Bytes) (n : Nat)
    (v : HV F) : R Bytes :=
  match v with
  | .ref a =>
    match h a with
    | some (.obj fs bs) => graphObject (graphWrite N fmt strict h (some (a, name)) n) fmt 0 fs bs
    | _ => graphWrite N fmt strict h none n 0 v
  | _ => graphWrite N fmt strict h none n 0 v

end Verif.Json
