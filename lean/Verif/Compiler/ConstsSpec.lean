import Verif.Compiler.Consts
import Verif.Compiler.LexerProps
import Verif.Base.StrEscapeProps
/-
Specification for constant strings and object literals.

`Str.escape` (`StrEscapeProps.lean`) is how a text is written between quotes: `\n`, `\t`, `\\`, `\"`, `\'`.
-/
namespace Verif.ConstsSpec
open Verif Verif.Consts

/-- What a script writes, with the text that follows. -/
inductive Piece where
  /-- `"..."` in an expression -/
  | literal (t rest : Bytes)
  /-- `"..." :` in an object literal -/
  | quoted (t rest : Bytes)
  /-- `name :` in an object literal -/
  | plain (n rest : Bytes)
  /-- `a + b` of literals -/
  | sum (a b : Operand)
  /-- `"...".append(..)` and the like: the method makes `t` of the text of piece `n` -/
  | edit (n : Nat) (t : Bytes)

/-- The text of a piece as it is written. -/
def source : Piece → Event
  | .literal t rest => .literal (Str.escape t ++ 34 :: rest)
  | .quoted t rest => .fieldName (34 :: (Str.escape t ++ 34 :: rest))
  | .plain n rest => .fieldName (n ++ rest)
  | .sum a b => .sum a b
  | .edit n t => .edit n t

/-- The text of an operand, given those of the earlier pieces. -/
def operandText (ms : List Bytes) : Operand → Bytes
  | .earlier n => (ms[n]?).getD []
  | .other t => t

/-- The text a piece stands for. A literal stays what it is when a method is called on it. -/
def meaning (ms : List Bytes) : Piece → Bytes
  | .literal t _ => t
  | .quoted t _ => t
  | .plain n _ => n
  | .sum a b => operandText ms a ++ operandText ms b
  | .edit n _ => (ms[n]?).getD []

/-- The texts of all pieces. -/
def meanings (ms : List Bytes) : List Piece → List Bytes
  | [] => ms
  | p :: ps => meanings (ms ++ [meaning ms p]) ps

/-- A name, followed by something that is not part of it. -/
def IsName (n rest : Bytes) : Prop :=
  (∃ c r, n = c :: r ∧ Lex.NameStart c ∧ ∀ x ∈ r, Lex.NameChar x) ∧ (∀ c ∈ rest.head?, ¬ Lex.NameChar c) ∧ Lex.NoNul rest ∧
    n ∉ Lex.reserved

/-- The piece is one: the text has no NUL, a name is a name, operands exist. -/
def WellFormed (k : Nat) : Piece → Prop
  | .literal t _ => Lex.NoNul t
  | .quoted t _ => Lex.NoNul t
  | .plain n rest => IsName n rest
  | .sum a b => (∀ n, a = .earlier n → n < k) ∧ (∀ n, b = .earlier n → n < k)
  | .edit n _ => n < k

/-- All pieces are. -/
def AllWellFormed (k : Nat) : List Piece → Prop
  | [] => True
  | p :: ps => WellFormed k p ∧ AllWellFormed (k + 1) ps

/-- The full claim (false, see the theorems): the script is accepted and each piece stands for its text, at the end too. -/
def MeansWhatIsWritten : Prop := ∀ ps : List Piece, AllWellFormed 0 ps →
  ∃ T is, run [] [] (ps.map source) = .ok (T, is) ∧ is.length = ps.length ∧
    ∀ n : Nat, n < ps.length → textOf T is n = ((meanings [] ps)[n]?).getD []

/-- What the theorem asks for. Texts in quotes do not end in a backslash; a literal is shorter than 4096 characters as written; a
quoted field name is not empty; sums have no backslashes and are shorter than 4096 characters; no literal is edited. -/
def Fine (ms : List Bytes) : Piece → Prop
  | .literal t _ => Lex.NoNul t ∧ t.getLast? ≠ some 92 ∧ (Str.escape t).length < 4096
  | .quoted t _ => Lex.NoNul t ∧ t.getLast? ≠ some 92 ∧ t ≠ []
  | .plain n rest => IsName n rest
  | .sum a b => 92 ∉ operandText ms a ∧ 92 ∉ operandText ms b ∧ (operandText ms a ++ operandText ms b).length < 4096
  | .edit _ _ => False

/-- All pieces are fine. -/
def AllFine (ms : List Bytes) : List Piece → Prop
  | [] => True
  | p :: ps => Fine ms p ∧ AllFine (ms ++ [meaning ms p]) ps

/-! ### Object literals -/

variable {α : Type}

/-- A field as written: `"t":` or `n:`, the pieces of its value, the value. -/
structure Field (α : Type) where
  name : Piece
  pieces : List Piece
  value : α

/-- The name of a field is one of the two kinds. -/
def IsFieldName : Piece → Prop
  | .quoted _ _ => True
  | .plain _ _ => True
  | _ => False

/-- The characters of the name. -/
def nameSource (p : Piece) : Bytes :=
  match source p with
  | .fieldName s => s
  | _ => []

/-- The names in the order in which they first appear. -/
def firstOrder : List Bytes → List Bytes
  | [] => []
  | k :: ks => k :: (firstOrder ks).filter (· ≠ k)

/-- The value written last for a name. -/
def lastFor (es : List (Bytes × α)) (k : Bytes) : Option α := (es.reverse.find? (fun e => e.1 = k)).map (·.2)

/-- The name a field is written with, and its value. -/
def written (fs : List (Field α)) : List (Bytes × α) := fs.map fun f => (meaning [] f.name, f.value)

/-- The fields as the compiler sees them. -/
def compiled (fs : List (Field α)) : List (Bytes × List Event × α) :=
  fs.map fun f => (nameSource f.name, f.pieces.map source, f.value)

/-- What reading a field gives: its value, or the error for a field that is not there. -/
def answer : Option α → Out α
  | some v => .ok v
  | none => .err

/-- The object that an object literal gives is read by `o["..."]` and by name as it was written, and its fields are listed in the
order in which they were written. -/
def IsAsWritten (T : Table) (o : List (Bytes × α)) (fs : List (Field α)) : Prop :=
  o.map (·.1) = firstOrder ((written fs).map (·.1)) ∧
  (∀ k, get o k = lastFor (written fs) k) ∧
  ∀ k rest, Fine [] (.literal k rest) → index T o (Str.escape k ++ 34 :: rest) = answer (lastFor (written fs) k)

/-- The full claim (false, see the theorems): whatever was compiled before, in the values of the fields and later. -/
def ObjectsAreAsWritten : Prop := ∀ (before : List Piece) (fs : List (Field Nat)) (later : List Piece),
  AllWellFormed 0 before → AllWellFormed 0 later →
  (∀ f ∈ fs, IsFieldName f.name ∧ WellFormed 0 f.name ∧ meaning [] f.name ≠ [] ∧ AllWellFormed 0 f.pieces) →
  ∃ T0 js0 T1 is T2 js2 o, run [] [] (before.map source) = .ok (T0, js0) ∧ names T0 (compiled fs) = .ok (T1, is) ∧
    run T1 [] (later.map source) = .ok (T2, js2) ∧ build T2 [] is = .ok o ∧ IsAsWritten T2 o fs

end Verif.ConstsSpec
