import Verif.Vm.Format
import Verif.Base.IntegerProps
/-
What formatting must do: the manual's `{n}`, `{n,m}` and `{n:dm}` (`doc/adoc/language_data_types.adoc` 698-728), and `{n,m:dk}`.
-/
namespace Verif.FormatSpec
open Verif Verif.Str Verif.Format

/-- A format text in pieces: text, or the place of argument `i`, at least `width` characters wide, a number with at least `zeros`
digits. -/
inductive Piece where
  | text (t : Bytes)
  | arg (i : Nat) (width zeros : Option Nat)

/-- How a piece is written. -/
def Piece.written : Piece → Bytes
  | .text t => t
  | .arg i w z =>
    [123] ++ Integer.decText i ++ (match w with | none => [] | some w => 44 :: Integer.decText w) ++
      (match z with | none => [] | some z => 58 :: 100 :: Integer.decText z) ++ [125]

/-- `n` copies of `c` in front make `t` at least `n` characters long. -/
def padLeft (c : UInt8) (n : Nat) (t : Bytes) : Bytes := List.replicate (n - t.length) c ++ t

/-- The text of an argument with at least `zeros` digits. -/
def shown (zeros : Nat) : Arg → Bytes
  | .int n => (if n < 0 then [45] else []) ++ padLeft 48 zeros (Integer.decText n.natAbs)
  | .text t => t

/-- What a piece stands for: a place without argument stands for itself. -/
def Piece.meaning (args : List Arg) : Piece → Bytes
  | .text t => t
  | .arg i w z =>
    match args[i]? with
    | some a => padLeft 32 (w.getD 0) (shown (z.getD 0) a)
    | none => (Piece.arg i w z).written

def written (ps : List Piece) : Bytes := ps.flatMap Piece.written
def meaning (args : List Arg) (ps : List Piece) : Bytes := ps.flatMap (Piece.meaning args)

/-- Text in pieces does not contain `{`. -/
def Piece.Plain : Piece → Prop
  | .text t => (123 : UInt8) ∉ t
  | .arg _ _ _ => True

end Verif.FormatSpec
