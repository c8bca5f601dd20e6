import Verif.Vm.NativeProps
import Verif.Base.IntegerProps
import Verif.Base.FloatTextProps
/-
What a user expects of `Integer::parse` and `Float::parse`, in terms of numbers and texts.
-/
namespace Verif.Vm.NumbersSpec
open Verif Verif.Vm.Native
open Verif.Str (Bytes)

/-- What the script hands over. -/
inductive Arg where
  | int (i : Int)
  | float (x : Word)
  | text (t : Bytes)
  | undefined
  | null
  | bool
  deriving DecidableEq

/-- The variable a reference refers to, or the value itself. -/
def shown (w : World) (s : Stk) : Stk := if has s.props P_PTR_STK then w.mem.stk s.value else s

/-- The argument, as a script sees it. (Functions and other objects are none of these.) -/
inductive Shows (w : World) (s : Stk) : Arg → Prop where
  | int : kindOf w s = .int → Shows w s (.int (shown w s).value.toInt)
  | float : kindOf w s = .float → Shows w s (.float (shown w s).value)
  | text : kindOf w s = .string → (shown w s).value ≠ 0 → Shows w s (.text (w.mem.obj (shown w s).value).text)
  | undefined : (shown w s).props &&& 0xFFF = 0 → Shows w s .undefined
  | null : (shown w s).props &&& 0xFFF = 1 → Shows w s .null
  | bool : kindOf w s = .bool → Shows w s .bool

/-- `z` is the integer part of the float `x` (whose value is `scaled x / 2^1074`). -/
def IntegerPart (x : Word) (z : Int) : Prop :=
  Ieee.isNaN x = false ∧ Ieee.isInf x = false ∧
  (0 ≤ Ieee.scaled x → z * 2 ^ 1074 ≤ Ieee.scaled x ∧ Ieee.scaled x < (z + 1) * 2 ^ 1074) ∧
  (Ieee.scaled x < 0 → (z - 1) * 2 ^ 1074 < Ieee.scaled x ∧ Ieee.scaled x ≤ z * 2 ^ 1074)

/-- The text spells a number that is not negative: decimal, hexadecimal or binary. -/
inductive Spells : Bytes → Nat → Prop where
  | dec (t : Bytes) : Integer.IsDec t → Spells t (Integer.value 10 t)
  | hex (x : UInt8) (r : Bytes) : Integer.IsHex (48 :: x :: r) → Spells (48 :: x :: r) (Integer.value 16 r)
  | bin (d : Bytes) (m : UInt8) : Integer.IsBin (d ++ [m]) → Spells (d ++ [m]) (Integer.value 2 d)

/-- The integer an argument stands for. -/
inductive StandsFor : Arg → Int → Prop where
  | int (i : Int) : StandsFor (.int i) i
  | float (x : Word) (z : Int) : IntegerPart x z → StandsFor (.float x) z
  | text (t : Bytes) (n : Nat) : Spells t n → StandsFor (.text t) n
  | minus (t : Bytes) (n : Nat) : Spells t n → StandsFor (.text (45 :: t)) (-n)

/-- The number fits a script integer. -/
def InRange (z : Int) : Prop := -(2 : Int) ^ 63 ≤ z ∧ z < (2 : Int) ^ 63

/-- The float is exactly `± mant * 10 ^ e`. -/
def IsExactly (x : Word) (neg : Bool) (mant : Nat) (e : Int) : Prop :=
  Ieee.isNaN x = false ∧ Ieee.isInf x = false ∧ Ieee.neg? x = neg ∧
  mant * 10 ^ e.toNat * 2 ^ 1074 = Ieee.mag x * 10 ^ (-e).toNat

/-- `v` (in units of `2^-149`) is the value of a single precision number: 24 significant bits, below `2^128`. -/
def Single (v : Nat) : Prop := v < 2 ^ 277 ∧ ∃ q e, v = q * 2 ^ e ∧ q < 2 ^ 24

/-- An argument that `Integer::parse` can turn into an integer. -/
def Convertible : Arg → Prop
  | .int _ => True
  | .float x => ∃ z, IntegerPart x z ∧ InRange z
  | .text _ => True
  | _ => False

/-- An argument that is a number or a text. -/
def NumberOrText : Arg → Prop
  | .int _ => True
  | .float _ => True
  | .text _ => True
  | _ => False

/-- All calls before the `i`-th were made with such arguments. -/
def Before (P : Arg → Prop) (h : List (World × Stk)) (i : Nat) : Prop :=
  ∀ (j : Nat), j < i → ∃ w s a, h[j]? = some (w, s) ∧ Shows w s a ∧ P a

end Verif.Vm.NumbersSpec
