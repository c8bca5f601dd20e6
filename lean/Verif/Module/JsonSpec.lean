import Verif.Base.Str
/-
Specification for C47–C49, C64 and C65: the JSON grammar (RFC 8259) with the value each text stands for. It does not
mention the model. Left out of the grammar: the escape `\uXXXX`, and the demand that bytes above 127 form UTF-8.
-/
namespace Verif.Json
open Verif.Str (Bytes)

/-- What a JSON text stands for. A number is kept as its text. -/
inductive JVal where
  | null
  | bool (b : Bool)
  | num (t : Bytes)
  | str (s : Bytes)
  | arr (l : List JVal)
  | obj (l : List (Bytes × JVal))

/-- Blanks: space, tab, line feed, carriage return. -/
def Ws (w : Bytes) : Prop := ∀ c ∈ w, c = 32 ∨ c = 9 ∨ c = 10 ∨ c = 13

def Digits (t : Bytes) : Prop := t ≠ [] ∧ ∀ c ∈ t, 48 ≤ c ∧ c ≤ 57

/-- `number = [ minus ] int [ frac ] [ exp ]`. -/
def IsNumber (t : Bytes) : Prop :=
  ∃ s i f e, t = s ++ (i ++ (f ++ e)) ∧
    (s = [] ∨ s = [45]) ∧
    (i = [48] ∨ (Digits i ∧ i.head? ≠ some 48)) ∧
    (f = [] ∨ ∃ d, Digits d ∧ f = 46 :: d) ∧
    (e = [] ∨ ∃ m sg d, (m = 101 ∨ m = 69) ∧ (sg = [] ∨ sg = [43] ∨ sg = [45]) ∧ Digits d ∧ e = m :: (sg ++ d))

/-- The escapes and what they stand for. -/
def escapes : List (UInt8 × UInt8) :=
  [(34, 34), (92, 92), (47, 47), (98, 8), (102, 12), (110, 10), (114, 13), (116, 9)]

/-- What is between the quotes, and the string it stands for. -/
inductive Chars : Bytes → Bytes → Prop where
  | nil : Chars [] []
  | plain {c : UInt8} {t v : Bytes} : 32 ≤ c → c ≠ 34 → c ≠ 92 → Chars t v → Chars (c :: t) (c :: v)
  | esc {e c : UInt8} {t v : Bytes} : (e, c) ∈ escapes → Chars t v → Chars (92 :: e :: t) (c :: v)

mutual
inductive Value : Bytes → JVal → Prop where
  | null : Value [110, 117, 108, 108] .null
  | tru : Value [116, 114, 117, 101] (.bool true)
  | fls : Value [102, 97, 108, 115, 101] (.bool false)
  | num {t : Bytes} : IsNumber t → Value t (.num t)
  | str {t v : Bytes} : Chars t v → Value (34 :: (t ++ [34])) (.str v)
  | arr0 {w : Bytes} : Ws w → Value (91 :: (w ++ [93])) (.arr [])
  | arr {t : Bytes} {l : List JVal} : Elems t l → Value (91 :: (t ++ [93])) (.arr l)
  | obj0 {w : Bytes} : Ws w → Value (123 :: (w ++ [125])) (.obj [])
  | obj {t : Bytes} {l : List (Bytes × JVal)} : Members t l → Value (123 :: (t ++ [125])) (.obj l)
/-- One or more values separated by commas. -/
inductive Elems : Bytes → List JVal → Prop where
  | one {a t b : Bytes} {v : JVal} : Ws a → Value t v → Ws b → Elems (a ++ (t ++ b)) [v]
  | more {a t b u : Bytes} {v : JVal} {l : List JVal} : Ws a → Value t v → Ws b → Elems u l →
      Elems (a ++ (t ++ (b ++ 44 :: u))) (v :: l)
/-- One or more members separated by commas. -/
inductive Members : Bytes → List (Bytes × JVal) → Prop where
  | one {a k x b c t d : Bytes} {v : JVal} : Ws a → Chars k x → Ws b → Ws c → Value t v → Ws d →
      Members (a ++ 34 :: (k ++ 34 :: (b ++ 58 :: (c ++ (t ++ d))))) [(x, v)]
  | more {a k x b c t d u : Bytes} {v : JVal} {l : List (Bytes × JVal)} : Ws a → Chars k x → Ws b → Ws c → Value t v →
      Ws d → Members u l → Members (a ++ 34 :: (k ++ 34 :: (b ++ 58 :: (c ++ (t ++ (d ++ 44 :: u)))))) ((x, v) :: l)
end

/-- A JSON text. -/
inductive Text : Bytes → JVal → Prop where
  | mk {a t b : Bytes} {v : JVal} : Ws a → Value t v → Ws b → Text (a ++ (t ++ b)) v

end Verif.Json
