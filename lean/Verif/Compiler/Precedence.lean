import Verif.Common
/-
The split of a flat token sequence by operator groups: the control flow of `compiler_expression_tokens_to_byte_code`
(`src/compiler/compiler_expression_byte_code.cpp` 68-205) and `get_preference_operator_group`
(`src/compiler/compiler_data.cpp` 453-476, `compiler_operator.h` 6-71).
-/
namespace Verif.Comp

/-- The binary operators that reach `compiler_expression_tokens_to_byte_code` (`compiler_operator.h` 96-121). -/
inductive BOp where
  | lor | land
  | eq | ne | ge | le | gt | lt
  | add | sub | xor | mul | band | div | mod | bor | shl | shr
  | inst | in_
  deriving DecidableEq, Repr

/-- `get_preference_operator_group`, `compiler_data.cpp` 453-476 with the macros of `compiler_operator.h` 8-68. -/
def group : BOp → Nat
  | .lor => 0
  | .land => 1
  | .eq | .ne | .ge | .le | .gt | .lt => 2
  | .add | .sub => 3
  | .mul | .div | .mod => 4
  | .bor | .xor => 5
  | .band => 6
  | .shl | .shr => 7
  | .in_ | .inst => 8

/-- The search for the split operator, 100-112: the last operator of the least group. `i` = position of the first
operator of the list, `best` = `idx_split_group_preference`, `idx` = `idx_split` (positions count operators). -/
def scan {α : Type u} : List (BOp × α) → Nat → Nat → Option Nat → Option Nat
  | [], _, _, idx => idx
  | (op, _) :: rest, i, best, idx =>
    if group op ≤ best then scan rest (i + 1) (group op) (some i) else scan rest (i + 1) best idx

/-- The operator tree along which code is generated. -/
inductive Tree (α : Type u) where
  | leaf (x : α)
  | node (op : BOp) (l r : Tree α)
  deriving Repr, DecidableEq

/-- The recursion of `compiler_expression_tokens_to_byte_code` (90-95, 114-134, 165-176): operands and operators
`x op₁ x₁ op₂ x₂ ...`; the part before the split operator is the left operand, the part after it the right one.
`ZS_PREFERENCE_OPERATOR_GROUP_MAX` = 8. -/
def parse {α : Type u} (x : α) (rest : List (BOp × α)) : Tree α :=
  match scan rest 0 8 none with
  | none => .leaf x
  | some j =>
    match h : rest.drop j with
    | [] => .leaf x
    | (op, y) :: tail =>
      .node op (parse x (rest.take j)) (parse y tail)
termination_by rest.length
decreasing_by
  all_goals
    have h1 : (rest.drop j).length = tail.length + 1 := by rw [h]; rfl
    rw [List.length_drop] at h1
    try simp only [List.length_take]
    omega

end Verif.Comp
