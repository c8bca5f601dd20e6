import Verif.Compiler.Precedence
/-
C24: operator precedence and associativity.
-/
namespace Verif.Comp

/-! ## Specification -/

/-- The documented order of operators, strongest first (`doc/adoc/language_operators.adoc` 402); operators on one line
have the same priority. -/
def documented : List (List BOp) :=
  [[.in_, .inst], [.shl, .shr], [.band], [.bor, .xor], [.mul, .div, .mod], [.add, .sub],
   [.eq, .ne, .ge, .le, .gt, .lt], [.land], [.lor]]

/-- Position of an operator in the documented table: smaller binds stronger. -/
def weakness (op : BOp) : Nat := documented.findIdx fun l => l.contains op

/-- Reading a tree from left to right. -/
def flatten {α : Type u} : Tree α → α × List (BOp × α)
  | .leaf x => (x, [])
  | .node op l r => ((flatten l).1, (flatten l).2 ++ (op, (flatten r).1) :: (flatten r).2)

/-- The operator of a tree satisfies `p` (a leaf has none). -/
def rootOk {α : Type u} (p : BOp → Prop) : Tree α → Prop
  | .leaf _ => True
  | .node op _ _ => p op

/-- Grouping by the documented table, left-associative inside a line: the left operand of an operator is built with
operators binding at least as strong, the right operand with operators binding stronger. -/
def Grouped {α : Type u} : Tree α → Prop
  | .leaf _ => True
  | .node op l r => rootOk (fun o => weakness o ≤ weakness op) l ∧ rootOk (fun o => weakness o < weakness op) r ∧
      Grouped l ∧ Grouped r

/-! ## Proofs -/

theorem weakness_group (op : BOp) : weakness op = 8 - group op := by cases op <;> decide

theorem group_le (op : BOp) : group op ≤ 8 := by cases op <;> decide

/-- `scan` finds the last operator whose group is minimal (and not above `best`). -/
theorem scan_spec {α : Type u} (l : List (BOp × α)) (i best : Nat) (idx : Option Nat) :
    (scan l i best idx = idx ∧ ∀ p ∈ l, best < group p.1) ∨
    (∃ a p b, l = a ++ p :: b ∧ scan l i best idx = some (i + a.length) ∧ group p.1 ≤ best ∧
      (∀ q ∈ a, group p.1 ≤ group q.1) ∧ (∀ q ∈ b, group p.1 < group q.1)) := by
  induction l generalizing i best idx with
  | nil => exact .inl ⟨rfl, by simp⟩
  | cons hd tl ih =>
    obtain ⟨op, y⟩ := hd
    rw [scan]
    by_cases hle : group op ≤ best
    · rw [if_pos hle]
      rcases ih (i + 1) (group op) (some i) with ⟨e, h⟩ | ⟨a, p, b, rfl, e, h1, h2, h3⟩
      · exact .inr ⟨[], (op, y), tl, rfl, by rw [e]; rfl, hle, by simp, h⟩
      · refine .inr ⟨(op, y) :: a, p, b, rfl, by rw [e, List.length_cons]; congr 1; omega, Nat.le_trans h1 hle, ?_, h3⟩
        intro q hq
        rcases List.mem_cons.mp hq with rfl | hq
        · exact h1
        · exact h2 q hq
    · rw [if_neg hle]
      rcases ih (i + 1) best idx with ⟨e, h⟩ | ⟨a, p, b, rfl, e, h1, h2, h3⟩
      · refine .inl ⟨e, ?_⟩
        intro q hq
        rcases List.mem_cons.mp hq with rfl | hq
        · exact Nat.lt_of_not_le hle
        · exact h q hq
      · refine .inr ⟨(op, y) :: a, p, b, rfl, by rw [e, List.length_cons]; congr 1; omega, h1, ?_, h3⟩
        intro q hq
        rcases List.mem_cons.mp hq with rfl | hq
        · show group p.1 ≤ group op
          omega
        · exact h2 q hq

/-- How `parse` splits: at the last operator of the least group. -/
theorem parse_cases {α : Type u} (x : α) (rest : List (BOp × α)) :
    (rest = [] ∧ parse x rest = .leaf x) ∨
    (∃ a op y b, rest = a ++ (op, y) :: b ∧ parse x rest = .node op (parse x a) (parse y b) ∧
      (∀ q ∈ a, group op ≤ group q.1) ∧ (∀ q ∈ b, group op < group q.1)) := by
  rcases scan_spec rest 0 8 none with ⟨e, h⟩ | ⟨a, p, b, rfl, e, h1, h2, h3⟩
  · cases rest with
    | nil => exact .inl ⟨rfl, by rw [parse, e]⟩
    | cons q l =>
      have := h q (List.mem_cons_self ..)
      have := group_le q.1
      omega
  · refine .inr ⟨a, p.1, p.2, b, rfl, ?_, h2, h3⟩
    rw [parse, e]
    have hd : (a ++ p :: b).drop (0 + a.length) = (p.1, p.2) :: b := by simp
    have ht : (a ++ p :: b).take (0 + a.length) = a := by simp
    simp only []
    split
    · rename_i h; rw [hd] at h; cases h
    · rename_i h
      rw [hd] at h
      cases h
      rw [ht]

/-- Every operand and operator of the token sequence is used once, in order. -/
theorem parse_flatten {α : Type u} (x : α) (rest : List (BOp × α)) : flatten (parse x rest) = (x, rest) := by
  induction hn : rest.length using Nat.strongRecOn generalizing x rest with
  | ind n ih =>
    rcases parse_cases x rest with ⟨rfl, e⟩ | ⟨a, op, y, b, rfl, e, -, -⟩
    · rw [e]; rfl
    · rw [e]
      simp only [List.length_append, List.length_cons] at hn
      rw [flatten, ih a.length (by omega) x a rfl, ih b.length (by omega) y b rfl]

/-- The operator of a tree occurs in the sequence read from it. -/
theorem root_mem {α : Type u} (t : Tree α) (p : BOp → Prop) (h : ∀ q ∈ (flatten t).2, p q.1) : rootOk p t := by
  cases t with
  | leaf x => trivial
  | node op l r => exact h (op, (flatten r).1) (by simp [flatten])

/-- The compiled evaluation is grouped by the documented table, left-associatively inside a line. -/
theorem parse_grouped {α : Type u} (x : α) (rest : List (BOp × α)) : Grouped (parse x rest) := by
  induction hn : rest.length using Nat.strongRecOn generalizing x rest with
  | ind n ih =>
    rcases parse_cases x rest with ⟨rfl, e⟩ | ⟨a, op, y, b, rfl, e, h1, h2⟩
    · rw [e]; trivial
    · rw [e]
      simp only [List.length_append, List.length_cons] at hn
      refine ⟨root_mem _ _ ?_, root_mem _ _ ?_, ih a.length (by omega) x a rfl, ih b.length (by omega) y b rfl⟩
      · rw [parse_flatten]
        intro q hq
        have := h1 q hq
        rw [weakness_group, weakness_group]; omega
      · rw [parse_flatten]
        intro q hq
        have := h2 q hq
        have := group_le q.1
        rw [weakness_group, weakness_group]; omega

theorem grouped_all {α : Type u} (t : Tree α) (h : Grouped t) :
    ∀ n, rootOk (fun o => n ≤ group o) t → ∀ q ∈ (flatten t).2, n ≤ group q.1 := by
  induction t with
  | leaf x => intro n _ q hq; simp [flatten] at hq
  | node op l r ihl ihr =>
    intro n hn q hq
    obtain ⟨h1, h2, h3, h4⟩ := h
    have hn' : n ≤ group op := hn
    have hl : rootOk (fun o => group op ≤ group o) l := by
      cases l with
      | leaf _ => trivial
      | node o _ _ =>
        have h1' : weakness o ≤ weakness op := h1
        rw [weakness_group, weakness_group] at h1'
        have := group_le o; have := group_le op
        show group op ≤ group o
        omega
    have hr : rootOk (fun o => group op ≤ group o) r := by
      cases r with
      | leaf _ => trivial
      | node o _ _ =>
        have h2' : weakness o < weakness op := h2
        rw [weakness_group, weakness_group] at h2'
        have := group_le o; have := group_le op
        show group op ≤ group o
        omega
    simp only [flatten, List.mem_append, List.mem_cons] at hq
    rcases hq with hq | rfl | hq
    · exact Nat.le_trans hn' (ihl h3 _ hl q hq)
    · exact hn'
    · exact Nat.le_trans hn' (ihr h4 _ hr q hq)

/-- Splitting a sequence at the last operator of the least group is unique. -/
theorem split_unique {α : Type u} {a a' b b' : List (BOp × α)} {p p' : BOp × α} (e : a ++ p :: b = a' ++ p' :: b')
    (h1 : ∀ q ∈ a, group p.1 ≤ group q.1) (h2 : ∀ q ∈ b, group p.1 < group q.1)
    (h1' : ∀ q ∈ a', group p'.1 ≤ group q.1) (h2' : ∀ q ∈ b', group p'.1 < group q.1) : a = a' ∧ p = p' ∧ b = b' := by
  rcases List.append_eq_append_iff.mp e with ⟨c, ha, hb⟩ | ⟨c, ha, hb⟩
  · cases c with
    | nil =>
      simp only [List.append_nil, List.nil_append, List.cons.injEq] at ha hb
      exact ⟨ha.symm, hb.1, hb.2⟩
    | cons q c =>
      simp only [List.cons_append, List.cons.injEq] at hb
      obtain ⟨rfl, rfl⟩ := hb
      have := h1' p (by rw [ha]; simp)
      have := h2 p' (by simp)
      omega
  · cases c with
    | nil =>
      simp only [List.append_nil, List.nil_append, List.cons.injEq] at ha hb
      exact ⟨ha, hb.1.symm, hb.2.symm⟩
    | cons q c =>
      simp only [List.cons_append, List.cons.injEq] at hb
      obtain ⟨rfl, rfl⟩ := hb
      have := h1 p' (by rw [ha]; simp)
      have := h2' p (by simp)
      omega

/-- Among all ways to put parentheses around the sequence, the compiled one is the only one that is grouped by the
documented table. -/
theorem parse_unique {α : Type u} (t : Tree α) (h : Grouped t) : t = parse (flatten t).1 (flatten t).2 := by
  induction t with
  | leaf x =>
    show Tree.leaf x = parse x []
    rcases parse_cases x [] with ⟨-, e⟩ | ⟨a, op, y, b, e, -⟩
    · exact e.symm
    · simp at e
  | node op l r ihl ihr =>
    obtain ⟨h1, h2, h3, h4⟩ := h
    have hl : ∀ q ∈ (flatten l).2, group op ≤ group q.1 := by
      apply grouped_all l h3
      cases l with
      | leaf _ => trivial
      | node o _ _ =>
        have h1' : weakness o ≤ weakness op := h1
        rw [weakness_group, weakness_group] at h1'
        have := group_le o; have := group_le op
        show group op ≤ group o
        omega
    have hr : ∀ q ∈ (flatten r).2, group op + 1 ≤ group q.1 := by
      apply grouped_all r h4
      cases r with
      | leaf _ => trivial
      | node o _ _ =>
        have h2' : weakness o < weakness op := h2
        rw [weakness_group, weakness_group] at h2'
        have := group_le o; have := group_le op
        show group op + 1 ≤ group o
        omega
    rcases parse_cases (flatten (.node op l r)).1 (flatten (.node op l r)).2 with ⟨e, -⟩ | ⟨a, o, y, b, e, e', g1, g2⟩
    · simp [flatten] at e
    · have e2 : (flatten l).2 ++ (op, (flatten r).1) :: (flatten r).2 = a ++ (o, y) :: b := e
      obtain ⟨rfl, hp, rfl⟩ := split_unique e2 hl (fun q hq => hr q hq) g1 g2
      cases hp
      rw [e']
      have : (flatten (.node op l r)).1 = (flatten l).1 := rfl
      rw [this, ← ihl h3, ← ihr h4]

/-- 1 + 2 * 3 - 4 << 5 is (1 + (2 * 3)) - (4 << 5). -/
example : parse 1 [(.add, 2), (.mul, 3), (.sub, 4), (.shl, 5)] =
    Tree.node .sub (.node .add (.leaf 1) (.node .mul (.leaf 2) (.leaf 3))) (.node .shl (.leaf 4) (.leaf 5)) := by
  symm
  exact parse_unique (Tree.node .sub (.node .add (.leaf 1) (.node .mul (.leaf 2) (.leaf 3))) (.node .shl (.leaf 4) (.leaf 5)))
    (by simp +decide [Grouped, rootOk])

end Verif.Comp
