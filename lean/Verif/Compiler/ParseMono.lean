import Verif.Compiler.Parse
/-
More fuel does not change the result of a function of `Parse.lean` that has ended: every function is monotone in
the fuel of its loops and in the recursive functions it is given.
-/
namespace Verif.Parse
open Verif Verif.Str Verif.Lex P

variable {E : Sem} {α β : Type}

/-- `m'` ends as `m` does, whenever `m` ends. -/
def Le (m m' : P E α) : Prop := ∀ st r, m st = some r → m' st = some r

theorem Le.refl (m : P E α) : Le m m := fun _ _ h => h

theorem Le.bind {m m' : P E α} {f f' : α → P E β} (h : Le m m') (hf : ∀ a, Le (f a) (f' a)) : Le (m >>= f) (m' >>= f') := by
  intro st r hr
  change P.andThen m f st = some r at hr
  change P.andThen m' f' st = some r
  unfold P.andThen at hr ⊢
  cases hm : m st with
  | none => rw [hm] at hr; cases hr
  | some x =>
    rw [hm] at hr
    rw [h _ _ hm]
    obtain ⟨y, st'⟩ := x
    cases y with
    | val a => exact hf a _ _ hr
    | null => exact hr
    | thrown => exact hr
    | ub => exact hr

theorem Le.catchNull {m m' : P E α} (h : Le m m') : Le (P.catchNull m) (P.catchNull m') := by
  intro st r hr
  unfold P.catchNull at hr ⊢
  cases hm : m st with
  | none => rw [hm] at hr; cases hr
  | some x =>
    rw [hm] at hr
    rw [h _ _ hm]
    exact hr

theorem Le.spent {m : P E α} : Le P.spent m := fun _ _ h => by cases h

theorem Le.loop {f f' : β → P E (β ⊕ α)} (hf : ∀ b, Le (f b) (f' b)) :
    ∀ {N N' : Nat} (_ : N ≤ N') (b : β), Le (P.loop N f b) (P.loop N' f' b)
  | 0, _, _, _ => Le.spent
  | N + 1, 0, h, _ => absurd h (Nat.not_succ_le_zero _)
  | N + 1, N' + 1, h, b => by
    unfold P.loop
    refine Le.bind (hf b) fun x => ?_
    cases x with
    | inl b => exact Le.loop hf (Nat.le_of_succ_le_succ h) b
    | inr a => exact Le.refl _

theorem Le.ite {c : Prop} [Decidable c] {a a' b b' : P E α} (h1 : Le a a') (h2 : Le b b') :
    Le (if c then a else b) (if c then a' else b') := by
  split
  · exact h1
  · exact h2

theorem ignore_mono : ∀ {N N' : Nat} (_ : N ≤ N') (s : Bytes) (n : Nat) {r}, ignoreBlanks N s n = some r →
    ignoreBlanks N' s n = some r
  | 0, _, _, _, _, _, h => by simp [ignoreBlanks] at h
  | N + 1, 0, h, _, _, _, _ => absurd h (Nat.not_succ_le_zero _)
  | N + 1, N' + 1, h, s, n, r, hr => by
    rw [ignoreBlanks] at hr ⊢
    split at hr
    · exact ignore_mono (Nat.le_of_succ_le_succ h) _ _ hr
    all_goals exact hr

theorem blanks_mono {N N' : Nat} (h : N ≤ N') (s : Bytes) : Le (blanks N s : P E Bytes) (blanks N' s) := by
  intro st r hr
  unfold blanks at hr ⊢
  cases hi : ignoreBlanks N s 0 with
  | none => rw [hi] at hr; cases hr
  | some x =>
    rw [hi] at hr
    rw [ignore_mono h s 0 hi]
    exact hr

theorem num_mono : ∀ {N N' : Nat} (_ : N ≤ N') (m : Num) (s : Bytes) {r}, numLoop N m s = some r → numLoop N' m s = some r
  | 0, _, _, _, _, _, h => by simp [numLoop] at h
  | N + 1, 0, h, _, _, _, _ => absurd h (Nat.not_succ_le_zero _)
  | N + 1, N' + 1, h, m, s, r, hr => by
    rw [numLoop] at hr ⊢
    split at hr
    · exact num_mono (Nat.le_of_succ_le_succ h) _ _ hr
    all_goals exact hr

/-- The recursive functions end as others do, whenever they end. -/
structure RecLe (R R' : Rec E) : Prop where
  sub : ∀ s e props, Le (R.sub s e props) (R'.sub s e props)
  rcv : ∀ b s, Le (R.recursive b s) (R'.recursive b s)

/-! ### Function by function -/

/-- The lemmas about single functions. -/
syntax "mono1" : tactic
macro_rules | `(tactic| mono1) => `(tactic| exact blanks_mono ‹_› _)
macro_rules | `(tactic| mono1) => `(tactic| exact (RecLe.sub ‹_›) _ _ _)
macro_rules | `(tactic| mono1) => `(tactic| exact (RecLe.rcv ‹_›) _ _)
macro_rules | `(tactic| mono1) => `(tactic| exact Le.refl _)

/-- One step towards a composite function. -/
macro "mono" : tactic => `(tactic| repeat' first
  | with_reducible mono1
  | refine Le.catchNull ?_
  | refine Le.bind ?_ fun _ => ?_
  | refine Le.loop (fun _ => ?_) ‹_› _
  | refine Le.ite ?_ ?_
  | dsimp only
  | split)

variable {N N' : Nat} {R R' : Rec E}

theorem isAnon_mono (hN : N ≤ N') (s : Bytes) :
    Le (isAnon N s : P E Bool) (isAnon N' s) := by
  unfold isAnon
  mono
macro_rules | `(tactic| mono1) => `(tactic| exact isAnon_mono ‹_› _)

theorem endOrKeyword_mono (hN : N ≤ N') (s : Bytes) :
    Le (endOrKeyword N s : P E Bool) (endOrKeyword N' s) := by
  unfold endOrKeyword
  mono
macro_rules | `(tactic| mono1) => `(tactic| exact endOrKeyword_mono ‹_› _)

theorem literalNumber_mono (hN : N ≤ N') (s : Bytes) : Le (literalNumber N s : P E (Option Bytes)) (literalNumber N' s) := by
  unfold literalNumber
  refine Le.bind (blanks_mono hN _) fun _ => Le.bind (Le.refl _) fun _ => Le.ite (Le.refl _) (Le.ite (Le.refl _) ?_)
  refine Le.bind (Le.refl _) fun o => ?_
  cases o with
  | none => exact Le.refl _
  | some x =>
    intro st r hr
    simp only [] at hr ⊢
    cases hn : numLoop N x.1 x.2 with
    | none => rw [hn] at hr; cases hr
    | some y =>
      rw [hn] at hr
      rw [num_mono hN _ _ hn]
      exact hr
macro_rules | `(tactic| mono1) => `(tactic| exact literalNumber_mono ‹_› _)

theorem symbol_mono (hN : N ≤ N') (pre : Option Bytes) (s : Bytes) :
    Le (symbol N pre s : P E Tok) (symbol N' pre s) := by
  unfold symbol
  mono
macro_rules | `(tactic| mono1) => `(tactic| exact symbol_mono ‹_› _ _)

theorem staticRef_mono (hN : N ≤ N') (t : Tok) :
    Le (staticRef N t : P E Tok) (staticRef N' t) := by
  unfold staticRef
  mono
macro_rules | `(tactic| mono1) => `(tactic| exact staticRef_mono ‹_› _)

theorem expression_mono {sub sub' : Bytes → Option Bytes → Props → P E Bytes} (hs : ∀ s e props, Le (sub s e props) (sub' s e props))
    (hN : N ≤ N') (s : Bytes) (props : Props) : Le (expression sub N s props) (expression sub' N' s props) := by
  unfold expression
  have hr : ∀ b, Le (seqRound sub props b) (seqRound sub' props b) := by
    rintro ⟨right, only, q⟩
    unfold seqRound
    exact Le.bind (hs _ _ _) fun _ => Le.refl _
  refine Le.bind (hs _ _ _) fun q => ?_
  refine Le.ite ?_ (Le.refl _)
  exact Le.bind (Le.refl _) fun _ => Le.bind (Le.loop hr hN _) fun _ => Le.refl _
macro_rules | `(tactic| mono1) => `(tactic| exact expression_mono (RecLe.sub ‹_›) ‹_› _ _)

theorem block_mono (hR : RecLe R R') (hN : N ≤ N') (s : Bytes) :
    Le (block R N s) (block R' N' s) := by
  unfold block
  mono
macro_rules | `(tactic| mono1) => `(tactic| exact block_mono ‹_› ‹_› _)

theorem memberExt_mono (hN : N ≤ N') (s : Bytes) :
    Le (memberExt N s : P E (Bytes × Bytes)) (memberExt N' s) := by
  unfold memberExt
  mono
macro_rules | `(tactic| mono1) => `(tactic| exact memberExt_mono ‹_› _)

theorem passing_mono (hN : N ≤ N') (p : Bytes) :
    Le (passing N p : P E (Passing × Bytes)) (passing N' p) := by
  unfold passing
  mono
macro_rules | `(tactic| mono1) => `(tactic| exact passing_mono ‹_› _)

theorem param_mono (hR : RecLe R R') (hN : N ≤ N')  (x : Bool × Bytes) :
    Le (param R N x) (param R' N' x) := by
  obtain ⟨_, _⟩ := x
  unfold param
  mono
macro_rules | `(tactic| mono1) => `(tactic| exact param_mono ‹_› ‹_› _)

theorem functionName_mono (hN : N ≤ N') (cls : Bool) (anon : Bool) (p : Bytes) :
    Le (functionName N cls anon p : P E Bytes) (functionName N' cls anon p) := by
  unfold functionName
  mono
macro_rules | `(tactic| mono1) => `(tactic| exact functionName_mono ‹_› _ _ _)

theorem keywordFunction_mono (hR : RecLe R R') (hN : N ≤ N') (cls : Bool) (anon : Bool) (s : Bytes) :
    Le (keywordFunction R N cls anon s) (keywordFunction R' N' cls anon s) := by
  unfold keywordFunction
  mono
macro_rules | `(tactic| mono1) => `(tactic| exact keywordFunction_mono ‹_› ‹_› _ _ _)

theorem objectTest_mono (hN : N ≤ N') (s : Bytes) :
    Le (objectTest N s : P E Bool) (objectTest N' s) := by
  unfold objectTest
  mono
macro_rules | `(tactic| mono1) => `(tactic| exact objectTest_mono ‹_› _)

theorem objectItem_mono (hR : RecLe R R') (hN : N ≤ N')  (x : Bool × Bytes) :
    Le (objectItem R N x) (objectItem R' N' x) := by
  obtain ⟨_, _⟩ := x
  unfold objectItem
  mono
macro_rules | `(tactic| mono1) => `(tactic| exact objectItem_mono ‹_› ‹_› _)

theorem objectObject_mono (hR : RecLe R R') (hN : N ≤ N') (s : Bytes) :
    Le (objectObject R N s) (objectObject R' N' s) := by
  unfold objectObject
  mono
macro_rules | `(tactic| mono1) => `(tactic| exact objectObject_mono ‹_› ‹_› _)

theorem arrayItem_mono (hR : RecLe R R') (hN : N ≤ N')  (x : Bool × Bytes) :
    Le (arrayItem R N x) (arrayItem R' N' x) := by
  obtain ⟨_, _⟩ := x
  unfold arrayItem
  mono
macro_rules | `(tactic| mono1) => `(tactic| exact arrayItem_mono ‹_› ‹_› _)

theorem objectVector_mono (hR : RecLe R R') (hN : N ≤ N') (s : Bytes) :
    Le (objectVector R N s) (objectVector R' N' s) := by
  unfold objectVector
  mono
macro_rules | `(tactic| mono1) => `(tactic| exact objectVector_mono ‹_› ‹_› _)

theorem newName_mono (hN : N ≤ N')  (x : Bytes × Bytes) :
    Le (newName N x : P E ((Bytes × Bytes) ⊕ (Bytes × Bytes))) (newName N' x) := by
  obtain ⟨_, _⟩ := x
  unfold newName
  mono
macro_rules | `(tactic| mono1) => `(tactic| exact newName_mono ‹_› _)

theorem newArg_mono (hR : RecLe R R') (hN : N ≤ N') (p : Bytes) :
    Le (newArg R N p) (newArg R' N' p) := by
  unfold newArg
  mono
macro_rules | `(tactic| mono1) => `(tactic| exact newArg_mono ‹_› ‹_› _)

theorem objectNew_mono (hR : RecLe R R') (hN : N ≤ N') (s : Bytes) :
    Le (objectNew R N s) (objectNew R' N' s) := by
  unfold objectNew
  mono
macro_rules | `(tactic| mono1) => `(tactic| exact objectNew_mono ‹_› ‹_› _)

theorem callArg_mono (hR : RecLe R R') (hN : N ≤ N') (props : Props) (x : Nat × Bytes) :
    Le (callArg R N props x) (callArg R' N' props x) := by
  obtain ⟨_, _⟩ := x
  unfold callArg
  mono
macro_rules | `(tactic| mono1) => `(tactic| exact callArg_mono ‹_› ‹_› _ _)

theorem access_mono (hR : RecLe R R') (hN : N ≤ N') (props : Props) (t : Bytes) :
    Le (access R N props t) (access R' N' props t) := by
  unfold access
  mono
macro_rules | `(tactic| mono1) => `(tactic| exact access_mono ‹_› ‹_› _ _)

theorem accesses_mono (hR : RecLe R R') (hN : N ≤ N') (props : Props) (t : Tok) :
    Le (accesses R N props t) (accesses R' N' props t) := by
  unfold accesses
  mono
macro_rules | `(tactic| mono1) => `(tactic| exact accesses_mono ‹_› ‹_› _ _)

theorem tokenStart_mono (hR : RecLe R R') (hN : N ≤ N') (props : Props) (pre : Option Bytes) (p : Bytes) :
    Le (tokenStart R N props pre p) (tokenStart R' N' props pre p) := by
  unfold tokenStart
  mono
macro_rules | `(tactic| mono1) => `(tactic| exact tokenStart_mono ‹_› ‹_› _ _ _)

theorem token_mono (hR : RecLe R R') (hN : N ≤ N') (props : Props) (s : Bytes) :
    Le (token R N props s) (token R' N' props s) := by
  unfold token
  mono
macro_rules | `(tactic| mono1) => `(tactic| exact token_mono ‹_› ‹_› _ _)

theorem subRound_mono (hR : RecLe R R') (hN : N ≤ N') (props : Props) (s : Bytes) :
    Le (subRound R N props s) (subRound R' N' props s) := by
  unfold subRound
  mono
macro_rules | `(tactic| mono1) => `(tactic| exact subRound_mono ‹_› ‹_› _ _)

theorem ternary_mono (hR : RecLe R R') (props : Props) (p : Bytes) :
    Le (ternary R props p) (ternary R' props p) := by
  unfold ternary
  mono
macro_rules | `(tactic| mono1) => `(tactic| exact ternary_mono ‹_› _ _)

theorem subExp_mono (hR : RecLe R R') (hN : N ≤ N') (s : Bytes) (expect : Option Bytes) (props : Props) :
    Le (subExp R N s expect props) (subExp R' N' s expect props) := by
  unfold subExp
  mono
macro_rules | `(tactic| mono1) => `(tactic| exact subExp_mono ‹_› ‹_› _ _ _)
macro_rules | `(tactic| mono1) => `(tactic| exact expression_mono (fun _ _ _ => subExp_mono ‹_› ‹_› _ _ _) ‹_› _ _)

theorem variable1_mono (hR : RecLe R R') (hN : N ≤ N') (cls : Bool) (const : Bool) (props : Props) (s : Bytes) :
    Le (variable1 R N cls const props s) (variable1 R' N' cls const props s) := by
  unfold variable1
  mono
macro_rules | `(tactic| mono1) => `(tactic| exact variable1_mono ‹_› ‹_› _ _ _ _)

theorem keywordVar_mono (hR : RecLe R R') (hN : N ≤ N') (cls : Bool) (props : Props) (s : Bytes) :
    Le (keywordVar R N cls props s) (keywordVar R' N' cls props s) := by
  unfold keywordVar
  mono
macro_rules | `(tactic| mono1) => `(tactic| exact keywordVar_mono ‹_› ‹_› _ _ _)

theorem propertyItem_mono (hR : RecLe R R') (hN : N ≤ N') (p : Bytes) :
    Le (propertyItem R N p) (propertyItem R' N' p) := by
  unfold propertyItem
  mono
macro_rules | `(tactic| mono1) => `(tactic| exact propertyItem_mono ‹_› ‹_› _)

theorem classProperty_mono (hR : RecLe R R') (hN : N ≤ N') (s : Bytes) :
    Le (classProperty R N s) (classProperty R' N' s) := by
  unfold classProperty
  mono
macro_rules | `(tactic| mono1) => `(tactic| exact classProperty_mono ‹_› ‹_› _)

theorem classItem_mono (hR : RecLe R R') (hN : N ≤ N') (p : Bytes) :
    Le (classItem R N p) (classItem R' N' p) := by
  unfold classItem
  mono
macro_rules | `(tactic| mono1) => `(tactic| exact classItem_mono ‹_› ‹_› _)

theorem keywordClass_mono (hR : RecLe R R') (hN : N ≤ N') (s : Bytes) :
    Le (keywordClass R N s) (keywordClass R' N' s) := by
  unfold keywordClass
  mono
macro_rules | `(tactic| mono1) => `(tactic| exact keywordClass_mono ‹_› ‹_› _)

theorem keywordDelete_mono (hR : RecLe R R') (hN : N ≤ N') (s : Bytes) :
    Le (keywordDelete R N s) (keywordDelete R' N' s) := by
  unfold keywordDelete
  mono
macro_rules | `(tactic| mono1) => `(tactic| exact keywordDelete_mono ‹_› ‹_› _)

theorem returnItem_mono (hR : RecLe R R') (hN : N ≤ N') (s : Bytes) :
    Le (returnItem R N s) (returnItem R' N' s) := by
  unfold returnItem
  mono
macro_rules | `(tactic| mono1) => `(tactic| exact returnItem_mono ‹_› ‹_› _)

theorem keywordReturn_mono (hR : RecLe R R') (hN : N ≤ N') (s : Bytes) :
    Le (keywordReturn R N s) (keywordReturn R' N' s) := by
  unfold keywordReturn
  mono
macro_rules | `(tactic| mono1) => `(tactic| exact keywordReturn_mono ‹_› ‹_› _)

theorem ifRound_mono (hR : RecLe R R') (hN : N ≤ N') (s : Bytes) :
    Le (ifRound R N s) (ifRound R' N' s) := by
  unfold ifRound
  mono
macro_rules | `(tactic| mono1) => `(tactic| exact ifRound_mono ‹_› ‹_› _)

theorem keywordIf_mono (hR : RecLe R R') (hN : N ≤ N') (s : Bytes) :
    Le (keywordIf R N s) (keywordIf R' N' s) := by
  unfold keywordIf
  mono
macro_rules | `(tactic| mono1) => `(tactic| exact keywordIf_mono ‹_› ‹_› _)

theorem semicolons_mono (hN : N ≤ N') (p : Bytes) :
    Le (semicolons N p : P E (Bytes ⊕ Bytes)) (semicolons N' p) := by
  unfold semicolons
  mono
macro_rules | `(tactic| mono1) => `(tactic| exact semicolons_mono ‹_› _)

theorem switchItem_mono (hR : RecLe R R') (hN : N ≤ N') (p : Bytes) :
    Le (switchItem R N p) (switchItem R' N' p) := by
  unfold switchItem
  mono
macro_rules | `(tactic| mono1) => `(tactic| exact switchItem_mono ‹_› ‹_› _)

theorem keywordSwitch_mono (hR : RecLe R R') (hN : N ≤ N') (s : Bytes) :
    Le (keywordSwitch R N s) (keywordSwitch R' N' s) := by
  unfold keywordSwitch
  mono
macro_rules | `(tactic| mono1) => `(tactic| exact keywordSwitch_mono ‹_› ‹_› _)

theorem keywordJump_mono (hN : N ≤ N') (k : Nat) (s : Bytes) :
    Le (keywordJump N k s : P E Bytes) (keywordJump N' k s) := by
  unfold keywordJump
  mono
macro_rules | `(tactic| mono1) => `(tactic| exact keywordJump_mono ‹_› _ _)

theorem keywordWhile_mono (hR : RecLe R R') (hN : N ≤ N') (s : Bytes) :
    Le (keywordWhile R N s) (keywordWhile R' N' s) := by
  unfold keywordWhile
  mono
macro_rules | `(tactic| mono1) => `(tactic| exact keywordWhile_mono ‹_› ‹_› _)

theorem keywordDo_mono (hR : RecLe R R') (hN : N ≤ N') (s : Bytes) :
    Le (keywordDo R N s) (keywordDo R' N' s) := by
  unfold keywordDo
  mono
macro_rules | `(tactic| mono1) => `(tactic| exact keywordDo_mono ‹_› ‹_› _)

theorem forBody_mono (hR : RecLe R R') (hN : N ≤ N') (p : Bytes) :
    Le (forBody R N p) (forBody R' N' p) := by
  unfold forBody
  mono
macro_rules | `(tactic| mono1) => `(tactic| exact forBody_mono ‹_› ‹_› _)

theorem forHead_mono (hR : RecLe R R') (hN : N ≤ N') (p : Bytes) :
    Le (forHead R N p) (forHead R' N' p) := by
  unfold forHead
  mono
macro_rules | `(tactic| mono1) => `(tactic| exact forHead_mono ‹_› ‹_› _)

theorem forIn_mono (hR : RecLe R R') (hN : N ≤ N') (t : Bytes) :
    Le (forIn R N t) (forIn R' N' t) := by
  unfold forIn
  mono
macro_rules | `(tactic| mono1) => `(tactic| exact forIn_mono ‹_› ‹_› _)

theorem forInit_mono (hR : RecLe R R') (hN : N ≤ N') (p : Bytes) :
    Le (forInit R N p) (forInit R' N' p) := by
  unfold forInit
  mono
macro_rules | `(tactic| mono1) => `(tactic| exact forInit_mono ‹_› ‹_› _)

theorem keywordFor_mono (hR : RecLe R R') (hN : N ≤ N') (s : Bytes) :
    Le (keywordFor R N s) (keywordFor R' N' s) := by
  unfold keywordFor
  mono
macro_rules | `(tactic| mono1) => `(tactic| exact keywordFor_mono ‹_› ‹_› _)

theorem importFile_mono (hN : N ≤ N') (s : Bytes) :
    Le (importFile N s : P E Bytes) (importFile N' s) := by
  unfold importFile
  mono
macro_rules | `(tactic| mono1) => `(tactic| exact importFile_mono ‹_› _)

theorem keyword_mono (hR : RecLe R R') (hN : N ≤ N') (k : Bytes) (s : Bytes) :
    Le (keyword R N k s) (keyword R' N' k s) := by
  unfold keyword
  mono
macro_rules | `(tactic| mono1) => `(tactic| exact keyword_mono ‹_› ‹_› _ _)

theorem statement_mono (hR : RecLe R R') (hN : N ≤ N') (ret : Bool) (p : Bytes) :
    Le (statement R N ret p) (statement R' N' ret p) := by
  unfold statement
  mono
macro_rules | `(tactic| mono1) => `(tactic| exact statement_mono ‹_› ‹_› _ _)

theorem statements1_mono (hR : RecLe R R') (hN : N ≤ N') (ret : Bool) (p : Bytes) :
    Le (statements1 R N ret p) (statements1 R' N' ret p) := by
  unfold statements1
  mono
macro_rules | `(tactic| mono1) => `(tactic| exact statements1_mono ‹_› ‹_› _ _)

theorem statements_mono (hR : RecLe R R') (hN : N ≤ N') (ret : Bool) (s : Bytes) :
    Le (statements R N ret s) (statements R' N' ret s) := by
  unfold statements
  mono
macro_rules | `(tactic| mono1) => `(tactic| exact statements_mono ‹_› ‹_› _ _)

/-! ### The whole -/

theorem parser_mono : ∀ {d d' : Nat} (_ : d ≤ d') (_ : N ≤ N'), RecLe (parser N d : Rec E) (parser N' d')
  | 0, _, _, _ => ⟨fun _ _ _ => Le.spent, fun _ _ => Le.spent⟩
  | d + 1, 0, h, _ => absurd h (Nat.not_succ_le_zero _)
  | d + 1, d' + 1, h, hN =>
    have ih := parser_mono (Nat.le_of_succ_le_succ h) hN
    ⟨fun s e props => subExp_mono ih hN s e props, fun b s => statements_mono ih hN b s⟩

/-- A verdict reached with some fuel is reached with more. -/
theorem compile_mono {f f' : Nat} (h : f ≤ f') (x : E.State) (text : Bytes) {v : Verdict}
    (hv : compile f x text = some v) : compile f' x text = some v := by
  unfold compile at hv ⊢
  cases hp : (parser f f).recursive false text ⟨false, x⟩ with
  | none => rw [hp] at hv; cases hv
  | some r =>
    rw [hp] at hv
    rw [(parser_mono h h).rcv _ _ _ _ hp]
    exact hv

end Verif.Parse
