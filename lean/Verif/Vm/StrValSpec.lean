import Verif.Vm.StrVal
/-
Specification for strings as values: every place has a value of its own, a statement changes the place it names and no
other, and a literal always has the text it is written with.
-/
namespace Verif.Vm.StrVal
open Verif

/-- A value as the script's author sees it. -/
inductive SVal where
  | undef
  | int (n : Int)
  | text (t : Text)
  deriving DecidableEq, Repr

/-- Values of the places. -/
abbrev Env := Nat → SVal

/-- How a value is written in a concatenation. -/
def SVal.shown (N : Int → Text) : SVal → Text
  | .undef => [117, 110, 100, 101, 102, 105, 110, 101, 100]
  | .int n => N n
  | .text t => t

def SVal.isText : SVal → Bool
  | .text _ => true
  | _ => false

/-- `a + b`; none if there is no such sum. -/
def SVal.plus (N : Int → Text) (v w : SVal) : Option SVal :=
  match v, w with
  | .int m, .int n => some (.int (m + n))
  | v, w => if v.isText || w.isText then some (.text (v.shown N ++ w.shown N)) else none

/-- Value of an expression; `L` are the texts of the literals. -/
def value (N : Int → Text) (L : Nat → Text) (ρ : Env) : Src → Option SVal
  | .undef => some .undef
  | .int n => some (.int n)
  | .lit k => some (.text (L k))
  | .place q => some (ρ q)
  | .add a b =>
    match value N L ρ a, value N L ρ b with
    | some v, some w => v.plus N w
    | _, _ => none
  | .meth f a =>
    match value N L ρ a with
    | some (.text t) => some (.text (f t))
    | _ => none

/-- The places after a statement; none if it is an error. -/
def after (N : Int → Text) (L : Nat → Text) (ρ : Env) : Stmt → Option Env
  | .store p e => (value N L ρ e).map (upd ρ p)
  | .share p e => (value N L ρ e).map (upd ρ p)
  | .operand p e => (value N L ρ e).map (upd ρ p)
  | .setter p k => some (upd ρ p (.text (L k)))
  | .append p e =>
    match ρ p, value N L ρ e with
    | .text t, some v => some (upd ρ p (.text (t ++ v.shown N)))
    | .int m, some (.int n) => some (upd ρ p (.int (m + n)))
    | _, _ => none
  | .edit p f =>
    match ρ p with
    | .text t => some (upd ρ p (.text (f t)))
    | _ => none
  | .editLit _ _ => some ρ

/-- The places after a script. -/
def afterAll (N : Int → Text) (L : Nat → Text) (ρ : Env) : List Stmt → Option Env
  | [] => some ρ
  | s :: ss =>
    match after N L ρ s with
    | some ρ1 => afterAll N L ρ1 ss
    | none => none

/-- What the script would print for a place of the running machine. -/
def sees (σ : St) (p : Nat) : SVal :=
  match σ.place p with
  | .undef => .undef
  | .int n => .int n
  | .str a => .text (σ.heap a)

/-- The machine did what the specification says: same values at all places, or an error where there should be one. -/
def Agrees (o : Out St) (ρ : Option Env) : Prop :=
  match ρ with
  | some ρ => ∃ σ, o = .ok σ ∧ ∀ p, sees σ p = ρ p
  | none => o = .err

/-! ## Where the code keeps this -/

/-- The backslash. -/
def NoBackslash (t : Text) : Prop := (92 : UInt8) ∉ t

/-- A method that brings no backslashes in. -/
def Tame (f : Text → Text) : Prop := ∀ t, NoBackslash t → NoBackslash (f t)

/-- All methods of the expression are tame. -/
def Src.tame : Src → Prop
  | .add a b => a.tame ∧ b.tame
  | .meth f a => Tame f ∧ a.tame
  | _ => True

/-- Who shares: places with the same number were filled from one another by `share`; `n` is a number not used yet. -/
structure Groups where
  of : Nat → Nat
  n : Nat

/-- No other place with a text is in the group of `p`. -/
def Alone (ρ : Env) (g : Groups) (p : Nat) : Prop := ∀ q, q ≠ p → (ρ q).isText → g.of q ≠ g.of p

/-- `p` in a group of its own. -/
def Groups.fresh (g : Groups) (p : Nat) : Groups := { of := upd g.of p g.n, n := g.n + 1 }

/-- `p` in the group of what the expression is: another place, or something new. -/
def Groups.join (g : Groups) (p : Nat) : Src → Groups
  | .place q => { g with of := upd g.of p (g.of q) }
  | _ => g.fresh p

/-- The groups after a statement: only assigning where there was no text, and sharing, change them. -/
def Groups.after (ρ : Env) (g : Groups) : Stmt → Groups
  | .store p _ => if (ρ p).isText then g else g.fresh p
  | .share p e => g.join p e
  | .operand p e => g.join p e
  | _ => g

/-- The statement is one that the code gets right: a string that shares is not assigned a string, added to or edited;
literals are not edited, not given to setters and not operands of a class's operators. -/
def Fine (N : Int → Text) (L : Nat → Text) (ρ : Env) (g : Groups) : Stmt → Prop
  | .store p e =>
    e.tame ∧ ((ρ p).isText → (∃ v, value N L ρ e = some v ∧ v.isText) → Alone ρ g p)
  | .share _ e => e.tame
  | .operand _ e => e.tame ∧ ∀ k, e ≠ .lit k
  | .append p e => e.tame ∧ ((ρ p).isText → Alone ρ g p)
  | .edit p f => Tame f ∧ Alone ρ g p
  | .editLit _ _ => False
  | .setter _ _ => False

/-- All statements of the script are fine. -/
def FineAll (N : Int → Text) (L : Nat → Text) (ρ : Env) (g : Groups) : List Stmt → Prop
  | [] => True
  | s :: ss => Fine N L ρ g s ∧ ∀ ρ1, after N L ρ s = some ρ1 → FineAll N L ρ1 (g.after ρ s) ss

/-- Nothing has a value yet and nothing shares. -/
def env0 : Env := fun _ => .undef
def groups0 : Groups := { of := fun _ => 0, n := 1 }

/-- The script edits no literal by a method of it, and passes none to a setter. -/
def SparesLiterals (ss : List Stmt) : Prop :=
  ∀ s ∈ ss, (∀ k f, s ≠ .editLit k f) ∧ (∀ p k, s ≠ .setter p k)

end Verif.Vm.StrVal
