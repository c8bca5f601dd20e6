import Verif.Core.Types
/-
What inheritance and member lookup are supposed to mean, stated without the recursion or the copying the code
uses: only the declared bases, and the list of definitions a history made.
-/
namespace Verif.Types

/-- `a` is `b` or inherits from it: there is a chain of declared bases from `a` to `b`. -/
inductive Extends (g : Reg) : Nat → Nat → Prop where
  | refl (a : Nat) : Extends g a a
  | step {a x b : Nat} {ty : Ty} : g[a]? = some ty → x ∈ ty.bases → Extends g x b → Extends g a b

/-- C++ inheritance has no cycles: a rank grows from a base to what derives from it. -/
def CppAcyclic (cpp : Cpp) : Prop := ∃ rank : String → Nat, ∀ b t, b ≠ t → cpp b t = true → rank b < rank t

/-- No class names itself as its base. -/
def NoSelf (ops : List Op) : Prop := ∀ n, Op.cls n (some n) ∉ ops

/-- A definition: class, name, body. -/
structure Def where
  cls : Nat
  name : String
  code : Nat
  deriving DecidableEq, Repr

/-- The definition an accepted operation makes, if any. -/
def defOf (ok : Bool) : Op → List Def
  | .fun c n _ _ _ code => if ok then [⟨c, n, code⟩] else []
  | _ => []

/-- The member functions a history defined, in order: one for each accepted function registration. -/
def defs (cpp : Cpp) (g : Reg) : List Op → List Def
  | [] => []
  | op :: rest => defOf (step cpp g op).2 op ++ defs cpp (step cpp g op).1 rest

/-- The latest definition of `n` made in class `c` itself. -/
def ownDef (ds : List Def) (c : Nat) (n : String) : Option Nat :=
  (ds.filter (fun d => d.cls == c && d.name == n)).getLast?.map Def.code

/-- The body that a call of `n` on an object of class `c` should run: the definition of the class itself,
else that of the nearest class up its chain of bases that has one, else none. -/
inductive Nearest (g : Reg) (ds : List Def) : Nat → String → Option Nat → Prop where
  | own {c n k} : ownDef ds c n = some k → Nearest g ds c n (some k)
  | up {c n b r} {ty : Ty} : ownDef ds c n = none → g[c]? = some ty → ty.bases = [b] → Nearest g ds b n r →
      Nearest g ds c n r
  | none {c n} {ty : Ty} : ownDef ds c n = none → g[c]? = some ty → ty.bases = [] → Nearest g ds c n none

/-- Some registered class has `c` among its bases. -/
def HasSub (g : Reg) (c : Nat) : Prop := ∃ ty ∈ g, c ∈ ty.bases

/-- An operation made in the order the rest of the code expects: member functions are added to a class before
anything extends it, and a native class is given its base before it has functions or heirs. -/
def Orderly (cpp : Cpp) (g : Reg) (op : Op) : Prop :=
  match op with
  | .cls n base => base ≠ some n
  | .fun c _ _ _ _ _ => ¬ HasSub g c
  | .ext t _ => (step cpp g op).1 ≠ g → (step cpp g op).2 = true ∧
      ∀ (ti : Nat) (ty : Ty), findNative g t = some ti → g[ti]? = some ty → ty.bases = [] ∧ ty.funs = [] ∧ ¬ HasSub g ti
  | _ => True

/-- Every operation of the history is orderly when it is made. -/
def OrderlyRun (cpp : Cpp) (g : Reg) : List Op → Prop
  | [] => True
  | op :: rest => Orderly cpp g op ∧ OrderlyRun cpp (step cpp g op).1 rest

/-! ### The full claims -/

/-- C42 in full: after every history of registrations, inheritance between registered types is decided in
finitely many steps, and correctly. -/
def DecidedAlways (cpp : Cpp) : Prop :=
  ∀ ops : List Op, ∀ a b, a < (run cpp [] ops).length → b < (run cpp [] ops).length →
    ∃ n r, inherits (run cpp [] ops) n a b = some r ∧ (r = true ↔ Extends (run cpp [] ops) a b)

/-- C43 in full: after every history, what a lookup finds is the nearest definition. -/
def LookupNearest (cpp : Cpp) : Prop :=
  ∀ ops : List Op, NoSelf ops → ∀ c n r, c < (run cpp [] ops).length →
    Nearest (run cpp [] ops) (defs cpp [] ops) c n r →
    (lookup (run cpp [] ops) c n).map (·.fn.code) = r

/-- C43 in full for one call in the source: on whatever objects it is executed, one after another, each
execution finds what a lookup in the class of its object finds. -/
def CallSiteFollowsObject (g : Reg) : Prop :=
  ∀ n cs, memberLoads g n none cs = cs.map (fun c => lookup g c n)

/-- C59 in full: a registration that throws leaves the registry as it was. -/
def FailedKeeps (cpp : Cpp) : Prop :=
  ∀ ops op, (step cpp (run cpp [] ops) op).2 = false → (step cpp (run cpp [] ops) op).1 = run cpp [] ops

end Verif.Types
