import Verif.Core.ImportSyntax
/-
What importing files must do. A file is known by where it is on the disk, not by how its name is written.
-/
namespace Verif.ImportSpec
open Verif.Imp

/-- What an engine knows: the files whose text it has taken in, the global variables, and the statements of the last script. -/
structure World where
  taken : List File
  vars : List String
  last : List Nat
  deriving DecidableEq, Repr

def World.init : World := ⟨[], [], []⟩

/-- The statements of a text. -/
def stmts : Text → List Nat
  | [] => []
  | .stmt i :: t => i :: stmts t
  | _ :: t => stmts t

/-- `Takes k d t w ks w'`: taking in the text `t`, found in the directory `d`, gives the statements `ks`. An `import` stands for the
text of the file the first time that file is imported, and for nothing later; a file that is not finished counts as imported. -/
inductive Takes (k : Disk) : Dir → Text → World → List Nat → World → Prop where
  | nil {d w} : Takes k d [] w [] w
  | stmt {d i t w ks w'} : Takes k d t w ks w' → Takes k d (.stmt i :: t) w (i :: ks) w'
  | var {d x t w ks w'} : x ∉ w.vars → Takes k d t { w with vars := w.vars ++ [x] } ks w' → Takes k d (.var x :: t) w ks w'
  | again {d n t w ks w'} : (∃ u, k.text (fileOf d n) = some u) → fileOf d n ∈ w.taken → Takes k d t w ks w' →
      Takes k d (.imp n :: t) w ks w'
  | first {d n t u w ks w1 ls w'} : k.text (fileOf d n) = some u → fileOf d n ∉ w.taken →
      Takes k (fileOf d n).dir u { w with taken := w.taken ++ [fileOf d n] } ks w1 → Takes k d t w1 ls w' →
      Takes k d (.imp n :: t) w (ks ++ ls) w'

/-- A script: it is accepted and its statements are run, or it is refused and nothing changes. `w0` is the world in which its text
is taken in. -/
def Script (k : Disk) (d : Dir) (t : Text) (w w0 : World) (o : Obs) (w' : World) : Prop :=
  (∃ ks w1, Takes k d t w0 ks w1 ∧ o = .ran ks ∧ w' = { w1 with last := ks }) ∨
  ((¬ ∃ ks w1, Takes k d t w0 ks w1) ∧ o = .exc ∧ w' = w)

/-- One action of the host. `run` runs the last accepted script again; a file that does not exist is refused; a file that was taken
in already has nothing to run. -/
inductive Step (k : Disk) (w : World) : Op → Obs → Disk → World → Prop where
  | text {t o w'} : Script k [] t w w o w' → Step k w (.text t) o k w'
  | missing {n} : k.text (fileOf [] n) = none → Step k w (.file n) .exc k w
  | again {n} : fileOf [] n ∈ w.taken → (∃ u, k.text (fileOf [] n) = some u) → Step k w (.file n) (.ran []) k w
  | file {n t o w'} : k.text (fileOf [] n) = some t → fileOf [] n ∉ w.taken →
      Script k (fileOf [] n).dir t w { w with taken := w.taken ++ [fileOf [] n] } o w' → Step k w (.file n) o k w'
  | run : Step k w .run (.ran w.last) k w
  | write {f t} : Step k w (.write f t) .none ((f, t) :: k) w

/-- A history of the host, with what it sees of each action. -/
inductive Steps : Disk → World → List Op → List Obs → Disk → World → Prop where
  | nil {k w} : Steps k w [] [] k w
  | cons {k w op o k1 w1 ops os k' w'} : Step k w op o k1 w1 → Steps k1 w1 ops os k' w' →
      Steps k w (op :: ops) (o :: os) k' w'

/-! ### Histories for which the property is proved -/

/-- The names that `import`s write, and the directories in which they do, when a text is taken in with all that it leads to. -/
inductive Uses (k : Disk) : Dir → Text → Dir × Name → Prop where
  | here {d t n} : .imp n ∈ t → Uses k d t (d, n)
  | deep {d t n u p} : .imp n ∈ t → k.text (fileOf d n) = some u → Uses k (fileOf d n).dir u p → Uses k d t p

/-- Names are used well: two names are written in the same way exactly if they mean the same file. -/
def Coherent (used : Dir × Name → Prop) : Prop :=
  ∀ p q, used p → used q → (p.2 = q.2 ↔ fileOf p.1 p.2 = fileOf q.1 q.2)

/-- The text is refused because of an item that only statements precede. -/
def RefusedEarly (k : Disk) (d : Dir) (t : Text) (w : World) : Prop :=
  ∃ (pre : List Nat) (it : Item) (post : Text), t = pre.map .stmt ++ it :: post ∧
    (it = .bad ∨ (∃ x, it = .var x ∧ x ∈ w.vars) ∨ ∃ n, it = .imp n ∧ k.text (fileOf d n) = none)

/-- Histories for which the property is proved: names are used well; a text is accepted or is refused before it declares or imports
anything; a file exists, was not taken in before, and is accepted; `run` does not follow a refused text (`ok`). -/
def Fine (used : Dir × Name → Prop) (k : Disk) (w : World) (ok : Bool) : List Op → Prop
  | [] => True
  | .text t :: ops => (∀ p, Uses k [] t p → used p) ∧
      ((∃ ks w', Takes k [] t w ks w' ∧ Fine used k { w' with last := ks } true ops) ∨
       (RefusedEarly k [] t w ∧ Fine used k w false ops))
  | .file n :: ops => used ([], n) ∧ fileOf [] n ∉ w.taken ∧
      ∃ t, k.text (fileOf [] n) = some t ∧ (∀ p, Uses k (fileOf [] n).dir t p → used p) ∧
        ∃ ks w', Takes k (fileOf [] n).dir t { w with taken := w.taken ++ [fileOf [] n] } ks w' ∧
          Fine used k { w' with last := ks } true ops
  | .run :: ops => ok = true ∧ Fine used k w true ops
  | .write f t :: ops => Fine used ((f, t) :: k) w ok ops

end Verif.ImportSpec
