import Verif.Base.Str
/-
The file system under `compileFile`: what a path names. Not code of the repository: the contract of the operating system (POSIX) that
the model and the properties on paths rest on. Simplified: no symbolic links, so that `..` takes away the name before it; the
directories in the middle of a path exist; nothing changes while files are compiled.
-/
namespace Verif.Path
open Verif.Str (Bytes)

/-- A place: the names from the root down. -/
abbrev Place := List Bytes

/-- A file system: for each regular file the names that its text imports, in order; and which places are directories. -/
structure Disk where
  file : Place → Option (List Bytes)
  dir : Place → Bool

/-- The parts of a path, between the `/`. -/
def parts : Bytes → List Bytes
  | [] => [[]]
  | c :: t => if c = 47 then [] :: parts t else
    match parts t with
    | [] => [[c]]
    | w :: ws => (c :: w) :: ws

/-- A part that is a name, not empty, `.` or `..`. -/
def Ordinary (w : Bytes) : Prop := w ≠ [] ∧ w ≠ [46] ∧ w ≠ [46, 46]

instance (w : Bytes) : Decidable (Ordinary w) := inferInstanceAs (Decidable (_ ∧ _ ∧ _))

/-- One part of a path, from a place on. -/
def step (p : Place) (w : Bytes) : Place :=
  if w = [] ∨ w = [46] then p else if w = [46, 46] then p.dropLast else p ++ [w]

/-- The place that a path names in directory `d`. -/
def resolve (d : Place) (t : Bytes) : Place := (parts t).foldl step (if t.head? = some 47 then [] else d)

/-- The regular file that a path names in directory `d`, if there is one (a path that ends with `/`, `.` or `..` names none), and what
it imports. -/
def lookup (D : Disk) (d : Place) (t : Bytes) : Option (Place × List Bytes) :=
  if Ordinary ((parts t).getLast?.getD []) then (D.file (resolve d t)).map (fun ns => (resolve d t, ns)) else none

end Verif.Path
