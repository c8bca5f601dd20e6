import Verif.Core.PathOs
/-
What is expected of the directories in which files are compiled, in terms of the file system only.
-/
namespace Verif.PathSpec
open Verif.Path
open Verif.Str (Bytes)

/-- A file system as there are: what contains a file is a directory, and names have no zero bytes. -/
structure Real (D : Disk) : Prop where
  above : ∀ p ns, D.file p = some ns → D.dir p.dropLast = true
  names : ∀ p ns, D.file p = some ns → ∀ n ∈ ns, ∀ c ∈ n, c ≠ 0

/-- A directory of the file system, as a place for a process to be in. -/
structure Dir (D : Disk) (d : Place) : Prop where
  is : D.dir d = true
  parts : ∀ w ∈ d, Ordinary w ∧ (47 : UInt8) ∉ w

/-- The directory that names written in a file are relative to: the one that contains it; for names given by the program the
directory `d` of the process. -/
def base (d : Place) : Option Place → Place
  | none => d
  | some f => f.dropLast

/-- A name that has no backslash and is not that of an entry of the root directory. -/
def Plain (n : Bytes) : Prop := 92 ∉ n ∧ ∀ x, n = 47 :: x → (47 : UInt8) ∈ x

/-- File `f` was taken in under name `n` written in file `i` (`none`: given by the program): the name is written there, and in the
directory that it is relative to it names `f`. -/
def Found (D : Disk) (d : Place) (i : Option Place) (n : Bytes) (f : Place) : Prop :=
  (∃ ns, lookup D (base d i) n = some (f, ns)) ∧ ∀ g, i = some g → ∃ ms, D.file g = some ms ∧ n ∈ ms

end Verif.PathSpec
