/-
Scripts that import files: syntax shared by the model (`Verif/Core/Import.lean`) and its specification
(`Verif/Core/ImportSpec.lean`).
-/
namespace Verif.Imp

/-- A directory, from the one where the engine was started (outermost first). -/
abbrev Dir := List String

/-- A file name as it is written in a script or given to the engine: directories, `..` among them, and the file's own name. -/
structure Name where
  dirs : List String
  base : String
  deriving DecidableEq, Repr

/-- A file on the disk: the directory that it is in, and its name there. -/
structure File where
  dir : Dir
  base : String
  deriving DecidableEq, Repr

/-- The directory that a path leads to from a directory; `..` is the directory above. -/
def walk : Dir → List String → Dir
  | d, [] => d
  | d, c :: cs => walk (if c = ".." then d.dropLast else d ++ [c]) cs

/-- The file that a name means in a directory. -/
def fileOf (d : Dir) (n : Name) : File := ⟨walk d n.dirs, n.base⟩

/-- What a script consists of: a statement (its number stands for what it does), the declaration of a global variable, an
`import`, or text that is not accepted. -/
inductive Item where
  | stmt (k : Nat)
  | var (x : String)
  | imp (n : Name)
  | bad
  deriving DecidableEq, Repr

abbrev Text := List Item

/-- The files on the disk: the first entry of a file is its text. -/
abbrev Disk := List (File × Text)

/-- The text of a file. -/
def Disk.text (k : Disk) (f : File) : Option Text := (k.find? (fun p => p.1 = f)).map (·.2)

/-- What a host does: `compileAndRun` of a text, `compileFileAndRun` of a file, `run`, or writing a file on the disk. -/
inductive Op where
  | text (t : Text)
  | file (n : Name)
  | run
  | write (f : File) (t : Text)
  deriving DecidableEq, Repr

/-- What it sees: the statements that were run, in order; an exception; nothing. -/
inductive Obs where
  | ran (ks : List Nat)
  | exc
  | none
  deriving DecidableEq, Repr

end Verif.Imp
