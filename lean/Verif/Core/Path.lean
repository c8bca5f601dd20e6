import Verif.Core.PathOs
/-
The directories in which files are compiled: `src/base/Path.cpp`, `src/base/Directory.cpp`, and `compileFile` with the directive
`import` (`src/ScriptEngine.cpp` 914-973, `src/compiler/compiler.cpp` 345-400), for names of files as bytes.

Simplified: of a text only the names that it imports are modelled, the rest of it compiles without errors (`Verif/Core/Import.lean` has
texts with errors); `File::exists` is exact (`File.cpp` 17-24 reads an uninitialised structure if there is no such file); the file
system is that of `PathOs.lean`.
-/
namespace Verif.Path
open Verif Verif.Str

/-- `MAX_PATH`, `src/base/Common.h` 37-39. -/
def MAX_PATH : Nat := 4096

/-- `Path::getDirectory`, `Path.cpp` 9-21, for the name of a regular file: `Directory::exists` is false then (`Directory.cpp`
47-49). -/
def getDirectory (path : S) : Out S :=
  (findLastOf path [92, 47]).bind fun pos =>
    if pos = -1 then .ok (ofChars []) else getSubstring path 0 pos

/-- The text that `getcwd` gives for a directory. -/
def cwdText : Place → Bytes
  | [] => [47]
  | p => p.flatMap (fun w => 47 :: w)

/-- `Directory::changeDir` (`Directory.cpp` 25-30): `chdir`, which fails for an empty path and for what is not a directory; the
directory stays then, and `compileFile` does not look at the result. -/
def changeDir (D : Disk) (cwd : Place) (t : Bytes) : Place :=
  if t = [] then cwd else if D.dir (resolve cwd t) then resolve cwd t else cwd

/-- The bytes of a string up to the first zero (`toConstChar`, `String.h` 142-144, read by `chdir`). -/
def toBytes (s : S) : Bytes := s.mem.takeWhile (· ≠ 0)

/-- `cwd`: the current directory of the process; `parsed`: `parsed_files` (`ScriptEngine.h` 500); `opened`: a record, kept for the
properties, of the files that were read: by which file they were imported (`none`: given to `compileFile` by the program), under
which name, and which file it was. -/
structure St where
  cwd : Place
  parsed : List Bytes
  opened : List (Option Place × Bytes × Place)
  deriving DecidableEq

/-- Why a compilation ends with an error: no such file (with the importing file and the name), or `getcwd` failed. -/
inductive Why where
  | missing (by_ : Option Place) (name : Bytes)
  | getcwd
  deriving DecidableEq

/-- How `compileFile` ends; `deep`: not within the given depth of imports. -/
inductive R where
  | ok (st : St)
  | err (st : St) (w : Why)
  | ub
  | deep
  deriving DecidableEq

/-- The imports of a text, one after the other: `compiler.cpp` 371-398 (the file has to exist, also if its name is among the parsed
ones). -/
def imports (rec : Bytes → St → R) (D : Disk) (importer : Place) : List Bytes → St → R
  | [], st => .ok st
  | n :: ns, st =>
    match lookup D st.cwd n with
    | none => .err st (.missing (some importer) n)
    | some _ =>
      match rec n st with
      | .ok st' => imports rec D importer ns st'
      | r => r

/-- `changeDir(current_directory)` after the text was compiled, with or without an error (`ScriptEngine.cpp` 943-963). -/
def back (D : Disk) (saved : Bytes) : R → R
  | .ok st => .ok { st with cwd := changeDir D st.cwd saved }
  | .err st w => .err { st with cwd := changeDir D st.cwd saved } w
  | r => r

/-- `ScriptEngine::compileFile`, `ScriptEngine.cpp` 914-973; `getCurrentDirectory`: `Directory.cpp` 32-43, an error if the text does
not fit. -/
def compileFile (D : Disk) : Nat → Option Place → Bytes → St → R
  | 0, _, _, _ => .deep
  | m + 1, importer, name, st =>
    if name ∈ st.parsed then .ok st
    else
      match lookup D st.cwd name with
      | none => .err { st with parsed := st.parsed ++ [name] } (.missing importer name)
      | some (f, names) =>
        let st1 : St := ⟨st.cwd, st.parsed ++ [name], st.opened ++ [(importer, name, f)]⟩
        if (cwdText st.cwd).length + 1 > MAX_PATH then .err st1 .getcwd
        else
          match getDirectory (ofChars name) with
          | .ok d =>
            back D (cwdText st.cwd)
              (imports (compileFile D m (some f)) D f names { st1 with cwd := changeDir D st1.cwd (toBytes d) })
          | _ => .ub

end Verif.Path
