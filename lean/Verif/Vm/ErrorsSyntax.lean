/-
Reports of errors: the vocabulary shared by the model (`Verif/Vm/Errors.lean`) and its specification
(`Verif/Vm/ErrorsSpec.lean`).
-/
namespace Verif.Err

/-- A text; one `Char` stands for one byte, and no text contains the byte 0. -/
abbrev Text := List Char

/-- A number in decimal. -/
def dec (n : Int) : Text := (toString n).toList

/-- A part of a message that the engine writes: words of its own, a text that it was given (the name of a field, a literal of the
script …), or a number. -/
inductive Seg where
  | lit (t : Text)
  | str (t : Text)
  | int (n : Int)
  deriving DecidableEq, Repr

abbrev Msg := List Seg

/-- A call that an error passes on its way out. `call`: a function is called by name, on line `line` of the file `file` (absent if
nothing is known). `inner`: the engine calls a function that defines an operator, in the function `caller`. -/
inductive Frame where
  | call (owner : Option Text) (name : Text) (file : Option Text) (line : Int)
  | inner (caller : Text) (file : Text) (line : Int)
  deriving DecidableEq, Repr

/-- Why a run fails. `error`: the text that `System::error`, `System::assert` or `Json::deserialize` raise. `engine`: an error that
the engine finds, with the place of the instruction. `native`: a function of the library throws. `host`: a function of the host
throws an exception with this text. -/
inductive Cause where
  | error (t : Text)
  | engine (m : Msg) (file : Text) (line : Int)
  | native (m : Msg)
  | host (t : Text)
  deriving DecidableEq, Repr

/-- Why a script is refused: an error in it, or in a file that it imports. -/
inductive Fault where
  | here (m : Msg) (line : Int)
  | imported (name : Text) (line : Int) (f : Fault)
  deriving DecidableEq, Repr

/-- What a host does: a run that fails (the calls innermost first), a run that does not, a text that is refused, a file that is
refused. -/
inductive Op where
  | fails (c : Cause) (fs : List Frame)
  | runs
  | text (f : Fault)
  | file (name : Text) (f : Fault)
  deriving DecidableEq, Repr

/-- The exception that it catches: `what()`, `getFilename()`, `getLine()`. -/
structure Exc where
  what : Text
  file : Text
  line : Int
  deriving DecidableEq, Repr

end Verif.Err
