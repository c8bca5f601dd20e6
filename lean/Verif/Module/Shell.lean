/-
Model of the command line program: `main` of src/zs.cpp and `Console::getline` of src/base/Console.cpp.

The engine that runs the lines is a parameter: what `compileAndRun`, `clear` and `saveState` do to it.
-/
import Verif.Common

namespace Verif.Shell
open Verif

/-- Texts are sequences of bytes; `'\x00'` is the byte zero. -/
abbrev Text := List Char

/-- Console.cpp 12: `ZS_IO_GET_LINE_MAX`. -/
def lineMax : Nat := 256

/-- What the program reads from and keeps between two prompts.
`rest` and `eof` are the stream `stdin` (what has not been read, the flag of `feof`); `line` is the static buffer of
Console.cpp 19 up to its zero; `expr` is `expression` of zs.cpp 76: `none` is NULL, otherwise the text in the block of 256
bytes. Simplification: reading never fails (`ferror`, Console.cpp 29) and there is memory (Console.cpp 46). -/
structure Term where
  rest : Text
  eof : Bool
  line : Text
  expr : Option Text
  deriving DecidableEq, Repr

/-- zs.cpp 75-78, Console.cpp 19: before the first prompt. -/
def Term.start (input : Text) : Term := ⟨input, false, [], none⟩

/-- The bytes that `fgets` takes from a stream: up to `n`, up to the first newline, which it takes too. The flag: it has
met the end of the stream. From the C contract of `fgets` (Console.cpp 35, with `n` = 255). -/
def fgets : Nat → Text → Text × Text × Bool
  | 0, r => ([], r, false)
  | _ + 1, [] => ([], [], true)
  | n + 1, c :: r =>
    if c = '\n' then ([c], r, false)
    else ((c :: (fgets n r).1), (fgets n r).2.1, (fgets n r).2.2)

/-- Console.cpp 37-41: what is left in the buffer up to its first zero, after the newline has been replaced by one. -/
def cut : Text → Text
  | [] => []
  | c :: r => if c = '\n' ∨ c = '\x00' then [] else c :: cut r

/-- Console.cpp 53: copies the static buffer to `*lineptr`: undefined behaviour if that is NULL. The block has 256 bytes,
the static buffer never holds more. -/
def copyOut (t : Term) (len : Int) : Out (Int × Term) :=
  match t.expr with
  | none => .ub
  | some _ => .ok (len, { t with expr := some t.line })

/-- Console.cpp 43-50: the block is allocated only if the line is short. -/
def realloc (len : Nat) (expr : Option Text) : Option Text :=
  if len + 1 < lineMax then some (expr.getD []) else expr

/-- Console.cpp 17-55. -/
def getline (t : Term) : Out (Int × Term) :=
  if t.eof then .ok (-1, t)
  else
    let g := fgets (lineMax - 1) t.rest
    let t := { t with rest := g.2.1, eof := g.2.2 }
    if g.1 = [] then copyOut t 0
    else
      let l := cut g.1
      copyOut { t with line := l, expr := realloc l.length t.expr } l.length

/-- What the lines are for: the engine behind the console. `run` is zs.cpp 107-111: `compileAndRun`, with the errors that
it reports; simplification: exceptions that are not `zetscript::Exception` end the program and are not modelled here. -/
structure Engine (E : Type u) where
  run : Text → E → E
  clear : E → E
  save : E → E

/-- zs.cpp 83-120: the loop of the interactive console. The number counts prompts: `none` is still running after so many
prompts. -/
def loop (G : Engine E) : Nat → E → Term → Option (Out E)
  | 0, _, _ => none
  | n + 1, e, t =>
    match getline t with
    | .ub => some .ub
    | .err => some .err
    | .ok (r, t) =>
      if r = -1 then loop G n e t                                            -- 87-89
      else
        match t.expr with
        | none => some .ub
        | some x =>
          if x = "clear".toList then loop G n (G.clear e) t                  -- 91-95
          else if x = "save".toList then loop G n (G.save e) t               -- 97-101
          else if x = "exit".toList ∨ x = "quit".toList then some (.ok e)    -- 103, 120
          else loop G n (G.run x e) { t with expr := none }                  -- 105-118

/-- zs.cpp 73-120: a session with the input `input`. -/
def session (G : Engine E) (n : Nat) (e : E) (input : Text) : Option (Out E) := loop G n e (Term.start input)

/-! ### The arguments of the program -/

/-- What the program does, as seen from outside. -/
inductive Act where
  /-- zs.cpp 57 -/
  | version
  /-- zs.cpp 60-61 -/
  | usage (arg : Text)
  /-- zs.cpp 73: the interactive console -/
  | console
  /-- zs.cpp 156 -/
  | missing (file : Text)
  /-- zs.cpp 129 -/
  | compile (file : Text)
  /-- zs.cpp 131 -/
  | printCode
  /-- zs.cpp 134 -/
  | run
  /-- zs.cpp 138-146: the message of an exception -/
  | report
  /-- zs.cpp 152: the time it took -/
  | time (file : Text)
  deriving DecidableEq, Repr

/-- The files, and whether compiling and running them goes well. -/
structure World where
  isFile : Text → Bool
  compiles : Text → Bool
  runs : Text → Bool

/-- zs.cpp 30-33. `printAll` is `OPTION_PRINT_ALL_BYTE_CODE`. -/
structure Options where
  noExecute : Bool := false
  print : Bool := false
  printAll : Bool := false
  noTime : Bool := false
  deriving DecidableEq, Repr

/-- What the loop over the arguments ends with. -/
inductive Parsed where
  | version
  | unknown (arg : Text)
  | go (o : Options) (file : Text)
  deriving DecidableEq, Repr

/-- String.cpp 376-381, with `"--"` (zs.cpp 42). -/
def isOption (a : Text) : Bool :=
  if 2 ≤ a.length then a.take 2 = "--".toList else false

/-- zs.cpp 40-68: the loop over the arguments. -/
def parse (o : Options) : List Text → Parsed
  | [] => .go o []
  | a :: as =>
    if isOption a then
      if a = "--no-execute".toList then parse { o with noExecute := true } as
      else if a = "--print-byte-code".toList then parse { o with print := true } as
      else if a = "--print-byte-code-all".toList then parse { o with print := true, printAll := true } as
      else if a = "--print-byte-code-system".toList then parse { o with printAll := true } as
      else if a = "--no-execution-time".toList then parse { o with noTime := true } as
      else if a = "--version".toList then .version
      else .unknown a
    else .go o a

/-- zs.cpp 128-147: compile, print, run; an exception skips the rest and is reported. -/
def process (W : World) (o : Options) (f : Text) : List Act :=
  .compile f ::
    if W.compiles f then
      (if o.print then [.printCode] else []) ++
      (if o.noExecute then [] else .run :: if W.runs f then [] else [.report])
    else [.report]

/-- zs.cpp 27-160: what the program does, and its exit status. `args` are `argv[1]` and on. -/
def main (W : World) (args : List Text) : List Act × Nat :=
  match parse {} args with
  | .version => ([.version], 0)
  | .unknown a => ([.usage a], 0)
  | .go o f =>
    if f = [] then ([.console], 0)
    else if W.isFile f then (process W o f ++ (if o.noTime then [] else [.time f]), 0)
    else ([.missing f], 0)

end Verif.Shell
