/-
Specification of the command line program: the lines of an input, what following them means, what arguments ask for.
-/
import Verif.Module.Shell

namespace Verif.Shell
open Verif

/-- The lines of an input. The last one may lack its newline. -/
def linesOf : Text → List Text
  | [] => []
  | c :: r =>
    if c = '\n' then [] :: linesOf r
    else match linesOf r with
      | [] => [[c]]
      | l :: ls => (c :: l) :: ls

/-- The lines that end a session. -/
def Ends (l : Text) : Prop := l = "exit".toList ∨ l = "quit".toList

instance (l : Text) : Decidable (Ends l) := inferInstanceAs (Decidable (_ ∨ _))

/-- The lines to be followed: those before the first one that ends the session. -/
def todo : List Text → List Text
  | [] => []
  | l :: ls => if Ends l then [] else l :: todo ls

/-- What one line asks for. -/
def obey (G : Engine E) (e : E) (l : Text) : E :=
  if l = "clear".toList then G.clear e
  else if l = "save".toList then G.save e
  else G.run l e

/-- The session ends, and each line of the input has been followed, once, in order, up to the end of the session. -/
def FollowsInput (G : Engine E) (e : E) (input : Text) : Prop :=
  ∃ N, ∀ n ≥ N, session G n e input = some (.ok ((todo (linesOf input)).foldl (obey G) e))

/-- An engine that keeps a record of what it was told. -/
inductive Told where
  | run (l : Text)
  | clear
  | save
  deriving DecidableEq, Repr

def recorder : Engine (List Told) where
  run l e := e ++ [.run l]
  clear e := e ++ [.clear]
  save e := e ++ [.save]

/-! ### Arguments -/

def flags : List Text :=
  ["--no-execute".toList, "--print-byte-code".toList, "--print-byte-code-all".toList, "--print-byte-code-system".toList,
   "--no-execution-time".toList]

/-- The arguments before the first one that does not start with two dashes. -/
def optionsOf : List Text → List Text
  | ('-' :: '-' :: r) :: as => ('-' :: '-' :: r) :: optionsOf as
  | _ => []

/-- The first argument that does not start with two dashes. -/
def fileOf : List Text → Option Text
  | [] => none
  | ('-' :: '-' :: _) :: as => fileOf as
  | a :: _ => some a

/-- Compiling a file and running it, as far as it goes. -/
def work (W : World) (prints runs : Bool) (f : Text) : List Act :=
  match W.compiles f, runs, W.runs f with
  | false, _, _ => [.compile f, .report]
  | true, false, _ => .compile f :: (if prints then [.printCode] else [])
  | true, true, true => .compile f :: (if prints then [.printCode, .run] else [.run])
  | true, true, false => .compile f :: (if prints then [.printCode, .run, .report] else [.run, .report])

/-- What the arguments ask for. -/
def asked (W : World) (args : List Text) : List Act :=
  match (optionsOf args).find? (fun a => !flags.contains a) with
  | some a => if a = "--version".toList then [.version] else [.usage a]
  | none =>
    match fileOf args with
    | none | some [] => [.console]
    | some f =>
      if W.isFile f then
        work W ((optionsOf args).any fun a => a = "--print-byte-code".toList ∨ a = "--print-byte-code-all".toList)
          (!(optionsOf args).contains "--no-execute".toList) f
          ++ (if (optionsOf args).contains "--no-execution-time".toList then [] else [.time f])
      else [.missing f]

/-- The exit status tells a session that did what it was asked for from one that did not. -/
def StatusTells (W : World) (args : List Text) : Prop :=
  (main W args).2 = 0 ↔
    Act.report ∉ (main W args).1 ∧ (∀ f, Act.missing f ∉ (main W args).1) ∧ ∀ a, Act.usage a ∉ (main W args).1

end Verif.Shell
