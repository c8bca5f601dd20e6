import Verif.Core.RedefSyntax
/-
Model of how functions are defined, defined again, linked and called: `ScriptFunction::registerLocalFunction`, `clear`,
`linkUnresolvedSymbols` (`src/core/function/ScriptFunction.cpp`), `ScriptEngine::link`, `addUnresolvedSymbol` (`src/ScriptEngine.cpp`),
`compiler_compile_and_link`, `compiler_pop_and_compile_function` (`src/compiler/compiler.cpp`), `vm_call` (`src/vm/vm_call.cpp`).

Simplifications, also repeated at the definitions:
* the instructions of a function are kept as a tree, in which each call has the position of its instruction; every node counts
  as one instruction (the optimiser of expressions joins some);
* parameters have no defaults, and missing arguments are `undefined` (C36 and C120 are about arguments);
* only functions of the top level; variables, classes and functions in functions are left out (C44, C62).
-/
namespace Verif.Redef

/-- Compiled expressions. `target` is the operand of the instruction, the function that is called; `none` is
`BYTE_CODE_UNRESOLVED_CALL` (compiler.cpp 638-642). -/
inductive Code where
  | lit (v : V)
  | par (i : Nat)
  | add (a b : Code)
  | ite (c a b : Code)
  | call (pos : Nat) (f : String) (target : Option Nat) (as : List Code)
  | native (pos : Nat) (f : String) (as : List Code)
  deriving Repr

/-- `ScriptFunction`. `code` is `none` while `instructions` is a null pointer (`ScriptFunction::clear`, ScriptFunction.cpp 741-756). -/
structure Fn where
  name : String
  code : Option Code
  deriving Repr

/-- The maps `instruction_last_native_call` of all functions (ScriptFunction.h 56): for a function (`none` is the main
function) and a position the native function that was called there last. -/
abbrev Cache := List ((Option Nat × Nat) × Nat)

/-- `getInstructionFunctionLastCall`, ScriptFunction.cpp 537-544. -/
def Cache.last (c : Cache) (o : Option Nat) (pos : Nat) : Option Nat := (c.find? fun p => p.1 == (o, pos)).map Prod.snd

/-- `setInstructionFunctionLastCall`, ScriptFunction.cpp 550-553. -/
def Cache.note (c : Cache) (o : Option Nat) (pos i : Nat) : Cache := ((o, pos), i) :: c

/-- `clearFunctionLastCalls` of the main function, ScriptFunction.cpp 546-548. -/
def Cache.clearMain (c : Cache) : Cache := c.filter fun p => p.1.1 != none

/-- The engine: the functions of the main scope in the order of their symbols, `functions_with_unresolved_symbols`, and what
call sites remember. -/
structure E where
  fns : List Fn
  pending : List Nat
  cache : Cache

/-- `ScriptScope::getSymbol` for the functions of the main scope (ScriptScope.cpp 245-330): the first of that name. -/
def look (fns : List Fn) (x : String) : Option Nat := fns.findIdx? fun f => f.name == x

mutual
/-- An expression compiled from position `pos` on, with the next free position. A name is looked up at once in the main function and
left for later in any other (`compiler_symbol.cpp` 168-196, `compiler.cpp` 638-642): `see` says what is found. -/
def comp (see : String → Option Nat) (pos : Nat) : Ex → Code × Nat
  | .lit v => (.lit v, pos + 1)
  | .par i => (.par i, pos + 1)
  | .add a b =>
    let p := comp see pos a
    let q := comp see p.2 b
    (.add p.1 q.1, q.2 + 1)
  -- the condition, a jump, the first choice, a jump, the second choice
  | .ite c a b =>
    let k := comp see pos c
    let p := comp see (k.2 + 1) a
    let q := comp see (p.2 + 1) b
    (.ite k.1 p.1 q.1, q.2)
  | .call f as =>
    let p := comps see pos as
    (.call p.2 f (see f) p.1, p.2 + 1)
  | .native f as =>
    let p := comps see pos as
    (.native p.2 f p.1, p.2 + 1)
/-- A list of arguments. -/
def comps (see : String → Option Nat) (pos : Nat) : List Ex → List Code × Nat
  | [] => ([], pos)
  | a :: as =>
    let p := comp see pos a
    let q := comps see p.2 as
    (p.1 :: q.1, q.2)
end

mutual
/-- `ScriptFunction::linkUnresolvedSymbols`, ScriptFunction.cpp 772-900: each unresolved call gets the function of its name, if
there is one now (843-866). -/
def linkC (find : String → Option Nat) : Code → Code
  | .lit v => .lit v
  | .par i => .par i
  | .add a b => .add (linkC find a) (linkC find b)
  | .ite c a b => .ite (linkC find c) (linkC find a) (linkC find b)
  | .call p f none as => .call p f (find f) (linkCs find as)
  | .call p f (some i) as => .call p f (some i) (linkCs find as)
  | .native p f as => .native p f (linkCs find as)
def linkCs (find : String → Option Nat) : List Code → List Code
  | [] => []
  | c :: cs => linkC find c :: linkCs find cs
end

mutual
/-- Whether a call is still unresolved: `unresolved_symbols` is not empty. -/
def Code.open : Code → Bool
  | .lit _ => false
  | .par _ => false
  | .add a b => a.open || b.open
  | .ite c a b => c.open || (a.open || b.open)
  | .call _ _ t as => t.isNone || opens as
  | .native _ _ as => opens as
def opens : List Code → Bool
  | [] => false
  | c :: cs => c.open || opens cs
end

def Fn.open (f : Fn) : Bool := match f.code with | some c => c.open | none => false

def Fn.link (find : String → Option Nat) (f : Fn) : Fn := { f with code := f.code.map (linkC find) }

/-- `fns[i]` with each function its index. -/
def mapIdx (g : Nat → Fn → Fn) : Nat → List Fn → List Fn
  | _, [] => []
  | k, f :: fs => g k f :: mapIdx g (k + 1) fs

/-- `ScriptEngine::link`, ScriptEngine.cpp 1316-1326: the functions of the list are linked, and those that are complete leave it. -/
def link (e : E) : E :=
  let fns := mapIdx (fun i f => if e.pending.contains i then f.link (look e.fns) else f) 0 e.fns
  { e with fns := fns, pending := e.pending.filter fun i => match fns[i]? with | some f => f.open | none => false }

/-- The function of this name, made or emptied (`registerLocalFunction`, ScriptFunction.cpp 614-700: `sf->clear()` at 666, or a
new one): its number and the functions. What its call sites remember is not forgotten: `clear` (741-756) does not touch
`instruction_last_native_call`. -/
def register (e : E) (x : String) : Nat × E :=
  match look e.fns x with
  | some i => (i, { e with fns := e.fns.set i ⟨x, none⟩ })
  | none => (e.fns.length, { e with fns := e.fns ++ [⟨x, none⟩] })

/-- `compiler_keyword_function` and `compiler_pop_and_compile_function` for a function of the top level
(compiler_keyword_function.cpp 533-587, compiler.cpp 543-755): the code is noted, and the function is put on the list of those
with unresolved calls when it has any (compiler.cpp 638-642, ScriptEngine.cpp 1309-1314). -/
def define (e : E) (d : Def) : E :=
  let r := register e d.name
  let c := (comp (fun _ => none) 0 d.body).1
  { r.2 with
    fns := r.2.fns.set r.1 ⟨d.name, some c⟩
    pending := if c.open then (if r.2.pending.contains r.1 then r.2.pending else r.2.pending ++ [r.1]) else r.2.pending }

mutual
/-- `Symbol '%s' not defined`: in the main function every name has to be known (compiler_symbol.cpp 188-191). -/
def known (find : String → Option Nat) : Ex → Bool
  | .lit _ => true
  | .par _ => true
  | .add a b => known find a && known find b
  | .ite c a b => known find c && (known find a && known find b)
  | .call f as => (find f).isSome && knowns find as
  | .native _ as => knowns find as
def knowns (find : String → Option Nat) : List Ex → Bool
  | [] => true
  | a :: as => known find a && knowns find as
end

/-- `compiler_compile_recursive` over the script (compiler.cpp 94, 298-440): the engine, the statements of the main function with the
position where the next one starts, and whether the script is refused. After an error nothing more is read. -/
def scan : E → Nat → List Code → List Item → E × List Code × Bool
  | e, _, cs, [] => (e, cs, true)
  | e, pos, cs, .fn d :: is => scan (define e d) pos cs is
  | e, pos, cs, .stm x :: is =>
    if known (look e.fns) x then
      let p := comp (look e.fns) pos x
      scan e p.2 (cs ++ [p.1]) is
    else (e, cs, false)
  | e, _, cs, .cut f :: _ => ((register e f).2, cs, false)
  | e, _, cs, .bad :: _ => (e, cs, false)

/-- A step after another: what call sites remember is kept when an error ends the run. -/
def andThen {α β : Type} (q : R α × Cache) (f : α → Cache → R β × Cache) : R β × Cache :=
  match q with
  | (.ok a, h) => f a h
  | (.late, h) => (.late, h)
  | (.err, h) => (.err, h)
  | (.ub, h) => (.ub, h)

mutual
/-- Running the code of a function `o` with arguments `args` and `n` steps. A call of a script function whose instructions are
a null pointer reads through it (vm_script_function.cpp 54, 66; vm_call.cpp 288-440); an unresolved call is an error
(vm_script_function.cpp 664-672). -/
def exM (lib : Lib) (fns : List Fn) : Nat → Option Nat → List V → Code → Cache → R V × Cache
  | 0, _, _, _, h => (.late, h)
  | _ + 1, _, _, .lit v, h => (.ok v, h)
  | _ + 1, _, args, .par i, h => (.ok (args.getD i .undef), h)
  | n + 1, o, args, .add a b, h =>
    andThen (exM lib fns n o args a h) fun v h =>
    andThen (exM lib fns n o args b h) fun w h => (v.plus w, h)
  | n + 1, o, args, .ite c a b, h =>
    andThen (exM lib fns n o args c h) fun v h => if v.test then exM lib fns n o args a h else exM lib fns n o args b h
  | n + 1, o, args, .call _ _ t as, h =>
    andThen (asM lib fns n o args as h) fun vs h =>
    match t with
    | none => (.err, h)
    | some i =>
      match fns[i]? with
      | none => (.ub, h)
      | some f =>
        match f.code with
        | none => (.ub, h)
        | some c => exM lib fns n (some i) vs c h
  -- vm_call.cpp 455-556: the function called here last is called again when the arguments can be converted to its parameters,
  -- otherwise it is searched by the name, and noted
  | n + 1, o, args, .native pos x as, h =>
    andThen (asM lib fns n o args as h) fun vs h =>
    match (h.last o pos).filter (fun i => lib.fits i vs) with
    | some i => (.ok (lib.run i vs), h)
    | none =>
      match lib.find x vs with
      | some i => (.ok (lib.run i vs), h.note o pos i)
      | none => (.err, h)
/-- The arguments of a call, from the first to the last. -/
def asM (lib : Lib) (fns : List Fn) : Nat → Option Nat → List V → List Code → Cache → R (List V) × Cache
  | 0, _, _, _, h => (.late, h)
  | _ + 1, _, _, [], h => (.ok [], h)
  | n + 1, o, args, a :: as, h =>
    andThen (exM lib fns n o args a h) fun v h =>
    andThen (asM lib fns n o args as h) fun vs h => (.ok (v :: vs), h)
end

/-- The statements of the main function, one after another until an error. -/
def runM (lib : Lib) (fns : List Fn) (n : Nat) : List Code → Cache → (List V × R Unit) × Cache
  | [], h => (([], .ok ()), h)
  | c :: cs, h =>
    match exM lib fns n none [] c h with
    | (.late, h) => (([], .late), h)
    | (.err, h) => (([], .err), h)
    | (.ub, h) => (([], .ub), h)
    | (.ok v, h) =>
      let q := runM lib fns n cs h
      ((v :: q.1.1, q.1.2), q.2)

/-- `ScriptEngine::compileAndRun`: `compiler_compile_and_link` (compiler.cpp 62-134) and, when it has not thrown, the main function.
What the call sites of the main function remember is forgotten first (compiler.cpp 84). A refused script is not linked (128-133). -/
def script (lib : Lib) (n : Nat) (e : E) (is : List Item) : Seen × E :=
  let r := scan { e with cache := e.cache.clearMain } 0 [] is
  if r.2.2 then
    let l := link r.1
    let q := runM lib l.fns n r.2.1 l.cache
    (.ran q.1.1 q.1.2, { l with cache := q.2 })
  else (.refused, r.1)

/-- Scripts, one after another. -/
def scripts (lib : Lib) (n : Nat) : E → List (List Item) → List Seen
  | _, [] => []
  | e, is :: ss =>
    let r := script lib n e is
    r.1 :: scripts lib n r.2 ss

/-- The engine before anything was defined. -/
def E.init : E := ⟨[], [], []⟩

end Verif.Redef
