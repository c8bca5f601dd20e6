import Verif.Common
import Verif.Vm.HostSyntax
/-
Model of what holds objects when a host runs scripts and calls script functions: `vm_execute` (`src/vm/vm.cpp` 249-415), the list
of objects that belong to the host (`vm.cpp` 130-184), the blocks that are left (`src/vm/vm.tcc` 8-76), `return`
(`src/vm/vm_script_function.cpp` 351-398, 680-699), assignment (`src/vm/vm_store.cpp` 208-362), `delete`
(`vm_script_function.cpp` 899-931) and the share counters (`src/vm/vm_share_manager.cpp`).

Simplified: objects are empty and no strings (which are copied); the number of arguments is that of parameters (nothing checks it);
functions have one block and call nothing; a variable that is not declared is a script error here (the compiler refuses it); share
counters do not wrap (see `refcount_wrap_violated`); addresses are never used again; `undefined` stands for all values without
memory; the links of `unreferenced_objects` are those of a list (see `Verif/Vm/Share.lean`).
-/
namespace Verif.Host
open Verif

/-- The block of the main function, and that of the function that is called (`vm_common.h` 117-119, 218, `vm_scope.h` 5-7). -/
inductive Blk where
  | main
  | fn
  deriving DecidableEq, Repr

/-- A `ScriptObject`: freed or not created yet; `shared_pointer == NULL`; with its `n_shares` and
`vm_scope_block_where_created`. -/
inductive Cell where
  | dead
  | bare
  | node (n : Nat) (home : Blk)
  deriving DecidableEq, Repr

/-- Objects, `unreferenced_objects` of the blocks, variables of the main function, `lifetime_object`, next unused address. -/
structure S where
  mem : Nat → Cell
  wait : Blk → List Nat
  glob : List (Option Nat)
  life : List Nat
  next : Nat

def S.init : S := ⟨fun _ => .dead, fun _ => [], [], [], 0⟩

def S.set (s : S) (o : Nat) (c : Cell) : S := { s with mem := fun p => if p = o then c else s.mem p }

def S.setWait (s : S) (b : Blk) (l : List Nat) : S := { s with wait := fun c => if c = b then l else s.wait c }

/-- `vm_create_shared_object`, `vm_share_manager.cpp` 7-46. -/
def create (s : S) (o : Nat) (b : Blk) : Out S :=
  match s.mem o with
  | .dead => .ub
  | .bare => .ok ((s.set o (.node 0 b)).setWait b (s.wait b ++ [o]))
  | .node _ _ => .err

/-- `vm_share_object`, `vm_share_manager.cpp` 69-96. A node that is not in the list of its home is taken out of another list as if
it were in this one, which leaves both broken. -/
def share (s : S) (o : Nat) : Out S :=
  match s.mem o with
  | .node 0 h => if o ∈ s.wait h then .ok ((s.set o (.node 1 h)).setWait h ((s.wait h).erase o)) else .ub
  | .node (n + 1) h => .ok (s.set o (.node (n + 2) h))
  | _ => .ub

/-- `vm_unref_shared_object`, `vm_share_manager.cpp` 98-132: without holder the object is freed, or waits in the given block. -/
def unref (s : S) (o : Nat) (b : Option Blk) : Out S :=
  match s.mem o with
  | .dead => .ub
  | .bare => .err
  | .node 0 _ => .err
  | .node 1 h => match b with
    | none => .ok (s.set o .dead)
    | some b => .ok ((s.set o (.node 0 h)).setWait b (s.wait b ++ [o]))
  | .node (n + 2) h => .ok (s.set o (.node (n + 1) h))

/-- The loop of `vm_remove_empty_shared_pointers`, `vm_share_manager.cpp` 160-190, with `vm_object_in_objects_to_return`,
`vm.tcc` 8-31. -/
def free (s : S) (ret : List Nat) : List Nat → S
  | [] => s
  | o :: os => free (s.set o (if o ∈ ret then .bare else .dead)) ret os

def sweep (s : S) (b : Blk) (ret : List Nat) : S := (free s ret (s.wait b)).setWait b []

/-- Instructions that push a value: `NEW_OBJECT`, `LOAD_GLOBAL`, `LOAD_LOCAL`, `vm_script_function.cpp` 110-115, 541-544. `none` is a
script error. -/
def eval (s : S) (loc : List (Option Nat)) (b : Blk) : Src → Option (Option Nat × S)
  | .undef => some (none, s)
  | .new => some (some s.next, { (s.set s.next (.node 0 b)).setWait b (s.wait b ++ [s.next]) with next := s.next + 1 })
  | .glob g => s.glob[g]?.map fun v => (v, s)
  | .loc l => loc[l]?.map fun v => (v, s)

/-- `vm_store` once the variable has its new value, `vm_store.cpp` 274-345: the new object is shared, the old one waits in the
current block; nothing happens if they are the same. Then `vm_reset_stack`, `vm.cpp` 22-29, `vm_script_function.cpp` 472-475. -/
def store (s : S) (b : Blk) (old new : Option Nat) : Out S :=
  match new with
  | some o =>
    if old = some o then .ok (sweep s b []) else
    (share s o).bind fun s => match old with
      | some p => (unref s p (some b)).map fun s => sweep s b []
      | none => .ok (sweep s b [])
  | none => match old with
    | some p => (unref s p (some b)).map fun s => sweep s b []
    | none => .ok (sweep s b [])

/-- `vm_delete_object`, `vm_script_function.cpp` 899-931: the object is read once more after its share is given back. -/
def delete (s : S) (o : Option Nat) : Out S :=
  match o with
  | none => .ok s
  | some o => (unref s o none).bind fun s => if s.mem o = .dead then .ub else .ok s

/-- One statement; `none` is a script error. -/
def stmt (s : S) (loc : List (Option Nat)) (b : Blk) : Stmt → Option (Out (S × List (Option Nat)))
  | .setG g e => match s.glob[g]? with
    | none => none
    | some old => (eval s loc b e).map fun r => (store { r.2 with glob := r.2.glob.set g r.1 } b old r.1).map fun s => (s, loc)
  | .setL l e => match loc[l]? with
    | none => none
    | some old => (eval s loc b e).map fun r => (store r.2 b old r.1).map fun s => (s, loc.set l r.1)
  | .delG g => (s.glob[g]?).map fun v => (delete s v).map fun s => ({ s with glob := s.glob.set g none }, loc)
  | .delL l => (loc[l]?).map fun v => (delete s v).map fun s => (s, loc.set l none)
  | .fail => none

/-- The instructions of a function up to a script error. -/
def body (s : S) (loc : List (Option Nat)) (b : Blk) : List Stmt → Out (S × List (Option Nat) × Bool)
  | [] => .ok (s, loc, true)
  | c :: cs => match stmt s loc b c with
    | none => .ok (s, loc, false)
    | some x => x.bind fun r => body r.1 r.2 b cs

/-- A value that is returned: no object, an object, or a pointer to a variable of the main function
(`PUSH_STK_GLOBAL_IRGO`, `vm_script_function.cpp` 351-360, `compiler_keyword_function.cpp` 641-653). -/
inductive RVal where
  | none
  | obj (o : Nat)
  | ptr (g : Nat)
  deriving DecidableEq, Repr

/-- The values of `return`, `none` for a script error. -/
def rets (s : S) (loc : List (Option Nat)) (b : Blk) : List Src → S × Option (List RVal)
  | [] => (s, some [])
  | e :: es => match eval s loc b e with
    | none => (s, none)
    | some r =>
      let v : RVal := match r.1, e with
        | none, _ => .none
        | some _, .glob g => .ptr g
        | some o, _ => .obj o
      let q := rets r.2 loc b es
      (q.1, q.2.map (v :: ·))

/-- The objects `vm_object_in_objects_to_return` finds: pointers to variables do not count. -/
def returned : List RVal → List Nat
  | [] => []
  | .obj o :: vs => o :: returned vs
  | _ :: vs => returned vs

/-- The variables in `vm_pop_scope`, `vm.tcc` 46-72: an object is released, unless it is returned and this was its only
holder, which takes its counter away. -/
def popVars (s : S) (ret : List Nat) : List (Option Nat) → Out S
  | [] => .ok s
  | none :: vs => popVars s ret vs
  | some o :: vs => match s.mem o with
    | .dead => .ub
    | .bare => popVars s ret vs
    | .node n h =>
      if n > 1 ∨ o ∉ ret then (unref s o none).bind fun s => popVars s ret vs else
      if n = 0 then
        if o ∈ s.wait h then popVars ((s.set o .bare).setWait h ((s.wait h).erase o)) ret vs else .ub
      else popVars (s.set o .bare) ret vs

/-- `vm_insert_lifetime_object`, `vm.cpp` 130-150. -/
def insertLife (s : S) (o : Nat) : Out S :=
  match s.mem o with
  | .dead => .ub
  | .bare => .ok { s with life := s.life ++ [o] }
  | .node 0 _ => .ok { s with life := s.life ++ [o] }
  | .node (n + 1) h => .ok { s.set o (.node (n + 2) h) with life := s.life ++ [o] }

/-- The first returned value, `vm.cpp` 366-387; the host reads a pointer to a variable as what the variable refers to. -/
def result (s : S) : List RVal → Out (S × Obs)
  | [] => .ok (s, .val none)
  | .none :: _ => .ok (s, .val none)
  | .obj o :: _ => (insertLife s o).map fun s => (s, .val (some o))
  | .ptr g :: _ => .ok (s, .val (s.glob[g]?.join))

/-- Arguments of a call from the host, `vm.cpp` 308-334: the state and `deref_native_args`. -/
def passArgs (s : S) : List (Option Nat) → Out (S × List Nat)
  | [] => .ok (s, [])
  | none :: as => passArgs s as
  | some o :: as =>
    match s.mem o with
    | .dead => .ub
    | .bare => (create s o .main).bind fun s => (share s o).bind fun s => passArgs s as
    | .node 0 _ => (share s o).bind fun s => (share s o).bind fun s => (passArgs s as).map fun r => (r.1, o :: r.2)
    | .node (_ + 1) _ => (share s o).bind fun s => passArgs s as

/-- End of `vm_execute`, `vm.cpp` 402-405. -/
def derefArgs (s : S) : List Nat → Out S
  | [] => .ok s
  | o :: os => match s.mem o with
    | .node _ h => (unref s o (some h)).bind fun s => derefArgs s os
    | _ => .ub

/-- After a script error: all blocks are left with nothing to return, `vm_do_stack_dump`, `vm.cpp` 31-49, 353-363 and
`vm_script_function.cpp` 680-695. -/
def fault (s : S) (loc : List (Option Nat)) : Out (S × Obs) :=
  (popVars s [] loc).map fun s => (sweep (sweep s .fn []) .main [], .exc)

/-- The objects of a list of variables. -/
def objs : List (Option Nat) → List Nat
  | [] => []
  | some o :: vs => o :: objs vs
  | none :: vs => objs vs

/-- `ScriptEngine::run` with a script, `vm_execute` with the main function: `vm.cpp` 283-287, 339-400. New variables are `undefined`.
What `return` leaves on the stack lies above the variables, which count as returned, too, where the main block is swept
(`vm.cpp` 344-350); without `return` nothing does (`vm_script_function.cpp` 680-684). -/
def run (s : S) (n : Nat) (cs : List Stmt) (es : List Src) : Out (S × Obs) :=
  (body { s with glob := s.glob ++ List.replicate n none } [] .main cs).bind fun r =>
    if r.2.2 then
      let q := rets r.1 [] .main es
      match q.2 with
      | none => fault q.1 []
      | some vs => result (sweep q.1 .main (if es = [] then [] else returned vs ++ objs q.1.glob)) vs
    else fault r.1 []

/-- `vm_execute` with another function, called by the host: `vm.cpp` 289-412, `vm_script_function.cpp` 92-97, 686-696. -/
def call (s : S) (as : List (Option Nat)) (n : Nat) (cs : List Stmt) (es : List Src) : Out (S × Obs) :=
  (passArgs s as).bind fun a =>
  (body a.1 (as ++ List.replicate n none) .fn cs).bind fun r =>
    if r.2.2 then
      let q := rets r.1 r.2.1 .fn es
      match q.2 with
      | none => fault q.1 r.2.1
      | some vs =>
        (popVars q.1 (returned vs) r.2.1).bind fun s =>
        (result (sweep s .fn (returned vs)) vs).bind fun p =>
        (derefArgs p.1 a.2).map fun s => (s, p.2)
    else fault r.1 r.2.1

/-- `unrefLifetimeObject`, `vm.cpp` 167-184: an object that is not in the list throws. -/
def giveBack (s : S) (o : Nat) : Out (S × Obs) :=
  if o ∈ s.life then
    let s := { s with life := s.life.erase o }
    match s.mem o with
    | .dead => .ub
    | .bare => .ok (s.set o .dead, .val none)
    | .node _ _ => (unref s o none).map fun s => (s, .val none)
  else .ok (s, .exc)

def step (s : S) : Op → Out (S × Obs)
  | .run n cs es => run s n cs es
  | .call as n cs es => call s as n cs es
  | .unref o => giveBack s o

def steps (s : S) : List Op → Out (S × List Obs)
  | [] => .ok (s, [])
  | op :: ops => (step s op).bind fun r => (steps r.1 ops).map fun q => (q.1, r.2 :: q.2)

end Verif.Host
