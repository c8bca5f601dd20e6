import Verif.Vm.Share
/-
What a history of share-manager calls means, without looking at counters and lists: who holds which object, and
in which block's list an object without holder waits.
-/
namespace Verif.Share
open Verif

/-- The calls. -/
inductive Op where
  /-- a new object at an unused address -/
  | alloc (o : Nat) (const : Bool)
  /-- the object becomes managed by block `b` -/
  | create (o b : Nat)
  /-- a variable (or argument, or native code) begins to hold the object -/
  | hold (o : Nat)
  /-- a variable stops to hold it; without other holder it waits in a block or is destroyed at once -/
  | drop (o : Nat) (blk : Option Nat)
  /-- an element of object `p` begins to hold `o` -/
  | attach (p o : Nat)
  /-- an element of `p` stops to hold `o` -/
  | detach (p o : Nat) (blk : Option Nat)
  /-- clean-up of a block; `ret` are the objects to return -/
  | sweep (b : Nat) (ret : Nat → Bool)
  /-- a block with these variables is left -/
  | leave (b : Nat) (vars : List (Option Nat)) (ret : Nat → Bool)

/-- The model of each call. -/
def step (fuel : Nat) (s : S) : Op → Option (Out S)
  | .alloc o k => some (.ok (alloc s o k))
  | .create o b => some (create s o b)
  | .hold o => some (share s o)
  | .drop o blk => unref fuel s o blk
  | .attach p o => some (attach s p o)
  | .detach p o blk => detach fuel s p o blk
  | .sweep b ret => sweep fuel s b ret
  | .leave b vars ret => (popScope fuel s b vars ret).map fun
    | .ok r => .ok r.1
    | .err => .err
    | .ub => .ub

/-- Bookkeeping of the history: how many variables hold an object; the block in whose list it waits. -/
structure G where
  holds : Nat → Nat
  box : Nat → Option Nat

def G.init : G := ⟨fun _ => 0, fun _ => none⟩

def set {α : Type} (f : Nat → α) (o : Nat) (v : α) : Nat → α := fun x => if x = o then v else f x

/-- All holders of `o`: variables, and elements of live objects. -/
def holders (s : S) (g : G) (o : Nat) : Nat := g.holds o + (s.live.map fun p => (s.kids p).count o).sum

/-- The bookkeeping after a call in state `s`. -/
def G.next (s : S) (g : G) : Op → G
  | .alloc _ _ => g
  | .create o b => { g with box := set g.box o (some b) }
  | .hold o => ⟨set g.holds o (g.holds o + 1), set g.box o none⟩
  | .drop o none => { g with holds := set g.holds o (g.holds o - 1) }
  | .drop o (some b) => ⟨set g.holds o (g.holds o - 1), if holders s g o = 1 then set g.box o (some b) else g.box⟩
  | .attach _ o => { g with box := set g.box o none }
  | .detach _ _ none => g
  | .detach _ o (some b) => { g with box := if holders s g o = 1 then set g.box o (some b) else g.box }
  | .sweep b _ => { g with box := fun x => if g.box x = some b then none else g.box x }
  | .leave b vars _ => ⟨fun x => g.holds x - vars.count (some x), fun x => if g.box x = some b then none else g.box x⟩

/-- The calls a correct client makes: objects exist and are managed when they are held, only a holder gives back,
a block is left with variables that hold what they hold. -/
def Client (s : S) (g : G) : Op → Prop
  | .alloc o _ => o ∉ s.live
  | .create o _ => o ∈ s.live ∧ s.const o = false ∧ s.info o = none
  | .hold o => (s.info o).isSome
  | .drop o _ => 0 < g.holds o
  | .attach p o => p ∈ s.live ∧ (s.info o).isSome
  | .detach p o _ => p ∈ s.live ∧ o ∈ s.kids p
  | .sweep _ _ => True
  | .leave _ vars _ => ∀ o, vars.count (some o) ≤ g.holds o

/-- The limits of the code: at most 65535 holders, and an object that waits is taken up again only where it was
created. -/
def InLimits (s : S) (g : G) : Op → Prop
  | .hold o | .attach _ o => holders s g o < 65535 ∧ (g.box o = none ∨ g.box o = (s.info o).map (·.home))
  | _ => True

/-- The states of histories within a set of allowed calls. -/
inductive Reach (allowed : S → G → Op → Prop) : S → G → Prop where
  | init : Reach allowed S.init G.init
  | op {s g op fuel s'} : Reach allowed s g → allowed s g op → step fuel s op = some (.ok s') →
      Reach allowed s' (g.next s op)

def Legal (s : S) (g : G) (op : Op) : Prop := Client s g op ∧ InLimits s g op

/-- The call ends, normally, in a state that does not depend on the fuel. -/
def Completes (s : S) (op : Op) (s' : S) : Prop :=
  (∃ n, ∀ fuel, n ≤ fuel → step fuel s op = some (.ok s')) ∧ ∀ fuel r, step fuel s op = some r → r = .ok s'

end Verif.Share
