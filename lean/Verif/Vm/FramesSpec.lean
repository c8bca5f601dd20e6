import Verif.Vm.FramesSyntax
/-
What programs of functions mean: each call has variables of its own.
-/
namespace Verif.Frames

/-- The values of variables. -/
abbrev Env := Nat → Val

def Env.set (g : Env) (i : Nat) (v : Val) : Env := fun j => if j = i then v else g j

/-- The variables of a new call: each parameter has its argument, or else its default; the others are `undefined`. -/
def bound (F : Fn) (vs : List Val) : Env := fun i =>
  if i < F.params.length then vs.getD i (F.params.getD i .undef) else .undef

/-- How a statement ends: the next one follows, or the function has returned a value. -/
inductive End where
  | next (g l : Env)
  | back (g : Env) (v : Val)

/-- What a call gives: the value that is returned, or `undefined`. -/
def End.value : End → Env × Val
  | .next g _ => (g, .undef)
  | .back g v => (g, v)

mutual
/-- An expression, with the global variables and those of the function. A native function takes at most nine arguments. -/
def exS (P : List Fn) : Nat → Env → Ex → Env → R (Env × Val)
  | 0, _, _, _ => .late
  | _ + 1, _, .lit v, g => .ok (g, v)
  | _ + 1, l, .loc i, g => .ok (g, l i)
  | _ + 1, _, .glob i, g => .ok (g, g i)
  | n + 1, l, .add a b, g =>
    (exS P n l a g).bind fun x => (exS P n l b x.1).bind fun y => (x.2.plus y.2).bind fun v => .ok (y.1, v)
  | n + 1, l, .lt a b, g =>
    (exS P n l a g).bind fun x => (exS P n l b x.1).bind fun y => (x.2.less y.2).bind fun v => .ok (y.1, v)
  | n + 1, l, .call f as, g =>
    (asS P n l as g).bind fun x =>
      match P[f]? with
      | none => .err
      | some F => (stS P n F.body x.1 (bound F x.2)).bind fun r => .ok r.value
  | n + 1, l, .apply f as, g =>
    (asS P n l as g).bind fun x =>
      if as.length ≥ 10 then .err
      else match P[f]? with
        | none => .err
        | some F => (stS P n F.body x.1 (bound F x.2)).bind fun r => .ok r.value
def asS (P : List Fn) : Nat → Env → List Ex → Env → R (Env × List Val)
  | 0, _, _, _ => .late
  | _ + 1, _, [], g => .ok (g, [])
  | n + 1, l, a :: as, g =>
    (exS P n l a g).bind fun x => (asS P n l as x.1).bind fun y => .ok (y.1, x.2 :: y.2)
/-- A statement, with the global variables and those of the function. -/
def stS (P : List Fn) : Nat → St → Env → Env → R End
  | 0, _, _, _ => .late
  | _ + 1, .skip, g, l => .ok (.next g l)
  | n + 1, .ex e, g, l => (exS P n l e g).bind fun x => .ok (.next x.1 l)
  | n + 1, .setLoc i e, g, l => (exS P n l e g).bind fun x => .ok (.next x.1 (Env.set l i x.2))
  | n + 1, .setGlob i e, g, l => (exS P n l e g).bind fun x => .ok (.next (Env.set x.1 i x.2) l)
  | n + 1, .seq s t, g, l =>
    (stS P n s g l).bind fun r =>
      match r with
      | .next g l => stS P n t g l
      | .back g v => .ok (.back g v)
  | n + 1, .ite e s t, g, l =>
    (exS P n l e g).bind fun x => x.2.test.bind fun b => stS P n (if b then s else t) x.1 l
  | n + 1, .loop e s, g, l =>
    (exS P n l e g).bind fun x => x.2.test.bind fun b =>
      if b then
        (stS P n s x.1 l).bind fun r =>
          match r with
          | .next g l => stS P n (.loop e s) g l
          | .back g v => .ok (.back g v)
      else .ok (.next x.1 l)
  | _ + 1, .ret none, g, _ => .ok (.back g .undef)
  | n + 1, .ret (some e), g, l => (exS P n l e g).bind fun x => .ok (.back x.1 x.2)
end

/-- What the host gets and what the global variables are then; `c` of them are declared, new ones are `undefined`. -/
def opS (P : List Fn) (n c : Nat) (g : Env) : Op → R (Nat × Env × Val)
  | .run vars s => (stS P n s (fun i => if i < c then g i else .undef) (fun _ => .undef)).bind fun r => .ok (c + vars, r.value.1, r.value.2)
  | .call f as =>
    match P[f]? with
    | none => .err
    | some F => (stS P n F.body g (bound F as)).bind fun r => .ok (c, r.value.1, r.value.2)

def opsS (P : List Fn) (n : Nat) : Nat → Env → List Op → R (List Val)
  | _, _, [] => .ok []
  | c, g, o :: os => (opS P n c g o).bind fun r => (opsS P n r.1 r.2.1 os).bind fun vs => .ok (r.2.2 :: vs)

/-! ### Programs that the compiler takes -/

/-- The variables of an expression are declared: `c` global ones, `k` of the function. Calls have at most 15 arguments. -/
inductive Ex.Ok (c k : Nat) : Ex → Prop
  | lit (v) : Ex.Ok c k (.lit v)
  | loc (i) : i < k → Ex.Ok c k (.loc i)
  | glob (i) : i < c → Ex.Ok c k (.glob i)
  | add (a b) : Ex.Ok c k a → Ex.Ok c k b → Ex.Ok c k (.add a b)
  | lt (a b) : Ex.Ok c k a → Ex.Ok c k b → Ex.Ok c k (.lt a b)
  | call (f as) : as.length ≤ 15 → (∀ a ∈ as, Ex.Ok c k a) → Ex.Ok c k (.call f as)
  | apply (f as) : as.length ≤ 15 → (∀ a ∈ as, Ex.Ok c k a) → Ex.Ok c k (.apply f as)

inductive St.Ok (c k : Nat) : St → Prop
  | skip : St.Ok c k .skip
  | ex (e) : Ex.Ok c k e → St.Ok c k (.ex e)
  | setLoc (i e) : i < k → Ex.Ok c k e → St.Ok c k (.setLoc i e)
  | setGlob (i e) : i < c → Ex.Ok c k e → St.Ok c k (.setGlob i e)
  | seq (s t) : St.Ok c k s → St.Ok c k t → St.Ok c k (.seq s t)
  | ite (e s t) : Ex.Ok c k e → St.Ok c k s → St.Ok c k t → St.Ok c k (.ite e s t)
  | loop (e s) : Ex.Ok c k e → St.Ok c k s → St.Ok c k (.loop e s)
  | retNone : St.Ok c k (.ret none)
  | ret (e) : Ex.Ok c k e → St.Ok c k (.ret (some e))

/-- `c` global variables are declared before the functions. -/
def Declared (P : List Fn) (c : Nat) : Prop := ∀ F ∈ P, F.body.Ok c F.all

/-- The same for a history that begins with `c` global variables. -/
def OpsOk : Nat → List Op → Prop
  | _, [] => True
  | c, .run vars s :: os => s.Ok (c + vars) 0 ∧ OpsOk (c + vars) os
  | c, .call _ _ :: os => OpsOk c os

/-! ### The host gives an argument for each parameter -/

inductive Ex.Full (P : List Fn) : Ex → Prop
  | lit (v) : Ex.Full P (.lit v)
  | loc (i) : Ex.Full P (.loc i)
  | glob (i) : Ex.Full P (.glob i)
  | add (a b) : Ex.Full P a → Ex.Full P b → Ex.Full P (.add a b)
  | lt (a b) : Ex.Full P a → Ex.Full P b → Ex.Full P (.lt a b)
  | call (f as) : (∀ a ∈ as, Ex.Full P a) → Ex.Full P (.call f as)
  | apply (f as) : (∀ F, P[f]? = some F → F.params.length ≤ as.length) → (∀ a ∈ as, Ex.Full P a) → Ex.Full P (.apply f as)

inductive St.Full (P : List Fn) : St → Prop
  | skip : St.Full P .skip
  | ex (e) : Ex.Full P e → St.Full P (.ex e)
  | setLoc (i e) : Ex.Full P e → St.Full P (.setLoc i e)
  | setGlob (i e) : Ex.Full P e → St.Full P (.setGlob i e)
  | seq (s t) : St.Full P s → St.Full P t → St.Full P (.seq s t)
  | ite (e s t) : Ex.Full P e → St.Full P s → St.Full P t → St.Full P (.ite e s t)
  | loop (e s) : Ex.Full P e → St.Full P s → St.Full P (.loop e s)
  | retNone : St.Full P (.ret none)
  | ret (e) : Ex.Full P e → St.Full P (.ret (some e))

def Op.Full (P : List Fn) : Op → Prop
  | .run _ s => s.Full P
  | .call f as => ∀ F, P[f]? = some F → F.params.length ≤ as.length

/-! ### Scripts alone -/

/-- No native function calls back. -/
inductive Ex.Pure : Ex → Prop
  | lit (v) : Ex.Pure (.lit v)
  | loc (i) : Ex.Pure (.loc i)
  | glob (i) : Ex.Pure (.glob i)
  | add (a b) : Ex.Pure a → Ex.Pure b → Ex.Pure (.add a b)
  | lt (a b) : Ex.Pure a → Ex.Pure b → Ex.Pure (.lt a b)
  | call (f as) : (∀ a ∈ as, Ex.Pure a) → Ex.Pure (.call f as)

inductive St.Pure : St → Prop
  | skip : St.Pure .skip
  | ex (e) : Ex.Pure e → St.Pure (.ex e)
  | setLoc (i e) : Ex.Pure e → St.Pure (.setLoc i e)
  | setGlob (i e) : Ex.Pure e → St.Pure (.setGlob i e)
  | seq (s t) : St.Pure s → St.Pure t → St.Pure (.seq s t)
  | ite (e s t) : Ex.Pure e → St.Pure s → St.Pure t → St.Pure (.ite e s t)
  | loop (e s) : Ex.Pure e → St.Pure s → St.Pure (.loop e s)
  | retNone : St.Pure (.ret none)
  | ret (e) : Ex.Pure e → St.Pure (.ret (some e))

end Verif.Frames
