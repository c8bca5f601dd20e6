import Verif.Vm.NewLemmas
/-
Properties of `new C(args)` (C93).
-/
namespace Verif.New
open Verif Verif.Types Verif.Meta

variable {W : World}

/-- Running the rest once the object and the constructor (the one a lookup finds) are on the stack. -/
theorem rest_ok {cpp : Cpp} (hc : CppAcyclic cpp) (hL : Lawful W) {ops : List Op} (ho : OrderlyRun cpp [] ops)
    {is : List Item} {p : Prog} (hreg : p.reg = run cpp [] ops) (hinit : ∀ c, p.init c = fieldsOf is c) {arity : Nat → Nat}
    (har : Arities (run cpp [] ops) arity) {c : Nat} (hcl : c < (run cpp [] ops).length) {args : List (Arg W)} {es : List (Expr W)}
    (hcomp : ComputesAll args es) (h16 : es.length < 16) {m : M W} {o : W.V} {s' : W.St}
    (h : Constructs W (run cpp [] ops) (defs cpp [] ops) is arity c es m.st o s') :
    ∃ m1 s1, newObject W p c m = .ok m1 ∧ Leaves m o s1 m1 ∧ o = (W.alloc c m.st).1 ∧
      ∀ m2, Leaves m1 (match lookup p.reg c "constructor" with | some s => W.fval s.fn | none => W.undef) s1 m2 →
        ∃ m', ((evalArgs args m2).bind (ctorCall W (argCount args.length))) = .ok m' ∧ Leaves m o s' m' := by
  obtain ⟨h0, H0, _⟩ := height_run hc (orderlyRun_noSelf ops [] ho)
  obtain ⟨h1, H1, hb⟩ := H0.bounded
  rw [← hreg] at H1 hb
  have hlen : argCount args.length = es.length := by
    rw [argCount, computes_length hcomp, Nat.mod_eq_of_lt h16]
  have near : ∀ r, Nearest (run cpp [] ops) (defs cpp [] ops) c "constructor" r →
      (lookup p.reg c "constructor").map (·.fn.code) = r := by
    intro r hr
    rw [hreg]
    exact (lookup_nearest_partial cpp hc ops ho c "constructor" hcl r).1 hr
  cases h with
  | @plain l s0 s1 vs hn hf ha hr hv =>
    rw [← hreg] at hf
    obtain ⟨m1, k1, k2⟩ := newObject_ok H1 hb hinit hf ha hr
    refine ⟨m1, s1, k1, k2, by rw [ha], ?_⟩
    intro m2 hm2
    have hl : lookup p.reg c "constructor" = none := by simpa using near _ hn
    rw [hl] at hm2
    rw [← hm2.state] at hv
    obtain ⟨m3, j1, j2⟩ := evalArgs_ok hcomp m2 hv
    rw [j1, hlen, ← values_length hv]
    exact ctorCall_none hL k2 hm2 j2
  | @called l k s0 s1 s2 s3 vs ps rs hn hf ha hr hv hp hbody =>
    rw [← hreg] at hf
    obtain ⟨m1, k1, k2⟩ := newObject_ok H1 hb hinit hf ha hr
    refine ⟨m1, s1, k1, k2, by rw [ha], ?_⟩
    intro m2 hm2
    have hl := near _ hn
    cases hs : lookup p.reg c "constructor" with
    | none => rw [hs] at hl; simp at hl
    | some s =>
      rw [hs] at hl hm2
      simp only [Option.map_some, Option.some.injEq] at hl
      obtain ⟨ty, hty, hmem, _⟩ := lookup_mem hs
      have hpar := har ty (by rw [← hreg]; exact hty) s hmem
      rw [← hm2.state] at hv
      obtain ⟨m3, j1, j2⟩ := evalArgs_ok hcomp m2 hv
      rw [← hl] at hp hbody
      rw [← hpar] at hp
      rw [j1, hlen, ← values_length hv]
      exact ctorCall_ok hL k2 hm2 j2 hp hbody

theorem load_reg' (cpp : Cpp) (is : List Item) : (load cpp empty is).reg = run cpp [] (opsOf is) := load_reg cpp is empty

theorem load_init' (cpp : Cpp) (is : List Item) (c : Nat) : (load cpp empty is).init c = fieldsOf is c := by
  rw [load_init]
  rfl

/-- C93: `new N(args)` in a text where no constructor is declared after it makes a new object of class `N`, gives its fields
their values (those of the classes it extends first, each class in the order of the text), evaluates the arguments, and calls
the nearest constructor once, on the object, with them; its value is the object and the stack is otherwise as before. Missing
for the full claim: a constructor declared after the text of the `new`, and more than 15 arguments. -/
theorem new_constructs_partial (cpp : Cpp) (W : World) (before after : List Item) (arity : Nat → Nat) (name : String) (c : Nat)
    (args : List (Arg W)) (es : List (Expr W)) (value : List String → Arg W) (m : M W) (o : W.V) (s' : W.St)
    (hc : CppAcyclic cpp) (hL : Lawful W) (ho : OrderlyRun cpp [] (opsOf (before ++ after)))
    (hs : ScriptOnly (opsOf (before ++ after))) (hn : findName (run cpp [] (opsOf before)) name = some c)
    (hno : NoConstructor after) (har : Arities (run cpp [] (opsOf (before ++ after))) arity) (hcomp : ComputesAll args es) (h16 : es.length < 16)
    (h : Constructs W (run cpp [] (opsOf (before ++ after))) (defs cpp [] (opsOf (before ++ after))) (before ++ after) arity c es m.st o s') :
    ∃ m', exec W (load cpp empty (before ++ after)) value args m (compileNew (load cpp empty before).reg [name]) = .ok m' ∧
      Leaves m o s' m' := by
  have hgrow : Grown "constructor" (run cpp [] (opsOf before)) (run cpp [] (opsOf (before ++ after))) := by
    rw [opsOf_append, run_append]
    apply grown_run
    · intro op hop
      exact hs op (by rw [opsOf_append]; simp [hop])
    · rintro op hop c ps nat st k rfl
      simp only [opsOf, List.mem_filterMap] at hop
      obtain ⟨i, hi, he⟩ := hop
      cases i with
      | op o => cases he; exact hno _ _ _ _ _ hi
      | field => cases he
  have hcl : c < (run cpp [] (opsOf (before ++ after))).length := by
    have := run_length cpp (opsOf after) (run cpp [] (opsOf before))
    rw [opsOf_append, run_append]
    have := findName_lt hn
    omega
  obtain ⟨m1, s1, k1, k2, k3, k4⟩ := rest_ok hc hL ho (load_reg' cpp _) (load_init' cpp _) har hcl hcomp h16 h
  obtain ⟨ctor, e1, e2⟩ := compile_late hn hgrow
  rw [load_reg' cpp before, e1]
  simp only [exec, k1, Out.bind]
  rcases e2 with ⟨rfl, e2⟩ | ⟨i, ty, s, rfl, e2, e3, e4⟩
  · rw [← load_reg' cpp (before ++ after)] at e2
    rw [e2] at k4
    have := k4 (push m1 W.undef) (by rw [← k2.state]; exact push_leaves m1 m1 _ rfl (fun _ _ => rfl))
    simpa only [loadCtor, Out.bind] using this
  · rw [← load_reg' cpp (before ++ after)] at e2 e4
    rw [e4] at k4
    have := k4 (push m1 (W.fval s.fn)) (by rw [← k2.state]; exact push_leaves m1 m1 _ rfl (fun _ _ => rfl))
    have hcls : W.cls (m1.mem (m1.cur - 1)) = some c := by
      rw [k2.height, Nat.add_sub_cancel, k2.value, k3]
      exact hL.cls c m.st
    simpa only [loadCtor, hcls, Option.bind_some, e2, e3, Out.bind] using this

/-- C93: `new v(args)`, where the last name is no class when it is compiled and the expression has a class as its value when
it runs, makes an object of that class the way the program says, constructors declared after it included. Missing for the full claim: more than 15 arguments. -/
theorem new_by_value_partial (cpp : Cpp) (W : World) (before after : List Item) (arity : Nat → Nat) (path : List String) (c : Nat)
    (args : List (Arg W)) (es : List (Expr W)) (value : List String → Arg W) (e : Expr W) (m : M W) (t o : W.V) (s0 s' : W.St)
    (hc : CppAcyclic cpp) (hL : Lawful W) (ho : OrderlyRun cpp [] (opsOf (before ++ after)))
    (hn : ∀ n ∈ path, findName (run cpp [] (opsOf before)) n = none) (hp : path ≠ []) (hv : Computes (value path) e)
    (he : e m.st = .ok (t, s0)) (ht : W.asType t = some c) (hcl : c < (run cpp [] (opsOf (before ++ after))).length)
    (har : Arities (run cpp [] (opsOf (before ++ after))) arity) (hcomp : ComputesAll args es) (h16 : es.length < 16)
    (h : Constructs W (run cpp [] (opsOf (before ++ after))) (defs cpp [] (opsOf (before ++ after))) (before ++ after) arity c es s0 o s') :
    ∃ m', exec W (load cpp empty (before ++ after)) value args m (compileNew (load cpp empty before).reg path) = .ok m' ∧
      Leaves m o s' m' := by
  have hcode : compileNew (load cpp empty before).reg path = .byValue path := by
    have hlast := hn (path.getLast hp) (List.getLast_mem hp)
    rw [compileNew, List.getLast?_eq_some_getLast hp, load_reg' cpp before]
    simp only [Option.getD_some, hlast]
  obtain ⟨m0, j1, j2⟩ := hv m t s0 he
  have hst : ({ m0 with cur := m0.cur - 1 } : M W).st = s0 := j2.state
  rw [← hst] at h
  obtain ⟨m1, s1, k1, k2, k3, k4⟩ := rest_ok hc hL ho (load_reg' cpp _) (load_init' cpp _) har hcl hcomp h16 h
  obtain ⟨m', i1, i2⟩ := k4 (push m1 _) (by rw [← k2.state]; exact push_leaves m1 m1 _ rfl (fun _ _ => rfl))
  have hcur : m0.cur - 1 = m.cur := by rw [j2.height]; omega
  have htop : m0.mem (m0.cur - 1) = t := by rw [hcur, j2.value]
  refine ⟨m', ?_, ?_⟩
  · rw [hcode]
    simp only [exec, j1, Out.bind, newByValue, htop, ht, k1, Out.map]
    exact i1
  · refine ⟨?_, ?_, i2.state, ?_⟩
    · rw [← hcur]; exact i2.value
    · rw [← hcur]; exact i2.height
    · intro i hi
      have : i < m0.cur - 1 := by omega
      rw [i2.below i this]
      exact j2.below i hi

/-! ### A concrete world -/

/-- Values of the examples. -/
inductive Val where
  | undef
  | obj (c : Nat)
  | fn (f : Fn)
  | type (c : Nat)
  deriving DecidableEq

/-- A world that writes down which bodies ran on which objects with how many arguments. -/
def logWorld : World where
  V := Val
  St := List (Nat × Option Val × List Val)
  undef := .undef
  nothing v := decide (v = .undef)
  cls | .obj c => some c | _ => none
  concat _ _ := none
  locals _ := 3
  body k this args s := .ok ([.undef], s ++ [(k, this, args)])
  alloc c s := (.obj c, s)
  fval := .fn
  asFn | .fn f => some f | _ => none
  asType | .type c => some c | _ => none
  dflt _ _ s := .ok (.undef, s)

theorem logWorld_lawful : Lawful logWorld := ⟨fun _ _ => rfl, fun _ => rfl, rfl⟩

/-- The code of a constant and its meaning. -/
def const (v : Val) : Arg logWorld := fun m => .ok (push m v)

theorem const_computes (v : Val) : Computes (W := logWorld) (const v) (fun s => .ok (v, s)) := by
  intro m v' s' h
  cases h
  exact ⟨_, rfl, push_leaves m m v rfl (fun _ _ => rfl)⟩

/-- An empty stack. -/
def start : M logWorld := ⟨fun _ => .undef, 0, []⟩

/-- `class A { constructor(x){..} }`. -/
def demoA : List Item := [.op (.cls "A" none), .op (.fun 0 "constructor" ["x"] false false 3)]

/-- `class A { var f=..; function make(){ return new A(..); } constructor(x){..} }` up to the `new`, and the rest of it. -/
def lateBefore : List Item := [.op (.cls "A" none), .field 0 1, .op (.fun 0 "make" [] false true 2)]
def lateAfter : List Item := [.op (.fun 0 "constructor" ["x"] false false 3)]

/-- The number of parameters of the bodies of the examples. -/
def arities : Nat → Nat := fun k => if k = 3 then 1 else 0

theorem noCpp : CppAcyclic (fun _ _ => false) := ⟨fun _ => 0, by simp⟩

theorem late_orderly : OrderlyRun (fun _ _ => false) [] (opsOf (lateBefore ++ lateAfter)) := by
  refine ⟨(fun h => by cases h), ?_, ?_, trivial⟩
  · rintro ⟨ty, h, hb⟩
    revert hb
    simp only [step, regCls, nameOk, findName] at h
    simp at h
    subst h
    simp
  · rintro ⟨ty, h, hb⟩
    have : ∀ ty ∈ run (fun _ _ => false) [] (opsOf lateBefore), 0 ∉ ty.bases := by decide +kernel
    exact this ty h hb

theorem late_constructs : Constructs logWorld (run (fun _ _ => false) [] (opsOf (lateBefore ++ lateAfter)))
    (defs (fun _ _ => false) [] (opsOf (lateBefore ++ lateAfter))) (lateBefore ++ lateAfter) arities 0
    [fun s => .ok (.type 7, s)] [] (.obj 0) [(1, some (.obj 0), []), (3, some (.obj 0), [.type 7])] := by
  have hown : ownDef (defs (fun _ _ => false) [] (opsOf (lateBefore ++ lateAfter))) 0 "constructor" = some 3 := by decide +kernel
  have hty : (run (fun _ _ => false) [] (opsOf (lateBefore ++ lateAfter)))[0]?
      = some ⟨"A", none, [], [⟨"make", ⟨2, false, true, 0, 0, []⟩⟩, ⟨"constructor", ⟨3, false, false, 0, 0, ["x"]⟩⟩]⟩ := by
    decide +kernel
  refine .called (k := 3) (l := [1]) (s0 := []) (s1 := [(1, some (.obj 0), [])]) (s2 := [(1, some (.obj 0), [])])
    (s3 := [(1, some (.obj 0), [])]) (vs := [.type 7]) (ps := [.type 7]) (rs := [.undef]) (.own hown) ?_ rfl ?_ ?_ ?_ rfl
  · exact .root hty rfl
  · exact .cons rfl .nil
  · exact .cons rfl .nil
  · exact ⟨[], .nil, rfl⟩

/-- A constructor written after a method that creates objects of its own class is not called by that method: the fields are
set, the argument is dropped, and nothing is reported. -/
theorem late_constructor_skipped : ∃ m', exec logWorld (load (fun _ _ => false) empty (lateBefore ++ lateAfter))
      (fun _ => const .undef) [const (.type 7)] start (compileNew (load (fun _ _ => false) empty lateBefore).reg ["A"]) = .ok m' ∧
    Leaves start (.obj 0) [(1, some (.obj 0), [])] m' := by
  have : compileNew (load (fun _ _ => false) empty lateBefore).reg ["A"] = .byType 0 none := by decide +kernel
  rw [this]
  exact ⟨_, rfl, rfl, rfl, rfl, fun i hi => absurd hi (by simp [start])⟩

/-- C93 fails: see `late_constructor_skipped`. -/
theorem new_constructs_violated : ¬ NewConstructs (fun _ _ => false) := by
  intro h
  obtain ⟨m', h1, h2⟩ := h logWorld lateBefore lateAfter arities "A" 0 [const (.type 7)] [fun s => .ok (.type 7, s)]
    (fun _ => const .undef) start _ _ noCpp logWorld_lawful late_orderly
    (by
      have : ∀ op ∈ opsOf (lateBefore ++ lateAfter), (match op with
        | .ext _ _ => false
        | .fun _ _ _ native _ _ => native == false
        | _ => true) = true := by decide +kernel
      intro op hop
      have := this op hop
      cases op <;> simp_all)
    (by decide +kernel) (by unfold Arities; decide +kernel) (.cons (const_computes _) .nil) late_constructs
  obtain ⟨m, k1, k2⟩ := late_constructor_skipped
  rw [k1] at h1
  cases h1
  have := k2.state.symm.trans h2.state
  cases this

/-- `new o.A()` makes an object of class `A` whatever the expression `o.A` is: here its value is class 1, and the object made
is of class 0. -/
theorem dotted_name_ignored : ∃ (is : List Item) (m' : M logWorld),
    exec logWorld (load (fun _ _ => false) empty is) (fun _ => const (.type 1)) [] start
      (compileNew (load (fun _ _ => false) empty is).reg ["o", "A"]) = .ok m' ∧
    Leaves start (.obj 0) [] m' ∧ (load (fun _ _ => false) empty is).reg.length = 2 := by
  refine ⟨[.op (.cls "A" none), .op (.cls "B" none)], ⟨fun j => if j = 1 then .undef else if j = 0 then .obj 0 else .undef, 1, []⟩,
    ?_, ?_, by decide +kernel⟩
  · have : compileNew (load (fun _ _ => false) empty [.op (.cls "A" none), .op (.cls "B" none)]).reg ["o", "A"] = .byType 0 none := by
      decide +kernel
    rw [this]
    have hreg : (load (fun _ _ => false) empty [.op (.cls "A" none), .op (.cls "B" none)]).reg
        = [⟨"A", none, [], []⟩, ⟨"B", none, [], []⟩] := by decide +kernel
    have hinit : (load (fun _ _ => false) empty [.op (.cls "A" none), .op (.cls "B" none)]).init 0 = [] := by decide +kernel
    simp only [exec, newObject, hreg, List.length_nil, runInits, List.getElem?_cons_zero, hinit, Out.bind, fieldInit,
      Out.map, loadCtor, evalArgs, ctorCall]
    simp only [logWorld, start, push]
    congr 2
  · exact ⟨rfl, rfl, rfl, fun i hi => absurd hi (by simp [start])⟩

/-- `new A(0, 1, .., 15)` with sixteen arguments: the count that is kept is 0, the last argument is taken for the constructor, and
the value of the expression is the last argument but one (here class 14), not the object, which stays below with the other
arguments. -/
theorem sixteen_arguments : ∃ m', exec logWorld (load (fun _ _ => false) empty demoA) (fun _ => const .undef)
      ((List.range 16).map fun i => const (.type i)) start (compileNew (load (fun _ _ => false) empty demoA).reg ["A"]) = .ok m' ∧
    m'.cur = 17 ∧ m'.mem 16 = .type 14 ∧ m'.mem 0 = .obj 0 ∧ m'.st = [] := by
  have : compileNew (load (fun _ _ => false) empty demoA).reg ["A"] = .byType 0 (some 0) := by decide +kernel
  rw [this]
  exact ⟨_, rfl, rfl, rfl, rfl, rfl⟩

/-- A class that names itself as its base is registered, and making an object of it never ends: the recursion over the bases
overflows the stack. -/
theorem self_base_ub (W : World) (value : List String → Arg W) (args : List (Arg W)) (m : M W) :
    exec W (load (fun _ _ => false) empty [.op (.cls "A" (some "A"))]) value args m
      (compileNew (load (fun _ _ => false) empty [.op (.cls "A" (some "A"))]).reg ["A"]) = .ub := by
  have : compileNew (load (fun _ _ => false) empty [.op (.cls "A" (some "A"))]).reg ["A"] = .byType 0 none := by decide +kernel
  rw [this]
  have hreg : (load (fun _ _ => false) empty [.op (.cls "A" (some "A"))]).reg = [⟨"A", none, [0], []⟩] := by decide +kernel
  simp only [exec, newObject, hreg, List.length_cons, List.length_nil, runInits, List.getElem?_cons_zero, Out.bind, Out.map]

/-! ### The hypotheses are met -/

/-- `class A { var f=..; constructor(x){..} }  class B extends A { var g=..; }  class C {}`. -/
def demo : List Item := [.op (.cls "A" none), .field 0 1, .op (.fun 0 "constructor" ["x"] false false 3),
  .op (.cls "B" (some "A")), .field 1 4]

/-- Declared after the text of the `new`. -/
def demoAfter : List Item := [.op (.fun 1 "m" [] false false 5), .field 0 6]

theorem demo_orderly : OrderlyRun (fun _ _ => false) [] (opsOf (demo ++ demoAfter)) := by
  refine ⟨(fun h => by cases h), ?_, (fun h => absurd h (by decide)), ?_, trivial⟩
  · rintro ⟨ty, h, hb⟩
    have : ∀ ty ∈ run (fun _ _ => false) [] [.cls "A" none], 0 ∉ ty.bases := by decide +kernel
    exact this ty h hb
  · rintro ⟨ty, h, hb⟩
    have : ∀ ty ∈ run (fun _ _ => false) [] (opsOf demo), 1 ∉ ty.bases := by decide +kernel
    exact this ty h hb

theorem demo_constructs : Constructs logWorld (run (fun _ _ => false) [] (opsOf (demo ++ demoAfter)))
    (defs (fun _ _ => false) [] (opsOf (demo ++ demoAfter))) (demo ++ demoAfter) arities 1
    [fun s => .ok (.type 7, s), fun s => .ok (.type 8, s)] [] (.obj 1)
    [(1, some (.obj 1), []), (6, some (.obj 1), []), (4, some (.obj 1), []), (3, some (.obj 1), [.type 7])] := by
  have h0 : ∃ ty, (run (fun _ _ => false) [] (opsOf (demo ++ demoAfter)))[0]? = some ty ∧ ty.bases = [] :=
    ⟨_, rfl, by decide +kernel⟩
  have h1 : ∃ ty, (run (fun _ _ => false) [] (opsOf (demo ++ demoAfter)))[1]? = some ty ∧ ty.bases = [0] :=
    ⟨_, rfl, by decide +kernel⟩
  obtain ⟨t0, a0, b0⟩ := h0
  obtain ⟨t1, a1, b1⟩ := h1
  have hn : Nearest (run (fun _ _ => false) [] (opsOf (demo ++ demoAfter))) (defs (fun _ _ => false) [] (opsOf (demo ++ demoAfter)))
      1 "constructor" (some 3) := .up (by decide +kernel) a1 b1 (.own (by decide +kernel))
  have hf : Fields (run (fun _ _ => false) [] (opsOf (demo ++ demoAfter))) (demo ++ demoAfter) 1 [1, 6, 4] :=
    .up (l := [1, 6]) a1 b1 (.root a0 b0)
  exact .called (k := 3) (l := [1, 6, 4]) (vs := [.type 7, .type 8]) (ps := [.type 7]) hn hf rfl
    (.cons rfl (.cons rfl (.cons rfl .nil))) (.cons rfl (.cons rfl .nil)) ⟨[], .nil, rfl⟩ rfl

/-- `new B(x, y)`: the fields of `A`, then those of `B`, then the inherited constructor with its one argument. -/
example : ∃ m', exec logWorld (load (fun _ _ => false) empty (demo ++ demoAfter)) (fun _ => const .undef)
      [const (.type 7), const (.type 8)] start (compileNew (load (fun _ _ => false) empty demo).reg ["B"]) = .ok m' ∧
    Leaves start (.obj 1) [(1, some (.obj 1), []), (6, some (.obj 1), []), (4, some (.obj 1), []), (3, some (.obj 1), [.type 7])] m' :=
  new_constructs_partial (fun _ _ => false) logWorld demo demoAfter arities "B" 1 _ _ _ start _ _ noCpp logWorld_lawful demo_orderly
    (by
      have : ∀ op ∈ opsOf (demo ++ demoAfter), (match op with
        | .ext _ _ => false
        | .fun _ _ _ native _ _ => native == false
        | _ => true) = true := by decide +kernel
      intro op hop
      have := this op hop
      cases op <;> simp_all)
    (by decide +kernel) (by intro c ps a b k h; simp [demoAfter] at h) (by unfold Arities; decide +kernel)
    (.cons (const_computes _) (.cons (const_computes _) .nil)) (by decide) demo_constructs

/-- `new v(x, y)` with `v` holding class `B`. -/
example : ∃ m', exec logWorld (load (fun _ _ => false) empty (demo ++ demoAfter)) (fun _ => const (.type 1))
      [const (.type 7), const (.type 8)] start (compileNew (load (fun _ _ => false) empty demo).reg ["v"]) = .ok m' ∧
    Leaves start (.obj 1) [(1, some (.obj 1), []), (6, some (.obj 1), []), (4, some (.obj 1), []), (3, some (.obj 1), [.type 7])] m' :=
  new_by_value_partial (fun _ _ => false) logWorld demo demoAfter arities ["v"] 1 _ _ (fun _ => const (.type 1)) _ start (.type 1) _ [] _ noCpp
    logWorld_lawful demo_orderly
    (by decide +kernel) (by simp) (const_computes (.type 1)) rfl rfl (by decide +kernel) (by unfold Arities; decide +kernel)
    (.cons (const_computes _) (.cons (const_computes _) .nil)) (by decide) demo_constructs

end Verif.New
