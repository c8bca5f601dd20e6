import Verif.Vm.FramesLemmas
/-
Properties of calls: each has variables of its own (C120, C121).
-/
namespace Verif.Frames

/-- The engine before anything has run: `c` global variables, `undefined`; whatever is in the memory behind them. -/
def fresh (c : Nat) (junk : Nat → Val) : E := ⟨c, fun i => if i < c then .undef else junk i⟩

/-! ### C120: every call has its own variables -/

/-- C120. Scripts that use functions which call each other and themselves, in the midst of expressions and of arguments, with
fewer or more arguments than parameters: the host gets what it gets if every call has its own variables, each parameter being its
argument or default, and the others `undefined`. -/
theorem own_variables (P : List Fn) (c n : Nat) (junk : Nat → Val) (ss : List (Nat × St))
    (hd : Declared P c) (hp : ∀ F ∈ P, F.body.Pure)
    (ho : OpsOk c (ss.map fun s => .run s.1 s.2)) (hs : ∀ s ∈ ss, s.2.Pure) :
    opsM P n (fresh c junk) (ss.map fun s => .run s.1 s.2) = opsS P n c (fun _ => .undef) (ss.map fun s => .run s.1 s.2) := by
  refine ops_sim hd (fun F hF => (hp F hF).full) n _ (Nat.le_refl c) ⟨rfl, fun i hi => ?_⟩ ho ?_
  · simp [fresh, hi]
  · intro o h
    obtain ⟨s, h1, rfl⟩ := List.mem_map.1 h
    exact (hs s h1).full

/-- `function fib(n, d = 7) { var r; if(n < 2) return n; r = fib(n - 1, r) + fib(n - 2); return r; }`,
`function none(a) { a = 5; }`, with a global variable 0. -/
def fibs : List Fn :=
  [⟨[.undef, .int 7], 1,
    .seq (.ite (.lt (.loc 0) (.lit (.int 2))) (.ret (some (.loc 0))) .skip)
      (.seq (.setLoc 2 (.add (.call 0 [.add (.loc 0) (.lit (.int (-1))), .loc 2]) (.call 0 [.add (.loc 0) (.lit (.int (-2)))])))
        (.ret (some (.loc 2))))⟩,
   ⟨[.undef], 0, .setLoc 0 (.lit (.int 5))⟩]

/-- Two scripts: `x = 100 + (fib(7, 1, 2, 3) + fib(1)); return x;` and `var y; none(); return y;`. -/
def twoScripts : List (Nat × St) :=
  [(0, .seq (.setGlob 0 (.add (.lit (.int 100))
      (.add (.call 0 [.lit (.int 7), .lit (.int 1), .lit (.int 2), .lit (.int 3)]) (.call 0 [.lit (.int 1)]))))
      (.ret (some (.glob 0)))),
   (1, .seq (.ex (.call 1 [])) (.ret (some (.glob 1))))]

theorem fibs_declared : Declared fibs 1 := by
  intro F hF
  simp only [fibs, List.mem_cons, List.not_mem_nil, or_false] at hF
  rcases hF with rfl | rfl
  · refine .seq _ _ (.ite _ _ _ (.lt _ _ (.loc _ (by decide)) (.lit _)) (.ret _ (.loc _ (by decide))) .skip)
      (.seq _ _ (.setLoc _ _ (by decide) (.add _ _ (.call _ _ (by decide) ?_) (.call _ _ (by decide) ?_))) (.ret _ (.loc _ (by decide))))
    · intro a ha
      simp only [List.mem_cons, List.not_mem_nil, or_false] at ha
      rcases ha with rfl | rfl
      · exact .add _ _ (.loc _ (by decide)) (.lit _)
      · exact .loc _ (by decide)
    · intro a ha
      simp only [List.mem_cons, List.not_mem_nil, or_false] at ha
      subst ha
      exact .add _ _ (.loc _ (by decide)) (.lit _)
  · exact .setLoc _ _ (by decide) (.lit _)

theorem fibs_pure : ∀ F ∈ fibs, F.body.Pure := by
  intro F hF
  simp only [fibs, List.mem_cons, List.not_mem_nil, or_false] at hF
  rcases hF with rfl | rfl
  · refine .seq _ _ (.ite _ _ _ (.lt _ _ (.loc _) (.lit _)) (.ret _ (.loc _)) .skip)
      (.seq _ _ (.setLoc _ _ (.add _ _ (.call _ _ ?_) (.call _ _ ?_))) (.ret _ (.loc _)))
    · intro a ha
      simp only [List.mem_cons, List.not_mem_nil, or_false] at ha
      rcases ha with rfl | rfl
      · exact .add _ _ (.loc _) (.lit _)
      · exact .loc _
    · intro a ha
      simp only [List.mem_cons, List.not_mem_nil, or_false] at ha
      subst ha
      exact .add _ _ (.loc _) (.lit _)
  · exact .setLoc _ _ (.lit _)

theorem lits_ok {c k : Nat} {as : List Ex} (h : ∀ a ∈ as, ∃ v, a = .lit v) : ∀ a ∈ as, Ex.Ok c k a := by
  intro a ha
  obtain ⟨v, rfl⟩ := h a ha
  exact .lit v

theorem lits_pure {as : List Ex} (h : ∀ a ∈ as, ∃ v, a = .lit v) : ∀ a ∈ as, Ex.Pure a := by
  intro a ha
  obtain ⟨v, rfl⟩ := h a ha
  exact .lit v

/-- The hypotheses of C120 are met; the host gets 114 and `undefined`. -/
example (junk : Nat → Val) :
    opsM fibs 60 (fresh 1 junk) (twoScripts.map fun s => .run s.1 s.2) = .ok [.int 114, .undef] := by
  rw [own_variables fibs 1 60 junk twoScripts fibs_declared fibs_pure]
  · decide +kernel
  · refine ⟨.seq _ _ (.setGlob _ _ (by decide) (.add _ _ (.lit _) (.add _ _ (.call _ _ (by decide) (lits_ok ?_))
      (.call _ _ (by decide) (lits_ok ?_))))) (.ret _ (.glob _ (by decide))),
      .seq _ _ (.ex _ (.call _ _ (by decide) (lits_ok ?_))) (.ret _ (.glob _ (by decide))), trivial⟩ <;> simp
  · intro s hs
    simp only [twoScripts, List.mem_cons, List.not_mem_nil, or_false] at hs
    rcases hs with rfl | rfl
    · refine .seq _ _ (.setGlob _ _ (.add _ _ (.lit _) (.add _ _ (.call _ _ (lits_pure ?_)) (.call _ _ (lits_pure ?_))))) (.ret _ (.glob _)) <;> simp
    · refine .seq _ _ (.ex _ (.call _ _ (lits_pure ?_))) (.ret _ (.glob _)); simp

/-! ### C121: a script function that the host calls is called like any other -/

/-- C121, the full statement: histories of scripts and calls by the host, where native functions call script functions back. -/
def HostCalls : Prop :=
  ∀ (P : List Fn) (c n : Nat) (junk : Nat → Val) (os : List Op), Declared P c → OpsOk c os →
    opsM P n (fresh c junk) os = opsS P n c (fun _ => .undef) os

/-- C121 (part): if the host gives at least as many arguments as there are parameters. Missing: fewer arguments (see the
counterexample). -/
theorem host_calls_partial (P : List Fn) (c n : Nat) (junk : Nat → Val) (os : List Op) (hd : Declared P c) (ho : OpsOk c os)
    (hp : ∀ F ∈ P, F.body.Full P) (hf : ∀ o ∈ os, o.Full P) :
    opsM P n (fresh c junk) os = opsS P n c (fun _ => .undef) os :=
  ops_sim hd hp n os (Nat.le_refl c) ⟨rfl, fun i hi => by simp [fresh, hi]⟩ ho hf

/-- `function id(a) { return a; }`, `function twice(a, b) { b = native(id, a, 8); return b + a; }`. -/
def ids : List Fn :=
  [⟨[.undef], 0, .ret (some (.loc 0))⟩,
   ⟨[.undef, .undef], 0, .seq (.setLoc 1 (.apply 0 [.loc 0, .lit (.int 8)])) (.ret (some (.add (.loc 1) (.loc 0))))⟩]

theorem ids_declared : Declared ids 1 := by
  intro F hF
  simp only [ids, List.mem_cons, List.not_mem_nil, or_false] at hF
  rcases hF with rfl | rfl
  · exact .ret _ (.loc _ (by decide))
  · refine .seq _ _ (.setLoc _ _ (by decide) (.apply _ _ (by decide) ?_)) (.ret _ (.add _ _ (.loc _ (by decide)) (.loc _ (by decide))))
    intro a ha
    simp only [List.mem_cons, List.not_mem_nil, or_false] at ha
    rcases ha with rfl | rfl
    · exact .loc _ (by decide)
    · exact .lit _

example (junk : Nat → Val) :
    opsM ids 20 (fresh 1 junk) [.call 1 [.int 4, .int 9, .int 1], .call 0 [.int 3]] = .ok [.int 8, .int 3] := by
  rw [host_calls_partial ids 1 20 junk _ ids_declared]
  · decide +kernel
  · trivial
  · intro F hF
    simp only [ids, List.mem_cons, List.not_mem_nil, or_false] at hF
    rcases hF with rfl | rfl
    · exact .ret _ (.loc _)
    · refine .seq _ _ (.setLoc _ _ (.apply _ _ (fun F hF => ?_) ?_)) (.ret _ (.add _ _ (.loc _) (.loc _)))
      · cases hF; decide
      · intro a ha
        simp only [List.mem_cons, List.not_mem_nil, or_false] at ha
        rcases ha with rfl | rfl
        · exact .loc _
        · exact .lit _
  · intro o ho
    simp only [List.mem_cons, List.not_mem_nil, or_false] at ho
    rcases ho with rfl | rfl <;> intro F hF <;> cases hF <;> decide

/-- `function third(a, b, c = 7) { return c; }` with `ids`. -/
def thirds : List Fn := ids ++ [⟨[.undef, .undef, .int 7], 0, .ret (some (.loc 2))⟩]

/-- The script `id(1) + (id(2) + id(41))`. -/
def sum : St := .ex (.add (.call 0 [.lit (.int 1)]) (.add (.call 0 [.lit (.int 2)]) (.call 0 [.lit (.int 41)])))

/-- C121 is violated: a default value is not used if the host leaves the argument out; the parameter is what happens to be on the
stack. After the script `id(1) + (id(2) + id(41))`, whose value nobody takes, a call of `function third(a, b, c = 7) { return c; }` by
the host with two arguments gives 41. -/
theorem missing_argument_violated :
    ¬ HostCalls ∧ ∀ junk, opsM thirds 20 (fresh 0 junk) [.run 0 sum, .call 2 [.int 0, .int 0]] = .ok [.undef, .int 41] := by
  have h0 : ∀ junk, opsM thirds 20 (fresh 0 junk) [.run 0 sum, .call 2 [.int 0, .int 0]] = .ok [.undef, .int 41] := by
    intro junk
    rfl
  refine ⟨fun h => ?_, h0⟩
  have hlit : ∀ v, ∀ a ∈ [Ex.lit v], Ex.Ok 0 0 a := by
    intro v a ha
    simp only [List.mem_cons, List.not_mem_nil, or_false] at ha
    subst ha
    exact .lit v
  have h1 := h thirds 0 20 (fun _ => .undef) [.run 0 sum, .call 2 [.int 0, .int 0]] ?_
    ⟨.ex _ (.add _ _ (.call _ _ (by decide) (hlit _)) (.add _ _ (.call _ _ (by decide) (hlit _)) (.call _ _ (by decide) (hlit _)))), trivial⟩
  · rw [h0] at h1
    revert h1
    decide +kernel
  · intro F hF
    simp only [thirds, ids, List.mem_cons, List.not_mem_nil, or_false, List.mem_append] at hF
    rcases hF with (rfl | rfl) | rfl
    · exact .ret _ (.loc _ (by decide))
    · refine .seq _ _ (.setLoc _ _ (by decide) (.apply _ _ (by decide) ?_)) (.ret _ (.add _ _ (.loc _ (by decide)) (.loc _ (by decide))))
      intro a ha
      simp only [List.mem_cons, List.not_mem_nil, or_false] at ha
      rcases ha with rfl | rfl
      · exact .loc _ (by decide)
      · exact .lit _
    · exact .ret _ (.loc _ (by decide))

end Verif.Frames
