import Verif.Core.RedefLemmas
/-
Functions are defined in any order, and again (C122, C123).
-/
namespace Verif.Redef

/-- C122 in full: scripts that follow each other show what they show if every call runs the last definition of the name it is
written with, and refused scripts change nothing. -/
def Redefines : Prop :=
  ∀ (lib : Lib), lib.Apart → ∀ (n : Nat) (ss : List (List Item)), scripts lib n E.init ss = seen lib n (fun _ => none) ss

/-- C122 for scripts in which no function that calls an overloaded native function is defined twice, and of which none that is refused
contains a function. -/
theorem redefined_partial (lib : Lib) (ha : lib.Apart) (n : Nat) (ss : List (List Item)) (ho : NativeOnce (allDefs ss))
    (hc : Clean (fun _ => none) ss) : scripts lib n E.init ss = seen lib n (fun _ => none) ss :=
  scripts_sim ha n ss (init_good lib) ho hc

/-- C123. Functions that are defined once, in any order, some of them in a later script than those that call them: every call
runs the function of its name, or is an error as long as there is none. -/
theorem any_order (lib : Lib) (ha : lib.Apart) (n : Nat) (ss : List (List Item))
    (ho : ((allDefs ss).map Def.name).Nodup) (hc : Clean (fun _ => none) ss) :
    scripts lib n E.init ss = seen lib n (fun _ => none) ss := by
  refine redefined_partial lib ha n ss ?_ hc
  generalize allDefs ss = ds at ho
  intro d hd _
  clear hc
  induction ds with
  | nil => cases hd
  | cons e ds ih =>
    rw [List.map_cons, List.nodup_cons] at ho
    rcases List.mem_cons.1 hd with rfl | hd
    · rw [List.filter_cons_of_pos (by simp), List.filter_eq_nil_iff.2]
      · rfl
      · intro x hx hn
        exact ho.1 (List.mem_map.2 ⟨x, hx, by simpa using hn⟩)
    · rw [List.filter_cons_of_neg, ih ho.2 hd]
      intro hn
      exact ho.1 (List.mem_map.2 ⟨d, hd, (beq_iff_eq.1 hn).symm⟩)

/-! ### Examples -/

/-- `up(int)`, `up(String)`, `down(int)`, `down(String)`, registered by the host. -/
def four : Lib where
  owner i := if i = 0 ∨ i = 1 then "up" else if i = 2 ∨ i = 3 then "down" else ""
  find x vs := match vs with
    | [.int _] => if x = "up" then some 0 else if x = "down" then some 2 else none
    | [.text _] => if x = "up" then some 1 else if x = "down" then some 3 else none
    | _ => none
  fits i vs := match vs with
    | [.int _] => i == 0 || i == 2
    | [.text _] => i == 1 || i == 3
    | _ => false
  run i vs := match i, vs with
    | 0, [.int a] => .int (a + 1)
    | 1, [.text s] => .text (s ++ "+")
    | 2, [.int a] => .int (a - 1)
    | 3, [.text s] => .text (s ++ "-")
    | _, _ => .undef

theorem four_apart : four.Apart := by
  constructor
  · intro x vs i h
    simp only [four] at h ⊢
    split at h
    all_goals try (cases h; done)
    all_goals
      split at h
      · rename_i hx
        cases h
        simp [hx]
      · split at h
        · rename_i hx
          cases h
          simp [hx]
        · cases h
  · intro i vs h
    simp only [four] at h ⊢
    split at h
    · simp only [Bool.or_eq_true, beq_iff_eq] at h
      rcases h with rfl | rfl <;> simp
    · simp only [Bool.or_eq_true, beq_iff_eq] at h
      rcases h with rfl | rfl <;> simp
    · cases h

/-- `function even(n){ return n ? odd(n + -1) : 1; }` -/
def even : Def := ⟨"even", .ite (.par 0) (.call "odd" [.add (.par 0) (.lit (.int (-1)))]) (.lit (.int 1))⟩

/-- `function odd(n){ return n ? even(n + -1) : 0; }` -/
def odd : Def := ⟨"odd", .ite (.par 0) (.call "even" [.add (.par 0) (.lit (.int (-1)))]) (.lit (.int 0))⟩

/-- `even` is called before there is `odd`, which the second script defines; then a native function, twice. -/
def orders : List (List Item) :=
  [[.fn even, .stm (.call "even" [.lit (.int 0)]), .stm (.call "even" [.lit (.int 7)])],
   [.fn odd, .stm (.call "even" [.lit (.int 7)]), .stm (.call "odd" [.lit (.int 7)])],
   [.bad],
   [.stm (.call "twice" [.lit (.int 5)])],
   [.fn ⟨"twice", .native "up" [.native "up" [.par 0]]⟩, .stm (.call "twice" [.lit (.int 5)]), .stm (.call "twice" [.lit (.text "a")])]]

theorem orders_clean : Clean (fun _ => none) orders :=
  ⟨.inl rfl, .inl rfl, .inr ⟨rfl, by simp⟩, .inr ⟨rfl, by simp⟩, .inl rfl, trivial⟩

/-- The hypotheses of `any_order` are met, and what is shown. -/
example : scripts four 30 E.init orders =
    [.ran [.int 1] .err, .ran [.int 0, .int 1] (.ok ()), .refused, .refused, .ran [.int 7, .text "a++"] (.ok ())] := by
  rw [any_order four four_apart 30 orders (by decide) orders_clean]
  rfl

/-- A function is defined again, and a function that was compiled before calls the new one. -/
def again : List (List Item) :=
  [[.fn ⟨"f", .lit (.int 1)⟩, .fn ⟨"g", .add (.call "f" []) (.lit (.int 10))⟩, .stm (.call "g" [])],
   [.fn ⟨"f", .add (.call "h" []) (.lit (.int 2))⟩, .fn ⟨"h", .lit (.int 3)⟩, .stm (.call "g" [])]]

/-- The hypotheses of `redefined_partial` are met, and what is shown. -/
example : scripts four 30 E.init again = [.ran [.int 11] (.ok ()), .ran [.int 15] (.ok ())] := by
  rw [redefined_partial four four_apart 30 again (by
    intro d hd h
    simp only [allDefs, again, List.flatMap_cons, List.flatMap_nil, defs, List.append_nil, List.cons_append, List.nil_append,
      List.mem_cons, List.not_mem_nil, or_false] at hd
    rcases hd with rfl | rfl | rfl | rfl <;> exact absurd rfl h) ⟨.inl rfl, .inl rfl, trivial⟩]
  rfl

/-! ### Where C122 is violated -/

/-- `function f(x){ return up(x); } f(1);`, then `function f(x){ return down(x); } f(1);`: the new function calls `up` too,
because what the call site remembers outlives the code it is in. -/
def stale : List (List Item) :=
  [[.fn ⟨"f", .native "up" [.par 0]⟩, .stm (.call "f" [.lit (.int 1)])],
   [.fn ⟨"f", .native "down" [.par 0]⟩, .stm (.call "f" [.lit (.int 1)])]]

theorem stale_call_violated : scripts four 30 E.init stale = [.ran [.int 2] (.ok ()), .ran [.int 2] (.ok ())] ∧
    seen four 30 (fun _ => none) stale = [.ran [.int 2] (.ok ()), .ran [.int 0] (.ok ())] := ⟨rfl, rfl⟩

/-- `function f(){ return 1; }`, then a script that is refused because of an error in its `function f(){ .. }`, then `f()`: the
machine reads through a null pointer. -/
def emptied : List (List Item) := [[.fn ⟨"f", .lit (.int 1)⟩], [.cut "f"], [.stm (.call "f" [])]]

theorem emptied_violated : scripts four 30 E.init emptied = [.ran [] (.ok ()), .refused, .ran [] .ub] ∧
    seen four 30 (fun _ => none) emptied = [.ran [] (.ok ()), .refused, .ran [.int 1] (.ok ())] := ⟨rfl, rfl⟩

/-- The same for a function that never was defined without an error. -/
theorem never_violated : scripts four 30 E.init [[.cut "f"], [.stm (.call "f" [])]] = [.refused, .ran [] .ub] ∧
    seen four 30 (fun _ => none) [[.cut "f"], [.stm (.call "f" [])]] = [.refused, .refused] := ⟨rfl, rfl⟩

/-- A function of a refused script replaces the one that was there before. -/
def kept : List (List Item) := [[.fn ⟨"f", .lit (.int 1)⟩], [.fn ⟨"f", .lit (.int 2)⟩, .bad], [.stm (.call "f" [])]]

theorem kept_violated : scripts four 30 E.init kept = [.ran [] (.ok ()), .refused, .ran [.int 2] (.ok ())] ∧
    seen four 30 (fun _ => none) kept = [.ran [] (.ok ()), .refused, .ran [.int 1] (.ok ())] := ⟨rfl, rfl⟩

theorem redefines_violated : ¬ Redefines := by
  intro h
  have := h four four_apart 30 stale
  rw [stale_call_violated.1, stale_call_violated.2] at this
  revert this
  decide

end Verif.Redef
