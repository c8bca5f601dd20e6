import Verif.Vm.StrValLemmas
/-
C107 (a string changes only by what is done to it), C108 (a literal has the text it is written with, every time),
C109 (sums and methods that give new strings change nothing).
-/
namespace Verif.Vm.StrVal
open Verif

/-! ## C107 -/

/-- A script all of whose statements are `Fine`, with texts without backslashes, does with its places what the
specification says: each place holds what was put there, and a statement changes the place it names and no other. -/
theorem own_values_partial (N : Int → Text) (L : Nat → Text) (ss : List Stmt) (hN : ∀ n, NoBackslash (N n))
    (hL : ∀ k, NoBackslash (L k)) (hf : FineAll N L env0 groups0 ss) :
    Agrees (run N (start L) ss) (afterAll N L env0 ss) :=
  run_ok hN hL ss r_start hf

/-- The full statement. -/
def OwnValues : Prop := ∀ (N : Int → Text) (L : Nat → Text) (ss : List Stmt),
  Agrees (run N (start L) ss) (afterAll N L env0 ss)

/-- Digits are left out: the witnesses have no numbers in texts. -/
def noDigits : Int → Text := fun _ => []

/-- Literals `"a"`, `"b"` and so on. -/
def letters : Nat → Text := fun k => [UInt8.ofNat (97 + k % 26)]

/-- Two letters, then a backslash followed by an `n` as the fourth literal (written `"\\n"`). -/
def slashed : Nat → Text := fun k => if k = 3 then [92, 110] else letters k

theorem letters_ok : ∀ k, NoBackslash (letters k) := by
  intro k h
  simp only [letters, List.mem_singleton] at h
  have h2 := congrArg UInt8.toNat h
  simp at h2
  omega

/-- Text with every character but the letter `a` dropped: a method that brings no backslashes in. -/
def onlyA : Text → Text := fun t => t.filter (· == 97)

theorem tame_onlyA : Tame onlyA := by
  intro t h hm
  exact h (List.mem_filter.1 hm).1

/-- `s = "a"; t = s; t = "b"; s += t; x = [s]; u = x[0] + "a"; u.edit()`: all of it is fine, although `s` and `x[0]` share. -/
def sample : List Stmt :=
  [.store 0 (.lit 0), .store 1 (.place 0), .store 1 (.lit 1), .append 0 (.place 1), .share 2 (.place 0),
    .store 3 (.add (.place 2) (.lit 0)), .edit 3 onlyA]

theorem sample_fine : FineAll noDigits letters env0 groups0 sample := by
  refine ⟨⟨trivial, fun h => ?_⟩, fun ρ1 h => ?_⟩
  · simp [env0, SVal.isText] at h
  obtain rfl := Option.some.inj h
  refine ⟨⟨trivial, fun h => ?_⟩, fun ρ1 h => ?_⟩
  · simp [env0, SVal.isText, upd] at h
  obtain rfl := Option.some.inj h
  refine ⟨⟨trivial, fun _ _ => ?_⟩, fun ρ1 h => ?_⟩
  · intro q hq ht
    by_cases h0 : q = 0
    · subst h0
      simp [Groups.after, groups0, env0, Groups.fresh, upd, SVal.isText]
    · simp [upd, h0, hq, env0, SVal.isText] at ht
  obtain rfl := Option.some.inj h
  refine ⟨⟨trivial, fun _ => ?_⟩, fun ρ1 h => ?_⟩
  · intro q hq ht
    by_cases h0 : q = 1
    · subst h0
      simp [Groups.after, groups0, env0, Groups.fresh, upd, SVal.isText]
    · simp [upd, h0, hq, env0, SVal.isText] at ht
  obtain rfl := Option.some.inj h
  refine ⟨trivial, fun ρ1 h => ?_⟩
  obtain rfl := Option.some.inj h
  refine ⟨⟨⟨trivial, trivial⟩, fun h => ?_⟩, fun ρ1 h => ?_⟩
  · simp [env0, SVal.isText, upd] at h
  obtain rfl := Option.some.inj h
  refine ⟨⟨tame_onlyA, ?_⟩, fun ρ1 h => trivial⟩
  intro q hq ht
  by_cases h0 : q = 0
  · subst h0
    simp [Groups.after, groups0, env0, Groups.fresh, Groups.join, upd, SVal.isText]
  by_cases h1 : q = 1
  · subst h1
    simp [Groups.after, groups0, env0, Groups.fresh, Groups.join, upd, SVal.isText]
  by_cases h2 : q = 2
  · subst h2
    simp [Groups.after, groups0, env0, Groups.fresh, Groups.join, upd, SVal.isText]
  · simp [upd, h0, hq, h1, h2, env0, SVal.isText] at ht

/-- At its end `s` is `"ab"`, `t` is `"b"`, `x[0]` is `"ab"` and `u` is `"aa"`. -/
example : ∃ ρ, afterAll noDigits letters env0 sample = some ρ ∧ ρ 0 = .text [97, 98] ∧ ρ 1 = .text [98] ∧
    ρ 2 = .text [97, 98] ∧ ρ 3 = .text [97, 97] :=
  ⟨_, rfl, rfl, rfl, rfl, rfl⟩

example : Agrees (run noDigits (start letters) sample) (afterAll noDigits letters env0 sample) :=
  own_values_partial _ _ _ (fun _ h => by cases h) letters_ok sample_fine

/-- The full statement is false. `s = "a"; x = [s]; s = "b"` also changes `x[0]`: there are no backslashes in it, only
assignments and an array. -/
theorem shared_element_violated : ¬ OwnValues ∧
    ∃ σ, run noDigits (start letters) [.store 0 (.lit 0), .share 1 (.place 0), .store 0 (.lit 1)] = .ok σ ∧
      sees σ 1 = .text [98] := by
  have hrun : ∃ σ, run noDigits (start letters) [.store 0 (.lit 0), .share 1 (.place 0), .store 0 (.lit 1)] = .ok σ ∧
      sees σ 1 = .text [98] :=
    ⟨_, rfl, by simp [sees, upd, start, setText, letters, Str.unescapeChars, share]⟩
  refine ⟨fun h => ?_, hrun⟩
  obtain ⟨σ, he, hs⟩ := h noDigits letters [.store 0 (.lit 0), .share 1 (.place 0), .store 0 (.lit 1)]
  obtain ⟨σ', he', hs'⟩ := hrun
  rw [he] at he'
  cases he'
  rw [hs 1] at hs'
  simp [upd, letters] at hs'

/-- `f(s)` where `f` adds to its parameter changes the caller's `s`. -/
theorem shared_parameter_violated :
    ∃ σ, run noDigits (start letters) [.store 0 (.lit 0), .share 1 (.place 0), .append 1 (.lit 1)] = .ok σ ∧
      sees σ 0 = .text [97, 98] ∧
      ¬ Agrees (run noDigits (start letters) [.store 0 (.lit 0), .share 1 (.place 0), .append 1 (.lit 1)])
        (afterAll noDigits letters env0 [.store 0 (.lit 0), .share 1 (.place 0), .append 1 (.lit 1)]) := by
  have hrun : ∃ σ, run noDigits (start letters) [.store 0 (.lit 0), .share 1 (.place 0), .append 1 (.lit 1)] = .ok σ ∧
      sees σ 0 = .text [97, 98] :=
    ⟨_, rfl, by simp [sees, upd, start, setText, letters, Str.unescapeChars, share, textOf]⟩
  obtain ⟨σ', he', hs'⟩ := hrun
  refine ⟨σ', he', hs', fun h => ?_⟩
  obtain ⟨σ, he, hs⟩ := h
  rw [he] at he'
  cases he'
  rw [hs 0] at hs'
  simp [upd, letters] at hs'

/-- `s = "\\\\n"; t = s`: where `s` should be a backslash and an `n`, it is a line feed; one more backslash is lost each
time a text is passed on. -/
theorem backslash_violated :
    (∃ σ, run noDigits (start slashed) [.store 0 (.lit 3)] = .ok σ ∧ sees σ 0 = .text [10]) ∧
      ¬ Agrees (run noDigits (start slashed) [.store 0 (.lit 3)]) (afterAll noDigits slashed env0 [.store 0 (.lit 3)]) := by
  have hrun : ∃ σ, run noDigits (start slashed) [.store 0 (.lit 3)] = .ok σ ∧ sees σ 0 = .text [10] :=
    ⟨_, rfl, by simp [sees, upd, start, setText, slashed, Str.unescapeChars]⟩
  refine ⟨hrun, fun h => ?_⟩
  obtain ⟨σ', he', hs'⟩ := hrun
  obtain ⟨σ, he, hs⟩ := h
  rw [he] at he'
  cases he'
  rw [hs 0] at hs'
  simp [upd, slashed] at hs'

/-- `o - "a"` where the class of `o` defines the operator is an error, although a variable that holds `"a"` is taken. -/
theorem literal_operand_violated :
    run noDigits (start letters) [.operand 0 (.lit 0)] = .err ∧
      (afterAll noDigits letters env0 [.operand 0 (.lit 0)]).isSome ∧
      Agrees (run noDigits (start letters) [.store 1 (.lit 0), .operand 0 (.place 1)])
        (afterAll noDigits letters env0 [.store 1 (.lit 0), .operand 0 (.place 1)]) := by
  refine ⟨rfl, rfl, own_values_partial _ _ _ (fun _ h => by cases h) letters_ok ?_⟩
  refine ⟨⟨trivial, fun h => ?_⟩, fun ρ1 h => ?_⟩
  · simp [env0, SVal.isText] at h
  · exact ⟨⟨trivial, by simp⟩, fun _ _ => trivial⟩

/-- `o.x = "a"` where `x` has a setter: the setter cannot assign to its parameter. -/
theorem setter_parameter_violated :
    run noDigits (start letters) [.setter 0 0, .store 0 (.lit 1)] = .err ∧
      (afterAll noDigits letters env0 [.setter 0 0, .store 0 (.lit 1)]).isSome :=
  ⟨rfl, rfl⟩

/-! ## C108 -/

/-- The text that the `k`-th literal is evaluated to. -/
def Reads (N : Int → Text) (σ : St) (k : Nat) (t : Text) : Prop :=
  ∃ w σ1, eval N σ (.lit k) = .ok (w, σ1) ∧ textOf N σ1 w = t

/-- After any script that calls no editing method on a literal and gives none to a setter, every literal is evaluated to
the text it is written with, whatever else the script did: shared or not, with backslashes or without. -/
theorem literal_kept_partial (N : Int → Text) (L : Nat → Text) (ss : List Stmt) (σ : St) (k : Nat) (hs : SparesLiterals ss)
    (hr : run N (start L) ss = .ok σ) : Reads N σ k (L k) := by
  have h : Kept L (start L) := ⟨fun _ => rfl, fun _ _ => by simp [start]⟩
  exact ⟨_, _, rfl, (kept_run ss h hs hr).lits k⟩

/-- A script with sharing, backslashes and edits, that the theorem covers. -/
example : SparesLiterals ([.store 0 (.lit 3), .share 1 (.place 0), .append 1 (.lit 0), .edit 0 onlyA, .operand 2 (.place 1)]) ∧
    ∃ σ, run noDigits (start slashed) [.store 0 (.lit 3), .share 1 (.place 0), .append 1 (.lit 0), .edit 0 onlyA,
      .operand 2 (.place 1)] = .ok σ := by
  refine ⟨?_, _, rfl⟩
  intro s hs
  simp only [List.mem_cons, List.not_mem_nil, or_false] at hs
  rcases hs with rfl | rfl | rfl | rfl | rfl <;> simp

/-- The full statement. -/
def LiteralsKept : Prop := ∀ (N : Int → Text) (L : Nat → Text) (ss : List Stmt) (σ : St) (k : Nat),
  run N (start L) ss = .ok σ → Reads N σ k (L k)

/-- `"a".append("b")`: from then on the literal `"a"` is `"ab"`. -/
theorem literal_method_violated : ¬ LiteralsKept := by
  intro h
  obtain ⟨w, σ1, he, ht⟩ := h noDigits letters [.editLit 0 (· ++ [98])] _ 0 rfl
  cases he
  simp [textOf, upd, letters, start] at ht

/-- `o.x = "a"` where the setter of `x` adds to its parameter: from then on the literal `"a"` is `"ab"`. No method is called
on a literal here. -/
theorem literal_setter_violated : ∃ σ, run noDigits (start letters) [.setter 0 0, .append 0 (.lit 1)] = .ok σ ∧
    Reads noDigits σ 0 [97, 98] :=
  ⟨_, rfl, _, _, rfl, by simp [textOf, upd, letters, start]⟩

/-! ## C109 -/

/-- After any script whatever: evaluating an expression made of sums and methods that give new strings leaves every place
and every literal as it was. -/
theorem expression_changes_nothing (N : Int → Text) (L : Nat → Text) (ss : List Stmt) (σ σ1 : St) (e : Src) (w : Val)
    (hr : run N (start L) ss = .ok σ) (he : eval N σ e = .ok (w, σ1)) :
    (∀ p, sees σ1 p = sees σ p) ∧ ∀ k t, Reads N σ k t ↔ Reads N σ1 k t := by
  have hs := sane_run ss (sane_start L) hr
  obtain ⟨x, _⟩ := eval_ext e hs he
  refine ⟨?_, ?_⟩
  · intro p
    simp only [sees, x.place]
    cases hp : σ.place p with
    | undef => rfl
    | int n => rfl
    | str a => simp only [x.heap a (hs p a hp)]
  · intro k t
    have hk : σ1.heap (.lit k) = σ.heap (.lit k) := x.heap (.lit k) trivial
    constructor
    · rintro ⟨w, σ2, h1, h2⟩
      cases h1
      exact ⟨_, _, rfl, hk.trans h2⟩
    · rintro ⟨w, σ2, h1, h2⟩
      cases h1
      exact ⟨_, _, rfl, hk.symm.trans h2⟩

/-- Such an expression can make several strings on its way. -/
example : ∃ σ w σ1, run noDigits (start letters) [.store 0 (.lit 0), .share 1 (.place 0)] = .ok σ ∧
    eval noDigits σ (.add (.meth onlyA (.add (.place 0) (.lit 1))) (.place 1)) = .ok (w, σ1) ∧
    textOf noDigits σ1 w = [97, 97] :=
  ⟨_, _, _, rfl, rfl, by
    simp [textOf, upd, letters, start, share, setText, Str.unescapeChars, onlyA]⟩

end Verif.Vm.StrVal
