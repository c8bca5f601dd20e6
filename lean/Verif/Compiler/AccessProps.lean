import Verif.Compiler.AccessSpec
/-
C68: accesses and calls in a row.
-/
namespace Verif.Comp.Acc
open Verif

/-! ### Lemmas -/

theorem bind_map {α β γ : Type} (o : Out α) (f : α → β) (g : β → Out γ) : (o.map f).bind g = o.bind fun a => g (f a) := by cases o <;> rfl
theorem map_bind {α β γ : Type} (o : Out α) (f : α → Out β) (g : β → γ) : (o.bind f).map g = o.bind fun a => (f a).map g := by cases o <;> rfl
theorem bind_assoc {α β γ : Type} (o : Out α) (f : α → Out β) (g : β → Out γ) : (o.bind f).bind g = o.bind fun a => (f a).bind g := by cases o <;> rfl
theorem ok_bind {α β : Type} (a : α) (f : α → Out β) : (Out.ok a).bind f = f a := rfl
theorem bind_ok {α : Type} (o : Out α) : o.bind Out.ok = o := by cases o <;> rfl

section
variable {V : Type}

theorem accs_pre : (as : Accs V) → (code : List (I V)) → compAccs false as code .other = code ++ compAccs false as [] .other
  | .nil, code => by simp [compAccs]
  | .fld n rest, code => by
    simp only [compAccs]
    rw [accs_pre_name rest code n, List.nil_append]
  | .idx e rest, code => by
    simp only [compAccs]
    rw [accs_pre rest (code ++ compE e ++ _), accs_pre rest ([] ++ compE e ++ _)]
    simp
  | .call args rest, code => by
    simp only [compAccs, Bool.false_eq_true, if_false]
    rw [accs_pre rest, accs_pre rest ([] ++ compArgs args ++ _)]
    simp
where
  accs_pre_name : (as : Accs V) → (code : List (I V)) → (n : Nat) →
      compAccs false as (code ++ [.field n false]) .name = code ++ compAccs false as [.field n false] .name
  | .nil, code, n => by simp [compAccs]
  | .fld m rest, code, n => by
    simp only [compAccs]
    rw [accs_pre_name rest _ m, accs_pre_name rest [.field n false] m]
    simp
  | .idx e rest, code, n => by
    simp only [compAccs]
    rw [accs_pre rest (code ++ [I.field n false] ++ compE e ++ [I.item]), accs_pre rest ([I.field n false] ++ compE e ++ [I.item])]
    simp
  | .call args rest, code, n => by
    simp only [compAccs, Bool.false_eq_true, if_false]
    rw [accs_pre rest, accs_pre rest (mark [.field n false] ++ compArgs args ++ _)]
    simp [mark]

theorem calls_false : (as : Accs V) → as.calls = false → (code : List (I V)) → (last : Last) → compAccs true as code last = compAccs false as code last
  | .nil, _, _, _ => rfl
  | .fld n rest, h, code, last => by simp only [compAccs]; exact calls_false rest h _ _
  | .idx e rest, h, code, last => by simp only [compAccs]; exact calls_false rest h _ _

theorem tail_last {l : List (I V)} {i : I V} (h : l.tail.getLast? = some i) : l.getLast? = some i := by
  cases l with
  | nil => cases h
  | cons a l =>
    cases l with
    | nil => cases h
    | cons b l => simpa using h

theorem accs_last (sup : Bool) : (as : Accs V) → (code : List (I V)) → (last : Last) → (∀ x, code.getLast? ≠ some (.load x)) →
    ∀ x, (compAccs sup as code last).getLast? ≠ some (.load x)
  | .nil, code, _, h => h
  | .fld n rest, code, _, _ => by
    simp only [compAccs]
    exact accs_last sup rest _ _ (by simp)
  | .idx e rest, code, _, _ => by
    simp only [compAccs]
    exact accs_last sup rest _ _ (by simp)
  | .call args rest, code, last, _ => by
    have ht : ∀ (l : List (I V)) (i : I V), (∀ x, i ≠ .load x) → ∀ x, (l ++ [i]).tail.getLast? ≠ some (.load x) := by
      intro l i hi x h
      have := tail_last h
      simp at this
      exact hi x this
    simp only [compAccs]
    split
    · exact accs_last sup rest _ _ (ht _ _ (by simp))
    · split
      · exact accs_last sup rest _ _ (ht _ _ (by simp))
      · exact accs_last sup rest _ _ (ht _ _ (by simp))
      · exact accs_last sup rest _ _ (by simp)
      · exact accs_last sup rest _ _ (by simp)

/-- Only a variable is compiled to one load. -/
theorem pointer_comp (e : E V) : (∃ x, e = .var x .nil) ∨ (e.bare = false ∧ pointer (compE e) = compE e) := by
  have h : (∀ x, compE e ≠ [.load x]) → pointer (compE e) = compE e := by
    intro h
    unfold pointer
    split
    · rename_i x hx
      exact absurd hx (h x)
    · rfl
  have h' : (∀ x, (compE e).getLast? ≠ some (.load x)) → pointer (compE e) = compE e := fun h0 => h fun x hx => h0 x (by rw [hx]; rfl)
  cases e with
  | lit v => exact .inr ⟨rfl, rfl⟩
  | post x => exact .inr ⟨rfl, rfl⟩
  | bin o a b => exact .inr ⟨rfl, h' (by simp [compE])⟩
  | var x as =>
    cases as with
    | nil => exact .inl ⟨x, rfl⟩
    | fld n rest => exact .inr ⟨rfl, h' (by simp only [compE, compAccs]; exact accs_last _ _ _ _ (by simp))⟩
    | idx e rest => exact .inr ⟨rfl, h' (by simp only [compE, compAccs]; exact accs_last _ _ _ _ (by rw [List.getLast?_append]; simp))⟩
    | call args rest =>
      refine .inr ⟨rfl, h' ?_⟩
      simp only [compE, compAccs, Bool.false_eq_true, if_false]
      exact accs_last _ _ _ _ (fun x h => by have := tail_last h; rw [List.getLast?_append] at this; simp at this)
  | this k as => exact .inr ⟨rfl, h' (by simp only [compE]; exact accs_last _ _ _ _ (by simp))⟩
  | super args as =>
    refine .inr ⟨rfl, h' ?_⟩
    simp only [compE]
    exact accs_last _ _ _ _ (fun x h => by have := tail_last h; rw [List.getLast?_append] at this; simp at this)

end

section
variable {W : World}

theorem run_append : (a b : List (I W.V)) → (c : W.Cfg) → run W (a ++ b) c = (run W a c).bind (run W b)
  | [], _, _ => rfl
  | i :: a, b, c => by
    simp only [List.cons_append, run]
    cases exec W i c with
    | ok c' => exact run_append a b c'
    | err => rfl
    | ub => rfl

theorem run_one (i : I W.V) (c : W.Cfg) : run W [i] c = exec W i c := by
  simp only [run]
  cases exec W i c <;> rfl

/-- The value on top. -/
def push (stk : List W.Elem) (p : W.V × W.St) : W.Cfg := (.val p.1 :: stk, p.2)

/-- `.n` without a call. -/
def get (W : World) (v : W.V) (n : Nat) (s : W.St) : Out (W.V × W.St) :=
  match W.member v n s with
  | none => .err
  | some (.method m) => .ok ((W.bind v m s).1, (W.bind v m s).2)
  | some (.data w) => .ok (w, s)
  | some .missing => .ok (W.undef, s)

theorem run_field (v : W.V) (n : Nat) (stk : List W.Elem) (s : W.St) :
    run W [.field n false] (.val v :: stk, s) = (get W v n s).map (push stk) := by
  rw [run_one]
  simp only [exec, get]
  cases W.member v n s with
  | none => rfl
  | some m => cases m <;> rfl

def Accs.isCall {V : Type} : Accs V → Bool
  | .call _ _ => true
  | _ => false

theorem eval_fld (as : Accs W.V) (h : as.isCall = false) (n : Nat) (v : W.V) (s : W.St) :
    evalAccs W (.fld n as) v s = (get W v n s).bind fun q => evalAccs W as q.1 q.2 := by
  cases as with
  | call _ _ => cases h
  | nil | fld _ _ | idx _ _ =>
    simp only [evalAccs, get]
    cases W.member v n s with
    | none => rfl
    | some m => cases m <;> rfl

theorem eval_still : (args : Args W.V) → args.still = true → ∀ s, ∃ vs, evalArgs W args s = .ok (vs, s)
  | .nil, _, s => ⟨[], rfl⟩
  | .cons e rest, h, s => by
    simp only [Args.still, Bool.and_eq_true] at h
    obtain ⟨vs, hv⟩ := eval_still rest h.2 s
    have he : ∃ v, evalE W e s = .ok (v, s) := by
      match e, h.1 with
      | .lit v, _ => exact ⟨v, rfl⟩
      | .var x .nil, _ => exact ⟨W.var x s, rfl⟩
    obtain ⟨v, he⟩ := he
    exact ⟨v :: vs, by simp only [evalArgs, he, Out.bind, hv, Out.map]⟩

/-- What the code of the arguments does. -/
def ArgsDo (args : Args W.V) : Prop :=
  ∀ (stk : List W.Elem) (s : W.St),
    match evalArgs W args s with
    | .ok (vs, s') => ∃ es, es.length = args.length ∧ run W (compArgs args) (stk, s) = .ok (es.reverse ++ stk, s') ∧ argsOf W s' es = .ok vs
    | .err => run W (compArgs args) (stk, s) = .err
    | .ub => run W (compArgs args) (stk, s) = .ub

theorem take_args {es stk : List W.Elem} : ((es.reverse ++ stk).take es.length).reverse = es := by
  have : es.length = es.reverse.length := by simp
  rw [this, List.take_left, List.reverse_reverse]

theorem drop_args {es stk : List W.Elem} : (es.reverse ++ stk).drop es.length = stk := by
  have : es.length = es.reverse.length := by simp
  rw [this, List.drop_left]

/-- Arguments and a call that takes just them. -/
theorem call_run {args : Args W.V} (ha : ArgsDo args) {i : I W.V} {f : List W.V → W.St → Out (W.V × W.St)}
    (hi : ∀ c : W.Cfg, exec W i c =
      if c.1.length < args.length then .ub else (argsOf W c.2 (c.1.take args.length).reverse).bind fun vs => result W (c.1.drop args.length) (f vs c.2))
    (stk : List W.Elem) (s : W.St) : run W (compArgs args ++ [i]) (stk, s) = ((evalArgs W args s).bind fun p => f p.1 p.2).map (push stk) := by
  have h := ha stk s
  rw [run_append]
  cases he : evalArgs W args s with
  | ok p =>
    obtain ⟨vs, s'⟩ := p
    rw [he] at h
    obtain ⟨es, hl, hr, hv⟩ := h
    rw [hr, ok_bind, run_one, hi, if_neg (by simp; omega)]
    simp only [← hl, take_args, drop_args, hv, ok_bind]
    rfl
  | err => rw [he] at h; rw [h]; rfl
  | ub => rw [he] at h; rw [h]; rfl

/-- No member of an object that is not a method is a function. -/
def NoFunctionFields (W : World) : Prop := ∀ v n s f, W.member v n s = some (.data f) → W.isFun f = false

theorem count_eq {n : Nat} (h : n < 16) : count n = n := Nat.mod_eq_of_lt h

theorem idx_run {e : E W.V} {rest : Accs W.V} (h1 : ∀ (stk : List W.Elem) (s : W.St), run W (compE e) (stk, s) = (evalE W e s).map (push stk))
    (h2 : ∀ (v : W.V) (stk : List W.Elem) (s : W.St), run W (compAccs false rest [] .other) (.val v :: stk, s) = (evalAccs W rest v s).map (push stk))
    (v : W.V) (stk : List W.Elem) (s : W.St) :
    run W ((compE e ++ [.item]) ++ compAccs false rest [] .other) (.val v :: stk, s) = (evalAccs W (.idx e rest) v s).map (push stk) := by
  rw [run_append, run_append, h1, bind_map, bind_assoc]
  simp only [evalAccs]
  rw [map_bind]
  congr 1
  funext p
  rw [run_one, map_bind]
  show ((W.index v p.1 p.2).map (push stk)).bind _ = _
  rw [bind_map]
  congr 1
  funext q
  exact h2 q.1 stk q.2

mutual
theorem e_run (hF : NoFunctionFields W) : (e : E W.V) → SafeE e → ∀ (stk : List W.Elem) (s : W.St), run W (compE e) (stk, s) = (evalE W e s).map (push stk)
  | .lit v, _, stk, s => rfl
  | .post x, _, stk, s => by
    simp only [compE, run_one]
    rfl
  | .bin o a b, h, stk, s => by
    simp only [SafeE] at h
    simp only [compE, evalE]
    rw [run_append, run_append, e_run hF a h.1, bind_map, bind_assoc, map_bind]
    congr 1
    funext p
    simp only [push]
    rw [e_run hF b h.2, bind_map, map_bind]
    congr 1
    funext q
    rw [run_one]
    rfl
  | .var x as, h, stk, s => by
    simp only [SafeE] at h
    match as, h with
    | .nil, _ => rfl
    | .fld n rest, h =>
      simp only [SafeAccs] at h
      simp only [compE, compAccs, evalE]
      rw [accs_pre.accs_pre_name, run_append]
      exact name_run hF rest h n (W.var x s) stk s
    | .idx e rest, h =>
      simp only [compE, compAccs, evalE]
      rw [accs_pre, List.append_assoc [_], List.append_assoc [_], run_append]
      simp only [SafeAccs] at h
      exact idx_run (e_run hF e h.1) (other_run hF rest h.2) (W.var x s) stk s
    | .call args rest, h =>
      simp only [SafeAccs] at h
      obtain ⟨_, h1, h2, h3, h4⟩ := h
      simp only [compE, compAccs, evalE, Bool.false_eq_true, if_false, count_eq h2]
      rw [accs_pre, run_append]
      show (run W (compArgs args ++ [.call x args.length]) (stk, s)).bind _ = _
      rw [call_run (args_run hF args h1 h3) (f := fun vs s => W.callFun (W.var x s) vs s) (fun c => rfl), bind_map, bind_assoc, map_bind]
      congr 1
      funext p
      rw [map_bind]
      congr 1
      funext q
      exact other_run hF rest h4 q.1 stk q.2
  | .this k as, h, stk, s => by
    simp only [SafeE] at h
    match as, h with
    | .nil, _ =>
      simp only [compE, compAccs, evalE, evalAccs, run_one]
      exact congrArg (fun o => Out.map (push stk) o) (bind_ok _).symm
    | .fld n rest, h =>
      simp only [SafeAccs] at h
      simp only [compE, compAccs, evalE]
      rw [accs_pre.accs_pre_name, run_append, run_one, map_bind]
      show ((W.this k s).map (push stk)).bind _ = _
      rw [bind_map]
      congr 1
      funext q
      exact name_run hF rest h n q.1 stk q.2
    | .idx e rest, h =>
      simp only [compE, compAccs, evalE]
      rw [accs_pre, List.append_assoc [_], List.append_assoc [_], run_append, run_one, map_bind]
      show ((W.this k s).map (push stk)).bind _ = _
      rw [bind_map]
      congr 1
      funext q
      simp only [SafeAccs] at h
      exact idx_run (e_run hF e h.1) (other_run hF rest h.2) q.1 stk q.2
    | .call args rest, h =>
      simp only [SafeAccs] at h
      obtain ⟨_, h1, h2, h3, h4⟩ := h
      simp only [compE, compAccs, evalE, Bool.false_eq_true, if_false, count_eq h2]
      rw [accs_pre, run_append]
      show (run W (compArgs args ++ [.thisCall k args.length]) (stk, s)).bind _ = _
      rw [call_run (args_run hF args h1 h3) (f := fun vs s => W.callThis k vs s) (fun c => rfl), bind_map, bind_assoc, map_bind]
      congr 1
      funext p
      rw [map_bind]
      congr 1
      funext q
      exact other_run hF rest h4 q.1 stk q.2
  | .super args as, h, stk, s => by
    simp only [SafeE] at h
    obtain ⟨h1, h2, h3, h4, h5⟩ := h
    simp only [compE, evalE, count_eq h2]
    rw [calls_false as h5, accs_pre, run_append]
    show (run W (compArgs args ++ [.superCall args.length]) (stk, s)).bind _ = _
    rw [call_run (args_run hF args h1 h3) (f := fun vs s => W.callSuper vs s) (fun c => rfl), bind_map, bind_assoc, map_bind]
    congr 1
    funext p
    rw [map_bind]
    congr 1
    funext q
    exact other_run hF as h4 q.1 stk q.2
theorem other_run (hF : NoFunctionFields W) : (as : Accs W.V) → SafeAccs false as → ∀ (v : W.V) (stk : List W.Elem) (s : W.St),
    run W (compAccs false as [] .other) (.val v :: stk, s) = (evalAccs W as v s).map (push stk)
  | .nil, _, v, stk, s => rfl
  | .fld n rest, h, v, stk, s => by
    simp only [SafeAccs] at h
    simp only [compAccs]
    exact name_run hF rest h n v stk s
  | .idx e rest, h, v, stk, s => by
    simp only [SafeAccs] at h
    simp only [compAccs]
    rw [accs_pre, List.nil_append]
    exact idx_run (e_run hF e h.1) (other_run hF rest h.2) v stk s
  | .call args rest, h, v, stk, s => by
    simp only [SafeAccs] at h
    cases h.1
/-- A name and what follows. -/
theorem name_run (hF : NoFunctionFields W) : (as : Accs W.V) → SafeAccs true as → ∀ (n : Nat) (v : W.V) (stk : List W.Elem) (s : W.St),
    run W (compAccs false as [.field n false] .name) (.val v :: stk, s) = (evalAccs W (.fld n as) v s).map (push stk)
  | .nil, _, n, v, stk, s => by
    simp only [compAccs]
    rw [run_field, eval_fld _ rfl]
    simp only [evalAccs]
    exact congrArg (fun o => Out.map (push stk) o) (bind_ok _).symm
  | .fld m rest, h, n, v, stk, s => by
    simp only [SafeAccs] at h
    simp only [compAccs]
    rw [accs_pre.accs_pre_name, run_append, run_field, bind_map, eval_fld _ rfl, map_bind]
    congr 1
    funext q
    exact name_run hF rest h m q.1 stk q.2
  | .idx e rest, h, n, v, stk, s => by
    simp only [SafeAccs] at h
    simp only [compAccs]
    rw [accs_pre, List.append_assoc [_], List.append_assoc [_], run_append, run_field, bind_map, eval_fld _ rfl, map_bind]
    congr 1
    funext q
    exact idx_run (e_run hF e h.1) (other_run hF rest h.2) q.1 stk q.2
  | .call args rest, h, n, v, stk, s => by
    simp only [SafeAccs] at h
    obtain ⟨_, h1, h2, h3, h4⟩ := h
    simp only [compAccs, Bool.false_eq_true, if_false, count_eq h2]
    rw [accs_pre, run_append]
    show (run W ([.field n true] ++ compArgs args ++ [.memberCall args.length]) (.val v :: stk, s)).bind _ = _
    rw [List.append_assoc, run_append, run_one]
    simp only [exec, evalAccs]
    cases hm : W.member v n s with
    | none => rfl
    | some m =>
      cases m with
      | method m =>
        have ha := args_run hF args h1 h3 (.meth m :: .val v :: stk) s
        simp only [if_true, ok_bind]
        rw [run_append]
        cases he : evalArgs W args s with
        | ok p =>
          obtain ⟨vs, s'⟩ := p
          rw [he] at ha
          obtain ⟨es, hl, hr, hv⟩ := ha
          rw [hr, ok_bind, run_one]
          simp only [exec, ← hl, take_args, drop_args, hv, ok_bind, callElem, result, bind_map]
          rw [map_bind]
          congr 1
          funext q
          exact other_run hF rest h4 q.1 stk q.2
        | err => rw [he] at ha; rw [ha]; rfl
        | ub => rw [he] at ha; rw [ha]; rfl
      | data f =>
        simp only [hF v n s f hm]
        rfl
      | missing => rfl
theorem args_run (hF : NoFunctionFields W) : (args : Args W.V) → SafeArgs args → args.ordered = true → ArgsDo args
  | .nil, _, _, stk, s => ⟨[], rfl, rfl, rfl⟩
  | .cons e rest, h, ho, stk, s => by
    simp only [SafeArgs] at h
    simp only [Args.ordered, Bool.and_eq_true, Bool.or_eq_true, Bool.not_eq_true'] at ho
    have ih := args_run hF rest h.2 ho.2
    simp only [compArgs, run_append, evalArgs]
    rcases pointer_comp e with ⟨x, rfl⟩ | ⟨hb, hp⟩
    · -- the variable is read when the call is made
      obtain ⟨vs, hv⟩ := eval_still rest (by rcases ho.1 with h | h; cases h; exact h) s
      have h2 := ih (.ptr x :: stk) s
      rw [hv] at h2
      obtain ⟨es, hl, hr, ha⟩ := h2
      simp only [evalE, evalAccs, ok_bind, hv, Out.map]
      refine ⟨.ptr x :: es, by simp [Args.length, hl], ?_, by simp only [argsOf, argOf, ok_bind, ha, Out.map]⟩
      show run W (compArgs rest) (.ptr x :: stk, s) = _
      rw [hr]
      simp
    · rw [hp, e_run hF e h.1]
      cases he : evalE W e s with
      | err => rfl
      | ub => rfl
      | ok p =>
        obtain ⟨v, s1⟩ := p
        have h2 := ih (.val v :: stk) s1
        simp only [ok_bind]
        cases hv : evalArgs W rest s1 with
        | ok q =>
          obtain ⟨vs, s2⟩ := q
          rw [hv] at h2
          obtain ⟨es, hl, hr, ha⟩ := h2
          refine ⟨.val v :: es, by simp [Args.length, hl], ?_, by simp only [argsOf, argOf, ok_bind, ha, Out.map]⟩
          show run W (compArgs rest) (.val v :: stk, s1) = _
          rw [hr]
          simp
        | err => rw [hv] at h2; exact h2
        | ub => rw [hv] at h2; exact h2
end

end

/-! ### The property -/

/-- C68 for expressions in which calls are of names, of members of objects, of `this` or of `super`, when no member that is called is a
variable that holds a function. -/
theorem accesses_partial (W : World) (hF : NoFunctionFields W) (e : E W.V) (h : SafeE e) (stk : List W.Elem) (s : W.St) :
    run W (compE e) (stk, s) = (evalE W e s).map fun p => (.val p.1 :: stk, p.2) := e_run hF e h stk s

/-! ### Where it fails -/

/-- A call of an element, `x[v](w)`: the function stays on the stack below the result, in every world. -/
theorem stack_call_keeps_function (W : World) (x : Nat) (v w f r : W.V) (stk : List W.Elem) (s s1 s2 : W.St)
    (hi : W.index (W.var x s) v s = .ok (f, s1)) (hc : W.callFun f [w] s1 = .ok (r, s2)) :
    evalE W (.var x (.idx (.lit v) (.call (.cons (.lit w) .nil) .nil))) s = .ok (r, s2) ∧
    run W (compE (.var x (.idx (.lit v) (.call (.cons (.lit w) .nil) .nil)))) (stk, s) = .ok (.val r :: .val f :: stk, s2) := by
  constructor
  · simp only [evalE, evalAccs, evalArgs, Out.bind, Out.map, hi, hc]
  · have hcode : compE (.var x (.idx (.lit v) (.call (.cons (.lit w) .nil) .nil)) : E W.V) = [.load x, .lit v, .item, .lit w, .stackCall 1] := rfl
    rw [hcode]
    simp only [run, exec, Out.bind, hi, result, Out.map, List.drop_one, List.tail_cons, List.take_succ_cons, List.take_zero, List.reverse_cons,
      List.reverse_nil, List.nil_append, argsOf, argOf, callElem, hc]

/-- A call of a member that is a variable holding a function, `x.n()`: one element too many is taken away, whatever it is. -/
theorem field_call_takes_operand (W : World) (x n : Nat) (f r : W.V) (o : W.Elem) (stk : List W.Elem) (s s2 : W.St)
    (hm : W.member (W.var x s) n s = some (.data f)) (hf : W.isFun f = true) (hc : W.callFun f [] s = .ok (r, s2)) :
    evalE W (.var x (.fld n (.call .nil .nil))) s = .ok (r, s2) ∧
    run W (compE (.var x (.fld n (.call .nil .nil)))) (o :: stk, s) = .ok (.val r :: stk, s2) ∧
    run W (compE (.var x (.fld n (.call .nil .nil)))) ([], s) = .ub := by
  have hcode : compE (.var x (.fld n (.call .nil .nil)) : E W.V) = [.load x, .field n true, .memberCall 0] := rfl
  refine ⟨?_, ?_, ?_⟩
  · simp only [evalE, evalAccs, evalArgs, Out.bind, hm, hf, hc, if_true]
  · rw [hcode]
    simp only [run, exec, Out.bind, hm, hf, Bool.not_true, Bool.and_false, Bool.false_eq_true, if_false, List.drop_zero, List.take_zero, List.reverse_nil,
      argsOf, callElem, hc, result, Out.map]
  · rw [hcode]
    simp only [run, exec, Out.bind, hm, hf, Bool.not_true, Bool.and_false, Bool.false_eq_true, if_false, List.drop_zero]

/-- A variable as argument is read when the call is made: `x(y, y++)` passes the new value of `y`, in every world. -/
theorem argument_read_late (W : World) (x y : Nat) (v r r' : W.V) (stk : List W.Elem) (s s1 s2 s2' : W.St) (hp : W.post y s = .ok (v, s1))
    (hc : W.callFun (W.var x s1) [W.var y s, v] s1 = .ok (r, s2)) (hc' : W.callFun (W.var x s1) [W.var y s1, v] s1 = .ok (r', s2')) :
    evalE W (.var x (.call (.cons (.var y .nil) (.cons (.post y) .nil)) .nil)) s = .ok (r, s2) ∧
    run W (compE (.var x (.call (.cons (.var y .nil) (.cons (.post y) .nil)) .nil))) (stk, s) = .ok (.val r' :: stk, s2') := by
  have hcode : compE (.var x (.call (.cons (.var y .nil) (.cons (.post y) .nil)) .nil) : E W.V) = [.ptr y, .post y, .call x 2] := rfl
  constructor
  · simp only [evalE, evalAccs, evalArgs, Out.bind, Out.map, hp, hc]
  · rw [hcode]
    simp only [run, exec, Out.bind, hp, result, Out.map]
    rw [if_neg (by simp)]
    simp only [List.take_succ_cons, List.take_zero, List.reverse_cons, List.reverse_nil, List.nil_append, List.cons_append, argsOf, argOf, Out.bind, Out.map, hc',
      List.drop_succ_cons, List.drop_zero]

/-- Values of the world below. -/
inductive DV where
  | int (i : Int)
  | fn
  | obj
  | undef
  deriving DecidableEq, Repr

/-- The function of that world: the first argument in the tens. -/
def digits : List DV → DV
  | [.int a, .int b] => .int (10 * a + b)
  | [.int a] => .int a
  | _ => .int 0

/-- Variable 0 is a number (the state), 1 an object with the method 0 and the variable 1 holding a function; its elements are functions; any
other variable is a function. `fields` = the object has the variable 1. -/
def demo (fields : Bool) : World where
  V := DV
  St := Int
  M := Unit
  undef := .undef
  var x s := match x with | 0 => .int s | 1 => .obj | _ => .fn
  this _ s := .ok (.obj, s)
  post _ s := .ok (.int s, s + 1)
  bin _ a b s := match a, b with | .int a, .int b => .ok (.int (a + b), s) | _, _ => .err
  index a _ s := match a with | .obj => .ok (.fn, s) | _ => .err
  member o n _ := match o, n with
    | .obj, 0 => some (.method ())
    | .obj, 1 => some (if fields then .data .fn else .missing)
    | .obj, _ => some .missing
    | _, _ => none
  bind _ _ s := (.fn, s)
  isFun v := v = .fn
  callFun f vs s := if f = .fn then .ok (digits vs, s) else .err
  callMeth _ _ vs s := .ok (digits vs, s)
  callThis _ vs s := .ok (digits vs, s)
  callSuper vs s := .ok (digits vs, s)

/-- `1 + a[0](2)`: the left operand is not the 1 but the function. -/
def callElement : E DV := .bin 0 (.lit (.int 1)) (.var 1 (.idx (.lit (.int 0)) (.call (.cons (.lit (.int 2)) .nil) .nil)))

theorem stack_call_violated : ¬ AccessesCorrect (demo false) ∧
    evalE (demo false) callElement (0 : Int) = .ok (DV.int 3, (0 : Int)) ∧ run (demo false) (compE callElement) ([], (0 : Int)) = .err := by
  refine ⟨fun H => ?_, rfl, rfl⟩
  have := H callElement [] (0 : Int)
  cases this

/-- `1 + o.f(2)` with a variable `f` of `o`: the 1 is gone when `+` wants it; below are the local variables. -/
def callField : E DV := .bin 0 (.lit (.int 1)) (.var 1 (.fld 1 (.call (.cons (.lit (.int 2)) .nil) .nil)))

theorem field_call_violated : ¬ AccessesCorrect (demo true) ∧
    evalE (demo true) callField (0 : Int) = .ok (DV.int 3, (0 : Int)) ∧ run (demo true) (compE callField) ([], (0 : Int)) = .ub := by
  refine ⟨fun H => ?_, rfl, rfl⟩
  have := H callField [] (0 : Int)
  cases this

/-- `f(x, x++)` -/
def lateArgument : E DV := .var 2 (.call (.cons (.var 0 .nil) (.cons (.post 0) .nil)) .nil)

theorem argument_order_violated : ¬ AccessesCorrect (demo false) ∧
    evalE (demo false) lateArgument (1 : Int) = .ok (DV.int 11, (2 : Int)) ∧ run (demo false) (compE lateArgument) ([], (1 : Int)) = .ok ([.val (DV.int 21)], (2 : Int)) := by
  refine ⟨fun H => ?_, rfl, rfl⟩
  have := H lateArgument [] (1 : Int)
  cases this

/-- `super(1).m(2)`: the code of the argument 1 is erased, and both calls become calls of the base. -/
def superTwice : E DV := .super (.cons (.lit (.int 1)) .nil) (.fld 0 (.call (.cons (.lit (.int 2)) .nil) .nil))

theorem super_chain_violated : ¬ AccessesCorrect (demo false) ∧
    compE superTwice = [.superCall 1, .field 0 false, .lit (.int 2), .superCall 1] ∧ run (demo false) (compE superTwice) ([], (0 : Int)) = .ub := by
  refine ⟨fun H => ?_, rfl, rfl⟩
  have := H superTwice [] (0 : Int)
  cases this

/-! ### The conditions of the theorem are met -/

theorem demo_fields : NoFunctionFields (demo false) := by
  intro v n s f h
  match v, n with
  | .obj, 0 => cases h
  | .obj, 1 => cases h
  | .obj, n + 2 => cases h
  | .int _, _ => cases h
  | .fn, _ => cases h
  | .undef, _ => cases h

/-- `1 + o.m(f(x++, x))` -/
def nested : E DV :=
  .bin 0 (.lit (.int 1)) (.var 1 (.fld 0 (.call (.cons (.var 2 (.call (.cons (.post 0) (.cons (.var 0 .nil) .nil)) .nil)) .nil) .nil)))

example : SafeE nested := by
  simp [nested, SafeE, SafeAccs, SafeArgs, Args.length, Args.ordered, Args.still, E.bare, E.still]

example : evalE (demo false) nested (1 : Int) = .ok (DV.int 13, (2 : Int)) := rfl

end Verif.Comp.Acc
