import Verif.Module.Eval
import Verif.Module.EvalSpec
/-
Lemmas about `System::eval`.
-/
namespace Verif.Eval
open Verif Verif.EvalSpec

/-! ### Running code -/

theorem exec_fuel : ∀ (f g : Nat) (is : List Instr) (vars : List Val) (st : List Cell), is.length ≤ f → is.length ≤ g →
    exec f is vars st = exec g is vars st
  | 0, 0, _, _, _, _, _ => rfl
  | 0, g + 1, is, vars, st, hf, _ => by
    cases is with
    | nil => rfl
    | cons i is => exact absurd hf (by simp)
  | f + 1, 0, is, vars, st, _, hg => by
    cases is with
    | nil => rfl
    | cons i is => exact absurd hg (by simp)
  | f + 1, g + 1, is, vars, st, hf, hg => by
    cases is with
    | nil => rfl
    | cons i is =>
      have hf : is.length ≤ f := by simpa using hf
      have hg : is.length ≤ g := by simpa using hg
      have ih := fun vars st => exec_fuel f g is vars st hf hg
      cases i with
      | load e => simp only [exec]; exact ih _ _
      | push i => simp only [exec]; exact ih _ _
      | store =>
        simp only [exec]
        split
        · exact ih _ _
        · exact ih _ _
      | call => simp only [exec]; exact ih _ _
      | reset => simp only [exec]; exact ih _ _
      | jnt k =>
        simp only [exec]
        split
        · split
          · exact ih _ _
          · refine exec_fuel f g _ _ _ ?_ ?_
            · rw [List.length_drop]; omega
            · rw [List.length_drop]; omega
        · rfl
      | undef => simp only [exec]; exact ih _ _
      | ret => rfl
      | stop => rfl

/-- Running instructions to their end. -/
def R (is : List Instr) (vars : List Val) (st : List Cell) : Option (List Val) := exec is.length is vars st

theorem R_load (e : Src) (is : List Instr) (vars : List Val) (st : List Cell) :
    R (.load e :: is) vars st = R is vars (st ++ [.val (e.val vars)]) := rfl
theorem R_undef (is : List Instr) (vars : List Val) (st : List Cell) :
    R (.undef :: is) vars st = R is vars (st ++ [.val .undef]) := rfl
theorem R_reset (is : List Instr) (vars : List Val) (st : List Cell) : R (.reset :: is) vars st = R is vars [] := rfl
theorem R_call (is : List Instr) (vars : List Val) (st : List Cell) : R (.call :: is) vars st = R is vars [] := rfl
theorem R_ret (is : List Instr) (vars : List Val) (st : List Cell) : R (.ret :: is) vars st = some (st.map Cell.get) := rfl
theorem R_stop (is : List Instr) (vars : List Val) (st : List Cell) : R (.stop :: is) vars st = none := rfl
theorem R_set (i : Nat) (v : Val) (is : List Instr) (vars : List Val) :
    R (.push i :: .store :: is) vars [.val v] = R is (vars.set i v) [] := rfl
theorem R_jnt (k : Nat) (is : List Instr) (vars : List Val) (v : Val) :
    R (.jnt k :: is) vars [.val v] = if v.true? then R is vars [] else R (is.drop k) vars [] := by
  show (if v.true? then exec is.length is vars [] else exec is.length (is.drop k) vars []) = _
  by_cases h : v.true?
  · rw [if_pos h, if_pos h]; rfl
  · rw [if_neg h, if_neg h]
    exact exec_fuel _ _ _ _ _ (by rw [List.length_drop]; omega) (Nat.le_refl _)

theorem R_loads (vars : List Val) (T : List Instr) : ∀ (es : List Src) (st : List Cell),
    R (es.map .load ++ T) vars st = R T vars (st ++ es.map (fun e => .val (e.val vars)))
  | [], st => by simp
  | e :: es, st => by
    show R (.load e :: (es.map .load ++ T)) vars st = _
    rw [R_load, R_loads vars T es]
    simp

theorem get_vals (es : List Src) (vars : List Val) :
    (es.map (fun e => Cell.val (e.val vars))).map Cell.get = es.map (·.val vars) := by
  rw [List.map_map]; rfl

theorem R_simples (T : List Instr) : ∀ (ss : List Simple) (vars : List Val),
    R (ss.flatMap simple ++ T) vars [] =
      match simples ss vars with
      | .inl vs => some vs
      | .inr vars' => R T vars' []
  | [], vars => rfl
  | .expr e es :: ss, vars => by
    have h : (Simple.expr e es :: ss).flatMap simple ++ T =
        (e :: es).map .load ++ (.reset :: (ss.flatMap simple ++ T)) := by simp [simple]
    rw [h, R_loads, R_reset]
    exact R_simples T ss vars
  | .set i e :: ss, vars => by
    have h : (Simple.set i e :: ss).flatMap simple ++ T =
        .load e :: .push i :: .store :: (ss.flatMap simple ++ T) := by simp [simple]
    rw [h, R_load]
    show R (.push i :: .store :: _) vars [.val (e.val vars)] = _
    rw [R_set]
    exact R_simples T ss _
  | .call es :: ss, vars => by
    have h : (Simple.call es :: ss).flatMap simple ++ T =
        es.map .load ++ (.call :: (ss.flatMap simple ++ T)) := by simp [simple]
    rw [h, R_loads, R_call]
    exact R_simples T ss vars
  | .ret es :: ss, vars => by
    have h : (Simple.ret es :: ss).flatMap simple ++ T =
        es.map .load ++ (.ret :: (ss.flatMap simple ++ T)) := by simp [simple]
    rw [h, R_loads, R_ret, List.nil_append, get_vals]
    rfl

/-- Running code: what it returns, or its variables afterwards. -/
def through : List Stmt → List Val → List Val ⊕ List Val
  | [], vars => .inr vars
  | .one s :: ss, vars =>
    match simples [s] vars with
    | .inl vs => .inl vs
    | .inr vars => through ss vars
  | .ite c body :: ss, vars =>
    if (c.val vars).true? then
      match simples body vars with
      | .inl vs => .inl vs
      | .inr vars => through ss vars
    else through ss vars

theorem run_through : ∀ (ss : List Stmt) (vars : List Val),
    run ss vars = match through ss vars with
      | .inl vs => some vs
      | .inr _ => none
  | [], _ => rfl
  | .one s :: ss, vars => by
    unfold run through
    cases simples [s] vars with
    | inl vs => rfl
    | inr v => exact run_through ss v
  | .ite c body :: ss, vars => by
    unfold run through
    by_cases h : (c.val vars).true?
    · rw [if_pos h, if_pos h]
      cases simples body vars with
      | inl vs => rfl
      | inr v => exact run_through ss v
    · rw [if_neg h, if_neg h]
      exact run_through ss vars

theorem through_one (s : Simple) (ss : List Stmt) (vars : List Val) : through (.one s :: ss) vars =
    match simples [s] vars with
    | .inl vs => .inl vs
    | .inr vars => through ss vars := by simp only [through]

theorem through_ite (c : Src) (body : List Simple) (ss : List Stmt) (vars : List Val) : through (.ite c body :: ss) vars =
    if (c.val vars).true? then
      match simples body vars with
      | .inl vs => .inl vs
      | .inr vars => through ss vars
    else through ss vars := by simp only [through]

theorem through_append : ∀ (ss ts : List Stmt) (vars : List Val),
    through (ss ++ ts) vars = match through ss vars with
      | .inl vs => .inl vs
      | .inr v => through ts v
  | [], _, _ => rfl
  | .one s :: ss, ts, vars => by
    rw [List.cons_append, through_one, through_one]
    cases simples [s] vars with
    | inl vs => rfl
    | inr v => exact through_append ss ts v
  | .ite c body :: ss, ts, vars => by
    rw [List.cons_append, through_ite, through_ite]
    by_cases h : (c.val vars).true?
    · rw [if_pos h, if_pos h]
      cases simples body vars with
      | inl vs => rfl
      | inr v => exact through_append ss ts v
    · rw [if_neg h, if_neg h]
      exact through_append ss ts vars

theorem R_code (T : List Instr) : ∀ (ss : List Stmt) (vars : List Val),
    R (code ss ++ T) vars [] =
      match through ss vars with
      | .inl vs => some vs
      | .inr vars' => R T vars' []
  | [], vars => rfl
  | .one s :: ss, vars => by
    have h : code (.one s :: ss) ++ T = [s].flatMap simple ++ (code ss ++ T) := by simp [code, stmt]
    rw [h, R_simples]
    unfold through
    cases simples [s] vars with
    | inl vs => rfl
    | inr v => exact R_code T ss v
  | .ite c body :: ss, vars => by
    have h : code (.ite c body :: ss) ++ T =
        .load c :: .jnt (body.flatMap simple).length :: (body.flatMap simple ++ (code ss ++ T)) := by simp [code, stmt]
    rw [h, R_load]
    show R (.jnt _ :: _) vars [.val (c.val vars)] = _
    rw [R_jnt, R_simples, List.drop_left]
    unfold through
    by_cases hc : (c.val vars).true?
    · rw [if_pos hc, if_pos hc]
      cases simples body vars with
      | inl vs => rfl
      | inr v => exact R_code T ss v
    · rw [if_neg hc, if_neg hc]
      exact R_code T ss vars

/-! ### The code that `eval` makes -/

/-- Code that ends without `return` leaves nothing, or has `undefined` as its last value. -/
def Idle : Option (List Val) → Prop
  | none => True
  | some ws => ws = [] ∨ ws.getLast? = some .undef

/-- What the changed code does, compared with the statements. -/
def Good (r : Option (List Val)) : List Val ⊕ List Val → Prop
  | .inl vs => r = some vs
  | .inr _ => Idle r

theorem good_tail {ss : List Stmt} {T : List Instr} (hT : ∀ v, Idle (R T v [])) (vars : List Val) :
    Good (R (code ss ++ T) vars []) (through ss vars) := by
  rw [R_code]
  cases through ss vars with
  | inl vs => rfl
  | inr v => exact hT v

theorem idle_expr (vars : List Val) (e : Src) (es : List Src) :
    Idle (R (.load e :: es.map .load ++ [.undef, .ret, .stop, .stop]) vars []) := by
  have h : Instr.load e :: es.map .load ++ [.undef, .ret, .stop, .stop] = (e :: es).map .load ++ [.undef, .ret, .stop, .stop] := rfl
  rw [h, R_loads, R_undef, R_ret, List.map_append]
  refine .inr ?_
  rw [List.map_cons, List.getLast?_append]
  rfl

theorem good_reset {ss : List Stmt} {X : List Instr} (h : code ss = X ++ [.reset]) (vars : List Val) :
    Good (R (X ++ [.undef, .ret, .stop, .stop]) vars []) (through ss vars) := by
  rcases List.eq_nil_or_concat ss with e | ⟨init, s, e⟩
  · subst e
    exact absurd h.symm (by simp [code])
  rw [List.concat_eq_append] at e
  subst e
  have hc : code (init ++ [s]) = code init ++ stmt s := by simp [code]
  rw [hc] at h
  rw [through_append]
  cases s with
  | one s =>
    cases s with
    | expr e es =>
      have hX : X = code init ++ (.load e :: es.map .load) := by
        have h : code init ++ (.load e :: es.map .load) ++ [.reset] = X ++ [.reset] := by
          rw [← h]; simp [stmt, simple]
        exact (List.append_inj_left' h rfl).symm
      rw [hX, List.append_assoc, R_code]
      cases through init vars with
      | inl vs => rfl
      | inr v => exact idle_expr v e es
    | set i e =>
      exfalso
      have h : (code init ++ [.load e, .push i]) ++ [.store] = X ++ [.reset] := by rw [← h]; simp [stmt, simple]
      have := List.append_inj_right' h rfl
      cases this
    | call es =>
      exfalso
      have h : (code init ++ es.map .load) ++ [.call] = X ++ [.reset] := by rw [← h]; simp [stmt, simple]
      have := List.append_inj_right' h rfl
      cases this
    | ret es =>
      exfalso
      have h : (code init ++ es.map .load) ++ [.ret] = X ++ [.reset] := by rw [← h]; simp [stmt, simple]
      have := List.append_inj_right' h rfl
      cases this
  | ite c body =>
    rcases List.eq_nil_or_concat body with e | ⟨b, x, e⟩
    · subst e
      exfalso
      have h : (code init ++ [.load c]) ++ [.jnt 0] = X ++ [.reset] := by rw [← h]; simp [stmt]
      have := List.append_inj_right' h rfl
      cases this
    rw [List.concat_eq_append] at e
    subst e
    have hb : (b ++ [x]).flatMap simple = b.flatMap simple ++ simple x := by simp
    cases x with
    | expr e es =>
      let L : List Instr := .load e :: es.map .load
      have hx : simple (.expr e es) = L ++ [.reset] := rfl
      have hX : X = code init ++ (.load c :: .jnt (b.flatMap simple ++ (L ++ [Instr.reset])).length :: (b.flatMap simple ++ L)) := by
        have h : code init ++ (.load c :: .jnt (b.flatMap simple ++ (L ++ [Instr.reset])).length :: (b.flatMap simple ++ L)) ++ [.reset] =
            X ++ [.reset] := by
          rw [← h, stmt, hb, hx]; simp
        exact (List.append_inj_left' h rfl).symm
      rw [hX, List.append_assoc, R_code]
      cases through init vars with
      | inl vs => rfl
      | inr v =>
        show Good (R (.load c :: .jnt (b.flatMap simple ++ (L ++ [Instr.reset])).length ::
          (b.flatMap simple ++ L ++ [.undef, .ret, .stop, .stop])) v []) (through [.ite c (b ++ [.expr e es])] v)
        rw [R_load]
        show Good (R (.jnt _ :: _) v [.val (c.val v)]) _
        rw [R_jnt]
        unfold through
        by_cases hcv : (c.val v).true?
        · rw [if_pos hcv, if_pos hcv, List.append_assoc, R_simples]
          have hs : ∀ (b : List Simple) v, simples (b ++ [.expr e es]) v = simples b v := by
            intro b
            induction b with
            | nil => intro v; rfl
            | cons y b ih =>
              intro v
              cases y with
              | expr _ _ => exact ih v
              | set i e => exact ih _
              | call _ => exact ih v
              | ret _ => rfl
          rw [hs]
          cases simples b v with
          | inl vs => rfl
          | inr v' => exact idle_expr v' e es
        · rw [if_neg hcv, if_neg hcv]
          have hd : (b.flatMap simple ++ L ++ [Instr.undef, .ret, .stop, .stop]).drop
              (b.flatMap simple ++ (L ++ [Instr.reset])).length = [.ret, .stop, .stop] := by
            have e1 : b.flatMap simple ++ L ++ [Instr.undef, .ret, .stop, .stop] =
                (b.flatMap simple ++ L ++ [Instr.undef]) ++ [.ret, .stop, .stop] := by simp
            have e2 : (b.flatMap simple ++ (L ++ [Instr.reset])).length = (b.flatMap simple ++ L ++ [Instr.undef]).length := by
              simp
            rw [e1, e2, List.drop_left]
          rw [hd, R_ret]
          exact .inl rfl
    | set i e =>
      exfalso
      have h : (code init ++ (.load c :: .jnt (b.flatMap simple ++ simple (.set i e)).length :: (b.flatMap simple ++
          [.load e, .push i]))) ++ [.store] = X ++ [.reset] := by rw [← h, stmt, hb]; simp [simple]
      have := List.append_inj_right' h rfl
      cases this
    | call es =>
      exfalso
      have h : (code init ++ (.load c :: .jnt (b.flatMap simple ++ simple (.call es)).length :: (b.flatMap simple ++
          es.map .load))) ++ [.call] = X ++ [.reset] := by rw [← h, stmt, hb]; simp [simple]
      have := List.append_inj_right' h rfl
      cases this
    | ret es =>
      exfalso
      have h : (code init ++ (.load c :: .jnt (b.flatMap simple ++ simple (.ret es)).length :: (b.flatMap simple ++
          es.map .load))) ++ [.ret] = X ++ [.reset] := by rw [← h, stmt, hb]; simp [simple]
      have := List.append_inj_right' h rfl
      cases this

theorem good_patch (ss : List Stmt) (vars : List Val) : Good (R (patch (code ss)) vars []) (through ss vars) := by
  unfold patch
  split
  · split
    · exact good_tail (T := [.stop]) (fun v => trivial) vars
    · rename_i hl
      have he : code ss = (code ss).dropLast ++ [.reset] := by
        obtain ⟨ys, hy⟩ := List.getLast?_eq_some_iff.1 hl
        rw [hy, List.dropLast_concat]
      exact good_reset he vars
    · exact good_tail (T := [.undef, .ret, .stop]) (fun v => Or.inr rfl) vars
  · exact good_tail (T := [.stop]) (fun v => trivial) vars

/-! ### How the values travel -/

/-- What lies behind the arguments after the native call has ended: `undefined`, the further variables, and the values. -/
theorem native_values (mem : Nat → Val) (start np nl : Nat) (vs : List Val) :
    ∃ s, evalEnd mem start np nl (some vs) = .ok s ∧ (nativeEnd s start).cur = start + nl + vs.length + 1 ∧
      (∀ j, j < start → (nativeEnd s start).mem j = mem j) ∧
      (∀ i, i ≤ nl → (nativeEnd s start).mem (start + i) = .undef) ∧
      ∀ i, i < vs.length → (nativeEnd s start).mem (start + 1 + nl + i) = (vs[i]?).getD .undef := by
  refine ⟨_, rfl, ?_, ?_, ?_, ?_⟩
  · show start + (nl + vs.length) + 1 = _; omega
  · intro j hj
    simp only [nativeEnd, rev, clear]
    rw [if_neg (by omega), if_neg (by omega), if_neg (by omega), if_neg (by omega), if_neg (by omega), if_neg (by omega)]
  · intro i hi
    simp only [nativeEnd, rev, clear]
    rw [if_pos (by omega)]
    by_cases h0 : i = 0
    · rw [if_pos (by omega)]
    · rw [if_neg (by omega), if_pos (by omega), if_pos (by omega), if_neg (by omega), if_pos (by omega)]
  · intro i hi
    simp only [nativeEnd, rev, clear]
    rw [if_pos (by omega), if_neg (by omega), if_pos (by omega), if_pos (by omega), if_pos (by omega)]
    congr 2
    omega

theorem call_values (s : St) (start nargs m : Nat) (hb : nargs ≤ start) (hm : start + m ≤ s.cur) :
    (callEnd s start nargs m).cur = start - nargs + m ∧
    (∀ j, j < start - nargs → (callEnd s start nargs m).mem j = s.mem j) ∧
    ∀ i, i < m → (callEnd s start nargs m).mem (start - nargs + m - 1 - i) = s.mem (s.cur - m + i) := by
  refine ⟨rfl, ?_, ?_⟩
  · intro j hj
    simp only [callEnd, rev, clear]
    rw [if_neg (by omega), if_neg (by omega), if_neg (by omega)]
  · intro i hi
    simp only [callEnd, rev, clear]
    rw [if_pos (by omega), if_pos (by omega), if_neg (by omega)]
    congr 1
    omega

theorem nativeEnd_low (M : Nat → Val) (c start : Nat) (hc : c ≤ start) :
    (∀ j, j < c → (nativeEnd ⟨M, c⟩ start).mem j = M j) ∧ (c = start → (nativeEnd ⟨M, c⟩ start).mem start = .undef) := by
  refine ⟨fun j hj => ?_, fun h => ?_⟩
  · simp only [nativeEnd, rev, clear]
    rw [if_neg (by omega), if_neg (by omega)]
  · subst h
    simp only [nativeEnd, rev, clear]
    rw [if_pos (by omega), if_pos (by omega)]

theorem callEnd_low (s : St) (start nargs m : Nat) (hb : nargs ≤ start) (hc : s.cur ≤ start + m)
    (hu : ∀ j, start ≤ j → j < s.cur → s.mem j = .undef) :
    (∀ j, j < start - nargs → j < s.cur → (callEnd s start nargs m).mem j = s.mem j) ∧
    ∀ i, i < m → (callEnd s start nargs m).mem (start - nargs + m - 1 - i) = .undef := by
  refine ⟨fun j hj hjc => ?_, fun i hi => ?_⟩
  · simp only [callEnd, rev, clear]
    rw [if_neg (by omega), if_neg (by omega), if_neg (by omega)]
  · simp only [callEnd, rev, clear]
    rw [if_pos (by omega), if_pos (by omega)]
    by_cases h : s.cur ≤ start + (s.cur + (start + m - s.cur) - start - 1 - (start - nargs + m - 1 - i + nargs - start))
    · rw [if_pos (by omega)]
    · rw [if_neg (by omega)]
      exact hu _ (by omega) (by omega)

/-- Without `return`: elements from `start - np` on become `undefined`. -/
theorem call_idle (mem : Nat → Val) (start np nl nargs m : Nat) (hb : nargs ≤ start) (hn : np ≤ nargs) (hm : 0 < m) :
    ∃ s, evalEnd mem start np nl none = .ok s ∧ (callEnd (nativeEnd s start) start nargs m).cur = start - nargs + m ∧
      (∀ j, j < start - nargs → (callEnd (nativeEnd s start) start nargs m).mem j = mem j) ∧
      ∀ i, i < m → (callEnd (nativeEnd s start) start nargs m).mem (start - nargs + m - 1 - i) = .undef := by
  obtain ⟨h1, h2⟩ := nativeEnd_low (clear mem start (np + nl)) (start - np) start (by omega)
  have hcur : (nativeEnd ⟨clear mem start (np + nl), start - np⟩ start).cur = start - np + 1 := rfl
  obtain ⟨g1, g2⟩ := callEnd_low (nativeEnd ⟨clear mem start (np + nl), start - np⟩ start) start nargs m hb
    (by rw [hcur]; omega)
    (by
      intro j hj hjc
      rw [hcur] at hjc
      have : j = start := by omega
      subst this
      exact h2 (by omega))
  refine ⟨⟨clear mem start (np + nl), start - np⟩, ?_, rfl, ?_, g2⟩
  · simp only [evalEnd]
    rw [if_neg (by omega)]
  · intro j hj
    rw [g1 j hj (by rw [hcur]; omega), h1 j (by omega)]
    simp only [clear]
    rw [if_neg (by omega)]

end Verif.Eval
