import Verif.Vm.IterLemmas
import Verif.Vm.ContainerProps
import Verif.Vm.CompareProps
import Verif.Base.StrProps
/-
C41 (iteration visits each element once; `in`), C60 (iterating an array or string while the body changes it),
C61 (iterating an object while the body changes it).
-/
namespace Verif.Vm.Iter
open Verif Map

/-! ### Specification -/

/-- The loop variables: `for(v in c)` or `for(k,v in c)`. -/
inductive Vars where
  | one (v : El)
  | two (k v : El)

/-- The variables in the order they are written. -/
def Vars.list : Vars → List El
  | .one v => [v]
  | .two k v => [k, v]

/-- What a round has to assign: the value to the last variable, the key to the one before it. -/
def Vars.gets (value key : El) : Vars → List (El × El)
  | .one v => [(value, v)]
  | .two k v => [(value, v), (key, k)]

/-- Runs of `for` over a sequence that the body may change. The loop is before position `i` in state `s`; it
visits `rounds` (position and the element found there at that moment) and ends with `out`. -/
inductive Visits {α σ : Type} (view : σ → Option (List α)) (body : Nat → α → σ → Out σ) :
    Nat → σ → List (Nat × α) → Out σ → Prop
  /-- The sequence was destroyed: error. -/
  | gone {i s} : view s = none → Visits view body i s [] .err
  /-- Nothing at position `i`: the loop ends. -/
  | stop {i s a} : view s = some a → a[i]? = none → Visits view body i s [] (.ok s)
  /-- The body fails. -/
  | fails {i s a x} : view s = some a → a[i]? = some x → body i x s = .err → Visits view body i s [(i, x)] .err
  /-- The body is undefined. -/
  | undefined {i s a x} : view s = some a → a[i]? = some x → body i x s = .ub → Visits view body i s [(i, x)] .ub
  /-- One round; the next one is at position `i + 1`. -/
  | round {i s a x s' rest out} : view s = some a → a[i]? = some x → body i x s = .ok s' →
      Visits view body (i + 1) s' rest out → Visits view body i s ((i, x) :: rest) out

/-- The outcome of a loop: the assignments of all rounds and the final state, or the failure. -/
def report {α σ : Type} (asg : Nat → α → List (El × El)) (rounds : List (Nat × α)) (out : Out σ) :
    Out (List (List (El × El)) × σ) :=
  out.map fun s => (rounds.map fun r => asg r.1 r.2, s)

/-- What a round of an array loop assigns. -/
def arrayRound (vars : Vars) (i : Nat) (x : Stk) : List (El × El) :=
  vars.gets (.stk x) (.stk (mkInt (BitVec.ofNat 64 i)))

/-- What a round of a string loop assigns: the character as a signed byte. -/
def stringRound (vars : Vars) (i : Nat) (c : UInt8) : List (El × El) :=
  vars.gets (.stk (mkInt (BitVec.ofInt 64 c.toInt8.toInt))) (.stk (mkInt (BitVec.ofNat 64 i)))

/-! ### Proof -/

theorem assigned_vars (vars : Vars) (value key : El) : assigned vars.list [value, key] = vars.gets value key := by
  cases vars <;> rfl

theorem charCode_eq (c : UInt8) : charCode c = BitVec.ofInt 64 c.toInt8.toInt := by
  unfold charCode
  apply BitVec.eq_of_toInt_eq
  rw [BitVec.toInt_signExtend_of_le (by decide), BitVec.toInt_ofInt, Int.bmod_eq_of_le]
  · rfl
  · have := c.toInt8.le_toInt; simp at this ⊢; omega
  · have := c.toInt8.toInt_lt; simp at this ⊢; omega

/-- More fuel does not change an outcome. -/
theorem loop_mono {I σ : Type} (fin : I → σ → Out Bool) (get : I → σ → Out (I × List El)) (next : I → σ → Out I)
    (lefts : List El) (body : List (El × El) → σ → Out σ) : ∀ (n : Nat) (it : I) (s : σ) {o},
    loop fin get next lefts body n it s = some o → loop fin get next lefts body (n + 1) it s = some o := by
  intro n
  induction n with
  | zero => intro it s o h; cases h
  | succ n ih =>
    intro it s o h
    rw [loop] at h ⊢
    cases hf : fin it s with
    | ub => simpa [hf] using h
    | err => simpa [hf] using h
    | ok b =>
      cases b with
      | true => simpa [hf] using h
      | false =>
        simp only [hf] at h ⊢
        cases hg : get it s with
        | ub => simpa [hg] using h
        | err => simpa [hg] using h
        | ok r =>
          obtain ⟨it', vs⟩ := r
          simp only [hg] at h ⊢
          cases hb : body (assigned lefts vs) s with
          | ub => simpa [hb] using h
          | err => simpa [hb] using h
          | ok s' =>
            simp only [hb] at h ⊢
            cases hn : next it' s' with
            | ub => simpa [hn] using h
            | err => simpa [hn] using h
            | ok it'' =>
              simp only [hn] at h ⊢
              cases hl : loop fin get next lefts body n it'' s' with
              | none => rw [hl] at h; cases h
              | some o' => rw [ih _ _ hl]; rw [hl] at h; exact h

section generic
variable {α σ I : Type} {view : σ → Option (List α)} {asg : Nat → α → List (El × El)}
  {fin : I → σ → Out Bool} {get : I → σ → Out (I × List El)} {next : I → σ → Out I} {lefts : List El}
  {body : List (El × El) → σ → Out σ} {At : Nat → I → Prop}

/-- What the proof needs to know of an iterator over a sequence. -/
structure SeqIt (view : σ → Option (List α)) (asg : Nat → α → List (El × El)) (fin : I → σ → Out Bool)
    (get : I → σ → Out (I × List El)) (next : I → σ → Out I) (lefts : List El) (At : Nat → I → Prop) : Prop where
  fin_none : ∀ it s, view s = none → fin it s = .err
  next_none : ∀ it s, view s = none → next it s = .err
  fin_some : ∀ i it s a, At i it → view s = some a → fin it s = .ok (decide (a.length ≤ i))
  get_some : ∀ i it s a x, At i it → view s = some a → a[i]? = some x →
    ∃ it' vs, get it s = .ok (it', vs) ∧ assigned lefts vs = asg i x ∧ At i it'
  next_some : ∀ i it s a, At i it → view s = some a → ∃ it', next it s = .ok it' ∧
    (i < a.length → At (i + 1) it') ∧ (¬ i < a.length → At i it')

theorem loop_sound (S : SeqIt view asg fin get next lefts At) {i : Nat} {s : σ} {rounds : List (Nat × α)} {out : Out σ}
    (h : Visits view (fun i x => body (asg i x)) i s rounds out) :
    ∀ (it : I), At i it → ∀ fuel, rounds.length < fuel →
      loop fin get next lefts body fuel it s = some (report asg rounds out) := by
  induction h with
  | gone hv =>
    intro it ha fuel hf
    obtain ⟨n, rfl⟩ : ∃ n, fuel = n + 1 := ⟨fuel - 1, by omega⟩
    simp [loop, S.fin_none _ _ hv, report, Out.map]
  | @stop i s a hv hx =>
    intro it ha fuel hf
    obtain ⟨n, rfl⟩ : ∃ n, fuel = n + 1 := ⟨fuel - 1, by omega⟩
    have hl : a.length ≤ i := by simpa using hx
    simp [loop, S.fin_some _ _ _ _ ha hv, hl, report, Out.map]
  | @fails i s a x hv hx hb =>
    intro it ha fuel hf
    obtain ⟨n, rfl⟩ : ∃ n, fuel = n + 1 := ⟨fuel - 1, by omega⟩
    have hl : ¬ a.length ≤ i := by
      have := (List.getElem?_eq_some_iff.1 hx).1; omega
    obtain ⟨it', vs, hg, hasg, ha'⟩ := S.get_some _ _ _ _ _ ha hv hx
    simp [loop, S.fin_some _ _ _ _ ha hv, hl, hg, hasg, hb, report, Out.map]
  | @undefined i s a x hv hx hb =>
    intro it ha fuel hf
    obtain ⟨n, rfl⟩ : ∃ n, fuel = n + 1 := ⟨fuel - 1, by omega⟩
    have hl : ¬ a.length ≤ i := by
      have := (List.getElem?_eq_some_iff.1 hx).1; omega
    obtain ⟨it', vs, hg, hasg, ha'⟩ := S.get_some _ _ _ _ _ ha hv hx
    simp [loop, S.fin_some _ _ _ _ ha hv, hl, hg, hasg, hb, report, Out.map]
  | @round i s a x s' rest out hv hx hb hr ih =>
    intro it ha fuel hf
    obtain ⟨n, rfl⟩ : ∃ n, fuel = n + 1 := ⟨fuel - 1, by omega⟩
    have hl : ¬ a.length ≤ i := by
      have := (List.getElem?_eq_some_iff.1 hx).1; omega
    obtain ⟨it', vs, hg, hasg, ha'⟩ := S.get_some _ _ _ _ _ ha hv hx
    have hlen : rest.length < n := by simp at hf; omega
    rw [loop]
    simp only [S.fin_some _ _ _ _ ha hv, hl, hg, hasg, hb, decide_false]
    cases hv' : view s' with
    | none =>
      rw [S.next_none _ _ hv']
      cases hr with
      | gone _ => rfl
      | stop h => rw [hv'] at h; cases h
      | fails h => rw [hv'] at h; cases h
      | undefined h => rw [hv'] at h; cases h
      | round h => rw [hv'] at h; cases h
    | some a' =>
      obtain ⟨it'', hn, hn1, hn2⟩ := S.next_some _ _ _ _ ha' hv'
      rw [hn]
      by_cases hla : i < a'.length
      · simp only [ih it'' (hn1 hla) n hlen]
        cases out <;> rfl
      · have hend : a'.length ≤ i := by omega
        obtain ⟨k, rfl⟩ : ∃ k, n = k + 1 := ⟨n - 1, by omega⟩
        cases hr with
        | gone h => rw [hv'] at h; cases h
        | stop h _ => simp [loop, S.fin_some _ _ _ _ (hn2 hla) hv', hend, report, Out.map]
        | fails h hx' => rw [hv'] at h; cases h; have := (List.getElem?_eq_some_iff.1 hx').1; omega
        | undefined h hx' => rw [hv'] at h; cases h; have := (List.getElem?_eq_some_iff.1 hx').1; omega
        | round h hx' => rw [hv'] at h; cases h; have := (List.getElem?_eq_some_iff.1 hx').1; omega

theorem loop_complete (S : SeqIt view asg fin get next lefts At) : ∀ (fuel : Nat) (i : Nat) (s : σ) (it : I), At i it →
    ∀ o, loop fin get next lefts body fuel it s = some o →
      ∃ rounds out, Visits view (fun i x => body (asg i x)) i s rounds out ∧ rounds.length ≤ fuel := by
  intro fuel
  induction fuel with
  | zero => intro i s it ha o h; cases h
  | succ n ih =>
    intro i s it ha o h
    cases hv : view s with
    | none => exact ⟨_, _, .gone hv, by simp⟩
    | some a =>
      cases hx : a[i]? with
      | none => exact ⟨_, _, .stop hv hx, by simp⟩
      | some x =>
        have hl : ¬ a.length ≤ i := by
          have := (List.getElem?_eq_some_iff.1 hx).1; omega
        obtain ⟨it', vs, hg, hasg, ha'⟩ := S.get_some _ _ _ _ _ ha hv hx
        simp only [loop, S.fin_some _ _ _ _ ha hv, hl, hg, hasg, decide_false] at h
        cases hb : body (asg i x) s with
        | err => exact ⟨_, _, .fails hv hx hb, by simp⟩
        | ub => exact ⟨_, _, .undefined hv hx hb, by simp⟩
        | ok s' =>
          simp only [hb] at h
          cases hv' : view s' with
          | none => exact ⟨_, _, .round hv hx hb (.gone hv'), by simp⟩
          | some a' =>
            by_cases hla : i < a'.length
            · obtain ⟨it'', hn, hn1, _⟩ := S.next_some _ _ _ _ ha' hv'
              simp only [hn] at h
              cases hlp : loop fin get next lefts body n it'' s' with
              | none => rw [hlp] at h; cases h
              | some o' =>
                obtain ⟨rounds, out, hvis, hlen⟩ := ih _ _ _ (hn1 hla) _ hlp
                exact ⟨_, _, .round hv hx hb hvis, by simp; omega⟩
            · exact ⟨_, _, .round hv hx hb (.stop hv' (by simp; omega)), by simp⟩

theorem loop_visits (S : SeqIt view asg fin get next lefts At) (s : σ) (it : I) (ha : At 0 it) :
    (∀ rounds out, Visits view (fun i x => body (asg i x)) 0 s rounds out → ∀ fuel, rounds.length < fuel →
      loop fin get next lefts body fuel it s = some (report asg rounds out)) ∧
    (∀ fuel o, loop fin get next lefts body fuel it s = some o →
      ∃ rounds out, Visits view (fun i x => body (asg i x)) 0 s rounds out ∧ o = report asg rounds out) := by
  refine ⟨fun rounds out h fuel hf => loop_sound S h it ha fuel hf, ?_⟩
  intro fuel o h
  obtain ⟨rounds, out, hv, hl⟩ := loop_complete S fuel 0 s it ha o h
  refine ⟨rounds, out, hv, ?_⟩
  have h1 := loop_mono _ _ _ _ _ _ _ _ h
  have h2 := loop_sound S hv it ha (fuel + 1) (by omega)
  exact Option.some.inj (h1.symm.trans h2)

end generic

theorem itInit_held (c : Bool) (a : Word) : itInit (held c (.obj a)) = .ok () := by
  unfold itInit
  rw [held_props]
  cases c <;> simp +decide

/-- In a run over an unchanged sequence with a body that never fails, the rounds are the remaining positions. -/
theorem visits_unchanged {α σ : Type} {view : σ → Option (List α)} {body : Nat → α → σ → Out σ} {a : List α}
    (hb : ∀ i x s, view s = some a → a[i]? = some x → ∃ s', body i x s = .ok s' ∧ view s' = some a) :
    ∀ (n i : Nat) (s : σ), a.length - i = n → view s = some a →
      ∃ s', Visits view body i s ((a.drop i).zipIdx i |>.map fun p => (p.2, p.1)) (.ok s') ∧ view s' = some a := by
  intro n
  induction n with
  | zero =>
    intro i s hn hv
    have hd : a.drop i = [] := List.drop_eq_nil_of_le (by omega)
    rw [hd]
    exact ⟨s, .stop hv (by simp; omega), hv⟩
  | succ n ih =>
    intro i s hn hv
    have hi : i < a.length := by omega
    have hx : a[i]? = some a[i] := List.getElem?_eq_getElem hi
    obtain ⟨s1, e1, v1⟩ := hb i a[i] s hv hx
    obtain ⟨s2, e2, v2⟩ := ih (i + 1) s1 (by omega) v1
    refine ⟨s2, ?_, v2⟩
    rw [List.drop_eq_getElem_cons hi]
    exact .round hv hx e1 e2

theorem array_seqIt {σ : Type} (view : σ → Option (List Stk)) (vars : Vars) :
    SeqIt view (arrayRound vars) (fun i s => ArrIt.fin (view s) i) (fun i s => ArrIt.get (view s) i)
      (fun i s => ArrIt.next (view s) i) vars.list (fun i it => it.idx = i) where
  fin_none := by intro it s h; simp [h, ArrIt.fin]
  next_none := by intro it s h; simp [h, ArrIt.next]
  fin_some := by rintro _ it s a rfl h; simp [h, ArrIt.fin]
  get_some := by
    rintro _ it s a x rfl h hx
    simp only [h, ArrIt.get, hx]
    exact ⟨_, _, rfl, assigned_vars .., rfl⟩
  next_some := by
    rintro _ it s a rfl h
    simp only [h, ArrIt.next]
    refine ⟨_, rfl, ?_, ?_⟩ <;> intro hc <;> simp [hc]

theorem string_seqIt {σ : Type} (view : σ → Option (List UInt8)) (vars : Vars) :
    SeqIt view (stringRound vars) (fun i s => strFin (view s) i) (fun i s => strGet (view s) i)
      (fun i s => strNext (view s) i) vars.list (fun i it => it.idx = i ∧ it.value.props = P_INT) where
  fin_none := by intro it s h; simp [h, strFin]
  next_none := by intro it s h; simp [h, strNext]
  fin_some := by rintro _ it s a ⟨rfl, _⟩ h; simp [h, strFin]
  get_some := by
    rintro _ it s a x ⟨rfl, hp⟩ h hx
    simp only [h, strGet, hx]
    refine ⟨_, _, rfl, ?_, rfl, hp⟩
    rw [assigned_vars, hp, charCode_eq]; rfl
  next_some := by
    rintro _ it s a ⟨rfl, hp⟩ h
    simp only [h, strNext]
    refine ⟨_, rfl, ?_, ?_⟩ <;> intro hc <;> simp [hc, hp]

/-! ### C60: arrays and strings that change during the loop -/

/-- **C60.** The loop over an array, for any effect of the body on the array and on everything else: it
ends with an outcome exactly if the positional description `Visits` has a run, and then it visits just these positions and
elements, assigning to each variable what it should, and leaves the same state. The initial content of the iterator's value
does not matter. -/
theorem array_loop_visits {σ : Type} (view : σ → Option (List Stk)) (garbage : Word) (c : Bool) (a : Word) (vars : Vars)
    (body : List (El × El) → σ → Out σ) (s : σ) :
    (∀ rounds out, Visits view (fun i x => body (arrayRound vars i x)) 0 s rounds out → ∀ fuel, rounds.length < fuel →
      forArray view garbage (held c (.obj a)) vars.list body fuel s = some (report (arrayRound vars) rounds out)) ∧
    (∀ fuel o, forArray view garbage (held c (.obj a)) vars.list body fuel s = some o →
      ∃ rounds out, Visits view (fun i x => body (arrayRound vars i x)) 0 s rounds out ∧
        o = report (arrayRound vars) rounds out) := by
  unfold forArray
  rw [itInit_held]
  exact loop_visits (array_seqIt view vars) s _ rfl

/-- **C60** for strings. -/
theorem string_loop_visits {σ : Type} (view : σ → Option (List UInt8)) (garbage : Word) (c : Bool) (a : Word) (vars : Vars)
    (body : List (El × El) → σ → Out σ) (s : σ) :
    (∀ rounds out, Visits view (fun i x => body (stringRound vars i x)) 0 s rounds out → ∀ fuel, rounds.length < fuel →
      forString view garbage (held c (.obj a)) vars.list body fuel s = some (report (stringRound vars) rounds out)) ∧
    (∀ fuel o, forString view garbage (held c (.obj a)) vars.list body fuel s = some o →
      ∃ rounds out, Visits view (fun i x => body (stringRound vars i x)) 0 s rounds out ∧
        o = report (stringRound vars) rounds out) := by
  unfold forString
  rw [itInit_held]
  exact loop_visits (string_seqIt view vars) s _ ⟨rfl, rfl⟩

/-- The description is deterministic: at most one list of rounds and one outcome. -/
theorem visits_unique {α σ : Type} {view : σ → Option (List α)} {body : Nat → α → σ → Out σ} {i : Nat} {s : σ}
    {r r' : List (Nat × α)} {o o' : Out σ} (h : Visits view body i s r o) (h' : Visits view body i s r' o') :
    r = r' ∧ o = o' := by
  induction h generalizing r' o' with
  | gone hv => cases h' <;> simp_all
  | stop hv hx => cases h' <;> simp_all
  | fails hv hx hb => cases h' <;> simp_all
  | undefined hv hx hb => cases h' <;> simp_all
  | round hv hx hb hr ih =>
    cases h' with
    | gone hv' => simp_all
    | stop hv' hx' => simp_all
    | fails hv' hx' hb' => simp_all
    | undefined hv' hx' hb' => simp_all
    | round hv' hx' hb' hr' =>
      rw [hv] at hv'; cases hv'
      rw [hx] at hx'; cases hx'
      simp only [hb] at hb'; cases hb'
      obtain ⟨rfl, rfl⟩ := ih hr'
      exact ⟨rfl, rfl⟩

/-- No position is visited twice, and positions increase by one from 0. -/
theorem visits_positions {α σ : Type} {view : σ → Option (List α)} {body : Nat → α → σ → Out σ} {i : Nat} {s : σ}
    {r : List (Nat × α)} {o : Out σ} (h : Visits view body i s r o) : r.map (·.1) = List.range' i r.length := by
  induction h with
  | gone hv => rfl
  | stop hv hx => rfl
  | fails hv hx hb => rfl
  | undefined hv hx hb => rfl
  | round hv hx hb hr ih => simp [ih, List.range'_succ]

/-- **C60**: a body that appends an element to the array in every round never lets the loop end. -/
theorem array_loop_growing_never_ends {σ : Type} (view : σ → Option (List Stk)) (garbage : Word) (c : Bool) (a : Word)
    (vars : Vars) (body : List (El × El) → σ → Out σ) (s : σ) (l : List Stk) (hl : l ≠ []) (hs : view s = some l)
    (hb : ∀ p s l, view s = some l → ∃ s' x, body p s = .ok s' ∧ view s' = some (l ++ [x])) (fuel : Nat) :
    forArray view garbage (held c (.obj a)) vars.list body fuel s = none := by
  cases h : forArray view garbage (held c (.obj a)) vars.list body fuel s with
  | none => rfl
  | some o =>
    obtain ⟨rounds, out, hv, _⟩ := (array_loop_visits view garbage c a vars body s).2 fuel o h
    exfalso
    have key : ∀ i s rounds out, Visits view (fun i x => body (arrayRound vars i x)) i s rounds out →
        ∀ l, view s = some l → i < l.length → False := by
      intro i s rounds out hv
      induction hv with
      | gone h => intro l h'; rw [h] at h'; cases h'
      | stop h hx => intro l h' hi; rw [h] at h'; cases h'; simp at hx; omega
      | fails h hx hbb => intro l h' hi; obtain ⟨s', x, e, _⟩ := hb _ _ _ h; rw [e] at hbb; cases hbb
      | undefined h hx hbb => intro l h' hi; obtain ⟨s', x, e, _⟩ := hb _ _ _ h; rw [e] at hbb; cases hbb
      | round h hx hbb _ ih =>
        intro l h' hi
        obtain ⟨s', x, e, hv'⟩ := hb _ _ _ h
        rw [e] at hbb; cases hbb
        rw [h] at h'; cases h'
        exact ih _ hv' (by simp; omega)
    exact key 0 s rounds out hv l hs (List.length_pos_iff.2 hl)

/-- A run in which the body of the second round removes the first element: the third element is skipped. -/
example : Visits (fun s : List Nat => some s) (fun i _ s => .ok (if i = 1 then s.drop 1 else s)) 0 [7, 8, 9, 10]
    [(0, 7), (1, 8), (2, 10)] (.ok [8, 9, 10]) :=
  .round rfl rfl rfl (.round rfl rfl rfl (.round rfl rfl rfl (.stop rfl rfl)))

example : forArray (fun s : List Stk => some s) 99 (mkObject 5) [.stk ⟨1, P_PTR_STK⟩] (fun _ s => .ok s) 3
    [mkInt 4, mkBool true] =
    some (.ok ([[(.stk (mkInt 4), .stk ⟨1, P_PTR_STK⟩)], [(.stk (mkBool true), .stk ⟨1, P_PTR_STK⟩)]],
      [mkInt 4, mkBool true])) := by decide

/-! ### C41: containers the body leaves alone -/

/-- **C41**: over an array the body does not change, with a body that never fails, the loop ends after exactly one round per
element; round `i` assigns element `i` (and the key `i`). -/
theorem array_loop_each_once {σ : Type} (view : σ → Option (List Stk)) (garbage : Word) (c : Bool) (p : Word) (vars : Vars)
    (body : List (El × El) → σ → Out σ) (s : σ) (a : List Stk) (hs : view s = some a)
    (hb : ∀ r s, view s = some a → ∃ s', body r s = .ok s' ∧ view s' = some a) (fuel : Nat) (hf : a.length < fuel) :
    ∃ s' rounds, forArray view garbage (held c (.obj p)) vars.list body fuel s = some (.ok (rounds, s')) ∧
      view s' = some a ∧ rounds.length = a.length ∧
      ∀ (i : Nat) (hi : i < a.length), rounds[i]? = some (vars.gets (.stk a[i]) (.stk (mkInt (BitVec.ofNat 64 i)))) := by
  obtain ⟨s', hv, hv'⟩ := visits_unchanged (view := view) (body := fun i x => body (arrayRound vars i x)) (a := a)
    (fun i x s h _ => hb _ s h) _ 0 s rfl hs
  have := (array_loop_visits view garbage c p vars body s).1 _ _ hv fuel (by simpa using hf)
  refine ⟨s', _, this, hv', by simp, ?_⟩
  intro i hi
  simp [hi, arrayRound]

/-- **C41** for strings: round `i` assigns the code of character `i`, a value from -128 to 127. -/
theorem string_loop_each_once {σ : Type} (view : σ → Option (List UInt8)) (garbage : Word) (c : Bool) (p : Word)
    (vars : Vars) (body : List (El × El) → σ → Out σ) (s : σ) (a : List UInt8) (hs : view s = some a)
    (hb : ∀ r s, view s = some a → ∃ s', body r s = .ok s' ∧ view s' = some a) (fuel : Nat) (hf : a.length < fuel) :
    ∃ s' rounds, forString view garbage (held c (.obj p)) vars.list body fuel s = some (.ok (rounds, s')) ∧
      view s' = some a ∧ rounds.length = a.length ∧
      ∀ (i : Nat) (hi : i < a.length), rounds[i]? = some (vars.gets (.stk (mkInt (BitVec.ofInt 64 a[i].toInt8.toInt)))
        (.stk (mkInt (BitVec.ofNat 64 i)))) := by
  obtain ⟨s', hv, hv'⟩ := visits_unchanged (view := view) (body := fun i x => body (stringRound vars i x)) (a := a)
    (fun i x s h _ => hb _ s h) _ 0 s rfl hs
  have := (string_loop_visits view garbage c p vars body s).1 _ _ hv fuel (by simpa using hf)
  refine ⟨s', _, this, hv', by simp, ?_⟩
  intro i hi
  simp [hi, stringRound]

/-! ### C61: objects. The object is given by the history of calls on its field table. -/

abbrev Hist := List (Op (List UInt8) Stk)

/-- The field table after a history (`none` if the object was destroyed, or after undefined behaviour). -/
def table (h : Option Hist) : Option Fields :=
  match h with
  | none => none
  | some h => match run 16 MapS.empty h with
    | .ok (m, _) => some m
    | _ => none

/-- What a round of an object loop assigns. -/
def objectRound (vars : Vars) (k : List UInt8) (v : Stk) : List (El × El) := vars.gets (.stk v) (.chars k)

/-- Runs of `for` over an object whose fields the body may change, as long as it does not remove the field of its own
round. The loop is at key `k` (`none` = at the end). After a round it goes to the field that then follows
`k` in insertion order. -/
inductive ObjVisits {σ : Type} (hist : σ → Option Hist) (body : List UInt8 → Stk → σ → Out σ) :
    Option (List UInt8) → σ → List (List UInt8 × Stk) → Out σ → Prop
  | gone {k s} : hist s = none → ObjVisits hist body k s [] .err
  | stop {s h} : hist s = some h → ObjVisits hist body none s [] (.ok s)
  | fails {k s h v} : hist s = some h → current k h = some v → body k v s = .err →
      ObjVisits hist body (some k) s [(k, v)] .err
  | undefined {k s h v} : hist s = some h → current k h = some v → body k v s = .ub →
      ObjVisits hist body (some k) s [(k, v)] .ub
  | destroys {k s h v s'} : hist s = some h → current k h = some v → body k v s = .ok s' → hist s' = none →
      ObjVisits hist body (some k) s [(k, v)] .err
  | round {k s h v s' ops rest out} : hist s = some h → current k h = some v → body k v s = .ok s' →
      hist s' = some (h ++ ops) → (∀ op ∈ ops, keeps k op) → BelowMax 16 (h ++ ops) →
      ObjVisits hist body (after k (liveKeys (h ++ ops))) s' rest out →
      ObjVisits hist body (some k) s ((k, v) :: rest) out

def objReport {σ : Type} (vars : Vars) (rounds : List (List UInt8 × Stk)) (out : Out σ) :
    Out (List (List (El × El)) × σ) :=
  out.map fun s => (rounds.map fun r => objectRound vars r.1 r.2, s)

theorem good_table {h : Hist} (hb : BelowMax 16 h) : ∃ m, table (some h) = some m ∧ Map.Good m h := by
  obtain ⟨m, e, g⟩ := good_run (slot := 16) (by decide) h MapS.empty [] ⟨[], [], [], inv_empty, rfl, by simp, by simp [current]⟩
    (by simpa using hb)
  exact ⟨m, by simp [table, e], by simpa using g⟩

theorem run_append {K V : Type} [Ord K] (slot : Nat) : ∀ (a b : List (Op K V)) (m : MapS K V),
    run slot m (a ++ b) = (run slot m a).bind fun r => (run slot r.1 b).map fun q => (q.1, r.2 ++ q.2) := by
  intro a
  induction a with
  | nil => intro b m; simp only [List.nil_append, run, Out.bind]; cases run slot m b <;> simp [Out.map]
  | cons op a ih =>
    intro b m
    simp only [List.cons_append, run]
    cases step slot m op with
    | ub => rfl
    | err => rfl
    | ok r =>
      simp only [Out.bind, ih]
      cases run slot r.1 a with
      | ub => rfl
      | err => rfl
      | ok q => simp only [Out.bind, Out.map]; cases run slot q.1 b <;> rfl

theorem table_append {h ops : Hist} {m : Fields} (g : Map.Good m h) (ht : table (some h) = some m) (hb : BelowMax 16 (h ++ ops))
    {n : Nat} {k : List UInt8} (hn : Map.Holds m n k) (hk : ∀ op ∈ ops, keeps k op) :
    ∃ m', table (some (h ++ ops)) = some m' ∧ Map.Good m' (h ++ ops) ∧ Map.Holds m' n k := by
  obtain ⟨m', e, g', hh⟩ := holds_run (slot := 16) (by decide) ops m h g hb hn hk
  refine ⟨m', ?_, g', hh⟩
  have : ∃ obs, run 16 MapS.empty h = .ok (m, obs) := by
    revert ht
    simp only [table]
    cases run 16 (MapS.empty : Fields) h with
    | ok r => intro ht; exact ⟨r.2, by simp at ht; rw [← ht]⟩
    | err => intro ht; cases ht
    | ub => intro ht; cases ht
  obtain ⟨obs, eh⟩ := this
  simp [table, run_append, eh, e, Out.bind, Out.map]

theorem objLoop {σ : Type} (hist : σ → Option Hist) (vars : Vars) (body : List (El × El) → σ → Out σ)
    {k : Option (List UInt8)} {s : σ} {rounds : List (List UInt8 × Stk)} {out : Out σ}
    (h : ObjVisits hist (fun k v => body (objectRound vars k v)) k s rounds out) :
    ∀ (it : ObjIt), (∀ hh, hist s = some hh → ∃ m, table (some hh) = some m ∧ Map.Good m hh ∧ AtKey m it k) →
      ∀ fuel, rounds.length < fuel →
      loop (fun i s => ObjIt.ended (table (hist s)) i) (fun i s => ObjIt.get (table (hist s)) i)
        (fun i s => ObjIt.next (table (hist s)) i) vars.list body fuel it s = some (objReport vars rounds out) := by
  induction h with
  | gone hh =>
    intro it _ fuel hf
    obtain ⟨n, rfl⟩ : ∃ n, fuel = n + 1 := ⟨fuel - 1, by omega⟩
    simp [loop, hh, table, ObjIt.ended, objReport, Out.map]
  | stop hh =>
    intro it hat fuel hf
    obtain ⟨n, rfl⟩ : ∃ n, fuel = n + 1 := ⟨fuel - 1, by omega⟩
    obtain ⟨m, ht, g, ha⟩ := hat _ hh
    have : it.fin = true := ha
    simp [loop, hh, ht, ObjIt.ended, objReport, Out.map, this]
  | fails hh hc hb =>
    intro it hat fuel hf
    obtain ⟨n, rfl⟩ : ∃ n, fuel = n + 1 := ⟨fuel - 1, by omega⟩
    obtain ⟨m, ht, g, ha⟩ := hat _ hh
    obtain ⟨v', hv', hg⟩ := get_at g ha
    rw [hc] at hv'; cases hv'
    rw [loop]
    simp only [hh, ht, ObjIt.ended, ha.1, hg, assigned_vars]
    rw [show vars.gets _ _ = objectRound vars _ _ from rfl, hb]; rfl
  | undefined hh hc hb =>
    intro it hat fuel hf
    obtain ⟨n, rfl⟩ : ∃ n, fuel = n + 1 := ⟨fuel - 1, by omega⟩
    obtain ⟨m, ht, g, ha⟩ := hat _ hh
    obtain ⟨v', hv', hg⟩ := get_at g ha
    rw [hc] at hv'; cases hv'
    rw [loop]
    simp only [hh, ht, ObjIt.ended, ha.1, hg, assigned_vars]
    rw [show vars.gets _ _ = objectRound vars _ _ from rfl, hb]; rfl
  | destroys hh hc hb hd =>
    intro it hat fuel hf
    obtain ⟨n, rfl⟩ : ∃ n, fuel = n + 1 := ⟨fuel - 1, by omega⟩
    obtain ⟨m, ht, g, ha⟩ := hat _ hh
    obtain ⟨v', hv', hg⟩ := get_at g ha
    rw [hc] at hv'; cases hv'
    rw [loop]
    simp only [hh, ht, ObjIt.ended, ha.1, hg, assigned_vars]
    rw [show vars.gets _ _ = objectRound vars _ _ from rfl, hb]
    simp only [hd, table, ObjIt.next]; rfl
  | @round k s h v s' ops rest out hh hc hb hs' hk hmax hr ih =>
    intro it hat fuel hf
    obtain ⟨n, rfl⟩ : ∃ n, fuel = n + 1 := ⟨fuel - 1, by omega⟩
    obtain ⟨m, ht, g, ha⟩ := hat _ hh
    obtain ⟨v', hv', hg⟩ := get_at g ha
    rw [hc] at hv'; cases hv'
    obtain ⟨hf0, nd, hcur, hold⟩ := ha
    obtain ⟨m', ht', g', hold'⟩ := table_append g ht hmax hold hk
    obtain ⟨it', hn, hat'⟩ := next_at g' hcur hold'
    have := ih it' (fun hh2 e => by rw [hs'] at e; cases e; exact ⟨m', ht', g', hat'⟩) n (by simp at hf; omega)
    rw [loop]
    have hend : ObjIt.ended (table (hist s)) it = .ok false := by simp [hh, ht, ObjIt.ended, hf0]
    simp only [hend]
    simp only [hh, ht, hg, assigned_vars]
    rw [show vars.gets _ _ = objectRound vars _ _ from rfl, hb]
    simp only [hs', ht', hn]
    rw [this]
    cases out <;> rfl

/-- **C61** (partial): over an object the loop follows the field order as it is at each step (fields added during the loop are
visited, removed ones are not, the values are the current ones), for every body that does not remove the field of
its own round. -/
theorem object_loop_visits_partial {σ : Type} (hist : σ → Option Hist) (c : Bool) (p : Word) (vars : Vars)
    (body : List (El × El) → σ → Out σ) (s : σ) (h : Hist) (hs : hist s = some h) (hb : BelowMax 16 h)
    (rounds : List (List UInt8 × Stk)) (out : Out σ)
    (hv : ObjVisits hist (fun k v => body (objectRound vars k v)) (liveKeys h).head? s rounds out)
    (fuel : Nat) (hf : rounds.length < fuel) :
    forObject (fun s => table (hist s)) (held c (.obj p)) vars.list body fuel s = some (objReport vars rounds out) := by
  obtain ⟨m, ht, g⟩ := good_table hb
  unfold forObject
  rw [itInit_held]
  simp only [hs, ht]
  exact objLoop hist vars body hv _ (fun hh e => by rw [hs] at e; cases e; exact ⟨m, ht, g, start_at g⟩) fuel hf

theorem after_in {ks p s : List (List UInt8)} {k : List UInt8} (hnd : ks.Nodup) (e : ks = p ++ k :: s) :
    after k ks = s.head? := by
  subst e
  apply after_mid
  intro hm
  have := (List.nodup_append.1 hnd).2.2 k hm k (List.mem_cons_self ..)
  exact this rfl

/-- **C41** for objects: over an object the body does not change, with a body that never fails, the loop ends after one round
per field, in insertion order, assigning the field's value and its name. -/
theorem object_loop_each_once {σ : Type} (hist : σ → Option Hist) (c : Bool) (p : Word) (vars : Vars)
    (body : List (El × El) → σ → Out σ) (s : σ) (h : Hist) (hs : hist s = some h) (hmax : BelowMax 16 h)
    (hb : ∀ r s, hist s = some h → ∃ s', body r s = .ok s' ∧ hist s' = some h)
    (fuel : Nat) (hf : (liveKeys h).length < fuel) :
    ∃ s' rounds, forObject (fun s => table (hist s)) (held c (.obj p)) vars.list body fuel s = some (.ok (rounds, s')) ∧
      hist s' = some h ∧ rounds.length = (liveKeys h).length ∧
      ∀ (i : Nat) (hi : i < (liveKeys h).length), ∃ v, current (liveKeys h)[i] h = some v ∧
        rounds[i]? = some (vars.gets (.stk v) (.chars (liveKeys h)[i])) := by
  obtain ⟨m, ht, its, r, l, I, hk, h1, _⟩ := good_table hmax
  have key : ∀ (post pre : List (List UInt8 × Stk)) (s : σ), hist s = some h → l = pre ++ post →
      ∃ s', ObjVisits hist (fun k v => body (objectRound vars k v)) (post.map (·.1)).head? s post (.ok s') ∧
        hist s' = some h := by
    intro post
    induction post with
    | nil => intro pre s hs _; exact ⟨s, .stop hs, hs⟩
    | cons x post ih =>
      intro pre s hs e
      obtain ⟨s1, e1, h1'⟩ := hb (objectRound vars x.1 x.2) s hs
      obtain ⟨s2, v2, h2⟩ := ih (pre ++ [x]) s1 h1' (by simp [e])
      refine ⟨s2, ?_, h2⟩
      refine .round (ops := []) hs (h1 x.1 x.2 (by rw [e]; simp)) e1 (by simpa using h1') (by simp) (by simpa using hmax) ?_
      rw [List.append_nil, ← hk, after_in (p := pre.map (·.1)) (s := post.map (·.1)) I.keys_nodup (by rw [e]; simp)]
      exact v2
  obtain ⟨s', hv, hs'⟩ := key l [] s hs rfl
  rw [hk] at hv
  have hlen : l.length = (liveKeys h).length := by have := congrArg List.length hk; simpa using this
  have hres := object_loop_visits_partial hist c p vars body s h hs hmax l _ hv fuel (by omega)
  refine ⟨s', _, hres, hs', by simpa using hlen, ?_⟩
  intro i hi
  have hil : i < l.length := by omega
  have hki : (liveKeys h)[i] = l[i].1 := by
    have : (l.map (·.1))[i]? = (liveKeys h)[i]? := by rw [hk]
    simp [hil, hi] at this
    exact this.symm
  refine ⟨l[i].2, ?_, ?_⟩
  · rw [hki]; exact h1 _ _ (List.getElem_mem hil)
  · rw [hki]; simp [hil, objectRound]

/-- The full property: the loop is well defined whatever the body does to the object. -/
def ObjectLoopSafe : Prop := ∀ (vars : Vars) (body : List (El × El) → Hist → Hist) (h : Hist) (fuel : Nat),
  BelowMax 16 h → (∀ r h, BelowMax 16 h → BelowMax 16 (body r h)) →
  forObject (fun s => table (some s)) (mkObject 7) vars.list (fun r h => .ok (body r h)) fuel h ≠ some .ub

/-- False: a body that erases the field of its round makes the iterator read the freed node. -/
theorem object_loop_violated : ¬ ObjectLoopSafe := by
  intro hc
  have h1 : BelowMax 16 ([.set [97] (mkInt 1)] : Hist) := belowMax_of_short _ (by decide)
  refine hc (.one (.stk (mkInt 0))) (fun _ _ => [.set [97] (mkInt 1), .erase [97]]) [.set [97] (mkInt 1)] 2 h1 ?_ ?_
  · intro _ _ _; exact belowMax_of_short _ (by decide)
  · have : (match forObject (fun s => table (some s)) (mkObject 7) (Vars.one (.stk (mkInt 0))).list
        (fun _ (_ : Hist) => .ok [.set [97] (mkInt 1), .erase [97]]) 2 [.set [97] (mkInt 1)] with
        | some .ub => true | _ => false) = true := by decide +kernel
    revert this
    split
    · intro _; assumption
    · intro h; cases h

/-- Every body that erases the field of a round, whatever the object holds and whatever else the body did before, makes
the step to the next round undefined. -/
theorem object_loop_erase_current_violated {m : Fields} {h : Hist} (g : Map.Good m h) (k : List UInt8) {it : ObjIt}
    (hat : AtKey m it (some k)) {m' : Fields} {o : Obs Stk} (e : step 16 m (.erase k) = .ok (m', o)) :
    ObjIt.next (some m') it = .ub := by
  obtain ⟨_, n, hc, hh⟩ := hat
  have hf := erase_frees g hh e
  have hl : live m' n = false := by
    cases hlv : live m' n with
    | false => rfl
    | true => obtain ⟨k', hk'⟩ := (live_iff m' n).1 hlv; exact absurd hk' (hf k')
  simp [ObjIt.next, hc, hl]

/-- A body that adds a field in the first round: the new field is visited too. -/
example : ObjVisits (fun s : Hist => some s) (fun k _ s => .ok (if k = [97] then s ++ [.set [98] (mkInt 5)] else s))
    (some [97]) [.set [97] (mkInt 1)] [([97], mkInt 1), ([98], mkInt 5)]
    (.ok [.set [97] (mkInt 1), .set [98] (mkInt 5)]) := by
  refine .round (ops := [.set [98] (mkInt 5)]) rfl (by decide) rfl rfl ?_ (belowMax_of_short _ (by decide)) ?_
  · intro op ho; simp at ho; subst ho; trivial
  · refine .round (ops := []) rfl (by decide) rfl rfl ?_ (belowMax_of_short _ (by decide)) (.stop rfl)
    intro op ho; cases ho

/-! ### C41: the operator `in` -/

/-- The operands: `x in c` with `c` held in a variable. -/
theorem unwrap_held (m : Mem) (c : Bool) (v : V) : unwrap m (held c v) = enc v := (unwrap_exact m c v).1

theorem inOp_obj (m : InMem) (a : Stk) (c : Bool) (p : Word) : inOp m a (held c (.obj p)) =
    (let t := (m.obj p).typeId
     let a' := unwrap m.toMem a
     if t = T_STRING_SO then
       if has a.props P_INT then .ok (some (hasChar (m.obj p).text a.value))
       else if isStr m.toMem a' then
         (Str.contains (Str.ofChars (m.obj p).text) (Str.ofChars (m.obj a'.value).text)).map some
       else .err
     else if t = T_ARRAY_SO then .ok (some (arrContains m.toMem a' (m.elems p)))
     else if t = T_OBJECT_SO then
       if has a.props P_OBJECT then
         if isStr m.toMem a' then (Map.exist (m.fields p) (m.obj a'.value).text).map some else .ub
       else .ok none
     else .err) := by
  unfold inOp
  rw [unwrap_held]
  have : has (enc (.obj p)).props P_OBJECT = true := by simp +decide [enc]
  simp only [this, if_true]
  rfl

/-- `i in s`: whether the string has a character with code `i`. -/
def InCharExact : Prop := ∀ (m : InMem) (c d : Bool) (p w : Word), (m.obj p).typeId = T_STRING_SO →
  Str.NZ (m.obj p).text →
  inOp m (held c (.int w)) (held d (.obj p)) = .ok (some (decide (∃ ch ∈ (m.obj p).text, ch.toInt8.toInt = w.toInt)))

theorem held_int_props (c : Bool) (w : Word) : has (held c (.int w)).props P_INT = true := by
  rw [held_props]; cases c <;> simp +decide

theorem low_byte (w : Word) (h1 : -128 ≤ w.toInt) (h2 : w.toInt < 128) (ch : UInt8) :
    ch = UInt8.ofNat (w.toNat % 256) ↔ ch.toInt8.toInt = w.toInt := by
  have e : ch.toInt8.toInt = ch.toBitVec.toInt := rfl
  have hw : (UInt8.ofNat (w.toNat % 256)).toBitVec = w.setWidth 8 := by
    apply BitVec.eq_of_toNat_eq; simp
  have hi : (w.setWidth 8).toInt = w.toInt := by
    rw [BitVec.toInt_setWidth]
    have h3 : w.toInt = (w.toNat : Int).bmod (2 ^ 64) := BitVec.toInt_eq_toNat_bmod w
    have h4 : (w.toNat : Int).bmod (2 ^ 8) = w.toInt.bmod (2 ^ 8) := by
      rw [h3, Int.bmod_bmod_of_dvd (by decide)]
    rw [h4, Int.bmod_eq_of_le] <;> omega
  rw [e, ← hi, ← hw]
  constructor
  · intro h; rw [h]
  · intro h; exact UInt8.toBitVec_inj.1 (BitVec.eq_of_toInt_eq h)

/-- **C41** (partial) `i in s` is exact for every code a character can have, except 0. -/
theorem in_char_partial (m : InMem) (c d : Bool) (p w : Word) (ht : (m.obj p).typeId = T_STRING_SO)
    (h1 : -128 ≤ w.toInt) (h2 : w.toInt < 128) (h0 : w ≠ 0) :
    inOp m (held c (.int w)) (held d (.obj p)) =
      .ok (some (decide (∃ ch ∈ (m.obj p).text, ch.toInt8.toInt = w.toInt))) := by
  rw [inOp_obj]
  have hv : (held c (.int w)).value = w := by rw [held_value]; rfl
  simp only [ht, if_true, held_int_props, hv]
  have hlow := low_byte w h1 h2
  have hz : (UInt8.ofNat (w.toNat % 256) == 0) = false := by
    rw [beq_eq_false_iff_ne]
    intro hc
    have := (hlow 0).1 hc.symm
    apply h0
    apply BitVec.eq_of_toInt_eq
    rw [← this]; rfl
  unfold hasChar
  simp only [hz, Bool.false_or, Out.ok.injEq, Option.some.injEq]
  rw [Bool.eq_iff_iff, List.any_eq_true, decide_eq_true_iff]
  constructor
  · rintro ⟨ch, hm, he⟩; exact ⟨ch, hm, (hlow ch).1 (by simpa using he)⟩
  · rintro ⟨ch, hm, he⟩; exact ⟨ch, hm, by simpa using (hlow ch).2 he⟩

def demo (t : Nat) (text : List UInt8) : InMem :=
  ⟨⟨fun a => if a = 1 then ⟨t, text⟩ else ⟨T_ARRAY_SO, []⟩, fun _ => mkUndefined, fun _ => 0⟩, fun _ => [], fun _ => MapS.empty⟩

/-- False: `0 in "a"` holds (the terminator is found), and so does `353 in "a"` (only the low byte counts). -/
theorem in_char_violated : ¬ InCharExact ∧
    inOp (demo T_STRING_SO [97]) (mkInt 353) (mkObject 1) = .ok (some true) := by
  constructor
  · intro h
    have := h (demo T_STRING_SO [97]) false false 1 0 rfl (by decide)
    revert this
    have e : inOp (demo T_STRING_SO [97]) (held false (.int 0)) (held false (.obj 1)) = .ok (some true) := by decide
    rw [e]; decide
  · decide

/-- **C41** (partial) `t in s` for strings: `t` occurs in `s`; except for two empty strings. -/
theorem in_substring_partial (m : InMem) (c d : Bool) (p q : Word) (ht : (m.obj p).typeId = T_STRING_SO)
    (hq : (m.obj q).typeId = T_STRING_SO) (nzp : Str.NZ (m.obj p).text) (nzq : Str.NZ (m.obj q).text)
    (hne : (m.obj p).text ≠ [] ∨ (m.obj q).text ≠ []) :
    inOp m (held c (.obj q)) (held d (.obj p)) = .ok (some (decide ((m.obj q).text <:+: (m.obj p).text))) := by
  rw [inOp_obj]
  have h1 : has (held c (.obj q)).props P_INT = false := by rw [held_props]; cases c <;> simp +decide
  have h2 : isStr m.toMem (enc (.obj q)) = true := by
    have : has (enc (.obj q)).props (P_OBJECT ||| P_OBJECT_IN_CONTAINER) = true := by simp +decide [enc]
    unfold isStr isObjOf; rw [this]; simp [enc, hq]
  simp only [ht, if_true, h1, unwrap_held, h2, Bool.false_eq_true, if_false]
  rw [show (enc (.obj q)).value = q from rfl,
    Str.contains_exact_partial _ _ _ _ (Str.rep_ofChars nzp) (Str.rep_ofChars nzq) hne]
  rfl

/-- False for two empty strings. -/
theorem in_substring_violated : inOp (demo T_STRING_SO []) (mkObject 1) (mkObject 1) = .ok (some false) := by decide

/-- **C41** (partial) `x in a` for arrays: some element has the same kind and the same value; strings are compared by
text. Other objects are never found (`in_array_violated`). -/
theorem in_array_partial (m : InMem) (c d : Bool) (p : Word) (x : V) (l : List V) (ht : (m.obj p).typeId = T_ARRAY_SO)
    (hl : m.elems p = l.map enc) :
    inOp m (held c x) (held d (.obj p)) = .ok (some (decide (∃ e ∈ l, matchElem m.toMem x e = true))) := by
  rw [inOp_obj]
  have hns : ¬ (T_ARRAY_SO = T_STRING_SO) := by decide
  simp only [ht, if_true, if_false, hns, unwrap_held, hl]
  have h := array_contains_exact m.toMem false x l
  rw [show held false x = enc x from rfl] at h
  simp only [Out.ok.injEq, Option.some.injEq]
  rw [Bool.eq_iff_iff, decide_eq_true_iff]; exact h

/-- `a in [a]` is false for an array `a`. -/
theorem in_array_violated (m : InMem) (p q : Word) (ht : (m.obj p).typeId = T_ARRAY_SO)
    (hq : (m.obj q).typeId ≠ T_STRING_SO) (hl : m.elems p = [enc (.obj q)]) :
    inOp m (enc (.obj q)) (enc (.obj p)) = .ok (some false) := by
  have := in_array_partial m false false p (.obj q) [.obj q] ht (by simpa using hl)
  rw [show held false (V.obj q) = enc (.obj q) from rfl, show held false (V.obj p) = enc (.obj p) from rfl] at this
  rw [this]
  simp [matchElem, hq]

/-- `x in o` is a boolean for every operand. -/
def InObjectAnswers : Prop := ∀ (m : InMem) (a : Stk) (p : Word), (m.obj p).typeId = T_OBJECT_SO →
  ∃ b, inOp m a (mkObject p) = .ok (some b)

/-- **C41** (partial) `k in o` for a string held in a variable and a plain object: `o` has a field named `k`. -/
theorem in_object_partial (m : InMem) (c d : Bool) (p q : Word) (h : Hist) (ht : (m.obj p).typeId = T_OBJECT_SO)
    (hq : (m.obj q).typeId = T_STRING_SO) (hb : BelowMax 16 h) (hf : table (some h) = some (m.fields p)) :
    inOp m (held c (.obj q)) (held d (.obj p)) = .ok (some (decide ((m.obj q).text ∈ liveKeys h))) := by
  rw [inOp_obj]
  have n1 : ¬ (T_OBJECT_SO = T_STRING_SO) := by decide
  have n2 : ¬ (T_OBJECT_SO = T_ARRAY_SO) := by decide
  have h1 : has (held c (.obj q)).props P_OBJECT = true := by rw [held_props]; cases c <;> simp +decide
  have h2 : isStr m.toMem (enc (.obj q)) = true := by
    have : has (enc (.obj q)).props (P_OBJECT ||| P_OBJECT_IN_CONTAINER) = true := by simp +decide [enc]
    unfold isStr isObjOf; rw [this]; simp [enc, hq]
  simp only [ht, if_true, n1, n2, if_false, h1, unwrap_held, h2]
  obtain ⟨m', hm', its, r, l, I, hk, _⟩ := good_table hb
  rw [hf] at hm'; cases hm'
  rw [show (enc (.obj q)).value = q from rfl, I.exist_eq]
  simp only [Out.map, hk]

/-- False: `1 in o` pushes no result at all, also `k in o` with `k` a string read from a field; and an array on the
left is read as if it were a string. -/
theorem in_object_violated : ¬ InObjectAnswers ∧ (∀ (m : InMem) (p q : Word), (m.obj p).typeId = T_OBJECT_SO →
    inOp m ⟨q, P_OBJECT_IN_CONTAINER⟩ (mkObject p) = .ok none) ∧ (∀ (m : InMem) (p q : Word), (m.obj p).typeId = T_OBJECT_SO →
    (m.obj q).typeId ≠ T_STRING_SO → inOp m (mkObject q) (mkObject p) = .ub) := by
  have n1 : ¬ (T_OBJECT_SO = T_STRING_SO) := by decide
  have n2 : ¬ (T_OBJECT_SO = T_ARRAY_SO) := by decide
  refine ⟨?_, ?_, ?_⟩
  · intro h
    obtain ⟨b, hb⟩ := h (demo T_OBJECT_SO []) (mkInt 1) 1 rfl
    have : inOp (demo T_OBJECT_SO []) (mkInt 1) (mkObject 1) = .ok none := by decide
    rw [this] at hb; cases hb
  · intro m p q ht
    have := inOp_obj m ⟨q, P_OBJECT_IN_CONTAINER⟩ false p
    rw [show held false (V.obj p) = mkObject p from rfl] at this
    rw [this]
    have h1 : has P_OBJECT_IN_CONTAINER P_OBJECT = false := by decide
    simp only [ht, n1, n2, if_true, if_false, h1, Bool.false_eq_true]
  · intro m p q ht hq
    have := inOp_obj m (mkObject q) false p
    rw [show held false (V.obj p) = mkObject p from rfl] at this
    rw [this]
    have h1 : has (mkObject q).props P_OBJECT = true := by
      rw [show (mkObject q).props = P_OBJECT from rfl]; decide
    have h2 : isStr m.toMem (unwrap m.toMem (mkObject q)) = false := by
      rw [show mkObject q = held false (.obj q) from rfl, unwrap_held]
      unfold isStr isObjOf; simp [enc, hq]
    simp only [ht, n1, n2, if_true, if_false, h1, h2, Bool.false_eq_true]

/-- The second operand has to be an object. -/
theorem in_needs_object (m : InMem) (a : Stk) (c : Bool) (v : V) (hv : ∀ p, v ≠ .obj p) : inOp m a (held c v) = .err := by
  unfold inOp
  rw [unwrap_held]
  have : has (enc v).props P_OBJECT = false := by
    cases v <;> first | exact absurd rfl (hv _) | simp +decide [enc]
  simp only [this, Bool.false_eq_true, if_false]

example : inOp (demo T_STRING_SO [104, 105]) (mkInt 105) (mkObject 1) = .ok (some true) ∧
    inOp (demo T_STRING_SO [104, 105]) (mkInt 106) (mkObject 1) = .ok (some false) := by decide

end Verif.Vm.Iter
