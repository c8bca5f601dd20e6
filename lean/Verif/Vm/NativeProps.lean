import Verif.Vm.Native
import Verif.Core.TypesSpec
/-
C39 (native overload resolution), C40 (castability agrees with conversion), and `instanceof` of C42.
-/
namespace Verif.Vm.Native
open Verif

/-! ## Specification -/

/-- What a script value is, as a user sees it. -/
inductive Kind where
  | int | float | bool | function | memberFunction | string
  | object (cls : Nat)
  | other
  deriving DecidableEq, Repr

/-- The kind of an element (a reference to a variable counts as the variable). -/
def kindOf (w : World) (s : Stk) : Kind :=
  let v := if has s.props P_PTR_STK then w.mem.stk s.value else s
  let p := v.props &&& 0xFFF
  if p = 0x004 then .int
  else if p = 0x008 then .float
  else if p = 0x010 then .bool
  else if p = 0x040 then .function
  else if p = 0x0C0 then .memberFunction
  else if p = 0x200 ∨ p = 0x800 then
    if (w.mem.obj v.value).typeId = T_STRING_SO then .string else .object (w.mem.obj v.value).typeId
  else .other

/-- Which parameter types take a value of a kind. -/
inductive Fits (ext : Nat → Nat → Bool) : Kind → Nat → Prop where
  | any (k : Kind) : Fits ext k T_STACK_ELEMENT
  | int : Fits ext .int T_INT
  | intPtr : Fits ext .int T_INT_PTR
  | intToFloat : Fits ext .int T_FLOAT_PTR
  | float : Fits ext .float T_FLOAT
  | floatPtr : Fits ext .float T_FLOAT_PTR
  | floatToInt : Fits ext .float T_INT
  | floatToIntPtr : Fits ext .float T_INT_PTR
  | boolPtr : Fits ext .bool T_BOOL_PTR
  | function : Fits ext .function T_SCRIPT_FUNCTION
  | memberFunction : Fits ext .memberFunction T_MEMBER_FUNCTION
  | string : Fits ext .string T_STRING_SO
  | stringPtr : Fits ext .string T_STRING_PTR
  | chars : Fits ext .string T_CONST_CHAR_PTR
  | object (c t : Nat) : ext c t = true → Fits ext (.object c) t

/-- A registered native function takes a call: the name, the number of arguments (after the engine and, for a member
function, the object), and every argument. -/
def Takes (w : World) (n : String) (args : List Stk) (f : Fn) : Prop :=
  f.native = true ∧ f.name = n ∧ f.params.length = args.length + (if f.member then 2 else 1) ∧
  ∀ (i : Nat) (s : Stk) (t : Nat), args[i]? = some s → f.params[i + (if f.member then 2 else 1)]? = some t → Fits w.ext (kindOf w s) t

/-- No argument refers to a null object. -/
def Sound (w : World) (args : List Stk) : Prop :=
  ∀ s ∈ args, has (deref w.mem s).props P_ANY_OBJECT = true → (deref w.mem s).value ≠ 0 ∧ objOf w.mem (deref w.mem s) ≠ 0

/-- C39 in full: every execution of a call runs the last registered function that takes the arguments, and raises an error
when there is none. -/
def CallsResolve (w : World) (n : String) : Prop :=
  ∀ calls : List (List Fn × List Stk), (∀ c ∈ calls, Sound w c.2) →
    ∀ (i : Nat) (fs : List Fn) (args : List Stk) (f : Fn), calls[i]? = some (fs, args) → (selects w n none calls)[i]? = some (Out.ok f) →
      ∃ pre post, fs = pre ++ f :: post ∧ Takes w n args f ∧ ∀ g ∈ post, ¬ Takes w n args g

/-- C39/C40 in full: the arguments of a chosen function can be passed to it. -/
def ChosenArgsPass (w : World) (F : FloatOps) : Prop :=
  ∀ fs n args f, Sound w args → find w fs n args = .ok f → ∃ cs, passArgs w F args (f.params.drop (startParam f)) = .ok cs

/-- C40 in full: a value can be cast iff converting it succeeds. -/
def CastAgrees : Prop := ∀ (w : World) (s : Stk) (t : Nat), canCast w s t = .ok true ↔ ∃ c, convert w s t = .ok c

/-! ## Lemmas -/

/-- Flags below the mask can be tested on the kind. -/
theorem has_kind (p f : Props) (h : 0xFFF &&& f = f) : has p f = has (kind p) f := by
  unfold has kind
  rw [BitVec.and_assoc, h]

theorem kindOf_eq (w : World) (s : Stk) : kindOf w s = (
      let v := deref w.mem s
      if kind v.props = 0x004 then .int
      else if kind v.props = 0x008 then .float
      else if kind v.props = 0x010 then .bool
      else if kind v.props = 0x040 then .function
      else if kind v.props = 0x0C0 then .memberFunction
      else if kind v.props = 0x200 ∨ kind v.props = 0x800 then
        if (w.mem.obj v.value).typeId = T_STRING_SO then .string else .object (w.mem.obj v.value).typeId
      else .other) := rfl

theorem argOk_iff (w : World) (s : Stk) (t : Nat)
    (hs : has (deref w.mem s).props P_ANY_OBJECT = true → (deref w.mem s).value ≠ 0) :
    ∃ b, argOk w s t = .ok b ∧ (b = true ↔ Fits w.ext (kindOf w s) t) := by
  by_cases ht : t = T_STACK_ELEMENT
  · exact ⟨true, by simp [argOk, ht], by subst ht; simp [Fits.any]⟩
  rw [kindOf_eq]
  simp only [argOk, if_neg ht]
  generalize deref w.mem s = v at hs
  have e1 : P_INT = 0x004 := rfl
  have e2 : P_FLOAT = 0x008 := rfl
  have e3 : P_BOOL = 0x010 := rfl
  have e4 : P_FUNCTION = 0x040 := rfl
  have e5 : P_FUNCTION ||| P_MEMBER_FUNCTION = 0x0C0 := rfl
  have e6 : P_OBJECT = 0x200 := rfl
  have e7 : P_OBJECT_IN_CONTAINER = 0x800 := rfl
  rw [e5, e1, e2, e3, e4, e6, e7]
  by_cases h1 : kind v.props = 0x004
  · simp only [h1, if_true]
    refine ⟨_, rfl, ?_⟩
    simp only [Bool.or_eq_true, beq_iff_eq]
    constructor
    · rintro ((rfl | rfl) | rfl)
      · exact .intPtr
      · exact .int
      · exact .intToFloat
    · intro h; cases h <;> simp_all
  by_cases h2 : kind v.props = 0x008
  · rw [h2]
    simp only [show ¬ ((0x008 : Props) = 0x004) by decide, if_false, if_true]
    refine ⟨_, rfl, ?_⟩
    simp only [Bool.or_eq_true, beq_iff_eq]
    constructor
    · rintro (((rfl | rfl) | rfl) | rfl)
      · exact .floatPtr
      · exact .float
      · exact .floatToIntPtr
      · exact .floatToInt
    · intro h; cases h <;> simp_all
  by_cases h3 : kind v.props = 0x010
  · rw [h3]
    simp only [show ¬ ((0x010 : Props) = 0x004) by decide, show ¬ ((0x010 : Props) = 0x008) by decide, if_false, if_true]
    refine ⟨_, rfl, ?_⟩
    simp only [beq_iff_eq]
    constructor
    · rintro rfl; exact .boolPtr
    · intro h; cases h <;> simp_all
  by_cases h4 : kind v.props = 0x040
  · rw [h4]
    simp only [show ¬ ((0x040 : Props) = 0x004) by decide, show ¬ ((0x040 : Props) = 0x008) by decide,
      show ¬ ((0x040 : Props) = 0x010) by decide, show ¬ ((0x040 : Props) = 0x0C0) by decide, if_false, if_true]
    refine ⟨_, rfl, ?_⟩
    simp only [beq_iff_eq]
    constructor
    · rintro rfl; exact .function
    · intro h; cases h <;> simp_all
  by_cases h5 : kind v.props = 0x0C0
  · rw [h5]
    simp only [show ¬ ((0x0C0 : Props) = 0x004) by decide, show ¬ ((0x0C0 : Props) = 0x008) by decide,
      show ¬ ((0x0C0 : Props) = 0x010) by decide, show ¬ ((0x0C0 : Props) = 0x040) by decide, if_false, if_true]
    refine ⟨_, rfl, ?_⟩
    simp only [beq_iff_eq]
    constructor
    · rintro rfl; exact .memberFunction
    · intro h; cases h <;> simp_all
  simp only [if_neg h1, if_neg h2, if_neg h3, if_neg h4, if_neg h5]
  by_cases h6 : kind v.props = 0x200 ∨ kind v.props = 0x800
  · rw [if_pos h6, if_pos h6]
    have hob : has v.props (P_OBJECT ||| P_OBJECT_IN_CONTAINER) = true := by
      rw [has_kind _ _ (by decide)]
      rcases h6 with h6 | h6 <;> rw [h6] <;> decide
    have hany : has v.props P_ANY_OBJECT = true := by
      rw [has_kind _ _ (by decide)]
      rcases h6 with h6 | h6 <;> rw [h6] <;> decide
    rw [if_neg (hs hany)]
    have hstr : isStr w.mem v = true ↔ (w.mem.obj v.value).typeId = T_STRING_SO := by
      simp [isStr, isObjOf, hob]
    by_cases h7 : (w.mem.obj v.value).typeId = T_STRING_SO
    · rw [if_pos (hstr.2 h7), if_pos h7]
      refine ⟨_, rfl, ?_⟩
      simp only [Bool.or_eq_true, beq_iff_eq]
      constructor
      · rintro ((rfl | rfl) | rfl)
        · exact .string
        · exact .stringPtr
        · exact .chars
      · intro h; cases h <;> simp_all
    · rw [if_neg (fun e => h7 (hstr.1 e)), if_neg h7]
      refine ⟨_, rfl, ⟨fun h => .object _ _ h, ?_⟩⟩
      intro h
      cases h with
      | any => exact absurd rfl ht
      | object _ _ h => exact h
  · rw [if_neg h6, if_neg h6]
    refine ⟨false, rfl, ?_⟩
    constructor
    · intro h; cases h
    · intro h; cases h; exact absurd rfl ht

theorem argsOk_iff (w : World) : ∀ (args : List Stk) (ts : List Nat), Sound w args → args.length ≤ ts.length →
    ∃ b, argsOk w args ts = .ok b ∧
      (b = true ↔ ∀ (i : Nat) (s : Stk) (t : Nat), args[i]? = some s → ts[i]? = some t → Fits w.ext (kindOf w s) t) := by
  intro args
  induction args with
  | nil => intro ts _ _; exact ⟨true, rfl, by simp⟩
  | cons s ss ih =>
    intro ts hs hl
    cases ts with
    | nil => simp at hl
    | cons t ts =>
      obtain ⟨b, e, f⟩ := argOk_iff w s t (fun h => (hs s (by simp) h).1)
      obtain ⟨b', e', f'⟩ := ih ts (fun x hx => hs x (by simp [hx])) (by simpa using hl)
      cases b with
      | false =>
        refine ⟨false, by simp [argsOk, e], ?_⟩
        constructor
        · intro h; cases h
        · intro h
          have := h 0 s t (by simp) (by simp)
          exact absurd (f.2 this) (by simp)
      | true =>
        refine ⟨b', by simp [argsOk, e, e'], ?_⟩
        rw [f']
        constructor
        · intro h i s' t' h1 h2
          cases i with
          | zero =>
            simp at h1 h2
            subst h1 h2
            exact f.1 rfl
          | succ i => exact h i s' t' (by simpa using h1) (by simpa using h2)
        · intro h i s' t' h1 h2
          exact h (i + 1) s' t' (by simpa using h1) (by simpa using h2)

theorem candidate_iff (w : World) (n : String) (args : List Stk) (hs : Sound w args) (f : Fn) :
    ∃ b, candidate w n args f = .ok b ∧ (b = true ↔ Takes w n args f) := by
  unfold candidate Takes
  split
  · rename_i h
    simp only [Bool.and_eq_true, beq_iff_eq] at h
    obtain ⟨⟨h1, h2⟩, h3⟩ := h
    have hst : startParam f = if f.member then 2 else 1 := rfl
    obtain ⟨b, e, g⟩ := argsOk_iff w args (f.params.drop (startParam f)) hs (by rw [List.length_drop]; omega)
    refine ⟨b, e, g.trans ?_⟩
    rw [← hst]
    constructor
    · intro h
      refine ⟨h3, h1, h2, fun i s t a b => h i s t a ?_⟩
      rw [List.getElem?_drop, Nat.add_comm]
      exact b
    · rintro ⟨_, _, _, h⟩ i s t a b
      rw [List.getElem?_drop, Nat.add_comm] at b
      exact h i s t a b
  · rename_i h
    refine ⟨false, rfl, ?_⟩
    constructor
    · intro h; cases h
    · rintro ⟨h1, h2, h3, _⟩
      exfalso
      apply h
      have hst : startParam f = if f.member then 2 else 1 := rfl
      simp [h1, h2, hst, h3]

theorem search_ok (w : World) (n : String) (args : List Stk) (hs : Sound w args) (f : Fn) : ∀ fs,
    search w n args fs = .ok f ↔ ∃ pre post, fs = pre ++ f :: post ∧ Takes w n args f ∧ ∀ g ∈ pre, ¬ Takes w n args g := by
  intro fs
  induction fs with
  | nil => simp [search]
  | cons g fs ih =>
    obtain ⟨b, e, k⟩ := candidate_iff w n args hs g
    cases b with
    | true =>
      simp only [search, e]
      constructor
      · intro h
        obtain rfl := Out.ok.inj h
        exact ⟨[], fs, rfl, k.1 rfl, by simp⟩
      · rintro ⟨pre, post, h1, h2, h3⟩
        cases pre with
        | nil =>
          simp at h1
          rw [h1.1]
        | cons x pre =>
          simp at h1
          exact absurd (k.1 rfl) (h1.1 ▸ h3 x (by simp))
    | false =>
      simp only [search, e, ih]
      have hg : ¬ Takes w n args g := fun h => by simpa using k.2 h
      constructor
      · rintro ⟨pre, post, h1, h2, h3⟩
        refine ⟨g :: pre, post, by simp [h1], h2, ?_⟩
        intro x hx
        rcases List.mem_cons.1 hx with rfl | hx
        · exact hg
        · exact h3 x hx
      · rintro ⟨pre, post, h1, h2, h3⟩
        cases pre with
        | nil =>
          simp at h1
          exact absurd h2 (h1.1 ▸ hg)
        | cons x pre =>
          simp at h1
          exact ⟨pre, post, h1.2, h2, fun y hy => h3 y (by simp [hy])⟩

theorem search_err (w : World) (n : String) (args : List Stk) (hs : Sound w args) : ∀ fs,
    (search w n args fs = .err ↔ ∀ g ∈ fs, ¬ Takes w n args g) ∧ search w n args fs ≠ .ub := by
  intro fs
  induction fs with
  | nil => simp [search]
  | cons g fs ih =>
    obtain ⟨b, e, k⟩ := candidate_iff w n args hs g
    cases b with
    | true =>
      simp only [search, e]
      simp [k.1 rfl]
    | false =>
      have hg : ¬ Takes w n args g := fun h => by simpa using k.2 h
      simp only [search, e, ih]
      simp [hg, ih.2]

/-! ## C39 -/

/-- The search finds a function exactly if it takes the arguments and no function registered after it does. -/
theorem find_last_match (w : World) (fs : List Fn) (n : String) (args : List Stk) (hs : Sound w args) (f : Fn) :
    find w fs n args = .ok f ↔
      ∃ pre post, fs = pre ++ f :: post ∧ Takes w n args f ∧ ∀ g ∈ post, ¬ Takes w n args g := by
  unfold find
  rw [search_ok w n args hs]
  constructor
  · rintro ⟨pre, post, h1, h2, h3⟩
    refine ⟨post.reverse, pre.reverse, ?_, h2, by simpa using h3⟩
    have := congrArg List.reverse h1
    simpa using this
  · rintro ⟨pre, post, h1, h2, h3⟩
    exact ⟨post.reverse, pre.reverse, by simp [h1], h2, by simpa using h3⟩

/-- It raises an error exactly if no registered function takes the arguments, and never reads through a null pointer. -/
theorem find_error (w : World) (fs : List Fn) (n : String) (args : List Stk) (hs : Sound w args) :
    (find w fs n args = .err ↔ ∀ f ∈ fs, ¬ Takes w n args f) ∧ find w fs n args ≠ .ub := by
  unfold find
  have := search_err w n args hs fs.reverse
  simpa using this

/-- The first execution of a call that no registered function takes raises an error, and one that a function takes does not. -/
theorem call_refused (w : World) (n : String) (fs : List Fn) (args : List Stk) (hs : Sound w args) (rest : List (List Fn × List Stk)) :
    selects w n none ((fs, args) :: rest) = [.err] ↔ ∀ f ∈ fs, ¬ Takes w n args f := by
  rw [← (find_error w fs n args hs).1]
  simp only [selects, select]
  cases find w fs n args <;> simp [Out.map]

theorem deref_mkFloat (m : Mem) (x : Word) : deref m (mkFloat x) = mkFloat x := by
  unfold deref mkFloat
  rw [if_neg (show ¬ (has P_FLOAT P_PTR_STK = true) by decide)]

theorem deref_mkInt (m : Mem) (x : Word) : deref m (mkInt x) = mkInt x := by
  unfold deref mkInt
  rw [if_neg (show ¬ (has P_INT P_PTR_STK = true) by decide)]

theorem deref_mkObject (m : Mem) (x : Word) : deref m (mkObject x) = mkObject x := by
  unfold deref mkObject
  rw [if_neg (show ¬ (has P_OBJECT P_PTR_STK = true) by decide)]

theorem canCast_ok (w : World) (s : Stk)
    (hs : has (deref w.mem s).props P_ANY_OBJECT = true → objOf w.mem (deref w.mem s) ≠ 0) (t : Nat) :
    ∃ b, canCast w s t = .ok b := by
  unfold canCast
  generalize deref w.mem s = v at hs
  unfold castVal
  by_cases h0 : t = T_STACK_ELEMENT
  · exact ⟨_, if_pos h0⟩
  rw [if_neg h0]
  by_cases h1 : kind v.props = P_NULL
  · exact ⟨_, if_pos h1⟩
  rw [if_neg h1]
  by_cases h2 : kind v.props = P_BOOL
  · exact ⟨_, if_pos h2⟩
  rw [if_neg h2]
  by_cases h3 : kind v.props = P_FLOAT
  · exact ⟨_, if_pos h3⟩
  rw [if_neg h3]
  by_cases h4 : kind v.props = P_INT
  · exact ⟨_, if_pos h4⟩
  rw [if_neg h4]
  by_cases h5 : kind v.props = P_FUNCTION
  · exact ⟨_, if_pos h5⟩
  rw [if_neg h5]
  by_cases h6 : has v.props P_ANY_OBJECT = true
  · rw [if_pos h6]
    dsimp only
    rw [if_neg (hs h6)]
    by_cases e1 : t = (w.mem.obj (objOf w.mem v)).typeId
    · exact ⟨_, if_pos e1⟩
    rw [if_neg e1]
    by_cases e2 : (w.mem.obj (objOf w.mem v)).typeId = T_STRING_SO
    · exact ⟨_, if_pos e2⟩
    rw [if_neg e2]
    by_cases e3 : T_CLASS_SO ≤ (w.mem.obj (objOf w.mem v)).typeId
    · rw [if_pos e3]
      cases (if t = T_CLASS_SO then none else w.nativeClass (objOf w.mem v)) with
      | none => exact ⟨_, rfl⟩
      | some k => exact ⟨_, rfl⟩
    · exact ⟨_, if_neg e3⟩
  · exact ⟨_, if_neg h6⟩

theorem reusable_ok (w : World) (f : Fn) (args : List Stk) (hs : Sound w args) : ∃ b, reusable w f args = .ok b := by
  unfold reusable
  split
  · rename_i hl
    have hlen : args.length ≤ (f.params.drop (startParam f)).length := by rw [List.length_drop]; omega
    generalize f.params.drop (startParam f) = ts at hlen
    clear hl
    induction args generalizing ts with
    | nil => exact ⟨_, rfl⟩
    | cons s ss ih =>
      cases ts with
      | nil => simp at hlen
      | cons t ts =>
        obtain ⟨b, e⟩ := canCast_ok w s (fun h => (hs s (by simp) h).2) t
        cases b with
        | true =>
          simp only [reusable.go, e]
          exact ih (fun x hx => hs x (by simp [hx])) ts (by simpa using hlen)
        | false => exact ⟨false, by simp [reusable.go, e]⟩
  · exact ⟨_, rfl⟩

/-- A call executed again and again with the same candidates and with arguments of the same kinds runs, every time, the last
registered function that takes them. -/
theorem calls_resolve_partial (w : World) (n : String) (fs : List Fn) (args : List Stk) (f : Fn)
    (hf : find w fs n args = .ok f) (calls : List (List Stk)) (hs : ∀ c ∈ calls, Sound w c)
    (hk : ∀ c ∈ calls, c.map (kindOf w) = args.map (kindOf w)) (hs0 : Sound w args) :
    selects w n none (calls.map (fun c => (fs, c))) = calls.map (fun _ => .ok f) := by
  have takes : ∀ c ∈ calls, ∀ g, Takes w n c g ↔ Takes w n args g := by
    intro c hc g
    have hmap := hk c hc
    have hlen : c.length = args.length := by simpa using congrArg List.length hmap
    have hat : ∀ i : Nat, (c[i]?).map (kindOf w) = (args[i]?).map (kindOf w) := by
      intro i
      have := congrArg (fun l => l[i]?) hmap
      simpa using this
    unfold Takes
    rw [hlen]
    constructor
    · rintro ⟨a, b, d, h⟩
      refine ⟨a, b, d, fun i s t h1 h2 => ?_⟩
      have := hat i
      rw [h1] at this
      simp only [Option.map_some, Option.map_eq_some_iff] at this
      obtain ⟨s', q1, q2⟩ := this
      rw [← q2]
      exact h i s' t q1 h2
    · rintro ⟨a, b, d, h⟩
      refine ⟨a, b, d, fun i s t h1 h2 => ?_⟩
      have := (hat i).symm
      rw [h1] at this
      simp only [Option.map_some, Option.map_eq_some_iff] at this
      obtain ⟨s', q1, q2⟩ := this
      rw [← q2]
      exact h i s' t q1 h2
  have hfind : ∀ c ∈ calls, find w fs n c = .ok f := by
    intro c hc
    rw [find_last_match w fs n c (hs c hc)]
    obtain ⟨pre, post, h1, h2, h3⟩ := (find_last_match w fs n args hs0 f).1 hf
    exact ⟨pre, post, h1, (takes c hc f).2 h2, fun g hg h => h3 g hg ((takes c hc g).1 h)⟩
  have go : ∀ (cs : List (List Stk)) (last : Option Fn), (∀ c ∈ cs, c ∈ calls) → (last = none ∨ last = some f) →
      selects w n last (cs.map (fun c => (fs, c))) = cs.map (fun _ => .ok f) := by
    intro cs
    induction cs with
    | nil => intro last _ _; rfl
    | cons c cs ih =>
      intro last hin hlast
      have hsel : select w fs n c last = .ok (f, some f) := by
        rcases hlast with rfl | rfl
        · simp [select, hfind c (hin c (by simp)), Out.map]
        · obtain ⟨b, e⟩ := reusable_ok w f c (hs c (hin c (by simp)))
          cases b with
          | true => simp [select, e]
          | false => simp [select, e, hfind c (hin c (by simp)), Out.map]
      simp only [List.map_cons, selects, hsel]
      rw [ih _ (fun x hx => hin x (by simp [hx])) (.inr rfl)]
  exact go calls none (fun c h => h) (.inl rfl)

/-- A world with one string object, at address 1. -/
def demoWorld : World where
  mem := { obj := fun _ => ⟨T_STRING_SO, []⟩, stk := fun _ => mkUndefined, slot := fun _ => 0 }
  ext := fun a b => a == b
  nativeClass := fun _ => none

/-- A function registered with one `String *` parameter. -/
def takesString : Fn := ⟨0, "f", true, false, [19, T_STRING_PTR]⟩

theorem demo_sound : Sound demoWorld [mkObject 1] ∧ Sound demoWorld [mkNull] := by
  constructor <;> intro s hs <;> simp only [List.mem_singleton] at hs <;> subst hs <;> decide

example : find demoWorld [takesString] "f" [mkObject 1] = .ok takesString := by decide

/-- The remembered function is called with arguments it does not take: after a call with a string, the same call with
`null` runs the function (with a null pointer) where a fresh call raises an error. -/
theorem calls_resolve_violated : ¬ CallsResolve demoWorld "f" := by
  intro h
  obtain ⟨pre, post, _, ht, _⟩ := h [([takesString], [mkObject 1]), ([takesString], [mkNull])]
    (by
      intro c hc
      simp only [List.mem_cons, List.not_mem_nil, or_false] at hc
      rcases hc with rfl | rfl
      · exact demo_sound.1
      · exact demo_sound.2) 1 [takesString] [mkNull] takesString rfl (by decide)
  have := ht.2.2.2 0 mkNull T_STRING_PTR rfl rfl
  have hk : kindOf demoWorld mkNull = .other := by decide
  rw [hk] at this
  have : T_STRING_PTR = T_STACK_ELEMENT := by
    generalize T_STRING_PTR = t at this
    cases this
    rfl
  exact absurd this (by decide)

/-- Overloading on number type does not work in either order: with the `float *` version first and the `int *` version last, a
call with a float chooses the `int *` version. -/
theorem float_chooses_int (w : World) (x : Word) (i j : Nat) :
    find w [⟨i, "f", true, false, [19, T_FLOAT_PTR]⟩, ⟨j, "f", true, false, [19, T_INT_PTR]⟩] "f" [mkFloat x]
      = .ok ⟨j, "f", true, false, [19, T_INT_PTR]⟩ := by
  rw [find_last_match]
  · refine ⟨[⟨i, "f", true, false, [19, T_FLOAT_PTR]⟩], [], rfl, ⟨rfl, rfl, rfl, ?_⟩, by simp⟩
    intro k s t h1 h2
    cases k with
    | zero =>
      simp at h1 h2
      subst h1 h2
      have : kindOf w (mkFloat x) = .float := by
        rw [kindOf_eq, deref_mkFloat]
        dsimp only
        have hp : (mkFloat x).props = P_FLOAT := rfl
        rw [hp]
        rw [if_neg (by decide)]; rw [if_pos (by decide)]
      rw [this]
      exact .floatToIntPtr
    | succ k => simp at h1
  · intro s hs
    simp only [List.mem_singleton] at hs
    subst hs
    intro h
    exact absurd h (by
      have := deref_mkFloat w.mem x
      rw [this]
      simp only [mkFloat]; decide)

/-- ... and with the versions registered the other way round, a call with an integer chooses the `float *` version. -/
theorem int_chooses_float (w : World) (x : Word) (i j : Nat) :
    find w [⟨i, "f", true, false, [19, T_INT_PTR]⟩, ⟨j, "f", true, false, [19, T_FLOAT_PTR]⟩] "f" [mkInt x]
      = .ok ⟨j, "f", true, false, [19, T_FLOAT_PTR]⟩ := by
  rw [find_last_match]
  · refine ⟨[⟨i, "f", true, false, [19, T_INT_PTR]⟩], [], rfl, ⟨rfl, rfl, rfl, ?_⟩, by simp⟩
    intro k s t h1 h2
    cases k with
    | zero =>
      simp at h1 h2
      subst h1 h2
      have : kindOf w (mkInt x) = .int := by
        rw [kindOf_eq, deref_mkInt]
        dsimp only
        have hp : (mkInt x).props = P_INT := rfl
        rw [hp]
        rw [if_pos (by decide)]
      rw [this]
      exact .intToFloat
    | succ k => simp at h1
  · intro s hs
    simp only [List.mem_singleton] at hs
    subst hs
    intro h
    exact absurd h (by
      have := deref_mkInt w.mem x
      rw [this]
      simp only [mkInt]; decide)

/-- The chosen function's arguments do not always pass: the float chosen for `int *` is then refused. -/
theorem chosen_args_pass_violated (F : FloatOps) : ¬ ChosenArgsPass demoWorld F := by
  intro h
  have hs : Sound demoWorld [mkFloat 0] := by
    intro s hs
    simp only [List.mem_singleton] at hs
    subst hs
    decide
  obtain ⟨cs, e⟩ := h [⟨1, "f", true, false, [19, T_INT_PTR]⟩] "f" [mkFloat 0] ⟨1, "f", true, false, [19, T_INT_PTR]⟩ hs (by decide)
  have h1 : passArg demoWorld F (mkFloat 0) T_INT_PTR = .err := by
    unfold passArg
    rw [if_neg (by decide)]
    decide
  have h2 : passArgs demoWorld F [mkFloat 0] [T_INT_PTR] = .err := by
    unfold passArgs
    rw [h1]
  have h3 : passArgs demoWorld F [mkFloat 0] [T_INT_PTR] = .ok cs := e
  rw [h2] at h3
  cases h3

/-- ... and so is an element with both function flags, chosen for the parameter type that is made for it. (No instruction
pushes such an element: a member function is pushed with the flag `MEMBER_FUNCTION` alone, `vm_container.cpp` 155, which fits
only a `StackElement *` parameter.) -/
theorem member_function_refused (w : World) (F : FloatOps) (x : Word) (i : Nat) :
    let s : Stk := ⟨x, P_FUNCTION ||| P_MEMBER_FUNCTION⟩
    find w [⟨i, "f", true, false, [19, T_MEMBER_FUNCTION]⟩] "f" [s] = .ok ⟨i, "f", true, false, [19, T_MEMBER_FUNCTION]⟩ ∧
      passArg w F s T_MEMBER_FUNCTION = .err := by
  intro s
  have hd : deref w.mem s = s := if_neg (show ¬ (has (P_FUNCTION ||| P_MEMBER_FUNCTION) P_PTR_STK = true) by decide)
  have hp : s.props = P_FUNCTION ||| P_MEMBER_FUNCTION := rfl
  constructor
  · have hsound : Sound w [s] := by
      intro u hu
      simp only [List.mem_singleton] at hu
      subst hu
      rw [hd, hp]
      intro h
      exact absurd h (by decide)
    rw [find_last_match _ _ _ _ hsound]
    refine ⟨[], [], rfl, ⟨rfl, rfl, rfl, ?_⟩, by simp⟩
    intro k u t h1 h2
    cases k with
    | zero =>
      simp at h1 h2
      subst h1 h2
      have : kindOf w s = .memberFunction := by
        rw [kindOf_eq, hd]
        dsimp only
        rw [hp, if_neg (by decide), if_neg (by decide), if_neg (by decide), if_neg (by decide), if_pos (by decide)]
      rw [this]
      exact .memberFunction
    | succ k => simp at h1
  · unfold passArg
    rw [hd, hp, if_neg (by decide)]
    unfold convert
    rw [hd]
    unfold convVal
    rw [hp, if_neg (by decide), if_neg (by decide), if_neg (by decide), if_neg (by decide), if_neg (by decide),
      if_neg (by decide), if_neg (by decide)]

/-- The parts of the world fit together: only class objects have other types above them, and what a class object inherits
that is not its own class it inherits through the native class it is linked to. -/
structure Coherent (w : World) : Prop where
  builtin : ∀ c t, c < T_CLASS_SO → w.ext c t = true → t = c
  linked : ∀ o k t, T_CLASS_SO ≤ (w.mem.obj o).typeId → w.nativeClass o = some k →
    w.ext (w.mem.obj o).typeId t = true → t = (w.mem.obj o).typeId ∨ w.ext k t = true

theorem passArg_ok (w : World) (F : FloatOps) (hw : Coherent w) (s : Stk) (t : Nat)
    (hs : has (deref w.mem s).props P_ANY_OBJECT = true → (deref w.mem s).value ≠ 0 ∧ objOf w.mem (deref w.mem s) ≠ 0)
    (fit : Fits w.ext (kindOf w s) t) (nfl : kindOf w s = .float → t ≠ T_INT ∧ t ≠ T_INT_PTR) (nmf : kindOf w s ≠ .memberFunction) :
    ∃ c, passArg w F s t = .ok c := by
  have hconv : ∀ v : Stk, deref w.mem s = v → (∃ c, convVal w v t = .ok c) → ∃ c, passArg w F s t = .ok c := by
    rintro v rfl ⟨c, h⟩
    unfold passArg
    split
    · exact ⟨_, rfl⟩
    · exact ⟨c, h⟩
  rw [kindOf_eq] at fit nfl nmf
  generalize hv : deref w.mem s = v at hs fit nfl nmf
  dsimp only at fit nfl nmf
  by_cases h0 : t = T_STACK_ELEMENT
  · exact hconv v hv ⟨_, if_pos h0⟩
  by_cases h1 : kind v.props = 0x004
  · rw [if_pos h1] at fit
    by_cases hf : t = T_FLOAT_PTR
    · refine ⟨_, if_pos ?_⟩
      rw [hv, has_kind _ _ (by decide), h1, hf]
      decide
    · refine hconv v hv ?_
      unfold convVal
      rw [if_neg h0, h1, if_neg (by decide), if_neg (by decide), if_neg (by decide), if_pos (by decide)]
      cases fit with
      | any => exact absurd rfl h0
      | int => exact ⟨_, rfl⟩
      | intPtr => exact ⟨_, rfl⟩
      | intToFloat => exact absurd rfl hf
  rw [if_neg h1] at fit nfl
  by_cases h2 : kind v.props = 0x008
  · rw [if_pos h2] at fit nfl
    refine hconv v hv ?_
    unfold convVal
    rw [if_neg h0, h2, if_neg (by decide), if_neg (by decide), if_pos (by decide)]
    cases fit with
    | any => exact absurd rfl h0
    | float => exact ⟨_, rfl⟩
    | floatPtr => exact ⟨_, rfl⟩
    | floatToInt => exact absurd rfl (nfl rfl).1
    | floatToIntPtr => exact absurd rfl (nfl rfl).2
  rw [if_neg h2] at fit
  by_cases h3 : kind v.props = 0x010
  · rw [if_pos h3] at fit
    refine hconv v hv ?_
    unfold convVal
    rw [if_neg h0, h3, if_neg (by decide), if_pos (by decide)]
    cases fit with
    | any => exact absurd rfl h0
    | boolPtr => exact ⟨_, rfl⟩
  rw [if_neg h3] at fit
  by_cases h4 : kind v.props = 0x040
  · rw [if_pos h4] at fit
    refine hconv v hv ?_
    unfold convVal
    rw [if_neg h0, h4, if_neg (by decide), if_neg (by decide), if_neg (by decide), if_neg (by decide), if_pos (by decide)]
    exact ⟨_, rfl⟩
  rw [if_neg h4] at fit
  by_cases h5 : kind v.props = 0x0C0
  · rw [if_neg h1, if_neg h2, if_neg h3, if_neg h4, if_pos h5] at nmf
    exact absurd rfl nmf
  rw [if_neg h5] at fit
  by_cases h6 : kind v.props = 0x200 ∨ kind v.props = 0x800
  · rw [if_pos h6] at fit
    refine hconv v hv ?_
    have hany : has v.props P_ANY_OBJECT = true := by
      rw [has_kind _ _ (by decide)]
      rcases h6 with h6 | h6 <;> rw [h6] <;> decide
    have hnslot : ¬ has v.props P_CONTAINER_SLOT = true := by
      rw [has_kind _ _ (by decide)]
      rcases h6 with h6 | h6 <;> rw [h6] <;> decide
    have hobj : objOf w.mem v = v.value := if_neg hnslot
    have hk : ∀ p : Props, p ≠ 0x200 → p ≠ 0x800 → kind v.props ≠ p := by
      rintro p h h' rfl
      rcases h6 with h6 | h6
      · exact h h6
      · exact h' h6
    unfold convVal
    rw [if_neg h0, if_neg (hk _ (by decide) (by decide)), if_neg (hk _ (by decide) (by decide)),
      if_neg (hk _ (by decide) (by decide)), if_neg (hk _ (by decide) (by decide)), if_neg (hk _ (by decide) (by decide)),
      if_pos hany]
    dsimp only
    rw [hobj, if_neg (hs hany).1]
    by_cases e1 : t = (w.mem.obj v.value).typeId
    · exact ⟨_, if_pos e1⟩
    rw [if_neg e1]
    by_cases e2 : (w.mem.obj v.value).typeId = T_STRING_SO
    · rw [if_pos e2]
      rw [if_pos e2] at fit
      rw [e2] at e1
      cases fit with
      | any => exact absurd rfl h0
      | string => exact absurd rfl e1
      | stringPtr => exact ⟨_, if_pos (.inl rfl)⟩
      | chars => exact ⟨_, if_pos (.inr (.inr rfl))⟩
    · rw [if_neg e2]
      rw [if_neg e2] at fit
      have he : w.ext (w.mem.obj v.value).typeId t = true := by
        cases fit with
        | any => exact absurd rfl h0
        | object _ _ h => exact h
      by_cases e3 : T_CLASS_SO ≤ (w.mem.obj v.value).typeId
      · rw [if_pos e3]
        by_cases e4 : t = T_CLASS_SO
        · simp [e4]
        · cases hn : w.nativeClass v.value with
          | none => simp
          | some k =>
            rcases hw.linked v.value k t e3 hn he with h | h
            · exact absurd h e1
            · simp [h, e4]
      · exact absurd (hw.builtin _ t (by omega) he) e1
  · rw [if_neg h6] at fit
    cases fit
    exact absurd rfl h0

/-- The arguments of a chosen function pass, unless a float meets an integer parameter or an argument is a reference to a
member function. -/
theorem chosen_args_pass_partial (w : World) (F : FloatOps) (hw : Coherent w) (fs : List Fn) (n : String) (args : List Stk)
    (f : Fn) (hs : Sound w args) (hf : find w fs n args = .ok f)
    (hfl : ∀ (i : Nat) (s : Stk), args[i]? = some s → kindOf w s = .float → f.params[i + startParam f]? ≠ some T_INT ∧ f.params[i + startParam f]? ≠ some T_INT_PTR)
    (hmf : ∀ s ∈ args, kindOf w s ≠ .memberFunction) :
    ∃ cs, passArgs w F args (f.params.drop (startParam f)) = .ok cs ∧ cs.length = args.length := by
  have ht : Takes w n args f := by
    obtain ⟨_, _, _, ht, _⟩ := (find_last_match w fs n args hs f).1 hf
    exact ht
  obtain ⟨_, _, hl, ht⟩ := ht
  have hst : startParam f = if f.member then 2 else 1 := rfl
  rw [← hst] at hl ht
  have hlen : args.length ≤ (f.params.drop (startParam f)).length := by rw [List.length_drop]; omega
  have ht' : ∀ (i : Nat) (s : Stk) (t : Nat), args[i]? = some s → (f.params.drop (startParam f))[i]? = some t → Fits w.ext (kindOf w s) t ∧
      (kindOf w s = .float → t ≠ T_INT ∧ t ≠ T_INT_PTR) := by
    intro i s t h1 h2
    rw [List.getElem?_drop, Nat.add_comm] at h2
    refine ⟨ht i s t h1 h2, fun h => ?_⟩
    have := hfl i s h1 h
    rw [h2] at this
    simpa using this
  generalize f.params.drop (startParam f) = ts at hlen ht'
  clear hl ht hf hfl
  induction args generalizing ts with
  | nil => exact ⟨[], rfl, rfl⟩
  | cons s ss ih =>
    cases ts with
    | nil => simp at hlen
    | cons t ts =>
      obtain ⟨cs, e, el⟩ := ih (fun x hx => hs x (by simp [hx])) (fun x hx => hmf x (by simp [hx])) ts (by simpa using hlen)
        (fun i s' t' h1 h2 => ht' (i + 1) s' t' (by simpa using h1) (by simpa using h2))
      obtain ⟨fit, nfl⟩ := ht' 0 s t (by simp) (by simp)
      suffices ∃ c, passArg w F s t = .ok c by
        obtain ⟨c, ec⟩ := this
        exact ⟨c :: cs, by simp [passArgs, ec, e, Out.map], by simp [el]⟩
      exact passArg_ok w F hw s t (hs s (by simp)) fit nfl (hmf s (by simp))

/-- The hypotheses above are met: two functions, called with a string and an integer. -/
example : find demoWorld [⟨0, "f", true, false, [19, T_STRING_PTR, T_INT_PTR]⟩, ⟨1, "f", true, false, [19, T_BOOL_PTR, T_INT_PTR]⟩] "f"
    [mkObject 1, mkInt 5] = .ok ⟨0, "f", true, false, [19, T_STRING_PTR, T_INT_PTR]⟩ := by decide

/-! ## C40 -/

/-- A value can be cast to a type iff converting it succeeds, and cannot iff converting it fails, except for integers to
floating types, null object pointers, and floats that do not fit an integer. -/
theorem cast_agrees_partial (w : World) (s : Stk) (t : Nat)
    (hint : ¬ (kind (deref w.mem s).props = P_INT ∧ (t = T_FLOAT ∨ t = T_FLOAT_PTR)))
    (hnull : has (deref w.mem s).props P_ANY_OBJECT = true → objOf w.mem (deref w.mem s) ≠ 0)
    (hfit : kind (deref w.mem s).props = P_FLOAT → t = T_INT → truncInt (deref w.mem s).value ≠ none) :
    (canCast w s t = .ok true ↔ ∃ c, convert w s t = .ok c) ∧ (canCast w s t = .ok false ↔ convert w s t = .err) := by
  unfold canCast convert
  generalize deref w.mem s = v at hint hnull hfit
  unfold castVal convVal
  by_cases h0 : t = T_STACK_ELEMENT
  · simp [h0]
  rw [if_neg h0, if_neg h0]
  by_cases h1 : kind v.props = P_NULL
  · simp [h1]
  rw [if_neg h1, if_neg h1]
  by_cases h2 : kind v.props = P_BOOL
  · rw [if_pos h2, if_pos h2]
    by_cases e1 : t = T_BOOL
    · simp [e1]
    · by_cases e2 : t = T_BOOL_PTR
      · subst e2; simp [T_BOOL, T_BOOL_PTR]
      · simp [e1, e2]
  rw [if_neg h2, if_neg h2]
  by_cases h3 : kind v.props = P_FLOAT
  · rw [if_pos h3, if_pos h3]
    by_cases e1 : t = T_FLOAT
    · simp [e1]
    · by_cases e2 : t = T_FLOAT_PTR
      · subst e2; simp [T_FLOAT, T_FLOAT_PTR]
      · by_cases e3 : t = T_INT
        · have := hfit h3 e3
          cases hh : truncInt v.value with
          | none => exact absurd hh this
          | some i => subst e3; simp [T_FLOAT, T_FLOAT_PTR, T_INT]
        · simp [e1, e2, e3]
  rw [if_neg h3, if_neg h3]
  by_cases h4 : kind v.props = P_INT
  · rw [if_pos h4, if_pos h4]
    have e3 : t ≠ T_FLOAT := fun e => hint ⟨h4, .inl e⟩
    have e4 : t ≠ T_FLOAT_PTR := fun e => hint ⟨h4, .inr e⟩
    by_cases e1 : t = T_INT
    · simp [e1]
    · by_cases e2 : t = T_INT_PTR
      · subst e2; simp [T_INT, T_INT_PTR]
      · simp [e1, e2, e3, e4]
  rw [if_neg h4, if_neg h4]
  by_cases h5 : kind v.props = P_FUNCTION
  · simp [h5]
  rw [if_neg h5, if_neg h5]
  by_cases h6 : has v.props P_ANY_OBJECT = true
  · rw [if_pos h6, if_pos h6]
    dsimp only
    rw [if_neg (hnull h6), if_neg (hnull h6)]
    by_cases e1 : t = (w.mem.obj (objOf w.mem v)).typeId
    · simp [e1]
    rw [if_neg e1, if_neg e1]
    by_cases e2 : (w.mem.obj (objOf w.mem v)).typeId = T_STRING_SO
    · rw [if_pos e2, if_pos e2]
      by_cases e3 : t = T_STRING_PTR ∨ t = T_STRING ∨ t = T_CONST_CHAR_PTR
      · rw [if_pos e3]
        rcases e3 with rfl | rfl | rfl <;> simp
      · rw [if_neg e3]
        have : (t == T_STRING_PTR || t == T_STRING || t == T_CONST_CHAR_PTR) = false := by
          simp only [not_or] at e3
          simp [e3]
        simp [this]
    rw [if_neg e2, if_neg e2]
    by_cases e3 : T_CLASS_SO ≤ (w.mem.obj (objOf w.mem v)).typeId
    · rw [if_pos e3, if_pos e3]
      cases (if t = T_CLASS_SO then none else w.nativeClass (objOf w.mem v)) with
      | none => simp
      | some k =>
        cases e : w.ext k t <;> simp [e]
    · simp [e3]
  · simp [h6]

example : canCast demoWorld (mkObject 1) T_STRING_PTR = .ok true ∧ canCast demoWorld (mkBool true) T_INT = .ok false := by decide

/-- An integer is said to be castable to a float, but converting it fails. -/
theorem cast_agrees_violated : ¬ CastAgrees := by
  intro h
  obtain ⟨c, e⟩ := (h demoWorld (mkInt 3) T_FLOAT).1 (by decide)
  have : convert demoWorld (mkInt 3) T_FLOAT = .err := by decide
  rw [this] at e
  cases e

/-- Asking whether a null object can be cast reads through the null pointer, where converting it is refused. -/
theorem cast_null_object (w : World) (t : Nat) (ht : t ≠ T_STACK_ELEMENT) :
    canCast w (mkObject 0) t = .ub ∧ convert w (mkObject 0) t = .err := by
  have hd := deref_mkObject w.mem 0
  unfold canCast convert
  rw [hd]
  unfold castVal convVal
  have ho : objOf w.mem (mkObject 0) = 0 := by
    unfold objOf mkObject
    rw [if_neg (show ¬ (has P_OBJECT P_CONTAINER_SLOT = true) by decide)]
  constructor
  · rw [if_neg ht, if_neg (by decide), if_neg (by decide), if_neg (by decide), if_neg (by decide), if_neg (by decide),
      if_pos (by decide)]
    dsimp only
    rw [if_pos ho]
  · rw [if_neg ht, if_neg (by decide), if_neg (by decide), if_neg (by decide), if_neg (by decide), if_neg (by decide),
      if_pos (by decide)]
    dsimp only
    rw [if_pos ho]

/-! ## `instanceof` (C42) -/

/-- The full claim: a value that is an object is an instance of a class iff its class is that class or inherits from it. -/
def InstanceOfRight (w : World) (g : Types.Reg) : Prop :=
  ∀ (s : Stk) (t : Nat), T_CLASS_SO ≤ t → has s.props (P_OBJECT ||| P_OBJECT_IN_CONTAINER) = true →
    (instanceOf w s t = true ↔ Types.Extends g (w.mem.obj s.value).typeId t)

/-- It holds for an object held by a variable or a temporary. -/
theorem instanceof_partial (w : World) (g : Types.Reg) (hext : ∀ a b, w.ext a b = true ↔ Types.Extends g a b)
    (s : Stk) (t : Nat) (ht : T_CLASS_SO ≤ t) (hs : has s.props P_OBJECT = true) :
    instanceOf w s t = true ↔ Types.Extends g (w.mem.obj s.value).typeId t := by
  have h26 : 26 ≤ t := ht
  have h1 : t ≠ T_INT := by simp only [T_INT]; omega
  have h2 : t ≠ T_FLOAT := by simp only [T_FLOAT]; omega
  have h3 : t ≠ T_BOOL := by simp only [T_BOOL]; omega
  have h4 : t ≠ T_SCRIPT_FUNCTION := by simp only [T_SCRIPT_FUNCTION]; omega
  simp [instanceOf, h1, h2, h3, h4, hs, hext]

/-- An object read from a field or an array element is an instance of nothing, not even of its own class. -/
theorem instanceof_violated (w : World) (g : Types.Reg) (h : InstanceOfRight w g) :
    ∀ o : Word, (w.mem.obj o).typeId < T_CLASS_SO := by
  intro o
  apply Nat.lt_of_not_le
  intro hc
  have := (h ⟨o, P_OBJECT_IN_CONTAINER⟩ _ hc (by simp only; decide)).2 (.refl _)
  have h26 : 26 ≤ (w.mem.obj o).typeId := hc
  have h1 : (w.mem.obj o).typeId ≠ T_INT := by simp only [T_INT]; omega
  have h2 : (w.mem.obj o).typeId ≠ T_FLOAT := by simp only [T_FLOAT]; omega
  have h3 : (w.mem.obj o).typeId ≠ T_BOOL := by simp only [T_BOOL]; omega
  have h4 : (w.mem.obj o).typeId ≠ T_SCRIPT_FUNCTION := by simp only [T_SCRIPT_FUNCTION]; omega
  simp [instanceOf, h1, h2, h3, h4, show has P_OBJECT_IN_CONTAINER P_OBJECT = false by decide] at this

end Verif.Vm.Native
