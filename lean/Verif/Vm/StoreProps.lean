import Verif.Vm.Store
import Verif.Vm.Spec
import Verif.Vm.CompareProps
/-
C31 (multi-assignment), C35 (constants), C46 (assignment preserves the kind), and value semantics of strings.
-/
namespace Verif.Vm
open Verif

/-! ## Specification -/

/-- What a script sees of a value: like `V`, but a string is its text. -/
inductive D where
  | undef
  | null
  | int (w : Word)
  | flt (w : Word)
  | bool (b : Bool)
  | type (id : Word)
  | fn (f : Word)
  | str (t : List UInt8)
  | ref (a : Word)
  deriving DecidableEq, Repr

/-- The value as seen by the script in a given memory. -/
def view (m : Mem) : V → D
  | .undef => .undef
  | .null => .null
  | .int w => .int w
  | .flt w => .flt w
  | .bool b => .bool b
  | .type i => .type i
  | .fn f => .fn f
  | .obj a => if (m.obj a).typeId = T_STRING_SO then .str (m.obj a).text else .ref a

/-- The variables hold the values `vs` and are constants where `cs` says so. -/
def Holds (w : World) (cs : Word → Bool) (vs : Word → V) : Prop := ∀ p, w.stk p = held (cs p) (vs p)

/-- No two variables hold the same string object. -/
def StringsUnshared (m : Mem) (vs : Word → V) : Prop :=
  ∀ p q a, vs p = .obj a → vs q = .obj a → (m.obj a).typeId = T_STRING_SO → p = q

/-- The address `new` is not that of an object held by a variable. -/
def Unused (vs : Word → V) (new : Word) : Prop := ∀ p, vs p ≠ .obj new

/-- The constant kinds that can be copied out of a constant without surprise. -/
def V.isCopyable : V → Bool
  | .undef => false
  | .null => false
  | .type _ => false
  | .fn _ => false
  | _ => true

/-- No escape character. -/
def NoBackslash (t : List UInt8) : Prop := (92 : UInt8) ∉ t

/-! ## Lemmas -/

theorem unescape_plain (t : List UInt8) (h : NoBackslash t) : setTextOf t = t := by
  unfold setTextOf
  induction t using Str.unescapeChars.induct with
  | case1 => rfl
  | case2 c => rfl
  | case3 rest => exact absurd (List.mem_cons_self ..) h
  | case4 rest => exact absurd (List.mem_cons_self ..) h
  | case5 rest => exact absurd (List.mem_cons_self ..) h
  | case6 rest => exact absurd (List.mem_cons_self ..) h
  | case7 rest => exact absurd (List.mem_cons_self ..) h
  | case8 => exact absurd (List.mem_cons_self ..) h
  | case9 c e rest hc ih =>
    rw [Str.unescapeChars]
    rw [if_neg hc, ih (fun hm => h (List.mem_cons_of_mem _ hm))]

theorem setStk_stk (w : World) (p q : Word) (s : Stk) : (w.setStk p s).stk q = if q = p then s else w.stk q := rfl
theorem setStk_obj (w : World) (p : Word) (s : Stk) : (w.setStk p s).obj = w.obj := rfl
theorem setText_stk (w : World) (a : Word) (t : List UInt8) : (w.setText a t).stk = w.stk := rfl
theorem setText_obj (w : World) (a b : Word) (t : List UInt8) :
    (w.setText a t).obj b = if b = a then ⟨T_STRING_SO, t⟩ else w.obj b := rfl

theorem view_congr (m m' : Mem) (v : V) (h : ∀ a, v = .obj a → m'.obj a = m.obj a) : view m' v = view m v := by
  cases v <;> first | rfl | (rename_i a; simp only [view, h a rfl])

theorem resolve_ptr (w : World) (p : Word) : resolveDst w ⟨p, P_PTR_STK⟩ = .elem p none := by
  have h0 : isObjOf w.toMem T_VAR_REF ⟨p, P_PTR_STK⟩ = false := by
    have : has P_PTR_STK (P_OBJECT ||| P_OBJECT_IN_CONTAINER) = false := by decide
    simp only [isObjOf, this, Bool.false_and]
  have h1 : has P_PTR_STK P_PTR_STK = true := by decide
  unfold resolveDst
  simp only [h0, h1, if_true, Bool.false_eq_true, if_false]

theorem readOnly_held (c : Bool) (v : V) : has (held c v).props P_READ_ONLY = c := by
  rw [held_props]
  cases c <;> cases v <;> simp only [if_true, if_false, Bool.false_eq_true] <;> decide

theorem member_held (c : Bool) (v : V) : has (held c v).props P_MEMBER_PROPERTY = false := by
  rw [held_props]
  cases c <;> cases v <;> simp only [if_true, if_false, Bool.false_eq_true] <;> decide

theorem charPtr_held (c : Bool) (v : V) : has (held c v).props P_CHAR_PTR = false := by
  rw [held_props]
  cases c <;> cases v <;> simp only [if_true, if_false, Bool.false_eq_true] <;> decide

theorem inContainer_held (c : Bool) (v : V) : has (held c v).props P_OBJECT_IN_CONTAINER = false := by
  rw [held_props]
  cases c <;> cases v <;> simp only [if_true, if_false, Bool.false_eq_true] <;> decide

/-- What `storeElem` writes for each kind of source. -/
theorem storeElem_held (w : World) (new : Word) (rt : Word → List UInt8) (cd c : Bool) (u v : V) (p : Word)
    (hd : w.stk p = held cd u) (hv : c = true → v ≠ .undef ∧ v ≠ .null) :
    storeElem w new rt (held c v) p none =
      (match (generalizing := false) v with
      | .obj a =>
        if (w.obj a).typeId = T_STRING_SO then
          (match (generalizing := false) u with
          | .obj b => if (w.obj b).typeId = T_STRING_SO then .ok (w.setText b (setTextOf (w.obj a).text))
              else .ok ((w.setText new (setTextOf (w.obj a).text)).setStk p (enc (.obj new)))
          | _ => .ok ((w.setText new (setTextOf (w.obj a).text)).setStk p (enc (.obj new))))
        else if (enc u).value = a then .ok w else .ok (w.setStk p (enc (.obj a)))
      | .fn f => .ok (w.setStk p (held c (.fn f)))
      | .type f => .ok (w.setStk p (held c (.type f)))
      | v => .ok (w.setStk p (enc v))) := by
  unfold storeElem
  simp only [hd, ptr_held, inContainer_held, charPtr_held, Bool.false_eq_true, if_false, isStr, isObjOf_held,
    held_value]
  cases v with
  | undef =>
    cases c with
    | true => exact absurd rfl (hv rfl).1
    | false => exact if_pos rfl
  | null =>
    cases c with
    | true => exact absurd rfl (hv rfl).2
    | false => rw [if_neg (by decide)]; exact if_pos rfl
  | obj a =>
    simp only [held_props]
    cases c
    all_goals
      simp +decide only [if_true, if_false, V.isObjOf, Bool.or_false, beq_iff_eq]
      by_cases h : (w.obj a).typeId = T_STRING_SO
      · simp only [h, if_true]
        cases u with
        | obj b =>
          simp only [V.isObjOf, beq_iff_eq]
          rfl
        | _ => rfl
      · simp only [h, if_false, Option.isSome_none, Bool.and_false, Bool.false_eq_true]
        rfl
  | fn f => simp only [held_props]; cases c <;> simp +decide only [if_true, if_false]
  | type f => simp only [held_props]; cases c <;> simp +decide only [if_true, if_false]
  | int a => simp only [held_props]; cases c <;> simp +decide only [if_true, if_false] <;> rfl
  | flt a => simp only [held_props]; cases c <;> simp +decide only [if_true, if_false] <;> rfl
  | bool a => simp only [held_props]; cases c <;> simp +decide only [if_true, if_false] <;> rfl

/-- Replace the value of one variable. -/
def upd {α : Type} (f : Word → α) (p : Word) (v : α) : Word → α := fun q => if q = p then v else f q

theorem upd_self {α : Type} (f : Word → α) (p : Word) (v : α) : upd f p v p = v := if_pos rfl
theorem upd_ne {α : Type} (f : Word → α) (p q : Word) (v : α) (h : q ≠ p) : upd f p v q = f q := if_neg h

/-- `storeOne` to a plain variable. -/
theorem storeOne_held (w : World) (const : Bool) (new : Word) (rt : Word → List UInt8) (cd c : Bool) (u v : V) (p : Word)
    (hd : w.stk p = held cd u) (hs : ∀ a, u = .obj a → w.hasSetter a = false) :
    storeOne w const new rt (held c v) ⟨p, P_PTR_STK⟩ =
      if cd then .err else
      match storeElem w new rt (held c v) p none with
      | .ok w' =>
        if const then .ok (w'.setStk p { w'.stk p with props := (w'.stk p).props ||| P_READ_ONLY }) else .ok w'
      | e => e := by
  unfold storeOne
  rw [resolve_ptr]
  simp only [hd, readOnly_held, member_held, has_object_held, held_value]
  cases cd
  · simp only [Bool.false_eq_true, if_false]
    cases u with
    | obj a =>
      have e : (enc (.obj a)).value = a := rfl
      rw [e, hs a rfl]
      simp only [Bool.and_false, Bool.false_eq_true, if_false]
      rfl
    | _ => rfl
  · rfl

/-! ## Single assignment: kinds, value semantics -/

/-- `p = e` for a plain variable `p` that is not constant and whose object has no `_set` metamethod, and a
value `v` (a temporary, or read from a variable, constant or not): afterwards `p` shows the same kind and
value as `v` did, no other variable's value changes, and still no two variables share a string.

Hypotheses that delimit the partial result: `v` is not `undefined`, `null`, a function or a type read from a
constant (`hc`); if it is a string it has no backslash (`hb`); if it is another object, the word in `p` is
not by coincidence the integer or float with the bits of its address (`ha`). `new` is the address of an allocated
object not in use. -/
theorem assign_exact_partial (w : World) (cs : Word → Bool) (vs : Word → V) (new : Word) (rt : Word → List UInt8)
    (c : Bool) (v : V) (p : Word)
    (h : Holds w cs vs) (hsh : StringsUnshared w.toMem vs) (hnew : Unused vs new ∧ v ≠ .obj new)
    (hp : cs p = false) (hs : ∀ a, vs p = .obj a → w.hasSetter a = false)
    (hc : c = true → v.isCopyable)
    (hb : ∀ a, v = .obj a → (w.obj a).typeId = T_STRING_SO → NoBackslash (w.obj a).text)
    (ha : ∀ a, v = .obj a → (enc (vs p)).value = a → vs p = .obj a) :
    ∃ w' v', storeOne w false new rt (held c v) ⟨p, P_PTR_STK⟩ = .ok w' ∧
      (∀ a, v' = .obj a → a = new ∨ vs p = .obj a ∨ v = .obj a) ∧
      Holds w' cs (upd vs p v') ∧ StringsUnshared w'.toMem (upd vs p v') ∧
      view w'.toMem v' = view w.toMem v ∧
      (∀ q, q ≠ p → view w'.toMem (vs q) = view w.toMem (vs q)) ∧
      (∀ a, (w'.obj a).typeId = T_STRING_SO → (∀ b, (w.obj b).typeId = T_STRING_SO → NoBackslash (w.obj b).text) →
        NoBackslash (w'.obj a).text) ∧ w'.hasSetter = w.hasSetter ∧
      (∀ a, a ≠ new → ¬ (vs p = .obj a ∧ (w.obj a).typeId = T_STRING_SO) → w'.obj a = w.obj a) := by
  have hd : w.stk p = held false (vs p) := by rw [h p, hp]
  rw [storeOne_held w false new rt false c (vs p) v p hd hs]
  rw [storeElem_held w new rt false c (vs p) v p hd (fun e => by
    have := hc e
    constructor <;> (rintro rfl; cases this))]
  simp only [Bool.false_eq_true, if_false]
  -- the case where only the element changes
  have plain : ∀ v', view w.toMem v' = view w.toMem v → (∀ a, v' = .obj a → (w.obj a).typeId ≠ T_STRING_SO) →
      Holds (w.setStk p (enc v')) cs (upd vs p v') ∧
      StringsUnshared (w.setStk p (enc v')).toMem (upd vs p v') ∧
      view (w.setStk p (enc v')).toMem v' = view w.toMem v ∧
      (∀ q, q ≠ p → view (w.setStk p (enc v')).toMem (vs q) = view w.toMem (vs q)) ∧
      (∀ a, ((w.setStk p (enc v')).obj a).typeId = T_STRING_SO →
        (∀ b, (w.obj b).typeId = T_STRING_SO → NoBackslash (w.obj b).text) →
        NoBackslash ((w.setStk p (enc v')).obj a).text) ∧ (w.setStk p (enc v')).hasSetter = w.hasSetter ∧
      (∀ a, a ≠ new → ¬ (vs p = .obj a ∧ (w.obj a).typeId = T_STRING_SO) → (w.setStk p (enc v')).obj a = w.obj a) := by
    intro v' hv' hns
    refine ⟨?_, ?_, ?_, ?_, fun a ht hall => hall a ht, rfl, fun _ _ _ => rfl⟩
    · intro q
      rw [setStk_stk]
      by_cases hq : q = p
      · subst hq; rw [if_pos rfl, upd_self, hp]; rfl
      · rw [if_neg hq, upd_ne _ _ _ _ hq, h q]
    · intro q r a hq hr ht
      rw [setStk_obj] at ht
      by_cases hqp : q = p
      · subst hqp; rw [upd_self] at hq; exact absurd ht (hns a hq)
      · by_cases hrp : r = p
        · subst hrp; rw [upd_self] at hr; exact absurd ht (hns a hr)
        · rw [upd_ne _ _ _ _ hqp] at hq; rw [upd_ne _ _ _ _ hrp] at hr
          exact hsh q r a hq hr ht
    · rw [← hv']; exact view_congr _ _ _ (fun a _ => rfl)
    · intro q _; exact view_congr _ _ _ (fun a _ => rfl)
  -- a new string object
  have fresh : ∀ t : List UInt8, (NoBackslash t) → view w.toMem v = .str t →
      Holds ((w.setText new t).setStk p (enc (.obj new))) cs (upd vs p (.obj new)) ∧
      StringsUnshared ((w.setText new t).setStk p (enc (.obj new))).toMem (upd vs p (.obj new)) ∧
      view ((w.setText new t).setStk p (enc (.obj new))).toMem (.obj new) = view w.toMem v ∧
      (∀ q, q ≠ p → view ((w.setText new t).setStk p (enc (.obj new))).toMem (vs q) = view w.toMem (vs q)) ∧
      (∀ a, (((w.setText new t).setStk p (enc (.obj new))).obj a).typeId = T_STRING_SO →
        (∀ b, (w.obj b).typeId = T_STRING_SO → NoBackslash (w.obj b).text) →
        NoBackslash (((w.setText new t).setStk p (enc (.obj new))).obj a).text) ∧
      ((w.setText new t).setStk p (enc (.obj new))).hasSetter = w.hasSetter ∧
      (∀ a, a ≠ new → ¬ (vs p = .obj a ∧ (w.obj a).typeId = T_STRING_SO) →
        ((w.setText new t).setStk p (enc (.obj new))).obj a = w.obj a) := by
    intro t hnb ht
    refine ⟨?_, ?_, ?_, ?_, ?_, rfl, fun a hn _ => if_neg hn⟩
    · intro q
      rw [setStk_stk]
      by_cases hq : q = p
      · subst hq; rw [if_pos rfl, upd_self, hp]; rfl
      · rw [if_neg hq, upd_ne _ _ _ _ hq, setText_stk, h q]
    · intro q r a hq hr hty
      rw [setStk_obj, setText_obj] at hty
      by_cases hqp : q = p
      · subst hqp
        rw [upd_self] at hq
        by_cases hrp : r = q
        · exact hrp.symm
        · rw [upd_ne _ _ _ _ hrp] at hr
          cases hq; exact absurd hr (hnew.1 r)
      · by_cases hrp : r = p
        · subst hrp; rw [upd_self] at hr; rw [upd_ne _ _ _ _ hqp] at hq
          cases hr; exact absurd hq (hnew.1 q)
        · rw [upd_ne _ _ _ _ hqp] at hq; rw [upd_ne _ _ _ _ hrp] at hr
          have hne : a ≠ new := by rintro rfl; exact hnew.1 q hq
          rw [if_neg hne] at hty
          exact hsh q r a hq hr hty
    · rw [ht]
      simp only [view, setStk_obj, setText_obj, if_true]
    · intro q _
      apply view_congr
      intro a hqa
      have hne : a ≠ new := by rintro rfl; exact hnew.1 q hqa
      rw [setStk_obj, setText_obj, if_neg hne]
    · intro a hty hall
      rw [setStk_obj, setText_obj] at hty ⊢
      by_cases hne : a = new
      · rw [if_pos hne]; exact hnb
      · rw [if_neg hne] at hty ⊢; exact hall a hty
  -- the string object of the destination is reused
  have reuse : ∀ (b : Word) (t : List UInt8), vs p = .obj b → (w.obj b).typeId = T_STRING_SO → NoBackslash t →
      view w.toMem v = .str t →
      Holds (w.setText b t) cs (upd vs p (.obj b)) ∧
      StringsUnshared (w.setText b t).toMem (upd vs p (.obj b)) ∧
      view (w.setText b t).toMem (.obj b) = view w.toMem v ∧
      (∀ q, q ≠ p → view (w.setText b t).toMem (vs q) = view w.toMem (vs q)) ∧
      (∀ a, ((w.setText b t).obj a).typeId = T_STRING_SO →
        (∀ b, (w.obj b).typeId = T_STRING_SO → NoBackslash (w.obj b).text) →
        NoBackslash ((w.setText b t).obj a).text) ∧ (w.setText b t).hasSetter = w.hasSetter ∧
      (∀ a, a ≠ new → ¬ (vs p = .obj a ∧ (w.obj a).typeId = T_STRING_SO) → (w.setText b t).obj a = w.obj a) := by
    intro b t hpb hty hnb ht
    have hu : upd vs p (.obj b) = vs := by
      funext q
      by_cases hq : q = p
      · subst hq; rw [upd_self, hpb]
      · rw [upd_ne _ _ _ _ hq]
    rw [hu]
    refine ⟨h, ?_, ?_, ?_, ?_, rfl, fun a _ hn => if_neg (fun e => hn (by rw [e]; exact ⟨hpb, hty⟩))⟩
    · intro q r a hq hr ha'
      rw [setText_obj] at ha'
      by_cases hab : a = b
      · subst hab; exact hsh q r a hq hr hty
      · rw [if_neg hab] at ha'; exact hsh q r a hq hr ha'
    · rw [ht]; simp only [view, setText_obj, if_true]
    · intro q hq
      apply view_congr
      intro a hqa
      have hne : a ≠ b := by
        rintro rfl
        exact hq (hsh q p a hqa hpb hty)
      rw [setText_obj, if_neg hne]
    · intro a hty' hall
      rw [setText_obj] at hty' ⊢
      by_cases hne : a = b
      · rw [if_pos hne]; exact hnb
      · rw [if_neg hne] at hty' ⊢; exact hall a hty'
  cases v with
  | obj a =>
    simp only []
    by_cases hty : (w.obj a).typeId = T_STRING_SO
    · rw [if_pos hty]
      have hnb := hb a rfl hty
      have hview : view w.toMem (.obj a) = .str (w.obj a).text := by simp only [view, hty, if_true]
      rw [unescape_plain _ hnb]
      cases hu : vs p with
      | obj b =>
        simp only []
        by_cases hb' : (w.obj b).typeId = T_STRING_SO
        · rw [if_pos hb']
          have hr := reuse b _ hu hb' hnb hview
          rw [hu] at hr
          exact ⟨_, .obj b, rfl, fun a e => .inr (.inl e), hr⟩
        · rw [if_neg hb']
          have hr := fresh _ hnb hview
          rw [hu] at hr
          exact ⟨_, .obj new, rfl, fun a e => .inl (by cases e; rfl), hr⟩
      | _ =>
        have hr := fresh _ hnb hview
        rw [hu] at hr
        exact ⟨_, .obj new, rfl, fun a e => .inl (by cases e; rfl), hr⟩
    · rw [if_neg hty]
      by_cases hsame : (enc (vs p)).value = a
      · rw [if_pos hsame]
        have hpa := ha a rfl hsame
        have hu : upd vs p (.obj a) = vs := by
          funext q
          by_cases hq : q = p
          · subst hq; rw [upd_self, hpa]
          · rw [upd_ne _ _ _ _ hq]
        exact ⟨w, .obj a, rfl, fun a e => .inr (.inr e), by rw [hu]; exact h, by rw [hu]; exact hsh, rfl, fun _ _ => rfl,
          fun a ht hall => hall a ht, rfl, fun _ _ _ => rfl⟩
      · rw [if_neg hsame]
        exact ⟨_, .obj a, rfl, fun a e => .inr (.inr e), plain (.obj a) rfl (fun b e => by cases e; exact hty)⟩
  | fn f =>
    have hcf : c = false := by
      cases c
      · rfl
      · have := hc rfl; cases this
    subst hcf
    exact ⟨_, .fn f, rfl, fun a e => (by cases e), plain (.fn f) rfl (fun _ e => by cases e)⟩
  | type f =>
    have hcf : c = false := by
      cases c
      · rfl
      · have := hc rfl; cases this
    subst hcf
    exact ⟨_, .type f, rfl, fun a e => (by cases e), plain (.type f) rfl (fun _ e => by cases e)⟩
  | undef => exact ⟨_, .undef, rfl, fun a e => (by cases e), plain .undef rfl (fun _ e => by cases e)⟩
  | null => exact ⟨_, .null, rfl, fun a e => (by cases e), plain .null rfl (fun _ e => by cases e)⟩
  | int x => exact ⟨_, .int x, rfl, fun a e => (by cases e), plain (.int x) rfl (fun _ e => by cases e)⟩
  | flt x => exact ⟨_, .flt x, rfl, fun a e => (by cases e), plain (.flt x) rfl (fun _ e => by cases e)⟩
  | bool x => exact ⟨_, .bool x, rfl, fun a e => (by cases e), plain (.bool x) rfl (fun _ e => by cases e)⟩

/-- Assignment to a constant is a script error whatever is assigned. -/
theorem assign_const_error (w : World) (const : Bool) (new : Word) (rt : Word → List UInt8) (c : Bool) (u v : V) (p : Word)
    (hd : w.stk p = held true u) (hs : ∀ a, u = .obj a → w.hasSetter a = false) :
    storeOne w const new rt (held c v) ⟨p, P_PTR_STK⟩ = .err := by
  rw [storeOne_held w const new rt true c u v p hd hs]; rfl

theorem held_readOnly (v : V) : ({ enc v with props := (enc v).props ||| P_READ_ONLY } : Stk) = held true v := rfl

/-- The same as `assign_exact_partial` for a declaration `const p = e`: `p` shows the value and is constant. -/
theorem assign_decl_partial (w : World) (cs : Word → Bool) (vs : Word → V) (const : Bool) (new : Word)
    (rt : Word → List UInt8) (c : Bool) (v : V) (p : Word)
    (h : Holds w cs vs) (hsh : StringsUnshared w.toMem vs) (hnew : Unused vs new ∧ v ≠ .obj new)
    (hp : cs p = false) (hs : ∀ a, vs p = .obj a → w.hasSetter a = false)
    (hc : c = true → v.isCopyable)
    (hb : ∀ a, v = .obj a → (w.obj a).typeId = T_STRING_SO → NoBackslash (w.obj a).text)
    (ha : ∀ a, v = .obj a → (enc (vs p)).value = a → vs p = .obj a) :
    ∃ w' v', storeOne w const new rt (held c v) ⟨p, P_PTR_STK⟩ = .ok w' ∧
      Holds w' (upd cs p const) (upd vs p v') ∧ StringsUnshared w'.toMem (upd vs p v') ∧
      view w'.toMem v' = view w.toMem v ∧
      (∀ q, q ≠ p → view w'.toMem (vs q) = view w.toMem (vs q)) ∧
      (∀ a, (w'.obj a).typeId = T_STRING_SO → (∀ b, (w.obj b).typeId = T_STRING_SO → NoBackslash (w.obj b).text) →
        NoBackslash (w'.obj a).text) ∧ w'.hasSetter = w.hasSetter ∧
      (∀ a, a ≠ new → ¬ (vs p = .obj a ∧ (w.obj a).typeId = T_STRING_SO) → w'.obj a = w.obj a) := by
  obtain ⟨w', v', h1, -, h2, h3, h4⟩ := assign_exact_partial w cs vs new rt c v p h hsh hnew hp hs hc hb ha
  have hd : w.stk p = held false (vs p) := by rw [h p, hp]
  have hold : upd cs p false = cs := by
    funext q; by_cases hq : q = p
    · subst hq; rw [upd_self, hp]
    · rw [upd_ne _ _ _ _ hq]
  cases const with
  | false => exact ⟨w', v', h1, by rw [hold]; exact h2, h3, h4⟩
  | true =>
    rw [storeOne_held w false new rt false c (vs p) v p hd hs] at h1
    rw [storeOne_held w true new rt false c (vs p) v p hd hs]
    simp only [Bool.false_eq_true, if_false] at h1 ⊢
    cases hr : storeElem w new rt (held c v) p none with
    | ok w1 =>
      rw [hr] at h1
      simp only [SEff.ok.injEq] at h1
      subst h1
      refine ⟨_, v', rfl, ?_, h3, h4⟩
      intro q
      rw [setStk_stk]
      by_cases hq : q = p
      · subst hq
        rw [if_pos rfl, upd_self, upd_self]
        have := h2 q
        rw [upd_self, hp] at this
        rw [this]; exact held_readOnly v'
      · rw [if_neg hq, upd_ne _ _ _ _ hq, upd_ne _ _ _ _ hq]
        have := h2 q
        rwa [upd_ne _ _ _ _ hq] at this
    | char p c => rw [hr] at h1; cases h1
    | setter => rw [hr] at h1; cases h1
    | slot => rw [hr] at h1; cases h1
    | err => rw [hr] at h1; cases h1

/-! ## Histories of assignments -/

/-- Right side of an assignment: another variable or a literal. -/
inductive Src where
  | var (q : Word)
  | lit (v : V)

/-- An assignment or a constant declaration; `new` is the address the allocator would give. -/
structure Step where
  dst : Word
  src : Src
  const : Bool
  new : Word

/-- The element loaded for the right side (`LOAD_LOCAL`/`LOAD_GLOBAL` copy the variable's element,
`vm_script_function.cpp` 110-115). -/
def loaded (w : World) : Src → Stk
  | .var q => w.stk q
  | .lit v => enc v

/-- Execute a list of assignments. -/
def exec (rt : Word → List UInt8) (w : World) : List Step → SEff
  | [] => .ok w
  | s :: rest =>
    match storeOne w s.const s.new rt (loaded w s.src) ⟨s.dst, P_PTR_STK⟩ with
    | .ok w' => exec rt w' rest
    | e => e

/-- Specification: an environment of values and constant marks; `none` = script error. -/
def specRun (env : Word → D) (cs : Word → Bool) : List Step → Option ((Word → D) × (Word → Bool))
  | [] => some (env, cs)
  | s :: rest =>
    if cs s.dst then none
    else specRun (upd env s.dst (match s.src with | .var q => env q | .lit v => view noMem v)) (upd cs s.dst s.const) rest

/-- Side conditions of one assignment in the state it starts from. -/
def StepOK (cs : Word → Bool) (vs : Word → V) (s : Step) : Prop :=
  Unused vs s.new ∧
  (match s.src with
   | .var q => (cs q = true → (vs q).isCopyable) ∧ ∀ a, vs q = .obj a → (enc (vs s.dst)).value = a → vs s.dst = .obj a
   | .lit v => v.isObj = false)

/-- The side conditions hold along the execution. -/
def StepsOK (rt : Word → List UInt8) (w : World) : List Step → Prop
  | [] => True
  | s :: rest => (∀ cs vs, Holds w cs vs → StepOK cs vs s) ∧
      ∀ w', storeOne w s.const s.new rt (loaded w s.src) ⟨s.dst, P_PTR_STK⟩ = .ok w' → StepsOK rt w' rest

/-- State invariant. -/
structure Good (w : World) (cs : Word → Bool) (vs : Word → V) : Prop where
  holds : Holds w cs vs
  unshared : StringsUnshared w.toMem vs
  noSetter : ∀ a, w.hasSetter a = false
  noBackslash : ∀ b, (w.obj b).typeId = T_STRING_SO → NoBackslash (w.obj b).text

/-- Any sequence of assignments and constant declarations behaves like the environment specification: it
fails exactly when a constant is assigned, and otherwise every variable ends with the value the specification gives.
(Partial: see `StepOK` and `Good` for what is excluded.) -/
theorem history_exact_partial (rt : Word → List UInt8) (steps : List Step) (w : World) (cs : Word → Bool) (vs : Word → V)
    (hg : Good w cs vs) (hok : StepsOK rt w steps) :
    match specRun (fun p => view w.toMem (vs p)) cs steps with
    | none => exec rt w steps = .err
    | some (env', cs') => ∃ w' vs', exec rt w steps = .ok w' ∧ Good w' cs' vs' ∧ ∀ p, view w'.toMem (vs' p) = env' p := by
  induction steps generalizing w cs vs with
  | nil => exact ⟨w, vs, rfl, hg, fun _ => rfl⟩
  | cons s rest ih =>
    obtain ⟨hs1, hs2⟩ := hok
    have hs1 := hs1 cs vs hg.holds
    unfold specRun exec
    have hl : ∃ c v, loaded w s.src = held c v ∧ (c = true → v.isCopyable) ∧ v ≠ .obj s.new ∧
        (∀ a, v = .obj a → (enc (vs s.dst)).value = a → vs s.dst = .obj a) ∧
        view w.toMem v = (match s.src with | .var q => view w.toMem (vs q) | .lit v => view noMem v) := by
      cases hsrc : s.src with
      | var q =>
        have h2 := hs1.2
        rw [hsrc] at h2
        exact ⟨cs q, vs q, hg.holds q, h2.1, hs1.1 q, h2.2, rfl⟩
      | lit v =>
        have h2 := hs1.2
        rw [hsrc] at h2
        refine ⟨false, v, rfl, fun h => absurd h (by decide), ?_, ?_, ?_⟩
        · rintro rfl; cases h2
        · rintro a rfl; cases h2
        · cases v <;> first | rfl | cases h2
    obtain ⟨c, v, hl1, hl2, hl3, hl4, hl5⟩ := hl
    cases hcd : cs s.dst with
    | true =>
      simp only [if_true]
      rw [hl1, assign_const_error w s.const s.new rt c (vs s.dst) v s.dst (by rw [hg.holds, hcd])
        (fun a _ => hg.noSetter a)]
    | false =>
      simp only [Bool.false_eq_true, if_false]
      obtain ⟨w', v', e1, e2, e3, e4, e5, e6, e7, -⟩ := assign_decl_partial w cs vs s.const s.new rt c v s.dst hg.holds
        hg.unshared ⟨hs1.1, hl3⟩ hcd (fun a _ => hg.noSetter a) hl2 (fun a _ ht => hg.noBackslash a ht) hl4
      rw [← hl1] at e1
      rw [e1]
      simp only []
      have hg' : Good w' (upd cs s.dst s.const) (upd vs s.dst v') :=
        ⟨e2, e3, fun a => by rw [e7]; exact hg.noSetter a, fun b hb => e6 b hb hg.noBackslash⟩
      have := ih w' _ _ hg' (hs2 w' e1)
      have henv : (fun p => view w'.toMem (upd vs s.dst v' p)) =
          upd (fun p => view w.toMem (vs p)) s.dst
            (match s.src with | .var q => view w.toMem (vs q) | .lit v => view noMem v) := by
        funext q
        by_cases hq : q = s.dst
        · subst hq; rw [upd_self, upd_self, e4, hl5]
        · rw [upd_ne _ _ _ _ hq, upd_ne _ _ _ _ hq, e5 q hq]
      rw [henv] at this
      exact this

/-- The specification never changes a constant. -/
theorem specRun_const (steps : List Step) (env : Word → D) (cs : Word → Bool) (p : Word) (hp : cs p = true)
    (env' : Word → D) (cs' : Word → Bool) (h : specRun env cs steps = some (env', cs')) :
    env' p = env p ∧ cs' p = true := by
  induction steps generalizing env cs with
  | nil => cases h; exact ⟨rfl, hp⟩
  | cons s rest ih =>
    unfold specRun at h
    cases hcd : cs s.dst with
    | true => rw [hcd] at h; cases h
    | false =>
      rw [hcd] at h
      have hne : p ≠ s.dst := by rintro rfl; rw [hp] at hcd; cases hcd
      have := ih _ (upd cs s.dst s.const) (by rw [upd_ne _ _ _ _ hne]; exact hp) h
      rwa [upd_ne _ _ _ _ hne] at this

/-! ## C35 -/

/-- A constant keeps its value through every history of plain assignments and declarations, including text of
strings reached through other variables. -/
theorem const_immutable_partial (rt : Word → List UInt8) (steps : List Step) (w : World) (cs : Word → Bool) (vs : Word → V)
    (hg : Good w cs vs) (hok : StepsOK rt w steps) (p : Word) (hp : cs p = true) (w' : World)
    (he : exec rt w steps = .ok w') :
    ∃ v', w'.stk p = held true v' ∧ view w'.toMem v' = view w.toMem (vs p) := by
  have h := history_exact_partial rt steps w cs vs hg hok
  cases hs : specRun (fun p => view w.toMem (vs p)) cs steps with
  | none => rw [hs] at h; simp only [] at h; rw [he] at h; cases h
  | some r =>
    obtain ⟨env', cs'⟩ := r
    rw [hs] at h
    obtain ⟨w1, vs1, h1, h2, h3⟩ := h
    rw [he] at h1; cases h1
    obtain ⟨h4, h5⟩ := specRun_const steps _ cs p hp env' cs' hs
    exact ⟨vs1 p, by rw [h2.holds p, h5], by rw [h3, h4]⟩

/-- The full claim also covers compound assignment and increments: they must not change a constant. -/
def ConstUpdateRejected : Prop := ∀ (F : FloatOps) (m : Mem) (v e : V) (d r : Stk),
  (∀ op, assignOp F m op (held true v) (held false e) = .set d r → d = held true v) ∧
  (∀ op, incDec F op (held true v) = .set d r → d = held true v)

/-- `const a = 1; a += 2` leaves 3 in `a` (likewise `a++`). -/
theorem const_update_violated : ¬ ConstUpdateRejected := by
  intro h
  have := (h ieee noMem (.int 1) (.int 2) (held true (.int 3)) (enc (.int 3))).1 (.arith .add) rfl
  exact absurd this (by decide)

/-- Copying a constant function makes the destination constant as well: `const f = g; var h; h = f;` and then
`h = 1` is an error. -/
theorem const_function_spreads (w : World) (new : Word) (rt : Word → List UInt8) (p : Word) (f : Word)
    (hd : w.stk p = enc .undef) :
    ∃ w', storeOne w false new rt (held true (.fn f)) ⟨p, P_PTR_STK⟩ = .ok w' ∧
      storeOne w' false new rt (enc (.int 1)) ⟨p, P_PTR_STK⟩ = .err := by
  have hd' : w.stk p = held false .undef := hd
  refine ⟨w.setStk p (held true (.fn f)), ?_, ?_⟩
  · rw [storeOne_held w false new rt false true .undef (.fn f) p hd' (fun _ e => by cases e),
      storeElem_held w new rt false true .undef (.fn f) p hd' (fun _ => ⟨(by intro e; cases e), (by intro e; cases e)⟩)]
    rfl
  · exact assign_const_error _ false new rt false (.fn f) (.int 1) p (if_pos rfl) (fun _ e => by cases e)

/-- Assigning from a constant holding `undefined` fails. -/
theorem const_undefined_source_violated (w : World) (new : Word) (rt : Word → List UInt8) (p : Word)
    (hd : w.stk p = enc (.int 0)) :
    storeOne w false new rt (held true .undef) ⟨p, P_PTR_STK⟩ = .err := by
  have hd' : w.stk p = held false (.int 0) := hd
  rw [storeOne_held w false new rt false true _ .undef p hd' (fun _ e => by cases e)]
  have : storeElem w new rt (held true .undef) p none = .err := by
    unfold storeElem
    simp only [hd, isStr, held_props]
    simp +decide only [if_true, if_false, charPtr_held, isObjOf_held, V.isObjOf]
  rw [this]; rfl

/-! ## C31: multi-assignment -/

/-- How `l_0,…,l_{n-1} = r_0,…` pairs up: destination `i` receives value `i` (`undefined` if there are fewer
values; surplus values are ignored), last destination first. -/
theorem store_pairing (lefts rights : List Stk) :
    storePairs lefts.length (assignStack lefts rights) =
      (((List.range lefts.length).map fun i => (rights[i]?).getD mkUndefined).zip lefts).reverse := by
  unfold storePairs assignStack
  simp only []
  have hlen : (rights ++ List.replicate (max lefts.length rights.length - rights.length) mkUndefined).length =
      max lefts.length rights.length := by
    rw [List.length_append, List.length_replicate]; omega
  have hget : ((List.range lefts.length).map fun i => (rights[i]?).getD mkUndefined) =
      (rights ++ List.replicate (max lefts.length rights.length - rights.length) mkUndefined).take lefts.length := by
    apply List.ext_getElem
    · rw [List.length_map, List.length_range, List.length_take, hlen]; omega
    · intro i h1 h2
      rw [List.length_map, List.length_range] at h1
      simp only [List.getElem_map, List.getElem_range, List.getElem_take]
      by_cases hi : i < rights.length
      · rw [List.getElem_append_left hi, List.getElem?_eq_getElem hi]; rfl
      · rw [List.getElem_append_right (by omega), List.getElem?_eq_none (by omega), List.getElem_replicate]; rfl
  rw [hget]
  generalize hR : rights ++ List.replicate (max lefts.length rights.length - rights.length) mkUndefined = R at *
  have h1 : (R.reverse ++ lefts).length - 2 * lefts.length = R.length - lefts.length := by
    rw [List.length_append, List.length_reverse]; omega
  have hle : lefts.length ≤ R.length := by rw [hlen]; omega
  rw [h1, List.drop_append_of_le_length (by rw [List.length_reverse]; omega),
    List.take_append_of_le_length (by rw [List.length_drop, List.length_reverse]; omega),
    List.reverse_append, List.reverse_reverse, List.take_append_of_le_length (by rw [List.length_reverse]; omega),
    List.take_of_length_le (l := lefts.reverse) (by rw [List.length_reverse]; omega)]
  rw [List.drop_reverse, List.take_of_length_le (by rw [List.length_reverse, List.length_take]; omega)]
  have : R.length - (R.length - lefts.length) = lefts.length := by omega
  rw [this]
  rw [List.zip, ← List.reverse_zipWith]
  rw [List.length_take]; omega

/-- One multi-assignment step list: allocator addresses with the pairs. -/
def multiSteps (news : List Word) (ps : List Word) (rs : List Stk) : List (Word × Stk × Stk) :=
  news.zip (storePairs ps.length (assignStack (ps.map fun p => ⟨p, P_PTR_STK⟩) rs))

/-- The stores of a list of independent assignments. -/
theorem storeMany_independent (rt : Word → List UInt8) (L : List (Word × Bool × V × Word)) (w : World) (cs : Word → Bool)
    (vs : Word → V) (hg : Good w cs vs)
    (hnd : (L.map fun x => x.2.2.2).Nodup) (hnew : (L.map fun x => x.1).Nodup)
    (hun : ∀ x ∈ L, Unused vs x.1 ∧ ∀ y ∈ L, y.2.2.1 ≠ .obj x.1)
    (hp : ∀ x ∈ L, cs x.2.2.2 = false)
    (hc : ∀ x ∈ L, x.2.1 = true → x.2.2.1.isCopyable)
    (ha : ∀ x ∈ L, ∀ a, x.2.2.1 = .obj a → (enc (vs x.2.2.2)).value = a → vs x.2.2.2 = .obj a)
    (hal : ∀ x ∈ L, ∀ y ∈ L, ∀ a, x.2.2.1 = .obj a → vs y.2.2.2 = .obj a → (w.obj a).typeId ≠ T_STRING_SO) :
    ∃ w' vs', storeMany w false rt (L.map fun x => (x.1, held x.2.1 x.2.2.1, ⟨x.2.2.2, P_PTR_STK⟩)) = .ok w' ∧
      Good w' cs vs' ∧ (∀ x ∈ L, view w'.toMem (vs' x.2.2.2) = view w.toMem x.2.2.1) ∧
      (∀ q, q ∉ L.map (fun x => x.2.2.2) → view w'.toMem (vs' q) = view w.toMem (vs q)) := by
  induction L generalizing w vs with
  | nil => exact ⟨w, vs, rfl, hg, by simp, fun _ _ => rfl⟩
  | cons x L ih =>
    obtain ⟨new, c, v, p⟩ := x
    have mem0 : ((new, c, v, p) : Word × Bool × V × Word) ∈ (new, c, v, p) :: L := List.mem_cons_self ..
    obtain ⟨w1, v1, e1, e0, e2, e3, e4, e5, e6, e7, e8⟩ := assign_exact_partial w cs vs new rt c v p hg.holds hg.unshared
      ⟨(hun _ mem0).1, (hun _ mem0).2 _ mem0⟩ (hp _ mem0) (fun a _ => hg.noSetter a) (hc _ mem0)
      (fun a _ ht => hg.noBackslash a ht) (ha _ mem0)
    have hg1 : Good w1 cs (upd vs p v1) :=
      ⟨e2, e3, fun a => by rw [e7]; exact hg.noSetter a, fun b hb => e6 b hb hg.noBackslash⟩
    rw [List.map_cons, List.nodup_cons] at hnd hnew
    have hne : ∀ y ∈ L, y.2.2.2 ≠ p := fun y hy e => hnd.1 (List.mem_map.mpr ⟨y, hy, e⟩)
    have hvs : ∀ y ∈ L, upd vs p v1 y.2.2.2 = vs y.2.2.2 := fun y hy => upd_ne _ _ _ _ (hne y hy)
    have hmem : ∀ y ∈ L, y ∈ (new, c, v, p) :: L := fun y hy => List.mem_cons_of_mem _ hy
    have hnn : ∀ y ∈ L, y.1 ≠ new := fun y hy e => hnew.1 (List.mem_map.mpr ⟨y, hy, e⟩)
    -- the sources still to be stored are untouched
    have hsrc : ∀ y ∈ L, ∀ a, y.2.2.1 = .obj a → w1.obj a = w.obj a := by
      intro y hy a hya
      apply e8 a
      · rintro rfl; exact (hun _ mem0).2 y (hmem y hy) hya
      · rintro ⟨h1, h2⟩; exact hal y (hmem y hy) _ mem0 a hya h1 h2
    obtain ⟨w2, vs2, f1, f2, f3, f4⟩ := ih w1 (upd vs p v1) hg1 hnd.2 hnew.2
      (by
        intro y hy
        refine ⟨?_, fun z hz => (hun y (hmem y hy)).2 z (hmem z hz)⟩
        intro q hq
        by_cases hqp : q = p
        · subst hqp
          rw [upd_self] at hq
          rcases e0 _ hq with h1 | h1 | h1
          · exact hnn y hy h1
          · exact (hun y (hmem y hy)).1 q h1
          · exact (hun y (hmem y hy)).2 _ mem0 h1
        · rw [upd_ne _ _ _ _ hqp] at hq
          exact (hun y (hmem y hy)).1 q hq)
      (fun y hy => hp y (hmem y hy)) (fun y hy => hc y (hmem y hy))
      (fun y hy a h1 h2 => by rw [hvs y hy] at h2 ⊢; exact ha y (hmem y hy) a h1 h2)
      (fun y hy z hz a h1 h2 => by
        rw [hvs z hz] at h2
        rw [hsrc y hy a h1]
        exact hal y (hmem y hy) z (hmem z hz) a h1 h2)
    refine ⟨w2, vs2, ?_, f2, ?_, ?_⟩
    · rw [List.map_cons]
      unfold storeMany
      rw [e1]
      exact f1
    · intro y hy
      rcases List.mem_cons.mp hy with rfl | hy
      · rw [f4 p hnd.1, upd_self, e4]
      · rw [f3 y hy]
        exact view_congr _ _ _ (hsrc y hy)
    · intro q hq
      rw [List.map_cons, List.mem_cons, not_or] at hq
      rw [f4 q hq.2, upd_ne _ _ _ _ hq.1, e5 q hq.1]

/-- `p_0, …, p_{n-1} = r_0, …, r_{m-1}`: all the right sides are taken before any store, `p_i` gets `r_i`
(`undefined` for a missing one), and no other variable changes. `news` are the addresses the allocator gives.
(Partial: the destinations are distinct plain variables, and no right side is a string object held by one of the
destinations; `swap_violated` shows why that is needed.) -/
theorem multi_assign_partial (rt : Word → List UInt8) (w : World) (cs : Word → Bool) (vs : Word → V) (hg : Good w cs vs)
    (ps : List Word) (rs : List (Bool × V)) (news : List Word) (hlen : news.length = ps.length)
    (hnd : ps.Nodup) (hnew : news.Nodup)
    (hun : ∀ n ∈ news, Unused vs n ∧ ∀ r ∈ rs, r.2 ≠ .obj n)
    (hp : ∀ p ∈ ps, cs p = false)
    (hc : ∀ r ∈ rs, r.1 = true → r.2.isCopyable)
    (ha : ∀ r ∈ rs, ∀ p ∈ ps, ∀ a, r.2 = .obj a → (enc (vs p)).value = a → vs p = .obj a)
    (hal : ∀ r ∈ rs, ∀ p ∈ ps, ∀ a, r.2 = .obj a → vs p = .obj a → (w.obj a).typeId ≠ T_STRING_SO) :
    ∃ w' vs', storeMany w false rt (multiSteps news ps (rs.map fun r => held r.1 r.2)) = .ok w' ∧ Good w' cs vs' ∧
      (∀ i (hi : i < ps.length), view w'.toMem (vs' ps[i]) = ((rs[i]?).map fun r => view w.toMem r.2).getD .undef) ∧
      (∀ q, q ∉ ps → view w'.toMem (vs' q) = view w.toMem (vs q)) := by
  let vals : List (Bool × V) := (List.range ps.length).map fun i => (rs[i]?).getD (false, .undef)
  let L : List (Word × Bool × V × Word) := (news.zip (vals.zip ps).reverse).map fun x => (x.1, x.2.1.1, x.2.1.2, x.2.2)
  have hvl : vals.length = ps.length := by simp [vals]
  have hzl : (vals.zip ps).length = ps.length := by rw [List.length_zip, hvl]; omega
  have hvalmem : ∀ r ∈ vals, r ∈ rs ∨ r = (false, .undef) := by
    intro r hr
    obtain ⟨i, -, rfl⟩ := List.mem_map.mp hr
    by_cases h : i < rs.length
    · rw [List.getElem?_eq_getElem h]; exact .inl (List.getElem_mem h)
    · rw [List.getElem?_eq_none (by omega)]; exact .inr rfl
  have hL : multiSteps news ps (rs.map fun r => held r.1 r.2) =
      L.map fun x => (x.1, held x.2.1 x.2.2.1, ⟨x.2.2.2, P_PTR_STK⟩) := by
    unfold multiSteps
    have h1 := store_pairing (ps.map fun p => (⟨p, P_PTR_STK⟩ : Stk)) (rs.map fun r => held r.1 r.2)
    rw [List.length_map] at h1
    rw [h1]
    have h2 : ((List.range ps.length).map fun i => ((rs.map fun r => held r.1 r.2)[i]?).getD mkUndefined) =
        vals.map fun r => held r.1 r.2 := by
      rw [List.map_map]
      apply List.map_congr_left
      intro i _
      rw [List.getElem?_map]
      simp only [Function.comp]
      cases rs[i]? with
      | none => rfl
      | some r => rfl
    rw [h2, List.zip_map, ← List.map_reverse, List.zip_map_right]
    simp only [L, List.map_map]
    rfl
  have hLmem : ∀ x ∈ L, x.1 ∈ news ∧ (x.2.1, x.2.2.1) ∈ vals ∧ x.2.2.2 ∈ ps := by
    intro x hx
    obtain ⟨y, hy, rfl⟩ := List.mem_map.mp hx
    obtain ⟨n, r, q⟩ := y
    have h1 := List.of_mem_zip hy
    have h2 := List.of_mem_zip (List.mem_reverse.mp h1.2)
    exact ⟨h1.1, h2.1, h2.2⟩
  have hLp : L.map (fun x => x.2.2.2) = ps.reverse := by
    have : L.map (fun x => x.2.2.2) = ((news.zip (vals.zip ps).reverse).map Prod.snd).map Prod.snd := by
      simp only [L, List.map_map]; rfl
    rw [this, List.map_snd_zip (by rw [List.length_reverse, hzl]; omega), List.map_reverse, List.map_snd_zip (by omega)]
  have hLn : L.map (fun x => x.1) = news := by
    have : L.map (fun x => x.1) = (news.zip (vals.zip ps).reverse).map Prod.fst := by
      simp only [L, List.map_map]; rfl
    rw [this, List.map_fst_zip (by rw [List.length_reverse, hzl]; omega)]
  obtain ⟨w', vs', h1, h2, h3, h4⟩ := storeMany_independent rt L w cs vs hg
    (by rw [hLp]; exact List.pairwise_reverse.mpr (hnd.imp Ne.symm)) (by rw [hLn]; exact hnew)
    (by
      intro x hx
      refine ⟨(hun _ (hLmem x hx).1).1, fun y hy => ?_⟩
      rcases hvalmem _ (hLmem y hy).2.1 with h | h
      · exact (hun _ (hLmem x hx).1).2 _ h
      · have : y.2.2.1 = .undef := congrArg Prod.snd h
        rw [this]; exact fun e => by cases e)
    (fun x hx => hp _ (hLmem x hx).2.2)
    (by
      intro x hx
      rcases hvalmem _ (hLmem x hx).2.1 with h | h
      · exact hc _ h
      · have : x.2.1 = false := congrArg Prod.fst h
        rw [this]; exact fun e => by cases e)
    (by
      intro x hx
      rcases hvalmem _ (hLmem x hx).2.1 with h | h
      · exact ha _ h _ (hLmem x hx).2.2
      · have : x.2.2.1 = .undef := congrArg Prod.snd h
        rw [this]; exact fun a e => by cases e)
    (by
      intro x hx y hy
      rcases hvalmem _ (hLmem x hx).2.1 with h | h
      · exact hal _ h _ (hLmem y hy).2.2
      · have : x.2.2.1 = .undef := congrArg Prod.snd h
        rw [this]; exact fun a e => by cases e)
  refine ⟨w', vs', by rw [hL]; exact h1, h2, ?_, ?_⟩
  · intro i hi
    have hmem : ((rs[i]?).getD (false, .undef), ps[i]) ∈ (vals.zip ps).reverse := by
      rw [List.mem_reverse]
      refine List.mem_iff_getElem.mpr ⟨i, by rw [hzl]; exact hi, ?_⟩
      rw [List.getElem_zip]
      simp only [vals, List.getElem_map, List.getElem_range]
    obtain ⟨j, hj, hje⟩ := List.mem_iff_getElem.mp hmem
    have hjn : j < news.length := by rw [List.length_reverse, hzl] at hj; omega
    have hx : (news[j], ((rs[i]?).getD (false, .undef)).1, ((rs[i]?).getD (false, .undef)).2, ps[i]) ∈ L := by
      refine List.mem_map.mpr ⟨(news[j], (vals.zip ps).reverse[j]), ?_, ?_⟩
      · refine List.mem_iff_getElem.mpr ⟨j, by rw [List.length_zip]; omega, ?_⟩
        rw [List.getElem_zip]
      · rw [hje]
    have := h3 _ hx
    simp only [] at this
    rw [this]
    cases rs[i]? with
    | none => rfl
    | some r => rfl
  · intro q hq
    apply h4
    rw [hLp, List.mem_reverse]
    exact hq

/-! ## Concrete states -/

/-- Variables 10 and 20 hold the strings "a" and "b", 30 is the constant 7, all others are `undefined`. -/
def exVals : Word → V := fun p => if p = 10 then .obj 100 else if p = 20 then .obj 200 else if p = 30 then .int 7 else .undef
def exConst : Word → Bool := fun p => p == 30
def exWorld : World where
  obj a := if a = 100 then ⟨T_STRING_SO, [97]⟩ else if a = 200 then ⟨T_STRING_SO, [98]⟩ else ⟨T_ARRAY_SO, []⟩
  stk p := held (exConst p) (exVals p)
  slot _ := 0
  refStk _ := 0
  slotPtr _ := 0
  hasSetter _ := false

theorem exVals_obj (p a : Word) (h : exVals p = .obj a) : (p = 10 ∧ a = 100) ∨ (p = 20 ∧ a = 200) := by
  unfold exVals at h
  split at h
  · cases h; exact .inl ⟨by assumption, rfl⟩
  · split at h
    · cases h; exact .inr ⟨by assumption, rfl⟩
    · split at h <;> cases h

theorem exGood : Good exWorld exConst exVals where
  holds _ := rfl
  unshared p q a hp hq _ := by
    rcases exVals_obj p a hp with ⟨rfl, rfl⟩ | ⟨rfl, rfl⟩ <;>
      rcases exVals_obj q _ hq with ⟨rfl, h⟩ | ⟨rfl, h⟩ <;> first | rfl | (exact absurd h (by decide))
  noSetter _ := rfl
  noBackslash b h := by
    unfold NoBackslash exWorld
    simp only []
    split
    · decide
    · split
      · decide
      · decide

theorem exUnused : Unused exVals 300 := by
  intro p h
  rcases exVals_obj p _ h with ⟨-, h⟩ | ⟨-, h⟩ <;> exact absurd h (by decide)

-- `assign_exact_partial`: variable 40 receives the string of variable 10
example : ∃ w' v', storeOne exWorld false 300 (fun _ => []) (held false (.obj 100)) ⟨40, P_PTR_STK⟩ = .ok w' ∧
    w'.stk 40 = enc v' ∧ view w'.toMem v' = .str [97] := by
  obtain ⟨w', v', h1, -, h2, -, h3, -⟩ := assign_exact_partial exWorld exConst exVals 300 (fun _ => []) false (.obj 100) 40
    exGood.holds exGood.unshared ⟨exUnused, by decide⟩ rfl (fun _ _ => rfl) (fun h => by cases h)
    (fun a e _ => by cases e; show NoBackslash [97]; unfold NoBackslash; decide) (fun a e h => by cases e; exact absurd h (by decide))
  refine ⟨w', v', h1, ?_, h3⟩
  have := h2 40
  rw [upd_self] at this
  exact this

-- `history_exact_partial`: x40 = x10; const x50 = x30; x10 = 5
def exSteps : List Step := [⟨40, .var 10, false, 300⟩, ⟨50, .var 30, true, 301⟩, ⟨10, .lit (.int 5), false, 302⟩]

/-- `Holds` determines the values. -/
theorem held_inj (c c' : Bool) (v v' : V) (h : held c v = held c' v') : c = c' ∧ v = v' := by
  have hp : (held c v).props = (held c' v').props := by rw [h]
  have hv : (held c v).value = (held c' v').value := by rw [h]
  rw [held_props, held_props] at hp
  rw [held_value, held_value] at hv
  revert hp hv
  cases c <;> cases c' <;> cases v <;> cases v' <;>
    simp only [if_true, if_false, Bool.false_eq_true, true_and] <;> intro hp hv <;>
    first
      | exact absurd hp (by decide)
      | trivial
      | (cases hv; rfl)
      | (rename_i a b; cases a <;> cases b <;> first | rfl | exact absurd hv (by decide))

theorem holds_unique (w : World) (cs cs' : Word → Bool) (vs vs' : Word → V) (h : Holds w cs vs) (h' : Holds w cs' vs') :
    cs' = cs ∧ vs' = vs := by
  constructor
  · funext p; exact (held_inj _ _ _ _ ((h' p).symm.trans (h p))).1
  · funext p; exact (held_inj _ _ _ _ ((h' p).symm.trans (h p))).2

/-- Establish the side conditions step by step. -/
theorem stepsOK_cons (rt : Word → List UInt8) (w w' : World) (cs : Word → Bool) (vs : Word → V) (s : Step) (rest : List Step)
    (h : Holds w cs vs) (hs : StepOK cs vs s)
    (hr : storeOne w s.const s.new rt (loaded w s.src) ⟨s.dst, P_PTR_STK⟩ = .ok w')
    (hrest : StepsOK rt w' rest) : StepsOK rt w (s :: rest) := by
  refine ⟨fun cs' vs' h' => ?_, fun w1 h1 => ?_⟩
  · obtain ⟨rfl, rfl⟩ := holds_unique w cs cs' vs vs' h h'
    exact hs
  · rw [hr] at h1; cases h1; exact hrest

example : StepsOK (fun _ => []) exWorld exSteps := by
  refine stepsOK_cons _ _ ((exWorld.setText 300 [97]).setStk 40 (enc (.obj 300))) exConst exVals _ _ exGood.holds
    ⟨exUnused, ⟨(fun h => by cases h), (fun a h1 h2 => ?_)⟩⟩ rfl ?_
  · rcases exVals_obj _ a h1 with ⟨-, rfl⟩ | ⟨h, -⟩
    · exact absurd h2 (by decide)
    · exact absurd h (by decide)
  have hold1 : Holds ((exWorld.setText 300 [97]).setStk 40 (enc (.obj 300))) exConst (upd exVals 40 (.obj 300)) := by
    intro p
    rw [setStk_stk]
    by_cases h : p = 40
    · subst h; rw [if_pos rfl, upd_self]; rfl
    · rw [if_neg h, upd_ne _ _ _ _ h]; rfl
  have hunused (n : Word) (hn : n ≠ 100 ∧ n ≠ 200 ∧ n ≠ 300) : Unused (upd exVals 40 (.obj 300)) n := by
    intro p h
    by_cases hp : p = 40
    · subst hp; rw [upd_self] at h; cases h; exact hn.2.2 rfl
    · rw [upd_ne _ _ _ _ hp] at h
      rcases exVals_obj p _ h with ⟨-, h⟩ | ⟨-, h⟩
      · exact hn.1 h
      · exact hn.2.1 h
  refine stepsOK_cons _ _ _ exConst _ _ _ hold1 ⟨hunused 301 (by decide), ⟨(fun _ => rfl), (fun a h1 _ => by cases h1)⟩⟩ rfl ?_
  refine stepsOK_cons _ _ _ (upd exConst 50 true) (upd (upd exVals 40 (.obj 300)) 50 (.int 7)) _ _ ?_ ⟨?_, rfl⟩ rfl trivial
  · intro p
    by_cases h : p = 50
    · subst h; rfl
    · rw [upd_ne _ _ _ _ h, upd_ne _ _ _ _ h, ← hold1 p]
      exact (if_neg h).trans (if_neg h)
  · intro p h
    by_cases hp : p = 50
    · subst hp; rw [upd_self] at h; cases h
    · rw [upd_ne _ _ _ _ hp] at h; exact hunused 302 (by decide) p h

-- `const_function_spreads`, `const_undefined_source_violated`: such variables exist
example : exWorld.stk 40 = enc .undef := rfl
example : (exWorld.setStk 40 (enc (.int 0))).stk 40 = enc (.int 0) := rfl

-- `multi_assign_partial`: x40, x50, x60 = x10, x30 (the third receives `undefined`)
example : ∃ w' vs', storeMany exWorld false (fun _ => []) (multiSteps [300, 301, 302] [40, 50, 60]
      ([(false, .obj 100), (true, .int 7)].map fun r => held r.1 r.2)) = .ok w' ∧ Good w' exConst vs' ∧
    view w'.toMem (vs' 40) = .str [97] ∧ view w'.toMem (vs' 50) = .int 7 ∧ view w'.toMem (vs' 60) = .undef := by
  obtain ⟨w', vs', h1, h2, h3, -⟩ := multi_assign_partial (fun _ => []) exWorld exConst exVals exGood [40, 50, 60]
    [(false, .obj 100), (true, .int 7)] [300, 301, 302] rfl (by decide) (by decide)
    (by
      intro n hn
      have : n ≠ 100 ∧ n ≠ 200 := by
        simp only [List.mem_cons, List.not_mem_nil, or_false] at hn
        rcases hn with rfl | rfl | rfl <;> decide
      refine ⟨fun p h => ?_, ?_⟩
      · rcases exVals_obj p _ h with ⟨-, h⟩ | ⟨-, h⟩
        · exact this.1 h
        · exact this.2 h
      · intro r hr e
        simp only [List.mem_cons, List.not_mem_nil, or_false] at hr
        rcases hr with rfl | rfl
        · cases e; exact this.1 rfl
        · cases e)
    (by
      intro p hp
      simp only [List.mem_cons, List.not_mem_nil, or_false] at hp
      rcases hp with rfl | rfl | rfl <;> rfl)
    (by
      intro r hr
      simp only [List.mem_cons, List.not_mem_nil, or_false] at hr
      rcases hr with rfl | rfl <;> exact fun _ => rfl)
    (by
      intro r hr p hp a e h
      exfalso
      simp only [List.mem_cons, List.not_mem_nil, or_false] at hr hp
      rcases hr with rfl | rfl
      · cases e; rcases hp with rfl | rfl | rfl <;> exact absurd h (by decide)
      · cases e)
    (by
      intro r hr p hp a e h
      exfalso
      simp only [List.mem_cons, List.not_mem_nil, or_false] at hp
      rcases hp with rfl | rfl | rfl <;> exact absurd h (by intro h; cases h))
  exact ⟨w', vs', h1, h2, h3 0 (by decide), h3 1 (by decide), h3 2 (by decide)⟩

/-! ## Swapping -/

/-- `p, q = q, p` exchanges the values of two variables. -/
def SwapExact : Prop := ∀ (rt : Word → List UInt8) (w : World) (cs : Word → Bool) (vs : Word → V), Good w cs vs →
  ∀ p q n1 n2, p ≠ q → cs p = false → cs q = false → Unused vs n1 → Unused vs n2 → n1 ≠ n2 →
    ∃ w' vs', storeMany w false rt (multiSteps [n1, n2] [p, q] [w.stk q, w.stk p]) = .ok w' ∧ Holds w' cs vs' ∧
      view w'.toMem (vs' p) = view w.toMem (vs q) ∧ view w'.toMem (vs' q) = view w.toMem (vs p)

/-- It does not when both hold strings: the store overwrites the text of the string object that is still to be read. -/
theorem swap_violated : ¬ SwapExact := by
  intro h
  have hu (n : Word) (hn : n ≠ 100 ∧ n ≠ 200) : Unused exVals n := by
    intro p h
    rcases exVals_obj p _ h with ⟨-, h⟩ | ⟨-, h⟩
    · exact hn.1 h
    · exact hn.2 h
  obtain ⟨w', vs', h1, h2, h3, -⟩ := h (fun _ => []) exWorld exConst exVals exGood 10 20 300 301 (by decide) rfl rfl
    (hu 300 (by decide)) (hu 301 (by decide)) (by decide)
  have hr : storeMany exWorld false (fun _ => []) (multiSteps [300, 301] [10, 20] [exWorld.stk 20, exWorld.stk 10]) =
      .ok ((exWorld.setText 200 [97]).setText 100 [97]) := rfl
  rw [hr] at h1
  cases h1
  have h4 := h2 10
  have h5 : vs' 10 = .obj 100 := (held_inj _ _ _ _ (h4.symm.trans (rfl : _ = held false (.obj 100)))).2
  rw [h5] at h3
  exact absurd h3 (by decide)

/-- It does for values that are not strings. -/
theorem swap_partial (rt : Word → List UInt8) (w : World) (cs : Word → Bool) (vs : Word → V) (hg : Good w cs vs)
    (p q n1 n2 : Word) (hpq : p ≠ q) (hcp : cs p = false) (hcq : cs q = false) (hn : n1 ≠ n2)
    (hu1 : Unused vs n1) (hu2 : Unused vs n2)
    (hs : ∀ x ∈ [p, q], ∀ a, vs x = .obj a → (w.obj a).typeId ≠ T_STRING_SO)
    (ha : ∀ x ∈ [p, q], ∀ y ∈ [p, q], ∀ a, vs x = .obj a → (enc (vs y)).value = a → vs y = .obj a) :
    ∃ w' vs', storeMany w false rt (multiSteps [n1, n2] [p, q] [w.stk q, w.stk p]) = .ok w' ∧ Good w' cs vs' ∧
      view w'.toMem (vs' p) = view w.toMem (vs q) ∧ view w'.toMem (vs' q) = view w.toMem (vs p) := by
  have hrs : [w.stk q, w.stk p] = [(false, vs q), (false, vs p)].map fun r => held r.1 r.2 := by
    simp only [List.map, hg.holds q, hg.holds p, hcp, hcq]
  rw [hrs]
  obtain ⟨w', vs', h1, h2, h3, -⟩ := multi_assign_partial rt w cs vs hg [p, q] [(false, vs q), (false, vs p)] [n1, n2] rfl
    (by simp [hpq]) (by simp [hn])
    (by
      intro n hn
      simp only [List.mem_cons, List.not_mem_nil, or_false] at hn
      have : Unused vs n := by rcases hn with rfl | rfl <;> assumption
      refine ⟨this, fun r hr => ?_⟩
      simp only [List.mem_cons, List.not_mem_nil, or_false] at hr
      rcases hr with rfl | rfl <;> exact this _)
    (by
      intro x hx
      simp only [List.mem_cons, List.not_mem_nil, or_false] at hx
      rcases hx with rfl | rfl <;> assumption)
    (by
      intro r hr
      simp only [List.mem_cons, List.not_mem_nil, or_false] at hr
      rcases hr with rfl | rfl <;> exact fun e => by cases e)
    (by
      intro r hr
      simp only [List.mem_cons, List.not_mem_nil, or_false] at hr
      rcases hr with rfl | rfl
      · exact ha q (by simp)
      · exact ha p (by simp))
    (by
      intro r hr x hx a e _
      simp only [List.mem_cons, List.not_mem_nil, or_false] at hr
      rcases hr with rfl | rfl
      · exact hs q (by simp) a e
      · exact hs p (by simp) a e)
  exact ⟨w', vs', h1, h2, h3 0 (by simp), h3 1 (by simp)⟩

/-- With `ref` parameters even integers are not exchanged: a parameter declared `ref` is loaded as a pointer to the
caller's variable and read only when stored. Locals 1 and 2 refer to the variables 10 and 20 holding 5 and 6;
after `a, b = b, a` both hold 5. -/
theorem ref_swap_violated : ∃ (w w' : World), w.stk 10 = enc (.int 5) ∧ w.stk 20 = enc (.int 6) ∧
    storeMany w false (fun _ => []) (multiSteps [300, 301] [10, 20] [⟨20, P_PTR_STK⟩, ⟨10, P_PTR_STK⟩]) = .ok w' ∧
    w'.stk 10 = enc (.int 5) ∧ w'.stk 20 = enc (.int 5) := by
  refine ⟨(exWorld.setStk 10 (enc (.int 5))).setStk 20 (enc (.int 6)), _, rfl, rfl, rfl, rfl, rfl⟩

end Verif.Vm
