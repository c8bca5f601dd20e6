import Verif.Vm.BridgeSpec
import Verif.Base.StrLemmas
/-
Lemmas for C104, C105 and C106.
-/
namespace Verif.Vm.Bridge
open Verif Verif.Vm.Native

/-- How an element that came from the host is made, with the type it can be taken as and what is then seen. -/
inductive Held (σ : St) : Stk → Nat → Seen → Prop where
  | int (w : Word) : Held σ ⟨w, P_INT⟩ T_INT (.int w)
  | intPtr (w : Word) : Held σ ⟨w, P_INT⟩ T_INT_PTR (.int w)
  | float (w : Word) : Held σ ⟨w, P_FLOAT⟩ T_FLOAT (.float w)
  | floatPtr (w : Word) : Held σ ⟨w, P_FLOAT⟩ T_FLOAT_PTR (.float w)
  | truth (b : Bool) : Held σ ⟨if b then 1 else 0, P_BOOL⟩ T_BOOL (.truth b)
  | truthPtr (b : Bool) : Held σ ⟨if b then 1 else 0, P_BOOL⟩ T_BOOL_PTR (.truth b)
  | null (t : Nat) (ht : t = 6 ∨ t = 14 ∨ 16 ≤ t) : Held σ ⟨0, P_NULL⟩ t .nothing
  | text (a : Word) (o : Obj) (t : Nat) (ha : a ≠ 0) (alive : σ.obj a = some o) (str : o.typeId = T_STRING_SO)
      (own : o.strPtr = none) (ht : t = T_CONST_CHAR_PTR ∨ t = T_STRING) : Held σ ⟨a, P_OBJECT⟩ t (.text o.text)
  | script (a : Word) (o : Obj) (ha : a ≠ 0) (alive : σ.obj a = some o) (lo : 20 ≤ o.typeId) (hi : o.typeId < 26) :
      Held σ ⟨a, P_OBJECT⟩ o.typeId (.object a)
  | cls (a : Word) (o : Obj) (ha : a ≠ 0) (alive : σ.obj a = some o) (lo : 26 < o.typeId) :
      Held σ ⟨a, P_OBJECT⟩ T_CLASS_SO (.object a)
  | native (a : Word) (o : Obj) (ha : a ≠ 0) (alive : σ.obj a = some o) (lo : 26 < o.typeId) (hc : o.cObject ≠ 0)
      (nb : o.byCtor = false) : Held σ ⟨a, P_OBJECT⟩ o.typeId (.object o.cObject)

theorem deref_plain (m : Mem) (w : Word) (p : Props) (h : has p P_PTR_STK = false) : deref m ⟨w, p⟩ = ⟨w, p⟩ := by
  unfold deref; simp [h]

/-- An element that is held is taken as what it is. -/
theorem held_take {σ : St} {s : Stk} {t : Nat} {w : Seen} (h : Held σ s t w) (lcl : Bool)
    (hl : lcl = true → t ≠ T_INT_PTR ∧ t ≠ T_FLOAT_PTR ∧ t ≠ T_BOOL_PTR) : takeWith σ lcl s t = .ok w := by
  cases h with
  | int w =>
    have hd : deadObject σ ⟨w, P_INT⟩ = false := by
      unfold deadObject; rw [deref_plain _ _ _ (by decide)]; simp [has, P_INT, P_ANY_OBJECT, P_OBJECT, P_CONTAINER_SLOT, P_OBJECT_IN_CONTAINER]
    unfold takeWith; rw [hd]
    simp only [Bool.false_and, Bool.false_eq_true, if_false, convert]
    rw [deref_plain _ _ _ (by decide)]
    simp [convVal, kind, P_OBJECT, P_NULL, P_BOOL, P_FLOAT, P_INT, P_FUNCTION, T_STACK_ELEMENT, T_INT, T_INT_PTR, T_FLOAT,
      T_FLOAT_PTR, T_BOOL, T_BOOL_PTR, T_STRING, Out.bind, readConv]
  | intPtr w =>
    have hl' : lcl = false := by cases lcl with | false => rfl | true => exact absurd rfl (hl rfl).1
    subst hl'
    have hd : deadObject σ ⟨w, P_INT⟩ = false := by
      unfold deadObject; rw [deref_plain _ _ _ (by decide)]; simp [has, P_INT, P_ANY_OBJECT, P_OBJECT, P_CONTAINER_SLOT, P_OBJECT_IN_CONTAINER]
    unfold takeWith; rw [hd]
    simp only [Bool.false_and, Bool.false_eq_true, if_false, convert]
    rw [deref_plain _ _ _ (by decide)]
    simp [convVal, kind, P_OBJECT, P_NULL, P_BOOL, P_FLOAT, P_INT, P_FUNCTION, T_STACK_ELEMENT, T_INT, T_INT_PTR, T_FLOAT,
      T_FLOAT_PTR, T_BOOL, T_BOOL_PTR, T_STRING, Out.bind, readConv]
  | float w =>
    have hd : deadObject σ ⟨w, P_FLOAT⟩ = false := by
      unfold deadObject; rw [deref_plain _ _ _ (by decide)]; simp [has, P_FLOAT, P_ANY_OBJECT, P_OBJECT, P_CONTAINER_SLOT, P_OBJECT_IN_CONTAINER]
    unfold takeWith; rw [hd]
    simp only [Bool.false_and, Bool.false_eq_true, if_false, convert]
    rw [deref_plain _ _ _ (by decide)]
    simp [convVal, kind, P_OBJECT, P_NULL, P_BOOL, P_FLOAT, P_INT, P_FUNCTION, T_STACK_ELEMENT, T_INT, T_INT_PTR, T_FLOAT,
      T_FLOAT_PTR, T_BOOL, T_BOOL_PTR, T_STRING, Out.bind, readConv]
  | floatPtr w =>
    have hl' : lcl = false := by cases lcl with | false => rfl | true => exact absurd rfl (hl rfl).2.1
    subst hl'
    have hd : deadObject σ ⟨w, P_FLOAT⟩ = false := by
      unfold deadObject; rw [deref_plain _ _ _ (by decide)]; simp [has, P_FLOAT, P_ANY_OBJECT, P_OBJECT, P_CONTAINER_SLOT, P_OBJECT_IN_CONTAINER]
    unfold takeWith; rw [hd]
    simp only [Bool.false_and, Bool.false_eq_true, if_false, convert]
    rw [deref_plain _ _ _ (by decide)]
    simp [convVal, kind, P_OBJECT, P_NULL, P_BOOL, P_FLOAT, P_INT, P_FUNCTION, T_STACK_ELEMENT, T_INT, T_INT_PTR, T_FLOAT,
      T_FLOAT_PTR, T_BOOL, T_BOOL_PTR, T_STRING, Out.bind, readConv]
  | truth b =>
    have hd : deadObject σ ⟨if b then 1 else 0, P_BOOL⟩ = false := by
      unfold deadObject; rw [deref_plain _ _ _ (by decide)]; simp [has, P_BOOL, P_ANY_OBJECT, P_OBJECT, P_CONTAINER_SLOT, P_OBJECT_IN_CONTAINER]
    unfold takeWith; rw [hd]
    simp only [Bool.false_and, Bool.false_eq_true, if_false, convert]
    rw [deref_plain _ _ _ (by decide)]
    cases b <;>
      simp [convVal, kind, P_OBJECT, P_NULL, P_BOOL, P_FLOAT, P_INT, P_FUNCTION, T_STACK_ELEMENT, T_INT, T_INT_PTR, T_FLOAT,
      T_FLOAT_PTR, T_BOOL, T_BOOL_PTR, T_STRING, Out.bind, readConv]
  | truthPtr b =>
    have hl' : lcl = false := by cases lcl with | false => rfl | true => exact absurd rfl (hl rfl).2.2
    subst hl'
    have hd : deadObject σ ⟨if b then 1 else 0, P_BOOL⟩ = false := by
      unfold deadObject; rw [deref_plain _ _ _ (by decide)]; simp [has, P_BOOL, P_ANY_OBJECT, P_OBJECT, P_CONTAINER_SLOT, P_OBJECT_IN_CONTAINER]
    unfold takeWith; rw [hd]
    simp only [Bool.false_and, Bool.false_eq_true, if_false, convert]
    rw [deref_plain _ _ _ (by decide)]
    cases b <;>
      simp [convVal, kind, P_OBJECT, P_NULL, P_BOOL, P_FLOAT, P_INT, P_FUNCTION, T_STACK_ELEMENT, T_INT, T_INT_PTR, T_FLOAT,
      T_FLOAT_PTR, T_BOOL, T_BOOL_PTR, T_STRING, Out.bind, readConv]
  | null t ht =>
    have hd : deadObject σ ⟨0, P_NULL⟩ = false := by
      unfold deadObject; rw [deref_plain _ _ _ (by decide)]; simp [has, P_NULL, P_ANY_OBJECT, P_OBJECT, P_CONTAINER_SLOT, P_OBJECT_IN_CONTAINER]
    unfold takeWith; rw [hd]
    simp only [Bool.false_and, Bool.false_eq_true, if_false, convert]
    rw [deref_plain _ _ _ (by decide)]
    have h1 : ¬ t = T_STACK_ELEMENT := by unfold T_STACK_ELEMENT; omega
    have h2 : kind P_NULL = P_NULL := by decide
    simp only [convVal, if_neg h1, h2, if_true]
    have : ¬ t = T_INT ∧ ¬ t = T_FLOAT ∧ ¬ t = T_BOOL ∧ ¬ t = T_STRING := by
      unfold T_INT T_FLOAT T_BOOL T_STRING; omega
    simp [Out.bind, readConv, this]
  | text a o t ha alive str own ht =>
    have ha' : ¬ a = 0#64 := ha
    have hd : deadObject σ ⟨a, P_OBJECT⟩ = false := by
      unfold deadObject; rw [deref_plain _ _ _ (by decide)]
      have : objOf σ.world.mem ⟨a, P_OBJECT⟩ = a := by unfold objOf; simp [has, P_OBJECT, P_CONTAINER_SLOT]
      simp [this, alive]
    unfold takeWith; rw [hd]
    simp only [Bool.false_and, Bool.false_eq_true, if_false, convert]
    rw [deref_plain _ _ _ (by decide)]
    have ho : objOf σ.world.mem ⟨a, P_OBJECT⟩ = a := by unfold objOf; simp [has, P_OBJECT, P_CONTAINER_SLOT]
    have hc : (σ.world.mem.obj a).typeId = T_STRING_SO := by simp [St.world, alive, str]
    rcases ht with ht | ht <;> subst ht <;>
      simp [convVal, kind, P_OBJECT, P_NULL, P_BOOL, P_FLOAT, P_INT, P_FUNCTION, has, P_ANY_OBJECT, P_CONTAINER_SLOT,
        P_OBJECT_IN_CONTAINER, T_CONST_CHAR_PTR, T_STRING, T_STACK_ELEMENT, T_STRING_PTR, Out.bind, readConv, textOf,
        St.world, objOf, alive, own, str, T_STRING_SO, Out.map, ha']
  | script a o ha alive lo hi =>
    have ha' : ¬ a = 0#64 := ha
    have hd : deadObject σ ⟨a, P_OBJECT⟩ = false := by
      unfold deadObject; rw [deref_plain _ _ _ (by decide)]
      have : objOf σ.world.mem ⟨a, P_OBJECT⟩ = a := by unfold objOf; simp [has, P_OBJECT, P_CONTAINER_SLOT]
      simp [this, alive]
    unfold takeWith; rw [hd]
    simp only [Bool.false_and, Bool.false_eq_true, if_false, convert]
    rw [deref_plain _ _ _ (by decide)]
    have h1 : ¬ o.typeId = 15 := by omega
    have h2 : ¬ 26 ≤ o.typeId := by omega
    simp [convVal, kind, P_OBJECT, P_NULL, P_BOOL, P_FLOAT, P_INT, P_FUNCTION, has, P_ANY_OBJECT, P_CONTAINER_SLOT,
      P_OBJECT_IN_CONTAINER, T_STACK_ELEMENT, Out.bind, readConv, St.world, objOf, alive, ha', h1, h2, T_CLASS_SO]
  | cls a o ha alive lo =>
    have ha' : ¬ a = 0#64 := ha
    have hd : deadObject σ ⟨a, P_OBJECT⟩ = false := by
      unfold deadObject; rw [deref_plain _ _ _ (by decide)]
      have : objOf σ.world.mem ⟨a, P_OBJECT⟩ = a := by unfold objOf; simp [has, P_OBJECT, P_CONTAINER_SLOT]
      simp [this, alive]
    unfold takeWith; rw [hd]
    simp only [Bool.false_and, Bool.false_eq_true, if_false, convert]
    rw [deref_plain _ _ _ (by decide)]
    have h1 : ¬ (26 : Nat) = o.typeId := by omega
    have h2 : 26 ≤ o.typeId := by omega
    have h3 : ¬ o.typeId = 20 := by omega
    simp [convVal, kind, P_OBJECT, P_NULL, P_BOOL, P_FLOAT, P_INT, P_FUNCTION, has, P_ANY_OBJECT, P_CONTAINER_SLOT,
      P_OBJECT_IN_CONTAINER, T_STACK_ELEMENT, Out.bind, readConv, St.world, objOf, alive, ha', h1, h2, h3, T_CLASS_SO,
      T_STRING_SO, T_INT, T_FLOAT, T_BOOL, T_STRING]
  | native a o ha alive lo hc nb =>
    have hc' : ¬ o.cObject = 0#64 := hc
    have ha' : ¬ a = 0#64 := ha
    have hd : deadObject σ ⟨a, P_OBJECT⟩ = false := by
      unfold deadObject; rw [deref_plain _ _ _ (by decide)]
      have : objOf σ.world.mem ⟨a, P_OBJECT⟩ = a := by unfold objOf; simp [has, P_OBJECT, P_CONTAINER_SLOT]
      simp [this, alive]
    unfold takeWith; rw [hd]
    simp only [Bool.false_and, Bool.false_eq_true, if_false, convert]
    rw [deref_plain _ _ _ (by decide)]
    have h1 : ¬ o.typeId = 15 := by omega
    have h2 : 26 ≤ o.typeId := by omega
    simp [convVal, kind, P_OBJECT, P_NULL, P_BOOL, P_FLOAT, P_INT, P_FUNCTION, has, P_ANY_OBJECT, P_CONTAINER_SLOT,
      P_OBJECT_IN_CONTAINER, T_STACK_ELEMENT, Out.bind, readConv, St.world, objOf, alive, ha', h1, h2, hc', T_CLASS_SO]

/-- An element that is held is what the script has. -/
theorem held_has {σ : St} {s : Stk} {t : Nat} {w : Seen} (h : Held σ s t w) : Has σ s w := by
  cases h with
  | int w => exact .int w
  | intPtr w => exact .int w
  | float w => exact .float w
  | floatPtr w => exact .float w
  | truth b => exact .truth b
  | truthPtr b => exact .truth b
  | null t ht => exact .null
  | text a o t ha alive str own ht => exact .text a o _ alive str own rfl
  | script a o ha alive lo hi => exact .script a o alive
  | cls a o ha alive lo => exact .script a o alive
  | native a o ha alive lo hc nb => exact .native a _ o alive (by omega) rfl

/-- An object keeps what matters for an element that is held. -/
def Same (o o' : Obj) : Prop :=
  o'.typeId = o.typeId ∧ o'.strPtr = o.strPtr ∧ o'.text = o.text ∧ o'.cObject = o.cObject ∧ o'.byCtor = o.byCtor

/-- What is held stays held where objects stay. -/
theorem held_mono {σ σ' : St} {s : Stk} {t : Nat} {w : Seen} (h : Held σ s t w)
    (hs : ∀ a o, σ.obj a = some o → ∃ o', σ'.obj a = some o' ∧ Same o o') : Held σ' s t w := by
  cases h with
  | int w => exact .int w
  | intPtr w => exact .intPtr w
  | float w => exact .float w
  | floatPtr w => exact .floatPtr w
  | truth b => exact .truth b
  | truthPtr b => exact .truthPtr b
  | null t ht => exact .null t ht
  | text a o t ha alive str own ht =>
    obtain ⟨o', h1, h2, h3, h4, h5, h6⟩ := hs a o alive
    rw [← h4]
    exact .text a o' t ha h1 (h2.trans str) (h3.trans own) ht
  | script a o ha alive lo hi =>
    obtain ⟨o', h1, h2, h3, h4, h5, h6⟩ := hs a o alive
    rw [← h2]
    exact .script a o' ha h1 (by omega) (by omega)
  | cls a o ha alive lo =>
    obtain ⟨o', h1, h2, h3, h4, h5, h6⟩ := hs a o alive
    exact .cls a o' ha h1 (by omega)
  | native a o ha alive lo hc nb =>
    obtain ⟨o', h1, h2, h3, h4, h5, h6⟩ := hs a o alive
    rw [← h2, ← h5]
    exact .native a o' ha h1 (by omega) (by rw [h5]; exact hc) (h6.trans nb)

theorem setHost_same (h : Word → Option Cell) (p : Word) (c : Option Cell) :
    (fun q => if q = p then h p else if q = p then c else h q) = h := by
  funext q
  by_cases hq : q = p
  · simp [hq]
  · simp [hq]

/-- The text of a new string object. -/
theorem textElement_own {σ : St} {a w : Word} {t : Nat} {x : List UInt8} (hw : w ≠ 0) (ht : t ≠ T_STRING_PTR)
    (hr : readText σ w t = .ok x) :
    textElement σ a w t = .ok (⟨a, P_OBJECT⟩, σ.setObj a { typeId := T_STRING_SO, text := Str.unescapeChars x }) := by
  unfold textElement
  simp only [hw, if_false, ht, hr, Out.bind]
  unfold setText
  simp only [St.setObj, if_true]
  congr 2
  congr 1
  funext b
  by_cases hb : b = a <;> simp [hb]

/-- The values that arrive as a copy. -/
def Givable (h : Word → Option Cell) : HVal → Prop
  | .int _ => True
  | .float _ => True
  | .bool _ => True
  | .intPtr p => p ≠ 0
  | .floatPtr p => p ≠ 0
  | .boolPtr p => p ≠ 0
  | .chars p => p ≠ 0 ∧ ∀ t, h p = some (.chars t) → (92 : UInt8) ∉ t
  | .string t => (92 : UInt8) ∉ t
  | .script _ p => p ≠ 0
  | .native _ _ => True
  | .other _ p => p = 0
  | _ => False

/-- Where the object of a new element comes from: it is new, or it is the one that was given. -/
def Origin (σ : St) (a : Word) (v : HVal) (s : Stk) (σ' : St) : Prop :=
  (σ' = σ ∧ s.props ≠ P_OBJECT) ∨
  (∃ o, σ' = σ.setObj a o ∧ s = ⟨a, P_OBJECT⟩ ∧ o.shared = false ∧ o.konst = false ∧ o.strPtr = none) ∨
  (σ' = σ ∧ ∃ t p, v = .script t p ∧ s = ⟨p, P_OBJECT⟩)

theorem setHost_back (σ : St) (p : Word) (c : Option Cell) : (σ.setHost p c).setHost p (σ.host p) = σ := by
  cases σ with
  | mk host obj ext linked slot =>
    simp only [St.setHost, St.mk.injEq, and_true]
    funext q
    by_cases hq : q = p <;> simp [hq]

theorem setHost_back_obj (σ : St) (p a : Word) (c : Option Cell) (o : Obj) :
    ((σ.setHost p c).setObj a o).setHost p (σ.host p) = σ.setObj a o := by
  cases σ with
  | mk host obj ext linked slot =>
    simp only [St.setHost, St.setObj, St.mk.injEq, and_true]
    funext q
    by_cases hq : q = p <;> simp [hq]

/-- A value that can be given arrives held. -/
theorem give_held {σ : St} {a tmp : Word} {e : Entry} {v : HVal} {w : Seen} (ha : a ≠ 0) (ht : tmp ≠ 0)
    (hw : hostSees σ.host v = some w) (hty : Typed σ v) (he : EntryTakes e v) (hg : Givable σ.host v) :
    ∃ s σ', give σ a tmp e v = .ok (s, σ') ∧ Held σ' s v.type w ∧ Origin σ a v s σ' := by
  cases v with
  | int n =>
    have hw' : w = .int n := by simpa [hostSees] using hw.symm
    subst hw'
    refine ⟨⟨n, P_INT⟩, σ, ?_, .int n, .inl ⟨rfl, by simp [P_INT, P_OBJECT]⟩⟩
    cases e <;> rfl
  | float n =>
    have hw' : w = .float n := by simpa [hostSees] using hw.symm
    subst hw'
    refine ⟨⟨n, P_FLOAT⟩, σ, ?_, .float n, .inl ⟨rfl, by simp [P_FLOAT, P_OBJECT]⟩⟩
    cases e with
    | element =>
      have ht' : ¬ tmp = 0#64 := ht
      simp [give, toStackElement, T_FLOAT_PTR, T_VOID, T_INT_PTR, T_INT, T_FLOAT, ht', St.setHost, Out.bind]
      exact congrArg (fun h => ({ σ with host := h } : St)) (setHost_same σ.host tmp (some (.float n)))
    | argument => exact absurd he (by simp [EntryTakes])
    | result => rfl
  | bool b =>
    have hw' : w = .truth b := by simpa [hostSees] using hw.symm
    subst hw'
    refine ⟨⟨if b then 1 else 0, P_BOOL⟩, σ, ?_, .truth b, .inl ⟨rfl, by simp [P_BOOL, P_OBJECT]⟩⟩
    cases e with
    | argument => exact absurd he (by simp [EntryTakes])
    | element => cases b <;> rfl
    | result => cases b <;> rfl
  | intPtr p =>
    have hp : ¬ p = 0#64 := hg
    simp only [hostSees, show ¬ (p = 0) from hp, if_false] at hw
    cases hh : σ.host p with
    | none => simp [hh] at hw
    | some c =>
      cases c with
      | int n =>
        have hw' : w = .int n := by simpa [hh] using hw.symm
        subst hw'
        refine ⟨⟨n, P_INT⟩, σ, ?_, .intPtr n, .inl ⟨rfl, by simp [P_INT, P_OBJECT]⟩⟩
        cases e <;> simp [give, toStackElement, HVal.word, HVal.type, T_INT_PTR, T_VOID, hp, hh]
      | _ => simp [hh] at hw
  | floatPtr p =>
    have hp : ¬ p = 0#64 := hg
    simp only [hostSees, show ¬ (p = 0) from hp, if_false] at hw
    cases hh : σ.host p with
    | none => simp [hh] at hw
    | some c =>
      cases c with
      | float n =>
        have hw' : w = .float n := by simpa [hh] using hw.symm
        subst hw'
        refine ⟨⟨n, P_FLOAT⟩, σ, ?_, .floatPtr n, .inl ⟨rfl, by simp [P_FLOAT, P_OBJECT]⟩⟩
        cases e <;> simp [give, toStackElement, HVal.word, HVal.type, T_INT_PTR, T_VOID, T_INT, T_FLOAT, T_FLOAT_PTR, hp, hh]
      | _ => simp [hh] at hw
  | boolPtr p =>
    have hp : ¬ p = 0#64 := hg
    simp only [hostSees, show ¬ (p = 0) from hp, if_false] at hw
    cases hh : σ.host p with
    | none => simp [hh] at hw
    | some c =>
      cases c with
      | bool b =>
        have hw' : w = .truth b := by simpa [hh] using hw.symm
        subst hw'
        refine ⟨⟨if b then 1 else 0, P_BOOL⟩, σ, ?_, .truthPtr b, .inl ⟨rfl, by simp [P_BOOL, P_OBJECT]⟩⟩
        cases e <;> simp [give, toStackElement, HVal.word, HVal.type, T_INT_PTR, T_VOID, T_INT, T_FLOAT, T_FLOAT_PTR,
          T_BOOL_PTR, hp, hh]
      | _ => simp [hh] at hw
  | chars p =>
    obtain ⟨hp0, hb⟩ := hg
    have hp : ¬ p = 0#64 := hp0
    simp only [hostSees, show ¬ (p = 0) from hp, if_false] at hw
    cases hh : σ.host p with
    | none => simp [hh] at hw
    | some c =>
      cases c with
      | chars t =>
        have hw' : w = .text t := by simpa [hh] using hw.symm
        subst hw'
        have hr : readText σ p T_CONST_CHAR_PTR = .ok t := by
          simp [readText, T_CONST_CHAR_PTR, T_STRING, hh]
        have hte := textElement_own (σ := σ) (a := a) (t := T_CONST_CHAR_PTR) hp (by decide) hr
        rw [Str.unescape_id (hb t hh)] at hte
        refine ⟨⟨a, P_OBJECT⟩, _, ?_, .text a { typeId := T_STRING_SO, text := t } _ ha ?_ rfl rfl (.inl rfl),
          .inr (.inl ⟨{ typeId := T_STRING_SO, text := t }, rfl, rfl, rfl, rfl, rfl⟩)⟩
        · rw [← hte]
          cases e <;> rfl
        · simp [St.setObj]
      | _ => simp [hh] at hw
  | string t =>
    have hw' : w = .text t := by simpa [hostSees] using hw.symm
    subst hw'
    have ht' : ¬ tmp = 0#64 := ht
    have hr : readText (σ.setHost tmp (some (.str t))) tmp T_STRING = .ok t := by
      simp [readText, St.setHost]
    have hte := textElement_own (a := a) (t := T_STRING) ht (by decide) hr
    rw [Str.unescape_id hg] at hte
    refine ⟨⟨a, P_OBJECT⟩, σ.setObj a { typeId := T_STRING_SO, text := t }, ?_,
      .text a { typeId := T_STRING_SO, text := t } _ ha ?_ rfl rfl (.inr rfl),
      .inr (.inl ⟨{ typeId := T_STRING_SO, text := t }, rfl, rfl, rfl, rfl, rfl⟩)⟩
    · cases e with
      | element => exact absurd he (by simp [EntryTakes])
      | argument => exact absurd he (by simp [EntryTakes])
      | result =>
        have hto : toStackElement (σ.setHost tmp (some (.str t))) a tmp T_STRING =
            textElement (σ.setHost tmp (some (.str t))) a tmp T_STRING := rfl
        simp only [give, hto, hte, Out.bind, setHost_back_obj]
    · simp [St.setObj]
  | stringPtr p => exact absurd hg (by simp [Givable])
  | elem p => exact absurd hg (by simp [Givable])
  | script t p =>
    have hp : ¬ p = 0#64 := hg
    have hw' : w = .object p := by simpa [hostSees, show ¬ p = 0#64 from hp] using hw.symm
    subst hw'
    obtain ⟨h1, h2, h3⟩ := hty
    obtain ⟨o, ho, hto⟩ := h3 hg
    refine ⟨⟨p, P_OBJECT⟩, σ, ?_, ?_, .inr (.inr ⟨rfl, t, p, rfl, rfl⟩)⟩
    · have : t = 20 ∨ t = 21 ∨ t = 22 ∨ t = 23 ∨ t = 24 ∨ t = 25 ∨ t = 26 := by omega
      rcases this with h | h | h | h | h | h | h <;> subst h <;> cases e <;>
        simp [give, toStackElement, HVal.word, HVal.type, T_INT_PTR, T_VOID, T_INT, T_FLOAT, T_FLOAT_PTR, T_BOOL_PTR, T_BOOL,
          T_CONST_CHAR_PTR, T_STRING_PTR, T_STRING, T_STACK_ELEMENT, T_ARRAY_SO, T_ARRAY_ITERATOR, T_OBJECT_SO, T_CLASS_SO,
          T_OBJECT_ITERATOR, T_STRING_SO, T_STRING_ITERATOR, hp]
    · by_cases h26 : t = 26
      · subst h26
        exact .cls p o hg ho (by simpa using hto)
      · rw [if_neg h26] at hto
        show Held σ ⟨p, P_OBJECT⟩ t (.object p)
        rw [← hto]
        exact .script p o hg ho (by omega) (by omega)
  | native t p =>
    have hty' : 27 ≤ t := hty
    have hto : ∀ q : Word, toStackElement σ a q t = objectElement σ a q t := by
      intro q
      have h : ¬ t = 3 ∧ ¬ t = 5 ∧ ¬ t = 4 ∧ ¬ t = 12 ∧ ¬ t = 13 ∧ ¬ t = 11 ∧ ¬ t = 10 ∧ ¬ t = 7 ∧ ¬ t = 9 ∧ ¬ t = 8 ∧
        ¬ t = 15 ∧ ¬ t = 24 ∧ ¬ t = 22 ∧ ¬ t = 25 ∧ ¬ t = 26 ∧ ¬ t = 23 ∧ ¬ t = 20 ∧ ¬ t = 21 := by omega
      simp [toStackElement, T_INT_PTR, T_VOID, T_INT, T_FLOAT, T_FLOAT_PTR, T_BOOL_PTR, T_BOOL, T_CONST_CHAR_PTR,
        T_STRING_PTR, T_STRING, T_STACK_ELEMENT, T_ARRAY_SO, T_ARRAY_ITERATOR, T_OBJECT_SO, T_CLASS_SO, T_OBJECT_ITERATOR,
        T_STRING_SO, T_STRING_ITERATOR, h]
    have hgv : give σ a tmp e (.native t p) = objectElement σ a p t := by
      cases e <;> exact hto p
    by_cases hp : p = 0
    · subst hp
      have hw' : w = .nothing := by simpa [hostSees] using hw.symm
      subst hw'
      exact ⟨⟨0, P_NULL⟩, σ, by rw [hgv]; simp [objectElement], .null t (by omega), .inl ⟨rfl, by simp [P_NULL, P_OBJECT]⟩⟩
    · have hw' : w = .object p := by simpa [hostSees, show ¬ p = 0#64 from hp] using hw.symm
      subst hw'
      refine ⟨⟨a, P_OBJECT⟩, σ.setObj a { typeId := t, cObject := p, cls := σ.linked t }, ?_,
        .native a { typeId := t, cObject := p, cls := σ.linked t } ha ?_ (by show 26 < t; omega) hp rfl,
        .inr (.inl ⟨_, rfl, rfl, rfl, rfl, rfl⟩)⟩
      · rw [hgv]
        have : t > T_CLASS_SO := by unfold T_CLASS_SO; omega
        simp [objectElement, show ¬ p = 0#64 from hp, this]
      · simp [St.setObj]
  | other t p =>
    have hp : p = 0 := hg
    subst hp
    have hw' : w = .nothing := by simpa [hostSees] using hw.symm
    subst hw'
    have hty' : t ∈ [6, 14, 16, 17, 18, 19] := hty
    simp only [List.mem_cons, List.not_mem_nil, or_false] at hty'
    refine ⟨⟨0, P_NULL⟩, σ, ?_, .null t (by omega), .inl ⟨rfl, by simp [P_NULL, P_OBJECT]⟩⟩
    rcases hty' with h | h | h | h | h | h <;> subst h <;> cases e <;> rfl

theorem made_false {σ : St} {s : Stk} {t : Nat} {w : Seen} (h : Held σ s t w) : madeByScript σ s t = .ok false := by
  unfold madeByScript
  cases h with
  | int w => simp [has, P_INT, P_OBJECT]
  | intPtr w => simp [has, P_INT, P_OBJECT]
  | float w => simp [has, P_FLOAT, P_OBJECT]
  | floatPtr w => simp [has, P_FLOAT, P_OBJECT]
  | truth b => simp [has, P_BOOL, P_OBJECT]
  | truthPtr b => simp [has, P_BOOL, P_OBJECT]
  | null t ht => simp [has, P_NULL, P_OBJECT]
  | text a o t ha alive str own ht =>
    rw [if_neg]
    rcases ht with ht | ht <;> subst ht <;> simp [T_MAX, T_CONST_CHAR_PTR, T_STRING]
  | script a o ha alive lo hi =>
    rw [if_neg]
    simp only [T_MAX]
    omega
  | cls a o ha alive lo => rw [if_neg]; simp [T_MAX, T_CLASS_SO]
  | native a o ha alive lo hc nb =>
    split
    · simp [alive, nb]
    · rfl

/-- An element that is held is taken by every way out that gives values of its type. -/
theorem held_exit {σ : St} {F : FloatOps} {s : Stk} {t : Nat} {w : Seen} (h : Held σ s t w) (x : Exit)
    (hl : x = .value ∨ x = .bound → t ≠ T_INT_PTR ∧ t ≠ T_FLOAT_PTR ∧ t ≠ T_BOOL_PTR)
    (hb : x = .bound → t ≠ T_STRING_PTR ∧ t ≠ T_CONST_CHAR_PTR)
    (hp : x = .parameter → t ≠ T_FLOAT ∧ t ≠ T_BOOL ∧ t ≠ T_STRING) : take σ F x s t = .ok w := by
  cases x with
  | pointer => exact held_take h false (by simp)
  | value => exact held_take h true (fun _ => hl (.inl rfl))
  | bound =>
    have hb' := hb rfl
    have := held_take h true (fun _ => hl (.inr rfl))
    simp only [take, made_false h, Out.bind, this]
    rw [if_neg (fun hc => hc.elim hb'.1 hb'.2)]
    simp
  | parameter =>
    have hp' := hp rfl
    have := held_take h false (by simp)
    simp only [take]
    rw [if_neg (fun hc => hc.elim hp'.1 fun hc => hc.elim hp'.2.1 hp'.2.2)]
    rw [if_neg, this]
    intro hc
    cases h with
    | int w => simp [T_INT, T_FLOAT_PTR] at hc
    | intPtr w => simp [T_INT_PTR, T_FLOAT_PTR] at hc
    | float w => rw [deref_plain _ _ _ (by decide)] at hc; simp [has, P_FLOAT, P_INT] at hc
    | floatPtr w => rw [deref_plain _ _ _ (by decide)] at hc; simp [has, P_FLOAT, P_INT] at hc
    | truth w => rw [deref_plain _ _ _ (by decide)] at hc; simp [has, P_BOOL, P_INT] at hc
    | truthPtr w => rw [deref_plain _ _ _ (by decide)] at hc; simp [has, P_BOOL, P_INT] at hc
    | null t ht => rw [deref_plain _ _ _ (by decide)] at hc; simp [has, P_NULL, P_INT] at hc
    | _ => rw [deref_plain _ _ _ (by decide)] at hc; simp [has, P_OBJECT, P_INT] at hc

/-- A `String` given by its address. -/
theorem give_stringPtr (σ : St) (a tmp p : Word) (e : Entry) (hp : p ≠ 0) :
    give σ a tmp e (.stringPtr p) = .ok (⟨a, P_OBJECT⟩, σ.setObj a { typeId := T_STRING_SO, strPtr := some p }) := by
  have h : toStackElement σ a p T_STRING_PTR = textElement σ a p T_STRING_PTR := rfl
  have h2 : textElement σ a p T_STRING_PTR =
      .ok (⟨a, P_OBJECT⟩, σ.setObj a { typeId := T_STRING_SO, strPtr := some p }) := by
    simp [textElement, show ¬ p = 0#64 from hp]
  cases e <;> exact h.trans h2

theorem take_stringPtr {σ : St} {F : FloatOps} {a p : Word} {t : List UInt8} {x : Exit} (ha : a ≠ 0) (hx : x ≠ .bound)
    (ho : σ.obj a = some { typeId := T_STRING_SO, strPtr := some p }) (hh : σ.host p = some (.str t)) :
    take σ F x ⟨a, P_OBJECT⟩ T_STRING_PTR = .ok (.text t) := by
  have ha' : ¬ a = 0#64 := ha
  have hd : deadObject σ ⟨a, P_OBJECT⟩ = false := by
    unfold deadObject; rw [deref_plain _ _ _ (by decide)]
    have : objOf σ.world.mem ⟨a, P_OBJECT⟩ = a := by unfold objOf; simp [has, P_OBJECT, P_CONTAINER_SLOT]
    simp [this, ho]
  have hw : ∀ lcl, takeWith σ lcl ⟨a, P_OBJECT⟩ T_STRING_PTR = .ok (.text t) := by
    intro lcl
    unfold takeWith; rw [hd]
    simp only [Bool.false_and, Bool.false_eq_true, if_false, convert]
    rw [deref_plain _ _ _ (by decide)]
    simp [convVal, kind, P_OBJECT, P_NULL, P_BOOL, P_FLOAT, P_INT, P_FUNCTION, has, P_ANY_OBJECT, P_CONTAINER_SLOT,
      P_OBJECT_IN_CONTAINER, T_STACK_ELEMENT, T_STRING_PTR, Out.bind, readConv, textOf, St.world, objOf, ho, hh, T_STRING_SO,
      Out.map, ha']
  cases x with
  | pointer => exact hw false
  | value => exact hw true
  | bound => exact absurd rfl hx
  | parameter =>
    simp only [take]
    rw [if_neg (by decide), if_neg (by rw [deref_plain _ _ _ (by decide)]; simp [has, P_OBJECT, P_INT])]
    exact hw false

theorem take_elem {σ : St} {F : FloatOps} {s : Stk} {x : Exit} (hx : x = .pointer ∨ x = .parameter)
    (hs : s.props &&& 0x1000 = 0) : take σ F x s T_STACK_ELEMENT = .ok (.elem s) := by
  have hd : ∀ m, deref m s = s := by
    intro m
    cases s with
    | mk v p => exact deref_plain m v p (by simpa [has, P_PTR_STK] using hs)
  have hw : takeWith σ false s T_STACK_ELEMENT = .ok (.elem s) := by
    unfold takeWith
    simp [convert, hd, convVal, Out.bind, readConv]
  rcases hx with hx | hx <;> subst hx
  · exact hw
  · simp only [take]
    rw [if_neg (by decide), if_neg (by simp [T_STACK_ELEMENT, T_FLOAT_PTR])]
    exact hw

end Verif.Vm.Bridge
