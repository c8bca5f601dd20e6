import Verif.Vm.Call
import Verif.Vm.StoreProps
/-
Lemmas about argument passing by value.
-/
namespace Verif.Vm
open Verif

/-- An argument as the compiler pushes it: a value (`c` = flagged as constant), or the address of a variable. -/
inductive Arg where
  | val (c : Bool) (v : V)
  | var (p : Word)
  deriving DecidableEq, Repr

/-- The pushed element. -/
def Arg.elem : Arg → Stk
  | .val c v => held c v
  | .var p => ⟨p, P_PTR_STK⟩

/-- The value of an argument when the variables hold `vs`. -/
def Arg.value (vs : Word → V) : Arg → V
  | .val _ v => v
  | .var p => vs p

/-- The argument is flagged as constant, or is a constant variable. -/
def Arg.const (cs : Word → Bool) : Arg → Bool
  | .val c _ => c
  | .var p => cs p

/-- The address is one the allocator will still give out. -/
def Avail (w : CallW) (a : Word) : Prop := ∃ k, k < w.room ∧ w.fresh k = a

/-- The allocator gives each address once. -/
def Inj (w : CallW) : Prop := ∀ j k, j < w.room → k < w.room → w.fresh j = w.fresh k → j = k

/-- A literal string of the program. -/
def IsLit (w : CallW) (v : V) : Prop := ∃ a, v = .obj a ∧ (w.obj a).typeId = T_STRING_SO ∧ w.konst a = true

/-- `w'` is `w` after allocating some objects. -/
structure Ext (w w' : CallW) : Prop where
  stk : w'.stk = w.stk
  slot : w'.slot = w.slot
  setter : w'.hasSetter = w.hasSetter
  fresh : ∃ n, w'.room ≤ w.room - n ∧ ∀ k, w'.fresh k = w.fresh (k + n)
  obj : ∀ a, ¬ Avail w a → w'.obj a = w.obj a
  konst : ∀ a, ¬ Avail w a → w'.konst a = w.konst a
  text : ∀ a, (w'.obj a).typeId = T_STRING_SO → (∀ b, (w.obj b).typeId = T_STRING_SO → NoBackslash (w.obj b).text) →
    NoBackslash (w'.obj a).text

theorem Ext.refl (w : CallW) : Ext w w :=
  ⟨rfl, rfl, rfl, ⟨0, Nat.le_refl _, fun _ => rfl⟩, fun _ _ => rfl, fun _ _ => rfl, fun a h hall => hall a h⟩

theorem Ext.avail {w w' : CallW} (h : Ext w w') {a : Word} (ha : Avail w' a) : Avail w a := by
  obtain ⟨n, hr, hn⟩ := h.fresh
  obtain ⟨k, hk, rfl⟩ := ha
  exact ⟨k + n, by omega, (hn k).symm⟩

theorem Ext.trans {w w1 w2 : CallW} (h : Ext w w1) (g : Ext w1 w2) : Ext w w2 := by
  refine ⟨g.stk.trans h.stk, g.slot.trans h.slot, g.setter.trans h.setter, ?_, ?_, ?_, ?_⟩
  · obtain ⟨n, hr, hn⟩ := h.fresh
    obtain ⟨m, hr', hm⟩ := g.fresh
    exact ⟨m + n, by omega, fun k => by rw [hm, hn, Nat.add_assoc]⟩
  · intro a ha
    rw [g.obj a (fun hh => ha (h.avail hh)), h.obj a ha]
  · intro a ha
    rw [g.konst a (fun hh => ha (h.avail hh)), h.konst a ha]
  · intro a ha hall
    exact g.text a ha (fun b hb => h.text b hb hall)

theorem Ext.inj {w w' : CallW} (h : Ext w w') (hi : Inj w) : Inj w' := by
  obtain ⟨n, hr, hn⟩ := h.fresh
  intro j k hj hk e
  rw [hn, hn] at e
  have := hi _ _ (by omega) (by omega) e
  omega

theorem Ext.view {w w' : CallW} (h : Ext w w') (v : V) (hv : ∀ a, v = .obj a → ¬ Avail w a) :
    view w'.toMem v = view w.toMem v := view_congr _ _ _ (fun a e => h.obj a (hv a e))

theorem ext_push (w : CallW) (arr : Word) (s : Stk) : Ext w (w.push arr s) :=
  ⟨rfl, rfl, rfl, ⟨0, Nat.le_refl _, fun _ => rfl⟩, fun _ _ => rfl, fun _ _ => rfl, fun a h hall => hall a h⟩

theorem setTextOf_noBackslash (t : List UInt8) (h : NoBackslash t) : NoBackslash (setTextOf t) := by
  rw [unescape_plain t h]; exact h

theorem ext_newArr (w : CallW) (hm : 0 < w.room) : Ext w w.newArr := by
  refine ⟨rfl, rfl, rfl, ⟨1, Nat.le_refl _, fun _ => rfl⟩, ?_, fun _ _ => rfl, ?_⟩
  · intro a ha
    exact if_neg (fun e => ha ⟨0, hm, e.symm⟩)
  · intro a ht hall
    by_cases e : a = w.fresh 0
    · simp only [CallW.newArr, CallW.tick, if_pos e] at ht; exact absurd ht (by decide)
    · simp only [CallW.newArr, CallW.tick, if_neg e] at ht ⊢; exact hall a ht

theorem ext_newStr (w : CallW) (hm : 0 < w.room) (b : Word) (hb : (w.obj b).typeId = T_STRING_SO) : Ext w (w.newStr (w.obj b).text) := by
  refine ⟨rfl, rfl, rfl, ⟨1, Nat.le_refl _, fun _ => rfl⟩, ?_, ?_, ?_⟩
  · intro a ha
    exact if_neg (fun e => ha ⟨0, hm, e.symm⟩)
  · intro a ha
    exact if_neg (fun e => ha ⟨0, hm, e.symm⟩)
  · intro a ht hall
    by_cases e : a = w.fresh 0
    · simp only [CallW.newStr, if_pos e]; exact setTextOf_noBackslash _ (hall b hb)
    · simp only [CallW.newStr, if_neg e] at ht ⊢; exact hall a ht

theorem slot_held (c : Bool) (v : V) : has (held c v).props P_CONTAINER_SLOT = false := by
  rw [held_props]
  cases c <;> cases v <;> simp only [if_true, if_false, Bool.false_eq_true] <;> decide

/-- What an argument becomes: itself with its flag, or a new copy of a literal string. -/
inductive Became (w w' : CallW) (c : Bool) (v : V) (r : Bool × V) : Prop where
  | same (h : ¬ IsLit w v) (hr : r = (c, v))
  | copy (a b : Word) (hv : v = .obj a) (hb : Avail w b) (hn : ¬ Avail w' b) (hr : r = (false, .obj b))
      (hs : (w.obj a).typeId = T_STRING_SO) (hk : w.konst a = true)
      (ho : w'.obj b = ⟨T_STRING_SO, setTextOf (w.obj a).text⟩) (hk' : w'.konst b = false)

theorem Became.mono {w w' w'' : CallW} {c v r} (h : Became w w' c v r) (g : Ext w' w'') : Became w w'' c v r := by
  cases h with
  | same h hr => exact .same h hr
  | copy a b hv hb hn hr hs hk ho hk' =>
    exact .copy a b hv hb (fun x => hn (g.avail x)) hr hs hk ((g.obj b hn).trans ho) ((g.konst b hn).trans hk')

theorem Became.pre {w0 w w' : CallW} {c v r} (h : Became w w' c v r) (g : Ext w0 w) (hv : ∀ a, v = .obj a → ¬ Avail w0 a) :
    Became w0 w' c v r := by
  cases h with
  | same h hr =>
    refine .same ?_ hr
    rintro ⟨a, e, h1, h2⟩
    exact h ⟨a, e, by rw [g.obj a (hv a e)]; exact h1, by rw [g.konst a (hv a e)]; exact h2⟩
  | copy a b e hb hn hr hs hk ho hk' =>
    rw [g.obj a (hv a e)] at hs ho
    rw [g.konst a (hv a e)] at hk
    exact .copy a b e (g.avail hb) hn hr hs hk ho hk'

theorem passVal_held (w : CallW) (c : Bool) (v : V) (hi : Inj w) (hm : 0 < w.room)
    (hr : ∀ a, v = .obj a → (w.obj a).typeId ≠ T_VAR_REF) :
    ∃ r, passVal w (held c v) = ((passVal w (held c v)).1, held r.1 r.2) ∧ Ext w (passVal w (held c v)).1 ∧
      Became w (passVal w (held c v)).1 c v r ∧ (passVal w (held c v)).1.items = w.items ∧
      w.room ≤ (passVal w (held c v)).1.room + 1 := by
  have h0 : isObjOf w.toMem T_VAR_REF (held c v) = false := by
    rw [isObjOf_held]
    cases v with
    | obj a => simpa [V.isObjOf] using hr a rfl
    | _ => rfl
  have e0 : passVal w (held c v) = if (has (held c v).props P_OBJECT &&
      ((w.obj (held c v).value).typeId = T_STRING_SO && w.konst (held c v).value)) = true then
      (w.newStr (w.obj (held c v).value).text, ⟨w.fresh 0, P_OBJECT⟩) else (w, held c v) := by
    unfold passVal
    simp only [ptr_held, slot_held, h0, Bool.false_eq_true, if_false]
  rw [e0]
  by_cases hl : (has (held c v).props P_OBJECT &&
      ((w.obj (held c v).value).typeId = T_STRING_SO && w.konst (held c v).value)) = true
  · rw [if_pos hl]
    simp only [Bool.and_eq_true, decide_eq_true_eq, has_object_held, held_value] at hl
    cases v with
    | obj a =>
      have hs : (w.obj a).typeId = T_STRING_SO := hl.2.1
      refine ⟨(false, .obj (w.fresh 0)), rfl, ?_, ?_, rfl, ?_⟩
      · rw [held_value]; exact ext_newStr w hm a hs
      · rw [held_value]
        refine .copy a (w.fresh 0) rfl ⟨0, hm, rfl⟩ ?_ rfl hs hl.2.2 ?_ ?_
        · rintro ⟨k, hk0, hk⟩
          have hk1 : k < w.room - 1 := hk0
          exact absurd (hi _ _ (by omega) hm hk) (by omega)
        · exact if_pos rfl
        · exact if_pos rfl
      · show w.room ≤ w.room - 1 + 1; omega
    | _ => exact absurd hl.1 (by simp [V.isObj])
  · rw [if_neg hl]
    refine ⟨(c, v), rfl, Ext.refl w, .same ?_ rfl, rfl, Nat.le_succ _⟩
    rintro ⟨a, rfl, h1, h2⟩
    apply hl
    simp only [has_object_held, held_value, V.isObj]
    have e : (enc (.obj a)).value = a := rfl
    rw [e, h1, h2]; rfl

/-- Conditions on an argument: it is not an object reference of the virtual machine, and its value is not at an address
that the allocator will give out. -/
structure ArgOk (w : CallW) (v : V) : Prop where
  notRef : ∀ a, v = .obj a → (w.obj a).typeId ≠ T_VAR_REF
  used : ∀ a, v = .obj a → ¬ Avail w a

theorem ArgOk.ext {w w' : CallW} {v : V} (h : ArgOk w v) (g : Ext w w') : ArgOk w' v :=
  ⟨fun a e => by rw [g.obj a (h.used a e)]; exact h.notRef a e, fun a e x => h.used a e (g.avail x)⟩

theorem passVal_arg (w : CallW) (cs : Word → Bool) (vs : Word → V) (hs : ∀ p, w.stk p = held (cs p) (vs p)) (x : Arg)
    (hi : Inj w) (hm : 0 < w.room) (hx : ArgOk w (x.value vs)) :
    ∃ w' r, passVal w x.elem = (w', held r.1 r.2) ∧ Ext w w' ∧
      Became w w' (x.const cs) (x.value vs) r ∧ w'.items = w.items ∧ w.room ≤ w'.room + 1 := by
  have key : passVal w x.elem = passVal w (held (x.const cs) (x.value vs)) := by
    cases x with
    | val c v => rfl
    | var p =>
      have h1 : has P_PTR_STK P_PTR_STK = true := by decide
      unfold passVal
      simp only [Arg.elem, h1, if_true, hs p, ptr_held, Bool.false_eq_true, if_false]
      rfl
  obtain ⟨r, h1, h2, h3, h4⟩ := passVal_held w (x.const cs) (x.value vs) hi hm hx.notRef
  exact ⟨_, r, key.trans h1, h2, h3, h4⟩

/-- New objects are not given twice. -/
def NewOnce (w : CallW) (rs : List (Bool × V)) : Prop :=
  rs.Pairwise fun r q => ∀ b, r.2 = .obj b → q.2 = .obj b → ¬ Avail w b

/-- Pairwise relation of arguments and results. -/
structure AllBecame (w w' : CallW) (cs : Word → Bool) (vs : Word → V) (xs : List Arg) (rs : List (Bool × V)) : Prop where
  len : rs.length = xs.length
  all : ∀ i (h : i < xs.length) (h' : i < rs.length), Became w w' ((xs[i]).const cs) ((xs[i]).value vs) rs[i]
  once : NewOnce w rs

theorem AllBecame.nil (w w' : CallW) (cs : Word → Bool) (vs : Word → V) : AllBecame w w' cs vs [] [] :=
  ⟨rfl, fun _ h => absurd h (by simp), .nil⟩

/-- Head (allocated first) and tail. -/
theorem AllBecame.cons {w w1 w' : CallW} {cs : Word → Bool} {vs : Word → V} {x : Arg} {xs : List Arg} {r : Bool × V}
    {rs : List (Bool × V)} (b1 : Became w w1 (x.const cs) (x.value vs) r) (g1 : Ext w w1) (g2 : Ext w1 w')
    (b2 : AllBecame w1 w' cs vs xs rs) (hx : ∀ y ∈ x :: xs, ArgOk w (y.value vs)) :
    AllBecame w w' cs vs (x :: xs) (r :: rs) := by
  refine ⟨by simp [b2.len], fun i h h' => ?_, ?_⟩
  · cases i with
    | zero => exact b1.mono g2
    | succ i =>
      exact (b2.all i (by simpa using h) (by simpa using h')).pre g1 (hx _ (List.mem_cons_of_mem _ (List.getElem_mem _))).used
  · have later : ∀ q ∈ rs, ∀ b, q.2 = .obj b → Avail w b → Avail w1 b := by
      intro q hq b hb hav
      obtain ⟨i, hi, rfl⟩ := List.getElem_of_mem hq
      have hi' : i < xs.length := by rw [← b2.len]; exact hi
      cases b2.all i hi' hi with
      | same h e =>
        rw [e] at hb
        exact absurd hav ((hx _ (List.mem_cons_of_mem _ (List.getElem_mem _))).used b hb)
      | copy a b' e hb' hn er hs hk ho hk' =>
        rw [er] at hb
        cases hb
        exact hb'
    refine List.pairwise_cons.2 ⟨?_, ?_⟩
    · intro q hq b hr hb hav
      have hav1 := later q hq b hb hav
      cases b1 with
      | same h e =>
        subst e
        exact (hx x (List.mem_cons_self ..)).used b hr hav
      | copy a b' e hb' hn er hs hk ho hk' =>
        subst er
        cases hr
        exact hn hav1
    · exact List.Pairwise.imp_of_mem (fun hm _ h b e1 e2 hav => h b e1 e2 (later _ hm b e1 hav)) b2.once

theorem AllBecame.pre {w w1 w' : CallW} {cs : Word → Bool} {vs : Word → V} {xs : List Arg} {rs : List (Bool × V)}
    (b2 : AllBecame w1 w' cs vs xs rs) (g1 : Ext w w1) (hx : ∀ y ∈ xs, ArgOk w (y.value vs)) :
    AllBecame w w' cs vs xs rs := by
  refine ⟨b2.len, fun i h h' => (b2.all i h h').pre g1 (hx _ (List.getElem_mem _)).used, ?_⟩
  have later : ∀ q ∈ rs, ∀ b, q.2 = .obj b → Avail w b → Avail w1 b := by
    intro q hq b hb hav
    obtain ⟨i, hi, rfl⟩ := List.getElem_of_mem hq
    have hi' : i < xs.length := by rw [← b2.len]; exact hi
    cases b2.all i hi' hi with
    | same h e =>
      rw [e] at hb
      exact absurd hav ((hx _ (List.getElem_mem _)).used b hb)
    | copy a b' e hb' hn er hs hk ho hk' =>
      rw [er] at hb
      cases hb
      exact hb'
  exact List.Pairwise.imp_of_mem (fun hm _ h b e1 e2 hav => h b e1 e2 (later _ hm b e1 hav)) b2.once

theorem elementAssign_value (w : World) (konst : Word → Bool) (new : Word) (c : Bool) (v : V)
    (hk : ∀ a, v = .obj a → ((w.obj a).typeId = T_STRING_SO → konst a = false)) :
    elementAssign w konst new (held c v) = (w, enc v) := by
  have hprops : (held c v).props &&& ~~~P_READ_ONLY = (enc v).props := by
    cases c <;> cases v <;> simp +decide only [held, enc, if_true, if_false]
  have hstrip : ({ value := (enc v).value, props := (enc v).props } : Stk) = enc v := rfl
  have hobj : has (enc v).props P_OBJECT = v.isObj := has_object_held false v
  unfold elementAssign
  simp only [ptr_held, Bool.false_eq_true, if_false, held_value, hprops, hstrip, hobj]
  cases v with
  | obj a =>
    have e : (enc (.obj a)).value = a := rfl
    by_cases ht : (w.obj a).typeId = T_STRING_SO
    · simp only [V.isObj, if_true, e, hk a rfl ht, Bool.and_false, Bool.false_eq_true, if_false]; rfl
    · simp only [V.isObj, if_true, e, ht, decide_false, Bool.false_and, Bool.false_eq_true, if_false]; rfl
  | _ => simp only [V.isObj, Bool.false_eq_true, if_false]

theorem Became.notLit {w w' : CallW} {c v r} (h : Became w w' c v r) (g : Ext w w') (hv : ∀ a, v = .obj a → ¬ Avail w a) :
    ∀ a, r.2 = .obj a → ((w'.obj a).typeId = T_STRING_SO → w'.konst a = false) := by
  cases h with
  | same h hr =>
    subst hr
    intro a e ht
    rw [g.obj a (hv a e)] at ht
    rw [g.konst a (hv a e)]
    cases hk : w.konst a with
    | false => rfl
    | true => exact absurd ⟨a, e, ht, hk⟩ h
  | copy a b e hb hn hr hs hk ho hk' =>
    subst hr
    intro a e ht
    cases e
    exact hk'

theorem passRest_val (p : Param) (hp : p.byRef = false) (arr : Word) (cs : Word → Bool) (vs : Word → V) :
    ∀ (xs : List Arg) (w : CallW), (∀ p, w.stk p = held (cs p) (vs p)) → Inj w → xs.length ≤ w.room →
      (∀ x ∈ xs, ArgOk w (x.value vs)) →
      ∃ w' rs, passRest w p arr (xs.map Arg.elem) = .ok (w', rs.map fun r => held r.1 r.2) ∧ Ext w w' ∧
        AllBecame w w' cs vs xs rs ∧ w'.items arr = w.items arr ++ rs.map (fun r => enc r.2) ∧
        ∀ b, b ≠ arr → w'.items b = w.items b
  | [], w, _, _, _, _ => ⟨w, [], rfl, Ext.refl w, AllBecame.nil .., by simp, fun _ _ => rfl⟩
  | x :: xs, w, hs, hi, hm, hx => by
    have hx0 := hx x (List.mem_cons_self ..)
    obtain ⟨w1, r, e1, g1, b1, i1, m1⟩ := passVal_arg w cs vs hs x hi (by simp only [List.length_cons] at hm; omega) hx0
    have hnl := b1.notLit g1 hx0.used
    have gp := ext_push w1 arr (held r.1 r.2)
    have g2 := g1.trans gp
    obtain ⟨w2, rs, e2, g3, b2, i2, i3⟩ := passRest_val p hp arr cs vs xs (w1.push arr (held r.1 r.2))
      (fun q => by rw [g2.stk]; exact hs q) (g2.inj hi)
      (by show xs.length ≤ w1.room; simp only [List.length_cons] at hm; omega) (fun y hy => (hx y (List.mem_cons_of_mem _ hy)).ext g2)
    refine ⟨w2, r :: rs, ?_, g2.trans g3, AllBecame.cons (b1.mono gp) g2 g3 b2 hx, ?_, ?_⟩
    · rw [List.map_cons]
      unfold passRest
      unfold passOne
      simp only [hp, Bool.false_eq_true, if_false, e1, Out.bind, e2, Out.map, List.map_cons]
    · rw [i2]
      have : (w1.push arr (held r.1 r.2)).items arr = w.items arr ++ [enc r.2] := by
        simp only [CallW.push, if_true, elementAssign_value _ _ _ r.1 r.2 hnl, i1]
      rw [this, List.append_assoc]; rfl
    · intro b hb
      rw [i3 b hb]
      simp only [CallW.push, if_neg hb, i1]

/-- The values by position, without a variable-argument parameter. -/
theorem passArgs_val (cs : Word → Bool) (vs : Word → V) :
    ∀ (ps : List Param) (xs : List Arg) (w : CallW) (eff i : Nat), (∀ p ∈ ps, p.byRef = false) → (∀ p ∈ ps, p.varArgs = false) →
      ps ≠ [] → eff = i + min xs.length ps.length →
      (∀ p, w.stk p = held (cs p) (vs p)) → Inj w → xs.length < w.room →
      (∀ x ∈ xs, ArgOk w (x.value vs)) →
      ∃ w' rs, passArgs w eff i ps (xs.map Arg.elem) = .ok (w', rs.map (fun r => held r.1 r.2) ++ (xs.drop ps.length).map Arg.elem) ∧
        Ext w w' ∧ AllBecame w w' cs vs (xs.take ps.length) rs ∧ w'.items = w.items
  | [], _, _, _, _, _, _, h, _, _, _, _, _ => absurd rfl h
  | p :: ps, [], w, eff, i, _, _, _, _, _, _, _, _ =>
    ⟨w, [], rfl, Ext.refl w, by simpa using AllBecame.nil .., rfl⟩
  | p :: ps, x :: xs, w, eff, i, hr, hv, _, he, hs, hi, hm, hx => by
    have hx0 := hx x (List.mem_cons_self ..)
    obtain ⟨w1, r, e1, g1, b1, i1, m1⟩ := passVal_arg w cs vs hs x hi (by simp only [List.length_cons] at hm; omega) hx0
    have hp1 := hr p (List.mem_cons_self ..)
    have hp2 := hv p (List.mem_cons_self ..)
    by_cases hlast : eff ≤ i + 1
    · have hor : xs = [] ∨ ps = [] := by
        cases xs with
        | nil => exact .inl rfl
        | cons y ys =>
          cases ps with
          | nil => exact .inr rfl
          | cons q qs => simp only [List.length_cons] at he; omega
      have hd : xs.drop ps.length = xs := by
        rcases hor with h | h <;> subst h <;> simp
      refine ⟨w1, [r], ?_, g1, ?_, i1⟩
      · rw [List.map_cons]
        unfold passArgs passOne
        simp only [hp1, hp2, Bool.false_eq_true, if_false, e1, Out.bind, if_pos hlast, List.length_cons, List.drop_succ_cons, hd,
          List.map_cons, List.map_nil, List.cons_append, List.nil_append]
      · have ht : (x :: xs).take (p :: ps).length = [x] := by
          rcases hor with h | h <;> subst h <;> simp
        rw [ht]
        exact AllBecame.cons b1 g1 (Ext.refl _) (AllBecame.nil ..) (fun y hy => hx y (by
          rw [List.mem_singleton] at hy; subst hy; exact List.mem_cons_self ..))
    · obtain ⟨w2, rs, e2, g2, b2, i2⟩ := passArgs_val cs vs ps xs w1 eff (i + 1) (fun q hq => hr q (List.mem_cons_of_mem _ hq))
        (fun q hq => hv q (List.mem_cons_of_mem _ hq))
        (fun e => by subst e; simp at he; omega)
        (by simp only [List.length_cons] at he; omega)
        (fun q => by rw [g1.stk]; exact hs q) (g1.inj hi) (by simp only [List.length_cons] at hm; omega) (fun y hy => (hx y (List.mem_cons_of_mem _ hy)).ext g1)
      refine ⟨w2, r :: rs, ?_, g1.trans g2, ?_, i2.trans i1⟩
      · rw [List.map_cons]
        unfold passArgs passOne
        simp only [hp1, hp2, Bool.false_eq_true, if_false, e1, Out.bind, if_neg hlast, e2, Out.map, List.length_cons,
          List.drop_succ_cons, List.map_cons, List.cons_append]
      · rw [List.length_cons, List.take_succ_cons]
        exact AllBecame.cons b1 g1 g2 b2 (fun y hy => hx y (by
          rcases List.mem_cons.1 hy with h | h
          · exact h ▸ List.mem_cons_self ..
          · exact List.mem_cons_of_mem _ (List.mem_of_mem_take h)))

/-- The values by position, when the last parameter takes the variable arguments and there is at least one for it. -/
theorem passArgs_var (cs : Word → Bool) (vs : Word → V) (pv : Param) (hv1 : pv.byRef = false) (hv2 : pv.varArgs = true) :
    ∀ (ps : List Param) (xs : List Arg) (w : CallW) (eff i : Nat), (∀ p ∈ ps, p.byRef = false) → (∀ p ∈ ps, p.varArgs = false) →
      ps.length < xs.length → eff = i + ps.length + 1 →
      (∀ p, w.stk p = held (cs p) (vs p)) → Inj w → xs.length < w.room →
      (∀ x ∈ xs, ArgOk w (x.value vs)) →
      ∃ w' rs arr rest, passArgs w eff i (ps ++ [pv]) (xs.map Arg.elem) =
          .ok (w', rs.map (fun r => held r.1 r.2) ++ ⟨arr, P_OBJECT⟩ :: rest) ∧
        Ext w w' ∧ Avail w arr ∧ ¬ Avail w' arr ∧ (w'.obj arr).typeId = T_ARRAY_SO ∧
        AllBecame w w' cs vs (xs.take ps.length) rs ∧
        (∃ vr, w'.items arr = vr.map (fun r : Bool × V => enc r.2) ∧ AllBecame w w' cs vs (xs.drop ps.length) vr) ∧
        ∀ b, ¬ Avail w b → w'.items b = w.items b
  | ps, [], w, eff, i, _, _, h, _, _, _, _, _ => absurd h (by simp)
  | [], x :: xs, w, eff, i, hr, hv, _, he, hs, hi, hm, hx => by
    have hx0 := hx x (List.mem_cons_self ..)
    obtain ⟨w1, r, e1, g1, b1, i1, m1⟩ := passVal_arg w cs vs hs x hi (by simp only [List.length_cons] at hm; omega) hx0
    have hm1 : 0 < w1.room := by simp only [List.length_cons] at hm; omega
    have ga := ext_newArr w1 hm1
    have gp := ext_push w1.newArr (w1.fresh 0) (held r.1 r.2)
    have g2 := g1.trans (ga.trans gp)
    have hi1 := g1.inj hi
    have harr : ¬ Avail (w1.newArr.push (w1.fresh 0) (held r.1 r.2)) (w1.fresh 0) := by
      rintro ⟨k, hk0, hk⟩
      have hk1 : k < w1.room - 1 := hk0
      exact absurd (hi1 _ _ (by omega) hm1 hk) (by omega)
    obtain ⟨w2, rs, e2, g3, b2, i2, i3⟩ := passRest_val pv hv1 (w1.fresh 0) cs vs xs (w1.newArr.push (w1.fresh 0) (held r.1 r.2))
      (fun q => by rw [g2.stk]; exact hs q) (g2.inj hi)
      (by show xs.length ≤ w1.room - 1; simp only [List.length_cons] at hm; omega) (fun y hy => (hx y (List.mem_cons_of_mem _ hy)).ext g2)
    have hnl := (b1.mono ga).notLit (g1.trans ga) hx0.used
    refine ⟨w2, [], w1.fresh 0, rs.map fun r => held r.1 r.2, ?_, g2.trans g3, g1.avail ⟨0, hm1, rfl⟩, fun h => harr (g3.avail h), ?_,
      by simpa using AllBecame.nil .., ⟨r :: rs, ?_, ?_⟩, ?_⟩
    · rw [List.map_cons, List.nil_append]
      unfold passArgs passOne
      simp only [hv1, hv2, Bool.false_eq_true, if_false, if_true, e1, Out.bind, e2, Out.map, List.map_nil, List.nil_append]
    · rw [g3.obj _ harr]
      have : (w1.newArr.push (w1.fresh 0) (held r.1 r.2)).obj (w1.fresh 0) = ⟨T_ARRAY_SO, []⟩ := if_pos rfl
      rw [this]
    · rw [i2]
      have h1 : (w1.newArr.push (w1.fresh 0) (held r.1 r.2)).items (w1.fresh 0) = [enc r.2] := by
        have h0 : w1.newArr.items (w1.fresh 0) = [] := if_pos rfl
        simp only [CallW.push, if_true, elementAssign_value _ _ _ r.1 r.2 hnl, h0, List.nil_append]
      rw [h1]; rfl
    · exact AllBecame.cons (b1.mono (ga.trans gp)) g2 g3 b2 hx
    · intro b hb
      have hne : b ≠ w1.fresh 0 := by
        rintro rfl
        exact hb (g1.avail ⟨0, hm1, rfl⟩)
      rw [i3 b hne]
      simp only [CallW.push, if_neg hne]
      have : w1.newArr.items b = w1.items b := if_neg hne
      rw [this, i1]
  | p :: ps, x :: xs, w, eff, i, hr, hv, hlen, he, hs, hi, hm, hx => by
    have hx0 := hx x (List.mem_cons_self ..)
    obtain ⟨w1, r, e1, g1, b1, i1, m1⟩ := passVal_arg w cs vs hs x hi (by simp only [List.length_cons] at hm; omega) hx0
    have hp1 := hr p (List.mem_cons_self ..)
    have hp2 := hv p (List.mem_cons_self ..)
    obtain ⟨w2, rs, arr, rest, e2, g2, a1, a2, a3, b2, ⟨vr, a4, a5⟩, a6⟩ :=
      passArgs_var cs vs pv hv1 hv2 ps xs w1 eff (i + 1)
      (fun q hq => hr q (List.mem_cons_of_mem _ hq)) (fun q hq => hv q (List.mem_cons_of_mem _ hq))
      (by simpa using hlen) (by simp only [List.length_cons] at he; omega)
      (fun q => by rw [g1.stk]; exact hs q) (g1.inj hi) (by simp only [List.length_cons] at hm; omega) (fun y hy => (hx y (List.mem_cons_of_mem _ hy)).ext g1)
    have hne : ¬ eff ≤ i + 1 := by simp only [List.length_cons] at he; omega
    refine ⟨w2, r :: rs, arr, rest, ?_, g1.trans g2, g1.avail a1, a2, a3, ?_, ⟨vr, a4, ?_⟩, ?_⟩
    · rw [List.map_cons, List.cons_append]
      unfold passArgs passOne
      simp only [hp1, hp2, Bool.false_eq_true, if_false, e1, Out.bind, if_neg hne, e2, Out.map, List.map_cons, List.cons_append]
    · rw [List.length_cons, List.take_succ_cons]
      exact AllBecame.cons b1 g1 g2 b2 (fun y hy => hx y (by
          rcases List.mem_cons.1 hy with h | h
          · exact h ▸ List.mem_cons_self ..
          · exact List.mem_cons_of_mem _ (List.mem_of_mem_take h)))
    · rw [List.length_cons, List.drop_succ_cons]
      exact a5.pre g1 (fun y hy => hx y (List.mem_cons_of_mem _ (List.mem_of_mem_drop hy)))
    · intro b hb
      rw [a6 b (fun h => hb (g1.avail h)), i1]

/-- Plain default values are copied. -/
theorem dflts_plain (call : CallW → Word → Out (CallW × Stk)) (w : CallW) :
    ∀ (ps : List Param), (∀ p ∈ ps, ∃ v : V, p.dflt = enc v ∧ ∀ a, v ≠ .obj a ∧ v ≠ .fn a ∧ v ≠ .type a) →
      dflts call w ps = .ok (w, ps.map Param.dflt)
  | [], _ => rfl
  | p :: ps, h => by
    obtain ⟨v, e, hv⟩ := h p (List.mem_cons_self ..)
    have ih := dflts_plain call w ps (fun q hq => h q (List.mem_cons_of_mem _ hq))
    have h1 : dfltOne call w p = .ok (w, p.dflt) := by
      unfold dfltOne
      rw [if_pos]
      rw [e]
      cases v with
      | obj a => exact absurd rfl (hv a).1
      | fn a => exact absurd rfl (hv a).2.1
      | type a => exact absurd rfl (hv a).2.2
      | undef => exact .inl rfl
      | null => exact .inr (.inl rfl)
      | int _ => exact .inr (.inr (.inl rfl))
      | bool _ => exact .inr (.inr (.inr (.inl rfl)))
      | flt _ => exact .inr (.inr (.inr (.inr rfl)))
    unfold dflts
    simp only [h1, Out.bind, ih, Out.map, List.map_cons]

/-- What is assumed of a call: the variables hold `vs`; the allocator gives each address once and none in use;
arguments are ordinary values. -/
structure Caller (w : CallW) (cs : Word → Bool) (vs : Word → V) (xs : List Arg) : Prop where
  holds : Holds w.toWorld cs vs
  inj : Inj w
  room : xs.length < w.room
  vars : ∀ q a, vs q = .obj a → ¬ Avail w a
  args : ∀ x ∈ xs, ArgOk w (x.value vs)

/-- The function has only by-value parameters, only the last may take variable arguments (the compiler enforces this),
and default values are constants that are not strings. -/
structure Simple (ps : List Param) : Prop where
  byVal : ∀ p ∈ ps, p.byRef = false
  last : ∀ p ∈ ps.dropLast, p.varArgs = false
  dflt : ∀ p ∈ ps, ∃ v : V, p.dflt = enc v ∧ ∀ a, v ≠ .obj a ∧ v ≠ .fn a ∧ v ≠ .type a

/-- The elements of the frame, with the relation of each to its argument. -/
theorem bind_core (call : CallW → Word → Out (CallW × Stk)) (w : CallW) (cs : Word → Bool) (vs : Word → V) (ps : List Param)
    (xs : List Arg) (h : Caller w cs vs xs) (hp : Simple ps) (hk : xs.length < 16) :
    ∃ (w' : CallW) (fv : List (Bool × V)), bindArgs call w ps (xs.map Arg.elem) = .ok (w', fv.map fun r : Bool × V => held r.1 r.2) ∧ Ext w w' ∧
      fv.length = ps.length ∧ NewOnce w fv ∧
      (∀ (i : Nat) (p : Param), ps[i]? = some p →
        match xs[i]? with
        | none => ∃ v : V, p.dflt = enc v ∧ (∀ a, v ≠ .obj a) ∧ fv[i]? = some (false, v)
        | some x =>
          if p.varArgs then ∃ (arr : Word) (vr : List (Bool × V)), fv[i]? = some (false, .obj arr) ∧ Avail w arr ∧ ¬ Avail w' arr ∧
            (w'.obj arr).typeId = T_ARRAY_SO ∧ w'.items arr = vr.map (fun r : Bool × V => enc r.2) ∧
            AllBecame w w' cs vs (xs.drop i) vr
          else ∃ r, fv[i]? = some r ∧ Became w w' (x.const cs) (x.value vs) r) ∧
      ∀ b, ¬ Avail w b → w'.items b = w.items b := by
  have hg : givenArgs (xs.map Arg.elem) = xs.map Arg.elem := by
    unfold givenArgs argCount
    rw [List.length_map, Nat.mod_eq_of_lt hk, Nat.sub_self, List.drop_zero]
  have hdf : ∀ n, dflts call w (ps.drop n) = .ok (w, (ps.drop n).map Param.dflt) := fun n =>
    dflts_plain call w _ (fun p hm => hp.dflt p (List.mem_of_mem_drop hm))
  have hdf' : ∀ w' n, dflts call w' (ps.drop n) = .ok (w', (ps.drop n).map Param.dflt) := fun w' n =>
    dflts_plain call w' _ (fun p hm => hp.dflt p (List.mem_of_mem_drop hm))
  -- the default values as values
  have hdv : ∀ qs : List Param, (∀ p ∈ qs, p ∈ ps) → ∃ dv : List V, qs.map Param.dflt = dv.map enc ∧
      ∀ v ∈ dv, ∀ a, v ≠ .obj a := by
    intro qs
    induction qs with
    | nil => exact fun _ => ⟨[], rfl, by simp⟩
    | cons q qs ih =>
      intro hq
      obtain ⟨v, e, hv⟩ := hp.dflt q (hq q (List.mem_cons_self ..))
      obtain ⟨dv, e2, h2⟩ := ih (fun p hm => hq p (List.mem_cons_of_mem _ hm))
      refine ⟨v :: dv, by rw [List.map_cons, e, e2]; rfl, ?_⟩
      intro u hu a
      rcases List.mem_cons.1 hu with rfl | hu
      · exact (hv a).1
      · exact h2 u hu a
  obtain ⟨dv, hdv1, hdv2⟩ := hdv (ps.drop xs.length) (fun p hm => List.mem_of_mem_drop hm)
  have hdl : dv.length = ps.length - xs.length := by
    have := congrArg List.length hdv1
    simpa using this.symm
  have hdg : ∀ i p, ps[i]? = some p → xs.length ≤ i → ∃ v, p.dflt = enc v ∧ (∀ a, v ≠ .obj a) ∧ dv[i - xs.length]? = some v := by
    intro i p hi hle
    have h1 : ((ps.drop xs.length).map Param.dflt)[i - xs.length]? = some p.dflt := by
      rw [List.getElem?_map, List.getElem?_drop, show xs.length + (i - xs.length) = i from by omega, hi]; rfl
    rw [hdv1, List.getElem?_map] at h1
    cases hd : dv[i - xs.length]? with
    | none => rw [hd] at h1; simp at h1
    | some v =>
      rw [hd] at h1
      have hm := List.mem_of_getElem? hd
      exact ⟨v, by simpa using h1.symm, hdv2 v hm, rfl⟩
  have honce : ∀ rs : List (Bool × V), NewOnce w rs → NewOnce w (rs ++ dv.map fun v => (false, v)) := by
    intro rs hr
    refine List.pairwise_append.2 ⟨hr, ?_, ?_⟩
    · refine List.pairwise_map.2 (List.Pairwise.imp_of_mem (R := fun _ _ => True) ?_ (List.pairwise_of_forall (fun _ _ => trivial)))
      intro a b ha _ _ c hc
      exact absurd hc (hdv2 a ha c)
    · intro r _ q hq b _ hb
      obtain ⟨v, hv, rfl⟩ := List.mem_map.1 hq
      exact absurd hb (hdv2 v hv b)
  by_cases hne : 0 < (xs.map Arg.elem).length ∧ 0 < ps.length
  · by_cases hva : ∃ qs pv, ps = qs ++ [pv] ∧ pv.varArgs = true ∧ qs.length < xs.length
    · -- variable arguments
      obtain ⟨qs, pv, rfl, hv, hlen⟩ := hva
      have hq1 : ∀ p ∈ qs, p.varArgs = false := fun p hm => hp.last p (by rw [List.dropLast_concat]; exact hm)
      obtain ⟨w', rs, arr, rest, e, g, a1, a2, a3, b, ⟨vr, a4, a5⟩, a6⟩ :=
        passArgs_var cs vs pv (hp.byVal pv (by simp)) hv qs xs w (min xs.length (qs ++ [pv]).length) 0
          (fun p hm => hp.byVal p (by simp [hm])) hq1 hlen (by simp only [List.length_append, List.length_singleton]; omega)
          h.holds h.inj h.room h.args
      have hrl : rs.length = qs.length := by rw [b.len, List.length_take]; omega
      refine ⟨w', rs ++ [((false, .obj arr) : Bool × V)], ?_, g, by simp [hrl], ?_, ?_, a6⟩
      · unfold bindArgs
        simp only [hg]
        rw [if_pos hne, List.length_map, e]
        simp only [Out.bind, hdf', Out.map]
        have : (qs ++ [pv]).drop xs.length = [] := by
          apply List.drop_eq_nil_of_le; simp only [List.length_append, List.length_singleton]; omega
        rw [this]
        have h2 : (rs.map (fun r => held r.1 r.2) ++ ⟨arr, P_OBJECT⟩ :: rest ++ [].map Param.dflt).take (qs ++ [pv]).length =
            (rs ++ [((false, .obj arr) : Bool × V)]).map fun r => held r.1 r.2 := by
          have e3 : rs.map (fun r => held r.1 r.2) ++ ⟨arr, P_OBJECT⟩ :: rest ++ [].map Param.dflt =
              (rs ++ [((false, .obj arr) : Bool × V)]).map (fun r => held r.1 r.2) ++ rest := by
            simp [held, enc, P_OBJECT]
          rw [e3, List.take_append_of_le_length (by simp [hrl]), List.take_of_length_le (by simp [hrl])]
        rw [h2]
      · refine List.pairwise_append.2 ⟨b.once, List.pairwise_singleton .., ?_⟩
        intro r hr q hq c hc hd hav
        rw [List.mem_singleton] at hq
        subst hq
        cases hd
        obtain ⟨i, hi, rfl⟩ := List.getElem_of_mem hr
        have hi' : i < (xs.take qs.length).length := by rw [← b.len]; exact hi
        cases b.all i hi' hi with
        | same _ e =>
          rw [e] at hc
          exact (h.args _ (List.mem_of_mem_take (List.getElem_mem _))).used _ hc a1
        | copy a b' e hb' hn er hs hk ho hk' =>
          rw [er] at hc
          cases hc
          rw [ho] at a3
          exact absurd a3 (show ¬ T_STRING_SO = T_ARRAY_SO by decide)
      · intro i p hi
        by_cases hlt : i < qs.length
        · have hx : i < xs.length := by omega
          have hpm : p ∈ qs := by
            rw [List.getElem?_append_left hlt] at hi
            exact List.mem_of_getElem? hi
          rw [List.getElem?_eq_getElem hx]
          simp only [hq1 p hpm, Bool.false_eq_true, if_false]
          have hir : i < rs.length := by omega
          have hb := b.all i (by rw [List.length_take]; omega) hir
          rw [List.getElem_take] at hb
          exact ⟨rs[i], by rw [List.getElem?_append_left hir, List.getElem?_eq_getElem hir], hb⟩
        · have hil : i < (qs ++ [pv]).length := by
            rw [List.getElem?_eq_some_iff] at hi
            exact hi.1
          have hie : i = qs.length := by rw [List.length_append, List.length_singleton] at hil; omega
          subst hie
          have hpv : p = pv := by
            rw [List.getElem?_append_right (Nat.le_refl _), Nat.sub_self] at hi
            simpa using hi.symm
          subst hpv
          rw [List.getElem?_eq_getElem hlen]
          simp only [hv, if_true]
          exact ⟨arr, vr, by rw [List.getElem?_append_right (by omega), hrl, Nat.sub_self]; rfl, a1, a2, a3, a4, a5⟩
    · -- no argument is left for a variable-argument parameter: it acts as an ordinary one
      have hps : ps ≠ [] := fun e => by subst e; simp at hne
      have key : ∃ w' rs, passArgs w (min xs.length ps.length) 0 ps (xs.map Arg.elem) =
          .ok (w', rs.map (fun r : Bool × V => held r.1 r.2) ++ (xs.drop ps.length).map Arg.elem) ∧
          Ext w w' ∧ AllBecame w w' cs vs (xs.take ps.length) rs ∧ w'.items = w.items := by
        by_cases hall : ∀ p ∈ ps, p.varArgs = false
        · exact passArgs_val cs vs ps xs w _ 0 hp.byVal hall hps (by omega) h.holds h.inj h.room h.args
        · -- the last parameter is reached only after all arguments are used
          have hsplit : ps = ps.dropLast ++ [ps.getLast hps] := (List.dropLast_concat_getLast hps).symm
          have hlast : (ps.getLast hps).varArgs = true := by
            cases hb : (ps.getLast hps).varArgs with
            | true => rfl
            | false =>
              exfalso
              apply hall
              intro p hm
              rw [hsplit] at hm
              rcases List.mem_append.1 hm with hm | hm
              · exact hp.last p hm
              · rw [List.mem_singleton] at hm; rw [hm]; exact hb
          have hxle : xs.length ≤ ps.dropLast.length := by
            rcases Nat.lt_or_ge ps.dropLast.length xs.length with hh | hh
            · exact absurd ⟨ps.dropLast, ps.getLast hps, hsplit, hlast, hh⟩ hva
            · exact hh
          have hdl0 : ps.dropLast ≠ [] := by
            intro e
            rw [e] at hxle
            have := hne.1
            rw [List.length_map] at this
            simp at hxle
            rw [hxle] at this
            simp at this
          obtain ⟨w', rs, e, g, b, i⟩ := passArgs_val cs vs ps.dropLast xs w (min xs.length ps.length) 0
            (fun p hm => hp.byVal p ((List.dropLast_sublist ps).mem hm)) hp.last hdl0
            (by rw [List.length_dropLast] at hxle ⊢; omega) h.holds h.inj h.room h.args
          -- the loop does not look at parameters beyond the arguments
          have ext : ∀ (qs : List Param) (ys : List Stk) (z : Param) (u : CallW) (eff j : Nat), ys.length ≤ qs.length →
              (∀ p ∈ qs, p.varArgs = false) → passArgs u eff j (qs ++ [z]) ys = passArgs u eff j qs ys := by
            intro qs
            induction qs with
            | nil =>
              intro ys z u eff j hl _
              have : ys = [] := List.eq_nil_of_length_eq_zero (by simpa using hl)
              subst this
              unfold passArgs
              rfl
            | cons q qs ih =>
              intro ys z u eff j hl hq
              cases ys with
              | nil => unfold passArgs; rfl
              | cons y ys =>
                rw [List.cons_append]
                unfold passArgs
                have := hq q (List.mem_cons_self ..)
                simp only [this, Bool.false_eq_true, if_false]
                congr 1
                funext r
                split
                · rfl
                · rw [ih ys z _ _ _ (by simpa using hl) (fun p hm => hq p (List.mem_cons_of_mem _ hm))]
          refine ⟨w', rs, ?_, g, ?_, i⟩
          · rw [List.drop_eq_nil_of_le hxle] at e
            rw [List.drop_eq_nil_of_le (by rw [List.length_dropLast] at hxle; omega)]
            rw [← e]
            generalize min xs.length ps.length = eff
            conv => lhs; rw [hsplit]
            exact ext _ _ _ _ _ _ (by simpa using hxle) hp.last
          · rw [List.take_of_length_le hxle] at b
            rw [List.take_of_length_le (by rw [List.length_dropLast] at hxle; omega)]
            exact b
      obtain ⟨w', rs, e, g, b, i1⟩ := key
      have hrl : rs.length = min ps.length xs.length := by rw [b.len, List.length_take]
      refine ⟨w', rs ++ dv.map (fun v => (false, v)), ?_, g, ?_, honce rs b.once, ?_, fun b _ => by rw [i1]⟩
      · unfold bindArgs
        simp only [hg]
        rw [if_pos hne, List.length_map, e]
        simp only [Out.bind, hdf', Out.map]
        congr 2
        rw [hdv1]
        have hmm : dv.map enc = (dv.map fun v => ((false, v) : Bool × V)).map fun r => held r.1 r.2 := by
          rw [List.map_map]; rfl
        rw [hmm]
        by_cases hle : ps.length ≤ xs.length
        · have : dv = [] := List.eq_nil_of_length_eq_zero (by omega)
          subst this
          simp only [List.map_nil, List.append_nil]
          rw [List.take_append_of_le_length (by rw [List.length_map]; omega), List.take_of_length_le (by rw [List.length_map]; omega)]
        · rw [List.drop_eq_nil_of_le (by omega)]
          simp only [List.map_nil, List.append_nil]
          rw [← List.map_append, List.take_of_length_le]
          simp only [List.length_map, List.length_append]
          omega
      · simp only [List.length_append, List.length_map]; omega
      · intro i p hi
        have hil : i < ps.length := by
          rw [List.getElem?_eq_some_iff] at hi
          exact hi.1
        by_cases hx : i < xs.length
        · rw [List.getElem?_eq_getElem hx]
          have hpv : p.varArgs = false := by
            cases hc : p.varArgs with
            | false => rfl
            | true =>
              exfalso
              apply hva
              have hps : ps ≠ [] := fun e => by subst e; simp at hil
              have hsplit : ps = ps.dropLast ++ [ps.getLast hps] := (List.dropLast_concat_getLast hps).symm
              have hnd : ¬ i < ps.dropLast.length := by
                intro hh
                have : p ∈ ps.dropLast := by
                  rw [hsplit, List.getElem?_append_left hh] at hi
                  exact List.mem_of_getElem? hi
                rw [hp.last p this] at hc
                exact absurd hc (by decide)
              refine ⟨ps.dropLast, ps.getLast hps, hsplit, ?_, by omega⟩
              have hie : i = ps.dropLast.length := by
                rw [List.length_dropLast] at hnd ⊢; omega
              rw [hsplit, hie, List.getElem?_append_right (Nat.le_refl _), Nat.sub_self] at hi
              have : ps.getLast hps = p := by simpa using hi
              rw [this]; exact hc
          simp only [hpv, Bool.false_eq_true, if_false]
          have hir : i < rs.length := by omega
          have hb := b.all i (by rw [List.length_take]; omega) hir
          rw [List.getElem_take] at hb
          exact ⟨rs[i], by rw [List.getElem?_append_left hir, List.getElem?_eq_getElem hir], hb⟩
        · rw [List.getElem?_eq_none (by omega)]
          obtain ⟨v, h1, h2, h3⟩ := hdg i p hi (by omega)
          refine ⟨v, h1, h2, ?_⟩
          rw [List.getElem?_append_right (by omega), List.getElem?_map]
          rw [show i - rs.length = i - xs.length from by omega, h3]; rfl
  · refine ⟨w, (dv.map fun v => (false, v)).take ps.length, ?_, Ext.refl w, ?_, ?_, ?_, fun _ _ => rfl⟩
    · unfold bindArgs
      simp only [hg, if_neg hne, Out.bind]
      rw [List.length_map, hdf', hdv1]
      simp only [Out.map]
      congr 2
      by_cases hps : ps.length = 0
      · rw [hps]; simp
      · have hx0 : xs = [] := by
          rw [List.length_map] at hne
          exact List.eq_nil_of_length_eq_zero (by omega)
        subst hx0
        simp only [List.map_nil, List.nil_append]
        rw [List.map_take, List.map_map]; rfl
    · rw [List.length_take, List.length_map, hdl]
      rw [List.length_map] at hne
      omega
    · have h1 := honce [] .nil
      rw [List.nil_append] at h1
      exact List.Pairwise.sublist (List.take_sublist _ _) h1
    · intro i p hi
      have hil : i < ps.length := by
        rw [List.getElem?_eq_some_iff] at hi
        exact hi.1
      rw [List.length_map] at hne
      have hx0 : xs.length = 0 := by omega
      rw [List.getElem?_eq_none (by omega)]
      obtain ⟨v, h1, h2, h3⟩ := hdg i p hi (by omega)
      refine ⟨v, h1, h2, ?_⟩
      rw [List.getElem?_take_of_lt hil, List.getElem?_map]
      rw [hx0] at h3
      rw [Nat.sub_zero] at h3
      rw [h3]; rfl


/-- The parameters' variables laid over the others. -/
def over : List Word → List (Bool × V) → (Word → Bool × V) → Word → Bool × V
  | p :: ps, r :: rs, f => fun q => if q = p then r else over ps rs f q
  | _, _, f => f

theorem over_out (f : Word → Bool × V) (q : Word) : ∀ (ps : List Word) (rs : List (Bool × V)), q ∉ ps → over ps rs f q = f q
  | [], _, _ => by unfold over; rfl
  | _ :: _, [], _ => rfl
  | p :: ps, r :: rs, h => by
    unfold over
    rw [if_neg (fun e : q = p => h (by rw [e]; exact List.mem_cons_self ..))]
    exact over_out f q ps rs (fun hm => h (List.mem_cons_of_mem _ hm))

theorem over_in (f : Word → Bool × V) : ∀ (ps : List Word) (rs : List (Bool × V)), ps.Nodup → ∀ i (h : i < ps.length) (h' : i < rs.length),
    over ps rs f ps[i] = rs[i]
  | [], _, _, i, h, _ => absurd h (by simp)
  | _ :: _, [], _, i, _, h' => absurd h' (by simp)
  | p :: ps, r :: rs, hn, 0, _, _ => if_pos rfl
  | p :: ps, r :: rs, hn, i + 1, h, h' => by
    rw [List.nodup_cons] at hn
    unfold over
    simp only [List.getElem_cons_succ]
    have hi : i < ps.length := by simpa using h
    rw [if_neg (fun e : ps[i] = p => hn.1 (by rw [← e]; exact List.getElem_mem _))]
    exact over_in f ps rs hn.2 i (by simpa using h) (by simpa using h')

theorem place_stk (w : CallW) (f : Word → Bool × V) (hf : ∀ q, w.stk q = held (f q).1 (f q).2) (q : Word) :
    ∀ (ps : List Word) (rs : List (Bool × V)), (place w ps (rs.map fun r => held r.1 r.2)).stk q =
      held (over ps rs f q).1 (over ps rs f q).2
  | [], rs => by unfold place over; exact hf q
  | p :: ps, [] => by unfold place over; exact hf q
  | p :: ps, r :: rs => by
    rw [List.map_cons]
    unfold place over
    by_cases e : q = p
    · simp only [if_pos e]
    · simp only [if_neg e]; exact place_stk w f hf q ps rs

theorem place_rest (w : CallW) : ∀ (ps : List Word) (ss : List Stk), (place w ps ss).obj = w.obj ∧
    (place w ps ss).hasSetter = w.hasSetter
  | [], _ => by unfold place; exact ⟨rfl, rfl⟩
  | _ :: _, [] => by unfold place; exact ⟨rfl, rfl⟩
  | p :: ps, s :: ss => by unfold place; exact place_rest w ps ss

/-! ## `ref` parameters -/

/-- What one argument conversion may change: only objects at addresses just given by the allocator. -/
structure Kept (w w' : CallW) : Prop where
  stk : w'.stk = w.stk
  fresh : ∃ n, w'.room ≤ w.room - n ∧ ∀ k, w'.fresh k = w.fresh (k + n)
  obj : ∀ a, ¬ Avail w a → w'.obj a = w.obj a
  ref : ∀ a, ¬ Avail w a → w'.refStk a = w.refStk a

theorem Kept.refl (w : CallW) : Kept w w :=
  ⟨rfl, ⟨0, Nat.le_refl _, fun _ => rfl⟩, fun _ _ => rfl, fun _ _ => rfl⟩

theorem Kept.avail {w w' : CallW} (h : Kept w w') {a : Word} (ha : Avail w' a) : Avail w a := by
  obtain ⟨n, hr, hn⟩ := h.fresh
  obtain ⟨k, hk, rfl⟩ := ha
  exact ⟨k + n, by omega, (hn k).symm⟩

theorem Kept.inj {w w' : CallW} (h : Kept w w') (hi : Inj w) : Inj w' := by
  obtain ⟨n, hr, hn⟩ := h.fresh
  intro j k hj hk e
  rw [hn, hn] at e
  have := hi _ _ (by omega) (by omega) e
  omega

theorem Kept.trans {w w1 w2 : CallW} (h : Kept w w1) (g : Kept w1 w2) : Kept w w2 := by
  refine ⟨g.stk.trans h.stk, ?_, ?_, ?_⟩
  · obtain ⟨n, hr, hn⟩ := h.fresh
    obtain ⟨m, hr', hm⟩ := g.fresh
    exact ⟨m + n, by omega, fun k => by rw [hm, hn, Nat.add_assoc]⟩
  · intro a ha
    rw [g.obj a (fun hh => ha (h.avail hh)), h.obj a ha]
  · intro a ha
    rw [g.ref a (fun hh => ha (h.avail hh)), h.ref a ha]

theorem kept_newRef (w : CallW) (hm : 0 < w.room) (p : Word) : Kept w (w.newRef p) :=
  ⟨rfl, ⟨1, Nat.le_refl _, fun _ => rfl⟩, fun a ha => if_neg (fun e : a = w.fresh 0 => ha ⟨0, hm, e.symm⟩),
    fun a ha => if_neg (fun e : a = w.fresh 0 => ha ⟨0, hm, e.symm⟩)⟩

theorem kept_newStr (w : CallW) (hm : 0 < w.room) (t : List UInt8) : Kept w (w.newStr t) :=
  ⟨rfl, ⟨1, Nat.le_refl _, fun _ => rfl⟩, fun a ha => if_neg (fun e : a = w.fresh 0 => ha ⟨0, hm, e.symm⟩), fun _ _ => rfl⟩

theorem kept_passVal (w : CallW) (hm : 0 < w.room) (a : Stk) : Kept w (passVal w a).1 ∧ w.room ≤ (passVal w a).1.room + 1 := by
  unfold passVal
  simp only []
  generalize (if isObjOf w.toMem T_VAR_REF _ = true then _ else _ : Stk) = x
  split
  · exact ⟨kept_newStr w hm _, by show w.room ≤ w.room - 1 + 1; omega⟩
  · exact ⟨Kept.refl w, Nat.le_succ _⟩

theorem isObjOf_ptr (m : Mem) (t : Nat) (p : Word) : isObjOf m t ⟨p, P_PTR_STK⟩ = false := by
  have : has P_PTR_STK (P_OBJECT ||| P_OBJECT_IN_CONTAINER) = false := by decide
  simp [isObjOf, this]

theorem passRef_ptr (w : CallW) (p : Word) : passRef w ⟨p, P_PTR_STK⟩ = .ok (w.newRef p, ⟨w.fresh 0, P_OBJECT⟩) := by
  have : has P_PTR_STK P_PTR_STK = true := by decide
  unfold passRef
  simp only [isObjOf_ptr, Bool.false_eq_true, if_false, this, if_true]

/-- The element is a reference to the variable at `q`. -/
def RefersTo (w : CallW) (s : Stk) (q : Word) : Prop := ∃ b, s = ⟨b, P_OBJECT⟩ ∧ ¬ Avail w b ∧ (w.obj b).typeId = T_VAR_REF ∧ w.refStk b = q

theorem RefersTo.mono {w w' : CallW} {s q} (h : RefersTo w s q) (g : Kept w w') : RefersTo w' s q := by
  obtain ⟨b, e, h1, h2, h3⟩ := h
  exact ⟨b, e, fun x => h1 (g.avail x), by rw [g.obj b h1]; exact h2, by rw [g.ref b h1]; exact h3⟩

theorem RefersTo.load {w : CallW} {s q} (h : RefersTo w s q) : loadRef w s = .ok ⟨q, P_PTR_STK⟩ := by
  obtain ⟨b, rfl, h1, h2, rfl⟩ := h
  have : isObjOf w.toMem T_VAR_REF ⟨b, P_OBJECT⟩ = true := by
    have h0 : has P_OBJECT (P_OBJECT ||| P_OBJECT_IN_CONTAINER) = true := by decide
    simp [isObjOf, h0, h2]
  unfold loadRef
  rw [if_pos this]

theorem passOne_kept (w : CallW) (hm : 0 < w.room) (hi : Inj w) (p : Param) (a : Stk)
    (hr : p.byRef = true → ∃ q, a = ⟨q, P_PTR_STK⟩) :
    ∃ w1 a1, passOne w p a = .ok (w1, a1) ∧ Kept w w1 ∧ w.room ≤ w1.room + 1 ∧
      ∀ q, p.byRef = true → a = ⟨q, P_PTR_STK⟩ → RefersTo w1 a1 q := by
  unfold passOne
  cases hp : p.byRef with
  | false =>
    simp only [Bool.false_eq_true, if_false]
    exact ⟨_, _, rfl, (kept_passVal w hm a).1, (kept_passVal w hm a).2, fun _ h => absurd h (by decide)⟩
  | true =>
    obtain ⟨q, rfl⟩ := hr hp
    refine ⟨_, _, by rw [if_pos rfl, passRef_ptr], kept_newRef w hm q, by show w.room ≤ w.room - 1 + 1; omega, ?_⟩
    intro q' _ e
    have e' : q = q' := congrArg Stk.value e
    subst e'
    refine ⟨w.fresh 0, rfl, ?_, ?_, ?_⟩
    · rintro ⟨k, hk0, hk⟩
      have hk1 : k < w.room - 1 := hk0
      exact absurd (hi _ _ (by omega) hm hk) (by omega)
    · have : (w.newRef q).obj (w.fresh 0) = ⟨T_VAR_REF, []⟩ := if_pos rfl
      rw [this]
    · exact if_pos rfl

theorem passArgs_kept :
    ∀ (ps : List Param) (as : List Stk) (w : CallW) (eff i : Nat), (∀ p ∈ ps, p.varArgs = false) →
      ps ≠ [] → eff = i + min as.length ps.length → Inj w → as.length < w.room →
      (∀ (j : Nat) (p : Param) (a : Stk), ps[j]? = some p → as[j]? = some a → p.byRef = true → ∃ q, a = ⟨q, P_PTR_STK⟩) →
      ∃ w' rs, passArgs w eff i ps as = .ok (w', rs) ∧ Kept w w' ∧ rs.length = as.length ∧
        ∀ (j : Nat) (p : Param) (q : Word), ps[j]? = some p → p.byRef = true → as[j]? = some ⟨q, P_PTR_STK⟩ →
          ∃ s, rs[j]? = some s ∧ RefersTo w' s q
  | [], _, _, _, _, _, h, _, _, _, _ => absurd rfl h
  | p :: ps, [], w, eff, i, _, _, _, _, _, _ => ⟨w, [], rfl, Kept.refl w, rfl, by simp⟩
  | p :: ps, a :: as, w, eff, i, hv, _, he, hi, hm, hr => by
    have hm0 : 0 < w.room := by simp only [List.length_cons] at hm; omega
    obtain ⟨w1, a1, e1, k1, m1, r1⟩ := passOne_kept w hm0 hi p a (hr 0 p a rfl rfl)
    have hp2 := hv p (List.mem_cons_self ..)
    by_cases hlast : eff ≤ i + 1
    · refine ⟨w1, a1 :: as, ?_, k1, rfl, ?_⟩
      · unfold passArgs
        simp only [e1, Out.bind, hp2, Bool.false_eq_true, if_false, if_pos hlast]
      · intro j p' q hp hb ha
        cases j with
        | zero =>
          have h1 : p = p' := by simpa using hp
          have h2 : a = ⟨q, P_PTR_STK⟩ := by simpa using ha
          subst h1
          exact ⟨a1, rfl, r1 q hb h2⟩
        | succ j =>
          have h1 := (List.getElem?_eq_some_iff.1 hp).1
          have h2 := (List.getElem?_eq_some_iff.1 ha).1
          simp only [List.length_cons] at h1 h2 he
          omega
    · obtain ⟨w2, rs, e2, k2, l2, r2⟩ := passArgs_kept ps as w1 eff (i + 1) (fun q hq => hv q (List.mem_cons_of_mem _ hq))
        (fun e => by subst e; simp at he; omega) (by simp only [List.length_cons] at he; omega)
        (k1.inj hi) (by simp only [List.length_cons] at hm; omega) (fun j p' a' h1 h2 => hr (j + 1) p' a' h1 h2)
      refine ⟨w2, a1 :: rs, ?_, k1.trans k2, by simp [l2], ?_⟩
      · unfold passArgs
        simp only [e1, Out.bind, hp2, Bool.false_eq_true, if_false, if_neg hlast, e2, Out.map]
      · intro j p' q hp hb ha
        cases j with
        | zero =>
          have h1 : p = p' := by simpa using hp
          have h2 : a = ⟨q, P_PTR_STK⟩ := by simpa using ha
          subst h1
          exact ⟨a1, rfl, (r1 q hb h2).mono k2⟩
        | succ j =>
          exact r2 j p' q hp hb ha

/-! ## Returned values -/

theorem retOne_held (w : CallW) (c : Bool) (v : V) (hr : ∀ a, v = .obj a → (w.obj a).typeId ≠ T_VAR_REF) :
    retOne w (held c v) = passVal w (held c v) := by
  have h0 : isObjOf w.toMem T_VAR_REF (held c v) = false := by
    rw [isObjOf_held]
    cases v with
    | obj a => simpa [V.isObjOf] using hr a rfl
    | _ => rfl
  unfold passVal retOne
  simp only [ptr_held, slot_held, h0, Bool.false_eq_true, if_false]

theorem retAll_held : ∀ (vals : List (Bool × V)) (w : CallW), Inj w → vals.length ≤ w.room → (∀ r ∈ vals, ArgOk w r.2) →
    ∃ (w' : CallW) (rs : List (Bool × V)), retAll w (vals.map fun r : Bool × V => held r.1 r.2) = (w', rs.map fun r : Bool × V => held r.1 r.2) ∧ Ext w w' ∧
      w.room ≤ w'.room + vals.length ∧ rs.length = vals.length ∧
      ∀ (i : Nat) (h : i < vals.length) (h' : i < rs.length), Became w w' (vals[i]).1 (vals[i]).2 rs[i]
  | [], w, _, _, _ => ⟨w, [], rfl, Ext.refl w, by simp, rfl, fun i h => absurd h (by simp)⟩
  | v :: vals, w, hi, hm, hx => by
    have hm' : vals.length + 1 ≤ w.room := by simpa using hm
    obtain ⟨w1, rs, e, g, m, l, b⟩ := retAll_held vals w hi (by omega) (fun r hr => hx r (List.mem_cons_of_mem _ hr))
    have hv := hx v (List.mem_cons_self ..)
    obtain ⟨r, e1, g1, b1, -, m1⟩ := passVal_held w1 v.1 v.2 (g.inj hi) (by omega) (hv.ext g).notRef
    refine ⟨(passVal w1 (held v.1 v.2)).1, r :: rs, ?_, g.trans g1, by simp only [List.length_cons]; omega, by simp [l], ?_⟩
    · rw [List.map_cons]
      unfold retAll
      simp only [e, retOne_held w1 v.1 v.2 (hv.ext g).notRef, List.map_cons]
      rw [e1]
    · intro i h h'
      cases i with
      | zero => exact b1.pre g hv.used
      | succ i => exact (b i (by simpa using h) (by simpa using h')).mono g1

theorem handOver_get (mem : Nat → Stk) (start locals cur m i : Nat) (hi : i < m) (n1 : Nat)
    (hn : (max ((cur : Int) - ((start + locals : Nat) : Int)) (m : Int)).toNat = n1)
    (h : i < (handOver mem start locals cur m).length := by simpa [handOver] using hi) :
    (handOver mem start locals cur m)[i] =
      if cur ≤ start + locals + n1 - i - 1 ∧
          start + locals + n1 - i - 1 < cur + ((m : Int) - ((cur : Int) - ((start + locals : Nat) : Int))).toNat then mkUndefined
      else mem (start + locals + n1 - i - 1) := by
  subst hn
  simp only [handOver, List.getElem_map, List.getElem_range]

end Verif.Vm
