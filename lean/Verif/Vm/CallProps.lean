import Verif.Vm.CallLemmas
/-
C36 (argument binding) and C37 (returned values).

`Arg` (in `Verif.Vm.CallLemmas`) is an argument as pushed: a value, or the address of a variable. `Arg.value` is
its value, `Holds w cs vs` says that the variables hold `vs` (constants where `cs`), `view` is what a script sees of a
value.
-/
namespace Verif.Vm
open Verif

/-! ## C36: binding -/

/-- Argument binding by value: each parameter shows the value of the argument at its position, its default if there is
none, and a variable-argument parameter a new array with the values of the remaining arguments in order; nothing that
the caller sees changes. `call` (for default expressions) is arbitrary. (Partial: by-value parameters, fewer than 16
arguments, no argument that is itself a `ref` parameter of the caller, defaults that are not strings or expressions, and
literal strings without backslash; the theorems `…_violated` below show what happens otherwise.) -/
theorem bind_partial (call : CallW → Word → Out (CallW × Stk)) (w : CallW) (cs : Word → Bool) (vs : Word → V) (ps : List Param)
    (xs : List Arg) (h : Caller w cs vs xs) (hp : Simple ps) (hk : xs.length < 16)
    (hb : ∀ x ∈ xs, ∀ a, x.value vs = .obj a → (w.obj a).typeId = T_STRING_SO → NoBackslash (w.obj a).text) :
    ∃ w' fr, bindArgs call w ps (xs.map Arg.elem) = .ok (w', fr) ∧ fr.length = ps.length ∧
      (∀ (i : Nat) (p : Param), ps[i]? = some p →
        match xs[i]? with
        | none => fr[i]? = some p.dflt
        | some x =>
          if p.varArgs then
            ∃ (arr : Word) (l : List V), fr[i]? = some (enc (.obj arr)) ∧ (w'.obj arr).typeId = T_ARRAY_SO ∧ Avail w arr ∧
              w'.items arr = l.map enc ∧ l.map (view w'.toMem) = (xs.drop i).map fun y => view w.toMem (y.value vs)
          else ∃ c v, fr[i]? = some (held c v) ∧ view w'.toMem v = view w.toMem (x.value vs)) ∧
      Holds w'.toWorld cs vs ∧ (∀ q, view w'.toMem (vs q) = view w.toMem (vs q)) ∧
      (∀ a, ¬ Avail w a → w'.items a = w.items a) := by
  obtain ⟨w', fv, e, g, hl, -, hall, hit⟩ := bind_core call w cs vs ps xs h hp hk
  have hview : ∀ x ∈ xs, ∀ c r, Became w w' c (x.value vs) r → view w'.toMem r.2 = view w.toMem (x.value vs) := by
    intro x hx c r hbec
    cases hbec with
    | same _ er => subst er; exact g.view _ (h.args x hx).used
    | copy a b e' _ _ er hs _ ho _ =>
      subst er
      rw [e']
      have h1 : view w'.toMem (.obj b) = .str (setTextOf (w.obj a).text) := by
        simp only [view, ho, if_true]
      have h2 : view w.toMem (.obj a) = .str (w.obj a).text := by
        simp only [view, hs, if_true]
      rw [h1, h2, unescape_plain _ (hb x hx a e' hs)]
  refine ⟨w', _, e, by rw [List.length_map, hl], ?_, fun q => by rw [g.stk]; exact h.holds q,
    fun q => g.view _ (h.vars q), hit⟩
  intro i p hi
  have hh := hall i p hi
  cases hx : xs[i]? with
  | none =>
    rw [hx] at hh
    obtain ⟨v, h1, -, h3⟩ := hh
    simp only [List.getElem?_map, h3, h1]
    rfl
  | some x =>
    rw [hx] at hh
    have hxm : x ∈ xs := List.mem_of_getElem? hx
    cases hv : p.varArgs with
    | true =>
      simp only [hv, if_true] at hh ⊢
      obtain ⟨arr, vr, h1, h2, h3, h4, h5, h6⟩ := hh
      refine ⟨arr, vr.map Prod.snd, by rw [List.getElem?_map, h1]; rfl, h4, h2, by rw [h5, List.map_map]; rfl, ?_⟩
      rw [List.map_map]
      apply List.ext_getElem
      · rw [List.length_map, List.length_map, h6.len]
      · intro j hj1 hj2
        rw [List.length_map] at hj1 hj2
        simp only [List.getElem_map, Function.comp]
        exact hview _ (List.mem_of_mem_drop (List.getElem_mem _)) _ _ (h6.all j hj2 hj1)
    | false =>
      simp only [hv, Bool.false_eq_true, if_false] at hh ⊢
      obtain ⟨r, h1, h2⟩ := hh
      exact ⟨r.1, r.2, by rw [List.getElem?_map, h1]; rfl, hview x hxm _ _ h2⟩

/-- A by-value parameter does not alias: assigning any value to the variable of a parameter (at address `slots[i]`)
changes no variable of the caller (those not in `slots`), neither its content nor what it shows. (Partial: besides the
conditions of `bind_partial`, no argument is a variable holding a string, `by_value_violated`, and the argument is not a
constant, `const_argument_violated`.) -/
theorem by_value_partial (call : CallW → Word → Out (CallW × Stk)) (w : CallW) (cs : Word → Bool) (vs : Word → V) (ps : List Param)
    (xs : List Arg) (h : Caller w cs vs xs) (hp : Simple ps) (hk : xs.length < 16)
    (hsh : StringsUnshared w.toMem vs) (hset : ∀ a, w.hasSetter a = false)
    (hb : ∀ a, (w.obj a).typeId = T_STRING_SO → NoBackslash (w.obj a).text)
    (harg : ∀ (i : Nat) (x : Arg) (a : Word), xs[i]? = some x → x.value vs = .obj a → (w.obj a).typeId = T_STRING_SO → w.konst a = false →
      (∀ q, vs q ≠ .obj a) ∧ ∀ (j : Nat) (y : Arg), xs[j]? = some y → y.value vs = .obj a → j = i)
    (slots : List Word) (hsl : slots.length = ps.length) (hnd : slots.Nodup) :
    ∃ w' fr, bindArgs call w ps (xs.map Arg.elem) = .ok (w', fr) ∧
      ∀ i (hi : i < slots.length), (∀ x, xs[i]? = some x → x.const cs = false) →
      ∀ new rt c v, Avail w' new → v ≠ .obj new → (c = true → v.isCopyable) →
      (∀ a, v = .obj a → ((place w' slots fr).stk slots[i]).value = a → (place w' slots fr).stk slots[i] = enc (.obj a)) →
      ∃ w2, storeOne (place w' slots fr).toWorld false new rt (held c v) ⟨slots[i], P_PTR_STK⟩ = .ok w2 ∧
        ∀ q, q ∉ slots → w2.stk q = w.stk q ∧ view w2.toMem (vs q) = view w.toMem (vs q) := by
  obtain ⟨w', fv, e, g, hl, honce, hall, -⟩ := bind_core call w cs vs ps xs h hp hk
  refine ⟨w', _, e, ?_⟩
  intro i hi hc new rt c v hnew hvn hcc hco
  -- what each parameter holds
  have hfv : ∀ j (hj : j < fv.length) a, (fv[j]).2 = .obj a →
      (¬ Avail w a ∧ ∃ x, xs[j]? = some x ∧ x.value vs = .obj a ∧ ¬ IsLit w (x.value vs)) ∨
      (Avail w a ∧ ¬ Avail w' a) := by
    intro j hj a ha
    have hjp : j < ps.length := by omega
    have hh := hall j ps[j] (List.getElem?_eq_getElem hjp)
    have hget : fv[j]? = some fv[j] := List.getElem?_eq_getElem hj
    cases hx : xs[j]? with
    | none =>
      rw [hx] at hh
      obtain ⟨u, -, h2, h3⟩ := hh
      rw [hget] at h3
      cases h3' : fv[j] with
      | mk a1 a2 =>
        rw [h3'] at h3 ha
        cases h3
        exact absurd ha (h2 a)
    | some x =>
      rw [hx] at hh
      have hxm : x ∈ xs := List.mem_of_getElem? hx
      cases hv : (ps[j]).varArgs with
      | true =>
        simp only [hv, if_true] at hh
        obtain ⟨arr, vr, h1, h2, h3, -, -, -⟩ := hh
        rw [hget] at h1
        have h1' := Option.some.inj h1
        rw [h1'] at ha
        cases ha
        exact .inr ⟨h2, h3⟩
      | false =>
        simp only [hv, Bool.false_eq_true, if_false] at hh
        obtain ⟨r, h1, h2⟩ := hh
        rw [hget] at h1
        have h1' := Option.some.inj h1
        rw [h1'] at ha
        cases h2 with
        | same hnl er =>
          subst er
          exact .inl ⟨(h.args x hxm).used a ha, x, rfl, ha, hnl⟩
        | copy a' b e' hb' hn er hs _ ho _ =>
          subst er
          cases ha
          exact .inr ⟨hb', hn⟩
  have hstr : ∀ x a, x ∈ xs → x.value vs = .obj a → ¬ IsLit w (x.value vs) → (w.obj a).typeId = T_STRING_SO → w.konst a = false := by
    intro x a _ ha hnl ht
    cases hk' : w.konst a with
    | false => rfl
    | true => exact absurd ⟨a, ha, ht, hk'⟩ hnl
  let f : Word → Bool × V := fun q => (cs q, vs q)
  have hf : ∀ q, w'.stk q = held (f q).1 (f q).2 := fun q => by rw [g.stk]; exact h.holds q
  let o := over slots fv f
  have hfl : fv.length = slots.length := by omega
  have hout : ∀ q, q ∉ slots → o q = (cs q, vs q) := fun q hq => over_out f q slots fv hq
  have hin : ∀ j (hj : j < slots.length), o slots[j] = fv[j] := fun j hj => over_in f slots fv hnd j hj (by omega)
  have hobj : (place w' slots (fv.map fun r => held r.1 r.2)).obj = w'.obj := (place_rest w' _ _).1
  -- the variables after binding
  have hH : Holds (place w' slots (fv.map fun r => held r.1 r.2)).toWorld (fun q => (o q).1) (fun q => (o q).2) :=
    fun q => place_stk w' f hf q slots fv
  have hmem : ∀ q, q ∈ slots → ∃ j, ∃ hj : j < slots.length, slots[j] = q := fun q hq => List.getElem_of_mem hq
  have hav : ∀ q a, (o q).2 = .obj a → ¬ Avail w' a := by
    intro q a hq ha
    by_cases hs : q ∈ slots
    · obtain ⟨j, hj, rfl⟩ := hmem q hs
      rw [hin j hj] at hq
      rcases hfv j (by omega) a hq with h1 | h1
      · exact h1.1 (g.avail ha)
      · exact h1.2 ha
    · rw [hout q hs] at hq
      exact h.vars q a hq (g.avail ha)
  have hU : StringsUnshared (place w' slots (fv.map fun r => held r.1 r.2)).toMem (fun q => (o q).2) := by
    intro q r a hq hr ht
    rw [hobj] at ht
    simp only at hq hr
    have typ : ¬ Avail w a → (w.obj a).typeId = T_STRING_SO := fun hn => by rw [← g.obj a hn]; exact ht
    by_cases hqs : q ∈ slots
    · obtain ⟨j, hj, rfl⟩ := hmem q hqs
      rw [hin j hj] at hq
      by_cases hrs : r ∈ slots
      · obtain ⟨k, hk', rfl⟩ := hmem r hrs
        rw [hin k hk'] at hr
        by_cases hjk : j = k
        · subst hjk; rfl
        · have hnav : ¬ Avail w a := by
            rcases Nat.lt_or_gt_of_ne hjk with hlt | hlt
            · exact (List.pairwise_iff_getElem.1 honce) j k (by omega) (by omega) hlt a hq hr
            · exact (List.pairwise_iff_getElem.1 honce) k j (by omega) (by omega) hlt a hr hq
          rcases hfv j (by omega) a hq with ⟨-, x, hx, hxa, hnl⟩ | h1
          · rcases hfv k (by omega) a hr with ⟨-, y, hy, hya, -⟩ | h1
            · have := (harg j x a hx hxa (typ hnav) (hstr x a (List.mem_of_getElem? hx) hxa hnl (typ hnav))).2 k y hy hya
              subst this; rfl
            · exact absurd h1.1 hnav
          · exact absurd h1.1 hnav
      · rw [hout r hrs] at hr
        have hnav := h.vars r a hr
        rcases hfv j (by omega) a hq with ⟨-, x, hx, hxa, hnl⟩ | h1
        · exact absurd hr ((harg j x a hx hxa (typ hnav) (hstr x a (List.mem_of_getElem? hx) hxa hnl (typ hnav))).1 r)
        · exact absurd h1.1 hnav
    · rw [hout q hqs] at hq
      have hnav := h.vars q a hq
      by_cases hrs : r ∈ slots
      · obtain ⟨k, hk', rfl⟩ := hmem r hrs
        rw [hin k hk'] at hr
        rcases hfv k (by omega) a hr with ⟨-, x, hx, hxa, hnl⟩ | h1
        · exact absurd hq ((harg k x a hx hxa (typ hnav) (hstr x a (List.mem_of_getElem? hx) hxa hnl (typ hnav))).1 q)
        · exact absurd h1.1 hnav
      · rw [hout r hrs] at hr
        exact hsh q r a hq hr (typ hnav)
  have hcf : (o slots[i]).1 = false := by
    rw [hin i hi]
    have hjp : i < ps.length := by omega
    have hj : i < fv.length := by omega
    have hh := hall i ps[i] (List.getElem?_eq_getElem hjp)
    have hget : fv[i]? = some fv[i] := List.getElem?_eq_getElem hj
    cases hx : xs[i]? with
    | none =>
      rw [hx] at hh
      obtain ⟨u, -, -, h3⟩ := hh
      rw [hget] at h3
      rw [Option.some.inj h3]
    | some x =>
      rw [hx] at hh
      cases hv : (ps[i]).varArgs with
      | true =>
        simp only [hv, if_true] at hh
        obtain ⟨arr, vr, h1, -⟩ := hh
        rw [hget] at h1
        rw [Option.some.inj h1]
      | false =>
        simp only [hv, Bool.false_eq_true, if_false] at hh
        obtain ⟨r, h1, h2⟩ := hh
        rw [hget] at h1
        rw [Option.some.inj h1]
        cases h2 with
        | same hnl er => subst er; exact hc x hx
        | copy _ _ _ _ _ er => subst er; rfl
  have hst : (place w' slots (fv.map fun r => held r.1 r.2)).stk slots[i] = enc (o slots[i]).2 := by
    rw [hH slots[i]]
    simp only [hcf]
    rfl
  obtain ⟨w2, v', e1, -, e2, -, -, e5, -⟩ := assign_exact_partial _ (fun q => (o q).1) (fun q => (o q).2) new rt c v slots[i] hH hU
    ⟨fun q hq => hav q new hq hnew, hvn⟩ hcf
    (fun a _ => by rw [(place_rest w' _ _).2, g.setter]; exact hset a) hcc
    (fun a _ ht => by rw [hobj] at ht ⊢; exact g.text a ht hb)
    (fun a hva hval => by
      have h1 := hco a hva (by rw [hst]; exact hval)
      rw [hst] at h1
      cases ho : (o slots[i]).2 with
      | obj b => rw [ho] at h1; have := congrArg Stk.value h1; simp only [enc] at this; rw [this]
      | _ => rw [ho] at h1; exact absurd (congrArg Stk.props h1) (by simp [enc]))
  refine ⟨w2, e1, ?_⟩
  intro q hq
  have hne : q ≠ slots[i] := fun e => hq (e ▸ List.getElem_mem _)
  constructor
  · rw [e2 q]
    simp only [upd_ne _ _ _ _ hne, hout q hq]
    exact (h.holds q).symm
  · have h5 := e5 q hne
    simp only [hout q hq] at h5
    rw [h5, view_congr w'.toMem _ _ (fun a _ => by rw [hobj]), g.view _ (h.vars q)]

/-! ### `ref` parameters -/

/-- A `ref` parameter stands for the caller's variable: when the argument is the variable at `q`, reading or assigning the
parameter goes to the element at `q`, in calls with any mixture of by-value and `ref` parameters and any by-value arguments.
(Partial: no variable-argument parameter, fewer than 16 arguments, `ref` arguments that are variables, and constants as
defaults.) -/
theorem ref_bind_partial (call : CallW → Word → Out (CallW × Stk)) (w : CallW) (ps : List Param) (as : List Stk) (hi : Inj w)
    (hroom : as.length < w.room) (hk : as.length < 16) (hv : ∀ p ∈ ps, p.varArgs = false)
    (hd : ∀ p ∈ ps, ∃ v : V, p.dflt = enc v ∧ ∀ a, v ≠ .obj a ∧ v ≠ .fn a ∧ v ≠ .type a)
    (hr : ∀ (j : Nat) (p : Param) (a : Stk), ps[j]? = some p → as[j]? = some a → p.byRef = true → ∃ q, a = ⟨q, P_PTR_STK⟩) :
    ∃ w' fr, bindArgs call w ps as = .ok (w', fr) ∧ fr.length = ps.length ∧ w'.stk = w.stk ∧
      ∀ (j : Nat) (p : Param) (q : Word), ps[j]? = some p → p.byRef = true → as[j]? = some ⟨q, P_PTR_STK⟩ →
        ∃ s, fr[j]? = some s ∧ loadRef w' s = .ok ⟨q, P_PTR_STK⟩ := by
  have hg : givenArgs as = as := by
    unfold givenArgs argCount
    rw [Nat.mod_eq_of_lt hk, Nat.sub_self, List.drop_zero]
  have hdf' : ∀ w' n, dflts call w' (ps.drop n) = .ok (w', (ps.drop n).map Param.dflt) := fun w' n =>
    dflts_plain call w' _ (fun p hm => hd p (List.mem_of_mem_drop hm))
  unfold bindArgs
  simp only [hg]
  by_cases hne : 0 < as.length ∧ 0 < ps.length
  · obtain ⟨w', rs, e, k, l, r⟩ := passArgs_kept ps as w (min as.length ps.length) 0 hv
      (fun e => by subst e; simp at hne) (by omega) hi hroom hr
    refine ⟨w', (rs ++ (ps.drop as.length).map Param.dflt).take ps.length, ?_, ?_, k.stk, ?_⟩
    · simp only [if_pos hne, e, Out.bind, hdf', Out.map]
    · simp only [List.length_take, List.length_append, List.length_map, List.length_drop, l]; omega
    · intro j p q hp hb ha
      obtain ⟨s, h1, h2⟩ := r j p q hp hb ha
      have hj1 := (List.getElem?_eq_some_iff.1 hp).1
      have hj2 := (List.getElem?_eq_some_iff.1 h1).1
      exact ⟨s, by rw [List.getElem?_take_of_lt hj1, List.getElem?_append_left hj2]; exact h1, h2.load⟩
  · refine ⟨w, (as ++ (ps.drop as.length).map Param.dflt).take ps.length, ?_, ?_, rfl, ?_⟩
    · simp only [if_neg hne, Out.bind, hdf', Out.map]
    · simp only [List.length_take, List.length_append, List.length_map, List.length_drop]; omega
    · intro j p q hp hb ha
      have hj1 := (List.getElem?_eq_some_iff.1 hp).1
      have hj2 := (List.getElem?_eq_some_iff.1 ha).1
      omega

/-- A `ref` parameter whose argument is not a variable is a script error (first parameter). -/
theorem ref_needs_variable (call : CallW → Word → Out (CallW × Stk)) (w : CallW) (p : Param) (ps : List Param) (c : Bool) (v : V)
    (as : List Stk) (hk : as.length < 15) (hp : p.byRef = true) (hv : ∀ a, v = .obj a → (w.obj a).typeId ≠ T_VAR_REF) :
    bindArgs call w (p :: ps) (held c v :: as) = .err := by
  have hg : givenArgs (held c v :: as) = held c v :: as := by
    unfold givenArgs argCount
    rw [List.length_cons, Nat.mod_eq_of_lt (by omega), Nat.sub_self, List.drop_zero]
  have h0 : isObjOf w.toMem T_VAR_REF (held c v) = false := by
    rw [isObjOf_held]
    cases v with
    | obj a => simpa [V.isObjOf] using hv a rfl
    | _ => rfl
  unfold bindArgs
  simp only [hg]
  rw [if_pos (by simp)]
  unfold passArgs passOne passRef
  simp only [hp, if_true, h0, ptr_held, Bool.false_eq_true, if_false, Out.bind]

/-! ### Where binding departs from the claim -/

/-- An example: the variables of `exWorld` (`Verif.Vm.StoreProps`: 10 and 20 hold the strings "a" and "b", 30 is a constant
with the value 7), a literal string "h" at 150, a reference to the variable 10 at 160, and free addresses from 1000 on. -/
def exCall : CallW :=
  { exWorld with
    obj := fun a => if a = 150 then ⟨T_STRING_SO, [104]⟩ else if a = 160 then ⟨T_VAR_REF, []⟩ else exWorld.obj a
    refStk := fun a => if a = 160 then 10 else 0
    konst := fun a => a == 150
    items := fun _ => []
    fresh := fun k => BitVec.ofNat 64 (1000 + k)
    room := 1000 }

/-- No default expression is run in the examples. -/
def noCall : CallW → Word → Out (CallW × Stk) := fun _ _ => .err

/-- Which addresses are free in `exCall`. -/
theorem exCall_avail (a : Word) (h : Avail exCall a) : 1000 ≤ a.toNat ∧ a.toNat < 2000 := by
  obtain ⟨k, hk, rfl⟩ := h
  have hk' : k < 1000 := hk
  have : (exCall.fresh k).toNat = 1000 + k := by
    show (BitVec.ofNat 64 (1000 + k)).toNat = _
    rw [BitVec.toNat_ofNat]; omega
  omega

theorem exCall_inj : Inj exCall := by
  intro j k hj hk e
  have hj' : j < 1000 := hj
  have hk' : k < 1000 := hk
  have h := congrArg BitVec.toNat e
  have f : ∀ k, k < 1000 → (exCall.fresh k).toNat = 1000 + k := fun k hk => by
    show (BitVec.ofNat 64 (1000 + k)).toNat = _
    rw [BitVec.toNat_ofNat]; omega
  rw [f j hj', f k hk'] at h
  omega

theorem exCall_vars (q a : Word) (h : exVals q = .obj a) : a = 100 ∨ a = 200 := by
  rcases exVals_obj q a h with ⟨-, h⟩ | ⟨-, h⟩
  · exact .inl h
  · exact .inr h

theorem exCall_used (a : Word) (h : a = 100 ∨ a = 200 ∨ a = 150) : ArgOk exCall (.obj a) := by
  constructor
  · intro b e
    cases e
    rcases h with rfl | rfl | rfl <;> decide
  · intro b e hb
    cases e
    have := exCall_avail _ hb
    rcases h with rfl | rfl | rfl <;> exact absurd this.1 (by decide)

theorem argOk_plain (w : CallW) (v : V) (h : ∀ a, v ≠ .obj a) : ArgOk w v :=
  ⟨fun a e => absurd e (h a), fun a e => absurd e (h a)⟩

/-- `f(x10, "h", 9)`. -/
theorem exCaller : Caller exCall exConst exVals [.var 10, .val false (.obj 150), .val false (.int 9)] where
  holds _ := rfl
  inj := exCall_inj
  room := by decide
  vars q a h := fun hb => by
    have := exCall_avail _ hb
    rcases exCall_vars q a h with rfl | rfl <;> exact absurd this.1 (by decide)
  args x hx := by
    simp only [List.mem_cons, List.not_mem_nil, or_false] at hx
    rcases hx with rfl | rfl | rfl
    · exact exCall_used 100 (.inl rfl)
    · exact exCall_used 150 (.inr (.inr rfl))
    · exact argOk_plain _ _ (fun a e => by cases e)

theorem exSimple : Simple [{}, { varArgs := true }] where
  byVal p hp := by
    simp only [List.mem_cons, List.not_mem_nil, or_false] at hp
    rcases hp with rfl | rfl <;> rfl
  last p hp := by
    simp only [List.dropLast, List.mem_cons, List.not_mem_nil, or_false] at hp
    subst hp; rfl
  dflt p hp := by
    simp only [List.mem_cons, List.not_mem_nil, or_false] at hp
    rcases hp with rfl | rfl <;> exact ⟨.undef, rfl, fun a => ⟨by simp, by simp, by simp⟩⟩

-- `bind_partial`: `function f(a, ...b)` called with `f(x10, "h", 9)`: `a` shows "a", `b` an array with "h" and 9
example : ∃ w' fr, bindArgs noCall exCall [{}, { varArgs := true }]
      ([.var 10, .val false (.obj 150), .val false (.int 9)].map Arg.elem) = .ok (w', fr) ∧
    (∃ c v, fr[0]? = some (held c v) ∧ view w'.toMem v = .str [97]) ∧
    ∃ (arr : Word) (l : List V), fr[1]? = some (enc (.obj arr)) ∧ w'.items arr = l.map enc ∧ l.map (view w'.toMem) = [.str [104], .int 9] := by
  obtain ⟨w', fr, h1, -, h2, -⟩ := bind_partial noCall exCall exConst exVals [{}, { varArgs := true }] _ exCaller exSimple
    (by decide) (by
      intro x hx a e _
      simp only [List.mem_cons, List.not_mem_nil, or_false] at hx
      rcases hx with rfl | rfl | rfl
      · cases e; unfold NoBackslash; decide
      · cases e; unfold NoBackslash; decide
      · cases e)
  refine ⟨w', fr, h1, h2 0 {} rfl, ?_⟩
  obtain ⟨arr, l, h3, -, -, h4, h5⟩ := h2 1 { varArgs := true } rfl
  exact ⟨arr, l, h3, h4, h5⟩

/-- `f("h", x30 + 2)`. -/
theorem exCaller2 : Caller exCall exConst exVals [.val false (.obj 150), .val false (.int 9)] where
  holds _ := rfl
  inj := exCall_inj
  room := by decide
  vars := exCaller.vars
  args x hx := exCaller.args x (List.mem_cons_of_mem _ hx)

-- `by_value_partial`: `function f(a, ...b)` called with `f("h", x30 + 2)`; assigning "b" (held by variable 20) to `a`
example : ∃ w' fr, bindArgs noCall exCall [{}, { varArgs := true }] ([.val false (.obj 150), .val false (.int 9)].map Arg.elem) =
      .ok (w', fr) ∧
    ∃ w2, storeOne (place w' [50, 60] fr).toWorld false 1900 (fun _ => []) (held false (.obj 200)) ⟨50, P_PTR_STK⟩ = .ok w2 ∧
      ∀ q, q ∉ [50, 60] → w2.stk q = exCall.stk q ∧ view w2.toMem (exVals q) = view exCall.toMem (exVals q) := by
  obtain ⟨w', fr, h1, h2⟩ := by_value_partial noCall exCall exConst exVals [{}, { varArgs := true }] _ exCaller2 exSimple (by decide)
    (by
      intro p q a hp hq _
      rcases exVals_obj p a hp with ⟨rfl, rfl⟩ | ⟨rfl, rfl⟩ <;>
        rcases exVals_obj q _ hq with ⟨rfl, h⟩ | ⟨rfl, h⟩ <;> first | rfl | (exact absurd h (by decide)))
    (fun _ => rfl)
    (by
      intro a ht
      unfold exCall at ht ⊢
      simp only [] at ht ⊢
      by_cases h1 : a = 150
      · rw [if_pos h1]; unfold NoBackslash; decide
      · by_cases h2 : a = 160
        · rw [if_neg h1, if_pos h2] at ht; exact absurd ht (by decide)
        · rw [if_neg h1, if_neg h2] at ht ⊢; exact exGood.noBackslash a ht)
    (by
      intro i x a hx e ht hk
      match i, hx with
      | 0, hx => cases hx; cases e; exact absurd hk (by decide)
      | 1, hx => cases hx; cases e)
    [50, 60] rfl (by decide)
  refine ⟨w', fr, h1, ?_⟩
  have e : bindArgs noCall exCall [{}, { varArgs := true }] ([Arg.val false (.obj 150), .val false (.int 9)].map Arg.elem) =
    .ok ((exCall.newStr [104]).newArr.push 1001 (enc (.int 9)), [enc (.obj 1000), enc (.obj 1001)]) := rfl
  rw [e] at h1
  cases h1
  refine h2 0 (by decide) (fun x hx => by cases hx; rfl) 1900 _ false (.obj 200) ⟨898, by decide, by decide⟩ (by decide)
    (fun h => by cases h) (fun a ha h => ?_)
  cases ha
  exact absurd h (by decide)

-- `ref_bind_partial`: `function f(a, ref b)` called with `f(1, x10)`
example : ∃ w' fr, bindArgs noCall exCall [{}, { byRef := true }] [enc (.int 1), ⟨10, P_PTR_STK⟩] = .ok (w', fr) ∧
    ∃ s, fr[1]? = some s ∧ loadRef w' s = .ok ⟨10, P_PTR_STK⟩ := by
  obtain ⟨w', fr, h1, -, -, h2⟩ := ref_bind_partial noCall exCall [{}, { byRef := true }] [enc (.int 1), ⟨10, P_PTR_STK⟩] exCall_inj
    (by decide) (by decide) (by decide)
    (by
      intro p hp
      simp only [List.mem_cons, List.not_mem_nil, or_false] at hp
      rcases hp with rfl | rfl <;> exact ⟨.undef, rfl, fun a => ⟨by simp, by simp, by simp⟩⟩)
    (by
      intro j p a h1 h2 h3
      match j, h1, h2 with
      | 0, h1, _ => cases h1; cases h3
      | 1, _, h2 => cases h2; exact ⟨10, rfl⟩)
  exact ⟨w', fr, h1, h2 1 { byRef := true } 10 rfl rfl rfl⟩

-- `ref_needs_variable`: `f(1)` for `function f(ref a)`
example : bindArgs noCall exCall [{ byRef := true }] [enc (.int 1)] = .err :=
  ref_needs_variable noCall exCall { byRef := true } [] false (.int 1) [] (by decide) rfl (fun a e => by cases e)

/-- The claim that a by-value parameter never aliases the caller's variable: with `f(x)`, whatever is assigned to the parameter
(at `slot`), `x` (at `q`) still shows the same. -/
def ByValueNoAlias : Prop :=
  ∀ (w : CallW) (cs : Word → Bool) (vs : Word → V) (q slot new : Word) (rt : Word → List UInt8) (src : V) (w' : CallW) (fr : List Stk) (w2 : World),
    Caller w cs vs [.var q] → q ≠ slot → bindArgs noCall w [{}] [⟨q, P_PTR_STK⟩] = .ok (w', fr) →
    storeOne (place w' [slot] fr).toWorld false new rt (enc src) ⟨slot, P_PTR_STK⟩ = .ok w2 →
    view w2.toMem (vs q) = view w.toMem (vs q)

/-- It fails for strings: the parameter holds the caller's own string object, and assigning a string to the parameter writes its
text into that object. -/
theorem by_value_violated : ¬ ByValueNoAlias := by
  intro h
  have hc : Caller exCall exConst exVals [.var 10] :=
    ⟨exCaller.holds, exCall_inj, by decide, exCaller.vars, fun x hx => exCaller.args x (by
      rw [List.mem_singleton] at hx; subst hx; exact List.mem_cons_self ..)⟩
  have := h exCall exConst exVals 10 50 900 (fun _ => []) (.obj 200) exCall [enc (.obj 100)] _ hc (by decide) rfl rfl
  exact absurd this (by decide)

/-- The claim that a by-value parameter is an ordinary variable of the function: it can be assigned. -/
def ParameterAssignable : Prop :=
  ∀ (w : CallW) (cs : Word → Bool) (vs : Word → V) (q slot new : Word) (rt : Word → List UInt8) (i : Word) (w' : CallW) (fr : List Stk),
    Caller w cs vs [.var q] → q ≠ slot → bindArgs noCall w [{}] [⟨q, P_PTR_STK⟩] = .ok (w', fr) →
    ∃ w2, storeOne (place w' [slot] fr).toWorld false new rt (enc (.int i)) ⟨slot, P_PTR_STK⟩ = .ok w2

/-- It fails when the argument is a constant: the flag of the constant is copied, and assigning the parameter is a script error. -/
theorem const_argument_violated : ¬ ParameterAssignable := by
  intro h
  have hc : Caller exCall exConst exVals [.var 30] :=
    ⟨exCaller.holds, exCall_inj, by decide, exCaller.vars, fun x hx => by
      rw [List.mem_singleton] at hx; subst hx
      exact argOk_plain _ _ (fun a e => by cases e)⟩
  obtain ⟨w2, e⟩ := h exCall exConst exVals 30 50 900 (fun _ => []) 1 exCall [held true (.int 7)] hc (by decide) rfl
  cases e

/-- The claim that a by-value parameter receives the value of its argument, for every argument, also one that is a `ref` parameter of
the calling function (pushed as the reference object), and in calls with any number of arguments: the parameter shows the text, and a
number is received as it is. -/
def ArgumentReceived : Prop :=
  ∀ (w : CallW) (ps : List Param) (as : List Stk) (w' : CallW) (fr : List Stk), Inj w → as.length < w.room →
    (∀ p ∈ ps, p = {}) → bindArgs noCall w ps as = .ok (w', fr) →
    (∀ (j : Nat) (i : Word), j < ps.length → as[j]? = some (enc (.int i)) → fr[j]? = some (enc (.int i))) ∧
    (∀ (j : Nat) (b : Word) (c : Bool) (v : V), j < ps.length → as[j]? = some ⟨b, P_OBJECT⟩ → (w.obj b).typeId = T_VAR_REF →
      w.stk (w.refStk b) = held c v → fr[j]? = some (held c v) ∨ fr[j]? = some (enc v)) ∧
    (∀ (j : Nat) (b : Word) (t : List UInt8), j < ps.length → as[j]? = some ⟨b, P_OBJECT⟩ → w.obj b = ⟨T_STRING_SO, t⟩ →
      ∃ b', fr[j]? = some ⟨b', P_OBJECT⟩ ∧ (w'.obj b').text = t)

/-- With 16 arguments the called function sees none: the count is kept in four bits. -/
theorem many_args_violated : ¬ ArgumentReceived := by
  intro h
  have := (h exCall [{}] (List.replicate 16 (enc (.int 5))) exCall [mkUndefined] exCall_inj (by decide) (by decide) rfl).1 0 5 (by decide) rfl
  exact absurd this (by decide)

/-- With 17 arguments the first parameter receives the last argument. -/
theorem many_args_last_violated : bindArgs noCall exCall [{}] (List.replicate 16 (enc (.int 5)) ++ [enc (.int 6)]) =
    .ok (exCall, [enc (.int 6)]) := rfl

/-- A `ref` parameter passed on to a by-value parameter arrives as a pointer to the variable, not as its value. -/
theorem ref_forward_violated : ¬ ArgumentReceived ∧
    bindArgs noCall exCall [{}] [⟨160, P_OBJECT⟩] = .ok (exCall, [⟨10, P_PTR_STK⟩]) := by
  refine ⟨fun h => ?_, rfl⟩
  have := (h exCall [{}] [⟨160, P_OBJECT⟩] exCall [⟨10, P_PTR_STK⟩] exCall_inj (by decide) (by decide) rfl).2.1 0 160 false (.obj 100)
    (by decide) rfl rfl rfl
  exact absurd this (by decide)

/-- `exCall` with a literal whose text contains backslashes, at 170. -/
def exEscaped : CallW :=
  { exCall with
    obj := fun a => if a = 170 then ⟨T_STRING_SO, [92, 92, 110]⟩ else exCall.obj a
    konst := fun a => a == 150 || a == 170 }

/-- The text of a literal is unescaped once more when it is passed: a literal whose text is `\\n` (three characters, backslash, backslash,
n) arrives as `\n` (two). -/
theorem literal_unescaped_violated : ¬ ArgumentReceived := by
  intro h
  obtain ⟨b', h1, h2⟩ := (h exEscaped [{}] [⟨170, P_OBJECT⟩] (exEscaped.newStr [92, 92, 110]) [⟨1000, P_OBJECT⟩] exCall_inj (by decide) (by decide)
    rfl).2.2 0 170 [92, 92, 110] (by decide) rfl rfl
  cases h1
  exact absurd h2 (by decide)

/-- A `ref` parameter without an argument is `undefined`, and using it reads a reference object at address 0. -/
theorem ref_missing_violated : bindArgs noCall exCall [{ byRef := true }] [] = .ok (exCall, [mkUndefined]) ∧
    loadRef exCall mkUndefined = .ub := ⟨rfl, rfl⟩

/-- A variable-argument parameter without remaining arguments is `undefined`, not an empty array. -/
theorem varargs_empty_violated : bindArgs noCall exCall [{ varArgs := true }] [] = .ok (exCall, [mkUndefined]) := rfl

/-! ## C37: returned values -/

/-- The values that a call expecting `m` values should give: the first `m` returned ones, padded with `undefined`. -/
def expectedValues (returned : List Stk) (m : Nat) : List Stk :=
  (List.range m).map fun i => (returned[i]?).getD mkUndefined

/-- `RET` hands over each value as it is, in order; a literal string as a copy with the same text. (Partial: literals without
backslash.) -/
theorem return_values_partial (w : CallW) (vals : List (Bool × V)) (hi : Inj w) (hm : vals.length ≤ w.room)
    (hx : ∀ r ∈ vals, ArgOk w r.2)
    (hb : ∀ r ∈ vals, ∀ a, r.2 = .obj a → (w.obj a).typeId = T_STRING_SO → NoBackslash (w.obj a).text) :
    ∃ (w' : CallW) (rs : List (Bool × V)), retAll w (vals.map fun r : Bool × V => held r.1 r.2) = (w', rs.map fun r : Bool × V => held r.1 r.2) ∧
      rs.map (fun r => view w'.toMem r.2) = vals.map (fun r => view w.toMem r.2) := by
  obtain ⟨w', rs, e, g, -, l, b⟩ := retAll_held vals w hi hm hx
  refine ⟨w', rs, e, List.ext_getElem (by simp [l]) ?_⟩
  intro i h1 h2
  rw [List.length_map] at h1 h2
  simp only [List.getElem_map]
  cases b i h2 h1 with
  | same _ er => rw [er]; exact g.view _ (hx _ (List.getElem_mem _)).used
  | copy a b' e' _ _ er hs _ ho _ =>
    rw [er, e']
    have h1 : view w'.toMem (.obj b') = .str (setTextOf (w.obj a).text) := by
      simp only [view, ho, if_true]
    have h2 : view w.toMem (.obj a) = .str (w.obj a).text := by
      simp only [view, hs, if_true]
    show view w'.toMem (.obj b') = _
    rw [h1, h2, unescape_plain _ (hb _ (List.getElem_mem _) a e' hs)]

/-- The values that a call leaves, last one first. -/
theorem callValues_partial (start : Nat) (vars : List Stk) (vals : Option (List Stk)) (m : Nat) (h : (vals.getD []).length ≤ m) :
    callValues start vars vals m = (expectedValues (vals.getD []) m).reverse := by
  unfold callValues
  apply List.ext_getElem
  · simp [handOver, expectedValues]
  · intro i h1 h2
    have hi : i < m := by simpa [handOver] using h1
    rw [List.getElem_reverse]
    simp only [expectedValues, List.getElem_map, List.getElem_range, List.length_map, List.length_range]
    cases vals with
    | none =>
      have hn : ((max ((start : Int) - ((start + vars.length : Nat) : Int)) (m : Int))).toNat = m := by omega
      rw [handOver_get _ start vars.length (endCur start vars.length none) m i hi m hn]
      simp only [Option.getD_none, List.getElem?_nil]
      rw [if_pos]
      show start ≤ _ ∧ _ < start + ((m : Int) - ((start : Int) - _)).toNat
      omega
    | some vs =>
      simp only [Option.getD_some] at h ⊢
      have hn : ((max (((start + vars.length + vs.length : Nat) : Int) - ((start + vars.length : Nat) : Int)) (m : Int))).toNat = m := by omega
      rw [handOver_get _ start vars.length (endCur start vars.length (some vs)) m i hi m hn]
      have hc : endCur start vars.length (some vs) = start + vars.length + vs.length := rfl
      rw [hc]
      by_cases hlt : m - 1 - i < vs.length
      · rw [if_neg (by omega)]
        simp only [endMem, Option.getD_some]
        rw [show start + vars.length + m - i - 1 - start = vars.length + (m - 1 - i) from by omega,
          List.getElem?_append_right (by omega), Nat.add_sub_cancel_left]
      · rw [if_pos (by omega), List.getElem?_eq_none (by omega)]
        rfl

/-- `l_0, …, l_{m-1} = f(…)`: destination `i` receives the `i`-th returned value, `undefined` if there is none (so all of them if `f`
ends without `return`); the stores are in the order last destination first. (Partial: `f` returns at most `m` values,
`multi_return_violated`.) -/
theorem multi_return_partial (start : Nat) (vars : List Stk) (vals : Option (List Stk)) (lefts : List Stk)
    (h : (vals.getD []).length ≤ lefts.length) :
    storePairs lefts.length (assignCallStack lefts (callValues start vars vals lefts.length)) =
      ((expectedValues (vals.getD []) lefts.length).zip lefts).reverse := by
  rw [callValues_partial start vars vals lefts.length h]
  have hl : (expectedValues (vals.getD []) lefts.length).length = lefts.length := by simp [expectedValues]
  generalize expectedValues (vals.getD []) lefts.length = ex at hl
  unfold storePairs assignCallStack
  have h1 : (List.replicate (lefts.length - 1) mkUndefined ++ ex.reverse ++ lefts).drop
      ((List.replicate (lefts.length - 1) mkUndefined ++ ex.reverse ++ lefts).length - 2 * lefts.length) = ex.reverse ++ lefts := by
    simp only [List.length_append, List.length_replicate, List.length_reverse, hl]
    rw [List.append_assoc, show lefts.length - 1 + lefts.length + lefts.length - 2 * lefts.length = lefts.length - 1 from by omega,
      List.drop_left' (by simp)]
  rw [h1, List.take_left' (by simp [hl]), List.reverse_append, List.take_left' (by simp)]
  rw [List.zip, ← List.reverse_zipWith hl]

-- two variables receive the value of `return 1`, in a function with one parameter
example : storePairs 2 (assignCallStack [⟨40, P_PTR_STK⟩, ⟨50, P_PTR_STK⟩] (callValues 7 [enc (.int 9)] (some [enc (.int 1)]) 2)) =
    [(mkUndefined, ⟨50, P_PTR_STK⟩), (enc (.int 1), ⟨40, P_PTR_STK⟩)] :=
  multi_return_partial 7 [enc (.int 9)] (some [enc (.int 1)]) [⟨40, P_PTR_STK⟩, ⟨50, P_PTR_STK⟩] (by decide)

-- `return_values_partial`: `return x10, "h"`
example : ∃ (w' : CallW) (rs : List (Bool × V)), retAll exCall ([(false, .obj 100), (false, .obj 150)].map fun r : Bool × V => held r.1 r.2) =
      (w', rs.map fun r : Bool × V => held r.1 r.2) ∧ rs.map (fun r => view w'.toMem r.2) = [.str [97], .str [104]] :=
  return_values_partial exCall [(false, .obj 100), (false, .obj 150)] exCall_inj (by decide)
    (by
      intro r hr
      simp only [List.mem_cons, List.not_mem_nil, or_false] at hr
      rcases hr with rfl | rfl
      · exact exCall_used 100 (.inl rfl)
      · exact exCall_used 150 (.inr (.inr rfl)))
    (by
      intro r hr a e _
      simp only [List.mem_cons, List.not_mem_nil, or_false] at hr
      rcases hr with rfl | rfl <;> (cases e; unfold NoBackslash; decide))

/-- The full claim of C37: for any number of returned values. -/
def MultiReturn : Prop :=
  ∀ (start : Nat) (vars vals lefts : List Stk),
    storePairs lefts.length (assignCallStack lefts (callValues start vars (some vals) lefts.length)) =
      ((expectedValues vals lefts.length).zip lefts).reverse

/-- It fails when more values are returned than expected: with `return 1, 2`, `a = f()` gives 2. -/
theorem multi_return_violated : ¬ MultiReturn := by
  intro h
  have := h 0 [] [enc (.int 1), enc (.int 2)] [⟨40, P_PTR_STK⟩]
  exact absurd this (by decide)

/-- In general the last `m` of them are taken. -/
theorem surplus_values (start : Nat) (vars vals : List Stk) (m : Nat) (h : m ≤ vals.length) :
    callValues start vars (some vals) m = (vals.drop (vals.length - m)).reverse := by
  unfold callValues
  apply List.ext_getElem
  · simp [handOver]; omega
  · intro i h1 h2
    have hi : i < m := by simpa [handOver] using h1
    rw [List.getElem_reverse]
    simp only [List.length_drop, List.getElem_drop]
    have hn : ((max (((start + vars.length + vals.length : Nat) : Int) - ((start + vars.length : Nat) : Int)) (m : Int))).toNat = vals.length := by
      omega
    rw [handOver_get _ start vars.length (endCur start vars.length (some vals)) m i hi vals.length hn]
    have hc : endCur start vars.length (some vals) = start + vars.length + vals.length := rfl
    rw [hc, if_neg (by omega)]
    simp only [endMem, Option.getD_some]
    rw [show start + vars.length + vals.length - i - 1 - start = vars.length + (vals.length - 1 - i) from by omega,
      List.getElem?_append_right (by omega), Nat.add_sub_cancel_left, List.getElem?_eq_getElem (by omega), Option.getD_some]
    congr 1
    omega

end Verif.Vm
