import Verif.Vm.BindPathLemmas
/-
C126: a function bound by its path is the one a script calls by that path. The specification (`Reaches`, `Calls`,
`ScriptCalls`, `BindsWhatScriptsCall`) is in `BindPathSpec.lean`.
-/
namespace Verif.Vm.BindPath

open Verif.Core

/-- C126, exactly which paths are bound: after any history without the exception of C63, a path of two or more names is
bound to `f` on `a` if and only if its last name is a function of the class of `a` that is not static, and a script
reaches `a` by the other names through objects that are held directly. -/
theorem bind_path_exact {w : World} {os : List (Globals.Op Val)} (hw : WorldOf w os) (hc : Globals.Calm false os)
    {ns : List (List UInt8)} (h2 : 2 ≤ ns.length) (hn : Names ns) (a f : Nat) :
    bind w (dotted ns) = .ok ⟨f, some a⟩ ↔
      ∃ front last m, ns = front ++ [last] ∧ Reaches w (Globals.Env.run {} os).vals false front a ∧
        ClassFn (w.obj a) last m ∧ m.member = true ∧ m.fn = f := by
  obtain ⟨c1, c2, c3⟩ := calm_slots hw hc
  have hsp := split_dotted ns (by intro e; simp [e] at h2) hn
  obtain ⟨n, n2, r, rfl⟩ : ∃ n n2 r, ns = n :: n2 :: r := by
    match ns, h2 with
    | n :: n2 :: r, _ => exact ⟨n, n2, r, rfl⟩
  constructor
  · intro h
    unfold bind at h
    rw [hsp] at h
    dsimp only at h
    split at h
    · rename_i b hb
      obtain ⟨k, s, k1, k2, k3⟩ := firstObj_sound _ _ _ hb
      rw [Nat.zero_add] at k3
      have hlt : k < (Globals.Env.run {} os : Globals.Env Val).vals.length := by
        rw [← c1]; rw [List.getElem?_eq_some_iff] at k1; exact k1.1
      have hv := List.getElem?_eq_getElem hlt
      have := c3 k _ hv
      rw [k3] at this
      rw [← this] at hv
      obtain ⟨more, last, c, m, e1, e2, e3, e4, e5⟩ := walk_sound _ _ _ _ (.var k1 k2 hv (Or.inl rfl)) h
      simp only [Bound.mk.injEq, Option.some.injEq] at e5
      obtain ⟨rfl, rfl⟩ := e5
      exact ⟨[n] ++ more, last, m, by rw [e1]; simp, e2, e3, e4, rfl⟩
    all_goals cases h
  · rintro ⟨front, last, m, e1, e2, e3, e4, rfl⟩
    obtain ⟨n', more, a0, k, s, w1, w2, w3, w4, w5⟩ := walk_complete e2
    subst w1
    rw [List.cons_append, List.cons.injEq] at e1
    obtain ⟨rfl, e1⟩ := e1
    have hf := firstObj_complete w.eng.vars 0 k s a0 hw.2 w2 w3 (by omega) (by rw [Nat.zero_add]; exact c3 k _ w4)
    unfold bind
    rw [hsp]
    dsimp only
    rw [hf]
    dsimp only
    rw [e1, w5 _ (by simp), walk, memberFn_iff.mpr e3]
    dsimp only
    rw [if_pos e4]

/-- C126: what is bound is what a script calls by the path, on the same object. -/
theorem bind_path_sound_partial {w : World} {os : List (Globals.Op Val)} (hw : WorldOf w os)
    (hc : Globals.Calm false os) {ns : List (List UInt8)} (h2 : 2 ≤ ns.length) (hn : Names ns) {a f : Nat}
    (h : bind w (dotted ns) = .ok ⟨f, some a⟩) : ScriptCalls w (Globals.Env.run {} os).vals ns a f := by
  obtain ⟨front, last, m, e1, e2, e3, e4, e5⟩ := (bind_path_exact hw hc h2 hn a f).mp h
  exact ⟨front, last, e1, e2.deep, Or.inl ⟨m, e3, e4, e5⟩⟩

/-- C126: `variable.function` is bound if a script can call it and the function belongs to the class of the object the
variable holds. -/
theorem bind_variable_function_partial {w : World} {os : List (Globals.Op Val)} (hw : WorldOf w os)
    (hc : Globals.Calm false os) {n last : List UInt8} (hn : Names [n, last]) {k s a : Nat} {m : Meth}
    (h1 : w.eng.vars[k]? = some s) (h2 : w.name s = n)
    (h3 : (Globals.Env.run {} os).vals[k]? = some (some (.obj a)))
    (h4 : ClassFn (w.obj a) last m) (h5 : m.member = true) :
    bind w (dotted [n, last]) = .ok ⟨m.fn, some a⟩ :=
  (bind_path_exact hw hc (by simp) hn a m.fn).mpr
    ⟨[n], last, m, rfl, .var h1 h2 h3 (Or.inl rfl), h4, h5, rfl⟩

/-- C126: a binding never reads what it must not, and a path of two or more names is always bound on an object. -/
theorem bind_defined (w : World) (path : List UInt8) :
    bind w path ≠ .ub ∧ ∀ b, bind w path = .ok b → (b.on = none ↔ (46 : UInt8) ∉ path) := by
  have hf : ∀ n l j, firstObj w n l j ≠ .ub := by
    intro n l
    induction l with
    | nil => intro j h; cases h
    | cons s r ih =>
      intro j h
      rw [firstObj] at h
      split at h
      · split at h
        · split at h
          · cases h
          · exact ih _ h
        · cases h
      · exact ih _ h
  have hwk : ∀ (ns : List (List UInt8)) (a : Nat), ns ≠ [] → walk w a ns ≠ .ub ∧ ∀ b, walk w a ns = .ok b → b.on ≠ none := by
    intro ns
    induction ns with
    | nil => intro a h; exact absurd rfl h
    | cons n r ih =>
      intro a _
      cases r with
      | nil =>
        rw [walk]
        split
        · split
          · refine ⟨by simp, fun b h => ?_⟩
            cases Out.ok.inj h; simp
          · refine ⟨by simp, fun b h => ?_⟩; cases h
        · refine ⟨by simp, fun b h => ?_⟩; cases h
      | cons n2 r2 =>
        rw [walk]
        · split
          · exact ih _ (by simp)
          · refine ⟨by simp, fun b h => ?_⟩; cases h
        · simp
  have hs : ∀ (p cur : List UInt8), splitDots cur p ≠ [] ∧ ((46 : UInt8) ∈ p ↔ 2 ≤ (splitDots cur p).length) := by
    intro p
    induction p with
    | nil => intro cur; simp [splitDots]
    | cons c cs ih =>
      intro cur
      rw [splitDots]
      by_cases hc : c = 46
      · rw [if_pos hc]
        refine ⟨by simp, fun _ => ?_, fun _ => by simp [hc]⟩
        have := List.length_pos_iff.mpr (ih []).1
        rw [List.length_cons]; omega
      · rw [if_neg hc]
        refine ⟨(ih _).1, ?_⟩
        rw [← (ih (cur ++ [c])).2, List.mem_cons]
        exact ⟨fun h => h.resolve_left (fun e => hc e.symm), Or.inr⟩
  obtain ⟨s1, s2⟩ := hs path []
  unfold bind
  match hsp : splitDots [] path, s1 with
  | [n], _ =>
    rw [hsp] at s2
    dsimp only
    split
    · refine ⟨by simp, fun b h => ?_⟩
      cases Out.ok.inj h
      simp [s2]
    · refine ⟨by simp, fun b h => ?_⟩; cases h
  | n :: n2 :: r, _ =>
    rw [hsp] at s2
    dsimp only
    split
    · rename_i a _
      obtain ⟨x, y⟩ := hwk (n2 :: r) a (by simp)
      refine ⟨x, fun b h => ?_⟩
      have hd : (46 : UInt8) ∈ path := s2.mpr (by simp)
      simp [y b h, hd]
    · refine ⟨by simp, fun b h => ?_⟩; cases h
    · refine ⟨by simp, fun b h => ?_⟩; cases h
    · rename_i h; exact absurd h (hf _ _ _)

/-- C126: a single name is bound to the function of the main scope with that name; without one it is refused. -/
theorem bind_single_exact (w : World) {n : List UInt8} (hn : (46 : UInt8) ∉ n)
    (hu : (w.funs.map (·.1)).Nodup) (b : Bound) :
    bind w n = .ok b ↔ b.on = none ∧ (n, b.fn) ∈ w.funs := by
  have hs := split_plain [] n hn
  unfold bind
  rw [hs]
  dsimp only [List.nil_append]
  have key : ∀ (l : List (List UInt8 × Nat)), (l.map (·.1)).Nodup → ∀ f, (l.find? (fun p => p.1 = n) = some (n, f) ↔ (n, f) ∈ l) := by
    intro l
    induction l with
    | nil => intro _ f; simp
    | cons q r ih =>
      intro hu f
      rw [List.map_cons, List.nodup_cons] at hu
      rw [List.find?_cons]
      by_cases hq : q.1 = n
      · simp only [hq, decide_true, Option.some.injEq, List.mem_cons]
        refine ⟨fun h => Or.inl h.symm, fun h => h.elim Eq.symm (fun h => ?_)⟩
        exact absurd (List.mem_map_of_mem (f := (·.1)) h) (by rw [← hq]; exact hu.1)
      · simp only [hq, decide_false, List.mem_cons]
        rw [ih hu.2 f]
        refine ⟨Or.inr, fun h => h.resolve_left (fun e => hq ?_)⟩
        rw [← e]
  cases hfind : w.funs.find? (fun p => p.1 = n) with
  | none =>
    dsimp only
    constructor
    · intro h; cases h
    rintro ⟨_, h⟩
    rw [← key _ hu, hfind] at h; cases h
  | some p =>
    obtain ⟨p1, p2⟩ := p
    have hp : p1 = n := by have := List.find?_some hfind; simpa using this
    subst hp
    dsimp only
    constructor
    · intro h; cases Out.ok.inj h
      exact ⟨rfl, (key _ hu _).mp hfind⟩
    · rintro ⟨h1, h2⟩
      rw [← key _ hu, hfind] at h2
      simp only [Option.some.injEq, Prod.mk.injEq, true_and] at h2
      obtain ⟨fn, on⟩ := b
      simp only at h1 h2
      rw [h1, h2]

/-! ### Witnesses -/

/-- One global `a`, an object of a class with the functions `f` (inherited), `f` and the static `g`; the object has a
field `b` with another object and a field `h` with a function. -/
def wObj : Nat → Obj
  | 1 => { meths := [⟨[102], 10, true⟩, ⟨[102], 11, true⟩, ⟨[103], 12, false⟩],
           fields := [([98], .slot 2), ([104], .fn 13), ([110], .obj 2)] }
  | _ => { meths := [⟨[102], 20, true⟩], fields := [] }

def wOps : List (Globals.Op Val) := [.eval [.open, .var, .close, .var], .write 0 (some (.obj 1))]

def wEng : Globals.Eng Val := match Globals.run {} wOps with | .ok g => g | _ => {}

def wWorld : World := { eng := wEng, name := fun _ => [97], funs := [([102], 30)], obj := wObj }

theorem wWorld_of : WorldOf wWorld wOps := by
  constructor
  · rfl
  · exact (by decide : (wEng.vars.map (fun _ => ([97] : List UInt8))).Nodup)

theorem wOps_calm : Globals.Calm false wOps := trivial

theorem wVals : (Globals.Env.run {} wOps).vals = [some (.obj 1)] := by decide

theorem wVars : wWorld.eng.vars = [1] := by decide

/-- The hypotheses of the theorems above are met: `a.f` is bound to the function of the class itself. -/
example : bind wWorld (dotted [[97], [102]]) = .ok ⟨11, some 1⟩ :=
  bind_variable_function_partial wWorld_of wOps_calm (by intro n; simp; rintro (rfl | rfl) <;> decide)
    (k := 0) (s := 1) (m := ⟨[102], 11, true⟩) (by rw [wVars]; rfl) rfl (by rw [wVals]; rfl)
    ⟨rfl, [⟨[102], 10, true⟩], [⟨[103], 12, false⟩], rfl, by decide⟩ rfl

/-- So is a path of three names, through a field that holds its object directly (an object of the host). -/
example : bind wWorld (dotted [[97], [110], [102]]) = .ok ⟨20, some 2⟩ := by decide
example : bind wWorld [102] = .ok ⟨30, none⟩ := by decide
example : bind wWorld (dotted [[97], [103]]) = .err := by decide

theorem w_reaches : Reaches wWorld (Globals.Env.run {} wOps).vals true [[97]] 1 :=
  .var (k := 0) (s := 1) (by rw [wVars]; rfl) rfl (by rw [wVals]; rfl) (Or.inl rfl)

/-- C126 fails for an object inside another: a script calls `a.b.f()`, the host cannot bind `a.b.f`, because a field
holds a script object through a container slot. -/
theorem bind_nested_violated : ScriptCalls wWorld (Globals.Env.run {} wOps).vals [[97], [98], [102]] 2 20 ∧
    bind wWorld (dotted [[97], [98], [102]]) = .err := by
  refine ⟨⟨[[97], [98]], [102], rfl, ?_, Or.inl ⟨⟨[102], 20, true⟩, ⟨rfl, [], [], rfl, by simp⟩, rfl, rfl⟩⟩, by decide⟩
  exact .field (ns := [[97]]) (v := .slot 2) w_reaches rfl (Or.inr ⟨rfl, rfl⟩)

/-- C126 fails for a function kept in a field: a script calls `a.h()`, the host cannot bind `a.h`. -/
theorem bind_field_function_violated : ScriptCalls wWorld (Globals.Env.run {} wOps).vals [[97], [104]] 1 13 ∧
    bind wWorld (dotted [[97], [104]]) = .err := by
  refine ⟨⟨[[97]], [104], rfl, w_reaches, Or.inr ⟨by decide, by decide⟩⟩, by decide⟩

/-- A script whose block leaves an object behind in slot 0, then a registered constant `a` (a string, object 1). -/
def cOps : List (Globals.Op Val) :=
  [.eval [.open, .var, .close], .scratch 0 (some (.obj 2)), .constant (some (.obj 1))]

def cEng : Globals.Eng Val := match Globals.run {} cOps with | .ok g => g | _ => {}

def cWorld : World := { eng := cEng, name := fun _ => [97], funs := [], obj := wObj }

theorem cVars : cWorld.eng.vars = [1] := by decide

/-- C126 fails for a constant registered after a script with variables in blocks: `a.f` is bound to another object,
the one a variable of the block held. -/
theorem bind_constant_violated : WorldOf cWorld cOps ∧
    ScriptCalls cWorld (Globals.Env.run {} cOps).vals [[97], [102]] 1 11 ∧
    bind cWorld (dotted [[97], [102]]) = .ok ⟨20, some 2⟩ := by
  refine ⟨⟨rfl, (by decide : (cEng.vars.map (fun _ => ([97] : List UInt8))).Nodup)⟩, ?_, by decide⟩
  refine ⟨[[97]], [102], rfl, ?_,
    Or.inl ⟨⟨[102], 11, true⟩, ⟨rfl, [⟨[102], 10, true⟩], [⟨[103], 12, false⟩], rfl, by decide⟩, rfl, rfl⟩⟩
  exact .var (k := 0) (s := 1) (v := .obj 1) (by rw [cVars]; rfl) rfl (by decide) (Or.inl rfl)

theorem binds_what_scripts_call_violated : ¬ BindsWhatScriptsCall := by
  intro h
  have := (h wWorld wOps wWorld_of [[97], [104]] (by simp) (by intro n; simp; rintro (rfl | rfl) <;> decide) 1 13).mpr
    bind_field_function_violated.1
  rw [bind_field_function_violated.2] at this
  cases this

end Verif.Vm.BindPath
