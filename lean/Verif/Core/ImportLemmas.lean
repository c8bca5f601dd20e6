import Verif.Core.Import
import Verif.Core.ImportSpec
/-
Lemmas about importing files.
-/
namespace Verif.Imp
open Verif.ImportSpec

/-! ### Importing ends -/

/-- The number of names of `A` that are not among `p`. -/
def left (A p : List Name) : Nat := (A.filter (fun n => decide (n ∉ p))).length

theorem left_le (A p : List Name) : left A p ≤ A.length := List.length_filter_le _ _

theorem left_mono {p q : List Name} (h : ∀ n ∈ p, n ∈ q) : ∀ A : List Name, left A q ≤ left A p
  | [] => Nat.le_refl _
  | n :: A => by
    have ih := left_mono h A
    unfold left at *
    by_cases hp : n ∈ p
    · simp only [List.filter_cons, hp, h n hp, not_true_eq_false, decide_false, Bool.false_eq_true, if_false]
      exact ih
    · by_cases hq : n ∈ q
      · simp only [List.filter_cons, hp, hq, not_true_eq_false, not_false_eq_true, decide_false, decide_true,
          Bool.false_eq_true, if_false, if_true, List.length_cons]
        omega
      · simp only [List.filter_cons, hp, hq, not_false_eq_true, decide_true, if_true, List.length_cons]
        omega

theorem left_lt {p : List Name} {n : Name} (hp : n ∉ p) : ∀ {A : List Name}, n ∈ A → left A (p ++ [n]) < left A p
  | m :: A, hm => by
    have hsub : ∀ x ∈ p, x ∈ p ++ [n] := fun x hx => List.mem_append_left _ hx
    have hmono := left_mono hsub A
    by_cases he : m = n
    · subst he
      have hq : m ∈ p ++ [m] := List.mem_append_right _ (List.mem_singleton.2 rfl)
      unfold left at *
      simp only [List.filter_cons, hp, hq, not_true_eq_false, not_false_eq_true, decide_false, decide_true,
          Bool.false_eq_true, if_false, if_true, List.length_cons]
      omega
    · have hA : n ∈ A := by
        rcases List.mem_cons.1 hm with h | h
        · exact absurd h.symm he
        · exact h
      have ih := left_lt hp hA
      have hiff : m ∈ p ++ [n] ↔ m ∈ p := by
        constructor
        · intro h
          rcases List.mem_append.1 h with h | h
          · exact h
          · exact absurd (List.mem_singleton.1 h) he
        · exact hsub m
      unfold left at *
      by_cases hmp : m ∈ p
      · simp only [List.filter_cons, hmp, hiff.2 hmp, not_true_eq_false, decide_false, Bool.false_eq_true, if_false]
        exact ih
      · have hmq : m ∉ p ++ [n] := fun h => hmp (hiff.1 h)
        simp only [List.filter_cons, hmp, hmq, not_false_eq_true, decide_true, if_true, List.length_cons]
        omega

theorem mem_imports {n : Name} : ∀ {t : Text}, n ∈ imports t ↔ .imp n ∈ t
  | [] => by simp [imports]
  | .stmt _ :: t => by simp [imports, mem_imports (t := t)]
  | .var _ :: t => by simp [imports, mem_imports (t := t)]
  | .bad :: t => by simp [imports, mem_imports (t := t)]
  | .imp m :: t => by simp [imports, mem_imports (t := t)]

theorem text_mem {k : Disk} {f : File} {u : Text} (h : k.text f = some u) : (f, u) ∈ k := by
  unfold Disk.text at h
  cases hf : k.find? (fun p => p.1 = f) with
  | none => rw [hf] at h; cases h
  | some p =>
    rw [hf] at h
    obtain ⟨g, v⟩ := p
    have h1 : v = u := Option.some.inj h
    have h2 : g = f := by simpa using List.find?_some hf
    subst h1; subst h2
    exact List.mem_of_find?_eq_some hf

/-- A compilation that has depth enough ends, and it keeps the names that were parsed. -/
def Ends (A : List Name) (m : Nat) (f : Dir → Text → C → R) : Prop :=
  ∀ d t c, (∀ n, .imp n ∈ t → n ∈ A) → left A c.parsed < m →
    (∃ c', f d t c = .ok c' ∧ (∀ n ∈ c.parsed, n ∈ c'.parsed) ∧ (c.parsed.Nodup → c'.parsed.Nodup)) ∨
    (∃ c', f d t c = .err c' ∧ (∀ n ∈ c.parsed, n ∈ c'.parsed) ∧ (c.parsed.Nodup → c'.parsed.Nodup))

theorem nodup_snoc {α : Type} {l : List α} {a : α} (h : l.Nodup) (ha : a ∉ l) : (l ++ [a]).Nodup := by
  rw [List.nodup_append]
  refine ⟨h, by simp, ?_⟩
  intro x hx y hy e
  have : y = a := by simpa using hy
  subst this; subst e
  exact ha hx

theorem items_ends {k : Disk} {A : List Name} (hA : ∀ p ∈ k, ∀ n, .imp n ∈ p.2 → n ∈ A) {m : Nat}
    {rec : Dir → Text → C → R} (hr : Ends A m rec) : Ends A (m + 1) (items rec k) := by
  intro d t
  induction t with
  | nil => intro c _ _; exact .inl ⟨c, rfl, fun _ h => h, fun h => h⟩
  | cons i t ih =>
    intro c hi hm
    have hi' : ∀ n, .imp n ∈ t → n ∈ A := fun n hn => hi n (List.mem_cons_of_mem _ hn)
    cases i with
    | stmt i => exact ih { c with code := c.code ++ [i] } hi' hm
    | var x =>
      by_cases hx : x ∈ c.vars
      · exact .inr ⟨c, by simp [items, hx], fun _ h => h, fun h => h⟩
      · have := ih { c with vars := c.vars ++ [x] } hi' hm
        simp only [items, hx, if_false]
        exact this
    | bad => exact .inr ⟨c, rfl, fun _ h => h, fun h => h⟩
    | imp n =>
      have hn : n ∈ A := hi n List.mem_cons_self
      cases hu : k.text (fileOf d n) with
      | none => exact .inr ⟨c, by simp only [items, hu], fun _ h => h, fun h => h⟩
      | some u =>
        by_cases hp : n ∈ c.parsed
        · simp only [items, hu, hp, if_true]
          exact ih c hi' hm
        · simp only [items, hu, hp, if_false]
          have h1 := left_lt hp hn
          rcases hr (walk d n.dirs) u { c with parsed := c.parsed ++ [n] }
              (fun x hx => hA _ (text_mem hu) x hx) (by show left A (c.parsed ++ [n]) < m; omega) with
            ⟨c', e, hs, hd⟩ | ⟨c', e, hs, hd⟩
          · simp only [e]
            have hs' : ∀ x ∈ c.parsed, x ∈ c'.parsed := fun x hx => hs x (List.mem_append_left _ hx)
            have hd' : c.parsed.Nodup → c'.parsed.Nodup := fun h => hd (nodup_snoc h hp)
            have hl := left_mono hs' A
            rcases ih c' hi' (by omega) with ⟨c2, e2, h2, h3⟩ | ⟨c2, e2, h2, h3⟩
            · exact .inl ⟨c2, e2, fun x hx => h2 x (hs' x hx), fun h => h3 (hd' h)⟩
            · exact .inr ⟨c2, e2, fun x hx => h2 x (hs' x hx), fun h => h3 (hd' h)⟩
          · simp only [e]
            exact .inr ⟨c', rfl, fun x hx => hs x (List.mem_append_left _ hx), fun h => hd (nodup_snoc h hp)⟩

theorem comp_ends {k : Disk} {A : List Name} (hA : ∀ p ∈ k, ∀ n, .imp n ∈ p.2 → n ∈ A) : ∀ m, Ends A m (comp k m)
  | 0 => fun _ _ _ _ h => absurd h (Nat.not_lt_zero _)
  | m + 1 => items_ends hA (comp_ends hA m)

/-- The depth `bound` is never reached. -/
theorem comp_bound (k : Disk) (d : Dir) (t : Text) (c : C) :
    (∃ c', comp k (bound k t) d t c = .ok c' ∧ (∀ n ∈ c.parsed, n ∈ c'.parsed) ∧ (c.parsed.Nodup → c'.parsed.Nodup)) ∨
    (∃ c', comp k (bound k t) d t c = .err c' ∧ (∀ n ∈ c.parsed, n ∈ c'.parsed) ∧ (c.parsed.Nodup → c'.parsed.Nodup)) := by
  refine comp_ends (A := imports t ++ k.flatMap (fun p => imports p.2)) ?_ (bound k t) d t c ?_ ?_
  · intro p hp n hn
    exact List.mem_append_right _ (List.mem_flatMap.2 ⟨p, hp, mem_imports.2 hn⟩)
  · intro n hn
    exact List.mem_append_left _ (mem_imports.2 hn)
  · have := left_le (imports t ++ k.flatMap (fun p => imports p.2)) c.parsed
    show _ < _ + 1
    omega

/-! ### What is compiled -/

/-- The engine knows by name the files that were taken in, as far as names are used. -/
structure M (used : Dir × Name → Prop) (c : C) (w : World) : Prop where
  vars : c.vars = w.vars
  names : ∀ d n, used (d, n) → (n ∈ c.parsed ↔ fileOf d n ∈ w.taken)

theorem M.add {used : Dir × Name → Prop} (hc : Coherent used) {c : C} {w : World} (h : M used c w) {d : Dir} {n : Name}
    (hu : used (d, n)) :
    M used { c with parsed := c.parsed ++ [n] } { w with taken := w.taken ++ [fileOf d n] } := by
  refine ⟨h.vars, ?_⟩
  intro d' n' hu'
  show n' ∈ c.parsed ++ [n] ↔ fileOf d' n' ∈ w.taken ++ [fileOf d n]
  rw [List.mem_append, List.mem_append, List.mem_singleton, List.mem_singleton, h.names d' n' hu']
  have := hc (d', n') (d, n) hu' hu
  exact or_congr Iff.rfl this

theorem uses_tail {k : Disk} {d : Dir} {i : Item} {t : Text} {p : Dir × Name} (h : Uses k d t p) : Uses k d (i :: t) p := by
  cases h with
  | here h => exact .here (List.mem_cons_of_mem _ h)
  | deep h hu hp => exact .deep (List.mem_cons_of_mem _ h) hu hp

theorem takes_comp {used : Dir × Name → Prop} (hc : Coherent used) {k : Disk} {d : Dir} {t : Text} {w w' : World} {ks : List Nat}
    (h : Takes k d t w ks w') : ∀ (m : Nat) (c : C), (∀ p, Uses k d t p → used p) → M used c w →
      comp k m d t c = .deep ∨ ∃ c', comp k m d t c = .ok c' ∧ c'.code = c.code ++ ks ∧ M used c' w' := by
  induction h with
  | nil =>
    intro m c _ hM
    cases m with
    | zero => exact .inl rfl
    | succ m => exact .inr ⟨c, rfl, by simp, hM⟩
  | @stmt d i t w ks w' _ ih =>
    intro m c hu hM
    cases m with
    | zero => exact .inl rfl
    | succ m =>
      have := ih (m + 1) { c with code := c.code ++ [i] } (fun p hp => hu p (uses_tail hp)) ⟨hM.vars, hM.names⟩
      rcases this with e | ⟨c', e, hk, hM'⟩
      · exact .inl e
      · exact .inr ⟨c', e, by rw [hk]; simp, hM'⟩
  | @var d x t w ks w' hx _ ih =>
    intro m c hu hM
    cases m with
    | zero => exact .inl rfl
    | succ m =>
      have hx' : x ∉ c.vars := by rw [hM.vars]; exact hx
      have := ih (m + 1) { c with vars := c.vars ++ [x] } (fun p hp => hu p (uses_tail hp))
        ⟨by show c.vars ++ [x] = w.vars ++ [x]; rw [hM.vars], hM.names⟩
      have e0 : comp k (m + 1) d (.var x :: t) c = comp k (m + 1) d t { c with vars := c.vars ++ [x] } := by
        simp only [comp, items, hx', if_false]
      rw [e0]; exact this
  | @again d n t w ks w' hf hn _ ih =>
    intro m c hu hM
    cases m with
    | zero => exact .inl rfl
    | succ m =>
      obtain ⟨u, hf⟩ := hf
      have hp : n ∈ c.parsed := (hM.names d n (hu _ (.here List.mem_cons_self))).2 hn
      have e0 : comp k (m + 1) d (.imp n :: t) c = comp k (m + 1) d t c := by
        simp only [comp, items, hf, hp, if_true]
      rw [e0]; exact ih (m + 1) c (fun p hp => hu p (uses_tail hp)) hM
  | @first d n t u w ks w1 ls w' hf hn _ _ ih1 ih2 =>
    intro m c hu hM
    cases m with
    | zero => exact .inl rfl
    | succ m =>
      have hun := hu _ (.here (List.mem_cons_self (a := Item.imp n) (l := t)))
      have hp : n ∉ c.parsed := fun h => hn ((hM.names d n hun).1 h)
      rcases ih1 m { c with parsed := c.parsed ++ [n] } (fun p hp => hu p (.deep List.mem_cons_self hf hp)) (hM.add hc hun) with
        e | ⟨c1, e, hk, hM1⟩
      · left
        have e : comp k m (walk d n.dirs) u { c with parsed := c.parsed ++ [n] } = .deep := e
        simp only [comp, items, hf, hp, if_false, e]
      · have e : comp k m (walk d n.dirs) u { c with parsed := c.parsed ++ [n] } = .ok c1 := e
        have e0 : comp k (m + 1) d (.imp n :: t) c = comp k (m + 1) d t c1 := by
          simp only [comp, items, hf, hp, if_false, e]
        rw [e0]
        rcases ih2 (m + 1) c1 (fun p hp => hu p (uses_tail hp)) hM1 with e2 | ⟨c2, e2, hk2, hM2⟩
        · exact .inl e2
        · exact .inr ⟨c2, e2, by rw [hk2, hk]; simp, hM2⟩

/-- A text that is refused early changes nothing that later scripts can see. -/
theorem early_comp {k : Disk} {d : Dir} {w : World} (m : Nat) : ∀ (pre : List Nat) (it : Item) (post : Text) (c : C),
    c.vars = w.vars →
    (it = .bad ∨ (∃ x, it = .var x ∧ x ∈ w.vars) ∨ ∃ n, it = .imp n ∧ k.text (fileOf d n) = none) →
    ∃ c', comp k (m + 1) d (pre.map .stmt ++ it :: post) c = .err c' ∧ c'.parsed = c.parsed ∧ c'.vars = c.vars
  | [], it, post, c, hv, h => by
    rcases h with h | ⟨x, h, hx⟩ | ⟨n, h, hn⟩
    · subst h; exact ⟨c, rfl, rfl, rfl⟩
    · subst h
      rw [← hv] at hx
      exact ⟨c, by simp [comp, items, hx], rfl, rfl⟩
    · subst h; exact ⟨c, by simp [comp, items, hn], rfl, rfl⟩
  | i :: pre, it, post, c, hv, h => by
    obtain ⟨c', e, h1, h2⟩ := early_comp m pre it post { c with code := c.code ++ [i] } hv h
    exact ⟨c', e, h1, h2⟩

theorem early_refused {k : Disk} {d : Dir} : ∀ (pre : List Nat) (it : Item) (post : Text) (w : World),
    (it = .bad ∨ (∃ x, it = .var x ∧ x ∈ w.vars) ∨ ∃ n, it = .imp n ∧ k.text (fileOf d n) = none) →
    ¬ ∃ ks w1, Takes k d (pre.map .stmt ++ it :: post) w ks w1
  | [], it, post, w, h => by
    rintro ⟨ks, w1, ht⟩
    have ht : Takes k d (it :: post) w ks w1 := ht
    rcases h with h | ⟨x, h, hx⟩ | ⟨n, h, hn⟩
    · subst h; cases ht
    · subst h; cases ht with
      | var h _ => exact h hx
    · subst h; cases ht with
      | again h _ _ => obtain ⟨u, h⟩ := h; rw [hn] at h; cases h
      | first h _ _ _ => rw [hn] at h; cases h
  | i :: pre, it, post, w, h => by
    rintro ⟨ks, w1, ht⟩
    have ht : Takes k d (.stmt i :: (pre.map .stmt ++ it :: post)) w ks w1 := ht
    cases ht with
    | stmt ht => exact early_refused pre it post w h ⟨_, _, ht⟩

/-! ### The specification determines what the host sees -/

theorem takes_det {k : Disk} {d : Dir} {t : Text} {w w1 w2 : World} {ks ls : List Nat} (h : Takes k d t w ks w1)
    (g : Takes k d t w ls w2) : ks = ls ∧ w1 = w2 := by
  induction h generalizing ls w2 with
  | nil => cases g; exact ⟨rfl, rfl⟩
  | stmt _ ih =>
    cases g with
    | stmt g => obtain ⟨h1, h2⟩ := ih g; exact ⟨by rw [h1], h2⟩
  | var _ _ ih =>
    cases g with
    | var _ g => exact ih g
  | again hf hn _ ih =>
    cases g with
    | again _ _ g => exact ih g
    | first _ hn' _ _ => exact absurd hn hn'
  | first hf hn _ _ ih1 ih2 =>
    cases g with
    | again _ hn' _ => exact absurd hn' hn
    | first hf' _ g1 g2 =>
      rw [hf] at hf'
      obtain rfl := Option.some.inj hf'
      obtain ⟨h1, h2⟩ := ih1 g1
      subst h2
      obtain ⟨h3, h4⟩ := ih2 g2
      exact ⟨by rw [h1, h3], h4⟩

theorem script_det {k : Disk} {d : Dir} {t : Text} {w w0 w1 w2 : World} {o p : Obs} (h : Script k d t w w0 o w1)
    (g : Script k d t w w0 p w2) : o = p ∧ w1 = w2 := by
  rcases h with ⟨ks, v, h, e1, e2⟩ | ⟨h, e1, e2⟩
  · rcases g with ⟨ls, v', g, f1, f2⟩ | ⟨g, _, _⟩
    · obtain ⟨h1, h2⟩ := takes_det h g
      subst h1; subst h2
      exact ⟨e1.trans f1.symm, e2.trans f2.symm⟩
    · exact absurd ⟨_, _, h⟩ g
  · rcases g with ⟨ls, v', g, _, _⟩ | ⟨_, f1, f2⟩
    · exact absurd ⟨_, _, g⟩ h
    · exact ⟨e1.trans f1.symm, e2.trans f2.symm⟩

theorem step_det {k k1 k2 : Disk} {w w1 w2 : World} {op : Op} {o p : Obs} (h : Step k w op o k1 w1) (g : Step k w op p k2 w2) :
    o = p ∧ k1 = k2 ∧ w1 = w2 := by
  cases h with
  | text h => cases g with
    | text g => obtain ⟨h1, h2⟩ := script_det h g; exact ⟨h1, rfl, h2⟩
  | missing h => cases g with
    | missing _ => exact ⟨rfl, rfl, rfl⟩
    | again _ g => obtain ⟨u, g⟩ := g; rw [h] at g; cases g
    | file g _ _ => rw [h] at g; cases g
  | again h hu => cases g with
    | missing g => obtain ⟨u, hu⟩ := hu; rw [g] at hu; cases hu
    | again _ _ => exact ⟨rfl, rfl, rfl⟩
    | file _ g _ => exact absurd h g
  | file hf hn h => cases g with
    | missing g => rw [hf] at g; cases g
    | again g _ => exact absurd g hn
    | file gf _ g =>
      rw [hf] at gf
      obtain rfl := Option.some.inj gf
      obtain ⟨h1, h2⟩ := script_det h g
      exact ⟨h1, rfl, h2⟩
  | run => cases g; exact ⟨rfl, rfl, rfl⟩
  | write => cases g; exact ⟨rfl, rfl, rfl⟩

theorem steps_det {k k1 k2 : Disk} {w w1 w2 : World} {ops : List Op} {os ps : List Obs} (h : Steps k w ops os k1 w1)
    (g : Steps k w ops ps k2 w2) : os = ps := by
  induction h generalizing ps k2 w2 with
  | nil => cases g; rfl
  | cons h _ ih =>
    cases g with
    | cons g1 g =>
      obtain ⟨h1, h2, h3⟩ := step_det h g1
      subst h2; subst h3
      rw [h1, ih g]

/-! ### Histories -/

theorem compileRun_takes {used : Dir × Name → Prop} (hc : Coherent used) {k : Disk} {d : Dir} {t : Text} {w w' : World}
    {ks : List Nat} (h : Takes k d t w ks w') {p : List Name} {e : Eng} (hu : ∀ q, Uses k d t q → used q)
    (hM : M used ⟨p, e.vars, []⟩ w) :
    ∃ e', compileRun k d t p e = some (e', .ran ks) ∧ M used ⟨e'.parsed, e'.vars, []⟩ w' ∧ e'.code = ks := by
  have hb := comp_bound k d t ⟨p, e.vars, []⟩
  rcases takes_comp hc h (bound k t) ⟨p, e.vars, []⟩ hu hM with hd | ⟨c', e1, hk, hM'⟩
  · rcases hb with ⟨c', e1, _⟩ | ⟨c', e1, _⟩ <;> (rw [hd] at e1; cases e1)
  · have hk : c'.code = ks := hk
    refine ⟨⟨c'.parsed, c'.vars, c'.code⟩, ?_, ⟨hM'.vars, hM'.names⟩, hk⟩
    unfold compileRun
    rw [e1, ← hk]

theorem steps_ok {used : Dir × Name → Prop} (hc : Coherent used) : ∀ (ops : List Op) (k : Disk) (w : World) (e : Eng) (ok : Bool),
    M used ⟨e.parsed, e.vars, []⟩ w → (ok = true → e.code = w.last) → Fine used k w ok ops →
    ∃ k' e' os w', steps k e ops = some (k', e', os) ∧ Steps k w ops os k' w'
  | [], k, w, e, _, _, _, _ => ⟨k, e, [], w, rfl, .nil⟩
  | .text t :: ops, k, w, e, ok, hM, hok, hF => by
    obtain ⟨hu, ⟨ks, w', ht, hF'⟩ | ⟨⟨pre, it, post, he, hr⟩, hF'⟩⟩ := hF
    · obtain ⟨e', e1, hM', hk⟩ := compileRun_takes hc ht (e := e) hu hM
      obtain ⟨k2, e2, os, w2, h2, hS⟩ := steps_ok hc ops k { w' with last := ks } e' true ⟨hM'.vars, hM'.names⟩
        (fun _ => hk) hF'
      refine ⟨k2, e2, _ :: os, w2, ?_, .cons (.text (.inl ⟨ks, w', ht, rfl, rfl⟩)) hS⟩
      simp only [steps, step, e1, Option.map_some, h2]
    · subst he
      have hb : ∃ m, bound k (pre.map .stmt ++ it :: post) = m + 1 := ⟨_, rfl⟩
      obtain ⟨m, hb⟩ := hb
      obtain ⟨c', e1, h1, h2⟩ := early_comp (k := k) (d := []) (w := w) m pre it post ⟨e.parsed, e.vars, []⟩ hM.vars hr
      have e3 : compileRun k [] (pre.map .stmt ++ it :: post) e.parsed e = some (⟨c'.parsed, c'.vars, c'.code⟩, .exc) := by
        unfold compileRun
        rw [hb, e1]
      have hM' : M used ⟨c'.parsed, c'.vars, []⟩ w := by
        refine ⟨?_, ?_⟩
        · show c'.vars = w.vars; rw [h2]; exact hM.vars
        · show ∀ d n, used (d, n) → (n ∈ c'.parsed ↔ _); rw [h1]; exact hM.names
      obtain ⟨k2, e2, os, w2, h2', hS⟩ := steps_ok hc ops k w ⟨c'.parsed, c'.vars, c'.code⟩ false hM'
        (fun h => by cases h) hF'
      refine ⟨k2, e2, _ :: os, w2, ?_, .cons (.text (.inr ⟨early_refused pre it post w hr, rfl, rfl⟩)) hS⟩
      simp only [steps, step, e3, Option.map_some, h2']
  | .file n :: ops, k, w, e, ok, hM, hok, hF => by
    obtain ⟨hun, hn, t, hf, hu, ks, w', ht, hF'⟩ := hF
    have hp : n ∉ e.parsed := fun h => hn ((hM.names [] n hun).1 h)
    obtain ⟨e', e1, hM', hk⟩ := compileRun_takes hc ht (e := e) hu (hM.add hc hun)
    obtain ⟨k2, e2, os, w2, h2, hS⟩ := steps_ok hc ops k { w' with last := ks } e' true ⟨hM'.vars, hM'.names⟩
      (fun _ => hk) hF'
    refine ⟨k2, e2, _ :: os, w2, ?_, .cons (.file hf hn (.inl ⟨ks, w', ht, rfl, rfl⟩)) hS⟩
    have e1 : compileRun k (walk [] n.dirs) t (e.parsed ++ [n]) e = some (e', .ran ks) := e1
    simp only [steps, step, hp, if_false, hf, e1, Option.map_some, h2]
  | .run :: ops, k, w, e, ok, hM, hok, hF => by
    obtain ⟨h, hF'⟩ := hF
    have hl := hok h
    obtain ⟨k2, e2, os, w2, h2, hS⟩ := steps_ok hc ops k w e true hM (fun _ => hl) hF'
    refine ⟨k2, e2, .ran w.last :: os, w2, ?_, .cons .run hS⟩
    simp only [steps, step, h2, hl]
  | .write f t :: ops, k, w, e, ok, hM, hok, hF => by
    obtain ⟨k2, e2, os, w2, h2, hS⟩ := steps_ok hc ops ((f, t) :: k) w e ok hM hok hF
    refine ⟨k2, e2, .none :: os, w2, ?_, .cons .write hS⟩
    simp only [steps, step, h2]

/-! ### Each file once -/

theorem step_ends (k : Disk) (e : Eng) (he : e.parsed.Nodup) (op : Op) :
    ∃ k' e' o, step k e op = some (k', e', o) ∧ e'.parsed.Nodup := by
  have hcr : ∀ d t p, p.Nodup → ∃ e' o, compileRun k d t p e = some (e', o) ∧ e'.parsed.Nodup := by
    intro d t p hp
    rcases comp_bound k d t ⟨p, e.vars, []⟩ with ⟨c, h, _, hd⟩ | ⟨c, h, _, hd⟩
    · exact ⟨⟨c.parsed, c.vars, c.code⟩, .ran c.code, by unfold compileRun; rw [h], hd hp⟩
    · exact ⟨⟨c.parsed, c.vars, c.code⟩, .exc, by unfold compileRun; rw [h], hd hp⟩
  cases op with
  | text t =>
    obtain ⟨e', o, h, hn⟩ := hcr [] t e.parsed he
    exact ⟨k, e', o, by simp only [step, h, Option.map_some], hn⟩
  | file n =>
    by_cases hp : n ∈ e.parsed
    · exact ⟨k, e, .ran e.code, by simp only [step, hp, if_true], he⟩
    · cases hf : k.text (fileOf [] n) with
      | none => exact ⟨k, { e with parsed := e.parsed ++ [n] }, .exc, by simp only [step, hp, if_false, hf], nodup_snoc he hp⟩
      | some t =>
        obtain ⟨e', o, h, hn⟩ := hcr (walk [] n.dirs) t (e.parsed ++ [n]) (nodup_snoc he hp)
        exact ⟨k, e', o, by simp only [step, hp, if_false, hf, h, Option.map_some], hn⟩
  | run => exact ⟨k, e, _, rfl, he⟩
  | write f t => exact ⟨_, e, _, rfl, he⟩

theorem steps_ends : ∀ (ops : List Op) (k : Disk) (e : Eng), e.parsed.Nodup →
    ∃ k' e' os, steps k e ops = some (k', e', os) ∧ e'.parsed.Nodup
  | [], k, e, he => ⟨k, e, [], rfl, he⟩
  | op :: ops, k, e, he => by
    obtain ⟨k1, e1, o, h1, he1⟩ := step_ends k e he op
    obtain ⟨k2, e2, os, h2, he2⟩ := steps_ends ops k1 e1 he1
    exact ⟨k2, e2, o :: os, by simp only [steps, h1, h2], he2⟩

theorem steps_length : ∀ (ops : List Op) (k : Disk) (e : Eng) {k' : Disk} {e' : Eng} {os : List Obs},
    steps k e ops = some (k', e', os) → os.length = ops.length
  | [], k, e, k', e', os, h => by
    have h : some (k, e, ([] : List Obs)) = some (k', e', os) := h
    injection h with h; injection h with _ h; injection h with _ h; rw [← h]; rfl
  | op :: ops, k, e, k', e', os, h => by
    unfold steps at h
    cases h1 : step k e op with
    | none => rw [h1] at h; cases h
    | some r =>
      obtain ⟨k1, e1, o⟩ := r
      simp only [h1] at h
      cases h2 : steps k1 e1 ops with
      | none => rw [h2] at h; cases h
      | some r =>
        obtain ⟨k2, e2, os'⟩ := r
        simp only [h2] at h
        injection h with h; injection h with _ h; injection h with _ h
        rw [← h, List.length_cons, List.length_cons, steps_length ops k1 e1 h2]

/-- What is taken in: the statements of the text and of each file taken in on the way, each of them once. -/
theorem takes_perm {k : Disk} {d : Dir} {t : Text} {w w' : World} {ks : List Nat} (h : Takes k d t w ks w') :
    ∃ fs : List File, w'.taken = w.taken ++ fs ∧ (w.taken.Nodup → w'.taken.Nodup) ∧
      ks.Perm (stmts t ++ fs.flatMap (fun f => stmts ((k.text f).getD []))) ∧ (stmts t).Sublist ks := by
  induction h with
  | nil => exact ⟨[], by simp, fun h => h, by simp [stmts], List.Sublist.refl _⟩
  | stmt _ ih =>
    obtain ⟨fs, h1, h2, h3, h4⟩ := ih
    exact ⟨fs, h1, h2, by simpa [stmts] using h3, by simpa [stmts] using h4⟩
  | var _ _ ih =>
    obtain ⟨fs, h1, h2, h3, h4⟩ := ih
    exact ⟨fs, h1, h2, h3, h4⟩
  | again _ _ _ ih =>
    obtain ⟨fs, h1, h2, h3, h4⟩ := ih
    exact ⟨fs, h1, h2, h3, h4⟩
  | @first d n t u w ks w1 ls w' hf hn _ _ ih1 ih2 =>
    obtain ⟨fs, h1, h2, h3, h4⟩ := ih1
    obtain ⟨gs, g1, g2, g3, g4⟩ := ih2
    refine ⟨fileOf d n :: (fs ++ gs), ?_, ?_, ?_, ?_⟩
    · rw [g1, h1]; simp
    · intro hw; exact g2 (h2 (nodup_snoc hw hn))
    · have e : (k.text (fileOf d n)).getD [] = u := by rw [hf]; rfl
      rw [List.flatMap_cons, e, List.flatMap_append]
      show (ks ++ ls).Perm (stmts t ++ _)
      refine (h3.append g3).trans ?_
      refine List.perm_iff_count.2 (fun a => ?_)
      simp only [List.count_append]
      omega
    · show (stmts t).Sublist _
      exact g4.trans (List.sublist_append_right _ _)

end Verif.Imp
