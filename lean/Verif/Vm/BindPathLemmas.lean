import Verif.Vm.BindPathSpec
namespace Verif.Vm.BindPath

open Verif.Core

theorem split_plain : ∀ (cur n : List UInt8), (46 : UInt8) ∉ n → splitDots cur n = [cur ++ n]
  | cur, [], _ => by simp [splitDots]
  | cur, c :: cs, h => by
    have hc : c ≠ 46 := fun e => h (by simp [e])
    rw [splitDots, if_neg hc, split_plain _ cs (fun m => h (by simp [m]))]; simp

theorem split_cons : ∀ (cur n rest : List UInt8), (46 : UInt8) ∉ n →
    splitDots cur (n ++ [46] ++ rest) = (cur ++ n) :: splitDots [] rest
  | cur, [], rest, _ => by simp [splitDots]
  | cur, c :: cs, rest, h => by
    have hc : c ≠ 46 := fun e => h (by simp [e])
    have := split_cons (cur ++ [c]) cs rest (fun m => h (by simp [m]))
    simp only [List.cons_append, List.append_assoc] at this ⊢
    rw [splitDots, if_neg hc, this]; simp

theorem split_dotted : ∀ (ns : List (List UInt8)), ns ≠ [] → Names ns → splitDots [] (dotted ns) = ns
  | [], h, _ => absurd rfl h
  | [n], _, h => by rw [dotted, split_plain _ _ (h n (by simp))]; rfl
  | n :: m :: r, _, h => by
    rw [dotted, split_cons _ _ _ (h n (by simp)), split_dotted (m :: r) (by simp) (fun x hx => h x (by simp [hx]))]
    · rfl
    · simp

theorem find_rev {p : Meth → Bool} {l : List Meth} {m : Meth} :
    l.reverse.find? p = some m ↔ p m = true ∧ ∃ b a, l = b ++ m :: a ∧ ∀ x ∈ a, p x = false := by
  rw [List.find?_eq_some_iff_append]
  constructor
  · rintro ⟨h, as, bs, e, ha⟩
    refine ⟨h, bs.reverse, as.reverse, ?_, ?_⟩
    · have := congrArg List.reverse e
      simpa using this
    · intro x hx
      have := ha x (by simpa using hx)
      simpa using this
  · rintro ⟨h, b, a, e, ha⟩
    refine ⟨h, a.reverse, b.reverse, by simp [e], fun x hx => ?_⟩
    simp [ha x (by simpa using hx)]

theorem memberFn_iff {o : Obj} {n : List UInt8} {m : Meth} : memberFn o n = some m ↔ ClassFn o n m := by
  unfold memberFn ClassFn
  rw [find_rev]
  simp

theorem classFn_unique {o : Obj} {n : List UInt8} {m m' : Meth} (h : ClassFn o n m) (h' : ClassFn o n m') : m = m' := by
  rw [← memberFn_iff] at h h'
  rw [h] at h'; exact Option.some.inj h'

/-- The first name, when every variable lives in the slot of its number. -/
theorem firstObj_sound {w : World} {n : List UInt8} : ∀ (l : List Nat) (j a : Nat),
    firstObj w n l j = .ok (some a) → ∃ k s, l[k]? = some s ∧ w.name s = n ∧ w.eng.stack (j + k) = some (.obj a)
  | [], _, _, h => by simp [firstObj] at h
  | s :: r, j, a, h => by
    have go : firstObj w n r (j + 1) = .ok (some a) →
        ∃ k s', (s :: r)[k]? = some s' ∧ w.name s' = n ∧ w.eng.stack (j + k) = some (.obj a) := by
      intro h
      obtain ⟨k, s', h1, h2, h3⟩ := firstObj_sound r (j + 1) a h
      refine ⟨k + 1, s', by simpa using h1, h2, ?_⟩
      rw [← h3]; congr 1; omega
    rw [firstObj] at h
    split at h
    · rename_i hn
      split at h
      · split at h
        · rename_i b hb
          simp only [Out.ok.injEq, Option.some.injEq] at h
          subst h
          exact ⟨0, s, by simp, hn, by simpa using hb⟩
        · exact go h
      · cases h
    · exact go h

theorem firstObj_complete {w : World} {n : List UInt8} : ∀ (l : List Nat) (j k s a : Nat),
    (l.map w.name).Nodup → l[k]? = some s → w.name s = n → j + l.length ≤ w.eng.locals.length →
    w.eng.stack (j + k) = some (.obj a) → firstObj w n l j = .ok (some a)
  | [], _, _, _, _, _, h, _, _, _ => by simp at h
  | s0 :: r, j, k, s, a, hnd, hk, hn, hl, hs => by
    rw [List.map_cons, List.nodup_cons] at hnd
    simp only [List.length_cons] at hl
    cases k with
    | zero =>
      simp only [List.getElem?_cons_zero, Option.some.injEq] at hk
      subst hk
      rw [firstObj, if_pos hn, if_pos (by omega)]
      simp only [Nat.add_zero] at hs
      rw [hs]
    | succ k =>
      simp only [List.getElem?_cons_succ] at hk
      have hne : w.name s0 ≠ n := by
        intro e
        apply hnd.1
        rw [e, ← hn]
        exact List.mem_map_of_mem (List.mem_of_getElem? hk)
      rw [firstObj, if_neg hne]
      exact firstObj_complete r (j + 1) k s a hnd.2 hk hn (by omega) (by rw [← hs]; congr 1; omega)

/-- What `walk` does along the fields. -/
theorem walk_sound {w : World} {vals : List (Option Val)} : ∀ (ns front : List (List UInt8)) (a : Nat) (b : Bound),
    Reaches w vals false front a → walk w a ns = .ok b →
    ∃ more last c m, ns = more ++ [last] ∧ Reaches w vals false (front ++ more) c ∧ ClassFn (w.obj c) last m ∧
      m.member = true ∧ b = ⟨m.fn, some c⟩
  | [], _, _, _, _, h => by simp [walk] at h
  | [n], front, a, b, hr, h => by
    rw [walk] at h
    split at h
    · rename_i m hm
      split at h
      · rename_i hmem
        exact ⟨[], n, a, m, rfl, by simpa using hr, memberFn_iff.mp hm, hmem, (Out.ok.inj h).symm⟩
      · cases h
    · cases h
  | n :: n2 :: r, front, a, b, hr, h => by
    rw [walk] at h
    · split at h
      · rename_i c hc
        obtain ⟨more, last, d, m, h1, h2, h3⟩ :=
          walk_sound (n2 :: r) (front ++ [n]) c b (.field hr hc (Or.inl rfl)) h
        exact ⟨n :: more, last, d, m, by rw [h1]; rfl, by simpa using h2, h3⟩
      · cases h
    · simp

theorem walk_snoc {w : World} {b c : Nat} {n : List UInt8} (h : field (w.obj b) n = some (.obj c)) :
    ∀ (ns rest : List (List UInt8)) (a : Nat), rest ≠ [] →
    (∀ r, r ≠ [] → walk w a (ns ++ r) = walk w b r) → walk w a (ns ++ [n] ++ rest) = walk w c rest := by
  intro ns rest a hr hw
  rw [List.append_assoc, hw _ (by simp)]
  cases rest with
  | nil => exact absurd rfl hr
  | cons x xs =>
    rw [List.cons_append, List.nil_append, walk]
    · rw [h]
    · simp

theorem walk_complete {w : World} {vals : List (Option Val)} {ns : List (List UInt8)} {b : Nat}
    (h : Reaches w vals false ns b) :
    ∃ (n : List UInt8) (more : List (List UInt8)) (a k s : Nat), ns = n :: more ∧ w.eng.vars[k]? = some s ∧ w.name s = n ∧ vals[k]? = some (some (Val.obj a)) ∧
      ∀ r, r ≠ [] → walk w a (more ++ r) = walk w b r := by
  induction h with
  | var h1 h2 h3 h4 =>
    rename_i k s a n v
    obtain rfl | ⟨h, _⟩ := h4
    · exact ⟨n, [], a, k, s, rfl, h1, h2, h3, fun r _ => rfl⟩
    · cases h
  | field h1 h2 h3 ih =>
    rename_i ns a b n v
    obtain ⟨n0, more, a0, k, s, e1, e2, e3, e4, e5⟩ := ih
    obtain rfl | ⟨h, _⟩ := h3
    · refine ⟨n0, more ++ [n], a0, k, s, by rw [e1]; rfl, e2, e3, e4, fun r hr => ?_⟩
      exact walk_snoc h2 more r a0 hr e5
    · cases h

theorem Reaches.deep {w : World} {vals : List (Option Val)} {ns : List (List UInt8)} {a : Nat}
    (h : Reaches w vals false ns a) : Reaches w vals true ns a := by
  induction h with
  | var h1 h2 h3 h4 => exact .var h1 h2 h3 (h4.imp id (fun h => absurd h.1 (by decide)))
  | field _ h2 h3 ih => exact .field ih h2 (h3.imp id (fun h => absurd h.1 (by decide)))

/-- After a calm history the variable number `k` is in slot `k`, and that slot holds the value last assigned. -/
theorem calm_slots {w : World} {os : List (Globals.Op Val)} (hw : WorldOf w os) (hc : Globals.Calm false os) :
    w.eng.vars.length = (Globals.Env.run {} os).vals.length ∧ w.eng.vars.length ≤ w.eng.locals.length ∧
    ∀ k v, (Globals.Env.run {} os).vals[k]? = some v → w.eng.stack k = v := by
  obtain ⟨g, p, h1, h2⟩ := Globals.run_inv os (Globals.init_inv (V := Val)) hc
  have := hw.1
  rw [h1] at this
  have := Out.ok.inj this
  subst this
  obtain ⟨tail, ht, _⟩ := h2.ids
  exact ⟨h2.len, by rw [ht]; simp, h2.val⟩

end Verif.Vm.BindPath
