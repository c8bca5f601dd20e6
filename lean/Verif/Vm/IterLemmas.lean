import Verif.Vm.Iter
import Verif.Base.MapProps
/- Helper lemmas on positions in the field table of an object while the table changes. -/
namespace Verif.Map
open Verif
variable {K : Type u} {V : Type v} [DecidableEq K] [Ord K] [Std.TransOrd K] [Std.LawfulEqOrd K]
variable {m : MapS K V} {its : List (K × Nat)} {r : List Nat} {l : List (K × V)}

/-- Node `n` belongs to the item of key `k`. -/
def Holds (m : MapS K V) (n : Nat) (k : K) : Prop := some (k, n) ∈ m.items.take m.count

theorem Inv.holds (I : Inv m its r l) {n : Nat} {k : K} : Holds m n k ↔ (k, n) ∈ its := by
  unfold Holds; rw [I.cnt, I.take]; simp

/-- The operation neither erases `k` nor empties the map. -/
def keeps (k : K) : Op K V → Prop
  | .erase k' => k' ≠ k
  | .clear => False
  | _ => True

theorem holds_step {slot : Nat} (hs : 0 < slot) {h : List (Op K V)} (g : Good m h) (op : Op K V)
    (hmax : (liveKeys h).length + slot < maxItems) {m' : MapS K V} {o : Obs V}
    (e : step slot m op = .ok (m', o)) {n : Nat} {k : K} (hn : Holds m n k) (hk : keeps k op) : Holds m' n k := by
  obtain ⟨its, r, l, I, hkeys, h1, h2⟩ := g
  rw [I.holds] at hn
  cases op with
  | set k' v =>
    by_cases hkl : k' ∈ l.map (·.1)
    · obtain ⟨m'', e', I'⟩ := I.set_existing v slot hkl
      simp only [step, e', Out.map, Out.ok.injEq, Prod.mk.injEq] at e
      rw [← e.1, I'.holds]; exact hn
    · obtain ⟨m'', its', r', e', I', hsub⟩ := I.set_new v hs hkl
        (by have := congrArg List.length hkeys; simp at this; omega)
      simp only [step, e', Out.map, Out.ok.injEq, Prod.mk.injEq] at e
      rw [← e.1, I'.holds]; exact hsub _ hn
  | get k' =>
    have : m' = m := by
      cases hg : get m k' <;> simp only [step, hg, Out.map, Out.ok.injEq, Prod.mk.injEq] at e
      · exact e.1.symm
      all_goals cases e
    rw [this, I.holds]; exact hn
  | exist k' =>
    simp only [step, I.exist_eq, Out.map, Out.ok.injEq, Prod.mk.injEq] at e
    rw [← e.1, I.holds]; exact hn
  | erase k' =>
    by_cases hkl : k' ∈ l.map (·.1)
    · obtain ⟨m'', its', r', e', I', hsub, _⟩ := I.erase_some hkl
      simp only [step, e', Out.map, Out.ok.injEq, Prod.mk.injEq] at e
      rw [← e.1, I'.holds]
      exact hsub _ hn (fun ek => hk ek.symm)
    · simp only [step, I.erase_none hkl, Out.map, Out.ok.injEq, Prod.mk.injEq] at e
      rw [← e.1, I.holds]; exact hn
  | count =>
    simp only [step, Out.ok.injEq, Prod.mk.injEq] at e
    rw [← e.1, I.holds]; exact hn
  | clear => exact absurd hk id

theorem holds_run {slot : Nat} (hs : 0 < slot) {n : Nat} {k : K} : ∀ (ops : List (Op K V)) (m : MapS K V)
    (h : List (Op K V)), Good m h → BelowMax slot (h ++ ops) → Holds m n k → (∀ op ∈ ops, keeps k op) →
    ∃ m', run slot m ops = .ok (m', answers h ops) ∧ Good m' (h ++ ops) ∧ Holds m' n k := by
  intro ops
  induction ops with
  | nil => intro m h g _ hh _; exact ⟨m, rfl, by simpa using g, hh⟩
  | cons op ops ih =>
    intro m h g hb hh hk
    have hm := hb h (List.prefix_append _ _)
    obtain ⟨m', e, g'⟩ := good_step hs g op hm
    have hh' := holds_step hs g op hm e hh (hk op (List.mem_cons_self ..))
    obtain ⟨m'', e', g'', hh''⟩ := ih m' (h ++ [op]) g' (by simpa using hb) hh'
      (fun o ho => hk o (List.mem_cons_of_mem _ ho))
    refine ⟨m'', ?_, by simpa using g'', hh''⟩
    simp [run, e, e', answers, Out.bind, Out.map]

/-- After `erase k` the node of `k` belongs to no item. -/
theorem erase_frees {slot : Nat} {h : List (Op K V)} (g : Good m h) {n : Nat} {k : K} (hn : Holds m n k)
    {m' : MapS K V} {o : Obs V} (e : step slot m (.erase k) = .ok (m', o)) : ∀ k', ¬ Holds m' n k' := by
  obtain ⟨its, r, l, I, hkeys, h1, h2⟩ := g
  rw [I.holds] at hn
  have hkl : k ∈ l.map (·.1) := I.keys_perm.mem_iff.1 (List.mem_map.2 ⟨_, hn, rfl⟩)
  obtain ⟨m'', its', r', e', I', _, hrm⟩ := I.erase_some hkl
  simp only [step, e', Out.map, Out.ok.injEq, Prod.mk.injEq] at e
  rw [← e.1]
  intro k' hc
  rw [I'.holds] at hc
  obtain ⟨hc, hne⟩ := hrm _ hc
  have a := I.key _ hc
  have b := I.key _ hn
  simp only at a b
  rw [a] at b
  exact hne (Option.some.inj b)

end Verif.Map

namespace Verif.Vm.Iter
open Verif Map

theorem live_iff (m : Fields) (n : Nat) : live m n = true ↔ ∃ k, Holds m n k := by
  unfold live Holds
  rw [List.any_eq_true]
  constructor
  · rintro ⟨c, hc, h⟩
    cases c with
    | none => cases h
    | some p => obtain ⟨k, x⟩ := p; simp at h; exact ⟨k, h ▸ hc⟩
  · rintro ⟨k, h⟩; exact ⟨_, h, by simp⟩

/-- The key after `k` in the list of live keys. -/
def after (k : List UInt8) (ks : List (List UInt8)) : Option (List UInt8) := ((ks.dropWhile (· ≠ k)).drop 1).head?

theorem after_mid {k : List UInt8} {p s : List (List UInt8)} (h : k ∉ p) : after k (p ++ k :: s) = s.head? := by
  unfold after
  have : (p ++ k :: s).dropWhile (fun x => decide (x ≠ k)) = k :: s := by
    induction p with
    | nil => simp
    | cons a p ih =>
      have ha : a ≠ k := fun e => h (e ▸ List.mem_cons_self ..)
      rw [List.cons_append, List.dropWhile_cons_of_pos (by simpa using ha)]
      exact ih (fun hm => h (List.mem_cons_of_mem _ hm))
  rw [this]; simp

/-- What the iterator holds: the node of the current key, or the end mark. -/
def AtKey (m : Fields) (it : ObjIt) : Option (List UInt8) → Prop
  | some k => it.fin = false ∧ ∃ n, it.cur = some n ∧ Holds m n k
  | none => it.fin = true

theorem start_at {m : Fields} {h : List (Op (List UInt8) Stk)} (g : Good m h) :
    AtKey m (ObjIt.start m) (liveKeys h).head? := by
  obtain ⟨its, r, l, I, hk, _, _⟩ := g
  rw [← hk]
  have h1 := I.ring.first
  cases r with
  | nil =>
    have : l = [] := by have := congrArg List.length I.abs; simpa using this.symm
    simp only [List.head?_nil] at h1
    simp [this, ObjIt.start, AtKey, h1]
  | cons n t =>
    simp only [List.head?_cons] at h1
    have ha := I.abs
    cases l with
    | nil => simp at ha
    | cons x ls =>
      simp only [List.map_cons, List.cons.injEq] at ha
      have hx : m.nkey n = some x.1 := congrArg Prod.fst ha.1
      have hm : n ∈ its.map (·.2) := I.perm.mem_iff.2 (List.mem_cons_self ..)
      obtain ⟨p, hp, e⟩ := List.mem_map.1 hm
      have := I.key p hp
      rw [e, hx] at this
      refine ⟨by simp [ObjIt.start, h1], n, by simp [ObjIt.start, h1], ?_⟩
      rw [I.holds]
      have e2 : (x.1, n) = p := Prod.ext (Option.some.inj this) e.symm
      exact e2 ▸ hp

theorem get_at {m : Fields} {h : List (Op (List UInt8) Stk)} (g : Good m h) {it : ObjIt} {k : List UInt8}
    (ha : AtKey m it (some k)) : ∃ v, current k h = some v ∧ ObjIt.get (some m) it = .ok (it, [.stk v, .chars k]) := by
  obtain ⟨hf, n, hc, hh⟩ := ha
  have hl : live m n = true := (live_iff m n).2 ⟨k, hh⟩
  obtain ⟨its, r, l, I, hk, h1, _⟩ := g
  rw [I.holds] at hh
  obtain ⟨p, s, hr, lp, v, ls, hll, hv, _⟩ := I.locate hh
  have hkey := I.key _ hh
  simp only at hkey
  refine ⟨v, h1 k v (by rw [hll]; simp), ?_⟩
  simp [ObjIt.get, hf, hc, hl, hkey, hv]

theorem next_at {m : Fields} {h : List (Op (List UInt8) Stk)} (g : Good m h) {it : ObjIt} {n : Nat} {k : List UInt8}
    (hc : it.cur = some n) (hh : Holds m n k) :
    ∃ it', ObjIt.next (some m) it = .ok it' ∧ AtKey m it' (after k (liveKeys h)) := by
  have hl : live m n = true := (live_iff m n).2 ⟨k, hh⟩
  obtain ⟨its, r, l, I, hk, h1, _⟩ := g
  rw [I.holds] at hh
  obtain ⟨p, s, hr, lp, v, ls, hll, hv, e1, e2, n1, n2, n3, n4⟩ := I.locate hh
  have hring := I.ring
  rw [hr] at hring
  have hsucc := Ring.ring_succ hring
  have hfirst := hring.first
  have haft : after k (liveKeys h) = (ls.map (·.1)).head? := by
    rw [← hk, hll, List.map_append, List.map_cons]
    apply after_mid
    intro hm
    obtain ⟨x, hx, e⟩ := List.mem_map.1 hm
    exact n1 x hx e
  rw [haft]
  unfold ObjIt.next
  simp only [hc, hl, if_true]
  cases s with
  | nil =>
    have : ls = [] := by have := congrArg List.length e2; simpa using this.symm
    subst this
    have hx : m.heap.next n = m.hdr.first := by
      rw [hsucc, hfirst]; cases p <;> simp
    have hsome : ∃ x, m.hdr.first = some x := by rw [hfirst]; cases p <;> simp
    obtain ⟨x, hx2⟩ := hsome
    rw [hx, hx2]
    simp [AtKey]
  | cons b s =>
    have hx : m.heap.next n = some b := by rw [hsucc]; simp
    have hnb : ¬ (some b = m.hdr.first) := by
      rw [hfirst]
      have hnd := hring.nodup
      cases p with
      | nil =>
        intro e; simp at e
        rw [e] at hnd
        simp at hnd
      | cons a p =>
        intro e; simp at e
        rw [e] at hnd
        simp at hnd
    rw [hx]
    cases ls with
    | nil => simp at e2
    | cons y ls =>
      simp only [List.map_cons, List.cons.injEq] at e2
      have hy : m.nkey b = some y.1 := congrArg Prod.fst e2.1
      have hm : b ∈ its.map (·.2) := I.perm.mem_iff.2 (by rw [hr]; simp)
      obtain ⟨q, hq, e⟩ := List.mem_map.1 hm
      have := I.key q hq
      rw [e, hy] at this
      refine ⟨_, rfl, ?_⟩
      simp only [List.map_cons, List.head?_cons]
      refine ⟨by simp [hnb], b, rfl, ?_⟩
      rw [I.holds]
      have e3 : (y.1, b) = q := Prod.ext (Option.some.inj this) e.symm
      exact e3 ▸ hq

end Verif.Vm.Iter
