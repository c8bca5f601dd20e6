import Verif.Base.MapOps
/-
C01: the map is a finite map.  C02: enumeration in insertion order.
-/
set_option linter.unusedSectionVars false
namespace Verif.Map
open Verif
variable {K : Type u} {V : Type v} [DecidableEq K]

/-! ### Specification (mentions only the history of calls) -/

/-- The value `k` holds after the calls `h`: the one of the latest `set k` not followed by `erase k`
or `clear`. -/
def current (k : K) (h : List (Op K V)) : Option V :=
  h.foldl (fun acc op => match op with
    | .set k' v => if k' = k then some v else acc
    | .erase k' => if k' = k then none else acc
    | .clear => none
    | _ => acc) none

/-- The live keys after the calls `h`, oldest insertion first. -/
def liveKeys (h : List (Op K V)) : List K :=
  h.foldl (fun ks op => match op with
    | .set k _ => if k ∈ ks then ks else ks ++ [k]
    | .erase k => ks.filter (· ≠ k)
    | .clear => []
    | _ => ks) []

/-- The answer the next call has to give. -/
def answer (past : List (Op K V)) : Op K V → Obs V
  | .set _ _ => .done
  | .get k => .value (current k past)
  | .exist k => .flag (current k past).isSome
  | .erase k => if (current k past).isSome then .done else .thrown
  | .count => .num (liveKeys past).length
  | .clear => .done

/-- Answers along a history. -/
def answers (past : List (Op K V)) : List (Op K V) → List (Obs V)
  | [] => []
  | op :: ops => answer past op :: answers (past ++ [op]) ops

/-- The number of live keys stays below the maximum at every moment. -/
def BelowMax (slot : Nat) (h : List (Op K V)) : Prop :=
  ∀ pre, pre <+: h → (liveKeys pre).length + slot < 1000000

/-! ### Proof -/

variable [Ord K] [Std.TransOrd K] [Std.LawfulEqOrd K]

/-- The machine state after history `h`. -/
def Good (m : MapS K V) (h : List (Op K V)) : Prop :=
  ∃ its r l, Inv m its r l ∧ l.map (·.1) = liveKeys h ∧
    (∀ k v, (k, v) ∈ l → current k h = some v) ∧ (∀ k, k ∉ l.map (·.1) → current k h = none)

theorem current_snoc (k : K) (h : List (Op K V)) (op : Op K V) :
    current k (h ++ [op]) = (match op with
      | .set k' v => if k' = k then some v else current k h
      | .erase k' => if k' = k then none else current k h
      | .clear => none
      | _ => current k h) := by
  simp [current, List.foldl_append]

theorem liveKeys_snoc (h : List (Op K V)) (op : Op K V) :
    liveKeys (h ++ [op]) = (match op with
      | .set k _ => if k ∈ liveKeys h then liveKeys h else liveKeys h ++ [k]
      | .erase k => (liveKeys h).filter (· ≠ k)
      | .clear => []
      | _ => liveKeys h) := by
  simp [liveKeys, List.foldl_append]

theorem good_step {m : MapS K V} {h : List (Op K V)} {slot : Nat} (hs : 0 < slot) (g : Good m h)
    (op : Op K V) (hmax : (liveKeys h).length + slot < maxItems) :
    ∃ m', step slot m op = .ok (m', answer h op) ∧ Good m' (h ++ [op]) := by
  obtain ⟨its, r, l, I, hk, h1, h2⟩ := g
  have hmem : ∀ k, k ∈ l.map (·.1) → ∃ v, (k, v) ∈ l := by
    intro k hk; obtain ⟨p, hp, rfl⟩ := List.mem_map.1 hk; exact ⟨p.2, hp⟩
  have hcur : ∀ k, (current k h).isSome = decide (k ∈ l.map (·.1)) := by
    intro k
    by_cases hkl : k ∈ l.map (·.1)
    · obtain ⟨v, hv⟩ := hmem k hkl
      simp only [h1 k v hv, hkl]; rfl
    · simp only [h2 k hkl, hkl]; rfl
  cases op with
  | set k v =>
    by_cases hkl : k ∈ l.map (·.1)
    · obtain ⟨m', e, I'⟩ := I.set_existing v slot hkl
      refine ⟨m', by simp [step, e, Out.map, thrownObs, answer], its, r, _, I', ?_, ?_, ?_⟩
      · rw [liveKeys_snoc]; simp only [← hk, hkl, if_true, List.map_map]
        apply List.map_congr_left; intro p _; simp only [Function.comp]; split <;> simp_all
      · intro k' v' hm
        rw [current_snoc]
        obtain ⟨p, hp, e⟩ := List.mem_map.1 hm
        by_cases hpk : p.1 = k
        · simp only [hpk, if_true] at e; injection e with e1 e2; simp [e1, e2]
        · simp only [hpk, if_false] at e
          subst e
          have : ¬ k = k' := fun e => hpk e.symm
          simp only [this, if_false]
          exact h1 _ _ hp
      · intro k' hn
        rw [current_snoc]
        have hn' : k' ∉ l.map (·.1) := by
          intro hc; apply hn
          obtain ⟨p, hp, rfl⟩ := List.mem_map.1 hc
          refine List.mem_map.2 ⟨if p.1 = k then (k, v) else p, List.mem_map.2 ⟨p, hp, rfl⟩, ?_⟩
          split <;> simp_all
        have : ¬ k = k' := fun e => hn' (e ▸ hkl)
        simp only [this, if_false]
        exact h2 _ hn'
    · obtain ⟨m', its', r', e, I', _⟩ := I.set_new v hs hkl
        (by have := congrArg List.length hk; simp at this; omega)
      refine ⟨m', by simp [step, e, Out.map, thrownObs, answer], its', r', _, I', ?_, ?_, ?_⟩
      · rw [liveKeys_snoc]; simp only [← hk, hkl, if_false]; simp
      · intro k' v' hm
        rw [current_snoc]
        rcases List.mem_append.1 hm with hm | hm
        · have : ¬ k = k' := fun e => hkl (e ▸ List.mem_map.2 ⟨_, hm, rfl⟩)
          simp only [this, if_false]; exact h1 _ _ hm
        · simp at hm; simp [hm]
      · intro k' hn
        rw [current_snoc]
        simp only [List.map_append, List.mem_append, not_or] at hn
        have : ¬ k = k' := fun e => hn.2 (by simp [e])
        simp only [this, if_false]; exact h2 _ hn.1
  | get k =>
    refine ⟨m, ?_, its, r, l, I, ?_, ?_, ?_⟩
    · by_cases hkl : k ∈ l.map (·.1)
      · obtain ⟨v, hv⟩ := hmem k hkl
        simp [step, I.get_some hv, Out.map, answer, h1 k v hv]
      · simp [step, I.get_none hkl, Out.map, answer, h2 k hkl]
    · rw [liveKeys_snoc]; exact hk
    · intro k' v' hm; rw [current_snoc]; exact h1 _ _ hm
    · intro k' hm; rw [current_snoc]; exact h2 _ hm
  | exist k =>
    refine ⟨m, ?_, its, r, l, I, ?_, ?_, ?_⟩
    · simp only [step, I.exist_eq, Out.map, answer, hcur]
    · rw [liveKeys_snoc]; exact hk
    · intro k' v' hm; rw [current_snoc]; exact h1 _ _ hm
    · intro k' hm; rw [current_snoc]; exact h2 _ hm
  | erase k =>
    by_cases hkl : k ∈ l.map (·.1)
    · obtain ⟨m', its', r', e, I', _⟩ := I.erase_some hkl
      have hc := hcur k
      simp only [hkl, decide_true] at hc
      refine ⟨m', by simp [step, e, Out.map, thrownObs, answer, hc], its', r', _, I', ?_, ?_, ?_⟩
      · rw [liveKeys_snoc]; simp only [← hk, List.filter_map]; rfl
      · intro k' v' hm
        rw [current_snoc]
        obtain ⟨hm, hne⟩ := List.mem_filter.1 hm
        have : ¬ k = k' := by simp at hne; exact fun e => hne e.symm
        simp only [this, if_false]; exact h1 _ _ hm
      · intro k' hn
        rw [current_snoc]
        by_cases hkk : k = k'
        · simp [hkk]
        · simp only [hkk, if_false]
          apply h2
          intro hc; apply hn
          obtain ⟨p, hp, rfl⟩ := List.mem_map.1 hc
          refine List.mem_map.2 ⟨p, List.mem_filter.2 ⟨hp, ?_⟩, rfl⟩
          simp; exact fun e => hkk e.symm
    · have hc := h2 k hkl
      refine ⟨m, by simp [step, I.erase_none hkl, Out.map, thrownObs, answer, hc], its, r, l, I, ?_, ?_, ?_⟩
      · rw [liveKeys_snoc]; simp only [← hk]
        symm; apply List.filter_eq_self.2
        intro a ha; simp; exact fun e => hkl (e ▸ ha)
      · intro k' v' hm
        rw [current_snoc]
        have : ¬ k = k' := fun e => hkl (e ▸ List.mem_map.2 ⟨_, hm, rfl⟩)
        simp only [this, if_false]; exact h1 _ _ hm
      · intro k' hn; rw [current_snoc]; simp only; rw [h2 k' hn]; simp
  | count =>
    refine ⟨m, ?_, its, r, l, I, ?_, ?_, ?_⟩
    · have := congrArg List.length hk
      have h3 := I.len
      have h4 := I.cnt
      simp at this
      simp only [step, answer]
      rw [← this, h4]; simp only [h3]
    · rw [liveKeys_snoc]; exact hk
    · intro k' v' hm; rw [current_snoc]; exact h1 _ _ hm
    · intro k' hm; rw [current_snoc]; exact h2 _ hm
  | clear =>
    refine ⟨clear m, rfl, [], [], [], I.clear, ?_, ?_, ?_⟩
    · rw [liveKeys_snoc]; rfl
    · simp
    · intro k' _; rw [current_snoc]

theorem good_run {slot : Nat} (hs : 0 < slot) : ∀ (ops : List (Op K V)) (m : MapS K V) (h : List (Op K V)),
    Good m h → BelowMax slot (h ++ ops) →
    ∃ m', run slot m ops = .ok (m', answers h ops) ∧ Good m' (h ++ ops) := by
  intro ops
  induction ops with
  | nil => intro m h g _; exact ⟨m, rfl, by simpa using g⟩
  | cons op ops ih =>
    intro m h g hb
    obtain ⟨m', e, g'⟩ := good_step hs g op (hb h (List.prefix_append _ _))
    obtain ⟨m'', e', g''⟩ := ih m' (h ++ [op]) g' (by simpa using hb)
    refine ⟨m'', ?_, by simpa using g''⟩
    simp [run, e, e', answers, Out.bind, Out.map]

/-- **C01.** Every call of every history that stays below the maximum gives the answer the history
itself determines: `get`/`exist` report the latest `set` not undone by `erase`/`clear`, erasing an
absent key throws, `count` is the number of live keys, nothing is undefined behaviour. Holds for
every key order and growth step. -/
theorem map_is_finite_map {slot : Nat} (hs : 0 < slot) (ops : List (Op K V)) (hb : BelowMax slot ops) :
    (run slot MapS.empty ops).map (·.2) = .ok (answers [] ops) := by
  obtain ⟨m, e, _⟩ := good_run hs ops MapS.empty [] ⟨[], [], [], inv_empty, rfl, by simp, by simp [current]⟩
    (by simpa using hb)
  rw [e]; rfl

/-- A throwing `erase` leaves every later answer as if it had not been called. -/
theorem map_failed_erase_no_effect (h rest : List (Op K V)) (k : K) (hk : current k h = none) :
    (∀ k', current k' (h ++ .erase k :: rest) = current k' (h ++ rest)) := by
  intro k'
  have e : current k' (h ++ [.erase k]) = current k' h := by
    rw [current_snoc]; simp only
    split
    · rename_i e; subst e; exact hk.symm
    · rfl
  simp only [current, List.foldl_append, List.foldl_cons] at e ⊢
  simp only [List.foldl_nil] at e
  rw [e]

/-- **C02.** After every history that stays below the maximum, iterating the map ends after as many
rounds as there are live keys and yields exactly the live keys, each once, oldest insertion first,
with its current value. -/
theorem map_enumerates_in_insertion_order {slot : Nat} (hs : 0 < slot) (ops : List (Op K V))
    (hb : BelowMax slot ops) :
    ∃ m obs l, run slot MapS.empty ops = .ok (m, obs) ∧
      (∀ rounds, (liveKeys ops).length ≤ rounds → enumerate m rounds = some (.ok l)) ∧
      l.map (·.1) = liveKeys ops ∧ (liveKeys ops).Nodup ∧ ∀ p ∈ l, current p.1 ops = some p.2 := by
  obtain ⟨m, e, its, r, l, I, hk, h1, _⟩ := good_run hs ops MapS.empty []
    ⟨[], [], [], inv_empty, rfl, by simp, by simp [current]⟩ (by simpa using hb)
  simp only [List.nil_append] at hk h1
  refine ⟨m, _, l, e, ?_, hk, hk ▸ I.keys_nodup, fun p hp => h1 p.1 p.2 hp⟩
  intro rounds hr
  apply I.enumerate_eq
  have := congrArg List.length hk; simp at this; omega

/-! ### Instances -/

/-- The `strcmp` order used by `MapString` is the order the theorems are instantiated with. -/
theorem strcmp_eq_compare (a b : List UInt8) : strcmp a b = compare a b := by
  induction a generalizing b with
  | nil => cases b <;> rfl
  | cons x xs ih =>
    cases b with
    | nil => rfl
    | cons y ys =>
      rw [strcmp, List.compare_cons_cons]
      by_cases h1 : x < y
      · have : compare x y = .lt := by simp [compare, compareOfLessAndEq, h1]
        simp [h1, this]
      · by_cases h2 : y < x
        · have hne : x ≠ y := fun e => h1 (by rw [e] at h2 ⊢; exact h2)
          have : compare x y = .gt := by simp [compare, compareOfLessAndEq, h1, hne]
          simp [h1, h2, this]
        · have he : x = y := by
            apply UInt8.toNat.inj; simp [UInt8.lt_iff_toNat_lt] at h1 h2; omega
          have : compare x y = .eq := by simp [compare, compareOfLessAndEq, h1, he]
          simp [h1, h2, this, ih]

/-- C01 for `MapString` (NUL-free byte strings, growth step 16). -/
theorem mapString_is_finite_map (ops : List (Op (List UInt8) V)) (hb : BelowMax 16 ops) :
    (run 16 MapS.empty ops).map (·.2) = .ok (answers [] ops) :=
  map_is_finite_map (by decide) ops hb

/-- C01 for `MapInt` (growth step 10). -/
theorem mapInt_is_finite_map (ops : List (Op Int V)) (hb : BelowMax 10 ops) :
    (run 10 MapS.empty ops).map (·.2) = .ok (answers [] ops) :=
  map_is_finite_map (by decide) ops hb

theorem liveKeys_le (h : List (Op K V)) : (liveKeys h).length ≤ h.length := by
  rw [← List.reverse_reverse h]
  induction h.reverse with
  | nil => simp [liveKeys]
  | cons op h ih =>
    rw [List.reverse_cons]
    generalize h.reverse = h at ih
    rw [liveKeys_snoc]
    cases op <;> simp only [List.length_append, List.length_singleton]
    · split <;> (try simp only [List.length_append, List.length_singleton]) <;> omega
    · omega
    · omega
    · exact Nat.le_succ_of_le (Nat.le_trans (List.length_filter_le _ _) ih)
    · omega
    · simp

/-- Any history of fewer than 999984 calls meets `BelowMax 16`. -/
theorem belowMax_of_short {slot : Nat} (h : List (Op K V)) (hl : h.length + slot < 1000000) :
    BelowMax slot h := by
  intro pre hp
  have := liveKeys_le pre
  have := hp.length_le
  omega

/-- A concrete history with out-of-order inserts, an overwrite, an erase and a failing erase. -/
example : BelowMax 10 ([.set 5 'a', .set 1 'b', .set 3 'c', .set 5 'd', .erase 1, .get 5, .erase 1, .get 3]
    : List (Op Int Char)) := belowMax_of_short _ (by decide)

example : answers [] ([.set 5 'a', .set 1 'b', .set 5 'd', .erase 1, .get 5, .erase 1, .get 3, .count]
    : List (Op Int Char)) =
    [.done, .done, .done, .done, .value (some 'd'), .thrown, .value none, .num 1] := by decide

example : liveKeys ([.set 5 'a', .set 1 'b', .set 3 'c', .erase 5, .set 5 'd'] : List (Op Int Char)) =
    [1, 3, 5] := by decide

end Verif.Map
