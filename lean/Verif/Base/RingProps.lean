import Verif.Base.RingLemmas
/-
C04: intrusive lists stay rings.
-/
namespace Verif.Ring
open Verif

/-- A client holding any number of lists (named by numbers) over one pool of nodes. -/
structure State where
  heap : Heap
  hdr : Nat → Hdr

def State.init : State := ⟨Heap.init, fun _ => Hdr.init⟩

inductive Op where
  | insert (lst : Nat) (node : Nat)
  | remove (lst : Nat) (node : Nat)

/-- `List<_N>::insert` / `List<_N>::remove` on list `lst`; an exception changes nothing. -/
def step (s : State) : Op → Out (State × Out Unit)
  | .insert k n =>
    match insert s.heap (s.hdr k) n with
    | .ok (h, l) => .ok (⟨h, fun j => if j = k then l else s.hdr j⟩, .ok ())
    | .err => .ok (s, .err)
    | .ub => .ub
  | .remove k n =>
    match remove s.heap (s.hdr k) n with
    | .ok (h, l) => .ok (⟨h, fun j => if j = k then l else s.hdr j⟩, .ok ())
    | .err => .ok (s, .err)
    | .ub => .ub

def run (s : State) : List Op → Out (State × List (Out Unit))
  | [] => .ok (s, [])
  | op :: ops => (step s op).bind fun (s', r) => (run s' ops).map fun (s'', rs) => (s'', r :: rs)

/-! ### Specification: each list is a sequence of nodes; a node is in at most one list -/

abbrev Lists := Nat → List Nat

def Lists.update (m : Lists) (k : Nat) (l : List Nat) : Lists := fun j => if j = k then l else m j

/-- Ideal behaviour. `m` gives the contents; `attached n` iff some list contains `n`. -/
def specStep (attached : Nat → Bool) (m : Lists) : Op → (Nat → Bool) × Lists × Out Unit
  | .insert k n => if attached n then (attached, m, .err)
      else (fun x => x = n || attached x, m.update k (m k ++ [n]), .ok ())
  | .remove k n => if n ∈ m k then
        (fun x => attached x && x != n, m.update k ((m k).erase n), .ok ())
      else (attached, m, .err)

def specRun (a : Nat → Bool) (m : Lists) : List Op → Lists × List (Out Unit)
  | [] => (m, [])
  | op :: ops =>
    let r := specStep a m op
    ((specRun r.1 r.2.1 ops).1, r.2.2 :: (specRun r.1 r.2.1 ops).2)

/-- `remove` is only called with a node of that list or with a detached node. -/
def NoForeign (a : Nat → Bool) (m : Lists) : List Op → Prop
  | [] => True
  | op :: ops =>
    (match op with
      | .insert _ _ => True
      | .remove k n => n ∈ m k ∨ a n = false) ∧
    NoForeign (specStep a m op).1 (specStep a m op).2.1 ops

/-- What a client sees walking list `k` forwards from `first` along `next`. -/
def State.forward (s : State) (k fuel : Nat) : Option (List Nat) :=
  match (s.hdr k).first with
  | none => some []
  | some f => walk s.heap f fuel f

/-- What a client sees walking list `k` backwards from `last` along `previous`. -/
def State.backward (s : State) (k fuel : Nat) : Option (List Nat) :=
  match (s.hdr k).last with
  | none => some []
  | some z => walkBack s.heap z fuel z

/-! ### Proof -/

/-- Invariant tying the heap to the ideal lists. -/
structure Inv (s : State) (a : Nat → Bool) (m : Lists) : Prop where
  ring : ∀ k, IsRing s.heap (s.hdr k) (m k)
  att : ∀ k, ∀ n ∈ m k, a n = true
  free : ∀ n, a n = false → s.heap.next n = none ∧ s.heap.prev n = none
  disj : ∀ j k n, n ∈ m j → n ∈ m k → j = k
  cov : ∀ n, a n = true → s.heap.next n ≠ none

theorem inv_init : Inv State.init (fun _ => false) (fun _ => []) where
  ring _ := isRing_init
  att _ n h := by simp at h
  free _ _ := ⟨rfl, rfl⟩
  disj _ _ n h := by simp at h
  cov n h := by simp at h

theorem erase_mid {p s : List Nat} {n : Nat} (hnd : (p ++ n :: s).Nodup) :
    (p ++ n :: s).erase n = p ++ s := by
  have : n ∉ p := by
    intro hh; rw [List.nodup_append] at hnd; exact hnd.2.2 n hh n (by simp) rfl
  rw [List.erase_append_right _ this]; simp

theorem step_inv {s a m} (I : Inv s a m) (op : Op)
    (hf : match op with | .insert _ _ => True | .remove k n => n ∈ m k ∨ a n = false) :
    ∃ s', step s op = .ok (s', (specStep a m op).2.2) ∧
      Inv s' (specStep a m op).1 (specStep a m op).2.1 := by
  cases op with
  | insert k n =>
    cases ha : a n with
    | true =>
      have : s.heap.next n ≠ none ∨ s.heap.prev n ≠ none := Or.inl (I.cov n ha)
      refine ⟨s, ?_, ?_⟩
      · simp only [step, insert, this, if_true, specStep, ha]
      · simpa [specStep, ha] using I
    | false =>
      have hn : n ∉ m k := by intro h; have := I.att k n h; simp [ha] at this
      have hfree := I.free n ha
      have hc : ¬ (s.heap.next n ≠ none ∨ s.heap.prev n ≠ none) := by simp [hfree.1, hfree.2]
      obtain ⟨h', hd', e, r, fr⟩ := append_ring (I.ring k) hn
      refine ⟨⟨h', fun j => if j = k then hd' else s.hdr j⟩, ?_, ?_⟩
      · simp [step, insert, hc, e, specStep, ha]
      · have hoth : ∀ j, j ≠ k → ∀ x ∈ m j, x ∉ m k ∧ x ≠ n := by
          intro j hj x hx
          refine ⟨fun h => hj (I.disj j k x hx h), ?_⟩
          intro e; subst e; have := I.att j x hx; simp [ha] at this
        simp only [specStep, ha, Bool.false_eq_true, if_false]
        constructor
        · intro j
          by_cases hj : j = k
          · subst hj; simpa [Lists.update] using r
          · simp only [Lists.update, hj, if_false]
            exact (I.ring j).congr fun x hx => fr x (hoth j hj x hx).1 (hoth j hj x hx).2
        · intro j x hx
          by_cases hj : j = k
          · subst hj
            simp [Lists.update] at hx
            rcases hx with h | h
            · simp [I.att j x h]
            · simp [h]
          · simp [Lists.update, hj] at hx
            simp [I.att j x hx]
        · intro x hx
          simp at hx
          have hxk : x ∉ m k := by intro h; have := I.att k x h; simp [hx.2] at this
          have := fr x hxk hx.1
          rw [this.1, this.2]; exact I.free x hx.2
        · intro i j x h1 h2
          by_cases hi : i = k <;> by_cases hj : j = k
          · rw [hi, hj]
          · subst hi
            simp [Lists.update] at h1
            simp [Lists.update, hj] at h2
            rcases h1 with h | h
            · exact I.disj i j x h h2
            · subst h; exact absurd rfl (hoth j hj x h2).2
          · subst hj
            simp [Lists.update] at h2
            simp [Lists.update, hi] at h1
            rcases h2 with h | h
            · exact I.disj i j x h1 h
            · subst h; exact absurd rfl (hoth i hi x h1).2
          · simp [Lists.update, hi] at h1
            simp [Lists.update, hj] at h2
            exact I.disj i j x h1 h2
        · intro x hx
          by_cases hxm : x ∈ m k ++ [n]
          · exact (r.attached hxm).1
          · simp at hxm hx
            have := fr x hxm.1 hxm.2
            rw [this.1]
            rcases hx with h | h
            · exact absurd h hxm.2
            · exact I.cov x h
  | remove k n =>
    by_cases hm : n ∈ m k
    · obtain ⟨p, q, hpq⟩ := List.append_of_mem hm
      have hr := I.ring k
      have hat := hr.attached hm
      rw [hpq] at hr
      obtain ⟨h', hd', e, r, hn1, hn2, fr⟩ := detachElseIf_ring hr
      have hc : ¬ (s.heap.next n = none ∨ s.heap.prev n = none) := by simp [hat.1, hat.2]
      have her : (m k).erase n = p ++ q := by rw [hpq]; exact erase_mid hr.nodup
      refine ⟨⟨h', fun j => if j = k then hd' else s.hdr j⟩, ?_, ?_⟩
      · simp only [step, remove, hc, if_false, detachTwoIfs_eq hr, e, specStep, hm, if_true]
      · have hoth : ∀ j, j ≠ k → ∀ x ∈ m j, x ∉ m k := by
          intro j hj x hx h; exact hj (I.disj j k x hx h)
        have hnpq : n ∉ p ++ q := by
          have := hr.nodup
          intro hh
          have h3 : (n :: (p ++ q)).Nodup := by
            have := (List.perm_middle (a := n) (l₁ := p) (l₂ := q)).nodup_iff.1 this
            exact this
          exact (List.nodup_cons.1 h3).1 hh
        simp only [specStep, hm, if_true, her]
        constructor
        · intro j
          by_cases hj : j = k
          · subst hj; simpa [Lists.update] using r
          · simp only [Lists.update, hj, if_false]
            exact (I.ring j).congr fun x hx => fr x (by rw [← hpq]; exact hoth j hj x hx)
        · intro j x hx
          by_cases hj : j = k
          · subst hj
            simp only [Lists.update, if_true] at hx
            have : x ∈ m j := by rw [hpq]; simp at hx ⊢; rcases hx with h | h <;> simp [h]
            have hxn : x ≠ n := by intro e; subst e; exact hnpq hx
            simp [I.att j x this, hxn]
          · simp only [Lists.update, hj, if_false] at hx
            have hxn : x ≠ n := by intro e; subst e; exact hoth j hj x hx hm
            simp [I.att j x hx, hxn]
        · intro x hx
          by_cases hxn : x = n
          · subst hxn; exact ⟨hn1, hn2⟩
          · simp [hxn] at hx
            have hxk : x ∉ m k := by intro h; have := I.att k x h; simp [hx] at this
            have := fr x (by rw [← hpq]; exact hxk)
            rw [this.1, this.2]; exact I.free x hx
        · intro i j x h1 h2
          have sub : ∀ y, y ∈ p ++ q → y ∈ m k := by
            intro y hy; rw [hpq]; simp at hy ⊢; rcases hy with h | h <;> simp [h]
          have mem : ∀ i, x ∈ Lists.update m k (p ++ q) i → x ∈ m i := by
            intro i h
            by_cases hi : i = k
            · subst hi; simp only [Lists.update, if_true] at h; exact sub x h
            · simpa [Lists.update, hi] using h
          exact I.disj i j x (mem i h1) (mem j h2)
        · intro x hx
          simp at hx
          by_cases hxm : x ∈ p ++ q
          · exact (r.attached hxm).1
          · have hxk : x ∉ m k := by
              rw [hpq]; simp at hxm ⊢; exact ⟨hxm.1, hx.2, hxm.2⟩
            have := fr x (by rw [← hpq]; exact hxk)
            rw [this.1]; exact I.cov x hx.1
    · have ha : a n = false := by
        have hf' : n ∈ m k ∨ a n = false := hf
        rcases hf' with h | h
        · exact absurd h hm
        · exact h
      have hfree := I.free n ha
      refine ⟨s, ?_, ?_⟩
      · simp [step, remove, hfree.1, specStep, hm]
      · simpa [specStep, hm] using I

theorem run_inv (ops : List Op) : ∀ {s a m}, Inv s a m → NoForeign a m ops →
    ∃ s' a', run s ops = .ok (s', (specRun a m ops).2) ∧ Inv s' a' (specRun a m ops).1 := by
  induction ops with
  | nil => intro s a m I _; exact ⟨s, a, rfl, I⟩
  | cons op ops ih =>
    intro s a m I hf
    obtain ⟨s1, e1, I1⟩ := step_inv I op hf.1
    obtain ⟨s2, a2, e2, I2⟩ := ih I1 hf.2
    exact ⟨s2, a2, by simp [run, e1, Out.bind, e2, Out.map, specRun], I2⟩

theorem linked_walkBack {h : Heap} {z : Nat} : ∀ (k : Nat) (t : List Nat) (c : Nat) (fuel : Nat), t.length = k →
    Linked h (z :: t ++ [c]) → z ∉ t → t.length < fuel →
    walkBack h z fuel c = some ((t ++ [c]).reverse) := by
  intro k
  induction k with
  | zero =>
    intro t c fuel hk hl _ hf
    have : t = [] := List.eq_nil_of_length_eq_zero hk
    subst this
    obtain ⟨k, rfl⟩ : ∃ k, fuel = k + 1 := ⟨fuel - 1, by simp at hf; omega⟩
    simp [Linked] at hl
    simp [walkBack, hl.2]
  | succ k ih =>
    intro t c fuel hk hl hm hf
    rcases List.eq_nil_or_concat t with rfl | ⟨t', b, rfl⟩
    · simp at hk
    · simp only [List.concat_eq_append] at *
      obtain ⟨k', rfl⟩ : ∃ k, fuel = k + 1 := ⟨fuel - 1, by simp at hf; omega⟩
      have h2 := (linked_append h (z :: t') b [c]).1 (by simpa using hl)
      simp at hm hf hk
      have hp : h.prev c = some b := by have := h2.2; simp [Linked] at this; exact this.2
      have := ih t' b k' (by omega) (by simpa using h2.1) hm.1 (by omega)
      have hbz : ¬ b = z := fun e => hm.2 e.symm
      simp [walkBack, hp, hbz, this]

theorem IsRing.walkBack_eq {h hd} {q : List Nat} {z : Nat} (r : IsRing h hd (q ++ [z])) {fuel : Nat}
    (hf : q.length < fuel) : walkBack h z fuel z = some ((q ++ [z]).reverse) := by
  apply linked_walkBack q.length q z fuel rfl _ _ hf
  · have hl := r.linked
    cases q with
    | nil => simpa using hl
    | cons f q =>
      have h1 := (linked_append h (f :: q) z [f]).1 (by simpa using hl)
      have h2 := h1.2
      simp [Linked] at h2
      refine ⟨?_, ?_, h1.1⟩
      · exact h2.1
      · exact h2.2
  · have := r.nodup
    rw [List.nodup_append] at this
    intro hh; exact this.2.2 z hh z (by simp) rfl

/-- The full property C04, including rejection of nodes that belong to another list. -/
def ListsStayRings : Prop :=
  ∀ ops : List Op, ∃ s, run State.init ops = .ok (s, (specRun (fun _ => false) (fun _ => []) ops).2) ∧
    ∀ k fuel, ((specRun (fun _ => false) (fun _ => []) ops).1 k).length ≤ fuel →
      s.forward k fuel = some ((specRun (fun _ => false) (fun _ => []) ops).1 k) ∧
      s.backward k fuel = some ((specRun (fun _ => false) (fun _ => []) ops).1 k).reverse

/-- **C04 (partial).** After any history of insert/remove calls over any number of lists in which no
node is removed through a list it does not belong to while it is attached elsewhere: every call
succeeds or throws exactly as for ideal sequences (inserting an attached node throws, removing a
detached one throws), there is no undefined behaviour, and every list can be walked forwards and
backwards around its ring giving exactly the attached nodes in attachment order.
Missing from the full statement: removal through the wrong list is not detected (see below). -/
theorem lists_stay_rings_partial (ops : List Op) (hf : NoForeign (fun _ => false) (fun _ => []) ops) :
    ∃ s, run State.init ops = .ok (s, (specRun (fun _ => false) (fun _ => []) ops).2) ∧
    ∀ k fuel, ((specRun (fun _ => false) (fun _ => []) ops).1 k).length ≤ fuel →
      s.forward k fuel = some ((specRun (fun _ => false) (fun _ => []) ops).1 k) ∧
      s.backward k fuel = some ((specRun (fun _ => false) (fun _ => []) ops).1 k).reverse := by
  obtain ⟨s, a, e, I⟩ := run_inv ops inv_init hf
  refine ⟨s, e, ?_⟩
  intro k fuel hk
  generalize (specRun (fun _ => false) (fun _ => []) ops).1 = m at I hk
  have r := I.ring k
  generalize hl : m k = l at r hk
  constructor
  · cases l with
    | nil => have h1 := r.first; simp at h1; simp [State.forward, h1]
    | cons f t =>
      have h1 := r.first; simp at h1
      simp only [State.forward, h1]
      exact r.walk_eq (by simp at hk; omega)
  · rcases List.eq_nil_or_concat l with rfl | ⟨q, z, rfl⟩
    · have h1 := r.last; simp at h1; simp [State.backward, h1]
    · simp only [List.concat_eq_append] at *
      have h1 := r.last
      rw [List.getLast?_concat] at h1
      simp only [State.backward, h1]
      exact r.walkBack_eq (by simp at hk; omega)

/-- Non-vacuity: inserts and removals at head, middle, tail over two lists. -/
example : NoForeign (fun _ => false) (fun _ => [])
    [.insert 0 1, .insert 0 2, .insert 0 3, .insert 1 4, .remove 0 2, .remove 0 1, .insert 1 1, .remove 0 9, .remove 0 3] := by
  simp [NoForeign, specStep, Lists.update]

/-- Removing a node through the wrong list is accepted and leaves list 0 pointing at a detached
node, so walking it is impossible. -/
theorem list_foreign_remove_violated : ¬ ListsStayRings := by
  intro h
  obtain ⟨s, e, _⟩ := h [.insert 0 1, .remove 1 1]
  have h2 : (run State.init [.insert 0 1, .remove 1 1]).map (·.2) = .ok [.ok (), .ok ()] := by decide
  rw [e] at h2
  simp [Out.map, specRun, specStep, Lists.update] at h2

/-- Destroying a list that still has nodes never finishes: `~List` calls `dettachAllNodes()` without
a callback, and that loop only ends when `first` becomes NULL. -/
theorem list_destructor_diverges_violated (h : Heap) (hd : Hdr) (l : List Nat) (r : IsRing h hd l)
    (hne : l ≠ []) (fuel : Nat) : destroy h hd fuel = none := by
  have key : ∀ fuel, ∀ c ∈ l, detachAllNull h hd fuel (some c) = none := by
    intro fuel
    induction fuel with
    | zero => intro c _; rfl
    | succ k ih =>
      intro c hc
      have hfst : hd.first ≠ none := by
        rw [r.first]; cases l with
        | nil => exact absurd rfl hne
        | cons f t => simp
      obtain ⟨p, s, rfl⟩ := List.append_of_mem hc
      have hs := ring_succ r
      have : ∃ b, h.next c = some b ∧ b ∈ p ++ c :: s := by
        rw [hs]
        cases s with
        | nil =>
          cases p with
          | nil => exact ⟨c, rfl, by simp⟩
          | cons a p => exact ⟨a, rfl, by simp⟩
        | cons b s => exact ⟨b, rfl, by simp⟩
      obtain ⟨b, hb, hbm⟩ := this
      simp only [detachAllNull, hfst, ne_eq, not_false_eq_true, if_true, hb]
      exact ih b hbm
  unfold destroy
  rw [r.first]
  cases l with
  | nil => exact absurd rfl hne
  | cons f t => exact key fuel f (by simp)

example : ∃ h hd, IsRing h hd [3, 5] := by
  obtain ⟨h1, d1, _, r1, _⟩ := append_ring isRing_init (n := 3) (by simp)
  obtain ⟨h2, d2, _, r2, _⟩ := append_ring r1 (n := 5) (by simp)
  exact ⟨h2, d2, r2⟩

end Verif.Ring
