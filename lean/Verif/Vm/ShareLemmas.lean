import Verif.Vm.Share
import Verif.Base.RingProps
/-
Invariant of the share manager and its preservation.
-/
namespace Verif.Share
open Verif Verif.Ring

/-! ### Rings -/

/-- The lists of the blocks are disjoint rings with contents `pend`; other nodes are detached. -/
structure Rings (h : Heap) (d : Nat → Hdr) (pend : Lists) : Prop where
  ring : ∀ b, IsRing h (d b) (pend b)
  disj : ∀ b c o, o ∈ pend b → o ∈ pend c → b = c
  out : ∀ o, (∀ b, o ∉ pend b) → h.next o = none ∧ h.prev o = none

theorem upd_self (m : Lists) (b : Nat) (l : List Nat) : m.update b l b = l := by simp [Lists.update]
theorem upd_ne (m : Lists) {b c : Nat} (l : List Nat) (h : c ≠ b) : m.update b l c = m c := by simp [Lists.update, h]

theorem Rings.insert {s : S} {pend : Lists} (R : Rings s.heap s.hdr pend)
    (hm : ∀ b o, o ∈ pend b → (s.info o).isSome) {o : Nat} (ho : ∀ b, o ∉ pend b) (b : Nat) :
    ∃ h d, insertNode s b o = .ok (s.setList b h d) ∧
      Rings h (s.setList b h d).hdr (pend.update b (pend b ++ [o])) := by
  obtain ⟨h, d, e, r, fr⟩ := append_ring (R.ring b) (ho b)
  have hfree := R.out o ho
  have hc : ¬ (s.heap.next o ≠ none ∨ s.heap.prev o ≠ none) := by simp [hfree.1, hfree.2]
  have hok : (s.nodeOk (s.hdr b).first && s.nodeOk (s.hdr b).last) = true := by
    have h1 : s.nodeOk (s.hdr b).first = true := by
      rw [(R.ring b).first]
      cases hl : (pend b).head? with
      | none => rfl
      | some x => exact hm b x (List.mem_of_mem_head? hl)
    have h2 : s.nodeOk (s.hdr b).last = true := by
      rw [(R.ring b).last]
      cases hl : (pend b).getLast? with
      | none => rfl
      | some x => exact hm b x (List.mem_of_getLast? hl)
    rw [h1, h2]; rfl
  refine ⟨h, d, ?_, ?_⟩
  · simp only [insertNode, hok, Bool.not_true, Bool.false_eq_true, if_false, Ring.insert, hc, e]
  · have hoth : ∀ j, j ≠ b → ∀ x ∈ pend j, x ∉ pend b ∧ x ≠ o := by
      intro j hj x hx
      refine ⟨fun h => hj (R.disj j b x hx h), ?_⟩
      intro e; subst e; exact ho j hx
    constructor
    · intro j
      by_cases hj : j = b
      · subst hj; simpa [S.setList, Lists.update] using r
      · simp only [S.setList, Lists.update, hj, if_false]
        exact (R.ring j).congr fun x hx => fr x (hoth j hj x hx).1 (hoth j hj x hx).2
    · intro i j x h1 h2
      by_cases hi : i = b <;> by_cases hj : j = b
      · rw [hi, hj]
      · subst hi
        rw [upd_self] at h1
        rw [upd_ne _ _ hj] at h2
        simp at h1
        rcases h1 with h | h
        · exact R.disj i j x h h2
        · subst h; exact absurd h2 (ho j)
      · subst hj
        rw [upd_self] at h2
        rw [upd_ne _ _ hi] at h1
        simp at h2
        rcases h2 with h | h
        · exact R.disj i j x h1 h
        · subst h; exact absurd h1 (ho i)
      · rw [upd_ne _ _ hj] at h2
        rw [upd_ne _ _ hi] at h1
        exact R.disj i j x h1 h2
    · intro x hx
      have hxb := hx b
      rw [upd_self] at hxb
      simp at hxb
      have := fr x hxb.1 hxb.2
      rw [this.1, this.2]
      apply R.out
      intro j
      by_cases hj : j = b
      · subst hj; exact hxb.1
      · have := hx j; rwa [upd_ne _ _ hj] at this

theorem Rings.detach {s : S} {pend : Lists} (R : Rings s.heap s.hdr pend)
    (hm : ∀ b o, o ∈ pend b → (s.info o).isSome) {o b : Nat} (ho : o ∈ pend b) :
    ∃ h d, detachNode s b o = .ok (s.setList b h d) ∧
      Rings h (s.setList b h d).hdr (pend.update b ((pend b).erase o)) := by
  obtain ⟨p, q, hpq⟩ := List.append_of_mem ho
  have hr := R.ring b
  have hat := hr.attached ho
  rw [hpq] at hr
  obtain ⟨h, d, e, r, hn1, hn2, fr⟩ := detachElseIf_ring hr
  have hc : ¬ (s.heap.next o = none ∨ s.heap.prev o = none) := by simp [hat.1, hat.2]
  have her : (pend b).erase o = p ++ q := by rw [hpq]; exact erase_mid hr.nodup
  have hok : (s.nodeOk (s.heap.next o) && s.nodeOk (s.heap.prev o)) = true := by
    have h1 : s.nodeOk (s.heap.next o) = true := by
      rw [ring_succ hr]
      cases q with
      | cons x q => exact hm b x (by rw [hpq]; simp)
      | nil =>
        cases p with
        | nil => exact hm b o ho
        | cons x p => exact hm b x (by rw [hpq]; simp)
    have h2 : s.nodeOk (s.heap.prev o) = true := by
      rw [ring_pred hr]
      generalize hy : (o :: q ++ p).getLast? = g
      cases g with
      | none => rfl
      | some x =>
        have hx := List.mem_of_getLast? hy
        have : x ∈ pend b := by
          rw [hpq]
          simp only [List.mem_cons, List.mem_append] at hx ⊢
          grind
        exact hm b x this
    rw [h1, h2]; rfl
  have hnpq : o ∉ p ++ q := by
    have := hr.nodup
    have h3 : (o :: (p ++ q)).Nodup := (List.perm_middle (a := o) (l₁ := p) (l₂ := q)).nodup_iff.1 this
    exact (List.nodup_cons.1 h3).1
  refine ⟨h, d, ?_, ?_⟩
  · simp only [detachNode, hok, Bool.not_true, Bool.false_eq_true, if_false, deattachShared, hc, e]
  · rw [her]
    have hoth : ∀ j, j ≠ b → ∀ x ∈ pend j, x ∉ pend b := fun j hj x hx h => hj (R.disj j b x hx h)
    have sub : ∀ y, y ∈ p ++ q → y ∈ pend b := by
      intro y hy; rw [hpq]; simp at hy ⊢; rcases hy with h | h <;> simp [h]
    have mem : ∀ i x, x ∈ Lists.update pend b (p ++ q) i → x ∈ pend i := by
      intro i x h
      by_cases hi : i = b
      · subst hi; rw [upd_self] at h; exact sub x h
      · rwa [upd_ne _ _ hi] at h
    constructor
    · intro j
      by_cases hj : j = b
      · subst hj; simpa [S.setList, Lists.update] using r
      · simp only [S.setList, Lists.update, hj, if_false]
        exact (R.ring j).congr fun x hx => fr x (by rw [← hpq]; exact hoth j hj x hx)
    · intro i j x h1 h2
      exact R.disj i j x (mem i x h1) (mem j x h2)
    · intro x hx
      by_cases hxo : x = o
      · subst hxo; exact ⟨hn1, hn2⟩
      · have hxb := hx b
        rw [upd_self] at hxb
        have hxk : x ∉ pend b := by rw [hpq]; simp at hxb ⊢; exact ⟨hxb.1, hxo, hxb.2⟩
        have := fr x (by rw [← hpq]; exact hxk)
        rw [this.1, this.2]
        apply R.out
        intro j
        by_cases hj : j = b
        · subst hj; exact hxk
        · have := hx j; rwa [upd_ne _ _ hj] at this

/-! ### Accounting -/

/-- The share counter of an object; 0 without node. -/
def sh (s : S) (o : Nat) : Nat := match s.info o with
  | some i => i.shares
  | none => 0

/-- How often `o` occurs among the elements of the live objects outside of `D`. -/
def occ (s : S) (D : List Nat) (o : Nat) : Nat := ((s.live.filter fun p => decide (p ∉ D)).flatMap s.kids).count o

theorem occ_split {s : S} (hl : s.live.Nodup) {D : List Nat} {k : Nat} (hk : k ∈ s.live) (hD : k ∉ D) (o : Nat) :
    occ s D o = (s.kids k).count o + occ s (k :: D) o := by
  have hp : (s.live.filter fun p => decide (p ∉ D)).Perm
      (k :: s.live.filter fun p => decide (p ∉ k :: D)) := by
    have hmem : k ∈ s.live.filter fun p => decide (p ∉ D) := by simp [hk, hD]
    have h1 := List.perm_cons_erase hmem
    have hnd : (s.live.filter fun p => decide (p ∉ D)).Nodup := hl.filter _
    rw [hnd.erase_eq_filter, List.filter_filter] at h1
    have : (fun p : Nat => (p != k) && decide (p ∉ D)) = fun p => decide (p ∉ k :: D) := by
      funext p
      by_cases h : p = k <;> simp [h]
    rwa [this] at h1
  unfold occ
  rw [(hp.flatMap_right s.kids).count_eq o]
  simp [List.flatMap_cons, List.count_append]

theorem occ_pos {s : S} {D : List Nat} {p o : Nat} (hl : s.live.Nodup) (hp : p ∈ s.live) (hD : p ∉ D)
    (ho : o ∈ s.kids p) : 0 < occ s D o := by
  rw [occ_split hl hp hD]
  have := List.count_pos_iff.2 ho
  omega

/-- Sum of the counters of the live objects. -/
def total (s : S) : Nat := (s.live.map (sh s)).sum

theorem sum_change {f g : Nat → Nat} {o : Nat} : ∀ {l : List Nat}, l.Nodup → o ∈ l → (∀ x, x ≠ o → f x = g x) →
    (l.map f).sum + g o = (l.map g).sum + f o
  | [], _, h, _ => by cases h
  | a :: l, hn, h, hx => by
    rw [List.nodup_cons] at hn
    simp only [List.map_cons, List.sum_cons]
    by_cases ha : a = o
    · subst ha
      have : l.map f = l.map g := List.map_congr_left fun x hxl => hx x (by intro e; subst e; exact hn.1 hxl)
      rw [this]; omega
    · have hm : o ∈ l := by simpa [Ne.symm ha] using h
      have := sum_change hn.2 hm hx
      rw [hx a ha]; omega

theorem sum_erase {f : Nat → Nat} {o : Nat} : ∀ {l : List Nat}, o ∈ l → (l.map f).sum = f o + ((l.erase o).map f).sum
  | l, h => by
    have := (List.perm_cons_erase h).map f
    rw [this.sum_nat]; simp

/-- The invariant. `ext o`: shares held outside of containers; `pend b`: objects without share waiting in block
`b`; `D`: objects being destroyed. -/
structure Inv (s : S) (ext : Nat → Nat) (pend : Lists) (D : List Nat) : Prop where
  nodup : s.live.Nodup
  dnodup : D.Nodup
  acc : ∀ o, sh s o = ext o + occ s D o
  man : ∀ o i, s.info o = some i → o ∈ s.live ∧ s.const o = false ∧ i.shares < 65536
  rings : Rings s.heap s.hdr pend
  pnd : ∀ o, (∃ b, o ∈ pend b) ↔ ((s.info o).isSome ∧ sh s o = 0 ∧ o ∉ D)
  dy : ∀ o, o ∈ D → (s.info o).isSome ∧ sh s o = 0

theorem Inv.mem {s ext pend D} (I : Inv s ext pend D) : ∀ b o, o ∈ pend b → (s.info o).isSome :=
  fun b o h => ((I.pnd o).1 ⟨b, h⟩).1

theorem Inv.live {s ext pend D} (I : Inv s ext pend D) {o : Nat} (h : (s.info o).isSome) : o ∈ s.live := by
  obtain ⟨i, hi⟩ := Option.isSome_iff_exists.1 h
  exact (I.man o i hi).1

theorem Inv.held {s ext pend D} (I : Inv s ext pend D) {o : Nat} (h : 0 < ext o + occ s D o) :
    ∃ i, s.info o = some i ∧ o ∈ s.live ∧ 0 < i.shares := by
  rw [← I.acc] at h
  unfold sh at h
  cases hi : s.info o with
  | none => rw [hi] at h; cases h
  | some i => rw [hi] at h; exact ⟨i, rfl, (I.man o i hi).1, h⟩

theorem inv_init : Inv S.init (fun _ => 0) (fun _ => []) [] where
  nodup := List.nodup_nil
  dnodup := List.nodup_nil
  acc o := by simp [sh, S.init, occ]
  man o i h := by simp [S.init] at h
  rings := ⟨fun _ => isRing_init, fun b c o h => by simp at h, fun _ _ => ⟨rfl, rfl⟩⟩
  pnd o := by simp [S.init]
  dy o h := by simp at h

/-- What destruction leaves alone; `ret` are the objects that may lose their node. -/
structure Le (ret : Nat → Bool) (s s' : S) : Prop where
  kids : s'.kids = s.kids
  const : s'.const = s.const
  sub : ∀ o, o ∈ s'.live → o ∈ s.live
  keep : ∀ o, o ∈ s.live → s.info o = none → o ∈ s'.live ∧ s'.info o = none
  home : ∀ o i', s'.info o = some i' → ∃ i, s.info o = some i ∧ i.home = i'.home
  man : ∀ o, o ∈ s'.live → (s.info o).isSome → ret o = false → (s'.info o).isSome

theorem Le.refl (ret : Nat → Bool) (s : S) : Le ret s s :=
  ⟨rfl, rfl, fun _ h => h, fun _ h h' => ⟨h, h'⟩, fun _ i h => ⟨i, h, rfl⟩, fun _ _ h _ => h⟩

theorem Le.weaken {ret : Nat → Bool} {s s' : S} (h : Le (fun _ => false) s s') : Le ret s s' :=
  ⟨h.kids, h.const, h.sub, h.keep, h.home, fun o a b _ => h.man o a b rfl⟩

theorem Le.trans {ret : Nat → Bool} {a b c : S} (h : Le ret a b) (g : Le ret b c) : Le ret a c where
  kids := g.kids.trans h.kids
  const := g.const.trans h.const
  sub o ho := h.sub o (g.sub o ho)
  keep o ho hi := by
    have := h.keep o ho hi
    exact g.keep o this.1 this.2
  home o i' hi := by
    obtain ⟨j, hj, e⟩ := g.home o i' hi
    obtain ⟨i, hi, e'⟩ := h.home o j hj
    exact ⟨i, hi, e'.trans e⟩
  man o ho hi hr := g.man o ho (h.man o (g.sub o ho) hi hr) hr

def us (W : List Work) : List Nat := W.filterMap fun
  | .unref o => some o
  | .free _ => none

def fs (W : List Work) : List Nat := W.filterMap fun
  | .unref _ => none
  | .free o => some o

theorem us_deletion (s : S) (o : Nat) (w : List Work) :
    us (deletion s o ++ w) = (s.kids o).filter (· ≠ o) ++ us w := by
  simp only [deletion, us, List.filterMap_append, List.filterMap_map]
  congr 1
  simp only [List.filterMap_cons_none, List.filterMap_nil, List.append_nil]
  rw [show ((fun x => match x with | Work.unref o => some o | Work.free a => none) ∘ Work.unref) = fun x : Nat => some x from rfl]
  exact List.filterMap_some

theorem fs_deletion (s : S) (o : Nat) (w : List Work) : fs (deletion s o ++ w) = o :: fs w := by
  simp only [deletion, fs, List.filterMap_append, List.filterMap_map]
  rw [show ((fun x => match x with | Work.unref o => none | Work.free a => some a) ∘ Work.unref) = fun _ : Nat => (none : Option Nat) from rfl]
  simp

/-- An object without holders that is in no list begins to be destroyed: its elements' shares become work. -/
theorem Inv.die {s pend D o} {ext : Nat → Nat} {W : List Work} {pend' : Lists} {h : Heap} {d : Nat → Hdr}
    (I : Inv s (fun x => ext x + (us W).count x) pend D) (ho : (s.info o).isSome) (h0 : sh s o = 0) (hD : o ∉ D)
    (R : Rings h d pend') (hp : ∀ x, (∃ b, x ∈ pend' b) ↔ (∃ b, x ∈ pend b) ∧ x ≠ o) :
    Inv { s with heap := h, hdr := d } (fun x => ext x + (us (deletion s o ++ W)).count x) pend' (o :: D) := by
  have hl := I.live ho
  have ha := I.acc o
  rw [h0, occ_split I.nodup hl hD] at ha
  constructor
  · exact I.nodup
  · exact List.nodup_cons.2 ⟨hD, I.dnodup⟩
  · intro x
    have hx := I.acc x
    rw [occ_split I.nodup hl hD] at hx
    show sh s x = ext x + (us (deletion s o ++ W)).count x + occ s (o :: D) x
    rw [us_deletion, List.count_append, hx]
    by_cases hxo : x = o
    · subst hxo
      have : ((s.kids x).filter (· ≠ x)).count x = 0 := by
        rw [List.count_eq_zero]; simp
      omega
    · rw [List.count_filter (by simpa using hxo)]; omega
  · exact I.man
  · exact R
  · intro x
    rw [hp, I.pnd]
    show _ ↔ (s.info x).isSome ∧ sh s x = 0 ∧ x ∉ o :: D
    simp only [List.mem_cons, not_or]
    grind
  · intro x hx
    rcases List.mem_cons.1 hx with rfl | hx
    · exact ⟨ho, h0⟩
    · exact I.dy x hx

theorem sh_set (s : S) (o x : Nat) (i : Info) : sh (s.setInfo o (some i)) x = if x = o then i.shares else sh s x := by
  unfold sh S.setInfo
  by_cases h : x = o <;> simp [h]

theorem sh_none (s : S) (o x : Nat) : sh (s.setInfo o none) x = if x = o then 0 else sh s x := by
  unfold sh S.setInfo
  by_cases h : x = o <;> simp [h]

theorem isSome_set (s : S) (o x : Nat) (i : Info) (h : (s.info o).isSome) :
    ((s.setInfo o (some i)).info x).isSome = (s.info x).isSome := by
  unfold S.setInfo
  by_cases hx : x = o
  · subst hx; simp [h]
  · simp [hx]

/-- One share less. -/
theorem Inv.less {s pend D o i} {ext ext' : Nat → Nat} (I : Inv s ext pend D) (hi : s.info o = some i)
    (h1 : 1 < i.shares) (he : ext o = ext' o + 1) (hx : ∀ x, x ≠ o → ext x = ext' x) :
    Inv (s.setInfo o (some { i with shares := i.shares - 1 })) ext' pend D := by
  have hs : sh s o = i.shares := by simp [sh, hi]
  have ho : (s.info o).isSome := by simp [hi]
  constructor
  · exact I.nodup
  · exact I.dnodup
  · intro x
    rw [sh_set]
    show _ = ext' x + occ s D x
    have := I.acc x
    by_cases h : x = o
    · subst h; rw [if_pos rfl]; simp only; omega
    · rw [if_neg h, this, hx x h]
  · intro x j hj
    show x ∈ s.live ∧ s.const x = false ∧ _
    simp only [S.setInfo] at hj
    by_cases h : x = o
    · subst h
      rw [if_pos rfl] at hj
      injection hj with hj
      subst hj
      have := I.man x i hi
      exact ⟨this.1, this.2.1, by have := this.2.2; simp only; omega⟩
    · rw [if_neg h] at hj; exact I.man x j hj
  · exact I.rings
  · intro x
    rw [I.pnd, isSome_set _ _ _ _ ho, sh_set]
    by_cases h : x = o
    · subst h
      rw [if_pos rfl, hs]
      simp only
      constructor <;> rintro ⟨a, b, c⟩ <;> omega
    · rw [if_neg h]
  · intro x hx'
    have := I.dy x hx'
    rw [isSome_set _ _ _ _ ho, sh_set]
    by_cases h : x = o
    · subst h; omega
    · rw [if_neg h]; exact this

/-- The last share is given back: the object is in no list, and held by nobody. -/
theorem Inv.last {s pend D o i} {ext ext' : Nat → Nat} (I : Inv s ext pend D) (hi : s.info o = some i)
    (h1 : i.shares = 1) (he : ext o = ext' o + 1) (hx : ∀ x, x ≠ o → ext x = ext' x) :
    (∀ b, o ∉ pend b) ∧ o ∉ D ∧
    (let s' := s.setInfo o (some { i with shares := 0 })
     s'.live.Nodup ∧ (∀ x, sh s' x = ext' x + occ s' D x) ∧
     (∀ x j, s'.info x = some j → x ∈ s'.live ∧ s'.const x = false ∧ j.shares < 65536) ∧
     Rings s'.heap s'.hdr pend ∧
     (∀ x, (∃ b, x ∈ pend b) ↔ ((s'.info x).isSome ∧ sh s' x = 0 ∧ x ∉ D ∧ x ≠ o)) ∧
     (∀ x, x ∈ D → (s'.info x).isSome ∧ sh s' x = 0)) := by
  have hs : sh s o = 1 := by simp [sh, hi, h1]
  have ho : (s.info o).isSome := by simp [hi]
  refine ⟨?_, ?_, I.nodup, ?_, ?_, I.rings, ?_, ?_⟩
  · intro b hb
    have := (I.pnd o).1 ⟨b, hb⟩
    omega
  · intro h
    have := I.dy o h
    omega
  · intro x
    rw [sh_set]
    show _ = ext' x + occ s D x
    have := I.acc x
    by_cases h : x = o
    · subst h; rw [if_pos rfl]; simp only; omega
    · rw [if_neg h, this, hx x h]
  · intro x j hj
    show x ∈ s.live ∧ s.const x = false ∧ _
    simp only [S.setInfo] at hj
    by_cases h : x = o
    · subst h
      rw [if_pos rfl] at hj
      injection hj with hj
      subst hj
      have := I.man x i hi
      exact ⟨this.1, this.2.1, by simp⟩
    · rw [if_neg h] at hj; exact I.man x j hj
  · intro x
    rw [I.pnd, isSome_set _ _ _ _ ho, sh_set]
    by_cases h : x = o
    · subst h; rw [hs]; simp
    · simp [h]
  · intro x hx'
    have := I.dy x hx'
    rw [isSome_set _ _ _ _ ho, sh_set]
    by_cases h : x = o
    · subst h; omega
    · rw [if_neg h]; exact this

theorem total_set {s : S} {o : Nat} {i j : Info} (hn : s.live.Nodup) (ho : o ∈ s.live) (hi : s.info o = some i) :
    total (s.setInfo o (some j)) + i.shares = total s + j.shares := by
  have := sum_change (f := sh (s.setInfo o (some j))) (g := sh s) hn ho (by
    intro x hx; rw [sh_set, if_neg hx])
  rw [sh_set, if_pos rfl] at this
  have hs : sh s o = i.shares := by simp [sh, hi]
  rw [hs] at this
  exact this

/-- Destruction: everything that loses its last holder is freed, exactly once, and nothing else. -/
theorem drain_inv : ∀ (fuel : Nat) (s : S) (W : List Work) (ext : Nat → Nat) (pend : Lists),
    Inv s (fun x => ext x + (us W).count x) pend (fs W) → 2 * total s + (fs W).length ≤ fuel →
    ∃ s', drain fuel s W = some (.ok s') ∧ Inv s' ext pend [] ∧ Le (fun _ => false) s s' ∧ total s' ≤ total s ∧
      (∀ o ∈ fs W, o ∉ s'.live) ∧ s'.heap = s.heap ∧ s'.hdr = s.hdr := by
  intro fuel
  induction fuel with
  | zero =>
    intro s W ext pend I hf
    cases W with
    | nil =>
      refine ⟨s, by simp [drain], by simpa [us, fs] using I, Le.refl _ s, Nat.le_refl _, by simp [fs], rfl, rfl⟩
    | cons w W =>
      cases w with
      | free o => simp [fs] at hf
      | unref o =>
        exfalso
        have := I.held (o := o) (by simp [us]; omega)
        obtain ⟨i, hi, hl, hp⟩ := this
        have : sh s o ≤ total s := by
          unfold total; rw [sum_erase hl]; omega
        simp [sh, hi] at this
        omega
  | succ fuel ih =>
    intro s W ext pend I hf
    cases W with
    | nil =>
      refine ⟨s, by simp [drain], by simpa [us, fs] using I, Le.refl _ s, Nat.le_refl _, by simp [fs], rfl, rfl⟩
    | cons w W =>
      cases w with
      | unref o =>
        obtain ⟨i, hi, hl, hp⟩ := I.held (o := o) (by simp [us]; omega)
        have hman := I.man o i hi
        have he : (fun x => ext x + (us (.unref o :: W)).count x) o = (fun x => ext x + (us W).count x) o + 1 := by
          simp [us]; omega
        have hx : ∀ x, x ≠ o → (fun x => ext x + (us (.unref o :: W)).count x) x = (fun x => ext x + (us W).count x) x := by
          intro x h; simp [us, Ne.symm h]
        have hfs : fs (.unref o :: W) = fs W := by simp [fs]
        rw [hfs] at I hf ⊢
        have hle : ∀ j, j.home = i.home → Le (fun _ => false) s (s.setInfo o (some j)) := by
          intro j hj
          refine ⟨rfl, rfl, fun _ h => h, ?_, ?_, fun x _ h _ => by
            rw [isSome_set _ _ _ _ (by simp [hi])]; exact h⟩
          · intro x hx h
            have : x ≠ o := by intro e; subst e; rw [hi] at h; cases h
            exact ⟨hx, by simp [S.setInfo, this, h]⟩
          · intro x j' hj'
            simp only [S.setInfo] at hj'
            by_cases h : x = o
            · subst h
              rw [if_pos rfl] at hj'
              injection hj' with hj'
              exact ⟨i, hi, by rw [← hj', hj]⟩
            · rw [if_neg h] at hj'; exact ⟨j', hj', rfl⟩
        by_cases h1 : i.shares = 1
        · obtain ⟨a1, a2, a3, a4, a5, a6, a7, a8⟩ := I.last hi h1 he hx
          let s1 := s.setInfo o (some { i with shares := 0 })
          have hs0 : sh s1 o = 0 := by show sh (s.setInfo o _) o = 0; rw [sh_set]; simp
          have hn1 : (s1.info o).isSome := by simp [s1, S.setInfo]
          have ha := a4 o
          have hk0 : (s1.kids o).count o = 0 := by
            have e : sh (s.setInfo o (some { i with shares := 0 })) o = 0 := hs0
            rw [e, occ_split (k := o) a3 hl a2] at ha
            show ((s.setInfo o (some { i with shares := 0 })).kids o).count o = 0
            omega
          have I2 : Inv s1 (fun x => ext x + (us (deletion s1 o ++ W)).count x) pend (o :: fs W) := by
            constructor
            · exact a3
            · exact List.nodup_cons.2 ⟨a2, I.dnodup⟩
            · intro x
              have hx := a4 x
              rw [occ_split (k := o) a3 hl a2] at hx
              show sh s1 x = _
              rw [us_deletion, List.count_append]
              have hx : sh s1 x = ext x + (us W).count x + ((s1.kids o).count x + occ s1 (o :: fs W) x) := hx
              rw [hx]
              by_cases hxo : x = o
              · subst hxo
                have : ((s1.kids x).filter (· ≠ x)).count x = 0 := by
                  rw [List.count_eq_zero]; simp
                omega
              · rw [List.count_filter (by simpa using hxo)]; omega
            · exact a5
            · exact a6
            · intro x
              rw [a7]
              show (s1.info x).isSome ∧ sh s1 x = 0 ∧ x ∉ fs W ∧ x ≠ o ↔ _
              simp only [List.mem_cons, not_or]
              grind
            · intro x hx
              rcases List.mem_cons.1 hx with rfl | hx
              · exact ⟨hn1, hs0⟩
              · exact a8 x hx
          have ht := total_set (j := { i with shares := 0 }) I.nodup hl hi
          have ht : total s1 + i.shares = total s + 0 := ht
          have hfd : fs (deletion s1 o ++ W) = o :: fs W := fs_deletion _ _ _
          obtain ⟨s', e, I', L', t', d', e1, e2⟩ := ih s1 (deletion s1 o ++ W) ext pend (by rw [hfd]; exact I2)
            (by rw [hfd]; simp; omega)
          refine ⟨s', ?_, I', (hle { i with shares := 0 } rfl).trans L', by omega, ?_, e1, e2⟩
          · rw [drain]
            have hs : ({ i with shares := i.shares - 1 } : Info) = { i with shares := 0 } := by rw [h1]
            simp only [hl, not_true, if_false, hman.2.1, hi, h1, Bool.false_eq_true]
            simpa [h1, s1] using e
          · intro x hx
            exact d' x (by rw [hfd]; simp [hx])
        · have I2 := I.less hi (by omega) he hx
          have ht := total_set (j := { i with shares := i.shares - 1 }) I.nodup hl hi
          simp only at ht
          obtain ⟨s', e, I', L', t', d', e1, e2⟩ := ih _ W ext pend I2 (by omega)
          refine ⟨s', ?_, I', (hle { i with shares := i.shares - 1 } rfl).trans L', by omega, d', e1, e2⟩
          rw [drain]
          have h0 : ¬ i.shares = 0 := by omega
          have h2 : ¬ i.shares - 1 = 0 := by omega
          simp only [hl, not_true, if_false, hman.2.1, hi, h0, h2, Bool.false_eq_true]
          exact e
      | free o =>
        have hfs : fs (.free o :: W) = o :: fs W := by simp [fs]
        have hus : us (.free o :: W) = us W := by simp [us]
        rw [hfs, hus] at I
        rw [hfs] at hf ⊢
        have hdy := I.dy o (by simp)
        have hl := I.live hdy.1
        have hnd := List.nodup_cons.1 I.dnodup
        let s1 := ({ s with live := s.live.erase o } : S).setInfo o none
        have hsh : ∀ x, sh s1 x = sh s x := by
          intro x
          show sh (S.setInfo _ o none) x = _
          rw [sh_none]
          by_cases h : x = o
          · subst h; rw [if_pos rfl, hdy.2]
          · rw [if_neg h]; rfl
        have I2 : Inv s1 (fun x => ext x + (us W).count x) pend (fs W) := by
          constructor
          · exact I.nodup.erase _
          · exact hnd.2
          · intro x
            rw [hsh, I.acc x]
            show _ = _ + occ s1 (fs W) x
            have : occ s1 (fs W) x = occ s (o :: fs W) x := by
              unfold occ
              have : (s.live.erase o).filter (fun p => decide (p ∉ fs W)) =
                  s.live.filter (fun p => decide (p ∉ o :: fs W)) := by
                rw [I.nodup.erase_eq_filter, List.filter_filter]
                congr 1
                funext p
                by_cases h : p = o <;> simp [h]
              show (((s.live.erase o).filter _).flatMap s.kids).count x = _
              rw [this]
            rw [this]
          · intro x j hj
            simp only [s1, S.setInfo] at hj
            by_cases h : x = o
            · subst h; rw [if_pos rfl] at hj; cases hj
            · rw [if_neg h] at hj
              have := I.man x j hj
              refine ⟨?_, this.2.1, this.2.2⟩
              show x ∈ s.live.erase o
              exact (List.mem_erase_of_ne h).2 this.1
          · exact I.rings
          · intro x
            rw [hsh, I.pnd]
            by_cases h : x = o
            · subst h; simp [s1, S.setInfo]
            · simp [s1, S.setInfo, h]
          · intro x hx
            have := I.dy x (by simp [hx])
            have hne : x ≠ o := by intro e; subst e; exact hnd.1 hx
            rw [hsh]
            simpa [s1, S.setInfo, hne] using this
        have ht : total s = total s1 := by
          unfold total
          rw [sum_erase (f := sh s) hl, hdy.2]
          show 0 + ((s.live.erase o).map (sh s)).sum = ((s.live.erase o).map (sh s1)).sum
          rw [Nat.zero_add]
          congr 1
          exact List.map_congr_left fun x _ => (hsh x).symm
        obtain ⟨s', e, I', L', t', d', e1, e2⟩ := ih s1 W ext pend I2 (by simp at hf; omega)
        have hL : Le (fun _ => false) s s1 := by
          refine ⟨rfl, rfl, fun x hx => List.mem_of_mem_erase hx, ?_, ?_, fun x hx h _ => by
            have : x ≠ o := by intro e; subst e; exact I.nodup.not_mem_erase hx
            simpa [s1, S.setInfo, this] using h⟩
          · intro x hx h
            have : x ≠ o := by
              intro e; subst e
              have := hdy.1; rw [h] at this; cases this
            exact ⟨(List.mem_erase_of_ne this).2 hx, by simp [s1, S.setInfo, h]⟩
          · intro x j hj
            simp only [s1, S.setInfo] at hj
            by_cases h : x = o
            · subst h; rw [if_pos rfl] at hj; cases hj
            · rw [if_neg h] at hj; exact ⟨j, hj, rfl⟩
        refine ⟨s', ?_, I', hL.trans L', by omega, ?_, e1, e2⟩
        · rw [drain]
          simp only [hl, not_true, if_false]
          exact e
        · intro x hx
          rcases List.mem_cons.1 hx with rfl | hx
          · intro h
            have := L'.sub x h
            exact (I.nodup.not_mem_erase) this
          · exact d' x hx

end Verif.Share
