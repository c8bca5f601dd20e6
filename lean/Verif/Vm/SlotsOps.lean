import Verif.Vm.SlotsRel
/-
Helper lemmas: each operation of `Verif/Vm/Slots.lean` does what the heap of `Verif/Vm/SlotsSpec.lean` does.
-/
namespace Verif.Slots
open Verif Verif.SlotsSpec

/-- The memory between two statements, for the heap `A`. -/
structure St (G : Nat → Prop) (τ : Nat → Nat) (s : S) (A : Heap) : Prop where
  j : J G τ s []
  act : Act s
  rl : Rl s A
  sf : Sf G s

/-- A value that can be used. -/
def Good (s : S) : Val → Prop
  | .prim _ => True
  | v => ∃ o, tgt s v = some o ∧ o ∈ s.live

theorem St.good {G : Nat → Prop} {τ : Nat → Nat} {s : S} {A : Heap} (h : St G τ s A) {l : Loc} {v : Val} (hg : s.get l = some v) : Good s v := by
  cases v with
  | prim => trivial
  | obj o => exact ⟨o, rfl, h.j.tgl hg rfl⟩
  | slot k =>
    have := h.act l k hg
    obtain ⟨o, ho⟩ := Option.ne_none_iff_exists'.1 this
    exact ⟨o, ho, h.j.tgl hg ho⟩

theorem target_ok {s : S} {v : Val} {o : Nat} (h : tgt s v = some o) : target s v = .ok o := by
  cases v with
  | prim => cases h
  | obj p => cases h; rfl
  | slot k =>
    simp only [tgt] at h
    cases hk : s.slot k with
    | none => rw [hk] at h; cases h
    | some sl =>
      rw [hk] at h
      have h : sl.src = some o := h
      simp [target, hk, h]

theorem av_ref {s : S} {v : Val} {o : Nat} (h : tgt s v = some o) : av s v = .ref o := by
  cases v with
  | prim => cases h
  | obj p => cases h; rfl
  | slot k => simp only [av, h]

theorem Good.cases {s : S} {v : Val} (h : Good s v) :
    (∃ n, v = .prim n) ∨ ∃ o, tgt s v = some o ∧ o ∈ s.live ∧ av s v = .ref o ∧ target s v = .ok o := by
  cases v with
  | prim n => exact Or.inl ⟨n, rfl⟩
  | obj p => obtain ⟨o, a, b⟩ := h; exact Or.inr ⟨o, a, b, av_ref a, target_ok a⟩
  | slot k => obtain ⟨o, a, b⟩ := h; exact Or.inr ⟨o, a, b, av_ref a, target_ok a⟩

/-! ### Reading -/

theorem follow_ok {G : Nat → Prop} {τ : Nat → Nat} {s : S} {A : Heap} (h : St G τ s A) : ∀ (ks : List Nat) (v : Val), Good s v →
    match A.follow (av s v) ks with
    | none => follow s v ks = .err
    | some a => ∃ u, follow s v ks = .ok u ∧ av s u = a ∧ Good s u
  | [], v, hv => by simp only [Heap.follow]; exact ⟨v, rfl, rfl, hv⟩
  | k :: ks, v, hv => by
    rcases hv.cases with ⟨n, rfl⟩ | ⟨o, ht, ho, ha, htg⟩
    · simp [Heap.follow, av, follow, target, Out.bind]
    · rw [ha]
      have he := h.rl.elem k ho
      have hav : av s ((s.get (.elem o k)).getD (.prim 0)) = (A.elem o k).getD (.prim 0) := by
        rw [← he]
        cases s.get (.elem o k) <;> rfl
      have hgd : Good s ((s.get (.elem o k)).getD (.prim 0)) := by
        cases hg : s.get (.elem o k) with
        | none => trivial
        | some u => exact h.good hg
      have ih := follow_ok h ks _ hgd
      rw [hav] at ih
      simp only [Heap.follow, follow, htg, Out.bind, ho, not_true_eq_false, if_false]
      exact ih

theorem read_ok {G : Nat → Prop} {τ : Nat → Nat} {s : S} {A : Heap} (h : St G τ s A) (x : Nat) (ks : List Nat) :
    match A.read x ks with
    | none => read s x ks = .err
    | some a => ∃ u, read s x ks = .ok u ∧ av s u = a ∧ Good s u := by
  have hv : av s ((s.get (.var x)).getD (.prim 0)) = A.var x := by
    rw [← h.rl.var x]
    cases s.get (.var x) <;> rfl
  have hgd : Good s ((s.get (.var x)).getD (.prim 0)) := by
    cases hg : s.get (.var x) with
    | none => trivial
    | some u => exact h.good hg
  have := follow_ok h ks _ hgd
  rw [hv] at this
  exact this

theorem base_ok {G : Nat → Prop} {τ : Nat → Nat} {s : S} {A : Heap} (h : St G τ s A) (x : Nat) (ks : List Nat) :
    match A.base x ks with
    | none => base s x ks = .err
    | some o => base s x ks = .ok o ∧ o ∈ s.live := by
  have hr := read_ok h x ks
  unfold Heap.base base
  cases ha : A.read x ks with
  | none => rw [ha] at hr; simp only at hr ⊢; rw [hr]; rfl
  | some a =>
    rw [ha] at hr
    obtain ⟨u, e, hav, hg⟩ := hr
    rw [e]
    rcases hg.cases with ⟨n, rfl⟩ | ⟨o, ht, ho, ha', htg⟩
    · simp only [av] at hav
      subst hav
      rfl
    · rw [ha'] at hav
      subst hav
      simp [Out.bind, htg, ho]

theorem follow_reach {A : Heap} {av0 : Nat → Nat → Prop} (hn : ∀ p k, ¬ av0 p k) : ∀ (ks : List Nat) (v : AVal) (o : Nat),
    (∀ p, v = .ref p → A.Reach av0 p) → A.follow v ks = some (.ref o) → A.Reach av0 o
  | [], v, o, hv, h => by simp only [Heap.follow, Option.some.injEq] at h; exact hv o h
  | k :: ks, v, o, hv, h => by
    cases v with
    | prim => simp [Heap.follow] at h
    | ref p =>
      simp only [Heap.follow] at h
      refine follow_reach hn ks _ o ?_ h
      intro q hq
      cases he : A.elem p k with
      | none => rw [he] at hq; cases hq
      | some a =>
        rw [he] at hq
        have hq : a = .ref q := hq
        exact .elem (hv p rfl) (hn p k) (by rw [he, hq])

theorem base_reach {A : Heap} {x : Nat} {ks : List Nat} {o : Nat} (h : A.base x ks = some o) : A.Reach (fun _ _ => False) o := by
  unfold Heap.base at h
  split at h
  · next p e =>
    cases h
    exact follow_reach (fun _ _ h => h) ks _ o (fun p hp => .var hp) e
  · cases h

/-- An object that is reached is reached without its own elements. -/
theorem reach_self {A : Heap} {o q : Nat} (h : A.Reach (fun _ _ => False) q) :
    A.Reach (fun p _ => p = o) q ∨ A.Reach (fun p _ => p = o) o := by
  induction h with
  | var hx => exact Or.inl (.var hx)
  | @elem p k q _ _ he ih =>
    rcases ih with ih | ih
    · by_cases hp : p = o
      · subst hp; exact Or.inr ih
      · exact Or.inl (.elem ih hp he)
    · exact Or.inr ih

theorem base_reach_self {A : Heap} {x : Nat} {ks : List Nat} {o : Nat} (h : A.base x ks = some o) :
    A.Reach (fun p _ => p = o) o := by
  rcases reach_self (o := o) (base_reach h) with h | h <;> exact h

theorem reach_mono {A B : Heap} {a b : Nat → Nat → Prop} (hv : ∀ x, B.var x = A.var x)
    (he : ∀ p k, ¬ a p k → B.elem p k = A.elem p k ∧ ¬ b p k) {o : Nat} (h : A.Reach a o) : B.Reach b o := by
  induction h with
  | var hx => exact .var (by rw [hv]; exact hx)
  | elem _ hn h ih => exact .elem ih (he _ _ hn).2 (by rw [(he _ _ hn).1]; exact h)

/-! ### New objects -/

theorem J_alloc {G : Nat → Prop} {s : S} (h : J G Z s []) : J G Z (alloc s).2 [] := by
  have hnew : s.nextO ∉ s.live := fun e => Nat.lt_irrefl _ (h.bo e)
  have hml : ∀ {q}, q ∈ s.live ++ [s.nextO] ↔ q ∈ s.live ∨ q = s.nextO := by simp
  have hobj : ∀ q, ((alloc s).2.obj q) = if q = s.nextO then ⟨0, []⟩ else s.obj q := fun q => rfl
  have hne : ∀ {q}, q ∈ s.live → q ≠ s.nextO := by rintro q hq rfl; exact hnew hq
  have hlive : (alloc s).2.live = s.live ++ [s.nextO] := rfl
  refine ⟨h.nd, ?_, ?_, h.cn, ?_, ?_, h.slt, ?_, ?_, ?_, ?_, ?_, ?_, h.dyn, ?_, ?_, ?_, h.bs⟩
  · rw [hlive]
    refine List.nodup_append.2 ⟨h.ln, by simp, ?_⟩
    intro a ha b hb e
    rw [List.mem_singleton] at hb
    subst hb; subst e; exact hnew ha
  · show (s.zero ++ [s.nextO]).Nodup
    refine List.nodup_append.2 ⟨h.zn, by simp, ?_⟩
    intro a ha b hb e
    rw [List.mem_singleton] at hb
    subst hb; subst e; exact hnew (h.zer.1 ha).1
  · intro o k v hg; rw [hlive]; exact hml.2 (Or.inl (h.own hg))
  · intro l v o hg ht; rw [hlive]; exact hml.2 (Or.inl (h.tgl hg ht))
  · intro k o l hk
    obtain ⟨a, b, c⟩ := h.fwd hk
    rw [hlive, hobj, if_neg (hne a)]
    exact ⟨hml.2 (Or.inl a), b, c⟩
  · intro o k ho hk
    rw [hobj] at hk
    split at hk
    · cases hk
    · next e =>
      rw [hlive] at ho
      rcases hml.1 ho with ho | ho
      · exact h.ref ho hk
      · exact absurd ho e
  · intro o ho
    rw [hobj]
    split
    · exact List.nodup_nil
    · next e =>
      rw [hlive] at ho
      rcases hml.1 ho with ho | ho
      · exact h.rn ho
      · exact absurd ho e
  · intro o ho
    rw [hobj]
    split
    · next e =>
      have : cnt s o = 0 := by
        apply List.countP_eq_zero.2
        intro x hx
        have hg : s.get x.1 = some x.2 := mem_lookup h.nd hx
        simp only [decide_eq_true_eq]
        intro ht
        exact hne (h.tgl hg ht) e
      have h2 : cnt (alloc s).2 o = cnt s o := rfl
      rw [h2, this]; exact ⟨0, by simp, fun e => absurd rfl e⟩
    · next e =>
      rw [hlive] at ho
      rcases hml.1 ho with ho | ho
      · exact h.ex ho
      · exact absurd ho e
  · intro o ho; cases ho
  · intro o
    show o ∈ s.zero ++ [s.nextO] ↔ o ∈ s.live ++ [s.nextO] ∧ _
    rw [hobj, hml, List.mem_append, List.mem_singleton, h.zer]
    by_cases e : o = s.nextO
    · subst e; simp [killIds]
    · simp [e]
  · intro o ls hq; cases hq
  · intro o
    show o ∈ s.cyc ↔ o ∈ s.live ++ [s.nextO] ∧ _
    rw [hobj, hml, h.cyc]
    by_cases e : o = s.nextO
    · subst e; simp [hnew]
    · simp [e]
  · intro o ho
    rw [hlive] at ho
    show o < s.nextO + 1
    rcases hml.1 ho with ho | ho
    · have := h.bo ho; omega
    · omega

theorem St.alloc {G : Nat → Prop} {s : S} {A : Heap} (h : St G Z s A) : St G Z (alloc s).2 { A with next := A.next + 1 } := by
  refine ⟨J_alloc h.j, h.act, ⟨h.rl.var, ?_, ?_, h.rl.vs, ?_⟩, h.sf⟩
  · intro o k ho
    have hlive : (Slots.alloc s).2.live = s.live ++ [s.nextO] := rfl
    rw [hlive] at ho
    rcases List.mem_append.1 ho with ho | ho
    · exact h.rl.elem k ho
    · rw [List.mem_singleton] at ho
      subst ho
      have e1 : (Slots.alloc s).2.get (.elem s.nextO k) = none := by
        cases hg : (Slots.alloc s).2.get (.elem s.nextO k) with
        | none => rfl
        | some v => exact absurd (h.j.bo (h.j.own hg)) (Nat.lt_irrefl _)
      rw [e1]
      exact (h.rl.fr k (by rw [h.rl.nx]; exact Nat.le_refl _)).symm
  · show s.nextO + 1 = A.next + 1
    rw [h.rl.nx]
  · intro o k ho
    exact h.rl.fr k (by have : A.next + 1 ≤ o := ho; omega)

theorem alloc_zero (s : S) : (alloc s).1 ∈ (alloc s).2.zero := by simp [alloc]

theorem alloc_live (s : S) : (alloc s).1 ∈ (alloc s).2.live := by simp [alloc]

theorem eval_ok {G : Nat → Prop} {s : S} {A : Heap} (h : St G Z s A) (e : Src) :
    match A.eval e with
    | none => eval s e = .err
    | some (a, B) => ∃ v s', eval s e = .ok (v, s') ∧ St G Z s' B ∧ av s' v = a ∧ Good s' v ∧
        (e = .new → ∃ o, v = .obj o ∧ o ∈ s'.zero) ∧ (∀ x ks, e = .path x ks → s' = s) := by
  cases e with
  | prim n => exact ⟨.prim n, s, rfl, h, rfl, trivial, (fun e => by cases e), (fun _ _ e => by cases e)⟩
  | path x ks =>
    have hr := read_ok h x ks
    simp only [Heap.eval, eval]
    cases ha : A.read x ks with
    | none => rw [ha] at hr; simp only at hr; rw [hr]; rfl
    | some a =>
      rw [ha] at hr
      obtain ⟨u, e, hav, hg⟩ := hr
      rw [e]
      exact ⟨u, s, rfl, h, hav, hg, (fun e => by cases e), (fun _ _ _ => rfl)⟩
  | new =>
    refine ⟨.obj (alloc s).1, (alloc s).2, rfl, h.alloc, ?_, ⟨_, rfl, alloc_live s⟩, fun _ => ⟨_, rfl, alloc_zero s⟩,
      (fun _ _ e => by cases e)⟩
    show AVal.ref s.nextO = AVal.ref A.next
    rw [h.rl.nx]

/-! ### Writing -/

theorem heap_ext {A B : Heap} (h1 : A.var = B.var) (h2 : A.elem = B.elem) (h3 : A.next = B.next) : A = B := by
  cases A; cases B; simp_all

theorem write_write (A : Heap) (l : Loc) (a b : AVal) : (A.write l a).write l b = A.write l b := by
  cases l with
  | var x =>
    apply heap_ext
    · funext y; simp only [Heap.write, Heap.setVar]; split <;> rfl
    · rfl
    · rfl
  | elem o k =>
    apply heap_ext
    · rfl
    · funext p j; simp only [Heap.write, Heap.setElem]; split <;> rfl
    · rfl

/-- A stack element that is there afterwards. -/
theorem ensure_ok {G : Nat → Prop} {s : S} {A : Heap} (h : St G Z s A) {l : Loc} (ho : Own s [] l) :
    ∃ B v, St G Z (ensure s l) B ∧ (ensure s l).get l = some v ∧ (∀ a, B.write l a = A.write l a) ∧
      (∀ u, s.get l = some u → v = u) ∧ (s.get l = none → v = .prim 0) ∧ (∀ l', l' ≠ l → (ensure s l).get l' = s.get l') ∧
      (ensure s l).slot = s.slot ∧ (ensure s l).live = s.live ∧ (ensure s l).zero = s.zero ∧ (ensure s l).nextS = s.nextS ∧
      (B = A ∨ B = A.write l (.prim 0) ∧ s.get l = none) := by
  cases hg : s.get l with
  | some v =>
    have e : ensure s l = s := by simp [ensure, hg]
    rw [e]
    exact ⟨A, v, h, hg, fun _ => rfl, (fun u hu => by cases hu; rfl), (fun e => by cases e), fun _ _ => rfl, rfl, rfl, rfl, rfl, Or.inl rfl⟩
  | none =>
    have e : ensure s l = s.put l (.prim 0) := by simp [ensure, hg]
    rw [e]
    have hi := Ins.put_new h.j.nd hg (.prim 0)
    refine ⟨A.write l (.prim 0), .prim 0, ⟨?_, ?_, ?_, h.sf.write hi.get (fun _ _ _ e => by cases e)⟩, ?_, write_write A l _, (fun u hu => by cases hu), fun _ => rfl, ?_, rfl, rfl, rfl, rfl, Or.inr ⟨rfl, rfl⟩⟩
    · exact J_ins h.j hi hg ho (fun _ e => by cases e) (fun _ e => by cases e) (fun q => by simp [tgt, b2n]) rfl rfl rfl rfl rfl rfl rfl
    · intro l' k hk
      rw [hi.get] at hk
      split at hk
      · cases hk
      · exact h.act l' k hk
    · have := h.rl.write (s2 := s.put l (.prim 0)) (l := l) (v := .prim 0) rfl rfl hi.get (fun _ _ => rfl)
        (fun _ _ _ => by simp) (fun o k e => by subst e; exact h.j.bo ho.1)
      exact this
    · rw [hi.get, if_pos rfl]
    · intro l' hne; rw [hi.get, if_neg hne]

theorem tgt_same {s s' : S} (h : s'.slot = s.slot) (v : Val) : tgt s' v = tgt s v := tgt_slot fun k _ => by rw [h]

theorem St.ub {G : Nat → Prop} {s : S} {A : Heap} {q : Nat} (h : St G (one q) s A) (hq : q ∈ s.live) :
    unrefBlock s q = .ok (ub s q) ∧ St G Z (ub s q) A := by
  have hj := h.j.unrefBlock (τ' := Z) hq (fun _ => by simp)
  exact ⟨hj.1, hj.2, h.act, h.rl.same rfl rfl rfl rfl, h.sf⟩

/-- The share of a value that was overwritten is left over. -/
def tv : Val → Nat → Nat
  | .obj q => one q
  | _ => Z

theorem tv_tgt {s : S} {v : Val} (hv : ∀ k, v ≠ .slot k) (q : Nat) : b2n (decide (tgt s v = some q)) = tv v q := by
  cases v with
  | prim => simp [tgt, b2n, tv]
  | obj p =>
    by_cases e : p = q
    · simp [tgt, b2n, tv, one, e]
    · simp [tgt, b2n, tv, one, e, Ne.symm e]
  | slot k => exact absurd rfl (hv k)

/-- A value without slot over one without slot. The old one is not counted any more. -/
theorem put_ok {G : Nat → Prop} {s : S} {A : Heap} (h : St G Z s A) {l : Loc} {old : Val} (hg : s.get l = some old) (ho : Own s [] l)
    (hold : ∀ k, old ≠ .slot k) (n : Nat) : St G (tv old) (s.put l (.prim n)) (A.write l (.prim n)) := by
  have hi := Ins.put_old h.j.nd hg (.prim n)
  have hd := J_del h.j hg hold
  have hgd : (s.del l).get l = none := by rw [get_del, if_pos rfl]
  refine ⟨?_, ?_, ?_, h.sf.write (get_put s l _) (fun _ _ _ e => by cases e)⟩
  · exact J_ins hd hi hgd (by cases l <;> exact ho) (fun _ e => by cases e) (fun _ e => by cases e)
      (fun q => by rw [tv_tgt hold]; simp [tgt, b2n]) rfl rfl rfl rfl rfl rfl rfl
  · intro l' k hk
    rw [get_put] at hk
    split at hk
    · cases hk
    · exact h.act l' k hk
  · exact h.rl.write (s2 := s.put l (.prim n)) (v := .prim n) rfl rfl (get_put s l _) (fun _ _ => rfl) (fun _ _ _ => by simp)
      (fun o k e => by subst e; exact h.j.bo ho.1)

/-- The same with an object, which gets a share. -/
theorem putObj_ok {G : Nat → Prop} {s : S} {A : Heap} (h : St G Z s A) {l : Loc} {old : Val} (hg : s.get l = some old) (ho : Own s [] l)
    (hold : ∀ k, old ≠ .slot k) {p : Nat} (hp : p ∈ s.live) (hsf : ∀ k, l = .elem p k → G p) :
    share (s.put l (.obj p)) p = .ok (sh (s.put l (.obj p)) p) ∧ St G (tv old) (sh (s.put l (.obj p)) p) (A.write l (.ref p)) := by
  have hd := J_del h.j hg hold
  have hgd : (s.del l).get l = none := by rw [get_del, if_pos rfl]
  have hi0 := Ins.put_old h.j.nd hg (.obj p)
  have hi : Ins (sh (s.del l) p) (sh (s.put l (.obj p)) p) l (.obj p) := ⟨hi0.nd, hi0.get, hi0.cP⟩
  refine ⟨share_eq hp fun h0 => h.j.zer.2 ⟨hp, h0, by simp [killIds]⟩, ?_, ?_, ?_,
    Sf.write (s2 := sh (s.put l (.obj p)) p) h.sf (get_put s l _) (fun o k e e' => by cases e'; exact hsf k e)⟩
  · refine J_ins (hd.sh (o := p) hp) hi hgd (by cases l <;> exact ho) (fun _ e => by cases e) ?_ ?_ rfl rfl rfl rfl rfl rfl rfl
    · intro o e
      cases e
      exact hp
    · intro q
      have h1 := tv_tgt (s := sh (s.del l) p) (v := .obj p) (fun k => by simp) q
      rw [tv_tgt hold, h1]
      simp [tv]
  · intro l' k hk
    have hk : (s.put l (.obj p)).get l' = some (.slot k) := hk
    rw [get_put] at hk
    split at hk
    · cases hk
    · exact h.act l' k hk
  · have := h.rl.write (s2 := sh (s.put l (.obj p)) p) (v := .obj p) rfl rfl (get_put s l _) (fun _ _ => rfl) (fun _ _ _ => by simp)
      (fun o k e => by subst e; exact h.j.bo ho.1)
    exact this

theorem storeVar_ok {G : Nat → Prop} {s : S} {A : Heap} (h : St G Z s A) (x : Nat) {v : Val} (hv : Good s v) :
    ∃ s', storeVar s x v = .ok s' ∧ St G Z s' (A.setVar x (av s v)) := by
  obtain ⟨B, old, hB, hg, hw, _, _, _, hslot, hlive, _, _, _⟩ := ensure_ok h (l := .var x) trivial
  have hw' : ∀ a, A.setVar x a = B.write (.var x) a := fun a => (hw a).symm
  have hold : ∀ k, old ≠ .slot k := by
    rintro k rfl
    exact hB.rl.vs x k hg
  unfold storeVar vmStore
  simp only [hg]
  rw [hw']
  rcases hv.cases with ⟨n, rfl⟩ | ⟨o, ht, hol, ha, htg⟩
  · have h1 := put_ok hB hg trivial hold n
    simp only
    cases old with
    | prim m => exact ⟨_, rfl, h1⟩
    | obj q =>
      obtain ⟨e, h3⟩ := St.ub h1 (hB.j.tgl hg rfl)
      exact ⟨_, e, h3⟩
    | slot k => exact absurd rfl (hold k)
  · have htg' : target (ensure s (.var x)) v = .ok o := target_ok (by rw [tgt_same hslot]; exact ht)
    have hol' : o ∈ (ensure s (.var x)).live := by rw [hlive]; exact hol
    have hmain : ∃ s', ((target (ensure s (.var x)) v).bind fun o =>
        if old = .obj o then .ok (ensure s (.var x)) else
        (share ((ensure s (.var x)).put (.var x) (.obj o)) o).bind fun s => dropOld s old false) = .ok s' ∧
        St G Z s' (B.write (.var x) (av s v)) := by
      rw [htg', ha]
      simp only [Out.bind]
      by_cases hsame : old = .obj o
      · rw [if_pos hsame]
        refine ⟨_, rfl, ?_⟩
        have : B.write (.var x) (.ref o) = B := by
          apply heap_ext
          · funext y
            simp only [Heap.write, Heap.setVar]
            split
            · next e =>
              rw [e, ← hB.rl.var x, hg, hsame]; rfl
            · rfl
          · rfl
          · rfl
        rw [this]; exact hB
      · rw [if_neg hsame]
        obtain ⟨e1, h1⟩ := putObj_ok hB hg trivial hold hol' (fun _ e => by cases e)
        rw [e1]
        simp only
        cases old with
        | prim m => exact ⟨_, rfl, h1⟩
        | obj q =>
          obtain ⟨e, h3⟩ := St.ub h1 (hB.j.tgl hg rfl)
          exact ⟨_, e, h3⟩
        | slot k => exact absurd rfl (hold k)
    cases v with
    | prim => cases ht
    | obj => exact hmain
    | slot => exact hmain

end Verif.Slots
