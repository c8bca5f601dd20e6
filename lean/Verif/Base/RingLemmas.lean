import Verif.Base.Ring
/- Helper lemmas for circular lists. -/
namespace Verif.Ring
open Verif

/-- Consecutive elements point at each other. -/
def Linked (h : Heap) : List Nat → Prop
  | [] => True
  | [_] => True
  | a :: b :: t => h.next a = some b ∧ h.prev b = some a ∧ Linked h (b :: t)

/-- `l` is the content of the ring with header `hd`. -/
structure IsRing (h : Heap) (hd : Hdr) (l : List Nat) : Prop where
  nodup : l.Nodup
  first : hd.first = l.head?
  last : hd.last = l.getLast?
  linked : Linked h (l ++ l.head?.toList)

theorem linked_append (h : Heap) (l : List Nat) (a : Nat) (r : List Nat) :
    Linked h (l ++ a :: r) ↔ Linked h (l ++ [a]) ∧ Linked h (a :: r) := by
  induction l with
  | nil => simp [Linked]
  | cons x l ih =>
    cases l with
    | nil => simp [Linked, and_assoc]
    | cons y l => simp [Linked] at ih ⊢; simp [ih, and_assoc]

theorem linked_congr {h h' : Heap} {l : List Nat}
    (hn : ∀ x ∈ l.dropLast, h'.next x = h.next x) (hp : ∀ x ∈ l.tail, h'.prev x = h.prev x)
    (hl : Linked h l) : Linked h' l := by
  induction l with
  | nil => trivial
  | cons a l ih =>
    cases l with
    | nil => trivial
    | cons b t =>
      simp [Linked] at hl ⊢
      refine ⟨?_, ?_, ih ?_ ?_ hl.2.2⟩
      · rw [hn a (by simp)]; exact hl.1
      · rw [hp b (by simp)]; exact hl.2.1
      · intro x hx; exact hn x (by simp at hx ⊢; exact Or.inr hx)
      · intro x hx; exact hp x (by simp at hx ⊢; exact Or.inr hx)

theorem isRing_init : IsRing Heap.init Hdr.init [] := ⟨by simp, rfl, rfl, trivial⟩

/-- Every member of a ring has non-NULL links. -/
theorem IsRing.attached {h hd l} (r : IsRing h hd l) {x : Nat} (hx : x ∈ l) :
    h.next x ≠ none ∧ h.prev x ≠ none := by
  obtain ⟨p, s, rfl⟩ := List.append_of_mem hx
  have hl := r.linked
  constructor
  · cases s with
    | nil =>
      cases p with
      | nil => simp [Linked] at hl; simp [hl.1]
      | cons a p =>
        simp only [List.append_assoc, List.cons_append, List.nil_append] at hl
        have := (linked_append h (a :: p) x ((a :: (p ++ x :: [])).head?.toList)).1 (by simpa using hl)
        simp [Linked] at this; simp [this.2.1]
    | cons b s =>
      have := (linked_append h p x (b :: s ++ (p ++ x :: b :: s).head?.toList)).1 (by simpa using hl)
      simp [Linked] at this; simp [this.2.1]
  · rcases List.eq_nil_or_concat p with rfl | ⟨p', a, rfl⟩
    · -- x is the head; predecessor is the last
      rcases List.eq_nil_or_concat s with rfl | ⟨s', z, rfl⟩
      · simp [Linked] at hl; simp [hl.2]
      · have := (linked_append h (x :: s') z [x]).1 (by simpa using hl)
        simp [Linked] at this; simp [this.2.2]
    · have := (linked_append h p' a (x :: s ++ (p' ++ [a] ++ x :: s).head?.toList)).1 (by simpa using hl)
      simp [Linked] at this; simp [this.2.2.1]

/-- Effect of appending a detached node. -/
theorem append_ring {h hd l} (r : IsRing h hd l) {n : Nat} (hn : n ∉ l) :
    ∃ h' hd', append h hd n = .ok (h', hd') ∧ IsRing h' hd' (l ++ [n]) ∧
      (∀ x, x ∉ l → x ≠ n → h'.next x = h.next x ∧ h'.prev x = h.prev x) := by
  unfold append
  cases l with
  | nil =>
    have hf : hd.first = none := by simpa using r.first
    rw [hf]
    refine ⟨_, _, rfl, ⟨by simp, rfl, rfl, ?_⟩, ?_⟩
    · simp [Linked, Heap.setNext, Heap.setPrev]
    · intro x _ hx; simp [Heap.setNext, Heap.setPrev, hx]
  | cons f t =>
    have hf : hd.first = some f := by simpa using r.first
    obtain ⟨q, z, hq⟩ : ∃ q z, f :: t = q ++ [z] := by
      rcases List.eq_nil_or_concat (f :: t) with hh | ⟨q, z, hh⟩
      · simp at hh
      · exact ⟨q, z, by simpa using hh⟩
    have hz : hd.last = some z := by rw [r.last, hq]; simp
    rw [hf, hz]
    simp only
    refine ⟨_, _, rfl, ⟨?_, by simp, (List.getLast?_concat (l := f :: t)).symm, ?_⟩, ?_⟩
    · have := r.nodup
      rw [List.nodup_append]; exact ⟨this, by simp, by intro a ha b hb; simp at hb; subst hb; intro e; exact hn (e ▸ ha)⟩
    · -- linked
      have hl := r.linked
      have hnd := r.nodup
      simp only [List.head?_cons, Option.toList_some] at hl ⊢
      rw [hq] at hl hn hnd
      have e : f :: t ++ [n] ++ [f] = q ++ z :: [n, f] := by rw [hq]; simp
      have hh : ((f :: t ++ [n]).head?.toList) = [f] := by simp
      have hz2 : z ≠ n := by intro e2; apply hn; simp [e2]
      have hnf : n ≠ f := by intro e2; apply hn; rw [← hq]; simp [e2]
      have hq' := (linked_append h q z [f]).1 (by simpa using hl)
      have goal1 : Linked ((((h.setPrev n (some z)).setNext z (some n)).setNext n (some f)).setPrev f (some n)) (q ++ z :: [n, f]) := by
        rw [linked_append]
        constructor
        · apply linked_congr _ _ hq'.1
          · intro x hx
            simp at hx
            have h1 : x ≠ z := by
              intro e2; subst e2
              rw [List.nodup_append] at hnd
              exact hnd.2.2 x hx x (by simp) rfl
            have h2 : x ≠ n := by intro e2; subst e2; apply hn; simp [hx]
            simp [Heap.setNext, Heap.setPrev, h1, h2]
          · intro x hx
            have hxm : x ∈ t := by
              have : (q ++ [z]).tail = t := by rw [← hq]; rfl
              rw [this] at hx; exact hx
            have h2 : x ≠ n := by
              intro e2; subst e2; apply hn; rw [← hq]; simp [hxm]
            have h1 : x ≠ f := by
              intro e2; subst e2
              rw [← hq] at hnd
              simp at hnd; exact hnd.1 hxm
            simp [Heap.setNext, Heap.setPrev, h1, h2]
        · simp [Linked, Heap.setNext, Heap.setPrev, hz2, hnf]
      have e3 : ((f :: t ++ [n]).head?).toList = [f] := rfl
      rw [e3, e]; exact goal1
    · intro x hx hxn
      have h1 : x ≠ f := by intro e; subst e; simp at hx
      have h2 : x ≠ z := by
        intro e; subst e
        apply hx; rw [hq]; simp
      simp [Heap.setNext, Heap.setPrev, h1, h2, hxn]

/-- Neighbours of a member of a ring with at least two nodes. -/
theorem ring_succ {h hd} {p : List Nat} {n : Nat} {s : List Nat} (r : IsRing h hd (p ++ n :: s)) :
    h.next n = (s ++ p ++ [n]).head? := by
  have hl := r.linked
  cases s with
  | nil =>
    cases p with
    | nil => simp [Linked] at hl; simp [hl.1]
    | cons a p =>
      have := (linked_append h (a :: p) n [a]).1 (by simpa using hl)
      simp [Linked] at this; simp [this.2.1]
  | cons b s =>
    have := (linked_append h p n (b :: s ++ (p ++ n :: b :: s).head?.toList)).1 (by simpa using hl)
    simp [Linked] at this; simp [this.2.1]

theorem ring_pred {h hd} {p : List Nat} {n : Nat} {s : List Nat} (r : IsRing h hd (p ++ n :: s)) :
    h.prev n = (n :: s ++ p).getLast? := by
  have hl := r.linked
  rcases List.eq_nil_or_concat p with rfl | ⟨p', a, rfl⟩
  · rcases List.eq_nil_or_concat s with rfl | ⟨s', z, rfl⟩
    · simp [Linked] at hl; simp [hl.2]
    · have := (linked_append h (n :: s') z [n]).1 (by simpa using hl)
      simp [Linked] at this
      rw [this.2.2]
      have e : n :: s'.concat z ++ [] = (n :: s') ++ [z] := by simp
      rw [e, List.getLast?_concat]
  · have := (linked_append h p' a (n :: s ++ (p' ++ [a] ++ n :: s).head?.toList)).1 (by simpa using hl)
    simp [Linked] at this
    rw [this.2.2.1]
    have e : n :: s ++ p'.concat a = (n :: s ++ p') ++ [a] := by simp
    rw [e, List.getLast?_concat]

/-- The heap after unlinking `n` between `a` and `b` and clearing its own links. -/
def unlinked (h : Heap) (a n b : Nat) : Heap :=
  nullify ((h.setNext a (some b)).setPrev b (some a)) n

theorem unlinked_next {h a n b x} : (unlinked h a n b).next x =
    if x = n then none else if x = a then some b else h.next x := by
  simp [unlinked, nullify, Heap.setNext, Heap.setPrev]
theorem unlinked_prev {h a n b x} : (unlinked h a n b).prev x =
    if x = n then none else if x = b then some a else h.prev x := by
  simp [unlinked, nullify, Heap.setNext, Heap.setPrev]

theorem unlink_eq {h : Heap} {a n b : Nat} (ha : h.prev n = some a) (hb : h.next n = some b) (hne : a ≠ n) :
    (unlink h n).bind (fun h => Out.ok (nullify h n)) = .ok (unlinked h a n b) := by
  have : ¬ n = a := fun e => hne e.symm
  simp [unlink, ha, hb, Heap.setNext, this, Out.bind, unlinked]

/-- Linkedness after removing an inner element. -/
theorem linked_remove {h : Heap} {p : List Nat} {a n b : Nat} {s : List Nat}
    (hl : Linked h (p ++ [a, n, b] ++ s))
    (hn1 : (p ++ [a, n]).Nodup) (hn2 : (n :: b :: s).Nodup)
    (ha : a ∉ (b :: s).dropLast) (hb : b ∉ (p ++ [a]).tail) :
    Linked (unlinked h a n b) (p ++ [a, b] ++ s) := by
  have e : p ++ [a, n, b] ++ s = p ++ a :: (n :: b :: s) := by simp
  have e2 : p ++ [a, b] ++ s = p ++ a :: (b :: s) := by simp
  rw [e] at hl
  rw [e2]
  rw [linked_append] at hl ⊢
  obtain ⟨l1, l2⟩ := hl
  have l3 : Linked h (b :: s) := by simp [Linked] at l2; exact l2.2.2.2.2
  have hpn : n ∉ p := by
    intro hh; rw [List.nodup_append] at hn1; exact hn1.2.2 n hh n (by simp) rfl
  have hpa : a ∉ p := by
    intro hh; rw [List.nodup_append] at hn1; exact hn1.2.2 a hh a (by simp) rfl
  have han : a ≠ n := by
    rw [List.nodup_append] at hn1; simpa using hn1.2.1
  constructor
  · apply linked_congr _ _ l1
    · intro x hx
      simp at hx
      have h1 : x ≠ n := fun e => hpn (e ▸ hx)
      have h2 : x ≠ a := fun e => hpa (e ▸ hx)
      rw [unlinked_next]; simp [h1, h2]
    · intro x hx
      have h2 : x ≠ b := fun e => hb (e ▸ hx)
      have h1 : x ≠ n := by
        intro e; subst e
        have := List.mem_of_mem_tail hx
        simp at this
        rcases this with h | h
        · exact hpn h
        · exact han h.symm
      rw [unlinked_prev]; simp [h1, h2]
  · have hbn : b ≠ n := by simp at hn2; exact fun e => hn2.1.1 e.symm
    refine ⟨?_, ?_, ?_⟩
    · rw [unlinked_next]; simp [han]
    · rw [unlinked_prev]; simp [hbn]
    · apply linked_congr _ _ l3
      · intro x hx
        have h2 : x ≠ a := fun e => ha (e ▸ hx)
        have h1 : x ≠ n := by
          intro e; subst e
          have := (List.dropLast_sublist _).subset hx
          exact (List.nodup_cons.1 hn2).1 this
        rw [unlinked_next]; simp [h1, h2]
      · intro x hx
        have hx' : x ∈ s := by simpa using hx
        have h1 : x ≠ n := by
          intro e; subst e
          exact (List.nodup_cons.1 hn2).1 (by simp [hx'])
        have h2 : x ≠ b := by
          intro e; subst e
          exact (List.nodup_cons.1 (List.nodup_cons.1 hn2).2).1 hx'
        rw [unlinked_prev]; simp [h1, h2]

/-- Linkedness after removing the head of a ring with at least two nodes. -/
theorem linked_remove_head {h : Heap} {n z : Nat} {q : List Nat} {b : Nat} {s : List Nat}
    (hq : b :: s = q ++ [z]) (hl : Linked h (n :: b :: s ++ [n])) (hnd : (n :: b :: s).Nodup) :
    Linked (unlinked h z n b) (b :: s ++ [b]) := by
  have e : n :: b :: s ++ [n] = (n :: q) ++ z :: [n] := by
    have : n :: b :: s = n :: (q ++ [z]) := by rw [hq]
    rw [this]; simp
  have l1 : Linked h (b :: s ++ [n]) := by simp [Linked] at hl; exact hl.2.2
  rw [hq] at l1
  have l2 := (linked_append h q z [n]).1 (by simpa using l1)
  have e2 : b :: s ++ [b] = q ++ z :: [b] := by rw [hq]; simp
  rw [e2, linked_append]
  have hnb : n ∉ b :: s := (List.nodup_cons.1 hnd).1
  have hbs : (b :: s).Nodup := (List.nodup_cons.1 hnd).2
  have hzq : z ∉ q := by
    rw [hq, List.nodup_append] at hbs
    intro hh; exact hbs.2.2 z hh z (by simp) rfl
  have hzn : z ≠ n := by
    intro e; apply hnb; rw [hq, ← e]; simp
  have hbn : b ≠ n := by
    intro e; apply hnb; simp [e]
  constructor
  · apply linked_congr _ _ l2.1
    · intro x hx
      simp at hx
      have h1 : x ≠ n := by
        intro e; subst e; apply hnb; rw [hq]; simp [hx]
      have h2 : x ≠ z := fun e => hzq (e ▸ hx)
      rw [unlinked_next]; simp [h1, h2]
    · intro x hx
      rw [← hq] at hx
      have hx' : x ∈ s := by simpa using hx
      have h1 : x ≠ n := by intro e; subst e; apply hnb; simp [hx']
      have h2 : x ≠ b := by
        intro e; subst e
        exact (List.nodup_cons.1 hbs).1 hx'
      rw [unlinked_prev]; simp [h1, h2]
  · simp [Linked, unlinked_next, unlinked_prev, hzn, hbn]

/-- Effect of detaching a member, `else if` variant. -/
theorem detachElseIf_ring {h hd} {p : List Nat} {n : Nat} {s : List Nat}
    (r : IsRing h hd (p ++ n :: s)) :
    ∃ h' hd', detachElseIf h hd n = .ok (h', hd') ∧ IsRing h' hd' (p ++ s) ∧
      h'.next n = none ∧ h'.prev n = none ∧
      (∀ x, x ∉ p ++ n :: s → h'.next x = h.next x ∧ h'.prev x = h.prev x) := by
  have hsucc := ring_succ r
  have hpred := ring_pred r
  have hnd := r.nodup
  have hl := r.linked
  have hfst := r.first
  have hlst := r.last
  unfold detachElseIf
  rcases List.eq_nil_or_concat p with rfl | ⟨p', a, rfl⟩
  · cases s with
    | nil =>
      simp at hsucc hpred
      simp only [hsucc, hpred, and_self, if_true]
      refine ⟨_, _, rfl, ⟨by simp, rfl, rfl, trivial⟩, ?_, ?_, ?_⟩
      · simp [nullify, Heap.setNext, Heap.setPrev]
      · simp [nullify, Heap.setNext, Heap.setPrev]
      · intro x hx; simp at hx; simp [nullify, Heap.setNext, Heap.setPrev, hx]
    | cons b s =>
      obtain ⟨q, z, hq⟩ : ∃ q z, b :: s = q ++ [z] := by
        rcases List.eq_nil_or_concat (b :: s) with hh | ⟨q, z, hh⟩
        · simp at hh
        · exact ⟨q, z, by simpa using hh⟩
      simp at hsucc hfst
      have hz : h.prev n = some z := by
        rw [hpred]
        have : n :: b :: s ++ [] = (n :: q) ++ [z] := by
          have : n :: b :: s = n :: (q ++ [z]) := by rw [hq]
          simp [this]
        rw [this, List.getLast?_concat]
      have hzl : (b :: s).getLast? = some z := by rw [hq, List.getLast?_concat]
      have hnb : n ∉ b :: s := by simpa using (List.nodup_cons.1 (by simpa using hnd : (n :: b :: s).Nodup)).1
      have hzn : z ≠ n := by
        intro e; apply hnb; rw [hq, ← e]; simp
      have hbn : b ≠ n := by intro e; apply hnb; simp [e]
      have c : ¬ (h.prev n = some n ∧ h.next n = some n) := by simp [hz, hzn]
      have u := unlink_eq hz hsucc hzn
      simp only [c, if_false, hfst, if_true]
      cases hu : unlink h n with
      | ok hh =>
        rw [hu] at u; simp [Out.bind] at u
        simp only [Out.bind, u]
        refine ⟨_, _, rfl, ⟨?_, ?_, ?_, ?_⟩, ?_, ?_, ?_⟩
        · simpa using (List.nodup_cons.1 (by simpa using hnd : (n :: b :: s).Nodup)).2
        · simpa using hsucc
        · simp only [List.nil_append]; rw [hlst, hzl]
          simp only [List.nil_append]
          rw [← hzl]; exact List.getLast?_cons_cons
        · simpa using linked_remove_head hq (by simpa using hl) (by simpa using hnd)
        · simp [unlinked_next]
        · simp [unlinked_prev]
        · intro x hx
          have x1 : x ≠ n := by intro e; subst e; simp at hx
          have x2 : x ≠ z := by intro e; subst e; apply hx; simp only [List.nil_append]; rw [hq]; simp
          have x3 : x ≠ b := by intro e; subst e; simp at hx
          simp [unlinked_next, unlinked_prev, x1, x2, x3]
      | err => rw [hu] at u; simp [Out.bind] at u
      | ub => rw [hu] at u; simp [Out.bind] at u
  · simp only [List.concat_eq_append] at *
    have ha : h.prev n = some a := by
      rw [hpred]
      have e : n :: s ++ (p' ++ [a]) = (n :: s ++ p') ++ [a] := by simp
      rw [e, List.getLast?_concat]
    obtain ⟨f, t, hft⟩ : ∃ f t, p' ++ [a] = f :: t := by
      cases p' with
      | nil => exact ⟨a, [], rfl⟩
      | cons x y => exact ⟨x, y ++ [a], rfl⟩
    have hpn : n ∉ p' ++ [a] := by
      intro hh; rw [List.nodup_append] at hnd; exact hnd.2.2 n hh n (by simp) rfl
    have han : a ≠ n := by intro e; apply hpn; simp [e]
    have hfn : f ≠ n := by intro e; apply hpn; rw [hft]; simp [e]
    have hf : hd.first = some f := by rw [hfst, hft]; rfl
    have c : ¬ (h.prev n = some n ∧ h.next n = some n) := by simp [ha, han]
    have c2 : ¬ (hd.first = some n) := by simp [hf, hfn]
    simp only [c, c2, if_false]
    -- successor
    obtain ⟨b, hb, hbmem⟩ : ∃ b, h.next n = some b ∧ (s ++ [f]).head? = some b := by
      cases s with
      | nil => exact ⟨f, by rw [hsucc, hft]; rfl, rfl⟩
      | cons b s => exact ⟨b, by rw [hsucc]; rfl, rfl⟩
    have u := unlink_eq ha hb han
    have hndp : (p' ++ [a]).Nodup := by rw [List.nodup_append] at hnd; exact hnd.1
    have hnds : (n :: s).Nodup := by rw [List.nodup_append] at hnd; exact hnd.2.1
    have hdisj : ∀ x, x ∈ p' ++ [a] → x ∉ n :: s := by
      intro x hx hy; rw [List.nodup_append] at hnd; exact hnd.2.2 x hx x hy rfl
    have hring : Linked (unlinked h a n b) (p' ++ [a] ++ s ++ (p' ++ [a] ++ s).head?.toList) := by
      have hh0 : (p' ++ [a] ++ s).head?.toList = [f] := by rw [hft]; rfl
      have hh1 : (p' ++ [a] ++ n :: s).head?.toList = [f] := by rw [hft]; rfl
      rw [hh0]; rw [hh1] at hl
      cases s with
      | nil =>
        simp at hbmem; subst hbmem
        have := linked_remove (h := h) (p := p') (a := a) (n := n) (b := f) (s := [])
          (by simpa using hl) (by simpa using hnd)
          (by simp; exact fun e => hfn e.symm) (by simp)
          (by rw [hft]; rw [hft] at hndp; simpa using (List.nodup_cons.1 hndp).1)
        simpa using this
      | cons b' s =>
        simp at hbmem; subst hbmem
        have hfs : f ∉ n :: b' :: s := hdisj f (by rw [hft]; simp)
        have := linked_remove (h := h) (p := p') (a := a) (n := n) (b := b') (s := s ++ [f])
          (by simpa using hl)
          (by
            have : p' ++ [a, n] = (p' ++ [a]) ++ [n] := by simp
            rw [this, List.nodup_append]
            exact ⟨hndp, by simp, by intro x hx y hy; simp at hy; subst hy; intro e; exact hpn (e ▸ hx)⟩)
          (by
            have : n :: b' :: (s ++ [f]) = (n :: b' :: s) ++ [f] := by simp
            rw [this, List.nodup_append]
            exact ⟨hnds, by simp, by intro x hx y hy; simp at hy; subst hy; intro e; exact hfs (e ▸ hx)⟩)
          (by
            have : (b' :: (s ++ [f])).dropLast = b' :: s := by
              have e : b' :: (s ++ [f]) = (b' :: s) ++ [f] := by simp
              rw [e, List.dropLast_concat]
            rw [this]
            intro hh; exact hdisj a (by simp) (List.mem_cons_of_mem _ hh))
          (by
            intro hh
            exact hdisj b' (List.mem_of_mem_tail hh) (by simp))
        simpa using this
    cases hu : unlink h n with
    | ok hh =>
      rw [hu] at u; simp [Out.bind] at u
      simp only [Out.bind, u]
      refine ⟨_, _, rfl, ⟨?_, ?_, ?_, hring⟩, ?_, ?_, ?_⟩
      · rw [List.nodup_append]
        exact ⟨hndp, (List.nodup_cons.1 hnds).2, by
          intro x hx y hy e; subst e; exact hdisj x hx (List.mem_cons_of_mem _ hy)⟩
      · have : (if hd.last = some n then { hd with last := h.prev n } else hd).first = hd.first := by
          split <;> rfl
        rw [this, hf, hft]; rfl
      · cases s with
        | nil =>
          have : hd.last = some n := by
            rw [hlst]; exact List.getLast?_concat
          simp [this, ha]
        | cons b' s =>
          have e1 : (p' ++ [a] ++ n :: b' :: s).getLast? = (b' :: s).getLast? := by
            rw [List.getLast?_append, List.getLast?_cons_cons]
            cases hx : (b' :: s).getLast? with
            | none => simp at hx
            | some v => simp
          have e2 : (p' ++ [a] ++ b' :: s).getLast? = (b' :: s).getLast? := by
            rw [List.getLast?_append]
            cases hx : (b' :: s).getLast? with
            | none => simp at hx
            | some v => simp
          have : ¬ hd.last = some n := by
            rw [hlst, e1]; intro hh
            have := List.mem_of_getLast? hh
            exact (List.nodup_cons.1 hnds).1 this
          simp only [this, if_false]
          rw [hlst, e1, e2]
      · simp [unlinked_next]
      · simp [unlinked_prev]
      · intro x hx
        have x1 : x ≠ n := by intro e; subst e; simp at hx
        have x2 : x ≠ a := by intro e; subst e; simp at hx
        have x3 : x ≠ b := by
          intro e; subst e; apply hx
          have := List.mem_of_mem_head? hbmem
          simp at this
          rcases this with h1 | h1
          · simp [h1]
          · have : f ∈ p' ++ [a] := by rw [hft]; simp
            subst h1; exact List.mem_append_left _ this
        simp [unlinked_next, unlinked_prev, x1, x2, x3]
    | err => rw [hu] at u; simp [Out.bind] at u
    | ub => rw [hu] at u; simp [Out.bind] at u

/-- In a ring both variants of the detach code do the same. -/
theorem detachTwoIfs_eq {h hd} {p : List Nat} {n : Nat} {s : List Nat}
    (r : IsRing h hd (p ++ n :: s)) : detachTwoIfs h hd n = detachElseIf h hd n := by
  unfold detachTwoIfs detachElseIf
  by_cases c : h.prev n = some n ∧ h.next n = some n
  · simp [c]
  · simp only [c, if_false]
    by_cases c1 : hd.first = some n
    · simp only [c1, if_true]
      by_cases c2 : hd.last = some n
      · -- first = last = n forces a singleton, contradiction
        exfalso; apply c
        have hf := r.first; have hl := r.last
        rw [c1] at hf; rw [c2] at hl
        have hp : p = [] := by
          cases p with
          | nil => rfl
          | cons x p =>
            simp at hf; subst hf
            have := r.nodup; simp at this
        subst hp
        have hs : s = [] := by
          cases s with
          | nil => rfl
          | cons x s =>
            have hh : (n :: x :: s).getLast? = (x :: s).getLast? := List.getLast?_cons_cons
            simp only [List.nil_append] at hl
            rw [hh] at hl
            have := List.mem_of_getLast? hl.symm
            have hnd := r.nodup
            exact absurd this (List.nodup_cons.1 hnd).1
        subst hs
        have h1 := ring_succ r; have h2 := ring_pred r
        simp at h1 h2
        exact ⟨h2, h1⟩
      · simp [c2]
    · simp [c1]

/-- Rings on disjoint node sets do not interfere: only links of outside nodes matter. -/
theorem IsRing.congr {h h' hd l} (r : IsRing h hd l)
    (he : ∀ x ∈ l, h'.next x = h.next x ∧ h'.prev x = h.prev x) : IsRing h' hd l := by
  refine ⟨r.nodup, r.first, r.last, linked_congr ?_ ?_ r.linked⟩
  · intro x hx
    apply (he x ?_).1
    cases l with
    | nil => simp at hx
    | cons f t =>
      simp only [List.head?_cons, Option.toList_some, List.dropLast_concat] at hx
      exact hx
  · intro x hx
    apply (he x ?_).2
    cases l with
    | nil => simp at hx
    | cons f t =>
      simp at hx
      rcases hx with h1 | h1 <;> simp [h1]

theorem linked_walk {h : Heap} {f : Nat} : ∀ (t : List Nat) (c : Nat) (fuel : Nat),
    Linked h (c :: t ++ [f]) → f ∉ t → t.length < fuel → walk h f fuel c = some (c :: t) := by
  intro t
  induction t with
  | nil =>
    intro c fuel hl _ hf
    obtain ⟨k, rfl⟩ : ∃ k, fuel = k + 1 := ⟨fuel - 1, by simp at hf; omega⟩
    simp [Linked] at hl
    simp [walk, hl.1]
  | cons b t ih =>
    intro c fuel hl hm hf
    obtain ⟨k, rfl⟩ : ∃ k, fuel = k + 1 := ⟨fuel - 1, by simp at hf; omega⟩
    simp [Linked] at hl
    simp at hm hf
    have := ih b k (by simpa using hl.2.2) hm.2 (by omega)
    have hbf : ¬ b = f := fun e => hm.1 e.symm
    simp [walk, hl.1, hbf, this]

/-- Walking a ring forwards from `first` enumerates its content once. -/
theorem IsRing.walk_eq {h hd} {f : Nat} {t : List Nat} (r : IsRing h hd (f :: t)) {fuel : Nat}
    (hf : t.length < fuel) : walk h f fuel f = some (f :: t) := by
  apply linked_walk t f fuel _ _ hf
  · simpa using r.linked
  · exact (List.nodup_cons.1 r.nodup).1

end Verif.Ring
