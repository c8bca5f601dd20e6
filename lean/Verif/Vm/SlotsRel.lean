import Verif.Vm.SlotsDrain
import Verif.Vm.SlotsSpec
/-
Helper lemmas: the relation between the memory of `Verif/Vm/Slots.lean` and the heap of `Verif/Vm/SlotsSpec.lean`, and the
elementary changes of the memory.
-/
namespace Verif.Slots
open Verif Verif.SlotsSpec

/-! ### Elementary changes -/

/-- `s2` is `s1` with a stack element more. -/
structure Ins (s1 s2 : S) (l : Loc) (v : Val) : Prop where
  nd : Nd s2
  get : ∀ l', s2.get l' = if l' = l then some v else s1.get l'
  cP : ∀ P, s2.mem.countP P = s1.mem.countP P + b2n (P (l, v))

theorem Ins.put_old {s : S} (hn : Nd s) {l : Loc} {v0 : Val} (hg : s.get l = some v0) (v : Val) :
    Ins (s.del l) (s.put l v) l v := by
  refine ⟨nd_put hn l v, ?_, ?_⟩
  · intro l'; rw [get_put, get_del]; split <;> rfl
  · intro P
    have h1 := cP_put (w := v) hn hg P
    have h2 := cP_del hn hg P
    omega

theorem Ins.put_new {s : S} (hn : Nd s) {l : Loc} (hg : s.get l = none) (v : Val) : Ins s (s.put l v) l v :=
  ⟨nd_put hn l v, get_put s l v, cP_new hg⟩

/-- The container of a location exists and is not being destroyed. -/
def Own (s : S) (w : List Work) : Loc → Prop
  | .var _ => True
  | .elem o _ => o ∈ s.live ∧ o ∉ killIds w

/-- A new stack element, without slot or with one that refers to nothing. -/
theorem J_ins {G : Nat → Prop} {τ τ' : Nat → Nat} {s1 s2 : S} {w : List Work} {l : Loc} {v : Val} (h : J G τ s1 w) (hi : Ins s1 s2 l v) (hg : s1.get l = none)
    (ho : Own s1 w l) (hv : ∀ k, v = .slot k → s1.slot k = some ⟨none, l⟩)
    (ht : ∀ o, v = .obj o → o ∈ s1.live) (hτ : ∀ q, τ q = τ' q + b2n (decide (tgt s1 v = some q)))
    (hl : s2.live = s1.live) (hob : s2.obj = s1.obj) (hsl : s2.slot = s1.slot) (hz : s2.zero = s1.zero)
    (hcy : s2.cyc = s1.cyc) (hO : s2.nextO = s1.nextO) (hS : s2.nextS = s1.nextS) : J G τ' s2 w := by
  have hold : ∀ {l' u}, s2.get l' = some u → (l' = l ∧ u = v) ∨ s1.get l' = some u := by
    intro l' u hu
    rw [hi.get] at hu
    split at hu
    · next e => cases hu; exact Or.inl ⟨e, rfl⟩
    · exact Or.inr hu
  have htg : ∀ u, tgt s2 u = tgt s1 u := by
    intro u; cases u <;> simp [tgt, hsl]
  have hcnt : ∀ q, cnt s2 q = cnt s1 q + b2n (decide (tgt s1 v = some q)) := by
    intro q
    simp only [cnt, htg]
    exact hi.cP _
  refine ⟨hi.nd, hl ▸ h.ln, hz ▸ h.zn, hcy ▸ h.cn, ?_, ?_, ?_, ?_, ?_, ?_, ?_, ?_, ?_, h.dyn, ?_, ?_, ?_, ?_⟩
  · intro o k u hu
    rw [hl]
    rcases hold hu with ⟨rfl, _⟩ | hu
    · exact ho.1
    · exact h.own hu
  · intro l' u o hu htu
    rw [hl]; rw [htg] at htu
    rcases hold hu with ⟨_, rfl⟩ | hu
    · cases u with
      | prim => cases htu
      | obj p => cases htu; exact ht o rfl
      | slot k => simp [tgt, hv k rfl] at htu
    · exact h.tgl hu htu
  · intro l' k hu
    rw [hsl]
    rcases hold hu with ⟨rfl, e⟩ | hu
    · exact ⟨none, hv k e.symm⟩
    · exact h.slt hu
  · intro k o l' hk
    rw [hsl] at hk
    obtain ⟨a, b, c⟩ := h.fwd hk
    refine ⟨hl ▸ a, by rw [hob]; exact b, ?_⟩
    rw [hi.get]
    split
    · next e => subst e; rw [hg] at c; cases c
    · exact c
  · intro o k ho' hk
    rw [hsl]; rw [hl] at ho'; rw [hob] at hk
    exact h.ref ho' hk
  · intro o ho'; rw [hl] at ho'; rw [hob]; exact h.rn ho'
  · intro o ho'
    rw [hl] at ho'
    rw [hob, hcnt]
    obtain ⟨e, h1, h2⟩ := h.ex ho'
    have h3 := hτ o
    exact ⟨e, by omega, h2⟩
  · intro o ho'; rw [hl]; exact h.unr ho'
  · intro o; rw [hz, hl, hob]; exact h.zer
  · intro o ls hk
    obtain ⟨a, b, c, d⟩ := h.dy hk
    refine ⟨hl ▸ a, by rw [hob]; exact b, c, fun l' => ?_⟩
    rw [d l', hi.get]
    split
    · next e =>
      subst e
      constructor
      · rintro ⟨x, _⟩; rw [hg] at x; cases x
      · rintro ⟨_, k, rfl⟩
        exact absurd (mem_killIds.2 ⟨ls, hk⟩) ho.2
    · rfl
  · intro o; rw [hcy, hl, hob]; exact h.cyc
  · intro o ho'; rw [hO]; exact h.bo (hl ▸ ho')
  · intro k sl hk; rw [hS]; rw [hsl] at hk; exact h.bs hk

/-- A slot that refers to `X` from now on, in a new stack element. -/
theorem J_assign {G : Nat → Prop} {τ τ' : Nat → Nat} {s0 s2 : S} {l : Loc} {k X : Nat} (h : J G τ s0 []) (hi : Ins s0 s2 l (.slot k)) (hg : s0.get l = none)
    (ho : Own s0 [] l) (hk0 : ∀ o l', s0.slot k ≠ some ⟨some o, l'⟩) (hkm : ∀ l', s0.get l' ≠ some (.slot k)) (hkS : k < s0.nextS) (hX : X ∈ s0.live)
    (hτ : ∀ q, τ q = τ' q + one X q)
    (hl : s2.live = s0.live) (hz : s2.zero = s0.zero) (hO : s2.nextO = s0.nextO) (hS : s2.nextS = s0.nextS)
    (hsh : ∀ q, (s2.obj q).shares = (s0.obj q).shares)
    (hr : ∀ q, (s2.obj q).refs = if q = X then (s0.obj X).refs ++ [k] else (s0.obj q).refs)
    (hsl : ∀ j, s2.slot j = if j = k then some ⟨some X, l⟩ else s0.slot j)
    (hcy : ∀ q, q ∈ s2.cyc ↔ q ∈ s0.cyc ∨ q = X) (hcn : s2.cyc.Nodup) : J G τ' s2 [] := by
  have hkr : ∀ {q}, q ∈ s0.live → k ∉ (s0.obj q).refs := by
    intro q hq hk
    obtain ⟨l', e⟩ := h.ref hq hk
    exact hk0 _ _ e
  have hold : ∀ {l' u}, s2.get l' = some u → (l' = l ∧ u = .slot k) ∨ (l' ≠ l ∧ s0.get l' = some u) := by
    intro l' u hu
    rw [hi.get] at hu
    split at hu
    · next e => cases hu; exact Or.inl ⟨e, rfl⟩
    · next e => exact Or.inr ⟨e, hu⟩
  have hslot : ∀ {l' j}, s0.get l' = some (.slot j) → s2.slot j = s0.slot j := by
    intro l' j hu
    rw [hsl, if_neg]
    rintro rfl
    exact hkm _ hu
  have htg : ∀ {l' u}, s0.get l' = some u → tgt s2 u = tgt s0 u := by
    intro l' u hu
    cases u with
    | prim => rfl
    | obj => rfl
    | slot j => simp only [tgt, hslot hu]
  have htk : tgt s2 (.slot k) = some X := by simp [tgt, hsl]
  have hcnt : ∀ q, cnt s2 q = cnt s0 q + b2n (decide (X = q)) := by
    intro q
    have e1 := hi.cP fun e => decide (tgt s2 e.2 = some q)
    have e2 : s0.mem.countP (fun e => decide (tgt s2 e.2 = some q)) = cnt s0 q := by
      apply cP_congr h.nd
      intro l' u hu
      simp only [htg hu]
    simp only [htk, Option.some.injEq] at e1
    rw [e2] at e1
    exact e1
  refine ⟨hi.nd, hl ▸ h.ln, hz ▸ h.zn, hcn, ?_, ?_, ?_, ?_, ?_, ?_, ?_, ?_, ?_, h.dyn, ?_, ?_, ?_, ?_⟩
  · intro o j u hu
    rw [hl]
    rcases hold hu with ⟨rfl, _⟩ | ⟨_, hu⟩
    · exact ho.1
    · exact h.own hu
  · intro l' u o hu htu
    rw [hl]
    rcases hold hu with ⟨_, rfl⟩ | ⟨_, hu⟩
    · rw [htk] at htu; cases htu; exact hX
    · rw [htg hu] at htu; exact h.tgl hu htu
  · intro l' j hu
    rcases hold hu with ⟨rfl, e⟩ | ⟨_, hu⟩
    · cases e; exact ⟨some X, by rw [hsl, if_pos rfl]⟩
    · rw [hslot hu]; exact h.slt hu
  · intro j o l' hj
    rw [hsl] at hj
    rw [hl, hr, hi.get]
    by_cases hjk : j = k
    · subst hjk
      rw [if_pos rfl] at hj
      cases hj
      exact ⟨hX, by simp, by simp⟩
    · rw [if_neg hjk] at hj
      obtain ⟨a, b, c⟩ := h.fwd hj
      refine ⟨a, ?_, ?_⟩
      · split
        · next e => subst e; exact List.mem_append_left _ b
        · exact b
      · split
        · next e => subst e; rw [hg] at c; cases c
        · exact c
  · intro o j ho' hj
    rw [hl] at ho'
    rw [hr] at hj
    rw [hsl]
    by_cases hjk : j = k
    · subst hjk
      rw [if_pos rfl]
      split at hj
      · next e => subst e; exact ⟨l, rfl⟩
      · exact absurd hj (hkr ho')
    · rw [if_neg hjk]
      split at hj
      · next e =>
        subst e
        rcases List.mem_append.1 hj with hj | hj
        · exact h.ref ho' hj
        · exact absurd (List.mem_singleton.1 hj) hjk
      · exact h.ref ho' hj
  · intro o ho'
    rw [hl] at ho'
    rw [hr]
    split
    · next e =>
      subst e
      refine List.nodup_append.2 ⟨h.rn ho', by simp, ?_⟩
      intro a ha b hb e
      rw [List.mem_singleton] at hb
      subst hb; subst e
      exact hkr ho' ha
    · exact h.rn ho'
  · intro o ho'
    rw [hl] at ho'
    rw [hsh, hcnt]
    obtain ⟨e, h1, h2⟩ := h.ex ho'
    have h3 := hτ o
    have h4 : b2n (decide (X = o)) = one X o := by
      by_cases hto : X = o
      · simp [hto, b2n, one]
      · simp [hto, Ne.symm hto, b2n, one]
    exact ⟨e, by omega, h2⟩
  · intro o ho'; cases ho'
  · intro o; rw [hz, hl, hsh]; exact h.zer
  · intro o ls hk; cases hk
  · intro o
    rw [hcy, hl, hr, h.cyc]
    by_cases hoX : o = X
    · subst hoX; simp [hX]
    · simp [hoX]
  · intro o ho'; rw [hO]; exact h.bo (hl ▸ ho')
  · intro j sl hj
    rw [hS]; rw [hsl] at hj
    split at hj
    · next e => subst e; exact hkS
    · exact h.bs hj

/-- A slot that no stack element holds and that refers to nothing changes. -/
theorem J_slot {G : Nat → Prop} {τ : Nat → Nat} {s s2 : S} {w : List Work} {k : Nat} (h : J G τ s w) (hm : s2.mem = s.mem) (hl : s2.live = s.live)
    (hob : s2.obj = s.obj) (hz : s2.zero = s.zero) (hcy : s2.cyc = s.cyc) (hO : s2.nextO = s.nextO) (hS : s.nextS ≤ s2.nextS)
    (hk : ∀ l, s.get l ≠ some (.slot k)) (hk0 : ∀ o l, s.slot k ≠ some ⟨some o, l⟩) (hk2 : ∀ o l, s2.slot k ≠ some ⟨some o, l⟩)
    (hkS : k < s2.nextS) (hsl : ∀ j, j ≠ k → s2.slot j = s.slot j) : J G τ s2 w := by
  have hg : ∀ l, s2.get l = s.get l := fun l => by simp only [S.get, hm]
  have hslot : ∀ {l' j}, s.get l' = some (.slot j) → s2.slot j = s.slot j := by
    intro l' j hu
    apply hsl
    rintro rfl
    exact hk _ hu
  have htg : ∀ {l' u}, s.get l' = some u → tgt s2 u = tgt s u := by
    intro l' u hu
    cases u with
    | prim => rfl
    | obj => rfl
    | slot j => simp only [tgt, hslot hu]
  have hcnt : ∀ q, cnt s2 q = cnt s q := by
    intro q
    unfold cnt
    rw [hm]
    apply cP_congr h.nd
    intro l' u hu
    simp only [htg hu]
  refine ⟨by unfold Nd; rw [hm]; exact h.nd, hl ▸ h.ln, hz ▸ h.zn, hcy ▸ h.cn, ?_, ?_, ?_, ?_, ?_, ?_, ?_, ?_, ?_, h.dyn, ?_, ?_, ?_, ?_⟩
  · intro o j u hu; rw [hg] at hu; rw [hl]; exact h.own hu
  · intro l u o hu htu; rw [hg] at hu; rw [hl]; rw [htg hu] at htu; exact h.tgl hu htu
  · intro l j hu; rw [hg] at hu; rw [hslot hu]; exact h.slt hu
  · intro j o l hj
    have hjk : j ≠ k := by rintro rfl; exact hk2 _ _ hj
    rw [hsl j hjk] at hj
    rw [hl, hob, hg]; exact h.fwd hj
  · intro o j ho hj
    rw [hl] at ho; rw [hob] at hj
    obtain ⟨l, e⟩ := h.ref ho hj
    have hjk : j ≠ k := by rintro rfl; exact hk0 _ _ e
    exact ⟨l, by rw [hsl j hjk]; exact e⟩
  · intro o ho; rw [hl] at ho; rw [hob]; exact h.rn ho
  · intro o ho; rw [hl] at ho; rw [hob, hcnt]; exact h.ex ho
  · intro o ho; rw [hl]; exact h.unr ho
  · intro o; rw [hz, hl, hob]; exact h.zer
  · intro o ls hq
    obtain ⟨a, b, c, d⟩ := h.dy hq
    exact ⟨hl ▸ a, by rw [hob]; exact b, c, fun l' => by rw [hg]; exact d l'⟩
  · intro o; rw [hcy, hl, hob]; exact h.cyc
  · intro o ho; rw [hO]; exact h.bo (hl ▸ ho)
  · intro j sl hj
    by_cases hjk : j = k
    · subst hjk; exact hkS
    · rw [hsl j hjk] at hj; exact Nat.lt_of_lt_of_le (h.bs hj) hS

/-- `s.del l` where `l` holds no slot. -/
theorem J_del {G : Nat → Prop} {τ : Nat → Nat} {s : S} {l : Loc} {v : Val} (h : J G τ s []) (hg : s.get l = some v)
    (hv : ∀ k, v ≠ .slot k) : J G (fun q => τ q + b2n (decide (tgt s v = some q))) (s.del l) [] := by
  refine J_core (W0 := []) (W1 := []) (w := []) h hg rfl rfl rfl rfl rfl (fun _ => rfl) (fun _ _ => rfl)
    (fun k e => absurd e (hv k)) ?_ (fun q hq => h.rn hq) (fun q => h.cyc) h.cn (by simp) rfl
    (fun q => Or.inl (by simp; omega)) (fun _ => rfl) rfl
    (fun _ _ e => by cases e)
  intro q j _
  exact ⟨fun hj => ⟨hj, hv j⟩, fun hj => hj.1⟩

theorem cnt_del {s : S} {l : Loc} {v : Val} (h : Nd s) (hg : s.get l = some v) (q : Nat) :
    cnt s q = cnt (s.del l) q + b2n (decide (tgt s v = some q)) := by
  have := cP_del h hg fun e => decide (tgt s e.2 = some q)
  exact this

/-! ### Shares -/

/-- The effect of `share`. -/
def sh (s : S) (o : Nat) : S :=
  { s.setObj o { s.obj o with shares := (s.obj o).shares + 1 } with
    zero := if (s.obj o).shares = 0 then s.zero.erase o else s.zero }

theorem share_eq {s : S} {o : Nat} (ho : o ∈ s.live) (hz : (s.obj o).shares = 0 → o ∈ s.zero) : share s o = .ok (sh s o) := by
  by_cases h0 : (s.obj o).shares = 0
  · have := hz h0
    simp only [share, ho, not_true_eq_false, if_false, h0, if_true, sh, this]
    rfl
  · simp only [share, ho, not_true_eq_false, if_false, h0, sh]
    rfl

theorem J.share {G : Nat → Prop} {τ : Nat → Nat} {s : S} (h : J G τ s []) {o : Nat} (ho : o ∈ s.live) : Slots.share s o = .ok (sh s o) :=
  share_eq ho fun h0 => h.zer.2 ⟨ho, h0, by simp [killIds]⟩

theorem J.sh {G : Nat → Prop} {τ : Nat → Nat} {s : S} (h : J G τ s []) {o : Nat} (ho : o ∈ s.live) :
    J G (fun q => τ q + one o q) (sh s o) [] := by
  refine J_shares h o _ ?_ (fun e => by cases e) ?_ ?_ h.dyn (fun e => by cases e)
  · intro q hq
    obtain ⟨e, h1, h2⟩ := h.ex hq
    refine ⟨e, ?_, h2⟩
    split
    · next e => subst e; simp only [one, if_true]; omega
    · next e => simp only [one, if_neg e]; omega
  · split
    · exact h.zn.erase o
    · exact h.zn
  · intro q
    have e0 := @J.zer _ _ _ _ h q
    by_cases h0 : (s.obj o).shares = 0
    · rw [if_pos h0, h.zn.mem_erase_iff, e0]
      by_cases hq : q = o
      · simp [hq]
      · simp [hq]
    · rw [if_neg h0, e0]
      by_cases hq : q = o
      · subst hq; simp [h0]
      · simp [hq]

theorem sh_cnt (s : S) (o q : Nat) : cnt (sh s o) q = cnt s q := rfl

theorem sh_shares (s : S) (o q : Nat) : ((sh s o).obj q).shares = (s.obj q).shares + if q = o then 1 else 0 := by
  show ((s.setObj o _).obj q).shares = _
  rw [setObj_shares]
  split
  · next e => rw [e]
  · rfl

theorem sh_refs (s : S) (o q : Nat) : ((sh s o).obj q).refs = (s.obj q).refs := setObj_refs s o _ q

/-- The effect of `unrefBlock`. -/
def ub (s : S) (o : Nat) : S :=
  { s.setObj o { s.obj o with shares := (s.obj o).shares - 1 } with
    zero := if (s.obj o).shares = 1 then s.zero ++ [o] else s.zero }

theorem J.unrefBlock {G : Nat → Prop} {τ τ' : Nat → Nat} {s : S} (h : J G τ s []) {o : Nat} (ho : o ∈ s.live)
    (hτ : ∀ q, τ q = τ' q + one o q) : unrefBlock s o = .ok (ub s o) ∧ J G τ' (ub s o) [] := by
  have h0 : (s.obj o).shares ≠ 0 := by
    obtain ⟨e, h1, _⟩ := h.ex ho
    have h3 := hτ o
    simp only [one, if_true] at h3
    omega
  constructor
  · by_cases h1 : (s.obj o).shares = 1
    · simp only [Slots.unrefBlock, ho, not_true_eq_false, if_false, h0, h1, if_true, ub]; rfl
    · simp only [Slots.unrefBlock, ho, not_true_eq_false, if_false, h0, h1, ub]; rfl
  · have hoz : o ∉ s.zero := fun e => h0 (h.zer.1 e).2.1
    refine J_shares h o _ ?_ (fun e => by cases e) ?_ ?_ h.dyn (fun e => by cases e)
    · intro q hq
      obtain ⟨e, h1, h2⟩ := h.ex hq
      have h3 := hτ q
      refine ⟨e, ?_, h2⟩
      split
      · next e => subst e; simp only [one, if_true] at h3; omega
      · next e => simp only [one, if_neg e] at h3; omega
    · split
      · refine List.nodup_append.2 ⟨h.zn, by simp, ?_⟩
        intro a ha b hb e
        rw [List.mem_singleton] at hb
        subst hb; subst e
        exact hoz ha
      · exact h.zn
    · intro q
      have e0 := @J.zer _ _ _ _ h q
      by_cases hq : q = o
      · subst hq
        simp only [if_true]
        by_cases h1 : (s.obj q).shares = 1
        · simp [h1, ho, killIds]
        · have : (s.obj q).shares - 1 ≠ 0 := by omega
          simp [h1, hoz, this]
      · split
        · simp [hq, e0]
        · simp [hq, e0]

/-! ### The relation -/

/-- What a script sees of the contents of a stack element. -/
def av (s : S) : Val → AVal
  | .prim n => .prim n
  | v => match tgt s v with
    | some o => .ref o
    | none => .prim 0

/-- The heap as a script sees it is the memory, as far as objects are left. -/
structure Rl (s : S) (A : Heap) : Prop where
  var : ∀ x, ((s.get (.var x)).map (av s)).getD (.prim 0) = A.var x
  elem : ∀ {o} k, o ∈ s.live → (s.get (.elem o k)).map (av s) = A.elem o k
  nx : s.nextO = A.next
  vs : ∀ x k, s.get (.var x) ≠ some (.slot k)
  fr : ∀ {o} k, A.next ≤ o → A.elem o k = none

/-- No stack element holds a slot that refers to nothing. -/
def Act (s : S) : Prop := ∀ l k, s.get l = some (.slot k) → (s.slot k).bind (·.src) ≠ none

def _root_.Verif.SlotsSpec.Heap.write (A : Heap) (l : Loc) (a : AVal) : Heap :=
  match l with
  | .var x => A.setVar x a
  | .elem o k => A.setElem o k (some a)

theorem av_congr {s s' : S} {v : Val} (h : tgt s' v = tgt s v) : av s' v = av s v := by
  cases v with
  | prim => rfl
  | obj => rfl
  | slot k => simp only [av, h]

theorem tgt_slot {s s' : S} {v : Val} (h : ∀ k, v = .slot k → s'.slot k = s.slot k) : tgt s' v = tgt s v := by
  cases v with
  | prim => rfl
  | obj => rfl
  | slot k => simp only [tgt, h k rfl]

theorem Fr.get_back {G : Nat → Prop} {τ : Nat → Nat} {s s' : S} (f : Fr s s') (j : J G τ s' []) {l : Loc} {v : Val} (h : s'.get l = some v) : s.get l = some v := by
  cases l with
  | var x => rw [← f.var]; exact h
  | elem o k => rw [← f.elem k (j.own h)]; exact h

theorem Rl.frame {G : Nat → Prop} {τ : Nat → Nat} {s s' : S} {A : Heap} (r : Rl s A) (f : Fr s s') (_ : J G τ s' []) : Rl s' A := by
  have hav : ∀ {l v}, s'.get l = some v → av s' v = av s v := by
    intro l v hv
    apply av_congr
    apply tgt_slot
    rintro k rfl
    exact f.slot hv
  have hmap : ∀ l, (s'.get l).map (av s') = (s'.get l).map (av s) := by
    intro l
    cases h : s'.get l with
    | none => rfl
    | some v => simp [hav h]
  refine ⟨?_, ?_, f.nextO.trans r.nx, ?_, r.fr⟩
  · intro x; rw [hmap, f.var]; exact r.var x
  · intro o k ho; rw [hmap, f.elem k ho]; exact r.elem k (f.live ho)
  · intro x k; rw [f.var]; exact r.vs x k

theorem Act.frame {G : Nat → Prop} {τ : Nat → Nat} {s s' : S} (a : Act s) (f : Fr s s') (j : J G τ s' []) : Act s' := by
  intro l k h
  rw [f.slot h]
  exact a l k (f.get_back j h)

/-- Only objects of `G` are held by their own elements without slot. -/
def Sf (G : Nat → Prop) (s : S) : Prop := ∀ o k, s.get (.elem o k) = some (.obj o) → G o

theorem Sf.frame {G : Nat → Prop} {τ : Nat → Nat} {s s' : S} (a : Sf G s) (f : Fr s s') (j : J G τ s' []) : Sf G s' :=
  fun o k h => a o k (f.get_back j h)

theorem Sf.write {G : Nat → Prop} {s s2 : S} (a : Sf G s) {l : Loc} {v : Val}
    (hget : ∀ l', s2.get l' = if l' = l then some v else s.get l') (hv : ∀ o k, l = .elem o k → v = .obj o → G o) : Sf G s2 := by
  intro o k h
  rw [hget] at h
  split at h
  · next e => cases h; exact hv o k e.symm rfl
  · exact a o k h

/-- One stack element is written. -/
theorem Rl.write {s s2 : S} {A : Heap} (r : Rl s A) {l : Loc} {v : Val} (hl : s2.live = s.live) (hO : s2.nextO = s.nextO)
    (hget : ∀ l', s2.get l' = if l' = l then some v else s.get l')
    (hsl : ∀ {l' k}, l' ≠ l → s.get l' = some (.slot k) → s2.slot k = s.slot k)
    (hv : ∀ x k, l = .var x → v ≠ .slot k) (hb : ∀ o k, l = .elem o k → o < s.nextO) :
    Rl s2 (A.write l (av s2 v)) := by
  have hmap : ∀ l', l' ≠ l → (s2.get l').map (av s2) = (s.get l').map (av s) := by
    intro l' hne
    rw [hget, if_neg hne]
    cases h : s.get l' with
    | none => rfl
    | some u =>
      simp only [Option.map_some, Option.some.injEq]
      apply av_congr
      apply tgt_slot
      rintro k rfl
      exact hsl hne h
  refine ⟨?_, ?_, ?_, ?_, ?_⟩
  · intro x
    by_cases hx : Loc.var x = l
    · subst hx
      rw [hget, if_pos rfl]
      simp [Heap.write, Heap.setVar]
    · rw [hmap _ hx, r.var]
      cases l with
      | var y =>
        have : x ≠ y := fun e => hx (by rw [e])
        simp [Heap.write, Heap.setVar, this]
      | elem p j => rfl
  · intro o k ho
    by_cases hx : Loc.elem o k = l
    · subst hx
      rw [hget, if_pos rfl]
      simp [Heap.write, Heap.setElem]
    · rw [hmap _ hx, r.elem k (hl ▸ ho)]
      cases l with
      | var y => rfl
      | elem p j =>
        have : ¬ (o = p ∧ k = j) := fun e => hx (by rw [e.1, e.2])
        simp [Heap.write, Heap.setElem, this]
  · rw [hO, r.nx]; cases l <;> rfl
  · intro x k
    rw [hget]
    split
    · next e => intro h; cases h; exact hv x k e.symm rfl
    · exact r.vs x k
  · intro o k ho
    cases l with
    | var y => exact r.fr k ho
    | elem p j =>
      have hp := hb p j rfl
      have ho' : A.next ≤ o := ho
      have hne : o ≠ p := by rw [r.nx] at hp; omega
      show (if o = p ∧ k = j then _ else A.elem o k) = none
      rw [if_neg (fun e => hne e.1)]
      exact r.fr k ho'

/-- Only shares and lists change. -/
theorem Rl.same {s s2 : S} {A : Heap} (r : Rl s A) (hm : s2.mem = s.mem) (hl : s2.live = s.live) (hsl : s2.slot = s.slot)
    (hO : s2.nextO = s.nextO) : Rl s2 A := by
  have hg : ∀ l, s2.get l = s.get l := fun l => by simp only [S.get, hm]
  have ha : av s2 = av s := by
    funext v
    exact av_congr (tgt_slot fun k _ => by rw [hsl])
  refine ⟨?_, ?_, hO.trans r.nx, ?_, r.fr⟩
  · intro x; rw [hg, ha]; exact r.var x
  · intro o k ho; rw [hg, ha]; exact r.elem k (hl ▸ ho)
  · intro x k; rw [hg]; exact r.vs x k

/-- What a variable leads to exists. -/
theorem Rl.reach_live {G : Nat → Prop} {τ : Nat → Nat} {s : S} {A : Heap} {w : List Work} (r : Rl s A) (j : J G τ s w) {av0 : Nat → Nat → Prop} {o : Nat}
    (h : A.Reach av0 o) : o ∈ s.live := by
  have href : ∀ {v p}, av s v = .ref p → tgt s v = some p := by
    intro v p hv
    cases v with
    | prim => cases hv
    | obj => simp only [av, tgt] at hv ⊢; cases hv; rfl
    | slot k =>
      simp only [av] at hv
      split at hv
      · next e => cases hv; exact e
      · cases hv
  induction h with
  | @var x o hx =>
    have := r.var x
    rw [hx] at this
    cases hg : s.get (.var x) with
    | none => rw [hg] at this; cases this
    | some v =>
      rw [hg] at this
      exact j.tgl hg (href this)
  | @elem p k o _ _ he ih =>
    have := r.elem k ih
    rw [he] at this
    cases hg : s.get (.elem p k) with
    | none => rw [hg] at this; cases this
    | some v =>
      rw [hg] at this
      exact j.tgl hg (href (Option.some.inj this))

end Verif.Slots
