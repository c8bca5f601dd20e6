import Verif.Compiler.StmtRegions
/-
Lemmas for C29: the jumps in the code of any accepted statement stay inside it.
-/
namespace Verif.Comp
open Verif Verif.Vm

/-- Offset of a jump. -/
def offs : SI → Option Int
  | .ext (.jeCase off) => some off
  | .ext (.jmpCase off) => some off
  | i => i.off?

/-- Jumps go at most to the end and not before the start. -/
def Loc (c : List SI) : Prop := ∀ (i : Nat) (x : SI) (off : Int), c[i]? = some x → offs x = some off → 0 ≤ (i : Int) + off ∧ (i : Int) + off ≤ c.length

theorem loc_nil : Loc [] := by intro i x off h; simp at h

theorem loc_append {a b : List SI} (ha : Loc a) (hb : Loc b) : Loc (a ++ b) := by
  intro i x off h ho
  rw [List.length_append]
  rcases Nat.lt_or_ge i a.length with hi | hi
  · rw [List.getElem?_append_left hi] at h
    have := ha i x off h ho
    omega
  · rw [List.getElem?_append_right hi] at h
    have := hb (i - a.length) x off h ho
    omega

/-- A jump between two pieces of code. -/
theorem loc_mid {a b : List SI} {x : SI} (ha : Loc a) (hb : Loc b)
    (hx : ∀ off, offs x = some off → 0 ≤ (a.length : Int) + off ∧ off ≤ (b.length : Int) + 1) : Loc (a ++ x :: b) := by
  intro i y off h ho
  rw [List.length_append, List.length_cons]
  rcases Nat.lt_or_ge i a.length with hi | hi
  · rw [List.getElem?_append_left hi] at h
    have := ha i y off h ho
    omega
  · rw [List.getElem?_append_right hi] at h
    rcases Nat.eq_zero_or_pos (i - a.length) with h0 | h0
    · rw [h0] at h
      simp at h
      subst h
      have := hx off ho
      omega
    · obtain ⟨j, hj⟩ := Nat.exists_eq_add_of_lt h0
      rw [show i - a.length = j + 1 by omega] at h
      have := hb j y off (by simpa using h) ho
      omega

theorem loc_one {x : SI} (h : offs x = none) : Loc [x] :=
  loc_mid (a := []) (b := []) loc_nil loc_nil fun off ho => by rw [h] at ho; cases ho

theorem loc_plain {c : List SI} (h : Plain c) : Loc c := by
  intro i x off hx ho
  have hp := h.plain x (List.mem_of_getElem? hx)
  have : x.off? = some off := by
    cases x with
    | ext y => cases y <;> first | exact ho | cases hp
    | _ => exact ho
  have := inR_get c h.inR i x off hx this
  omega

theorem loc_resolve {b c : Option Nat} {code : List SI} (h : Loc code) (hb : ∀ t, b = some t → t ≤ code.length) (hc : ∀ t, c = some t → t ≤ code.length) :
    Loc (resolve b c code) := by
  intro i x off hx ho
  rw [resolve_length]
  have hi : i < code.length := by
    have := (List.getElem?_eq_some_iff.mp hx).1
    rwa [resolve_length] at this
  unfold resolve at hx
  rw [List.getElem?_mapIdx, List.getElem?_eq_getElem hi] at hx
  simp only [Option.map_some, Option.some.injEq] at hx
  have hg := h i code[i] off (List.getElem?_eq_getElem hi)
  generalize code[i] = y at hx hg
  subst hx
  unfold resolveAt at ho
  split at ho
  · split at ho
    · rename_i t
      have := hb t rfl
      simp only [offs, Ins.off?, Option.some.injEq] at ho
      omega
    · cases ho
  · split at ho
    · rename_i t
      have := hc t rfl
      simp only [offs, Ins.off?, Option.some.injEq] at ho
      omega
    · cases ho
  · exact hg ho

theorem loc_scope {k : Nat} {vars : Bool} {c : List SI} (h : Loc c) : Loc (inScope k vars c) := by
  unfold inScope
  split
  · rw [List.cons_append]
    exact loc_append (a := [_]) (loc_one rfl) (loc_append h (loc_one rfl))
  · exact h

theorem loc_loop {pre hd body tail : List SI} {k : Nat} (hp : Loc pre) (hb : Loc body) (ht : Loc tail) 
    (hh : ∀ (i : Nat) (x : SI) (off : Int), hd[i]? = some x → offs x = some off → 0 ≤ (i : Int) + off ∧ (i : Int) + off ≤ (hd.length + body.length + tail.length + 4 : Nat)) :
    Loc (loopCode pre hd k body tail) := by
  unfold loopCode
  refine loc_resolve ?_ ?_ ?_
  · have e : ∀ j : SI, pre ++ hd ++ [.ext (.push k)] ++ body ++ [.ext .pop] ++ tail ++ [j, .ext .pop]
        = pre ++ (hd ++ ([.ext (.push k)] ++ body ++ [.ext .pop] ++ tail ++ [j, .ext .pop])) := by intro j; simp
    rw [e]
    intro i x off hx ho
    simp only [List.length_append, List.length_cons, List.length_nil]
    rcases Nat.lt_or_ge i pre.length with hi | hi
    · rw [List.getElem?_append_left hi] at hx
      have := hp i x off hx ho
      omega
    · rw [List.getElem?_append_right hi] at hx
      rcases Nat.lt_or_ge (i - pre.length) hd.length with hi2 | hi2
      · rw [List.getElem?_append_left hi2] at hx
        have := hh _ x off hx ho
        omega
      · rw [List.getElem?_append_right hi2] at hx
        have hL : Loc ([.ext (.push k)] ++ body ++ [.ext .pop] ++ tail) :=
          loc_append (loc_append (loc_append (loc_one rfl) hb) (loc_one rfl)) ht
        rcases Nat.lt_or_ge (i - pre.length - hd.length) ([(.ext (.push k) : SI)] ++ body ++ [(.ext .pop : SI)] ++ tail).length with hi3 | hi3
        · rw [List.getElem?_append_left hi3] at hx
          have := hL _ x off hx ho
          simp only [List.length_append, List.length_cons, List.length_nil] at this
          omega
        · rw [List.getElem?_append_right hi3] at hx
          generalize hn : i - pre.length - hd.length - ([(.ext (.push k) : SI)] ++ body ++ [(.ext .pop : SI)] ++ tail).length = n at hx
          simp only [List.length_append, List.length_cons, List.length_nil] at hn hi3
          match n, hx with
          | 0, hx =>
            simp at hx
            subst hx
            simp only [offs, Ins.off?, Option.some.injEq] at ho
            omega
          | 1, hx => simp at hx; subst hx; cases ho
          | n + 2, hx => simp at hx
  · intro t ht; cases ht; simp only [List.length_append, List.length_cons, List.length_nil]; omega
  · intro t ht; cases ht; simp only [List.length_append, List.length_cons, List.length_nil]; omega

theorem loc_cases {size : Nat} : (i : Nat) → (tab : List (Option Lab × Nat)) → ∀ (j : Nat) (x : SI) (off : Int), (caseCode size i tab)[j]? = some x → offs x = some off →
    ∃ l o, (l, o) ∈ tab ∧ ((j : Int) + i) + off = size + 1 + o
  | i, [], j, x, off, h, _ => by simp [caseCode] at h
  | i, (none, o) :: rest, j, x, off, h, ho => by
    simp only [caseCode] at h
    obtain ⟨l, o, hm, e⟩ := loc_cases i rest j x off h ho
    exact ⟨l, o, List.mem_cons_of_mem _ hm, e⟩
  | i, (some l, o) :: rest, 0, x, off, h, ho => by
    simp [caseCode] at h
    subst h
    cases l <;> cases ho
  | i, (some l, o) :: rest, 1, x, off, h, ho => by
    simp [caseCode] at h
    subst h
    simp only [offs, Option.some.injEq] at ho
    exact ⟨some l, o, by simp, by omega⟩
  | i, (some l, o) :: rest, j + 2, x, off, h, ho => by
    simp only [caseCode, List.getElem?_cons_succ] at h
    obtain ⟨l, o, hm, e⟩ := loc_cases (i + 2) rest j x off h ho
    exact ⟨l, o, List.mem_cons_of_mem _ hm, by omega⟩

/-- The condition of a loop and the jump behind it. -/
theorem head_ok {fold : BOp → Const → Const → Option Const} {c : Sub} {cc : List SI} {off0 : Int} {n : Nat} (hc : compSub fold c [] = some cc)
    (hn : (cc.length : Int) + off0 ≤ n ∧ 0 ≤ off0 ∧ cc.length ≤ n) : ∀ (i : Nat) (x : SI) (off : Int), (cc ++ [(.jnt off0 : SI)])[i]? = some x → offs x = some off →
    0 ≤ (i : Int) + off ∧ (i : Int) + off ≤ n := by
  intro i x off hx ho
  have hp := loc_plain (plain_sub hc).1
  rcases Nat.lt_or_ge i cc.length with hi | hi
  · rw [List.getElem?_append_left hi] at hx
    have := hp i x off hx ho
    omega
  · rw [List.getElem?_append_right hi] at hx
    generalize hk : i - cc.length = k at hx
    match k, hx with
    | 0, hx =>
      simp at hx
      subst hx
      simp only [offs, Ins.off?, Option.some.injEq] at ho
      omega
    | k + 1, hx => simp at hx

section
variable {fold : BOp → Const → Const → Option Const} {call : Nat → Bool}

mutual
theorem loc_stm : (b : Stm) → (lvl : Nat) → (inL inS : Bool) → (c : List SI) → compStm fold call lvl inL inS b = some c → Loc c
  | .nil, lvl, inL, inS, c, h => by cases h; exact loc_nil
  | .seq a b, lvl, inL, inS, c, h => by
    simp only [compStm, Option.bind_eq_some_iff, Option.map_eq_some_iff] at h
    obtain ⟨ca, ha, cb, hb, rfl⟩ := h
    exact loc_append (loc_stm a lvl inL inS ca ha) (loc_stm b lvl inL inS cb hb)
  | .acts each l, lvl, inL, inS, c, h => by
    simp only [compStm] at h
    exact loc_plain (plain_acts l c h)
  | .block k vars b, lvl, inL, inS, c, h => by
    simp only [compStm] at h
    split at h
    · cases h
    · simp only [Option.map_eq_some_iff] at h
      obtain ⟨cb, hb, rfl⟩ := h
      exact loc_scope (loc_stm b _ inL inS cb hb)
  | .if1 cnd a, lvl, inL, inS, c, h => by
    simp only [compStm, Option.bind_eq_some_iff, Option.map_eq_some_iff] at h
    obtain ⟨cc, hc, ca, ha, rfl⟩ := h
    rw [List.append_assoc, List.singleton_append]
    refine loc_mid (loc_plain (plain_sub hc).1) (loc_stm a lvl inL inS ca ha) fun off ho => ?_
    cases ho; exact ⟨by omega, by omega⟩
  | .if2 cnd a b, lvl, inL, inS, c, h => by
    simp only [compStm, Option.bind_eq_some_iff, Option.map_eq_some_iff] at h
    obtain ⟨cc, hc, ca, ha, cb, hb, rfl⟩ := h
    have e : cc ++ [(.jnt ((ca.length : Int) + 2) : SI)] ++ ca ++ [.jmp ((cb.length : Int) + 1)] ++ cb
        = cc ++ (.jnt ((ca.length : Int) + 2) : SI) :: (ca ++ .jmp ((cb.length : Int) + 1) :: cb) := by simp
    rw [e]
    refine loc_mid (loc_plain (plain_sub hc).1) (loc_mid (loc_stm a lvl inL inS ca ha) (loc_stm b lvl inL inS cb hb) fun off ho => ?_) fun off ho => ?_
    · cases ho; exact ⟨by omega, by omega⟩
    · cases ho; simp only [List.length_append, List.length_cons]; exact ⟨by omega, by omega⟩
  | .while cnd k b, lvl, inL, inS, c, h => by
    simp only [compStm] at h
    split at h
    · cases h
    · simp only [Option.bind_eq_some_iff, Option.map_eq_some_iff] at h
      obtain ⟨cc, hc, cb, hb, rfl⟩ := h
      exact loc_loop loc_nil (loc_stm b _ true inS cb hb) loc_nil (head_ok hc (by simp only [List.length_append, List.length_cons, List.length_nil]; omega))
  | .doWhile k b cnd, lvl, inL, inS, c, h => by
    simp only [compStm] at h
    split at h
    · cases h
    · simp only [Option.bind_eq_some_iff, Option.map_eq_some_iff] at h
      obtain ⟨cb, hb, cc, hc, rfl⟩ := h
      refine loc_resolve ?_ ?_ ?_
      · have e : ∀ j : SI, [(.ext (.push k) : SI)] ++ cb ++ [.ext .pop] ++ cc ++ [j, .jmp 2, .ext .pop]
            = ([(.ext (.push k) : SI)] ++ cb ++ [.ext .pop] ++ cc) ++ j :: ([] ++ .jmp 2 :: [.ext .pop]) := by intro j; simp
        rw [e]
        refine loc_mid (loc_append (loc_append (loc_append (loc_one rfl) (loc_stm b _ true inS cb hb)) (loc_one rfl)) (loc_plain (plain_sub hc).1))
          (loc_mid loc_nil (loc_one rfl) ?_) ?_
        · intro off ho; cases ho; simp
        · intro off ho; cases ho; simp only [List.length_append, List.length_cons, List.length_nil]; omega
      · intro t ht; cases ht; simp only [List.length_append, List.length_cons, List.length_nil]; omega
      · intro t ht; cases ht; simp only [List.length_append, List.length_cons, List.length_nil]; omega
  | .for ki vars each init cond post k b, lvl, inL, inS, c, h => by
    simp only [compStm] at h
    split at h
    · cases h
    · simp only [Option.bind_eq_some_iff] at h
      obtain ⟨ci, hci, cb, hb, cp, hcp, h⟩ := h
      have h1 := loc_plain (plain_acts init ci hci)
      have h2 := loc_stm b _ true inS cb hb
      have h3 := loc_plain (plain_acts post cp hcp)
      cases cond with
      | none =>
        cases h
        refine loc_scope (loc_loop loc_nil h2 h3 fun i x off hx ho => ?_)
        have := h1 i x off hx ho
        omega
      | some cnd =>
        simp only [Option.map_eq_some_iff] at h
        obtain ⟨cc, hc, rfl⟩ := h
        exact loc_scope (loc_loop h1 h2 h3 (head_ok hc (by simp only [List.length_append, List.length_cons, List.length_nil]; omega)))
  | .forIn ki it rs cnd k b, lvl, inL, inS, c, h => by
    simp only [compStm] at h
    split at h
    · cases h
    · simp only [Option.bind_eq_some_iff, Option.map_eq_some_iff] at h
      obtain ⟨cc, hc, cb, hb, rfl⟩ := h
      have h1 := loc_plain (plain_sub hc).1
      have h2 := loc_stm b _ true inS cb hb
      refine loc_scope (loc_loop ?_ ?_ ?_ fun i x off hx ho => ?_)
      · exact loc_append h1 (loc_append (a := [_]) (b := [_]) (loc_one rfl) (loc_one rfl))
      · refine loc_append (loc_append (loc_append ?_ (loc_plain (plain_addrs rs))) (loc_one rfl)) h2
        exact loc_append (a := [_]) (loc_one rfl) (loc_append (a := [_]) (b := [_]) (loc_one rfl) (loc_one rfl))
      · exact loc_append (a := [_]) (loc_one rfl) (loc_append (a := [_]) (b := [_]) (loc_one rfl) (loc_one rfl))
      · match i, hx with
        | 0, hx => simp at hx; subst hx; cases ho
        | 1, hx => simp at hx; subst hx; cases ho
        | 2, hx => simp at hx; subst hx; cases ho
        | 3, hx =>
          simp only [List.getElem?_cons_succ, List.getElem?_cons_zero, Option.some.injEq] at hx
          subst hx
          simp only [offs, Ins.off?, Option.some.injEq] at ho
          subst ho
          simp only [List.length_cons, List.length_nil]
          omega
        | i + 4, hx => simp at hx
  | .switch e cs, lvl, inL, inS, c, h => by
    simp only [compStm, Option.bind_eq_some_iff] at h
    obtain ⟨ce, hce, ⟨tab, bodies⟩, hcs, h⟩ := h
    have ic := loc_clauses cs lvl inL 0 tab bodies hcs
    split at h
    · cases h
      simp only [switchCode]
      split
      · refine loc_resolve ?_ (by intro t ht; cases ht; exact Nat.le_refl _) (by intro t ht; cases ht)
        have key : ∀ z : SI, (∀ off, offs z = some off → 0 ≤ off ∧ off ≤ (bodies.length : Int) + 1) →
            Loc (ce ++ caseCode (2 * caseCount tab) 0 tab ++ [z] ++ bodies) := by
          intro z hz
          have e2 : ce ++ caseCode (2 * caseCount tab) 0 tab ++ [z] ++ bodies = ce ++ (caseCode (2 * caseCount tab) 0 tab ++ z :: bodies) := by simp
          rw [e2]
          refine loc_append (loc_plain (plain_sub hce).1) fun i x off hx ho => ?_
          have hlen := caseCode_length (2 * caseCount tab) 0 tab
          simp only [List.length_append, List.length_cons, hlen]
          rcases Nat.lt_or_ge i (caseCode (2 * caseCount tab) 0 tab).length with hi | hi
          · rw [List.getElem?_append_left hi] at hx
            obtain ⟨l, o, hm, e⟩ := loc_cases 0 tab i x off hx ho
            have := ic.2 l o hm
            omega
          · rw [List.getElem?_append_right hi] at hx
            generalize hn : i - (caseCode (2 * caseCount tab) 0 tab).length = n at hx
            match n, hx with
            | 0, hx =>
              simp at hx
              subst hx
              have := hz off ho
              omega
            | n + 1, hx =>
              have := ic.1 n x off (by simpa using hx) ho
              omega
        refine key _ fun off ho => ?_
        split at ho
        · rename_i o hd
          obtain ⟨l, hm⟩ := defaultOff_mem tab o hd
          have := ic.2 l o hm
          simp only [offs, Option.some.injEq] at ho
          omega
        · simp only [offs, Ins.off?, Option.some.injEq] at ho
          omega
      · exact ic.1
    · cases h
  | .brk, lvl, inL, inS, c, h => by
    simp only [compStm] at h
    split at h <;> cases h
    exact loc_one rfl
  | .cont, lvl, inL, inS, c, h => by
    simp only [compStm] at h
    split at h <;> cases h
    exact loc_one rfl
  | .ret es, lvl, inL, inS, c, h => by
    simp only [compStm, Option.map_eq_some_iff] at h
    obtain ⟨d, hd, rfl⟩ := h
    exact loc_append (loc_plain (plain_list es d hd)) (loc_one rfl)
theorem loc_clauses : (cs : Cases) → (lvl : Nat) → (inL : Bool) → (off : Nat) → (tab : List (Option Lab × Nat)) →
    (bodies : List SI) → compCases fold call lvl inL off cs = some (tab, bodies) →
    Loc bodies ∧ ∀ l o, (l, o) ∈ tab → off ≤ o ∧ o ≤ off + bodies.length
  | .nil, lvl, inL, off, tab, bodies, h => by cases h; exact ⟨loc_nil, fun l o h => absurd h List.not_mem_nil⟩
  | .cons l b brk rest, lvl, inL, off, tab, bodies, h => by
    simp only [compCases] at h
    split at h
    · cases h
    · simp only [Option.bind_eq_some_iff, Option.map_eq_some_iff, Prod.mk.injEq] at h
      obtain ⟨cb, hb, ⟨tab', bodies'⟩, hrest, rfl, rfl⟩ := h
      have ib := loc_stm b lvl inL true cb hb
      have ir := loc_clauses rest lvl inL _ tab' bodies' hrest
      refine ⟨loc_append (loc_append ib ?_) ir.1, fun l' o hm => ?_⟩
      · split
        · exact loc_one rfl
        · exact loc_nil
      · rcases List.mem_cons.mp hm with hm | hm
        · cases hm; exact ⟨Nat.le_refl _, by omega⟩
        · have := ir.2 l' o hm
          simp only [List.length_append] at this ⊢
          omega
end
end

end Verif.Comp
