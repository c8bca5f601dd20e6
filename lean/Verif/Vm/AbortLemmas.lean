import Verif.Vm.AbortSpec
/-
Lemmas about errors and what they release.
-/
namespace Verif.Vm.Abort
open Verif

/-- What the variables of the first `n` entries hold. -/
def total (f : Nat → List (List Nat)) (o : Nat) : Nat → Int
  | 0 => 0
  | n + 1 => total f o n + occ o (f n).flatten

theorem total_congr {f g : Nat → List (List Nat)} {o n : Nat} (h : ∀ i, i < n → f i = g i) : total f o n = total g o n := by
  induction n with
  | zero => rfl
  | succ n ih => rw [total, total, ih (fun i hi => h i (by omega)), h n (by omega)]

theorem total_set (σ : St) (o n : Nat) (bs : List (List Nat)) : total (setFrame σ n bs).frames o n = total σ.frames o n :=
  total_congr fun i hi => by simp [setFrame, Nat.ne_of_lt hi]

theorem occ_nil (o : Nat) : occ o [] = 0 := rfl

theorem occ_append (o : Nat) (l l2 : List Nat) : occ o (l ++ l2) = occ o l + occ o l2 := by simp [occ]

theorem occ_cons (o p : Nat) (l : List Nat) : occ o (p :: l) = occ o [p] + occ o l := occ_append o [p] l

/-- The shares are those of globals, of variables, and `X`. -/
def Acc (σ : St) (X : Nat → Int) : Prop := ∀ o, σ.shares o = σ.globals o + total σ.frames o σ.cur + X o

theorem acc_pop {σ : St} {X : Nat → Int} (h : Acc σ X) (hc : σ.cur ≠ 0) : Acc (popFrame σ) X := by
  intro o
  obtain ⟨n, hn⟩ : ∃ n, σ.cur = n + 1 := ⟨σ.cur - 1, by omega⟩
  have := h o
  simp only [hn, total] at this
  simp only [popFrame, setFrame, unshare, hn, Nat.add_sub_cancel]
  rw [total_congr (g := σ.frames) (fun i hi => by simp [Nat.ne_of_lt hi])]
  omega

theorem pop_globals (σ : St) : (popFrame σ).globals = σ.globals := rfl

theorem pop_err (σ : St) : (popFrame σ).err = σ.err := rfl

theorem popTo_ok {X : Nat → Int} (k : Nat) (n : Nat) : ∀ σ : St, Acc σ X → Acc (popTo σ k n) X ∧ (popTo σ k n).globals = σ.globals ∧
    (popTo σ k n).err = σ.err ∧ (popTo σ k n).cur ≤ σ.cur := by
  induction n with
  | zero => intro σ h; exact ⟨h, rfl, rfl, Nat.le_refl _⟩
  | succ n ih =>
    intro σ h
    rw [popTo]
    split
    · obtain ⟨h1, h2, h3, h4⟩ := ih (popFrame σ) (acc_pop h (by omega))
      refine ⟨h1, h2.trans rfl, h3.trans rfl, Nat.le_trans h4 ?_⟩
      show σ.cur - 1 ≤ σ.cur
      omega
    · exact ⟨h, rfl, rfl, Nat.le_refl _⟩

theorem popTo_zero (n : Nat) : ∀ σ : St, σ.cur ≤ n → (popTo σ 0 n).cur = 0 := by
  induction n with
  | zero => intro σ h; simp only [popTo]; omega
  | succ n ih =>
    intro σ h
    rw [popTo]
    split
    · refine ih _ ?_
      show σ.cur - 1 ≤ n
      omega
    · omega

theorem popTo_frames (n : Nat) : ∀ σ : St, (popTo σ 0 n).frames 0 = [] ∨ ((popTo σ 0 n).frames 0 = σ.frames 0 ∧ (n = 0 ∨ σ.cur = 0 ∨ n < σ.cur)) := by
  induction n with
  | zero => intro σ; exact .inr ⟨rfl, .inl rfl⟩
  | succ n ih =>
    intro σ
    rw [popTo]
    split
    · rename_i hc
      by_cases h1 : σ.cur = 1
      · left
        have hf : (popFrame σ).frames 0 = [] := by simp [popFrame, setFrame, h1]
        rcases ih (popFrame σ) with h | ⟨h, _⟩
        · exact h
        · exact h.trans hf
      · have hf : (popFrame σ).frames 0 = σ.frames 0 := by
          show (if 0 = σ.cur - 1 then _ else σ.frames 0) = _
          rw [if_neg (by omega)]
        have hcur : (popFrame σ).cur = σ.cur - 1 := rfl
        rcases ih (popFrame σ) with h | ⟨h, h2⟩
        · exact .inl h
        · refine .inr ⟨h.trans hf, ?_⟩
          rw [hcur] at h2
          omega
    · exact .inr ⟨rfl, .inr (.inl (by omega))⟩

theorem popTo_stays {k : Nat} (hk : 1 ≤ k) (n : Nat) : ∀ σ : St, (σ.cur = 0 → σ.frames 0 = []) →
    (popTo σ k n).cur = 0 → (popTo σ k n).frames 0 = [] := by
  induction n with
  | zero => intro σ h; exact h
  | succ n ih =>
    intro σ h
    rw [popTo]
    split
    · rename_i hc
      refine ih (popFrame σ) ?_
      intro h0
      have h0 : σ.cur - 1 = 0 := h0
      omega
    · exact h

theorem dump_ok {σ : St} {X : Nat → Int} (h : Acc σ X) : Acc (dump σ) X ∧ (dump σ).globals = σ.globals ∧ (dump σ).err = σ.err ∧
    (dump σ).cur = 0 := by
  obtain ⟨h1, h2, h3, _⟩ := popTo_ok 0 σ.cur σ h
  exact ⟨h1, h2, h3, popTo_zero σ.cur σ (Nat.le_refl _)⟩

theorem dump_frame0 {σ : St} (h : σ.cur = 0 → σ.frames 0 = []) : (dump σ).frames 0 = [] := by
  rcases popTo_frames σ.cur σ with h1 | ⟨h1, h2⟩
  · exact h1
  · refine h1.trans (h ?_)
    omega

/-- The blocks of a function after a part of it: the innermost may have more. -/
def Rel : List (List Nat) → List (List Nat) → Prop
  | [], bs => bs = []
  | _ :: r, bs => ∃ b', bs = b' :: r

theorem rel_refl (bs : List (List Nat)) : Rel bs bs := by
  cases bs with
  | nil => rfl
  | cons b r => exact ⟨b, rfl⟩

theorem rel_trans {a b c : List (List Nat)} (h : Rel a b) (h2 : Rel b c) : Rel a c := by
  cases a with
  | nil =>
    cases h
    exact h2
  | cons x r =>
    obtain ⟨b', rfl⟩ := h
    exact h2

theorem rel_nil {a b : List (List Nat)} (h : Rel a b) : (b = [] ↔ a = []) := by
  cases a with
  | nil =>
    cases h
    simp
  | cons x r =>
    obtain ⟨b', rfl⟩ := h
    simp

/-- What globals get. -/
def gain (bs : List (List Nat)) (l : List Nat) (o : Nat) : Int := if bs = [] then occ o l else 0

/-- A part of a run at depth `d` from `σ` has gone well. -/
structure Well (d : Nat) (l : List Nat) (X : Nat → Int) (σ σ1 : St) : Prop where
  cur : σ1.cur = d
  acc : Acc σ1 X
  err : σ1.err = false
  low : ∀ i, i < d - 1 → σ1.frames i = σ.frames i
  rel : Rel (σ.frames (d - 1)) (σ1.frames (d - 1))
  glob : ∀ o, σ1.globals o = σ.globals o + gain (σ.frames (d - 1)) l o

/-- It has been stopped; if `t`, with nothing left over. -/
structure Halted (t : Prop) (d : Nat) (l : List Nat) (X : Nat → Int) (σ σ1 : St) : Prop where
  acc : ∃ Y, (∀ o, X o ≤ Y o) ∧ (t → ∀ o, Y o = X o) ∧ Acc σ1 Y
  err : σ1.err = true
  zero : σ1.cur = 0 → σ1.frames 0 = []
  glob : ∀ o, σ1.globals o = σ.globals o + gain (σ.frames (d - 1)) l o

/-- One of both, as it should be. -/
def Fine (t : Prop) (d : Nat) (e : Bool) (l : List Nat) (X : Nat → Int) (σ : St) (r : St × Sig) : Prop :=
  (e = true ∧ r.2 = .ok ∧ Well d l X σ r.1) ∨ (e = false ∧ r.2 = .stopped ∧ Halted t d l X σ r.1)

/-- A run of a body at the next depth. -/
def Body (t : Prop) (d : Nat) (e : Bool) (run : St → St × Sig) : Prop :=
  ∀ (σ : St) (X : Nat → Int), σ.cur = d + 1 → σ.err = false → Acc σ X → σ.frames d ≠ [] → Fine t (d + 1) e [] X σ (run σ)

theorem pop_zero {σ : St} (h : σ.cur ≠ 0) : (popFrame σ).cur = 0 → (popFrame σ).frames 0 = [] := by
  intro h0
  have h1 : σ.cur - 1 = 0 := h0
  simp [popFrame, setFrame, h1]

theorem occ_nonneg (o : Nat) (l : List Nat) : 0 ≤ occ o l := by simp [occ]

/-- With what was to go to the callee left over. -/
theorem acc_over {σ : St} {X : Nat → Int} {l : List Nat} {t : Prop} (h : Acc σ (fun o => X o + occ o l)) (ht : t → l = []) :
    ∃ Y, (∀ o, X o ≤ Y o) ∧ (t → ∀ o, Y o = X o) ∧ Acc σ Y := by
  refine ⟨_, ?_, ?_, h⟩
  · intro o
    have := occ_nonneg o l
    omega
  · intro h1 o
    rw [ht h1]
    simp [occ_nil]

/-- The same for what is left over already. -/
theorem over_over {σ : St} {X : Nat → Int} {l : List Nat} {t u : Prop}
    (h : ∃ Y, (∀ o, (fun o => X o + occ o l) o ≤ Y o) ∧ (u → ∀ o, Y o = (fun o => X o + occ o l) o) ∧ Acc σ Y) (ht : t → l = [] ∧ u) :
    ∃ Y, (∀ o, X o ≤ Y o) ∧ (t → ∀ o, Y o = X o) ∧ Acc σ Y := by
  obtain ⟨Y, h1, h2, h3⟩ := h
  refine ⟨Y, ?_, ?_, h3⟩
  · intro o
    have := occ_nonneg o l
    have := h1 o
    simp only at this
    omega
  · intro h4 o
    rw [h2 (ht h4).2 o, (ht h4).1]
    simp [occ_nil]

theorem over_imp {σ : St} {X : Nat → Int} {t u : Prop} (h : ∃ Y, (∀ o, X o ≤ Y o) ∧ (u → ∀ o, Y o = X o) ∧ Acc σ Y) (ht : t → u) :
    ∃ Y, (∀ o, X o ≤ Y o) ∧ (t → ∀ o, Y o = X o) ∧ Acc σ Y := by
  obtain ⟨Y, h1, h2, h3⟩ := h
  exact ⟨Y, h1, fun h => h2 (ht h), h3⟩

theorem over_map {σ σ1 : St} {X : Nat → Int} {t : Prop} (h : ∃ Y, (∀ o, X o ≤ Y o) ∧ (t → ∀ o, Y o = X o) ∧ Acc σ Y)
    (hm : ∀ Y, Acc σ Y → Acc σ1 Y) : ∃ Y, (∀ o, X o ≤ Y o) ∧ (t → ∀ o, Y o = X o) ∧ Acc σ1 Y := by
  obtain ⟨Y, h1, h2, h3⟩ := h
  exact ⟨Y, h1, h2, hm Y h3⟩

theorem over_self {σ : St} {X : Nat → Int} {t : Prop} (h : Acc σ X) : ∃ Y, (∀ o, X o ≤ Y o) ∧ (t → ∀ o, Y o = X o) ∧ Acc σ Y :=
  ⟨X, fun _ => Int.le_refl _, fun _ _ => rfl, h⟩

/-- The call of a function. -/
theorem enter_fine {t u : Prop} {d : Nat} {e : Bool} {run : St → St × Sig} {σ : St} {X : Nat → Int} {args : List Nat} {fits : Bool}
    (hd : 1 ≤ d) (hb : Body u d e run) (hc : σ.cur = d) (he : σ.err = false) (ha : Acc σ (fun o => X o + occ o args))
    (hargs : t → (args = [] ∨ (d < 100 ∧ fits = true)) ∧ u) :
    Fine t d (decide (d < 100) && fits && e) [] X σ (enter σ args fits run) := by
  have g0 : ∀ bs o, gain bs [] o = 0 := fun bs o => by simp [gain, occ_nil]
  unfold enter
  by_cases h100 : callMax ≤ σ.cur
  · have hlt : ¬ d < 100 := by simp only [callMax, hc] at h100; omega
    rw [if_pos h100]
    right
    refine ⟨by simp [hlt], rfl, ?_, rfl, ?_, ?_⟩
    · refine acc_over (σ := { σ with err := true }) ha ?_
      intro ht
      rcases (hargs ht).1 with h | h
      · exact h
      · exact absurd h.1 hlt
    · intro h
      have h : σ.cur = 0 := h
      omega
    · intro o
      rw [g0]
      simp
  · have hlt : d < 100 := by simp only [callMax, hc] at h100; omega
    rw [if_neg h100]
    cases fits with
    | false =>
      rw [if_neg Bool.false_ne_true, if_neg (by omega)]
      right
      refine ⟨by simp, rfl, ?_, rfl, pop_zero (by omega), ?_⟩
      · refine acc_over (σ := { popFrame σ with err := true }) (acc_pop ha (by omega)) ?_
        intro ht
        rcases (hargs ht).1 with h | h
        · exact h
        · cases h.2
      · intro o
        rw [g0]
        simp [pop_globals]
    | true =>
      rw [if_pos rfl]
      have hacc : Acc { setFrame σ σ.cur [args] with cur := σ.cur + 1 } X := by
        intro o
        show σ.shares o = σ.globals o + (total (setFrame σ σ.cur [args]).frames o σ.cur + occ o ((setFrame σ σ.cur [args]).frames σ.cur).flatten) + X o
        rw [total_set]
        have := ha o
        simp only [setFrame, if_true, List.flatten_cons, List.flatten_nil, List.append_nil] at this ⊢
        omega
      have hr := hb { setFrame σ σ.cur [args] with cur := σ.cur + 1 } X (by simp [hc]) he hacc (by simp [setFrame, hc])
      rcases hrun : run { setFrame σ σ.cur [args] with cur := σ.cur + 1 } with ⟨σ2, sig⟩
      rw [hrun] at hr
      rcases hr with ⟨h1, h2, w⟩ | ⟨h1, h2, w⟩
      · simp only at h2
        subst h2
        simp only [hrun]
        have hc2 : σ2.cur = d + 1 := w.cur
        rw [if_neg (by omega)]
        left
        refine ⟨by simp [hlt, h1], rfl, ?_, acc_pop w.acc (by omega), w.err, ?_, ?_, ?_⟩
        · show σ2.cur - 1 = d
          omega
        · intro i hi
          show (if i = σ2.cur - 1 then _ else σ2.frames i) = _
          rw [if_neg (by omega), w.low i (by omega)]
          simp only [setFrame]
          rw [if_neg (by omega)]
        · have : (popFrame σ2).frames (d - 1) = σ.frames (d - 1) := by
            show (if d - 1 = σ2.cur - 1 then _ else σ2.frames (d - 1)) = _
            rw [if_neg (by omega), w.low (d - 1) (by omega)]
            simp only [setFrame]
            rw [if_neg (by omega)]
          rw [this]
          exact rel_refl _
        · intro o
          have := w.glob o
          rw [g0] at this ⊢
          exact this
      · simp only at h2
        subst h2
        simp only [hrun]
        right
        refine ⟨by simp [h1], rfl, over_imp w.acc (fun h => (hargs h).2), w.err, w.zero, ?_⟩
        intro o
        have := w.glob o
        rw [g0] at this ⊢
        exact this

theorem share_acc {σ : St} {X : Nat → Int} (h : Acc σ X) (l : List Nat) : Acc (share σ l) (fun o => X o + occ o l) := by
  intro o
  have := h o
  simp only [share]
  omega

theorem unshare_acc {σ : St} {X : Nat → Int} {l : List Nat} (h : Acc σ (fun o => X o + occ o l)) : Acc (unshare σ l) X := by
  intro o
  have := h o
  simp only [unshare] at this ⊢
  omega

theorem fine_share {t d e l X σ r} {args : List Nat} (h : Fine t d e l X (share σ args) r) : Fine t d e l X σ r := by
  rcases h with ⟨h1, h2, w⟩ | ⟨h1, h2, w⟩
  · exact .inl ⟨h1, h2, w.cur, w.acc, w.err, w.low, w.rel, w.glob⟩
  · exact .inr ⟨h1, h2, w.acc, w.err, w.zero, w.glob⟩

/-- A call from a native function, the exception caught by the calling instruction. -/
theorem callBack_fine {t u : Prop} {d : Nat} {e : Bool} {run : St → St × Sig} {σ : St} {X : Nat → Int} {tmp args : List Nat} {fits : Bool}
    (hd : 1 ≤ d) (hb : Body u d e run) (hc : σ.cur = d) (he : σ.err = false) (ha : Acc σ X)
    (ht : t → (tmp = [] ∨ (d < 100 ∧ fits = true ∧ e = true)) ∧ (args = [] ∨ (d < 100 ∧ fits = true)) ∧ u) :
    Fine t d (decide (d < 100) && fits && e) [] X σ (caught (callBack σ tmp args fits run)) := by
  have hf := enter_fine (t := t) (σ := share (share σ tmp) args) (X := fun o => X o + occ o tmp) (args := args) (fits := fits) hd hb hc he
    (share_acc (share_acc ha tmp) args) (fun h => (ht h).2)
  unfold callBack
  rw [if_neg (by omega)]
  rcases hr : enter (share (share σ tmp) args) args fits run with ⟨σ2, sig⟩
  rw [hr] at hf
  rcases hf with ⟨h1, h2, w⟩ | ⟨h1, h2, w⟩
  · simp only at h2
    subst h2
    left
    have herr : (unshare σ2 tmp).err = false := w.err
    have hcau : caught (unshare σ2 tmp, .ok) = (unshare σ2 tmp, .ok) := by simp [caught, herr]
    simp only
    rw [hcau]
    exact ⟨h1, rfl, w.cur, unshare_acc w.acc, w.err, w.low, w.rel, w.glob⟩
  · simp only at h2
    subst h2
    right
    obtain ⟨Y, _, _, hY⟩ := w.acc
    refine ⟨h1, rfl, ?_, rfl, ?_, ?_⟩
    · have := over_map (σ1 := dump σ2) w.acc (fun Y h => (dump_ok h).1)
      refine over_over (σ := { dump σ2 with err := true }) this ?_
      intro h
      refine ⟨?_, h⟩
      rcases (ht h).1 with h2 | ⟨h3, h4, h5⟩
      · exact h2
      · simp [h3, h4, h5] at h1
    · intro _
      exact dump_frame0 w.zero
    · intro o
      show (dump σ2).globals o = _
      rw [(dump_ok hY).2.1]
      exact w.glob o

/-- Main lemma. -/
theorem exec_fine (a : Act) : ∀ (d : Nat) (σ : St) (X : Nat → Int), 1 ≤ d → σ.cur = d → σ.err = false → Acc σ X → Reported d a →
    Fine (Clean d a) d (ends d a) (keeps d a) X σ (exec a σ) := by
  have g0 : ∀ bs o, gain bs [] o = 0 := fun bs o => by simp [gain, occ_nil]
  have body : ∀ (b : Act) (d : Nat), (∀ (d : Nat) (σ : St) (X : Nat → Int), 1 ≤ d → σ.cur = d → σ.err = false → Acc σ X → Reported d b →
      Fine (Clean d b) d (ends d b) (keeps d b) X σ (exec b σ)) → Reported (d + 1) b →
      Body (Clean (d + 1) b) d (ends (d + 1) b) (exec b) := by
    intro b d ih hcl σ X hc he ha hne
    have gk : ∀ o, gain (σ.frames (d + 1 - 1)) (keeps (d + 1) b) o = gain (σ.frames (d + 1 - 1)) [] o := by
      intro o
      simp [gain, hne]
    rcases ih (d + 1) σ X (by omega) hc he ha hcl with ⟨h1, h2, w⟩ | ⟨h1, h2, w⟩
    · exact .inl ⟨h1, h2, w.cur, w.acc, w.err, w.low, w.rel, fun o => by rw [w.glob o, gk]⟩
    · exact .inr ⟨h1, h2, w.acc, w.err, w.zero, fun o => by rw [w.glob o, gk]⟩
  induction a with
  | skip =>
    intro d σ X hd hc he ha _
    exact .inl ⟨rfl, rfl, hc, ha, he, fun _ _ => rfl, rel_refl _, fun o => by rw [show keeps d .skip = [] from rfl, g0]; simp [exec]⟩
  | seq a b iha ihb =>
    intro d σ X hd hc he ha hcl
    obtain ⟨hca, hcb⟩ := hcl
    rcases hr : exec a σ with ⟨σ1, sig⟩
    have h := iha d σ X hd hc he ha hca
    rw [hr] at h
    rcases h with ⟨h1, h2, w⟩ | ⟨h1, h2, w⟩
    · simp only at h2
      subst h2
      have he1 : exec (.seq a b) σ = exec b σ1 := by simp only [exec, hr]
      rw [he1]
      have hk : keeps d (.seq a b) = keeps d a ++ keeps d b := by simp [keeps, h1]
      have hen : ends d (.seq a b) = ends d b := by simp [ends, h1]
      rw [hk, hen]
      have gsum : ∀ o, gain (σ.frames (d - 1)) (keeps d a ++ keeps d b) o =
          gain (σ.frames (d - 1)) (keeps d a) o + gain (σ1.frames (d - 1)) (keeps d b) o := by
        intro o
        have := rel_nil w.rel
        simp only [gain, occ_append]
        by_cases hn : σ.frames (d - 1) = []
        · rw [if_pos hn, if_pos hn, if_pos (this.2 hn)]
        · rw [if_neg hn, if_neg hn, if_neg (fun h => hn (this.1 h))]
          simp
      rcases ihb d σ1 X hd w.cur w.err w.acc (hcb h1) with ⟨h3, h4, w2⟩ | ⟨h3, h4, w2⟩
      · left
        refine ⟨h3, h4, w2.cur, w2.acc, w2.err, fun i hi => (w2.low i hi).trans (w.low i hi), rel_trans w.rel w2.rel, ?_⟩
        intro o
        rw [w2.glob o, w.glob o, gsum]
        omega
      · right
        refine ⟨h3, h4, over_imp w2.acc (fun h => h.2 h1), w2.err, w2.zero, ?_⟩
        intro o
        rw [w2.glob o, w.glob o, gsum]
        omega
    · simp only at h2
      subst h2
      have he1 : exec (.seq a b) σ = (σ1, .stopped) := by simp only [exec, hr]
      rw [he1]
      have hk : keeps d (.seq a b) = keeps d a := by simp [keeps, h1]
      rw [hk]
      exact .inr ⟨by simp [ends, h1], rfl, over_imp w.acc (fun h => h.1), w.err, w.zero, w.glob⟩
  | hold o =>
    intro d σ X hd hc he ha _
    have hc0 : σ.cur ≠ 0 := by omega
    obtain ⟨n, hn⟩ : ∃ n, σ.cur = n + 1 := ⟨σ.cur - 1, by omega⟩
    have hdn : d = n + 1 := by omega
    simp only [exec, if_neg hc0]
    cases hf : σ.frames (σ.cur - 1) with
    | nil =>
      have hf2 : σ.frames (d - 1) = [] := by rw [← hc]; exact hf
      left
      refine ⟨rfl, rfl, hc, ?_, he, fun _ _ => rfl, rel_refl _, ?_⟩
      · intro p
        have := ha p
        show σ.shares p + occ p [o] = σ.globals p + occ p [o] + total σ.frames p σ.cur + X p
        omega
      · intro p
        show σ.globals p + occ p [o] = σ.globals p + gain (σ.frames (d - 1)) [o] p
        simp [gain, hf2]
    | cons b bs =>
      have hf2 : σ.frames (d - 1) = b :: bs := by rw [← hc]; exact hf
      left
      refine ⟨rfl, rfl, hc, ?_, he, ?_, ?_, ?_⟩
      · intro p
        have := ha p
        rw [hn, total, show σ.frames n = b :: bs by simpa [hn] using hf] at this
        show σ.shares p + occ p [o] = σ.globals p + total (setFrame (share σ [o]) (σ.cur - 1) ((o :: b) :: bs)).frames p σ.cur + X p
        rw [hn, Nat.add_sub_cancel, total, total_set]
        simp only [setFrame, if_true, List.flatten_cons, List.cons_append] at this ⊢
        rw [occ_cons p o (b ++ bs.flatten)]
        simp only [share]
        omega
      · intro i hi
        show (if i = σ.cur - 1 then _ else σ.frames i) = _
        rw [if_neg (by omega)]
      · rw [hf2]
        refine ⟨o :: b, ?_⟩
        show (if d - 1 = σ.cur - 1 then _ else _) = _
        rw [if_pos (by omega)]
      · intro p
        show σ.globals p = σ.globals p + gain (σ.frames (d - 1)) [o] p
        simp [gain, hf2]
  | block a ih =>
    intro d σ X hd hc he ha hcl
    have hc0 : σ.cur ≠ 0 := by omega
    obtain ⟨n, hn⟩ : ∃ n, σ.cur = n + 1 := ⟨σ.cur - 1, by omega⟩
    have hdn : d = n + 1 := by omega
    have hdm : d - 1 = n := by omega
    simp only [exec, if_neg hc0]
    have hcm : σ.cur - 1 = n := by omega
    rw [hcm]
    have hacc : Acc (setFrame σ n ([] :: σ.frames n)) X := by
      intro o
      have := ha o
      rw [hn, total] at this
      show σ.shares o = σ.globals o + total (setFrame σ n ([] :: σ.frames n)).frames o σ.cur + X o
      rw [hn, total, total_set]
      simp only [setFrame, if_true, List.flatten_cons, List.nil_append]
      exact this
    have hfn : (setFrame σ n ([] :: σ.frames n)).frames (d - 1) = [] :: σ.frames n := by rw [hdm]; simp [setFrame]
    have h := ih d (setFrame σ n ([] :: σ.frames n)) X hd hc he hacc hcl
    rcases hr : exec a (setFrame σ n ([] :: σ.frames n)) with ⟨σ1, sig⟩
    rw [hr] at h
    have hg : ∀ o, gain ((setFrame σ n ([] :: σ.frames n)).frames (d - 1)) (keeps d a) o = 0 := by
      intro o
      rw [hfn]
      simp [gain]
    rcases h with ⟨h1, h2, w⟩ | ⟨h1, h2, w⟩
    · simp only at h2
      subst h2
      have hw := w.rel
      rw [hfn] at hw
      obtain ⟨b', hb⟩ := hw
      have hc1 : σ1.cur = n + 1 := (w.cur).trans hdn
      have hb : σ1.frames n = b' :: σ.frames n := by rw [← hdm]; exact hb.trans (by rw [hdm])
      simp only
      rw [if_neg (by omega), hc1, Nat.add_sub_cancel, hb]
      left
      refine ⟨h1, rfl, w.cur, ?_, w.err, ?_, ?_, ?_⟩
      · intro o
        have := w.acc o
        rw [hc1, total, hb] at this
        show σ1.shares o - occ o b' = σ1.globals o + total (setFrame (unshare σ1 b') n (σ.frames n)).frames o σ1.cur + X o
        rw [hc1, total, total_set]
        simp only [setFrame, if_true, List.flatten_cons, occ_append, unshare] at this ⊢
        omega
      · intro i hi
        show (if i = n then _ else σ1.frames i) = _
        rw [if_neg (by omega), w.low i hi]
        show (if i = n then _ else σ.frames i) = _
        rw [if_neg (by omega)]
      · rw [hdm]
        have : (setFrame (unshare σ1 b') n (σ.frames n)).frames n = σ.frames n := by simp [setFrame]
        rw [this]
        exact rel_refl _
      · intro o
        show σ1.globals o = _
        rw [w.glob o, hg, show keeps d (.block a) = [] from rfl, g0]
        rfl
    · simp only at h2
      subst h2
      right
      refine ⟨h1, rfl, w.acc, w.err, w.zero, ?_⟩
      intro o
      rw [w.glob o, hg, show keeps d (.block a) = [] from rfl, g0]
      rfl
  | call args left dflt fits b ihd ihb =>
    intro d σ X hd hc he ha hcl
    obtain ⟨hcd, hcb⟩ := hcl
    rw [show keeps d (.call args left dflt fits b) = [] from rfl]
    simp only [exec]
    cases left with
    | false =>
      simp only [Bool.false_eq_true, if_false]
      have := enter_fine (t := Clean d (.call args false dflt fits b)) (σ := share σ args) (fits := fits) hd (body b d ihb hcb) hc he
        (share_acc ha args) (by
          intro h
          refine ⟨?_, h.2.2⟩
          rcases h.1 with h | h
          · exact .inl h
          · exact .inr h.2)
      have hen : ends d (.call args false dflt fits b) = (decide (d < 100) && fits && ends (d + 1) b) := by simp [ends]
      rw [hen]
      exact fine_share this
    | true =>
      simp only [if_true]
      have h1 := enter_fine (t := Clean (d + 1) dflt) (σ := share σ args) (args := []) (fits := true) (X := fun o => X o + occ o args) hd
        (body dflt d ihd (hcd rfl)) hc he
        (fun o => by have := share_acc ha args o; simpa [occ_nil] using this) (fun h => ⟨.inl rfl, h⟩)
      rcases hr : enter (share σ args) [] true (exec dflt) with ⟨σ1, sig⟩
      rw [hr] at h1
      rcases h1 with ⟨h1, h2, w⟩ | ⟨h1, h2, w⟩
      · simp only at h2
        subst h2
        have h3 := enter_fine (t := Clean d (.call args true dflt fits b)) (σ := σ1) (args := args) (fits := fits) (X := X) hd
          (body b d ihb hcb) w.cur w.err w.acc (by
          intro h
          refine ⟨?_, h.2.2⟩
          rcases h.1 with h | h
          · exact .inl h
          · exact .inr h.2)
        have hen : ends d (.call args true dflt fits b) = (decide (d < 100) && fits && ends (d + 1) b) := by
          simp only [Bool.and_eq_true, Bool.and_true, decide_eq_true_eq] at h1
          simp [ends, h1.1, h1.2]
        rw [hen]
        simp only
        rcases h3 with ⟨h3, h4, w2⟩ | ⟨h3, h4, w2⟩
        · left
          refine ⟨h3, h4, w2.cur, w2.acc, w2.err, fun i hi => (w2.low i hi).trans (w.low i hi), rel_trans w.rel w2.rel, ?_⟩
          intro o
          rw [w2.glob o, w.glob o, g0, g0, g0]
          simp [share]
        · right
          refine ⟨h3, h4, w2.acc, w2.err, w2.zero, ?_⟩
          intro o
          rw [w2.glob o, w.glob o, g0, g0, g0]
          simp [share]
      · simp only at h2
        subst h2
        right
        have hen : (decide (d < 100) && ends (d + 1) dflt) = false := by simpa using h1
        refine ⟨?_, rfl, ?_, w.err, w.zero, ?_⟩
        · simp [ends, hen]
        · refine over_over w.acc ?_
          intro h
          refine ⟨?_, h.2.1 rfl⟩
          rcases h.1 with h | ⟨h3, h4, h5⟩
          · exact h
          · simp [h3 rfl, h4] at h1
        · intro o
          rw [w.glob o, g0, g0]
          rfl
  | construct this args fits b ih =>
    intro d σ X hd hc he ha hcl
    rw [show keeps d (.construct this args fits b) = [] from rfl]
    simp only [exec]
    have h := enter_fine (t := Clean d (.construct this args fits b)) (σ := share (share σ args) [this]) (args := args) (fits := fits)
      (X := fun o => X o + occ o [this]) hd (body b d ih hcl) hc he
      (fun o => by have := share_acc (share_acc ha args) [this] o; simp only at this ⊢; omega) (fun h => ⟨.inr ⟨h.1.1, h.1.2.1⟩, h.2⟩)
    rcases hr : enter (share (share σ args) [this]) args fits (exec b) with ⟨σ1, sig⟩
    rw [hr] at h
    rcases h with ⟨h1, h2, w⟩ | ⟨h1, h2, w⟩
    · simp only at h2
      subst h2
      left
      refine ⟨by simpa [ends] using h1, rfl, w.cur, unshare_acc w.acc, w.err, w.low, w.rel, ?_⟩
      intro o
      show σ1.globals o = _
      rw [w.glob o]
      rfl
    · simp only at h2
      subst h2
      right
      refine ⟨by simpa [ends] using h1, rfl, ?_, w.err, w.zero, w.glob⟩
      refine over_over w.acc ?_
      intro h
      obtain ⟨⟨h3, h4, h5⟩, _⟩ := h
      simp [h3, h4, h5] at h1
  | native tmp args fits b ih =>
    intro d σ X hd hc he ha hcl
    rw [show keeps d (.native tmp args fits b) = [] from rfl]
    exact callBack_fine (t := Clean d (.native tmp args fits b)) hd (body b d ih hcl) hc he ha (fun h => h)
  | guarded a b _ _ =>
    intro d σ X _ _ _ _ hcl
    exact hcl.elim
  | eval args compiles fits b ih =>
    intro d σ X hd hc he ha hcl
    rw [show keeps d (.eval args compiles fits b) = [] from rfl]
    simp only [exec]
    cases compiles with
    | false =>
      simp only [Bool.false_eq_true, if_false]
      right
      refine ⟨by simp [ends], rfl, ?_, rfl, ?_, ?_⟩
      · refine acc_over (σ := { share σ args with err := true }) (share_acc ha args) ?_
        intro h
        rcases h.1 with h | h
        · exact h
        · cases h.1
      · intro h
        have h : σ.cur = 0 := h
        omega
      · intro o
        rw [g0]
        simp [share]
    | true =>
      simp only [if_true]
      have h := enter_fine (t := Clean d (.eval args true fits b)) (σ := share σ args) (args := args) (fits := fits) (X := X) hd
        (body b d ih hcl) hc he (share_acc ha args) (by
        intro h
        refine ⟨?_, h.2⟩
        rcases h.1 with h | h
        · exact .inl h
        · exact .inr h.2)
      rcases hr : enter (share σ args) args fits (exec b) with ⟨σ1, sig⟩
      rw [hr] at h
      rcases h with ⟨h1, h2, w⟩ | ⟨h1, h2, w⟩
      · simp only at h2
        subst h2
        have herr : σ1.err = false := w.err
        simp only [caught, herr, Bool.false_eq_true, if_false]
        left
        exact ⟨by simpa [ends] using h1, rfl, w.cur, w.acc, w.err, w.low, w.rel, w.glob⟩
      · simp only at h2
        subst h2
        right
        obtain ⟨Y, _, _, hY⟩ := w.acc
        obtain ⟨k1, k2, k3, k4⟩ := popTo_ok σ.cur σ1.cur σ1 hY
        refine ⟨by simpa [ends] using h1, rfl, over_map w.acc (fun Y h => (popTo_ok σ.cur σ1.cur σ1 h).1), k3.trans w.err, ?_, ?_⟩
        · exact popTo_stays (by omega) _ _ w.zero
        · intro o
          show (popTo σ1 σ.cur σ1.cur).globals o = _
          rw [k2]
          exact w.glob o
  | fail exits =>
    intro d σ X hd hc he ha _
    rw [show keeps d (.fail exits) = [] from rfl]
    simp only [exec]
    cases exits with
    | true =>
      rw [if_pos rfl, if_neg (by omega)]
      right
      refine ⟨rfl, rfl, over_self (σ := { popFrame σ with err := true }) (acc_pop ha (by omega)), rfl, pop_zero (by omega), ?_⟩
      intro o
      rw [g0]
      simp [pop_globals]
    | false =>
      rw [if_neg Bool.false_ne_true]
      right
      refine ⟨rfl, rfl, over_self (σ := { σ with err := true }) ha, rfl, ?_, ?_⟩
      · intro h
        have h : σ.cur = 0 := h
        omega
      · intro o
        rw [g0]
        simp
  | raise =>
    intro d σ X _ _ _ _ hcl
    exact hcl.elim

theorem clean_reported (a : Act) : ∀ d, Clean d a → Reported d a := by
  induction a with
  | seq a b iha ihb => intro d h; exact ⟨iha d h.1, fun h1 => ihb d (h.2 h1)⟩
  | block a ih => intro d h; exact ih d h
  | call args left dflt fits b ihd ihb => intro d h; exact ⟨fun h1 => ihd _ (h.2.1 h1), ihb _ h.2.2⟩
  | construct _ _ _ b ih => intro d h; exact ih _ h.2
  | native _ _ _ b ih => intro d h; exact ih _ h.2.2
  | eval _ _ _ b ih => intro d h; exact ih _ h.2
  | guarded _ _ _ _ => intro d h; exact h
  | raise => intro d h; exact h
  | skip => intro d h; exact h
  | hold _ => intro d h; exact h
  | fail _ => intro d h; exact h

/-- Between runs. -/
structure Idle (σ : St) (X : Nat → Int) : Prop where
  cur : σ.cur = 0
  frame : σ.frames 0 = []
  acc : ∀ o, σ.shares o = σ.globals o + X o

theorem acc_zero {σ : St} {X : Nat → Int} (h : Acc σ X) (hc : σ.cur = 0) : ∀ o, σ.shares o = σ.globals o + X o := by
  intro o
  have := h o
  rw [hc, total] at this
  omega

/-- One run. -/
theorem run_fine (r : Run) (σ : St) (X : Nat → Int) (h : Idle σ X) (hr : r.Reported) :
    (runStep σ r).2 = r.expected ∧ (∀ o, (runStep σ r).1.globals o = σ.globals o + occ o r.keeps) ∧
      ∃ Y, (∀ o, X o ≤ Y o) ∧ (r.Clean → ∀ o, Y o = X o) ∧ Idle (runStep σ r).1 Y := by
  cases r with
  | main a =>
    have hacc : Acc { setFrame σ 0 [] with err := false, cur := 1 } X := by
      intro o
      have := h.acc o
      simp only [total, setFrame, if_true, List.flatten_nil, occ_nil]
      omega
    have hg : ∀ o, gain (({ setFrame σ 0 [] with err := false, cur := 1 } : St).frames (1 - 1)) (keeps 1 a) o = occ o (keeps 1 a) := by
      intro o
      simp [gain, setFrame]
    have hf := exec_fine a 1 { setFrame σ 0 [] with err := false, cur := 1 } X (Nat.le_refl _) rfl rfl hacc hr
    simp only [runStep, if_pos h.cur]
    rcases he : exec a { setFrame σ 0 [] with err := false, cur := 1 } with ⟨σ2, sig⟩
    rw [he] at hf
    rcases hf with ⟨h1, h2, w⟩ | ⟨h1, h2, w⟩
    · simp only at h2
      subst h2
      have hc : σ2.cur = 1 := w.cur
      simp only
      rw [if_neg (by omega)]
      refine ⟨by simp [Run.expected, h1], ?_, X, fun _ => Int.le_refl _, fun _ _ => rfl, ?_, ?_, ?_⟩
      · intro o
        show σ2.globals o = _
        rw [w.glob o, hg]
        rfl
      · show σ2.cur - 1 = 0
        omega
      · exact pop_zero (by omega) (by show σ2.cur - 1 = 0; omega)
      · exact acc_zero (acc_pop w.acc (by omega)) (by show σ2.cur - 1 = 0; omega)
    · simp only at h2
      subst h2
      simp only
      obtain ⟨Y, hY1, hY2, hY⟩ := w.acc
      obtain ⟨k1, k2, k3, k4⟩ := dump_ok hY
      refine ⟨by simp [Run.expected, h1], ?_, Y, hY1, hY2, k4, dump_frame0 w.zero, acc_zero k1 k4⟩
      intro o
      rw [k2, w.glob o, hg]
      rfl
  | host tmp args fits a =>
    have hacc : Acc { σ with err := false, cur := 1 } X := by
      intro o
      have := h.acc o
      simp only [total, h.frame, List.flatten_nil, occ_nil]
      omega
    have hbody : Body (Clean 2 a) 1 (ends 2 a) (exec a) := by
      intro σ X hc he ha hne
      have gk : ∀ o, gain (σ.frames (2 - 1)) (keeps 2 a) o = gain (σ.frames (2 - 1)) [] o := by
        intro o
        simp [gain, hne]
      rcases exec_fine a 2 σ X (by omega) hc he ha hr with ⟨h1, h2, w⟩ | ⟨h1, h2, w⟩
      · exact .inl ⟨h1, h2, w.cur, w.acc, w.err, w.low, w.rel, fun o => by rw [w.glob o, gk]⟩
      · exact .inr ⟨h1, h2, w.acc, w.err, w.zero, fun o => by rw [w.glob o, gk]⟩
    have hf := enter_fine (t := Run.Clean (.host tmp args fits a)) (σ := share (share { σ with err := false, cur := 1 } tmp) args)
      (X := fun o => X o + occ o tmp) (args := args) (fits := fits) (Nat.le_refl 1) hbody rfl rfl
      (share_acc (share_acc hacc tmp) args) (by
        intro ht
        refine ⟨?_, ht.2.2⟩
        rcases ht.2.1 with h | h
        · exact .inl h
        · exact .inr ⟨by decide, h⟩)
    have g0 : ∀ bs o, gain bs [] o = 0 := fun bs o => by simp [gain, occ_nil]
    simp only [runStep, callBack, if_pos h.cur]
    rcases he : enter (share (share { σ with err := false, cur := 1 } tmp) args) args fits (exec a) with ⟨σ2, sig⟩
    rw [he] at hf
    rcases hf with ⟨h1, h2, w⟩ | ⟨h1, h2, w⟩
    · simp only at h2
      subst h2
      have hc : σ2.cur = 1 := w.cur
      have hfr : σ2.frames 0 = [] := (rel_nil w.rel).2 h.frame
      refine ⟨by simp only [Run.expected]; rw [if_pos (by simpa using h1)], ?_, X, fun _ => Int.le_refl _, fun _ _ => rfl, rfl, hfr, ?_⟩
      · intro o
        show σ2.globals o = _
        rw [w.glob o, g0, show Run.keeps (.host tmp args fits a) = [] from rfl, occ_nil]
        rfl
      · intro o
        have := unshare_acc w.acc o
        simp only [unshare, hc, total, hfr, List.flatten_nil, occ_nil] at this ⊢
        omega
    · simp only at h2
      subst h2
      obtain ⟨Z, hZ1, hZ2, hZ⟩ := w.acc
      obtain ⟨k1, k2, k3, k4⟩ := dump_ok hZ
      obtain ⟨Y, hY1, hY2, hY⟩ := over_over (t := Run.Clean (.host tmp args fits a)) w.acc (by
        intro ht
        refine ⟨?_, ht⟩
        rcases ht.1 with h | ⟨h3, h4⟩
        · exact h
        · simp [h3, h4] at h1)
      refine ⟨?_, ?_, Y, hY1, hY2, k4, dump_frame0 w.zero, acc_zero (dump_ok hY).1 k4⟩
      · have hx : Run.expected (.host tmp args fits a) = .failed := by
          simp only [Run.expected]
          rw [if_neg (by simpa using h1)]
        have hd : (dump σ2).err = true := k3.trans w.err
        rw [hx]
        simp only [hd, if_true]
      · intro o
        show (dump σ2).globals o = _
        rw [k2, w.glob o, g0, show Run.keeps (.host tmp args fits a) = [] from rfl, occ_nil]
        rfl

/-- A history. -/
theorem runs_fine (rs : List Run) : ∀ (σ : St) (X : Nat → Int), Idle σ X → (∀ r ∈ rs, r.Reported) →
    (runAll σ rs).2 = rs.map Run.expected ∧ (∀ o, (runAll σ rs).1.globals o = σ.globals o + occ o (rs.flatMap Run.keeps)) ∧
      ∃ Y, (∀ o, X o ≤ Y o) ∧ ((∀ r ∈ rs, r.Clean) → ∀ o, Y o = X o) ∧ Idle (runAll σ rs).1 Y := by
  induction rs with
  | nil => intro σ X h _; exact ⟨rfl, fun o => by simp [runAll, occ_nil], X, fun _ => Int.le_refl _, fun _ _ => rfl, h⟩
  | cons r rs ih =>
    intro σ X h hr
    obtain ⟨a1, a2, Y, a3, a4, a5⟩ := run_fine r σ X h (hr r (by simp))
    obtain ⟨b1, b2, Z, b3, b4, b5⟩ := ih (runStep σ r).1 Y a5 (fun q hq => hr q (by simp [hq]))
    refine ⟨?_, ?_, Z, fun o => Int.le_trans (a3 o) (b3 o), ?_, b5⟩
    · simp only [runAll, List.map_cons, a1, b1]
    · intro o
      simp only [runAll, List.flatMap_cons, occ_append]
      rw [b2 o, a2 o]
      omega
    · intro hc o
      rw [b4 (fun q hq => hc q (by simp [hq])) o, a4 (hc r (by simp)) o]

end Verif.Vm.Abort
