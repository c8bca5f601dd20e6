import Verif.Vm.ShareProof
/-
Properties of the share manager: C33 (reference counts), C34 (leaving a scope), C50 (`makeObjectShared`).
-/
namespace Verif.Share
open Verif

/-! ### C33 -/

/-- C33, the full property for a notion of allowed calls: an object that has a holder exists, and every allowed
call ends normally (no use of a freed object, no double free, no internal error, no endless loop). -/
def RefCountSafe (allowed : S → G → Op → Prop) : Prop :=
  ∀ s g, Reach allowed s g →
    (∀ o, 0 < holders s g o → o ∈ s.live ∧ ∃ i, s.info o = some i ∧ i.shares = holders s g o) ∧
    ∀ op, allowed s g op → ∃ s', Completes s op s'

/-- C33, proved for histories that stay below 65536 holders per object and take up a waiting object again only in
the block where it was created. -/
theorem refcount_partial : RefCountSafe Legal := by
  intro s g hr
  have hg := reach_good hr
  refine ⟨?_, fun op hl => ?_⟩
  · obtain ⟨pend, I, hb⟩ := hg
    intro o ho
    have ho' := ho
    rw [holders_eq] at ho
    obtain ⟨i, hi, hl, _⟩ := I.held ho
    refine ⟨hl, i, hi, ?_⟩
    rw [holders_eq, ← I.acc o]; simp [sh, hi]
  · obtain ⟨n, s', e, _⟩ := good_step hg hl
    exact ⟨s', completes_of e⟩

/-- C33: a managed object without holder waits in some block, and the next clean-up of that block destroys it,
unless it is being returned: then it survives without node. -/
theorem unheld_swept_partial {s g o} (hr : Reach Legal s g) (hm : (s.info o).isSome) (h0 : holders s g o = 0) :
    ∃ b, g.box o = some b ∧ ∀ ret s', Completes s (.sweep b ret) s' →
      if ret o then o ∈ s'.live ∧ s'.info o = none else o ∉ s'.live := by
  obtain ⟨pend, I, hb⟩ := reach_good hr
  have : ∃ b, o ∈ pend b := (I.pnd o).2 ⟨hm, by rw [I.acc, ← holders_eq]; exact h0, by simp⟩
  obtain ⟨b, hob⟩ := this
  refine ⟨b, (hb o b).1 hob, fun ret s' hc => ?_⟩
  obtain ⟨s2, e, _, _, _, hd, hk, _⟩ := sweep_inv I b ret (Nat.le_refl _)
  have : Out.ok s2 = Out.ok s' := hc.2 _ _ e
  injection this with this
  subst this
  cases hro : ret o with
  | true => simpa [hro] using hk o hob hro
  | false => simpa [hro] using hd o hob hro

/-- C33: giving back the last share without a block destroys the object at once. -/
theorem last_drop_destroys_partial {s g o s'} (hr : Reach Legal s g) (h0 : 0 < g.holds o) (h1 : holders s g o = 1)
    (hc : Completes s (.drop o none) s') : o ∉ s'.live := by
  obtain ⟨pend, I, hb⟩ := reach_good hr
  have hE : g.holds o = (set g.holds o (g.holds o - 1)) o + 1 := by simp [set]; omega
  have hX : ∀ x, x ≠ o → g.holds x = (set g.holds o (g.holds o - 1)) x := by intro x hx; simp [set, hx]
  obtain ⟨s2, e, I', L, _⟩ := unref_null_inv I hE hX (Nat.le_refl _)
  have : Out.ok s2 = Out.ok s' := hc.2 _ _ e
  injection this with this
  subst this
  intro hl
  have hs : sh s o = 1 := by rw [I.acc, ← holders_eq]; exact h1
  have hm : (s.info o).isSome := by
    unfold sh at hs
    cases hi : s.info o with
    | none => rw [hi] at hs; cases hs
    | some i => rfl
  have hm' := L.man o hl hm rfl
  -- no holder is left, so it would wait in a block, but no list has changed
  have hocc : occ s2 [] o ≤ occ s [] o := by
    have hz : occ s [] o = 0 ∨ ∃ p, p ∈ s.live ∧ o ∈ s.kids p := by
      by_cases h : ∃ p, p ∈ s.live ∧ o ∈ s.kids p
      · exact .inr h
      · refine .inl ?_
        unfold occ
        rw [List.count_eq_zero]
        intro hm
        obtain ⟨p, hp, hk⟩ := List.mem_flatMap.1 hm
        exact h ⟨p, (List.mem_filter.1 hp).1, hk⟩
    rcases hz with hz | ⟨p, hp, hk⟩
    · rw [hz]
      have : occ s2 [] o = 0 := by
        unfold occ
        rw [List.count_eq_zero]
        intro hm
        obtain ⟨p, hp, hk⟩ := List.mem_flatMap.1 hm
        rw [L.kids] at hk
        have := occ_pos (D := []) I.nodup (L.sub p (List.mem_filter.1 hp).1) (by simp) hk
        omega
      omega
    · have := occ_pos (D := []) I.nodup hp (by simp) hk
      rw [holders_eq] at h1
      omega
  have h2 : sh s2 o = 0 := by
    rw [I'.acc]
    rw [holders_eq] at h1
    omega
  obtain ⟨b, hob⟩ := (I'.pnd o).2 ⟨hm', h2, by simp⟩
  have := (I.pnd o).1 ⟨b, hob⟩
  omega

/-- C33: objects disappear only when nobody holds them any more. -/
theorem destroyed_unheld_partial {s g op s' o} (hr : Reach Legal s g) (hl : Legal s g op) (hc : Completes s op s')
    (hd : o ∉ s'.live) : holders s' (g.next s op) o = 0 := by
  obtain ⟨n, hn⟩ := hc.1
  have := (refcount_partial s' (g.next s op) (.op hr hl (hn n (Nat.le_refl n)))).1 o
  rcases Nat.eq_zero_or_pos (holders s' (g.next s op) o) with h | h
  · exact h
  · exact absurd (this h).1 hd

/-! ### C34 -/

/-- C34: leaving a block with variables `vars`: all of them become undefined, every object that survives as
managed has lost exactly one share per variable that held it (and the shares of elements of destroyed
containers), an object of the block or of its variables that is left without holder is destroyed, unless it is
returned. -/
theorem leave_releases_partial {s g b vars ret} (hr : Reach Legal s g) (hl : Client s g (.leave b vars ret)) :
    ∃ n s', (∀ fuel, n ≤ fuel → popScope fuel s b vars ret = some (.ok (s', vars.map fun _ => none))) ∧
      (∀ o i, s'.info o = some i → i.shares =
        (g.holds o - vars.count (some o)) + (s'.live.map fun p => (s.kids p).count o).sum) ∧
      (∀ o, (s.info o).isSome → (g.box o = some b ∨ some o ∈ vars) → ret o = false →
        (g.holds o - vars.count (some o)) + (s'.live.map fun p => (s.kids p).count o).sum = 0 → o ∉ s'.live) := by
  obtain ⟨pend, I, hb⟩ := reach_good hr
  have hE : ∀ x, g.holds x = (fun x => g.holds x - vars.count (some x)) x + vars.count (some x) := by
    intro x; have := hl x; simp only; omega
  obtain ⟨s1, s', e1, I1, L1, e2, e, I', L2, hd, hk, _⟩ := popScope_inv (b := b) I hE ret (Nat.le_refl _)
  have hks : s'.kids = s.kids := L2.kids.trans L1.kids
  have hH : ∀ o, sh s' o = (g.holds o - vars.count (some o)) + (s'.live.map fun p => (s.kids p).count o).sum := by
    intro o
    have := holders_eq s' ⟨fun x => g.holds x - vars.count (some x), g.box⟩ o
    rw [I'.acc]
    unfold holders at this
    rw [hks] at this
    exact this.symm
  refine ⟨2 * total s + 2 + (pend b).length, s', ?_, ?_, ?_⟩
  · intro fuel hf
    obtain ⟨k, rfl⟩ : ∃ k, fuel = (2 * total s + 2 + (pend b).length) + k := ⟨fuel - (2 * total s + 2 + (pend b).length), by omega⟩
    clear hf
    induction k with
    | zero => exact e
    | succ k ih => exact popScope_mono ih
  · intro o i hi
    rw [← hH]; simp [sh, hi]
  · intro o hm ho hro h0 hlive
    rw [← hH] at h0
    rcases ho with ho | ho
    · exact hd o ((hb o b).2 ho) hro hlive
    · have hm' := L2.man o hlive (L1.man o (L2.sub o hlive) hm hro) hro
      obtain ⟨c, hoc⟩ := (I'.pnd o).2 ⟨hm', h0, by simp⟩
      have hop : o ∈ pend c := by
        by_cases h : c = b
        · subst h; rw [upd_self] at hoc; cases hoc
        · rwa [upd_ne _ _ h] at hoc
      have := (I.pnd o).1 ⟨c, hop⟩
      have hcnt := List.count_pos_iff.2 ho
      have := hl o
      have := I.acc o
      omega

/-- C34, the full property for returned values: an object that is returned outlives the block. -/
def ReturnSurvives (ok : S → Nat → Prop) : Prop :=
  ∀ s g b vars ret s', Reach Legal s g → Legal s g (.leave b vars ret) → Completes s (.leave b vars ret) s' →
    ∀ o, o ∈ s.live → ret o = true → ok s o → o ∈ s'.live

/-- C34: proved for returned objects that are not elements of a container. -/
theorem return_survives_partial : ReturnSurvives fun s o => ∀ p, p ∈ s.live → o ∉ s.kids p := by
  intro s g b vars ret s' hr hl hc o hol hro hk
  obtain ⟨pend, I, hb⟩ := reach_good hr
  have hE : ∀ x, g.holds x = (fun x => g.holds x - vars.count (some x)) x + vars.count (some x) := by
    intro x; have := hl.1 x; simp only; omega
  obtain ⟨s1, s2, e1, I1, L1, e2, e, I', L2, hd, hkk, ho⟩ := popScope_inv (b := b) I hE ret (Nat.le_refl _)
  have hs : s2 = s' := by
    have := hc.2 (2 * total s + 2 + (pend b).length) (.ok s2) (by simp only [step, e]; rfl)
    injection this
  subst hs
  have h1 := popVars_keep hro vars s s1 pend _ _ I hE (by omega) e1 hol hk
  -- the object after the variables: waiting in this block, waiting elsewhere or held, or without node
  by_cases hi : s1.info o = none
  · exact (L2.keep o h1.1 hi).1
  · by_cases hp : o ∈ pend b
    · exact (hkk o hp hro).1
    · exact ho o h1.1 hp h1.2

/-! ### Histories by computation -/

/-- `Client` as a check. -/
def clientB (s : S) (g : G) : Op → Bool
  | .alloc o _ => decide (o ∉ s.live)
  | .create o _ => decide (o ∈ s.live) && !s.const o && (s.info o).isNone
  | .hold o => (s.info o).isSome
  | .drop o _ => decide (0 < g.holds o)
  | .attach p o => decide (p ∈ s.live) && (s.info o).isSome
  | .detach p o _ => decide (p ∈ s.live) && decide (o ∈ s.kids p)
  | .sweep _ _ => true
  | .leave _ vars _ => vars.all fun v => v.all fun o => decide (vars.count (some o) ≤ g.holds o)

def limitsB (s : S) (g : G) : Op → Bool
  | .hold o | .attach _ o =>
    decide (holders s g o < 65535) && (decide (g.box o = none) || decide (g.box o = (s.info o).map (·.home)))
  | _ => true

theorem clientB_sound {s g op} (h : clientB s g op = true) : Client s g op := by
  cases op with
  | leave b vars ret =>
    intro o
    by_cases ho : some o ∈ vars
    · have := List.all_eq_true.1 h _ ho
      simpa using this
    · rw [List.count_eq_zero.2 ho]; exact Nat.zero_le _
  | create o b => simpa [clientB, Client, and_assoc] using h
  | _ => simpa [clientB, Client] using h

theorem limitsB_sound {s g op} (h : limitsB s g op = true) : InLimits s g op := by
  cases op <;> simpa [limitsB, InLimits] using h

/-- Runs a history, checking each call. -/
def runB (allowed : S → G → Op → Bool) : List Op → S × G → Option (S × G)
  | [], p => some p
  | op :: ops, (s, g) =>
    if allowed s g op then
      match step 100 s op with
      | some (.ok s') => runB allowed ops (s', g.next s op)
      | _ => none
    else none

theorem runB_reach {allowed : S → G → Op → Prop} {check : S → G → Op → Bool}
    (hc : ∀ s g op, check s g op = true → allowed s g op) : ∀ (ops : List Op) (p q : S × G), Reach allowed p.1 p.2 →
    runB check ops p = some q → Reach allowed q.1 q.2
  | [], p, q, hr, h => by simp [runB] at h; subst h; exact hr
  | op :: ops, (s, g), q, hr, h => by
    rw [runB] at h
    split at h
    · rename_i ha
      cases hs : step 100 s op with
      | none => rw [hs] at h; cases h
      | some r =>
        rw [hs] at h
        cases r with
        | err => cases h
        | ub => cases h
        | ok s' => exact runB_reach hc ops (s', g.next s op) q (.op hr (hc _ _ _ ha) hs) h
    · cases h

def legalB (s : S) (g : G) (op : Op) : Bool := clientB s g op && limitsB s g op

theorem legalB_sound {s g op} (h : legalB s g op = true) : Legal s g op := by
  simp only [legalB, Bool.and_eq_true] at h
  exact ⟨clientB_sound h.1, limitsB_sound h.2⟩

def after (check : S → G → Op → Bool) (ops : List Op) : Option (S × G) := runB check ops (S.init, G.init)

theorem after_legal {ops q} (h : after legalB ops = some q) : Reach Legal q.1 q.2 :=
  runB_reach (fun _ _ _ => legalB_sound) ops _ q .init h

theorem after_client {ops q} (h : after clientB ops = some q) : Reach Client q.1 q.2 :=
  runB_reach (fun _ _ _ => clientB_sound) ops _ q .init h

/-! ### Non-trivial histories -/

/-- `var o=[..]; var l=[o]; var t=[..]; t=undefined` in block 3. -/
def history : List Op :=
  [.alloc 1 false, .create 1 3, .hold 1, .alloc 2 false, .create 2 3, .attach 2 1, .hold 2,
   .alloc 5 false, .create 5 3, .hold 5, .drop 5 (some 3)]

def historyState : S × G := ((after legalB history).get (by decide +kernel))

theorem history_reach : Reach Legal historyState.1 historyState.2 := after_legal (Option.some_get _).symm

example : holders historyState.1 historyState.2 1 = 2 ∧ holders historyState.1 historyState.2 2 = 1 ∧
    historyState.2.box 5 = some 3 ∧ (historyState.1.info 5).isSome = true ∧ holders historyState.1 historyState.2 5 = 0 := by
  decide +kernel

/-- Every kind of call is allowed somewhere. -/
example : Legal historyState.1 historyState.2 (.alloc 9 true) ∧ Legal historyState.1 historyState.2 (.hold 5) ∧
    Legal historyState.1 historyState.2 (.drop 1 none) ∧ Legal historyState.1 historyState.2 (.attach 2 5) ∧
    Legal historyState.1 historyState.2 (.detach 2 1 (some 3)) ∧
    Legal historyState.1 historyState.2 (.sweep 3 fun _ => false) ∧
    Legal historyState.1 historyState.2 (.leave 3 [some 1, some 2, none] fun o => o == 5) :=
  ⟨legalB_sound (by decide +kernel), legalB_sound (by decide +kernel), legalB_sound (by decide +kernel),
   legalB_sound (by decide +kernel), legalB_sound (by decide +kernel), legalB_sound (by decide +kernel),
   legalB_sound (by decide +kernel)⟩

/-- After the block is left nothing is there any more. -/
example : ((step 100 historyState.1 (.leave 3 [some 1, some 2, none] fun _ => false)).map fun
    | .ok s => s.live.length
    | _ => 99) = some 0 := by decide +kernel

/-! ### Violations -/

/-- `a,b = b,a` on two globals of block 0, in a function body with block 1: `b`'s object is held, `a`'s is left
without holder in block 1, and is then taken up again. Then block 1 is cleaned. -/
def swapHistory : List Op :=
  [.alloc 1 false, .create 1 0, .hold 1, .alloc 2 false, .create 2 0, .hold 2,
   .hold 2, .drop 1 (some 1), .hold 1, .drop 2 (some 1)]

def swapState : S × G := ((after clientB swapHistory).get (by decide +kernel))

/-- The clean-up fails: the share manager reports an internal error although both objects are properly held. -/
theorem refcount_swap_violated : ¬ RefCountSafe Client := by
  intro h
  have hr : Reach Client swapState.1 swapState.2 := after_client (Option.some_get _).symm
  obtain ⟨s', hs⟩ := (h _ _ hr).2 (.sweep 1 fun _ => false) trivial
  have e : step 100 swapState.1 (.sweep 1 fun _ => false) = some .err := by
    have : ((step 100 swapState.1 (.sweep 1 fun _ => false)).map fun
      | .ok _ => 0
      | .err => 1
      | .ub => (2 : Nat)) = some 1 := by decide +kernel
    generalize step 100 swapState.1 (.sweep 1 fun _ => false) = r at this
    cases r with
    | none => cases this
    | some r => cases r <;> simp at this ⊢
  have := hs.2 _ _ e
  cases this

/-- Allowed: everything but taking up a waiting object elsewhere; the number of holders is not limited. -/
def HomeOnly (s : S) (g : G) (op : Op) : Prop := Client s g op ∧
  match op with
  | .hold o | .attach _ o => g.box o = none ∨ g.box o = (s.info o).map (·.home)
  | _ => True

theorem homeOnly_of_legal {s g op} (h : Legal s g op) : HomeOnly s g op := by
  refine ⟨h.1, ?_⟩
  cases op with
  | hold o => exact h.2.2
  | attach p o => exact h.2.2
  | _ => trivial

/-- The counter after `k + 1` variables hold the object. -/
theorem wrap_reach : ∀ k, k ≤ 65535 → ∃ s g, Reach HomeOnly s g ∧ g.holds 1 = k + 1 ∧ g.box 1 = none ∧ 1 ∈ s.live ∧
    s.const 1 = false ∧ s.info 1 = some ⟨(k + 1) % 65536, 0⟩
  | 0, _ => by
    have h := runB_reach (allowed := HomeOnly) (check := legalB) (fun s g op h => homeOnly_of_legal (legalB_sound h))
      [.alloc 1 false, .create 1 0, .hold 1] (S.init, G.init)
      ((runB legalB [.alloc 1 false, .create 1 0, .hold 1] (S.init, G.init)).get (by decide +kernel)) .init
      (Option.some_get _).symm
    exact ⟨_, _, h, by decide +kernel, by decide +kernel, by decide +kernel, by decide +kernel, by decide +kernel⟩
  | k + 1, hk => by
    obtain ⟨s, g, hr, hh, hb, hl, hc, hi⟩ := wrap_reach k (by omega)
    have hm : (k + 1) % 65536 = k + 1 := Nat.mod_eq_of_lt (by omega)
    have hn : ¬ (k + 1 = 0) := by omega
    have e : step 0 s (.hold 1) = some (.ok (s.setInfo 1 (some ⟨(k + 1 + 1) % 65536, 0⟩))) := by
      simp only [step, share, hl, not_true, if_false, hc, Bool.false_eq_true, hi, hm, hn]
    refine ⟨_, _, Reach.op (op := .hold 1) hr ⟨by simp [Client, hi], Or.inl hb⟩ e, ?_, ?_, hl, hc, ?_⟩
    · simp [G.next, set, hh]
    · simp [G.next, set]
    · simp [S.setInfo]

/-- The counter is an `unsigned short`: with 65536 holders it is 0, and the next holder that gives back its share
gets an internal error. -/
theorem refcount_wrap_violated : ¬ RefCountSafe HomeOnly := by
  intro h
  obtain ⟨s, g, hr, hh, hb, hl, hc, hi⟩ := wrap_reach 65535 (Nat.le_refl _)
  obtain ⟨s', hs⟩ := (h s g hr).2 (.drop 1 none) ⟨by simp [Client, hh], trivial⟩
  have e : step 1 s (.drop 1 none) = some .err := by
    simp [step, unref, drain, hl, hc, hi]
  have := hs.2 _ _ e
  cases this

/-- `var o=[..]; var l=[o]; return o`: leaving the block destroys the returned object: it has two shares, so the
variable `o` gives one back, and the destruction of `l` gives back the last one. -/
theorem return_survives_violated : ¬ ReturnSurvives fun _ _ => True := by
  intro h
  obtain ⟨s', hc⟩ := (refcount_partial _ _ history_reach).2 (.leave 3 [some 1, some 2, none] fun o => o == 1)
    (legalB_sound (by decide +kernel))
  have := h _ _ 3 [some 1, some 2, none] (fun o => o == 1) s' history_reach (legalB_sound (by decide +kernel)) hc 1
    (by decide +kernel) rfl trivial
  have e : ((step 100 historyState.1 (.leave 3 [some 1, some 2, none] fun o => o == 1)).map fun
    | .ok s => s.live
    | _ => [1]) = some [] := by decide +kernel
  cases hs : step 100 historyState.1 (.leave 3 [some 1, some 2, none] fun o => o == 1) with
  | none => rw [hs] at e; cases e
  | some r =>
    have hr := hc.2 _ _ hs
    subst hr
    rw [hs] at e
    simp only [Option.map_some, Option.some.injEq] at e
    rw [e] at this
    cases this

/-- The other half of the two: with the container declared first the object survives. -/
example : ((step 100 historyState.1 (.leave 3 [some 2, some 1, none] fun o => o == 1)).map fun
    | .ok s => s.live
    | _ => []) = some [1] := by decide +kernel

/-! ### C50 -/

/-- C50, the full property. -/
def MakesShared : Prop :=
  ∀ s o b, o ∈ s.live → s.const o = false → s.info o = none → s.heap.next o = none → s.heap.prev o = none →
    ∃ s', makeObjectShared s o b = .ok s' ∧ ∃ i, s'.info o = some i ∧ i.shares = 1

/-- C50: an object that is already shared is refused. -/
theorem makeShared_refuses_partial {s o b} (hl : o ∈ s.live) (hi : (s.info o).isSome) : makeObjectShared s o b = .err := by
  obtain ⟨i, hi'⟩ := Option.isSome_iff_exists.1 hi
  unfold makeObjectShared
  rw [if_neg (by simpa using hl), if_pos hi]
  unfold create
  rw [if_neg (by simpa using hl)]
  cases s.const o <;> simp [hi', Out.bind]

/-- C50: the call never succeeds: the test for an unshared object is the wrong way round. -/
theorem makeShared_never {s o b s'} : makeObjectShared s o b ≠ .ok s' := by
  intro h
  unfold makeObjectShared at h
  split at h
  · cases h
  · rename_i hl
    split at h
    · rename_i hi
      have := makeShared_refuses_partial (b := b) (by simpa using hl) hi
      unfold makeObjectShared at this
      rw [if_neg hl, if_pos hi] at this
      rw [this] at h; cases h
    · cases h

theorem makeShared_violated : ¬ MakesShared := by
  intro h
  obtain ⟨s', e, _⟩ := h (alloc S.init 1 false) 1 0 (by decide) (by decide) (by decide) rfl rfl
  exact makeShared_never e

example : (1 : Nat) ∈ historyState.1.live ∧ (historyState.1.info 1).isSome = true := by decide +kernel

end Verif.Share
