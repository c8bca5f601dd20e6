import Verif.Vm.ShareSpec
import Verif.Vm.ShareSteps
/-
Histories preserve the invariant.
-/
namespace Verif.Share
open Verif Verif.Ring

theorem holders_eq (s : S) (g : G) (o : Nat) : holders s g o = g.holds o + occ s [] o := by
  unfold holders occ
  have : (s.live.filter fun p => decide (p ∉ ([] : List Nat))) = s.live := by simp
  rw [this, List.count_flatMap]
  rfl

def Good (s : S) (g : G) : Prop := ∃ pend, Inv s g.holds pend [] ∧ ∀ o b, o ∈ pend b ↔ g.box o = some b

theorem step_mono {fuel : Nat} {s : S} {op : Op} {r : Out S} (h : step fuel s op = some r) :
    step (fuel + 1) s op = some r := by
  cases op with
  | alloc o k => exact h
  | create o b => exact h
  | hold o => exact h
  | drop o blk => exact unref_mono h
  | attach p o => exact h
  | detach p o blk => exact detach_mono h
  | sweep b ret => exact sweep_mono h
  | leave b vars ret =>
    simp only [step] at h ⊢
    cases hp : popScope fuel s b vars ret with
    | none => rw [hp] at h; cases h
    | some q => rw [popScope_mono hp]; rw [hp] at h; exact h

theorem step_mono' {s : S} {op : Op} {r : Out S} {fuel : Nat} (h : step fuel s op = some r) (k : Nat) :
    step (fuel + k) s op = some r := by
  induction k with
  | zero => exact h
  | succ k ih => exact step_mono ih

theorem completes_of {s : S} {op : Op} {s' : S} {n : Nat} (h : step n s op = some (.ok s')) : Completes s op s' := by
  refine ⟨⟨n, fun fuel hf => ?_⟩, fun fuel r hr => ?_⟩
  · have := step_mono' h (fuel - n)
    rwa [Nat.add_sub_cancel' hf] at this
  · have h1 := step_mono' h fuel
    have h2 := step_mono' hr n
    rw [Nat.add_comm] at h2
    rw [h1] at h2
    injection h2 with h2
    exact h2.symm

theorem good_init : Good S.init G.init := ⟨fun _ => [], inv_init, by simp [G.init]⟩

theorem good_step {s g op} (hg : Good s g) (hl : Legal s g op) :
    ∃ n s', step n s op = some (.ok s') ∧ Good s' (g.next s op) := by
  obtain ⟨pend, I, hb⟩ := hg
  obtain ⟨hc, hlim⟩ := hl
  have hsh : ∀ o, sh s o = holders s g o := fun o => by rw [holders_eq]; exact I.acc o
  have home : ∀ o i, s.info o = some i → (g.box o = none ∨ g.box o = (s.info o).map (·.home)) →
      (i.shares = 0 → o ∈ pend i.home) := by
    intro o i hi hbx h0
    have : ∃ b, o ∈ pend b := (I.pnd o).2 ⟨by simp [hi], by simp [sh, hi, h0], by simp⟩
    obtain ⟨b, hb'⟩ := this
    have hb'' := (hb o b).1 hb'
    rw [hb''] at hbx
    rcases hbx with h | h
    · cases h
    · rw [hi] at h
      injection h with h
      subst h; exact hb'
  cases op with
  | alloc o k =>
    exact ⟨0, _, rfl, pend, alloc_inv I hc k, hb⟩
  | create o b =>
    obtain ⟨h, d, e, I'⟩ := create_inv (b := b) I hc.1 hc.2.1 hc.2.2
    refine ⟨0, _, by simp only [step, e], _, I', ?_⟩
    intro x c
    rw [mem_upd, hb]
    simp only [G.next, set]
    by_cases hx : x = o
    · subst hx
      have : g.box x ≠ some c := by
        intro hq; exact I.notIn hc.2.2 c ((hb x c).2 hq)
      simp [this, eq_comm]
    · simp [hx]
  | hold o =>
    obtain ⟨i, hi⟩ := Option.isSome_iff_exists.1 hc
    have hs : i.shares = holders s g o := by rw [← hsh]; simp [sh, hi]
    obtain ⟨s', pend', e, I', hp, _⟩ := share_inv (ext' := set g.holds o (g.holds o + 1)) I hi
      (by rw [hs]; exact hlim.1) (home o i hi hlim.2) (by simp [set]) (by intro x hx; simp [set, hx])
    refine ⟨0, s', by simp only [step, e], pend', I', ?_⟩
    intro x c
    rw [hp, hb]
    simp only [G.next, set]
    by_cases hx : x = o <;> simp [hx]
  | drop o blk =>
    have hE : g.holds o = (set g.holds o (g.holds o - 1)) o + 1 := by
      have : 0 < g.holds o := hc
      simp [set]; omega
    have hX : ∀ x, x ≠ o → g.holds x = (set g.holds o (g.holds o - 1)) x := by intro x hx; simp [set, hx]
    cases blk with
    | none =>
      obtain ⟨s', e, I', _⟩ := unref_null_inv I hE hX (Nat.le_refl _)
      exact ⟨_, s', e, pend, I', hb⟩
    | some b =>
      obtain ⟨s', pend', e, I', hp, _⟩ := unref_block_inv (b := b) I hE hX 0
      refine ⟨0, s', e, pend', I', ?_⟩
      intro x c
      rw [hp, hb]
      simp only [G.next]
      have h1 : holders s g o = 1 ↔ set g.holds o (g.holds o - 1) o + occ s [] o = 0 := by
        rw [holders_eq]; omega
      by_cases h : holders s g o = 1
      · rw [if_pos h]
        simp only [h1.1 h, and_true]
        simp only [set]
        by_cases hx : x = o
        · subst hx
          have : g.box x ≠ some c := by
            intro hq
            exact I.notIn' (o := x) (by rw [hsh, h]; decide) c ((hb x c).2 hq)
          simp [this, eq_comm]
        · simp [hx]
      · rw [if_neg h]
        have h2 : ¬ (set g.holds o (g.holds o - 1) o + occ s [] o = 0) := fun h' => h (h1.2 h')
        simp only [h2, and_false, or_false]
  | attach p o =>
    obtain ⟨i, hi⟩ := Option.isSome_iff_exists.1 hc.2
    have hs : i.shares = holders s g o := by rw [← hsh]; simp [sh, hi]
    obtain ⟨s', pend', e, I', hp, hlv, hk, _, _⟩ := share_inv (ext' := set g.holds o (g.holds o + 1)) I hi
      (by rw [hs]; exact hlim.1) (home o i hi hlim.2) (by simp [set]) (by intro x hx; simp [set, hx])
    have I2 := kids_inv (p := p) (l := s'.kids p ++ [o]) (ext' := g.holds) I' (by rw [hlv]; exact hc.1) (by
      intro x
      rw [List.count_append]
      by_cases hx : x = o
      · subst hx; simp [set]; omega
      · simp [set, hx, Ne.symm hx])
    refine ⟨0, s'.setKids p (s'.kids p ++ [o]), ?_, pend', I2, ?_⟩
    · simp only [step, attach, hc.1, not_true, if_false, e, Out.bind]
    · intro x c
      rw [hp, hb]
      simp only [G.next, set]
      by_cases hx : x = o <;> simp [hx]
  | detach p o blk =>
    have hcount := List.count_pos_iff.2 hc.2
    have I1 := kids_inv (p := p) (l := (s.kids p).erase o) (ext' := set g.holds o (g.holds o + 1)) I hc.1 (by
      intro x
      by_cases hx : x = o
      · subst hx; rw [List.count_erase_self]; simp [set]; omega
      · rw [List.count_erase_of_ne hx]; simp [set, hx])
    have hE : set g.holds o (g.holds o + 1) o = g.holds o + 1 := by simp [set]
    have hX : ∀ x, x ≠ o → set g.holds o (g.holds o + 1) x = g.holds x := by intro x hx; simp [set, hx]
    cases blk with
    | none =>
      obtain ⟨s', e, I', _⟩ := unref_null_inv I1 hE hX (Nat.le_refl _)
      refine ⟨2 * total (s.setKids p ((s.kids p).erase o)), s', ?_, pend, I', hb⟩
      simp only [step, detach, hc.1, not_true, if_false]
      exact e
    | some b =>
      obtain ⟨s', pend', e, I', hp, _⟩ := unref_block_inv (b := b) I1 hE hX 0
      refine ⟨0, s', ?_, pend', I', ?_⟩
      · simp only [step, detach, hc.1, not_true, if_false]
        exact e
      · intro x c
        rw [hp, hb]
        simp only [G.next]
        have hacc := I1.acc o
        have hs1 : sh (s.setKids p ((s.kids p).erase o)) o = holders s g o := hsh o
        rw [hs1, hE] at hacc
        have h1 : holders s g o = 1 ↔ g.holds o + occ (s.setKids p ((s.kids p).erase o)) [] o = 0 := by omega
        by_cases h : holders s g o = 1
        · rw [if_pos h]
          simp only [h1.1 h, and_true, set]
          by_cases hx : x = o
          · subst hx
            have : g.box x ≠ some c := by
              intro hq
              exact I.notIn' (o := x) (by rw [hsh, h]; decide) c ((hb x c).2 hq)
            simp [this, eq_comm]
          · simp [hx]
        · rw [if_neg h]
          have h2 : ¬ (g.holds o + occ (s.setKids p ((s.kids p).erase o)) [] o = 0) := fun h' => h (h1.2 h')
          simp only [h2, and_false, or_false]
  | sweep b ret =>
    obtain ⟨s', e, I', _⟩ := sweep_inv I b ret (Nat.le_refl _)
    refine ⟨_, s', e, _, I', ?_⟩
    intro x c
    simp only [G.next]
    by_cases hcb : c = b
    · subst hcb
      rw [upd_self]
      simp only [List.not_mem_nil, false_iff]
      split
      · simp
      · assumption
    · rw [upd_ne _ _ hcb, hb]
      by_cases h : g.box x = some b
      · simp [h]; exact fun h => hcb h.symm
      · simp [h]
  | leave b vars ret =>
    have hE : ∀ x, g.holds x = (fun x => g.holds x - vars.count (some x)) x + vars.count (some x) := by
      intro x; have := hc x; simp only; omega
    obtain ⟨s1, s', _, _, _, _, e, I', _⟩ := popScope_inv (b := b) I hE ret (Nat.le_refl _)
    refine ⟨2 * total s + 2 + (pend b).length, s', by simp only [step, e]; rfl, _, I', ?_⟩
    intro x c
    simp only [G.next]
    by_cases hcb : c = b
    · subst hcb
      rw [upd_self]
      simp only [List.not_mem_nil, false_iff]
      split
      · simp
      · assumption
    · rw [upd_ne _ _ hcb, hb]
      by_cases h : g.box x = some b
      · simp [h]; exact fun h => hcb h.symm
      · simp [h]

theorem reach_good {s g} (h : Reach Legal s g) : Good s g := by
  induction h with
  | init => exact good_init
  | @op s g op fuel s' hr hl hs ih =>
    obtain ⟨n, s2, e, hg⟩ := good_step ih hl
    have := (completes_of e).2 fuel _ hs
    injection this with this
    subst this
    exact hg

end Verif.Share
