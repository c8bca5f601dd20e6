import Verif.Vm.SlotsClear
/-
Helper lemmas: an object that is not freed after a sweep is one a variable leads to, or is held by a cycle.
-/
namespace Verif.Slots
open Verif Verif.SlotsSpec

theorem leads_trans {A : Heap} {p q o : Nat} (h : A.Leads p q) (g : A.Leads q o) : A.Leads p o := by
  induction h with
  | one e => exact .more e g
  | more e _ ih => exact .more e (ih g)

theorem nodup_le {L : List Nat} : ∀ (V : List Nat), V.Nodup → (∀ v ∈ V, v ∈ L) → V.length ≤ L.length := by
  intro V hn hs
  have := countP_ge (fun _ => true) V L hn (fun v hv => ⟨hs v hv, rfl⟩)
  exact Nat.le_trans this List.countP_le_length

/-- Going backwards for ever among finitely many objects meets a cycle. -/
theorem back {A : Heap} {L : List Nat} {P : Nat → Prop} (hp : ∀ c ∈ L, P c → ∃ b k, b ∈ L ∧ P b ∧ A.elem b k = some (.ref c)) (o : Nat) :
    ∀ (n : Nat) (V : List Nat) (c : Nat), c ∈ L → P c → (c = o ∨ A.Leads c o) → (∀ v ∈ V, A.Leads c v) → V.Nodup → (∀ v ∈ V, v ∈ L) →
      L.length - V.length ≤ n → A.Cyclic o
  | n, V, c, hc, hP, ho, hV, hn, hs, hl => by
    by_cases hcV : c ∈ V
    · exact ⟨c, hV c hcV, ho⟩
    · have hlen := nodup_le (L := L) (c :: V) (List.nodup_cons.2 ⟨hcV, hn⟩) (fun v hv => by
        rcases List.mem_cons.1 hv with rfl | h
        · exact hc
        · exact hs v h)
      simp only [List.length_cons] at hlen
      obtain ⟨b, k, hb, hPb, e⟩ := hp c hc hP
      cases n with
      | zero => omega
      | succ n =>
        refine back hp o n (c :: V) b hb hPb ?_ ?_ (List.nodup_cons.2 ⟨hcV, hn⟩) ?_ ?_
        · rcases ho with rfl | h
          · exact Or.inr (.one e)
          · exact Or.inr (.more e h)
        · intro v hv
          rcases List.mem_cons.1 hv with rfl | h
          · exact .one e
          · exact .more e (hV v h)
        · intro v hv
          rcases List.mem_cons.1 hv with rfl | h
          · exact hc
          · exact hs v h
        · simp only [List.length_cons]; omega

theorem cnt_pos {s : S} {o : Nat} (hn : Nd s) (h : Slots.cnt s o ≠ 0) : ∃ l v, s.get l = some v ∧ tgt s v = some o := by
  have h : 0 < s.mem.countP fun e => decide (tgt s e.2 = some o) := Nat.pos_of_ne_zero h
  obtain ⟨⟨l, v⟩, hm, hd⟩ := List.countP_pos_iff.1 h
  exact ⟨l, v, mem_lookup hn hm, by simpa using hd⟩

theorem leaked {s : S} {A : Heap} (h : St (fun _ => False) Z s A) (hz : s.zero = []) {o : Nat} (ho : o ∈ s.live) :
    A.Reach (fun _ _ => False) o ∨ A.Cyclic o := by
  rcases Classical.em (A.Reach (fun _ _ => False) o) with hr | hr
  · exact Or.inl hr
  refine Or.inr (back (L := s.live) (P := fun c => ¬ A.Reach (fun _ _ => False) c) ?_ o s.live.length [] o ho hr (Or.inl rfl)
    (fun _ e => by cases e) List.nodup_nil (fun _ e => by cases e) (Nat.sub_le _ _))
  intro c hc hP
  have hnz : (s.obj c).shares ≠ 0 := by
    intro e
    have := h.j.zer.2 ⟨hc, e, by simp [killIds]⟩
    rw [hz] at this
    cases this
  obtain ⟨e, h1, h2⟩ := h.j.ex hc
  have he : e = 0 := Classical.byContradiction h2
  have hcnt : Slots.cnt s c ≠ 0 := by
    intro h0
    simp only [List.count_nil, he, h0] at h1
    exact hnz h1.symm
  obtain ⟨l, v, hg, ht⟩ := cnt_pos h.j.nd hcnt
  cases l with
  | var x =>
    refine absurd (.var (x := x) ?_) hP
    rw [← h.rl.var x, hg]
    exact av_ref ht
  | elem p k =>
    have hpl := h.j.own hg
    have he : A.elem p k = some (.ref c) := by
      rw [← h.rl.elem k hpl, hg]
      simp [av_ref ht]
    exact ⟨p, k, hpl, fun hr => hP (.elem hr (fun h => h) he), he⟩

end Verif.Slots
