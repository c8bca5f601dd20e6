import Verif.Core.Path
import Verif.Core.PathSpec
import Verif.Base.StrEditProps
/- Lemmas on paths and directories. -/
namespace Verif.Path
open Verif Verif.Str Verif.PathSpec

theorem parts_ne (t : Bytes) : parts t ≠ [] := by
  induction t with
  | nil => simp [parts]
  | cons c t ih =>
    rw [parts]; split
    · simp
    · split <;> simp

theorem parts_append (a b : Bytes) : parts (a ++ 47 :: b) = parts a ++ parts b := by
  induction a with
  | nil => simp [parts]
  | cons c a ih =>
    rw [List.cons_append, parts, parts, ih]
    by_cases hc : c = 47
    · simp [hc]
    · simp only [if_neg hc]
      cases h : parts a with
      | nil => exact absurd h (parts_ne a)
      | cons w ws => simp

theorem parts_no {b : Bytes} (h : (47 : UInt8) ∉ b) : parts b = [b] := by
  induction b with
  | nil => rfl
  | cons c b ih =>
    simp only [List.mem_cons, not_or] at h
    rw [parts, if_neg (fun e => h.1 e.symm), ih h.2]

theorem parts_mem {t w : Bytes} (h : w ∈ parts t) : (47 : UInt8) ∉ w := by
  induction t generalizing w with
  | nil => simp only [parts, List.mem_singleton] at h; subst h; simp
  | cons c t ih =>
    rw [parts] at h
    by_cases hc : c = 47
    · rw [if_pos hc] at h
      rcases List.mem_cons.1 h with h | h
      · subst h; simp
      · exact ih h
    · rw [if_neg hc] at h
      cases hp : parts t with
      | nil => exact absurd hp (parts_ne t)
      | cons v vs =>
        rw [hp] at h ih
        rcases List.mem_cons.1 h with h | h
        · subst h
          simp only [List.mem_cons, not_or]
          exact ⟨fun e => hc e.symm, ih List.mem_cons_self⟩
        · exact ih (List.mem_cons_of_mem _ h)

def Good (d : Place) : Prop := ∀ w ∈ d, Ordinary w ∧ (47 : UInt8) ∉ w

theorem good_dropLast {d : Place} (h : Good d) : Good d.dropLast := fun w hw => h w (List.dropLast_subset _ hw)

theorem good_step {d : Place} {w : Bytes} (h : Good d) (hw : (47 : UInt8) ∉ w) : Good (step d w) := by
  unfold step
  split
  · exact h
  · rename_i h1
    split
    · exact good_dropLast h
    · rename_i h2
      intro v hv
      rcases List.mem_append.1 hv with hv | hv
      · exact h v hv
      · rw [List.mem_singleton] at hv
        subst hv
        exact ⟨⟨fun e => h1 (.inl e), fun e => h1 (.inr e), h2⟩, hw⟩

theorem good_foldl (l : List Bytes) (hl : ∀ w ∈ l, (47 : UInt8) ∉ w) : ∀ d, Good d → Good (l.foldl step d) := by
  induction l with
  | nil => exact fun d h => h
  | cons w l ih =>
    exact fun d h => ih (fun v hv => hl v (List.mem_cons_of_mem _ hv)) _ (good_step h (hl w List.mem_cons_self))

theorem good_resolve {d : Place} (h : Good d) (t : Bytes) : Good (resolve d t) := by
  unfold resolve
  apply good_foldl _ (fun w hw => parts_mem hw)
  split
  · intro w hw; simp at hw
  · exact h

theorem parts_text (l : Place) (hl : Good l) : ∀ x, parts (x ++ l.flatMap (fun w => 47 :: w)) = parts x ++ l := by
  induction l with
  | nil => intro x; simp
  | cons w l ih =>
    intro x
    have hw := hl w List.mem_cons_self
    rw [List.flatMap_cons, List.cons_append, parts_append, ih (fun v hv => hl v (List.mem_cons_of_mem _ hv)) w, parts_no hw.2]
    rfl

theorem step_ordinary {w : Bytes} (h : Ordinary w) (d : Place) : step d w = d ++ [w] := by
  unfold step
  rw [if_neg (fun e => e.elim h.1 h.2.1), if_neg h.2.2]

theorem foldl_good (l : Place) (hl : Good l) : ∀ d, l.foldl step d = d ++ l := by
  induction l with
  | nil => intro d; simp
  | cons w l ih =>
    intro d
    rw [List.foldl_cons, step_ordinary (hl w List.mem_cons_self).1, ih (fun v hv => hl v (List.mem_cons_of_mem _ hv))]
    simp

theorem resolve_text {d : Place} (h : Good d) (e : Place) : resolve e (cwdText d) = d := by
  cases d with
  | nil => rfl
  | cons w l =>
    have hp := parts_text (w :: l) h []
    rw [List.nil_append] at hp
    unfold resolve cwdText
    rw [hp, if_pos (by rfl)]
    show List.foldl step (step [] []) (w :: l) = _
    rw [foldl_good _ h]
    rfl

theorem cwdText_ne (d : Place) : cwdText d ≠ [] := by
  cases d with
  | nil => simp [cwdText]
  | cons w l => simp [cwdText]

theorem cwdText_length (d : Place) (h : (cwdText d).length + 1 > MAX_PATH) :
    4096 ≤ (d.map (fun w => w.length + 1)).sum := by
  cases d with
  | nil => simp [cwdText, MAX_PATH] at h
  | cons w l =>
    have e : ∀ l : Place, (l.flatMap (fun w => 47 :: w)).length = (l.map (fun w => w.length + 1)).sum := by
      intro l
      induction l with
      | nil => rfl
      | cons v l ih => simp only [List.flatMap_cons, List.length_append, List.map_cons, List.sum_cons, ih, List.length_cons]
    unfold cwdText at h
    rw [e] at h
    unfold MAX_PATH at h
    omega

theorem back_dir {D : Disk} {d : Place} (h : Dir D d) (e : Place) : changeDir D e (cwdText d) = d := by
  unfold changeDir
  rw [if_neg (cwdText_ne d), resolve_text h.parts, if_pos h.is]

theorem toBytes_ofChars {l : Bytes} (h : ∀ c ∈ l, c ≠ 0) : toBytes (ofChars l) = l := by
  unfold toBytes S.mem ofChars
  simp only [Option.getD_some]
  rw [List.takeWhile_append_of_pos (by simpa using h)]
  simp [List.replicate]

theorem getDirectory_eq {n : Bytes} (hz : ∀ c ∈ n, c ≠ 0) (hn : n ≠ []) (hb : (92 : UInt8) ∉ n) :
    ((47 : UInt8) ∉ n ∧ getDirectory (ofChars n) = .ok (ofChars [])) ∨
    ∃ a b, n = a ++ 47 :: b ∧ (47 : UInt8) ∉ b ∧ getDirectory (ofChars n) = .ok (ofChars a) := by
  obtain ⟨i, h1, h2⟩ := findLastOf_exact (ofChars n) n (rep_ofChars hz) hn [92, 47]
  rcases h2 with ⟨rfl, h2⟩ | ⟨j, rfl, ⟨c, hc, hcs⟩, h3⟩
  · refine .inl ⟨fun h => h2 _ h (by simp), ?_⟩
    simp [getDirectory, h1, Out.bind]
  · have hj : j < n.length := by
      rcases Nat.lt_or_ge j n.length with h | h
      · exact h
      · rw [List.getElem?_eq_none h] at hc; simp at hc
    have hc' : c = 47 := by
      simp only [List.mem_cons, List.not_mem_nil, or_false] at hcs
      rcases hcs with e | e
      · exact absurd (e ▸ List.mem_of_getElem? hc) hb
      · exact e
    subst hc'
    have hnj : n[j] = 47 := by
      rw [List.getElem?_eq_getElem hj] at hc; exact Option.some.inj hc
    refine .inr ⟨n.take j, n.drop (j + 1), ?_, ?_, ?_⟩
    · rw [← hnj, List.getElem_cons_drop, List.take_append_drop]
    · intro h
      obtain ⟨k, hk⟩ := List.getElem?_of_mem h
      rw [List.getElem?_drop] at hk
      exact h3 (j + 1 + k) (by omega) 47 hk (by simp)
    · have hne : ¬ ((j : Int) = -1) := by omega
      have := rep_getSubstring (rep_ofChars hz) 0 j (by omega)
      simp only [List.drop_zero] at this
      simp only [getDirectory, h1, Out.bind, if_neg hne]
      exact this

theorem lookup_some {D : Disk} {d : Place} {n : Bytes} {f : Place} {ns : List Bytes} (h : lookup D d n = some (f, ns)) :
    Ordinary ((parts n).getLast?.getD []) ∧ f = resolve d n ∧ D.file f = some ns := by
  unfold lookup at h
  split at h
  · rename_i ho
    cases hf : D.file (resolve d n) with
    | none => rw [hf] at h; simp at h
    | some ms =>
      rw [hf] at h
      simp only [Option.map_some, Option.some.injEq, Prod.mk.injEq] at h
      obtain ⟨rfl, rfl⟩ := h
      exact ⟨ho, rfl, hf⟩
  · simp at h

theorem enter {D : Disk} (hD : Real D) {d : Place} {n : Bytes} (hz : ∀ c ∈ n, c ≠ 0) (hp : Plain n) {f : Place}
    {ns : List Bytes} (h : lookup D d n = some (f, ns)) :
    ∃ s, getDirectory (ofChars n) = .ok s ∧ changeDir D d (toBytes s) = f.dropLast := by
  obtain ⟨ho, rfl, hf⟩ := lookup_some h
  have hn : n ≠ [] := by
    rintro rfl
    exact ho.1 rfl
  rcases getDirectory_eq hz hn hp.1 with ⟨h47, e⟩ | ⟨a, b, rfl, hb, e⟩
  · refine ⟨_, e, ?_⟩
    rw [toBytes_ofChars (by simp)]
    rw [parts_no h47] at ho
    have ho' : Ordinary n := ho
    have hh : n.head? ≠ some 47 := by
      intro hh
      exact h47 (List.mem_of_head? hh)
    simp only [changeDir, if_true, resolve, parts_no h47, if_neg hh, List.foldl_cons, List.foldl_nil, step_ordinary ho',
      List.dropLast_concat]
  · refine ⟨_, e, ?_⟩
    rw [toBytes_ofChars (fun c hc => hz c (List.mem_append_left _ hc))]
    have ha : a ≠ [] := by
      rintro rfl
      exact hb (hp.2 b rfl)
    have ho' : Ordinary b := by
      rw [parts_append, parts_no hb] at ho
      simpa using ho
    have hr : resolve d (a ++ 47 :: b) = resolve d a ++ [b] := by
      unfold resolve
      rw [parts_append, parts_no hb, List.foldl_append]
      have : (a ++ 47 :: b).head? = a.head? := by
        cases a with
        | nil => exact absurd rfl ha
        | cons => rfl
      rw [this]
      simp only [List.foldl_cons, List.foldl_nil]
      exact step_ordinary ho' _
    rw [hr, List.dropLast_concat]
    have := hD.above _ _ hf
    rw [hr, List.dropLast_concat] at this
    unfold changeDir
    rw [if_neg ha, if_pos this]

end Verif.Path
