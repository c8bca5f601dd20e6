import Verif.Module.Json
/-
The reader ends on every text, and when it is defined.
-/
namespace Verif.Json
open Verif.Str (Bytes unescapeChars)

/-- The loop has ended, without undefined behaviour if `u`, and the value satisfies `P`. -/
def Done {α : Type} (u : Prop) (P : α → Prop) (x : R α) : Prop :=
  ∃ o, x = some o ∧ (u → o ≠ .ub) ∧ ∀ a, o = .ok a → P a

theorem Done.ok {α : Type} {u : Prop} {P : α → Prop} {a : α} (h : P a) : Done u P (R.ok a) :=
  ⟨.ok a, rfl, fun _ => by simp, fun b hb => by cases hb; exact h⟩

theorem Done.err {α : Type} {u : Prop} {P : α → Prop} : Done u P (R.err : R α) :=
  ⟨.err, rfl, fun _ => by simp, fun b hb => by cases hb⟩

theorem Done.ub {α : Type} {u : Prop} {P : α → Prop} (h : ¬ u) : Done u P (R.ub : R α) :=
  ⟨.ub, rfl, fun hu => absurd hu h, fun b hb => by cases hb⟩

theorem Done.bind {α β : Type} {u : Prop} {P : α → Prop} {Q : β → Prop} {x : R α} {f : α → R β} (hx : Done u P x)
    (hf : ∀ a, P a → Done u Q (f a)) : Done u Q (R.bind x f) := by
  obtain ⟨o, rfl, hu, hP⟩ := hx
  cases o with
  | ok a => exact hf a (hP a rfl)
  | err => exact Done.err
  | ub => exact ⟨.ub, rfl, fun h => absurd rfl (hu h), fun b hb => by cases hb⟩

theorem Done.mono {α : Type} {u : Prop} {P Q : α → Prop} {x : R α} (hx : Done u P x) (h : ∀ a, P a → Q a) :
    Done u Q x := by
  obtain ⟨o, rfl, hu, hP⟩ := hx
  exact ⟨o, rfl, hu, fun a ha => h a (hP a ha)⟩

theorem advToChar_suffix (c : UInt8) : ∀ s, advToChar c s <:+ s
  | [] => List.suffix_refl _
  | x :: r => by
    unfold advToChar
    split
    · exact List.suffix_refl _
    split
    · exact List.suffix_cons _ _
    split
    · exact List.suffix_refl _
    · exact (advToChar_suffix c r).trans (List.suffix_cons _ _)

theorem tail_suffix (s : Bytes) : s.tail <:+ s := List.tail_suffix s

theorem if_tail_suffix (s : Bytes) (c : UInt8) : (if s.head? = some c then s.tail else s) <:+ s := by
  split
  · exact tail_suffix s
  · exact List.suffix_refl _

theorem tail_lt {s : Bytes} {c : UInt8} (h : s.head? = some c) : s.tail.length < s.length := by
  cases s with
  | nil => cases h
  | cons a r => simp

theorem advEnd_done {u : Prop} (hu : ¬ u) : ∀ (n : Nat) (s : Bytes), s.length < n →
    Done u (fun e => e <:+ s) (advEndLoop n s)
  | 0, _, h => by omega
  | n + 1, s, h => by
    unfold advEndLoop
    by_cases h0 : (isEnd s || s.isEmpty) = true
    · rw [if_pos h0]; exact Done.ok (List.suffix_refl _)
    rw [if_neg h0]
    simp only
    have hs1 := advToChar_suffix 42 s
    have hs2 := if_tail_suffix (advToChar 42 s) 10
    have hs3 := if_tail_suffix (if (advToChar 42 s).head? = some 10 then (advToChar 42 s).tail else advToChar 42 s) 13
    generalize e3 : (if (if (advToChar 42 s).head? = some 10 then (advToChar 42 s).tail else advToChar 42 s).head? = some 13
      then (if (advToChar 42 s).head? = some 10 then (advToChar 42 s).tail else advToChar 42 s).tail
      else (if (advToChar 42 s).head? = some 10 then (advToChar 42 s).tail else advToChar 42 s)) = s3 at hs3 ⊢
    have hsuf : s3 <:+ s := hs3.trans (hs2.trans hs1)
    cases s3 with
    | nil => exact Done.ub hu
    | cons c r =>
      simp only
      by_cases h47 : r.head? = some 47
      · rw [if_pos h47]
        have hlt : (c :: r).length < s.length := by
          rcases Nat.lt_or_ge (c :: r).length s.length with hl | hl
          · exact hl
          · exfalso
            have heq : c :: r = s := hsuf.eq_of_length_le hl
            subst heq
            -- nothing was passed: the byte is the asterisk and the comment ends here
            rw [Bool.or_eq_true, not_or] at h0
            have e := h0.1
            unfold isEnd at e
            have hc : c ≠ 42 := by
              rintro rfl
              simp [h47] at e
            by_cases hc10 : c = 10
            · subst hc10
              simp only [advToChar, if_true, List.head?_cons, List.tail_cons] at e3
              have : (if r.head? = some 13 then r.tail else r).length ≤ r.length := (if_tail_suffix r 13).length_le
              rw [e3] at this
              simp only [List.length_cons] at this
              omega
            by_cases hc13 : c = 13
            · subst hc13
              have h1 : advToChar 42 (13 :: r) = r := by simp [advToChar]
              rw [h1] at hs2 hs3
              have := (hs3.trans hs2).length_le
              simp only [List.length_cons] at this
              omega
            · have h1 : advToChar 42 (c :: r) = advToChar 42 r := by
                rw [advToChar, if_neg hc10, if_neg hc13, if_neg hc]
              rw [h1] at hs2 hs3
              have := ((hs3.trans hs2).trans (advToChar_suffix 42 r)).length_le
              simp only [List.length_cons] at this
              omega
        exact (advEnd_done hu n _ (by omega)).mono fun e he => he.trans hsuf
      · rw [if_neg h47]
        have := hsuf.length_le
        simp only [List.length_cons] at this
        exact (advEnd_done hu n r (by omega)).mono fun e he => he.trans ((List.suffix_cons _ _).trans hsuf)

theorem isStart_len {s : Bytes} (h : isStart s = true) : 2 ≤ s.length := by
  match s with
  | [] => simp [isStart] at h
  | [a] => simp [isStart] at h
  | a :: b :: r => simp

theorem isStart_mem {s : Bytes} (h : isStart s = true) : 47 ∈ s := by
  cases s with
  | nil => simp [isStart] at h
  | cons a r =>
    simp only [isStart, List.head?_cons, Bool.and_eq_true, beq_iff_eq, Option.some.injEq] at h
    rw [h.1]; simp

theorem isSingle_mem {s : Bytes} (h : isSingle s = true) : 47 ∈ s := by
  cases s with
  | nil => simp [isSingle] at h
  | cons a r =>
    simp only [isSingle, List.head?_cons, Bool.and_eq_true, beq_iff_eq, Option.some.injEq] at h
    rw [h.1]; simp

theorem skipComment_done {u : Prop} (hu : ¬ u) {s : Bytes} (h : isStart s = true) :
    Done u (fun e => e <:+ s ∧ e.length < s.length) (skipComment s) := by
  have hl := isStart_len h
  have hd : (s.drop 2).length = s.length - 2 := List.length_drop
  unfold skipComment
  refine (advEnd_done hu s.length (s.drop 2) (by omega)).bind fun e he => Done.ok ?_
  have h1 : (if isEnd e then e.drop 2 else e) <:+ e := by
    split
    · exact List.drop_suffix _ _
    · exact List.suffix_refl _
  have h2 := h1.length_le
  have h3 := he.length_le
  exact ⟨h1.trans (he.trans (List.drop_suffix _ _)), by omega⟩

/-- Without a slash there is no comment. -/
def Clean (s : Bytes) : Prop := 47 ∉ s

theorem Clean.suffix {s t : Bytes} (h : Clean s) (ht : t <:+ s) : Clean t := fun hm => h (ht.subset hm)

theorem blanks_done : ∀ (n : Nat) (s : Bytes), s.length < n → Done (Clean s) (fun e => e <:+ s) (blanks n s)
  | 0, _, h => by omega
  | n + 1, s, h => by
    unfold blanks
    simp only
    have hs1 : s.dropWhile (fun c => c == 32 || c == 9) <:+ s := List.dropWhile_suffix _
    generalize s.dropWhile (fun c => c == 32 || c == 9) = s1 at hs1
    have key : Done (Clean s) (fun p : Bytes × Bool => p.1 <:+ s ∧ (p.2 = false → p.1.length < s.length))
        (if isSingle s1 then R.ok (advToChar 10 s1, true)
          else if isStart s1 then R.bind (skipComment s1) fun e => R.ok (e, false)
          else R.ok (s1, true)) := by
      split
      · exact Done.ok ⟨(advToChar_suffix _ _).trans hs1, by simp⟩
      · split
        · rename_i h2
          have hu : ¬ Clean s := fun hc => hc (hs1.subset (isStart_mem h2))
          refine (skipComment_done hu h2).bind fun e he => Done.ok ⟨he.1.trans hs1, fun _ => ?_⟩
          have := hs1.length_le
          exact Nat.lt_of_lt_of_le he.2 this
        · exact Done.ok ⟨hs1, by simp⟩
    refine key.bind ?_
    rintro ⟨p, fin⟩ ⟨hp, hfin⟩
    simp only at hp hfin ⊢
    have h3 := if_tail_suffix p 13
    generalize (if p.head? = some 13 then p.tail else p) = s3 at h3
    have hs3 : s3 <:+ s := h3.trans hp
    split
    · rename_i h10
      have hlt := tail_lt h10
      have hsuf : s3.tail <:+ s := (tail_suffix _).trans hs3
      have := hs3.length_le
      obtain ⟨o, ho, hu, hP⟩ := blanks_done n s3.tail (by omega)
      exact ⟨o, ho, fun hc => hu (hc.suffix hsuf), fun a ha => (hP a ha).trans hsuf⟩
    · split
      · exact Done.ok hs3
      · rename_i hf
        have hlt := hfin (by simpa using hf)
        have := h3.length_le
        obtain ⟨o, ho, hu, hP⟩ := blanks_done n s3 (by omega)
        exact ⟨o, ho, fun hc => hu (hc.suffix hs3), fun a ha => (hP a ha).trans hs3⟩

theorem skip_done (s : Bytes) : Done (Clean s) (fun e => e <:+ s) (skip s) := blanks_done _ _ (by omega)

/-- The result is at an end character or at the end, and without a slash everything passed is not an end character. -/
theorem advToEnd_done : ∀ (n : Nat) (s : Bytes), s.length < n →
    Done (Clean s) (fun e => e <:+ s ∧ (Clean s → ∃ tok, s = tok ++ e ∧ ∀ c ∈ tok, c ∉ endChars)) (advToEnd n s)
  | 0, _, h => by omega
  | n + 1, s, h => by
    unfold advToEnd
    split
    · exact Done.ok ⟨List.suffix_refl _, fun _ => ⟨[], rfl, by simp⟩⟩
    · rename_i hne
      have key : Done (Clean s) (fun s1 => s1 <:+ s ∧ (Clean s → s1 = s)) (if isStart s then skipComment s else R.ok s) := by
        split
        · rename_i h2
          have hu : ¬ Clean s := fun hc => hc (isStart_mem h2)
          exact (skipComment_done hu h2).mono fun e he => ⟨he.1, fun hc => absurd hc hu⟩
        · exact Done.ok ⟨List.suffix_refl _, fun _ => rfl⟩
      refine key.bind fun s1 hs1 => ?_
      have h2 : (if isSingle s1 then advToChar 10 s1 else s1) <:+ s := by
        split
        · exact (advToChar_suffix _ _).trans hs1.1
        · exact hs1.1
      have h3 : Clean s → (if isSingle s1 then advToChar 10 s1 else s1) = s := by
        intro hc
        rw [if_neg, hs1.2 hc]
        intro hsi
        exact hc (hs1.1.subset (isSingle_mem hsi))
      generalize (if isSingle s1 then advToChar 10 s1 else s1) = s2 at h2 h3
      cases s2 with
      | nil =>
        refine Done.ub fun hc => ?_
        have := h3 hc
        rw [← this] at hne
        simp at hne
      | cons c r =>
        simp only
        split
        · refine Done.ok ⟨h2, fun hc => ⟨[], ?_, by simp⟩⟩
          rw [h3 hc]; rfl
        · rename_i hcn
          have hlen := h2.length_le
          simp only [List.length_cons] at hlen
          have hr : r <:+ s := (List.suffix_cons _ _).trans h2
          obtain ⟨o, ho, hu, hP⟩ := advToEnd_done n r (by omega)
          refine ⟨o, ho, fun hc => hu (hc.suffix hr), fun e he => ⟨(hP e he).1.trans hr, fun hc => ?_⟩⟩
          obtain ⟨tok, h4, h5⟩ := (hP e he).2 (hc.suffix hr)
          refine ⟨c :: tok, ?_, ?_⟩
          · rw [← h3 hc, h4]; rfl
          · intro x hx
            rcases List.mem_cons.mp hx with rfl | hx
            · simpa using hcn
            · exact h5 x hx

theorem readQuoted_suffix : ∀ (s : Bytes) (prev : UInt8) (p : Bytes × Bytes), readQuoted prev s = some p → p.2 <:+ s
  | [], _, _, h => by cases h
  | c :: r, prev, p, h => by
    unfold readQuoted at h
    split at h
    · cases h
    split at h
    · cases h; exact List.suffix_cons _ _
    · simp only [Option.map_eq_some_iff] at h
      obtain ⟨q, hq, rfl⟩ := h
      exact (readQuoted_suffix r c q hq).trans (List.suffix_cons _ _)

theorem readString_done (s : Bytes) :
    Done (Clean s) (fun p => p.2 <:+ s ∧ p.2.length < s.length) (readString s) := by
  unfold readString
  split
  · rename_i h
    have hlt := tail_lt h
    cases hq : readQuoted 34 s.tail with
    | none => exact Done.err
    | some p =>
      have hp := readQuoted_suffix _ _ _ hq
      have hsuf : p.2 <:+ s := hp.trans (tail_suffix _)
      obtain ⟨o, ho, hu, hP⟩ := skip_done p.2
      have : Done (Clean s) (fun e => e <:+ p.2) (skip p.2) := ⟨o, ho, fun hc => hu (hc.suffix hsuf), hP⟩
      refine this.bind fun r hr => Done.ok ⟨hr.trans hsuf, ?_⟩
      have h1 := hr.length_le
      have h2 := hp.length_le
      show r.length < s.length
      omega
  · exact Done.err

/-- What makes reading defined: no slash, and no more than 1023 bytes between two end characters. -/
def Readable (s : Bytes) : Prop :=
  Clean s ∧ ∀ pre tok post, s = pre ++ (tok ++ post) → (∀ c ∈ tok, c ∉ endChars) → tok.length ≤ 1023

theorem Readable.suffix {s t : Bytes} (h : Readable s) (ht : t <:+ s) : Readable t := by
  refine ⟨h.1.suffix ht, ?_⟩
  intro pre tok post e hc
  obtain ⟨p, hp⟩ := ht
  exact h.2 (p ++ pre) tok post (by rw [← hp, e, List.append_assoc]) hc

theorem Done.weaken {α : Type} {u u' : Prop} {P : α → Prop} {x : R α} (h : Done u P x) (hu : u' → u) : Done u' P x := by
  obtain ⟨o, ho, h1, h2⟩ := h
  exact ⟨o, ho, fun hc => h1 (hu hc), h2⟩

theorem skip_read {s t : Bytes} (ht : t <:+ s) : Done (Readable s) (fun e => e <:+ t) (skip t) :=
  (skip_done t).weaken fun h => h.1.suffix ht

theorem readValue_done {F : Type} (N : Num F) (s : Bytes) :
    Done (Readable s) (fun p => p.2 <:+ s ∧ p.2.length < s.length) (readValue N s) := by
  unfold readValue
  split
  · exact ((readString_done s).weaken fun h => h.1).bind fun p hp => Done.ok hp
  split
  · rename_i h
    refine Done.ok ⟨List.drop_suffix _ _, ?_⟩
    have := congrArg List.length h
    simp at this ⊢
    omega
  split
  · rename_i h
    refine Done.ok ⟨List.drop_suffix _ _, ?_⟩
    have := congrArg List.length h
    simp at this ⊢
    omega
  · refine ((advToEnd_done _ s (by omega)).weaken fun h => h.1).bind fun e he => ?_
    have hl := he.1.length_le
    simp only
    split
    · exact Done.err
    split
    · rename_i h0 h1
      refine Done.ub fun hr => ?_
      obtain ⟨tok, h2, h3⟩ := he.2 hr.1
      have h4 := hr.2 [] tok e (by rw [List.nil_append]; exact h2) h3
      have h5 := congrArg List.length h2
      rw [List.length_append] at h5
      omega
    · exact Done.ok ⟨he.1, by simp only; omega⟩

theorem suffix_lt {s t : Bytes} (h : t <:+ s) : t.length ≤ s.length := h.length_le

theorem read_done {F : Type} (N : Num F) : ∀ (n : Nat),
    (∀ s : Bytes, 2 * s.length + 1 ≤ n →
      Done (Readable s) (fun p => p.2 <:+ s ∧ p.2.length < s.length) (read N n s)) ∧
    (∀ (s : Bytes) acc, 2 * s.length + 2 ≤ n →
      Done (Readable s) (fun p => p.2 <:+ s ∧ p.2.length < s.length) (readElems N n s acc)) ∧
    (∀ (s : Bytes) acc, 2 * s.length + 2 ≤ n →
      Done (Readable s) (fun p => p.2 <:+ s ∧ p.2.length < s.length) (readMembers N n s acc))
  | 0 => ⟨fun _ h => by omega, fun _ _ h => by omega, fun _ _ h => by omega⟩
  | n + 1 => by
    obtain ⟨ih1, ih2, ih3⟩ := read_done N n
    refine ⟨?_, ?_, ?_⟩
    · intro s h
      unfold read
      refine (skip_read (List.suffix_refl s)).bind fun s1 h1 => ?_
      have l1 := h1.length_le
      split
      · rename_i hh
        have lt := tail_lt hh
        have ht : s1.tail <:+ s := (tail_suffix _).trans h1
        refine (skip_read ht).bind fun s2 h2 => ?_
        have l2 := h2.length_le
        have hs2 : s2 <:+ s := h2.trans ht
        split
        · rename_i hh2
          have := tail_lt hh2
          exact Done.ok ⟨(tail_suffix _).trans hs2, by simp only; omega⟩
        · refine ((ih2 s2 [] (by omega)).weaken fun hr => hr.suffix hs2).mono fun p hp => ⟨hp.1.trans hs2, by omega⟩
      split
      · rename_i hh
        have lt := tail_lt hh
        have ht : s1.tail <:+ s := (tail_suffix _).trans h1
        refine (skip_read ht).bind fun s2 h2 => ?_
        have l2 := h2.length_le
        have hs2 : s2 <:+ s := h2.trans ht
        split
        · rename_i hh2
          have := tail_lt hh2
          exact Done.ok ⟨(tail_suffix _).trans hs2, by simp only; omega⟩
        · refine ((ih3 s2 [] (by omega)).weaken fun hr => hr.suffix hs2).mono fun p hp => ⟨hp.1.trans hs2, by omega⟩
      · exact ((readValue_done N s1).weaken fun hr => hr.suffix h1).mono fun p hp => ⟨hp.1.trans h1, by omega⟩
    · intro s acc h
      unfold readElems
      refine (ih1 s (by omega)).bind fun p hp => ?_
      refine (skip_read hp.1).bind fun s1 h1 => ?_
      have l1 := h1.length_le
      have hs1 : s1 <:+ s := h1.trans hp.1
      split
      · rename_i hh
        have lt := tail_lt hh
        have ht : s1.tail <:+ s := (tail_suffix _).trans hs1
        refine (skip_read ht).bind fun s2 h2 => ?_
        have l2 := h2.length_le
        have hs2 : s2 <:+ s := h2.trans ht
        split
        · rename_i hh2
          have := tail_lt hh2
          exact Done.ok ⟨(tail_suffix _).trans hs2, by simp only; omega⟩
        · refine ((ih2 s2 _ (by omega)).weaken fun hr => hr.suffix hs2).mono fun p hp => ⟨hp.1.trans hs2, by omega⟩
      split
      · rename_i hh
        have := tail_lt hh
        exact Done.ok ⟨(tail_suffix _).trans hs1, by simp only; omega⟩
      · exact Done.err
    · intro s acc h
      unfold readMembers
      refine ((readString_done s).weaken fun hr => hr.1).bind fun k hk => ?_
      split
      · rename_i hh
        have lt := tail_lt hh
        have hkt : k.2.tail <:+ s := (tail_suffix _).trans hk.1
        refine (skip_read hkt).bind fun s0 h0 => ?_
        have l0 := h0.length_le
        have hs0 : s0 <:+ s := h0.trans hkt
        refine ((ih1 s0 (by omega)).weaken fun hr => hr.suffix hs0).bind fun p hp => ?_
        have hps : p.2 <:+ s := hp.1.trans hs0
        refine (skip_read hps).bind fun s1 h1 => ?_
        have l1 := h1.length_le
        have hs1 : s1 <:+ s := h1.trans hps
        split
        · rename_i hh
          have lt := tail_lt hh
          have ht : s1.tail <:+ s := (tail_suffix _).trans hs1
          refine (skip_read ht).bind fun s2 h2 => ?_
          have l2 := h2.length_le
          have hs2 : s2 <:+ s := h2.trans ht
          split
          · rename_i hh2
            have := tail_lt hh2
            exact Done.ok ⟨(tail_suffix _).trans hs2, by simp only; omega⟩
          · refine ((ih3 s2 _ (by omega)).weaken fun hr => hr.suffix hs2).mono fun p hp => ⟨hp.1.trans hs2, by omega⟩
        split
        · rename_i hh
          have := tail_lt hh
          exact Done.ok ⟨(tail_suffix _).trans hs1, by simp only; omega⟩
        · exact Done.err
      · exact Done.err

end Verif.Json
