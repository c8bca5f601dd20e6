import Verif.Base.StrProps
/-
C51: editing a string (append, `+`, insertAt, eraseAt, element access) acts on its character sequence.
-/
namespace Verif.Str
open Verif

/-! ### Helper lemmas -/

theorem rep_appendN {s : S} {l : Bytes} (hs : Rep s l) {d : Bytes} (hd : NZ d) (r : Bytes) :
    ∃ s', appendN s (d ++ r) d.length = .ok s' ∧ Rep s' (l ++ d) := by
  obtain ⟨s', m, e, hb, hsz, hcnt⟩ := rep_incSlots hs d.length
  unfold appendN
  rw [e]
  simp only [Out.bind, S.mem, hb, Option.getD_some, hs.cnt]
  have := memcpy_app r (l ++ List.replicate (d.length + m + 1) 0) l.length 0 d.length (l := d) (by omega)
    (by simp; omega)
  rw [show ((0:Nat):Int) = 0 from rfl] at this
  rw [this]
  simp only [List.drop_zero, List.take_length, List.take_left]
  refine ⟨_, rfl, ?_, by simp [hcnt], .inr ⟨m, ?_, by simp [hsz]⟩⟩
  · intro c hc
    rcases List.mem_append.1 hc with hc | hc
    · exact hs.nz c hc
    · exact hd c hc
  · simp only [Option.some.injEq]
    rw [← List.drop_drop, List.drop_left, List.drop_replicate,
      show d.length + m + 1 - d.length = m + 1 by omega]

theorem rep_append {s t : S} {l d : Bytes} (hs : Rep s l) (ht : Rep t d) :
    (t.buf = none → append s t = .err) ∧
    (t.buf ≠ none → ∃ s', append s t = .ok s' ∧ Rep s' (l ++ d)) := by
  unfold append appendC
  rcases ht.mem with ⟨hb, hl, _⟩ | ⟨n, hb, _⟩
  · simp [hb]
  · refine ⟨by simp [hb], fun _ => ?_⟩
    rw [hb]
    simp only [List.replicate_succ, cstr_zero ht.nz, Out.bind]
    exact rep_appendN hs ht.nz _

theorem rep_concat {s t : S} {l d : Bytes} (hs : Rep s l) (ht : Rep t d) :
    ∃ u, concat s t = .ok u ∧ Rep u (l ++ d) := by
  unfold concat
  rw [rep_cstr hs, rep_cstr ht]
  simp only [Out.bind]
  have hz : NZ (l ++ d) := by
    intro c hc
    rcases List.mem_append.1 hc with hc | hc
    · exact hs.nz c hc
    · exact ht.nz c hc
  by_cases h : l.length + d.length > 0
  · rw [if_pos h]
    exact ⟨_, setC_eq hz [], rep_ofChars hz⟩
  · rw [if_neg h]
    have h1 : l = [] := List.eq_nil_of_length_eq_zero (by omega)
    have h2 : d = [] := List.eq_nil_of_length_eq_zero (by omega)
    subst h1; subst h2
    exact ⟨_, rfl, rep_empty⟩

theorem rep_insertStr {s t : S} {l d : Bytes} (hs : Rep s l) (ht : Rep t d) (pos : Nat) (h1 : pos < l.length) :
    ∃ s', insertStr s pos t = .ok s' ∧ Rep s' (l.take pos ++ d ++ l.drop pos) := by
  have hl : l ≠ [] := by intro e; subst e; simp at h1
  obtain ⟨n, hb, _⟩ := hs.buf_of_ne hl
  unfold insertStr
  rw [hs.cnt, ht.cnt, if_neg (by omega)]
  have e1 : ((l.length : Int) + d.length + 1) = ((l.length + d.length + 1 : Nat) : Int) := by omega
  simp only [e1, alloc_nat, Out.bind, S.mem, hb, Option.getD_some]
  rw [copyPrefix hs.nz _ _ pos (by omega) (by omega)]
  simp only
  have hz : NZ (l.take pos) := fun c hc => hs.nz c (List.mem_of_mem_take hc)
  have hlp : (l.take pos).length = pos := by simp; omega
  have := strcat_zero ht (l.take pos) hz (l.length + d.length + 1 - pos) (by omega)
  rw [hlp] at this
  rw [this]
  simp only
  have := strncpy_eq hs.nz (List.replicate (n+1) 0)
    (l.take pos ++ d ++ List.replicate (l.length + d.length + 1 - pos - d.length) 0) (pos + d.length) pos
    (l.length - pos) (by omega) (by simp; omega)
  rw [show ((pos + d.length : Nat) : Int) = (pos : Int) + d.length by omega,
    show ((l.length - pos : Nat) : Int) = (l.length : Int) - pos by omega] at this
  rw [this]
  simp only
  have hlen2 : (l.take pos ++ d).length = pos + d.length := by simp; omega
  refine ⟨_, rfl, ?_, ?_, .inr ⟨0, ?_, ?_⟩⟩
  · intro c hc
    simp only [List.mem_append] at hc
    rcases hc with (hc | hc) | hc
    · exact hz c hc
    · exact ht.nz c hc
    · exact hs.nz c (List.mem_of_mem_drop hc)
  · simp; omega
  · simp only [Option.some.injEq]
    have a1 : List.take (l.length - pos) (l.drop pos) = l.drop pos := List.take_of_length_le (by simp)
    rw [a1, ← hlen2, List.take_left, ← List.drop_drop, List.drop_left, List.drop_replicate,
      show l.length + d.length + 1 - pos - d.length - (l.length - pos) = 0 + 1 by omega]
  · simp; omega

theorem rep_insertChar {s : S} {l : Bytes} (hs : Rep s l) (pos : Nat) (h1 : pos < l.length) (c : UInt8)
    (hc : c ≠ 0) :
    ∃ s', insertChar s pos c = .ok s' ∧ Rep s' (l.take pos ++ c :: l.drop pos) := by
  have hl : l ≠ [] := by intro e; subst e; simp at h1
  obtain ⟨n, hb, _⟩ := hs.buf_of_ne hl
  unfold insertChar
  rw [hs.cnt, if_neg (by omega)]
  have e1 : ((l.length : Int) + 1 + 1) = ((l.length + 2 : Nat) : Int) := by omega
  simp only [e1, alloc_nat, Out.bind, S.mem, hb, Option.getD_some]
  rw [copyPrefix hs.nz _ _ pos (by omega) (by omega)]
  simp only
  have hz : NZ (l.take pos) := fun c hc => hs.nz c (List.mem_of_mem_take hc)
  have hlp : (l.take pos).length = pos := by simp; omega
  have e2 : l.length + 2 - pos = (l.length + 1 - pos) + 1 := by omega
  rw [blit_nat _ _ _ (by simp; omega), e2, List.replicate_succ]
  have e3 : List.take pos (l.take pos ++ 0 :: List.replicate (l.length + 1 - pos) 0) = l.take pos := by
    rw [List.take_append_of_le_length (by omega), List.take_take]; simp
  have e4 : List.drop (pos + [c].length) (l.take pos ++ 0 :: List.replicate (l.length + 1 - pos) 0) =
      List.replicate (l.length + 1 - pos) 0 := by
    have : List.drop (l.take pos).length (l.take pos ++ 0 :: List.replicate (l.length + 1 - pos) (0:UInt8)) = _ := List.drop_left
    rw [hlp] at this
    rw [← List.drop_drop, this]; rfl
  rw [e3, e4]
  have := strcpy_tail hs.nz (List.replicate n 0) (l.take pos ++ [c]) (l.length + 1 - pos) pos (by omega) (by omega)
  rw [← List.replicate_succ] at this
  rw [show ((l.take pos ++ [c]).length : Int) = (pos : Int) + 1 by simp; omega] at this
  simp only
  rw [this]
  simp only
  refine ⟨_, rfl, ?_, ?_, .inr ⟨0, ?_, ?_⟩⟩
  · intro x hx
    simp only [List.mem_append, List.mem_cons] at hx
    rcases hx with hx | hx | hx
    · exact hz x hx
    · subst hx; exact hc
    · exact hs.nz x (List.mem_of_mem_drop hx)
  · simp; omega
  · simp only [Option.some.injEq]
    rw [show l.length + 1 - pos - (l.length - pos) = 0 + 1 by omega]; simp
  · simp; omega

/-! ### Specification -/

/-- Script-level edits. -/
inductive Edit where
  | append (d : S)
  | insertStr (i : Int) (d : S)
  | insertChar (i : Int) (c : UInt8)
  | eraseAt (i : Int)

/-- The code. -/
def edit (s : S) : Edit → Out S
  | .append d => append s d
  | .insertStr i d => soInsertAt s i d
  | .insertChar i c => insertChar s i c
  | .eraseAt i => soEraseAt s i

/-- What an edit must do on the character sequence `l` (`none` = must be rejected); `chars` gives the
characters of argument strings. -/
def editSpec (l : Bytes) : Edit → (chars : Bytes) → Option Bytes
  | .append _, d => some (l ++ d)
  | .insertStr i _, d => if 0 ≤ i ∧ i ≤ l.length then some (l.take i.toNat ++ d ++ l.drop i.toNat) else none
  | .insertChar i c, _ => if 0 ≤ i ∧ i ≤ l.length then some (l.take i.toNat ++ c :: l.drop i.toNat) else none
  | .eraseAt i, _ => if 0 ≤ i ∧ i < l.length then some (l.eraseIdx i.toNat) else none

/-- `chars` are the characters of the argument of the edit. -/
def ArgRep : Edit → Bytes → Prop
  | .append d, ds => Rep d ds
  | .insertStr _ d, ds => Rep d ds
  | .insertChar _ c, _ => c ≠ 0
  | .eraseAt _, _ => True

/-- The full property C51. -/
def EditsExact : Prop :=
  ∀ (s : S) (l : Bytes) (e : Edit) (ds : Bytes), Rep s l → ArgRep e ds →
    match editSpec l e ds with
    | some r => ∃ t, edit s e = .ok t ∧ Rep t r
    | none => edit s e = .err

/-- Edits the code gets right: indices inside the string, or at least one past the end (rejected);
argument strings that own a buffer (every string literal does). -/
def EditOK (l : Bytes) : Edit → Prop
  | .append d => d.buf ≠ none
  | .insertStr i _ => 0 ≤ i ∧ i ≠ l.length
  | .insertChar i _ => 0 ≤ i ∧ i ≠ l.length
  | .eraseAt i => 0 ≤ i

/-- **C51** (missing: negative indices, insertion at the end, appending a cleared string). -/
theorem edits_exact_partial (s : S) (l : Bytes) (e : Edit) (ds : Bytes) (hs : Rep s l) (ha : ArgRep e ds)
    (hok : EditOK l e) :
    match editSpec l e ds with
    | some r => ∃ t, edit s e = .ok t ∧ Rep t r
    | none => edit s e = .err := by
  cases e with
  | append d => exact (rep_append hs ha).2 hok
  | insertStr i d =>
    obtain ⟨h0, h1⟩ := hok
    obtain ⟨p, rfl⟩ := Int.eq_ofNat_of_zero_le h0
    by_cases hp : p < l.length
    · simp only [editSpec, if_pos (show (0:Int) ≤ p ∧ (p:Int) ≤ l.length by omega), Int.toNat_natCast]
      exact rep_insertStr hs ha p hp
    · simp only [editSpec, if_neg (show ¬ ((0:Int) ≤ p ∧ (p:Int) ≤ l.length) by omega)]
      simp only [edit, soInsertAt, insertStr]
      rw [hs.cnt, if_pos (by omega)]
  | insertChar i c =>
    obtain ⟨h0, h1⟩ := hok
    obtain ⟨p, rfl⟩ := Int.eq_ofNat_of_zero_le h0
    by_cases hp : p < l.length
    · simp only [editSpec, if_pos (show (0:Int) ≤ p ∧ (p:Int) ≤ l.length by omega), Int.toNat_natCast]
      exact rep_insertChar hs p hp c ha
    · simp only [editSpec, if_neg (show ¬ ((0:Int) ≤ p ∧ (p:Int) ≤ l.length) by omega)]
      simp only [edit, insertChar]
      rw [hs.cnt, if_pos (by omega)]
  | eraseAt i =>
    have h0 : 0 ≤ i := hok
    obtain ⟨p, rfl⟩ := Int.eq_ofNat_of_zero_le h0
    by_cases hp : p < l.length
    · simp only [editSpec, if_pos (show (0:Int) ≤ p ∧ (p:Int) < l.length by omega), Int.toNat_natCast]
      obtain ⟨t, e, r⟩ := rep_erase hs p 1 hp (by omega)
      rw [List.eraseIdx_eq_take_drop_succ]
      exact ⟨t, e, r⟩
    · simp only [editSpec, if_neg (show ¬ ((0:Int) ≤ p ∧ (p:Int) < l.length) by omega)]
      simp only [edit, soEraseAt, erase]
      rw [hs.cnt, if_pos (by omega)]

/-- `+` on strings is concatenation, for all strings including cleared ones. -/
theorem concat_exact (s t : S) (l d : Bytes) (hs : Rep s l) (ht : Rep t d) :
    ∃ u, concat s t = .ok u ∧ Rep u (l ++ d) := rep_concat hs ht

/-- `==` on strings is equality of the characters. -/
theorem string_eq_exact (s t : S) (l d : Bytes) (hs : Rep s l) (ht : Rep t d) :
    eqS s t = .ok (decide (l = d)) := by
  unfold eqS
  rw [rep_cstr hs, rep_cstr ht]
  simp only [Out.bind, Out.ok.injEq]
  by_cases h : l = d <;> simp [h]

/-- Character access: exactly the characters, everything outside rejected. -/
theorem string_at_exact (s : S) (l : Bytes) (hs : Rep s l) (i : Int) :
    at' s i = if 0 ≤ i then (match l[i.toNat]? with | some c => .ok c | none => .err) else .err := by
  unfold at'
  rw [hs.cnt]
  by_cases h0 : 0 ≤ i
  · obtain ⟨p, rfl⟩ := Int.eq_ofNat_of_zero_le h0
    rw [if_pos h0]
    by_cases hp : p < l.length
    · rw [if_neg (by omega)]
      have hl : l ≠ [] := by intro e; subst e; simp at hp
      obtain ⟨n, hb, _⟩ := hs.buf_of_ne hl
      have := chr_app n p (l := l) (by omega)
      simp only [S.mem, hb, Option.getD_some, this]
      simp [hp]
    · rw [if_pos (by omega)]
      have : l[p]? = none := by simp; omega
      simp [this]
  · rw [if_pos (by omega), if_neg h0]

/-- Assignment of a character: it replaces that character, everything outside is rejected. -/
theorem string_set_exact (s : S) (l : Bytes) (hs : Rep s l) (i : Int) (c : UInt8) (hc : c ≠ 0) :
    (0 ≤ i ∧ i < l.length → ∃ t, setAt s i c = .ok t ∧ Rep t (l.set i.toNat c)) ∧
    (¬ (0 ≤ i ∧ i < l.length) → setAt s i c = .err) := by
  unfold setAt
  rw [hs.cnt]
  constructor
  · intro ⟨h0, h1⟩
    obtain ⟨p, rfl⟩ := Int.eq_ofNat_of_zero_le h0
    rw [if_neg (by omega)]
    have hp : p < l.length := by omega
    have hl : l ≠ [] := by intro e; subst e; simp at hp
    obtain ⟨n, hb, hz⟩ := hs.buf_of_ne hl
    simp only [S.mem, hb, Option.getD_some]
    rw [show ((p : Nat) : Int) = (p : Int) from rfl, blit_nat _ _ _ (by simp; omega)]
    simp only [Out.map, Int.toNat_natCast]
    refine ⟨_, rfl, ?_, by simp, .inr ⟨n, ?_, by simp [hz]⟩⟩
    · intro x hx
      rcases List.mem_or_eq_of_mem_set hx with hx | hx
      · exact hs.nz x hx
      · subst hx; exact hc
    · simp only [Option.some.injEq]
      rw [List.set_eq_take_append_cons_drop, if_pos hp, List.take_append_of_le_length (by omega)]
      simp only [List.length_singleton, List.append_assoc, List.cons_append]
      rw [List.drop_append_of_le_length (by omega)]
      rfl
  · intro h
    rw [if_pos (by omega)]

/-- A part without a length goes to the end of the string; a start behind the end is rejected. -/
theorem substring_to_end_exact (s : S) (l : Bytes) (hs : Rep s l) (pos : Nat) :
    getSubstring s pos (-1) = if pos ≤ l.length then .ok (ofChars (l.drop pos)) else .err := by
  by_cases h : pos ≤ l.length
  · rw [if_pos h]
    have e := rep_getSubstring hs pos (l.length - pos) (by omega)
    have e1 : (l.drop pos).take (l.length - pos) = l.drop pos := List.take_of_length_le (by simp)
    rw [e1] at e
    rw [← e]
    unfold getSubstring
    have h1 : ¬ (((l.length - pos : Nat) : Int) = -1) := by omega
    have h2 : (l.length : Int) - pos = ((l.length - pos : Nat) : Int) := by omega
    simp only [hs.cnt, if_true, h1, if_false, h2]
  · rw [if_neg h]
    unfold getSubstring
    simp only [hs.cnt, if_true]
    rw [if_pos (by omega)]

theorem lastLoop_eq {l : Bytes} (n : Nat) (set : Bytes) : ∀ k < l.length,
    ∃ i : Int, lastLoop (l ++ List.replicate (n + 1) 0) set (k + 1) k = .ok i ∧
      ((i = -1 ∧ ∀ j ≤ k, ∀ c, l[j]? = some c → c ∉ set) ∨
       ∃ j : Nat, i = j ∧ j ≤ k ∧ (∃ c, l[j]? = some c ∧ c ∈ set) ∧ ∀ m, j < m → m ≤ k → ∀ c, l[m]? = some c → c ∉ set) := by
  intro k
  induction k with
  | zero =>
    intro hk
    have hch := chr_app n 0 (l := l) (by omega)
    rw [show ((0 : Nat) : Int) = 0 from rfl] at hch
    have hg : l[0]? = some l[0] := List.getElem?_eq_getElem hk
    simp only [lastLoop, Int.natCast_zero, hch, Out.bind, hg, Option.getD_some]
    by_cases hc : l[0] ∈ set
    · rw [if_pos hc]
      exact ⟨0, rfl, .inr ⟨0, rfl, Nat.le_refl 0, ⟨_, hg, hc⟩, fun m h1 h2 => by omega⟩⟩
    · rw [if_neg hc, if_neg (by omega)]
      refine ⟨-1, rfl, .inl ⟨rfl, fun j hj c hjc => ?_⟩⟩
      have : j = 0 := by omega
      subst this
      rw [hg] at hjc
      cases hjc
      exact hc
  | succ k ih =>
    intro hk
    have hch := chr_app n (k + 1) (l := l) (by omega)
    have hg : l[k + 1]? = some l[k + 1] := List.getElem?_eq_getElem hk
    rw [lastLoop]
    rw [hch]
    simp only [Out.bind, hg, Option.getD_some]
    by_cases hc : l[k + 1] ∈ set
    · rw [if_pos hc]
      exact ⟨_, rfl, .inr ⟨k + 1, rfl, Nat.le_refl _, ⟨_, hg, hc⟩, fun m h1 h2 => by omega⟩⟩
    · rw [if_neg hc, if_pos (by omega)]
      have e : (((k + 1 : Nat) : Int) - 1) = (k : Int) := by omega
      rw [e]
      obtain ⟨i, h1, h2⟩ := ih (by omega)
      have last : ∀ c, l[k + 1]? = some c → c ∉ set := fun c hcc => by rw [hg] at hcc; cases hcc; exact hc
      refine ⟨i, h1, ?_⟩
      rcases h2 with ⟨h2, h3⟩ | ⟨j, h2, h3, h4, h5⟩
      · refine .inl ⟨h2, fun j hj => ?_⟩
        by_cases hjk : j = k + 1
        · subst hjk; exact last
        · exact h3 j (by omega)
      · refine .inr ⟨j, h2, by omega, h4, fun m hm1 hm2 => ?_⟩
        by_cases hmk : m = k + 1
        · subst hmk; exact last
        · exact h5 m hm1 (by omega)

/-- The last character out of a set: where it is, or -1 if there is none. -/
theorem findLastOf_exact (s : S) (l : Bytes) (hs : Rep s l) (hl : l ≠ []) (set : Bytes) :
    ∃ i : Int, findLastOf s set = .ok i ∧
      ((i = -1 ∧ ∀ c ∈ l, c ∉ set) ∨
       ∃ j : Nat, i = j ∧ (∃ c, l[j]? = some c ∧ c ∈ set) ∧ ∀ m, j < m → ∀ c, l[m]? = some c → c ∉ set) := by
  obtain ⟨n, hb, _⟩ := hs.buf_of_ne hl
  have hlen : 0 < l.length := List.length_pos_iff.2 hl
  obtain ⟨i, h1, h2⟩ := lastLoop_eq (l := l) n set (l.length - 1) (by omega)
  refine ⟨i, ?_, ?_⟩
  · unfold findLastOf
    simp only [if_true, hs.cnt]
    rw [if_pos (by omega)]
    have e : min ((l.length : Int) - 1) ((l.length : Int) - 1) = ((l.length - 1 : Nat) : Int) := by omega
    simp only [e, Int.toNat_natCast, S.mem, hb, Option.getD_some]
    exact h1
  · rcases h2 with ⟨h2, h3⟩ | ⟨j, h2, h3, h4, h5⟩
    · refine .inl ⟨h2, fun c hc => ?_⟩
      obtain ⟨j, hj, hjc⟩ := List.getElem_of_mem hc
      exact h3 j (by omega) c (by rw [List.getElem?_eq_getElem hj, hjc])
    · refine .inr ⟨j, h2, h4, fun m hm c hc => ?_⟩
      have : m < l.length := by
        rcases Nat.lt_or_ge m l.length with h | h
        · exact h
        · rw [List.getElem?_eq_none (by omega)] at hc; simp at hc
      exact h5 m hm (by omega) c hc

/-- In an empty string `findLastOf` reads the byte before the buffer. -/
theorem findLastOf_empty_violated : findLastOf (ofChars []) [47] = .ub := by decide

example : ∃ i, findLastOf (ofChars [47, 97, 47, 98]) [47, 92] = .ok i ∧ i = 2 := by
  obtain ⟨i, h1, h2⟩ := findLastOf_exact (ofChars [47, 97, 47, 98]) [47, 97, 47, 98] (rep_ofChars (by decide)) (by simp) [47, 92]
  refine ⟨i, h1, ?_⟩
  have : findLastOf (ofChars [47, 97, 47, 98]) [47, 92] = .ok 2 := by decide
  rw [this] at h1
  exact (Out.ok.inj h1).symm

/-- `eraseAt(-1)` is accepted and writes in front of the new buffer. -/
theorem eraseAt_negative_violated : ¬ EditsExact := by
  intro h
  have := h (ofChars [97]) [97] (.eraseAt (-1)) [] (rep_ofChars (by decide)) trivial
  simp only [editSpec] at this
  rw [if_neg (by omega)] at this
  revert this; decide

/-- `insertAt(-1, "b")` is accepted and writes in front of the new buffer. -/
theorem insertAt_negative_violated :
    edit (ofChars [97]) (.insertStr (-1) (ofChars [98])) = .ub ∧
    editSpec [97] (.insertStr (-1) (ofChars [98])) [98] = none := by decide

/-- Inserting at the end is rejected. -/
theorem insertAt_end_violated :
    edit (ofChars [97]) (.insertStr 1 (ofChars [98])) = .err ∧
    editSpec [97] (.insertStr 1 (ofChars [98])) [98] = some [97, 98] := by decide

/-- Appending a cleared (buffer-less) string throws. -/
theorem append_cleared_violated :
    edit (ofChars [97]) (.append S.empty) = .err ∧ editSpec [97] (.append S.empty) [] = some [97] := by decide

example : EditOK [97, 98] (.insertStr 1 (ofChars [99])) ∧ ArgRep (.insertStr 1 (ofChars [99])) [99] :=
  ⟨by simp [EditOK], rep_ofChars (by decide)⟩

end Verif.Str
