import Verif.Base.StrLemmas
/-
C05 substring, C06 split, C07 replace, C08 copying, C09 searching, C10 case conversion.

`Rep s l` (StrLemmas) says: `s` is a well-formed `String` object whose characters are `l`
(NUL-free, buffer zero-terminated). It is the representation relation all theorems use to talk about
`String` objects in terms of plain character lists.
-/
namespace Verif.Str
open Verif

/-! ### C05 substring -/

/-- Specification: `r` consists of exactly the characters at positions `start..stop`, where a negative
`stop` counts from the back and `stop` is clamped to the last character. -/
def IsInclusiveSlice (l : Bytes) (start stop : Int) (r : Bytes) : Prop :=
  let last := min (if stop < 0 then l.length + stop else stop) (l.length - 1)
  (r.length : Int) = max 0 (last - start + 1) ∧ ∀ k : Nat, k < r.length → r[k]? = l[start.toNat + k]?

/-- The full property C05 (false of the code, see `substring_backslash_violated`). -/
def SubstringExact : Prop :=
  ∀ (s : S) (l : Bytes), Rep s l → ∀ start stop : Int,
    (start < 0 → soSubstring s start stop = .err) ∧
    (0 ≤ start → ∃ t r, soSubstring s start stop = .ok t ∧ Rep t r ∧ IsInclusiveSlice l start stop r)

/-- What the code computes for every string and every pair of indices: the inclusive slice, passed
through escape processing. No index leaves the string. -/
theorem substring_then_unescape (s : S) (l : Bytes) (h : Rep s l) (start stop : Int) :
    (start < 0 → soSubstring s start stop = .err) ∧
    (0 ≤ start → ∃ t r, soSubstring s start stop = .ok t ∧ Rep t (unescapeChars r) ∧
      r <:+: l ∧ IsInclusiveSlice l start stop r) := by
  constructor
  · intro hs; simp [soSubstring, hs]
  · intro h0
    obtain ⟨a, rfl⟩ := Int.eq_ofNat_of_zero_le h0
    unfold soSubstring
    rw [if_neg (by omega), h.cnt]
    simp only
    generalize hst : (if (if stop < 0 then (l.length : Int) + stop else stop) ≥ (l.length : Int) then
      (l.length : Int) - 1 else if stop < 0 then (l.length : Int) + stop else stop) = last
    have hlast : last = min (if stop < 0 then (l.length : Int) + stop else stop) ((l.length : Int) - 1) := by
      rw [← hst]; split <;> omega
    have hle : last ≤ (l.length : Int) - 1 := by rw [hlast]; exact Int.min_le_right _ _
    by_cases hc : (a : Int) ≤ last
    · rw [if_pos hc]
      obtain ⟨b, hb⟩ := Int.eq_ofNat_of_zero_le (show 0 ≤ last - a + 1 by omega)
      rw [hb]
      rw [rep_getSubstring h a b (by omega)]
      have hz : NZ ((l.drop a).take b) := fun c hc => h.nz c (List.mem_of_mem_drop (List.mem_of_mem_take hc))
      obtain ⟨t, e, r⟩ := rep_unescape (rep_ofChars hz)
      refine ⟨t, _, by simpa [Out.bind, soSet] using e, r, ?_, ?_⟩
      · exact (List.take_prefix _ _).isInfix.trans (List.drop_suffix _ _).isInfix
      · unfold IsInclusiveSlice
        rw [← hlast]
        refine ⟨?_, ?_⟩
        · simp; omega
        · intro k hk
          simp at hk
          rw [List.getElem?_take_of_lt (by omega), List.getElem?_drop]; simp
    · rw [if_neg hc]
      obtain ⟨t, e, r⟩ := rep_unescape (rep_ofChars (l := []) (by intro c hc; cases hc))
      refine ⟨t, [], by simpa [Out.bind, soSet] using e, r, List.nil_infix, ?_⟩
      unfold IsInclusiveSlice
      rw [← hlast]
      refine ⟨?_, by simp⟩
      simp only [List.length_nil]; omega

/-- **C05**, for strings without backslash characters (missing: strings containing a backslash, for
which the property is false). -/
theorem substring_exact_partial (s : S) (l : Bytes) (h : Rep s l) (hb : (92 : UInt8) ∉ l) (start stop : Int) :
    (start < 0 → soSubstring s start stop = .err) ∧
    (0 ≤ start → ∃ t r, soSubstring s start stop = .ok t ∧ Rep t r ∧ IsInclusiveSlice l start stop r) := by
  refine ⟨(substring_then_unescape s l h start stop).1, fun h0 => ?_⟩
  obtain ⟨t, r, e, hr, hi, hs⟩ := (substring_then_unescape s l h start stop).2 h0
  refine ⟨t, r, e, ?_, hs⟩
  rwa [unescape_id (fun hc => hb (hi.subset hc))] at hr

/-- `substring` of the two characters backslash, `n` returns one newline character. -/
theorem substring_backslash_violated : ¬ SubstringExact := by
  intro h
  obtain ⟨t, r, e, hr, hs⟩ := (h (ofChars [92, 110]) [92, 110] (rep_ofChars (by decide)) 0 1).2 (by decide)
  have e1 : soSubstring (ofChars [92, 110]) 0 1 = .ok ⟨some [10, 0], 1, 1⟩ := by decide
  rw [e1] at e; injection e with e; subst e
  have : r = [10] := hr.unique ⟨by decide, rfl, .inr ⟨0, rfl, rfl⟩⟩
  subst this
  exact absurd hs.1 (by decide)

/-- "hello".substring(1,-2) = "ell". -/
example : IsInclusiveSlice [104, 101, 108, 108, 111] 1 (-2) [101, 108, 108] := by
  refine ⟨by decide, ?_⟩
  intro k hk
  have : k < 3 := hk
  match k, this with
  | 0, _ => decide
  | 1, _ => decide
  | 2, _ => decide

example : soSubstring (ofChars [104, 101, 108, 108, 111]) 1 (-2) =
    .ok ⟨some [101, 108, 108, 0, 0, 0, 0], 6, 3⟩ := by decide

/-! ### C06 split -/

/-- Concatenation with a separator in between. -/
def joinWith (d : Bytes) : List Bytes → Bytes
  | [] => []
  | [p] => p
  | p :: q :: ps => p ++ d ++ joinWith d (q :: ps)

/-- Specification of splitting: at least one piece, the pieces contain no delimiter, and joining them
with the delimiter gives the original back. -/
def IsSplit (d l : Bytes) (pieces : List Bytes) : Prop :=
  pieces ≠ [] ∧ (∀ p ∈ pieces, ¬ d <:+: p) ∧ joinWith d pieces = l

theorem IsSplit.cons {d p rest : Bytes} {ps : List Bytes} (h : IsSplit d rest ps) (hp : ¬ d <:+: p) :
    IsSplit d (p ++ d ++ rest) (p :: ps) := by
  obtain ⟨h1, h2, h3⟩ := h
  refine ⟨by simp, by simpa using ⟨hp, h2⟩, ?_⟩
  cases ps with
  | nil => exact absurd rfl h1
  | cons q ps => simp only [joinWith, h3]

theorem isSplit_single {d l : Bytes} (h : ¬ d <:+: l) : IsSplit d l [l] :=
  ⟨by simp, by simpa using h, rfl⟩

theorem strchr_some {h : Bytes} {c : UInt8} {k : Nat} (hc : c ≠ 0) (e : strchr h c = some k) :
    k < h.length ∧ h.drop k = c :: h.drop (k+1) ∧ c ∉ h.take k := by
  induction h generalizing k with
  | nil => simp [strchr, hc] at e
  | cons x xs ih =>
    simp only [strchr] at e
    split at e
    · rename_i hx; injection e with e; subst e; simp [hx]
    · rename_i hx
      cases hf : strchr xs c with
      | none => rw [hf] at e; cases e
      | some k' =>
        rw [hf] at e; simp at e; subst e
        obtain ⟨a, b, d⟩ := ih hf
        refine ⟨by simp; omega, by simpa using b, ?_⟩
        simp; exact ⟨fun e => hx e.symm, d⟩

theorem strchr_none {h : Bytes} {c : UInt8} (e : strchr h c = none) : c ∉ h := by
  induction h with
  | nil => simp
  | cons x xs ih =>
    simp only [strchr] at e
    split at e
    · cases e
    · rename_i hx
      have : strchr xs c = none := by simpa using e
      simp; exact ⟨fun e => hx e.symm, ih this⟩

theorem singleton_infix {c : UInt8} {l : Bytes} : [c] <:+: l ↔ c ∈ l := by
  constructor
  · intro h; exact h.subset (by simp)
  · intro h
    obtain ⟨a, b, rfl⟩ := List.append_of_mem h
    exact ⟨a, b, by simp⟩

theorem splitCharLoop_eq {s : S} {l : Bytes} (h : Rep s l) {d : UInt8} (hd : d ≠ 0) :
    ∀ (fuel p : Nat), p ≤ l.length → l.length - p < fuel →
    ∃ ps, splitCharLoop s d fuel p p = some (.ok (ps.map ofChars)) ∧ IsSplit [d] (l.drop p) ps := by
  intro fuel
  induction fuel with
  | zero => intro p _ hf; omega
  | succ fuel ih =>
    intro p hp hf
    rw [splitCharLoop, rep_cstr_at h hp]
    simp only
    cases hc : strchr (l.drop p) d with
    | none =>
      refine ⟨[l.drop p], ?_, isSplit_single (by rw [singleton_infix]; exact strchr_none hc)⟩
      simp only
      have e : (s.count - (p : Int)) = ((l.length - p : Nat) : Int) := by rw [h.cnt]; omega
      rw [e, rep_getSubstring h p (l.length - p) (by omega)]
      have : (l.drop p).take (l.length - p) = l.drop p := List.take_of_length_le (by simp)
      rw [this]; rfl
    | some k =>
      obtain ⟨h1, h2, h3⟩ := strchr_some hd hc
      simp at h1
      simp only
      have e : ((p : Int) + k - p) = ((k : Nat) : Int) := by omega
      rw [e, rep_getSubstring h p k (by omega)]
      simp only
      have e2 : ((p : Int) + k + 1) = ((p + k + 1 : Nat) : Int) := by omega
      rw [e2]
      obtain ⟨ps, e3, hs⟩ := ih (p + k + 1) (by omega) (by omega)
      rw [e3]
      refine ⟨(l.drop p).take k :: ps, rfl, ?_⟩
      have hsp : l.drop p = (l.drop p).take k ++ [d] ++ l.drop (p + k + 1) := by
        conv => lhs; rw [← List.take_append_drop k (l.drop p), h2, List.drop_drop]
        simp [Nat.add_assoc]
      rw [hsp]
      conv => arg 3; rw [← hsp]
      exact hs.cons (by rw [singleton_infix]; exact h3)

/-- **C06** for the character delimiter (native API): for every string and every delimiter character. -/
theorem split_char_inverts_join (s : S) (l : Bytes) (h : Rep s l) (d : UInt8) (hd : d ≠ 0) :
    ∃ pieces, (∀ fuel, l.length < fuel → splitChar s d fuel = some (.ok (pieces.map ofChars))) ∧
      IsSplit [d] l pieces := by
  obtain ⟨ps, e, hs⟩ := splitCharLoop_eq h hd (l.length + 1) 0 (by omega) (by omega)
  refine ⟨ps, ?_, by simpa using hs⟩
  intro fuel hf
  obtain ⟨ps', e', hs'⟩ := splitCharLoop_eq h hd fuel 0 (by omega) (by omega)
  have mono : ∀ (f : Nat) (a b : Int) r, splitCharLoop s d f a b = some r → splitCharLoop s d (f+1) a b = some r := by
    intro f
    induction f with
    | zero => intro a b r hr; simp [splitCharLoop] at hr
    | succ f ih =>
      intro a b r hr
      rw [splitCharLoop] at hr ⊢
      split at hr <;> try exact hr
      split at hr <;> try exact hr
      split at hr <;> try exact hr
      simp only [Option.map_eq_some_iff] at hr ⊢
      obtain ⟨x, hx, he⟩ := hr
      exact ⟨x, ih _ _ _ hx, he⟩
  have mono' : ∀ (k : Nat) r, splitCharLoop s d (l.length + 1) 0 0 = some r →
      splitCharLoop s d (l.length + 1 + k) 0 0 = some r := by
    intro k r hr
    induction k with
    | zero => exact hr
    | succ k ih => exact mono _ _ _ _ ih
  have := mono' (fuel - (l.length + 1)) _ (by simpa using e)
  rw [show l.length + 1 + (fuel - (l.length + 1)) = fuel by omega] at this
  exact this

theorem not_infix_take_of_first {d l : Bytes} {j : Nat} (hd : d ≠ []) (e : firstOcc d l = some j) :
    ¬ d <:+: l.take j := by
  obtain ⟨_, _, h3⟩ := firstOcc_some e
  rintro ⟨a, b, hab⟩
  have hlen := congrArg List.length hab
  simp at hlen
  have hdl : 0 < d.length := List.length_pos_iff.2 hd
  have hlt : a.length < j := by omega
  apply h3 a.length hlt
  have hl : l = l.take j ++ l.drop j := (List.take_append_drop j l).symm
  rw [hl, ← hab]
  refine ⟨b ++ l.drop j, ?_⟩
  simp [List.drop_append]

theorem split_first {d l : Bytes} {j : Nat} (e : firstOcc d l = some j) :
    l = l.take j ++ d ++ l.drop (j + d.length) := by
  obtain ⟨_, ⟨t, ht⟩, _⟩ := firstOcc_some e
  have h2 : l.drop (j + d.length) = t := by
    rw [← List.drop_drop, ← ht]; simp
  rw [h2]
  conv => lhs; rw [← List.take_append_drop j l, ← ht]
  simp

/-- **C06** for the string delimiter (native API): for every string and every non-empty delimiter. -/
theorem split_string_inverts_join (s t : S) (l d : Bytes) (h : Rep s l) (ht : Rep t d) (hd : d ≠ []) :
    ∃ out pieces, (∀ fuel, l.length < fuel → splitStr t fuel s = some (.ok out)) ∧
      out = pieces.map ofChars ∧ IsSplit d l pieces := by
  generalize hn : l.length = n
  induction n using Nat.strongRecOn generalizing s l with
  | ind n ih =>
    subst hn
    have hf := rep_find h ht
    have hdl : 0 < d.length := List.length_pos_iff.2 hd
    by_cases hl : l = []
    · subst hl
      refine ⟨[ofChars []], [[]], ?_, rfl, isSplit_single (by simpa using hd)⟩
      intro fuel hfu
      obtain ⟨f, rfl⟩ : ∃ f, fuel = f + 1 := ⟨fuel - 1, by omega⟩
      rw [splitStr, hf]; simp [rep_copy h, Out.map]
    · rw [if_neg hl] at hf
      cases hfo : firstOcc d l with
      | none =>
        rw [hfo] at hf
        refine ⟨[ofChars l], [l], ?_, rfl, isSplit_single (firstOcc_none hfo)⟩
        intro fuel hfu
        obtain ⟨f, rfl⟩ : ∃ f, fuel = f + 1 := ⟨fuel - 1, by omega⟩
        rw [splitStr, hf]; simp [rep_copy h, Out.map]
      | some j =>
        rw [hfo] at hf
        have hj := firstOcc_length hfo
        obtain ⟨s', e1, r1⟩ := rep_erase h 0 (j + d.length) (List.length_pos_iff.2 hl) (by omega)
        simp only [List.take_zero, List.nil_append, Nat.zero_add] at r1
        obtain ⟨out, ps, ho, rfl, hs⟩ := ih (l.drop (j + d.length)).length (by simp; omega) s' _ r1 rfl
        have e2 := rep_getSubstring h 0 j (by omega)
        refine ⟨ofChars (l.take j) :: ps.map ofChars, l.take j :: ps, ?_, rfl, ?_⟩
        · intro fuel hfu
          obtain ⟨f, rfl⟩ : ∃ f, fuel = f + 1 := ⟨fuel - 1, by omega⟩
          rw [splitStr, hf]
          simp only
          have hne : ((j : Int) ≠ -1) := by omega
          rw [if_pos hne, ht.cnt]
          rw [show ((0:Nat):Int) = 0 from rfl] at e1 e2
          rw [show ((j + d.length : Nat) : Int) = (j : Int) + d.length by omega] at e1
          rw [e1, e2]
          simp only [List.drop_zero]
          rw [ho f (by simp; omega)]
          rfl
        · have := hs.cons (not_infix_take_of_first hd hfo)
          rw [← split_first hfo] at this
          exact this

/-- The script method `split` passes every piece through escape processing, so joining no longer
inverts it: splitting `a\\n,b` at `,`. -/
theorem split_script_backslash_violated :
    ∃ pieces : List Bytes, splitChar (ofChars [97, 92, 110, 44, 98]) 44 6 = some (.ok (pieces.map ofChars)) ∧
      joinWith [44] (pieces.map unescapeChars) ≠ [97, 92, 110, 44, 98] := by
  refine ⟨[[97, 92, 110], [98]], by decide, by decide⟩

/-- With an empty delimiter `split` never returns (for a non-empty string). -/
theorem split_empty_delimiter_diverges (s t : S) (l : Bytes) (h : Rep s l) (ht : Rep t []) (hl : l ≠ [])
    (fuel : Nat) : splitStr t fuel s = none := by
  induction fuel generalizing s with
  | zero => rfl
  | succ f ih =>
    have hf := rep_find h ht
    rw [if_neg hl] at hf
    have h0 : firstOcc [] l = some 0 := by cases l <;> simp [firstOcc]
    rw [h0] at hf
    obtain ⟨s', e1, r1⟩ := rep_erase h 0 0 (List.length_pos_iff.2 hl) (by omega)
    simp only [List.take_zero, List.nil_append, Nat.zero_add, List.drop_zero] at r1
    have e2 := rep_getSubstring h 0 0 (by omega)
    rw [splitStr, hf]
    have hc := ht.cnt
    simp only at hf ⊢
    rw [if_pos (by omega)]
    have e3 : ((0 : Nat) : Int) + t.count = ((0 : Nat) : Int) := by rw [hc]; rfl
    rw [e3]
    rw [show ((0:Nat):Int) = 0 from rfl] at e1 e2 ⊢
    rw [e1, e2]
    simp [ih s' r1]

/-- A concrete instance: "a,b,,c" split at ','. -/
example : splitChar (ofChars [97, 44, 98, 44, 44, 99]) 44 7 =
    some (.ok (([[97], [98], [], [99]] : List Bytes).map ofChars)) := by decide

/-! ### C07 replace -/

/-- Specification: `r` is `l` with the leftmost non-overlapping occurrences of `old` replaced. -/
inductive Replaced (old new : Bytes) : Bytes → Bytes → Prop
  | done {l} : ¬ old <:+: l → Replaced old new l l
  | step {pre post r} : (∀ i < pre.length, ¬ old <+: (pre ++ old ++ post).drop i) →
      Replaced old new post r → Replaced old new (pre ++ old ++ post) (pre ++ new ++ r)

theorem Replaced.unique {old new l r r' : Bytes} (hne : old ≠ []) (h : Replaced old new l r)
    (h' : Replaced old new l r') : r = r' := by
  induction h generalizing r' with
  | done hn =>
    cases h' with
    | done _ => rfl
    | step _ _ => exact absurd (by simp [List.append_assoc]) hn
  | @step pre post r hpre hr ih =>
    generalize hl : pre ++ old ++ post = l at h'
    cases h' with
    | done hn => exact absurd (by rw [← hl]; simp [List.append_assoc]) hn
    | @step pre' post' r' hpre' hr' =>
      have occ : ∀ (a b : Bytes), old <+: (a ++ old ++ b).drop a.length := by
        intro a b; simp [List.append_assoc]
      have hlen : pre.length = pre'.length := by
        rcases Nat.lt_trichotomy pre.length pre'.length with h | h | h
        · exact absurd (hl ▸ occ pre post) (hpre' _ h)
        · exact h
        · exact absurd (hl ▸ occ pre' post') (hpre _ h)
      have e1 : pre = pre' := by
        have := congrArg (List.take pre.length) hl
        simpa [List.append_assoc, hlen] using this
      subst e1
      have e2 : post = post' := by simpa using hl
      subst e2
      rw [ih hr']

theorem replaceLoop_eq {old new : S} {o d : Bytes} (ho : Rep old o) (hd : Rep new d) (hne : o ≠ []) :
    ∀ (n : Nat) (s : S) (pre l : Bytes), l.length = n → Rep s (pre ++ l) →
    ∃ r, Replaced o d l r ∧
      ((pre ++ r = [] ∧ l ≠ [] → ∀ fuel, n < fuel → replaceLoop old new fuel s pre.length = some .err) ∧
      (pre ++ r ≠ [] ∨ l = [] → ∃ t, Rep t (pre ++ r) ∧
          ∀ fuel, n < fuel → replaceLoop old new fuel s pre.length = some (.ok t))) := by
  intro n
  induction n using Nat.strongRecOn with
  | ind n ih =>
    intro s pre l hn hs
    have hol : 0 < o.length := List.length_pos_iff.2 hne
    have hc := rep_cstr_at hs (off := pre.length) (by simp)
    rw [List.drop_left] at hc
    cases hfo : firstOcc o l with
    | none =>
      have key : ∀ fuel, n < fuel → replaceLoop old new fuel s pre.length = some (.ok s) := by
        intro fuel hf
        obtain ⟨f, rfl⟩ : ∃ f, fuel = f + 1 := ⟨fuel - 1, by omega⟩
        rw [replaceLoop, hc, rep_cstr ho]
        simp only [strstr_eq, hfo]
      refine ⟨l, .done (firstOcc_none hfo), ?_, ?_⟩
      · rintro ⟨h1, h2⟩; simp at h1; exact absurd h1.2 h2
      · intro _; exact ⟨s, hs, key⟩
    | some j =>
      have hj := firstOcc_length hfo
      have hsp := split_first hfo
      obtain ⟨_, _, hfirst⟩ := firstOcc_some hfo
      have hset := rep_setSubstring hs hd (pre.length + j) o.length (by simp; omega) (by simp; omega)
      have e1 : (pre ++ l).take (pre.length + j) = pre ++ l.take j := by
        rw [List.take_append, Nat.add_sub_cancel_left, List.take_of_length_le (by omega)]
      have e2 : (pre ++ l).drop (pre.length + j + o.length) = l.drop (j + o.length) := by
        rw [Nat.add_assoc, ← List.drop_drop, List.drop_left]
      rw [e1, e2] at hset
      have hstep : ∀ r, Replaced o d (l.drop (j + o.length)) r → Replaced o d l (l.take j ++ d ++ r) := by
        intro r hr
        rw [hsp]
        conv => arg 4; rw [← hsp]
        apply Replaced.step _ hr
        rw [← hsp]
        intro i hi
        exact hfirst i (by simp at hi; omega)
      by_cases hemp : pre ++ l.take j ++ d ++ l.drop (j + o.length) = []
      · -- the code refuses to produce an empty string
        have herr := hset.1 hemp
        simp only [List.append_eq_nil_iff] at hemp
        obtain ⟨⟨⟨hp, htk⟩, hdn⟩, hdr⟩ := hemp
        have hr : Replaced o d (l.drop (j + o.length)) [] := by
          rw [hdr]; exact .done (by simpa using hne)
        refine ⟨_, hstep _ hr, ?_, ?_⟩
        · rintro _ fuel hf
          obtain ⟨f, rfl⟩ : ∃ f, fuel = f + 1 := ⟨fuel - 1, by omega⟩
          rw [replaceLoop, hc, rep_cstr ho]
          simp only [strstr_eq, hfo]
          rw [show ((pre.length : Int) + j) = ((pre.length + j : Nat) : Int) by omega, ho.cnt, herr]
        · rintro (h | h)
          · exact absurd (by simp [hp, htk, hdn]) h
          · subst h; simp at hj; exact absurd hj.2 hne
      · obtain ⟨s', es, rs⟩ := hset.2 hemp
        obtain ⟨r, hr, hA, hB⟩ := ih (l.drop (j + o.length)).length (by simp; omega) s'
          (pre ++ l.take j ++ d) _ rfl rs
        have estep : ∀ fuel, n < fuel + 1 → replaceLoop old new (fuel+1) s pre.length =
            replaceLoop old new fuel s' (pre ++ l.take j ++ d).length := by
          intro f hf
          rw [replaceLoop, hc, rep_cstr ho]
          simp only [strstr_eq, hfo]
          rw [show ((pre.length : Int) + j) = ((pre.length + j : Nat) : Int) by omega, ho.cnt, es]
          simp only [hd.cnt]
          congr 1
          simp; omega
        refine ⟨_, hstep r hr, ?_, ?_⟩
        · rintro ⟨h1, h2⟩ fuel hf
          obtain ⟨f, rfl⟩ : ∃ f, fuel = f + 1 := ⟨fuel - 1, by omega⟩
          rw [estep f (by omega)]
          apply hA
          · refine ⟨by simpa using h1, ?_⟩
            intro hdr
            apply hemp
            simp only [List.append_eq_nil_iff] at h1 ⊢
            exact ⟨⟨⟨h1.1, h1.2.1.1⟩, h1.2.1.2⟩, hdr⟩
          · simp; omega
        · intro _
          have hcond : pre ++ List.take j l ++ d ++ r ≠ [] ∨ l.drop (j + o.length) = [] := by
            by_cases hx : l.drop (j + o.length) = []
            · exact .inr hx
            · by_cases hy : pre ++ List.take j l ++ d ++ r = []
              · rename_i hor
                rcases hor with hor | hor
                · exact absurd (by simpa using hy) hor
                · subst hor; simp at hx
              · exact .inl hy
          obtain ⟨t, rt, ht⟩ := hB hcond
          refine ⟨t, by simpa using rt, ?_⟩
          intro fuel hf
          obtain ⟨f, rfl⟩ : ∃ f, fuel = f + 1 := ⟨fuel - 1, by omega⟩
          rw [estep f (by omega)]
          exact ht f (by simp; omega)

/-- The full property C07 (false of the code, see `replace_whole_violated`). -/
def ReplaceCorrect : Prop :=
  ∀ (s old new : S) (l o d : Bytes), Rep s l → Rep old o → Rep new d → o ≠ [] →
    ∃ t r, (∀ fuel, l.length < fuel → replace s old new fuel = some (.ok t)) ∧ Rep t r ∧ Replaced o d l r

/-- Exact behaviour of `replace` for every string, non-empty pattern and replacement: it always
terminates, and either returns the replaced string or throws, the latter exactly when the
replacement erases a non-empty string completely. -/
theorem replace_exact (s old new : S) (l o d : Bytes) (hs : Rep s l) (ho : Rep old o) (hd : Rep new d)
    (hne : o ≠ []) :
    ∃ r, Replaced o d l r ∧
      ((r = [] ∧ l ≠ [] ∧ ∀ fuel, l.length < fuel → replace s old new fuel = some .err) ∨
       ((r ≠ [] ∨ l = []) ∧ ∃ t, Rep t r ∧ ∀ fuel, l.length < fuel → replace s old new fuel = some (.ok t))) := by
  obtain ⟨r, hr, hA, hB⟩ := replaceLoop_eq ho hd hne l.length (ofChars l) [] l rfl (rep_ofChars hs.nz)
  refine ⟨r, hr, ?_⟩
  simp only [replace, rep_copy hs]
  by_cases hc : r ≠ [] ∨ l = []
  · right
    obtain ⟨t, rt, ht⟩ := hB (by simpa using hc)
    exact ⟨hc, t, by simpa using rt, fun fuel hf => by simpa using ht fuel hf⟩
  · left
    have h1 : r = [] := Classical.byContradiction fun h => hc (.inl h)
    have h2 : l ≠ [] := fun h => hc (.inr h)
    exact ⟨h1, h2, fun fuel hf => by simpa using hA ⟨by simpa using h1, h2⟩ fuel hf⟩

/-- **C07**, when the result is not the empty string (missing: results that are empty although the
input is not; the code throws there). -/
theorem replace_correct_partial (s old new : S) (l o d : Bytes) (hs : Rep s l) (ho : Rep old o)
    (hd : Rep new d) (hne : o ≠ []) (hres : ∀ r, Replaced o d l r → r ≠ []) :
    ∃ t r, (∀ fuel, l.length < fuel → replace s old new fuel = some (.ok t)) ∧ Rep t r ∧ Replaced o d l r := by
  obtain ⟨r, hr, h⟩ := replace_exact s old new l o d hs ho hd hne
  rcases h with ⟨h, _⟩ | ⟨_, t, rt, ht⟩
  · exact absurd h (hres r hr)
  · exact ⟨t, r, ht, rt, hr⟩

/-- `"a".replace("a","")` throws instead of giving the empty string. -/
theorem replace_whole_violated : ¬ ReplaceCorrect := by
  intro h
  obtain ⟨t, r, ht, _⟩ := h (ofChars [97]) (ofChars [97]) (ofChars []) [97] [97] []
    (rep_ofChars (by decide)) (rep_ofChars (by decide)) (rep_ofChars (by intro c hc; cases hc)) (by simp)
  have := ht 2 (by decide)
  revert this
  have e : replace (ofChars [97]) (ofChars [97]) (ofChars []) 2 = some .err := by decide
  rw [e]; simp

/-- A pattern contained in its own replacement: "aXa".replace("a","aa") = "aaXaa". -/
example : Replaced [97] [97, 97] [97, 88, 97] [97, 97, 88, 97, 97] := by
  have h2 : Replaced [97] [97, 97] ([] ++ [97] ++ []) ([] ++ [97, 97] ++ []) :=
    .step (pre := []) (post := []) (by simp) (.done (by decide))
  have h1 := Replaced.step (old := [97]) (new := [97, 97]) (pre := [88]) (post := []) (r := [])
    (by intro i hi; have : i = 0 := (by simp at hi; exact hi); subst this; decide) (.done (by decide))
  exact .step (pre := []) (post := [88, 97]) (by simp) h1

/-! ### C08 copying -/

/-- The full property C08: storing a string value (every store goes through
`StringScriptObject::set`, `vm_store.cpp` 246-276, `vm_container.cpp` 492-497) keeps its characters. -/
def CopyPreserves : Prop := ∀ (s : S) (l : Bytes), Rep s l → ∃ t, soSet s = .ok t ∧ Rep t l

/-- **C08**, for strings without backslash characters (missing: strings containing one). -/
theorem copy_preserves_partial (s : S) (l : Bytes) (h : Rep s l) (hb : (92 : UInt8) ∉ l) :
    ∃ t, soSet s = .ok t ∧ Rep t l := by
  obtain ⟨t, e, r⟩ := rep_unescape h
  exact ⟨t, e, by rwa [unescape_id hb] at r⟩

/-- Copying never crashes, whatever the characters. -/
theorem copy_total (s : S) (l : Bytes) (h : Rep s l) : ∃ t l', soSet s = .ok t ∧ Rep t l' ∧ l'.length ≤ l.length := by
  obtain ⟨t, e, r⟩ := rep_unescape h
  refine ⟨t, _, e, r, ?_⟩
  clear r e h
  induction l using unescapeChars.induct <;> simp_all [unescapeChars] <;> omega

/-- A backslash followed by `n` becomes a newline when the value is copied. -/
theorem copy_backslash_violated : ¬ CopyPreserves := by
  intro h
  obtain ⟨t, e, hr⟩ := h (ofChars [92, 110]) [92, 110] (rep_ofChars (by decide))
  have e1 : soSet (ofChars [92, 110]) = .ok ⟨some [10, 0], 1, 1⟩ := by decide
  rw [e1] at e; injection e with e; subst e
  have := hr.cnt
  revert this; decide

/-! ### C09 searching -/

/-- `indexOf`/`find` returns the first position at which the needle occurs, -1 if there is none; on
an empty haystack it always returns -1. -/
theorem find_first (s t : S) (l d : Bytes) (hs : Rep s l) (ht : Rep t d) (hl : l ≠ []) :
    ∃ i : Int, find s t = .ok i ∧
      ((i = -1 ∧ ¬ d <:+: l) ∨ (∃ j : Nat, i = j ∧ d <+: l.drop j ∧ ∀ k < j, ¬ d <+: l.drop k)) := by
  refine ⟨_, rep_find hs ht, ?_⟩
  rw [if_neg hl]
  cases e : firstOcc d l with
  | none => exact .inl ⟨rfl, firstOcc_none e⟩
  | some j => obtain ⟨_, h2, h3⟩ := firstOcc_some e; exact .inr ⟨j, rfl, h2, h3⟩

/-- The full claim about `contains` (false in one case, see below). -/
def ContainsExact : Prop := ∀ (s t : S) (l d : Bytes), Rep s l → Rep t d → contains s t = .ok (decide (d <:+: l))

theorem contains_eq (s t : S) (l d : Bytes) (hs : Rep s l) (ht : Rep t d) :
    contains s t = .ok (decide (l ≠ [] ∧ d <:+: l)) := by
  unfold contains
  rw [rep_copy hs, rep_copy ht]
  simp only [Out.bind]
  rw [rep_find (rep_ofChars hs.nz) (rep_ofChars ht.nz)]
  simp only [Out.ok.injEq]
  by_cases hl : l = []
  · simp [hl]
  · rw [if_neg hl]
    cases e : firstOcc d l with
    | none => have := firstOcc_none e; simp [this]
    | some j =>
      have hi : d <:+: l := by
        obtain ⟨_, h2, _⟩ := firstOcc_some e
        exact h2.isInfix.trans (List.drop_suffix _ _).isInfix
      have : ((j : Int) ≠ -1) := by omega
      simp [hi, hl, this]

/-- **C09** `contains`, except for an empty needle in an empty string. -/
theorem contains_exact_partial (s t : S) (l d : Bytes) (hs : Rep s l) (ht : Rep t d) (hne : l ≠ [] ∨ d ≠ []) :
    contains s t = .ok (decide (d <:+: l)) := by
  rw [contains_eq s t l d hs ht]
  congr 1
  rw [decide_eq_decide]
  constructor
  · exact fun h => h.2
  · intro h
    refine ⟨?_, h⟩
    rintro rfl
    simp at h
    rcases hne with h' | h'
    · exact h' rfl
    · exact h' h

/-- `"".contains("")` is false. -/
theorem contains_empty_violated : ¬ ContainsExact := by
  intro h
  have := h S.empty S.empty [] [] rep_empty rep_empty
  revert this; decide

/-- **C09** `startsWith`. -/
theorem startsWith_exact (s t : S) (l d : Bytes) (hs : Rep s l) (ht : Rep t d) :
    startsWith s t = .ok (decide (d <+: l)) := by
  unfold startsWith
  rw [hs.cnt, ht.cnt, rep_cstr hs, rep_cstr ht]
  by_cases h : (l.length : Int) ≥ d.length
  · rw [if_pos h]
    simp only [Out.bind, Out.ok.injEq, Int.toNat_natCast]
    have hl : d.length ≤ l.length := by omega
    clear h hs ht
    induction d generalizing l with
    | nil => cases l <;> simp [strncmpEq]
    | cons c cs ih =>
      cases l with
      | nil => simp at hl
      | cons x xs =>
        simp only [List.length_cons, strncmpEq]
        rw [ih xs (by simpa using hl)]
        by_cases hx : x = c
        · subst hx; simp [List.cons_prefix_cons]
        · have : ¬ c = x := fun e => hx e.symm
          simp [List.cons_prefix_cons, hx, this]
  · rw [if_neg h]
    have : ¬ d <+: l := fun hp => by have := hp.length_le; omega
    simp [this]

/-- **C09** `endsWith`. -/
theorem endsWith_exact (s t : S) (l d : Bytes) (hs : Rep s l) (ht : Rep t d) :
    endsWith s t = .ok (decide (d <:+ l)) := by
  unfold endsWith
  rw [hs.cnt, ht.cnt]
  by_cases h : (d.length : Int) ≤ l.length
  · rw [if_pos h]
    have e : ((l.length : Int) - d.length) = ((l.length - d.length : Nat) : Int) := by omega
    rw [e, rep_cstr_at hs (by omega), rep_cstr ht]
    simp only [Out.bind, Out.ok.injEq]
    have key : (l.drop (l.length - d.length) = d) ↔ d <:+ l := by
      constructor
      · intro e; rw [← e]; exact List.drop_suffix _ _
      · rintro ⟨a, rfl⟩; simp
    by_cases hx : d <:+ l
    · simp [hx, key.2 hx]
    · have : ¬ l.drop (l.length - d.length) = d := fun e => hx (key.1 e)
      simp [hx, this]
  · rw [if_neg h]
    have : ¬ d <:+ l := fun hp => by have := hp.length_le; omega
    simp [this]

example : Rep (ofChars [97, 98, 99]) [97, 98, 99] := rep_ofChars (by decide)

/-! ### C10 case conversion -/

theorem caseLoop_step (f : UInt8 → UInt8) (hf : ∀ c, c ≠ 0 → f c ≠ 0) (pre rest : Bytes) (c : UInt8)
    (s : S) (hs : Rep s (pre ++ c :: rest)) :
    ∃ s', (∀ k, caseLoop f (k+1) s pre.length = caseLoop f k s' (shortSucc pre.length)) ∧
      Rep s' (pre ++ f c :: rest) := by
  obtain ⟨n, hb, hsz⟩ := hs.buf_of_ne (by simp)
  have hc : c ≠ 0 := hs.nz c (by simp)
  have hcnt := hs.cnt
  simp at hcnt
  have h1 : at' s pre.length = .ok c := by
    unfold at'
    rw [hcnt, if_neg (by omega), S.mem, hb]
    have := chr_app n pre.length (l := pre ++ c :: rest) (by simp)
    simpa using this
  have h2 : setAt s pre.length (f c) = .ok { s with buf := some (pre ++ f c :: rest ++ List.replicate (n+1) 0) } := by
    unfold setAt
    rw [hcnt, if_neg (by omega), S.mem, hb]
    simp only [Option.getD_some]
    rw [blit_nat _ _ _ (by simp)]
    simp [Out.map, List.drop_append]
  refine ⟨{ s with buf := some (pre ++ f c :: rest ++ List.replicate (n+1) 0) },
    fun k => by rw [caseLoop, if_pos (by omega), h1]; simp only [h2], ?_, by simp; omega, .inr ⟨n, by simp, by simp at hsz ⊢; omega⟩⟩
  intro x hx
  simp at hx
  rcases hx with hx | hx | hx
  · exact hs.nz x (by simp [hx])
  · subst hx; exact hf c hc
  · exact hs.nz x (by simp [hx])

theorem caseLoop_eq (f : UInt8 → UInt8) (hf : ∀ c, c ≠ 0 → f c ≠ 0) :
    ∀ (rest pre : Bytes) (s : S), Rep s (pre ++ rest) → (pre ++ rest).length ≤ 32767 →
      ∃ t, (∀ fuel, rest.length < fuel → caseLoop f fuel s pre.length = some (.ok t)) ∧
        Rep t (pre ++ rest.map f) := by
  intro rest
  induction rest with
  | nil =>
    intro pre s hs _
    refine ⟨s, ?_, by simpa using hs⟩
    intro fuel hfu
    obtain ⟨k, rfl⟩ : ∃ k, fuel = k + 1 := ⟨fuel - 1, by omega⟩
    rw [caseLoop, hs.cnt, if_neg (by simp)]
  | cons c rest ih =>
    intro pre s hs hlen
    have hlen' := hlen
    simp at hlen'
    obtain ⟨s', hstep, hs'⟩ := caseLoop_step f hf pre rest c s hs
    have hss : shortSucc pre.length = ((pre ++ [f c]).length : Nat) := by
      unfold shortSucc; rw [if_neg (by omega)]; simp
    obtain ⟨t, ht, r⟩ := ih (pre ++ [f c]) s' (by simpa using hs') (by simpa using hlen)
    refine ⟨t, ?_, by simpa using r⟩
    intro fuel hfu
    obtain ⟨k, rfl⟩ : ∃ k, fuel = k + 1 := ⟨fuel - 1, by omega⟩
    rw [hstep, hss]
    exact ht k (by simp at hfu; omega)

/-- Above 32767 characters the `short` index wraps to -32768 and the bounds check throws. -/
theorem caseLoop_wraps (f : UInt8 → UInt8) (hf : ∀ c, c ≠ 0 → f c ≠ 0) :
    ∀ (rest pre : Bytes) (s : S) (fuel : Nat), Rep s (pre ++ rest) → 32767 < (pre ++ rest).length →
      pre.length ≤ 32767 → rest.length < fuel → caseLoop f fuel s pre.length = some .err := by
  intro rest
  induction rest with
  | nil => intro pre s fuel _ h1 h2; simp at h1; omega
  | cons c rest ih =>
    intro pre s fuel hs h1 h2 hfu
    obtain ⟨k, rfl⟩ : ∃ k, fuel = k + 1 := ⟨fuel - 1, by omega⟩
    simp at h1 hfu
    obtain ⟨s', hstep, hs'⟩ := caseLoop_step f hf pre rest c s hs
    rw [hstep]
    by_cases hw : pre.length = 32767
    · have hss : shortSucc pre.length = -32768 := by unfold shortSucc; rw [if_pos (by omega)]
      rw [hss]
      obtain ⟨k', rfl⟩ : ∃ k', k = k' + 1 := ⟨k - 1, by omega⟩
      have hc := hs'.cnt
      rw [caseLoop, if_pos (by omega)]
      simp [at']
    · have hss : shortSucc pre.length = ((pre ++ [f c]).length : Nat) := by
        unfold shortSucc; rw [if_neg (by omega)]; simp
      rw [hss]
      exact ih (pre ++ [f c]) s' k (by simpa using hs') (by simp; omega) (by simp; omega) (by omega)

theorem lowerChar_toNat (c : UInt8) :
    (lowerChar c).toNat = if 65 ≤ c.toNat ∧ c.toNat ≤ 90 then c.toNat + 32 else c.toNat := by
  unfold lowerChar
  simp only [UInt8.le_iff_toNat_le]
  have := c.toNat_lt
  split
  · rename_i h
    have h' : 65 ≤ c.toNat ∧ c.toNat ≤ 90 := h
    rw [if_pos h', UInt8.toNat_add, UInt8.toNat_sub]
    simp only [UInt8.reduceToNat]; omega
  · rename_i h
    have h' : ¬ (65 ≤ c.toNat ∧ c.toNat ≤ 90) := h
    rw [if_neg h']

theorem upperChar_toNat (c : UInt8) :
    (upperChar c).toNat = if 97 ≤ c.toNat ∧ c.toNat ≤ 122 then c.toNat - 32 else c.toNat := by
  unfold upperChar
  simp only [UInt8.le_iff_toNat_le]
  have := c.toNat_lt
  split
  · rename_i h
    have h' : 97 ≤ c.toNat ∧ c.toNat ≤ 122 := h
    rw [if_pos h', UInt8.toNat_add, UInt8.toNat_sub]
    simp only [UInt8.reduceToNat]; omega
  · rename_i h
    have h' : ¬ (97 ≤ c.toNat ∧ c.toNat ≤ 122) := h
    rw [if_neg h']

theorem nz_toNat {c : UInt8} : c ≠ 0 ↔ c.toNat ≠ 0 :=
  not_congr ⟨fun e => by rw [e]; rfl, fun e => UInt8.toNat.inj e⟩

theorem lowerChar_nz (c : UInt8) (h : c ≠ 0) : lowerChar c ≠ 0 := by
  rw [nz_toNat] at h ⊢; rw [lowerChar_toNat]; split <;> omega
theorem upperChar_nz (c : UInt8) (h : c ≠ 0) : upperChar c ≠ 0 := by
  rw [nz_toNat] at h ⊢; rw [upperChar_toNat]; split <;> omega
theorem lowerChar_idem (c : UInt8) : lowerChar (lowerChar c) = lowerChar c := by
  apply UInt8.toNat.inj; rw [lowerChar_toNat, lowerChar_toNat]; (repeat' split) <;> omega
theorem upperChar_idem (c : UInt8) : upperChar (upperChar c) = upperChar c := by
  apply UInt8.toNat.inj; rw [upperChar_toNat, upperChar_toNat]; (repeat' split) <;> omega

/-- Specification of the character maps: exactly the 26 letters move, by their alphabet position. -/
def IsLower (c d : UInt8) : Prop :=
  (∃ i : Nat, i < 26 ∧ c.toNat = 'A'.toNat + i ∧ d.toNat = 'a'.toNat + i) ∨
  ((¬ ∃ i : Nat, i < 26 ∧ c.toNat = 'A'.toNat + i) ∧ d = c)
def IsUpper (c d : UInt8) : Prop :=
  (∃ i : Nat, i < 26 ∧ c.toNat = 'a'.toNat + i ∧ d.toNat = 'A'.toNat + i) ∨
  ((¬ ∃ i : Nat, i < 26 ∧ c.toNat = 'a'.toNat + i) ∧ d = c)

theorem lowerChar_spec (c : UInt8) : IsLower c (lowerChar c) := by
  have e := lowerChar_toNat c
  by_cases h : 65 ≤ c.toNat ∧ c.toNat ≤ 90
  · rw [if_pos h] at e
    exact .inl ⟨c.toNat - 65, by omega, by simp; omega, by simp; omega⟩
  · rw [if_neg h] at e
    refine .inr ⟨?_, UInt8.toNat.inj e⟩
    rintro ⟨i, h1, h2⟩
    simp at h2; omega
theorem upperChar_spec (c : UInt8) : IsUpper c (upperChar c) := by
  have e := upperChar_toNat c
  by_cases h : 97 ≤ c.toNat ∧ c.toNat ≤ 122
  · rw [if_pos h] at e
    exact .inl ⟨c.toNat - 97, by omega, by simp; omega, by simp; omega⟩
  · rw [if_neg h] at e
    refine .inr ⟨?_, UInt8.toNat.inj e⟩
    rintro ⟨i, h1, h2⟩
    simp at h2; omega

/-- `r` is `l` with every character converted independently by `conv`. -/
def Converted (conv : UInt8 → UInt8 → Prop) (l r : Bytes) : Prop :=
  r.length = l.length ∧ ∀ (i : Nat) (h : i < l.length) (h' : i < r.length), conv l[i] r[i]

/-- The full property C10. -/
def CaseConversionTotal : Prop :=
  ∀ (s : S) (l : Bytes), Rep s l →
    (∃ t r, (∀ fuel, l.length < fuel → toLowerCase s fuel = some (.ok t)) ∧ Rep t r ∧ Converted IsLower l r) ∧
    (∃ t r, (∀ fuel, l.length < fuel → toUpperCase s fuel = some (.ok t)) ∧ Rep t r ∧ Converted IsUpper l r)

/-- **C10** for strings of at most 32767 characters (missing: longer strings, where it is false). -/
theorem case_conversion_partial (s : S) (l : Bytes) (h : Rep s l) (hl : l.length ≤ 32767) :
    (∃ t r, (∀ fuel, l.length < fuel → toLowerCase s fuel = some (.ok t)) ∧ Rep t r ∧ Converted IsLower l r) ∧
    (∃ t r, (∀ fuel, l.length < fuel → toUpperCase s fuel = some (.ok t)) ∧ Rep t r ∧ Converted IsUpper l r) := by
  constructor
  · obtain ⟨t, ht, r⟩ := caseLoop_eq lowerChar lowerChar_nz l [] (ofChars l) (rep_ofChars h.nz) hl
    refine ⟨t, _, ?_, r, by simp, ?_⟩
    · intro fuel hf; rw [toLowerCase, rep_copy h]; exact ht fuel hf
    · intro i h1 h2; simpa using lowerChar_spec l[i]
  · obtain ⟨t, ht, r⟩ := caseLoop_eq upperChar upperChar_nz l [] (ofChars l) (rep_ofChars h.nz) hl
    refine ⟨t, _, ?_, r, by simp, ?_⟩
    · intro fuel hf; rw [toUpperCase, rep_copy h]; exact ht fuel hf
    · intro i h1 h2; simpa using upperChar_spec l[i]

/-- Converting twice is converting once (strings of at most 32767 characters). -/
theorem case_conversion_idempotent_partial (s t : S) (l : Bytes) (h : Rep s l) (hl : l.length ≤ 32767)
    (ht : toLowerCase s (l.length + 1) = some (.ok t)) :
    ∃ u r, toLowerCase t (l.length + 1) = some (.ok u) ∧ Rep t r ∧ Rep u r := by
  obtain ⟨t', ht', r⟩ := caseLoop_eq lowerChar lowerChar_nz l [] (ofChars l) (rep_ofChars h.nz) hl
  have e : t = t' := by
    have := ht' (l.length + 1) (by omega)
    rw [toLowerCase, rep_copy h] at ht
    simp only [List.length_nil] at this
    rw [show ((0:Nat):Int) = 0 from rfl] at this
    simp only [this] at ht; simpa using ht.symm
  subst e
  simp only [List.nil_append] at r
  obtain ⟨u, hu, r'⟩ := caseLoop_eq lowerChar lowerChar_nz (l.map lowerChar) [] (ofChars (l.map lowerChar))
    (rep_ofChars r.nz) (by simpa using hl)
  refine ⟨u, _, ?_, r, ?_⟩
  · rw [toLowerCase, rep_copy r]; exact hu _ (by simp)
  · have e : (l.map lowerChar).map lowerChar = l.map lowerChar := by simp [lowerChar_idem]
    rw [e] at r'; simpa using r'

/-- Every string of more than 32767 characters makes the conversion throw. -/
theorem case_conversion_long_throws (s : S) (l : Bytes) (h : Rep s l) (hl : 32767 < l.length) (fuel : Nat)
    (hf : l.length < fuel) :
    toLowerCase s fuel = some .err ∧ toUpperCase s fuel = some .err := by
  constructor
  · rw [toLowerCase, rep_copy h]
    exact caseLoop_wraps lowerChar lowerChar_nz l [] (ofChars l) fuel (rep_ofChars h.nz) hl (by simp) hf
  · rw [toUpperCase, rep_copy h]
    exact caseLoop_wraps upperChar upperChar_nz l [] (ofChars l) fuel (rep_ofChars h.nz) hl (by simp) hf

theorem case_conversion_long_violated : ¬ CaseConversionTotal := by
  intro h
  have hz : NZ (List.replicate 32768 97) := by
    intro c hc; rw [List.eq_of_mem_replicate hc]; decide
  obtain ⟨⟨t, r, ht, _⟩, _⟩ := h (ofChars (List.replicate 32768 97)) _ (rep_ofChars hz)
  have h1 := ht 32769 (by rw [List.length_replicate]; omega)
  have h2 := (case_conversion_long_throws _ _ (rep_ofChars hz) (by rw [List.length_replicate]; omega) 32769
    (by rw [List.length_replicate]; omega)).1
  rw [h1] at h2
  simp at h2

end Verif.Str
