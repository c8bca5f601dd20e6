import Verif.Base.Str
/- Helper lemmas: each string operation acts on the represented character list. -/
namespace Verif.Str
open Verif

/-- `s` is a well-formed `String` holding the characters `l`. -/
structure Rep (s : S) (l : Bytes) : Prop where
  nz : ∀ c ∈ l, c ≠ 0
  cnt : s.count = l.length
  mem : (s.buf = none ∧ l = [] ∧ s.size = 0) ∨
        (∃ n : Nat, s.buf = some (l ++ List.replicate (n+1) 0) ∧ s.size = l.length + n)

abbrev NZ (l : Bytes) : Prop := ∀ c ∈ l, c ≠ 0

theorem cstrFrom_append {l : Bytes} (h : NZ l) (r : Bytes) : cstrFrom (l ++ 0 :: r) = .ok l := by
  induction l with
  | nil => simp [cstrFrom]
  | cons c l ih =>
    have hc : c ≠ 0 := h c (by simp)
    simp [cstrFrom, hc, ih (fun x hx => h x (by simp [hx])), Out.map]

theorem cstr_at {l : Bytes} (h : NZ l) (r : Bytes) (off : Nat) (ho : off ≤ l.length) :
    cstr (l ++ 0 :: r) off = .ok (l.drop off) := by
  unfold cstr
  have : (0 : Int) ≤ off ∧ (off : Int) ≤ ((l ++ 0 :: r).length : Nat) := by simp; omega
  rw [if_pos this]
  simp only [Int.toNat_natCast]
  rw [List.drop_append_of_le_length ho]
  exact cstrFrom_append (fun c hc => h c (List.mem_of_mem_drop hc)) r

theorem cstr_zero {l : Bytes} (h : NZ l) (r : Bytes) : cstr (l ++ 0 :: r) 0 = .ok l := by
  simpa using cstr_at h r 0 (by omega)

theorem Rep.cc_eq {s : S} {l : Bytes} (h : Rep s l) : ∃ n : Nat, s.cc = l ++ List.replicate (n+1) 0 := by
  rcases h.mem with ⟨hb, hl, _⟩ | ⟨n, hb, _⟩
  · exact ⟨0, by simp [S.cc, hb, hl]⟩
  · exact ⟨n, by simp [S.cc, hb]⟩

theorem rep_cstr {s : S} {l : Bytes} (h : Rep s l) : cstr s.cc 0 = .ok l := by
  obtain ⟨n, e⟩ := h.cc_eq
  rw [e, List.replicate_succ]; exact cstr_zero h.nz _

theorem rep_cstr_at {s : S} {l : Bytes} (h : Rep s l) {off : Nat} (ho : off ≤ l.length) :
    cstr s.cc off = .ok (l.drop off) := by
  obtain ⟨n, e⟩ := h.cc_eq
  rw [e, List.replicate_succ]; exact cstr_at h.nz _ off ho

theorem Rep.unique {s : S} {l l' : Bytes} (h : Rep s l) (h' : Rep s l') : l = l' := by
  have := rep_cstr h; rw [rep_cstr h'] at this; injection this with e; exact e.symm

theorem rep_empty : Rep S.empty [] := ⟨by simp, rfl, .inl ⟨rfl, rfl, rfl⟩⟩

theorem rep_ofChars {l : Bytes} (h : NZ l) : Rep (ofChars l) l :=
  ⟨h, rfl, .inr ⟨16, rfl, rfl⟩⟩

theorem setC_eq {l : Bytes} (h : NZ l) (r : Bytes) : setC (l ++ 0 :: r) = .ok (ofChars l) := by
  simp [setC, cstr_zero h, Out.map]

theorem rep_copy {s : S} {l : Bytes} (h : Rep s l) : copy s = .ok (ofChars l) := by
  simp [copy, setC, rep_cstr h, Out.map]

/-- A non-empty string has a buffer. -/
theorem Rep.buf_of_ne {s : S} {l : Bytes} (h : Rep s l) (hl : l ≠ []) :
    ∃ n : Nat, s.buf = some (l ++ List.replicate (n+1) 0) ∧ s.size = l.length + n := by
  rcases h.mem with ⟨_, e, _⟩ | h
  · exact absurd e hl
  · exact h

theorem blit_nat (b : Bytes) (off : Nat) (src : Bytes) (h : off + src.length ≤ b.length) :
    blit b off src = .ok (b.take off ++ src ++ b.drop (off + src.length)) := by
  unfold blit
  rw [if_pos (by omega)]; simp

theorem strncpyBytes_eq {l : Bytes} (h : NZ l) (r : Bytes) : ∀ n, n ≤ l.length →
    strncpyBytes (l ++ r) n = .ok (l.take n) := by
  intro n
  induction n generalizing l with
  | zero => intro _; cases l <;> cases r <;> simp [strncpyBytes]
  | succ n ih =>
    intro hn
    cases l with
    | nil => simp at hn
    | cons c l =>
      have hc : c ≠ 0 := h c (by simp)
      simp only [List.cons_append, strncpyBytes, hc, if_false]
      rw [ih (fun x hx => h x (by simp [hx])) (by simpa using hn)]
      simp [Out.map]

theorem strncpy_eq {l : Bytes} (h : NZ l) (r dst : Bytes) (doff soff n : Nat)
    (hs : soff + n ≤ l.length) (hd : doff + n ≤ dst.length) :
    strncpy dst doff (l ++ r) soff n =
      .ok (dst.take doff ++ (l.drop soff).take n ++ dst.drop (doff + n)) := by
  unfold strncpy
  rw [if_pos (by simp; omega)]
  simp only [Int.toNat_natCast]
  rw [List.drop_append_of_le_length (by omega),
    strncpyBytes_eq (fun c hc => h c (List.mem_of_mem_drop hc)) r n (by simp; omega)]
  simp only [Out.bind]
  rw [blit_nat _ _ _ (by simp; omega)]
  have : min n (l.length - soff) = n := by omega
  simp [this]

theorem alloc_nat (n : Nat) : alloc n = .ok (List.replicate n 0) := by
  unfold alloc; rw [if_neg (by omega)]; simp

theorem rep_getSubstring' {s : S} {l : Bytes} (h : Rep s l) (pos len : Nat) (hp : pos + len ≤ l.length) :
    getSubstring s pos len = .ok (ofChars ((l.drop pos).take len)) ∨ (l = [] ∧ s.buf = none) := by
  rcases h.mem with ⟨hb, hl, _⟩ | ⟨n, hb, _⟩
  · exact .inr ⟨hl, hb⟩
  · left
    unfold getSubstring
    have h1 : ¬ ((len : Int) = -1) := by omega
    have h2 : ¬ ((len : Int) < 0) := by omega
    have h3 : ¬ ((pos : Int) + len > s.count) := by rw [h.cnt]; omega
    simp only [h1, h2, h3, if_false]
    have : ((len : Int) + 1) = ((len + 1 : Nat) : Int) := by omega
    rw [this, alloc_nat]
    simp only [Out.bind, S.mem, hb, Option.getD_some]
    have := strncpy_eq h.nz (List.replicate (n+1) 0) (List.replicate (len+1) 0) 0 pos len hp (by simp)
    rw [show ((0:Nat):Int) = 0 from rfl] at this
    rw [this]
    simp only [List.take_zero, List.nil_append, Nat.zero_add, List.drop_replicate]
    have : len + 1 - len = 1 := by omega
    rw [this]
    exact setC_eq (fun c hc => h.nz c (List.mem_of_mem_drop (List.mem_of_mem_take hc))) []

/-- On a string without buffer the empty slice still reads through NULL (zero bytes): harmless here. -/
theorem rep_getSubstring {s : S} {l : Bytes} (h : Rep s l) (pos len : Nat) (hp : pos + len ≤ l.length) :
    getSubstring s pos len = .ok (ofChars ((l.drop pos).take len)) := by
  rcases rep_getSubstring' h pos len hp with e | ⟨hl, hb⟩
  · exact e
  · subst hl
    simp at hp
    obtain ⟨rfl, rfl⟩ := hp
    have hc := h.cnt
    simp [getSubstring, hc, alloc, Out.bind, strncpy, S.mem, hb, strncpyBytes, blit, setC, cstr,
      cstrFrom, Out.map]

/-! ### find -/

theorem chr_app {l : Bytes} (n i : Nat) (hi : i ≤ l.length) :
    chr (l ++ List.replicate (n+1) 0) i = .ok (l[i]?.getD 0) := by
  unfold chr
  rw [if_neg (by omega)]
  simp only [Int.toNat_natCast]
  by_cases h : i < l.length
  · rw [List.getElem?_append_left h]; simp [h]
  · have : i = l.length := by omega
    subst this
    rw [List.getElem?_append_right (by omega)]; simp

theorem matchLoop_eq {l : Bytes} (n : Nat) (idx : Nat) : ∀ (needle : Bytes) (i : Nat), NZ needle →
    idx + i ≤ l.length →
    matchLoop (l ++ List.replicate (n+1) 0) idx needle i = .ok (needle.isPrefixOf (l.drop (idx + i))) := by
  intro needle
  induction needle with
  | nil => intro i _ _; simp [matchLoop]
  | cons c cs ih =>
    intro i hz hi
    have hc : c ≠ 0 := hz c (by simp)
    have e : ((idx : Int) + (i : Int)) = ((idx + i : Nat) : Int) := by omega
    rw [matchLoop, e, chr_app n _ hi]
    simp only [Out.bind]
    by_cases h : idx + i < l.length
    · have hd : l.drop (idx + i) = l[idx+i] :: l.drop (idx + i + 1) := List.drop_eq_getElem_cons h
      rw [hd]
      simp only [List.getElem?_eq_getElem h, Option.getD_some, List.isPrefixOf]
      by_cases hx : c = l[idx + i]
      · simp only [hx, ne_eq, not_true_eq_false, if_false, beq_self_eq_true, Bool.true_and]
        rw [ih (i+1) (fun x hx => hz x (by simp [hx])) (by omega)]
        rfl
      · simp [hx]
    · have : idx + i = l.length := by omega
      have e2 : l[idx + i]?.getD 0 = 0 := by simp [this]
      rw [e2]
      simp [hc, this]

/-- First occurrence of `needle` in `h`, if any (specification-level search). -/
def firstOcc (needle : Bytes) : Bytes → Option Nat
  | [] => if needle = [] then some 0 else none
  | c :: t => if needle.isPrefixOf (c :: t) then some 0 else (firstOcc needle t).map (· + 1)

theorem findLoop_eq {l : Bytes} (n : Nat) {needle : Bytes} (hz : NZ needle) (hne : l ≠ []) :
    ∀ (k idx : Nat), k + idx = l.length → idx < l.length →
    (needle = [] → idx = 0) →
    findLoop (l ++ List.replicate (n+1) 0) l.length needle k idx =
      .ok (match firstOcc needle (l.drop idx) with | some j => ((idx + j : Nat) : Int) | none => -1) := by
  intro k
  induction k with
  | zero => intro idx h1 h2; omega
  | succ k ih =>
    intro idx h1 h2 h3
    have hm : matchLoop (l ++ List.replicate (n+1) 0) idx needle 0 = .ok (needle.isPrefixOf (l.drop idx)) :=
      matchLoop_eq n idx needle 0 hz (by omega)
    have hd : l.drop idx = l[idx] :: l.drop (idx + 1) := List.drop_eq_getElem_cons h2
    rw [findLoop, hm]
    cases hp : needle.isPrefixOf (l.drop idx) with
    | true =>
      rw [hd] at hp ⊢
      simp only [firstOcc, hp, Out.bind, if_true]; rfl
    | false =>
      have hne' : needle ≠ [] := by intro e; subst e; simp at hp
      rw [hd] at hp ⊢
      simp only [firstOcc, hp, Out.bind, if_false, Bool.false_eq_true]
      by_cases hl : idx + 1 < l.length
      · have e : ((idx : Int) + 1 < (l.length : Int)) := by omega
        simp only [e, if_true]
        have := ih (idx + 1) (by omega) hl (fun e => absurd e hne')
        rw [show ((idx + 1 : Nat) : Int) = (idx : Int) + 1 by omega] at this
        rw [this]
        cases firstOcc needle (l.drop (idx + 1)) <;> simp; omega
      · have e : ¬ ((idx : Int) + 1 < (l.length : Int)) := by omega
        have : l.drop (idx + 1) = [] := List.drop_eq_nil_of_le (by omega)
        simp [e, this, firstOcc, hne']

theorem firstOcc_some {needle h : Bytes} {j : Nat} (e : firstOcc needle h = some j) :
    j ≤ h.length ∧ needle <+: h.drop j ∧ ∀ i < j, ¬ needle <+: h.drop i := by
  induction h generalizing j with
  | nil =>
    simp only [firstOcc] at e
    split at e
    · rename_i hn; injection e with e; subst e; simp [hn]
    · cases e
  | cons c t ih =>
    simp only [firstOcc] at e
    split at e
    · rename_i hp; injection e with e; subst e
      exact ⟨by simp, by simpa using hp, by omega⟩
    · rename_i hp
      cases hf : firstOcc needle t with
      | none => rw [hf] at e; cases e
      | some j' =>
        rw [hf] at e
        simp at e
        subst e
        obtain ⟨a, b, d⟩ := ih hf
        refine ⟨by simp; omega, by simpa using b, ?_⟩
        intro i hi
        cases i with
        | zero => simpa using hp
        | succ i => simpa using d i (by omega)

theorem firstOcc_none {needle h : Bytes} (e : firstOcc needle h = none) : ¬ needle <:+: h := by
  induction h with
  | nil =>
    simp only [firstOcc] at e
    split at e
    · cases e
    · rename_i hn; simpa using hn
  | cons c t ih =>
    simp only [firstOcc] at e
    split at e
    · cases e
    · rename_i hp
      have : firstOcc needle t = none := by simpa using e
      rw [List.infix_cons_iff]
      intro hh
      rcases hh with hh | hh
      · exact hp (by simpa using hh)
      · exact ih this hh

theorem firstOcc_isSome {needle h : Bytes} : needle <:+: h → ∃ j, firstOcc needle h = some j := by
  intro hi
  cases e : firstOcc needle h with
  | some j => exact ⟨j, rfl⟩
  | none => exact absurd hi (firstOcc_none e)

theorem strstr_eq (h needle : Bytes) : strstr h needle = firstOcc needle h := by
  induction h with
  | nil => rw [strstr]; cases needle <;> simp [firstOcc]
  | cons c t ih =>
    rw [strstr]
    simp only [firstOcc, ih]

theorem firstOcc_length {needle h : Bytes} {j : Nat} (e : firstOcc needle h = some j) :
    j + needle.length ≤ h.length := by
  obtain ⟨a, b, _⟩ := firstOcc_some e
  have := b.length_le
  simp at this; omega

/-- `find` returns the first occurrence; only the empty string never contains anything. -/
theorem rep_find {s t : S} {l d : Bytes} (hs : Rep s l) (ht : Rep t d) :
    find s t = .ok (if l = [] then -1 else
      match firstOcc d l with | some j => (j : Int) | none => -1) := by
  unfold find
  rw [rep_cstr ht]
  simp only [Out.bind, findC, hs.cnt]
  by_cases hl : l = []
  · subst hl; simp
  · rw [if_neg hl]
    have hpos : 0 < l.length := List.length_pos_iff.2 hl
    by_cases hd : d.length ≤ l.length
    · have : (0 : Int) < (l.length : Int) ∧ (d.length : Int) ≤ (l.length : Int) := by omega
      rw [if_pos this]
      obtain ⟨n, hb, _⟩ := hs.buf_of_ne hl
      simp only [S.mem, hb, Option.getD_some, Int.toNat_natCast]
      have := findLoop_eq n (needle := d) ht.nz hl l.length 0 (by omega) hpos (fun _ => rfl)
      simp only [List.drop_zero, Nat.zero_add] at this
      exact this
    · have : ¬ ((0 : Int) < (l.length : Int) ∧ (d.length : Int) ≤ (l.length : Int)) := by omega
      rw [if_neg this]
      cases hf : firstOcc d l with
      | none => rfl
      | some j => have := firstOcc_length hf; omega

/-! ### erase, setSubstring, insert, append -/

theorem slice_app {l : Bytes} (r : Bytes) (off n : Nat) (h : off + n ≤ l.length) :
    slice (l ++ r) off n = .ok ((l.drop off).take n) := by
  unfold slice
  rw [if_pos (by simp; omega)]
  simp only [Int.toNat_natCast]
  rw [List.drop_append_of_le_length (by omega), List.take_append_of_le_length (by simp; omega)]

theorem memcpy_app {l : Bytes} (r dst : Bytes) (doff soff n : Nat) (h : soff + n ≤ l.length)
    (hd : doff + n ≤ dst.length) :
    memcpy dst doff (l ++ r) soff n =
      .ok (dst.take doff ++ (l.drop soff).take n ++ dst.drop (doff + n)) := by
  unfold memcpy
  rw [slice_app r soff n h]
  simp only [Out.bind]
  rw [blit_nat _ _ _ (by simp; omega)]
  have : min n (l.length - soff) = n := by omega
  simp [this]

theorem rep_erase {s : S} {l : Bytes} (hs : Rep s l) (pos len : Nat) (h1 : pos < l.length)
    (h2 : pos + len ≤ l.length) :
    ∃ s', erase s pos len = .ok s' ∧ Rep s' (l.take pos ++ l.drop (pos + len)) := by
  have hl : l ≠ [] := by intro e; subst e; simp at h1
  obtain ⟨n, hb, _⟩ := hs.buf_of_ne hl
  unfold erase
  rw [hs.cnt, if_neg (by omega), if_neg (by omega)]
  have e1 : ((l.length : Int) - len + 1) = ((l.length - len + 1 : Nat) : Int) := by omega
  have e2 : ((l.length : Int) - len - pos) = ((l.length - len - pos : Nat) : Int) := by omega
  simp only [e1, e2, alloc_nat, Out.bind, S.mem, hb, Option.getD_some]
  have hfirst : (if (pos : Int) > 0 then memcpy (List.replicate (l.length - len + 1) 0) 0
      (l ++ List.replicate (n+1) 0) 0 pos else .ok (List.replicate (l.length - len + 1) 0)) =
      .ok (l.take pos ++ List.replicate (l.length - len + 1 - pos) 0) := by
    by_cases hp : (pos : Int) > 0
    · rw [if_pos hp]
      have := memcpy_app (List.replicate (n+1) 0) (List.replicate (l.length - len + 1) 0) 0 0 pos
        (l := l) (by omega) (by simp; omega)
      rw [show ((0:Nat):Int) = 0 from rfl] at this
      rw [this]; simp
    · have : pos = 0 := by omega
      subst this; simp
  rw [hfirst]
  simp only
  have := memcpy_app (List.replicate (n+1) 0) (l.take pos ++ List.replicate (l.length - len + 1 - pos) 0)
    pos (pos + len) (l.length - len - pos) (l := l) (by omega) (by simp; omega)
  rw [show ((pos + len : Nat) : Int) = (pos : Int) + len by omega] at this
  rw [this]
  simp only
  refine ⟨_, rfl, ?_, ?_, .inr ⟨0, ?_, ?_⟩⟩
  · intro c hc
    rcases List.mem_append.1 hc with hc | hc
    · exact hs.nz c (List.mem_of_mem_take hc)
    · exact hs.nz c (List.mem_of_mem_drop hc)
  · simp; omega
  · simp only [Option.some.injEq]
    have a1 : min pos l.length = pos := by omega
    have a2 : (l.drop (pos + len)).take (l.length - len - pos) = l.drop (pos + len) := by
      apply List.take_of_length_le; simp; omega
    have a3 : (pos + (l.length - len - pos)) - pos = l.length - len - pos := by omega
    have a4 : l.length - len + 1 - pos - (l.length - len - pos) = 1 := by omega
    rw [a2, List.take_append_of_le_length (by simp; omega), List.take_take, Nat.min_self,
      List.drop_append]
    simp only [List.length_take, a1, a3, List.drop_replicate, a4]
    have : List.drop (pos + (l.length - len - pos)) (l.take pos) = [] := by
      apply List.drop_eq_nil_of_le; simp; omega
    rw [this]; simp
  · simp; omega

theorem strcat_zero {t : S} {d : Bytes} (ht : Rep t d) (a : Bytes) (ha : NZ a) (m : Nat) (hm : d.length < m) :
    strcat (a ++ List.replicate m 0) a.length t.cc =
      .ok (a ++ d ++ List.replicate (m - d.length) 0) := by
  unfold strcat
  obtain ⟨m', rfl⟩ : ∃ m', m = m' + 1 := ⟨m - 1, by omega⟩
  rw [List.replicate_succ, cstr_at ha _ a.length (by omega), rep_cstr ht]
  simp only [Out.bind, List.drop_length, List.length_nil]
  rw [show (a.length : Int) + ((0:Nat):Int) = ((a.length : Nat) : Int) by omega, blit_nat _ _ _ (by simp; omega)]
  simp only [List.take_left', List.length_append, List.length_singleton, Out.ok.injEq]
  rw [← List.replicate_succ, List.drop_append]
  have e1 : List.drop (a.length + (d.length + 1)) a = [] := List.drop_eq_nil_of_le (by omega)
  have e2 : a.length + (d.length + 1) - a.length = d.length + 1 := by omega
  rw [e1, e2, List.drop_replicate]
  have e3 : m' + 1 - d.length = (m' + 1 - (d.length + 1)) + 1 := by omega
  rw [e3, List.replicate_succ]; simp

theorem strcpy_tail {l : Bytes} (hl : NZ l) (r a : Bytes) (m off : Nat) (ho : off ≤ l.length)
    (hm : l.length - off < m) :
    strcpy (a ++ List.replicate m 0) a.length (l ++ 0 :: r) off =
      .ok (a ++ l.drop off ++ List.replicate (m - (l.length - off)) 0) := by
  unfold strcpy
  rw [cstr_at hl r off ho]
  simp only [Out.bind]
  rw [blit_nat _ _ _ (by simp; omega)]
  simp only [List.take_left', List.length_append, List.length_singleton, Out.ok.injEq, List.length_drop]
  rw [List.drop_append]
  have e1 : List.drop (a.length + (l.length - off + 1)) a = [] := List.drop_eq_nil_of_le (by omega)
  have e2 : a.length + (l.length - off + 1) - a.length = l.length - off + 1 := by omega
  rw [e1, e2, List.drop_replicate]
  have e3 : m - (l.length - off) = (m - (l.length - off + 1)) + 1 := by omega
  rw [e3, List.replicate_succ]; simp

theorem copyPrefix {l : Bytes} (hl : NZ l) (r : Bytes) (N pos : Nat) (hp : pos ≤ l.length) (hN : pos ≤ N) :
    (if (pos : Int) > 0 then strncpy (List.replicate N 0) 0 (l ++ r) 0 pos else .ok (List.replicate N 0)) =
      .ok (l.take pos ++ List.replicate (N - pos) 0) := by
  by_cases h : (pos : Int) > 0
  · rw [if_pos h]
    have := strncpy_eq hl r (List.replicate N 0) 0 0 pos (by omega) (by simp; omega)
    rw [show ((0:Nat):Int) = 0 from rfl] at this
    rw [this]; simp
  · have : pos = 0 := by omega
    subst this; simp

theorem rep_setSubstring {s t : S} {l d : Bytes} (hs : Rep s l) (ht : Rep t d) (pos len : Nat)
    (h1 : pos < l.length) (h2 : pos + len ≤ l.length) :
    (l.take pos ++ d ++ l.drop (pos + len) = [] → setSubstring s pos len t = .err) ∧
    (l.take pos ++ d ++ l.drop (pos + len) ≠ [] →
      ∃ s', setSubstring s pos len t = .ok s' ∧ Rep s' (l.take pos ++ d ++ l.drop (pos + len))) := by
  have hl : l ≠ [] := by intro e; subst e; simp at h1
  obtain ⟨n, hb, _⟩ := hs.buf_of_ne hl
  have hlen : (l.take pos ++ d ++ l.drop (pos + len)).length = l.length + d.length - len := by
    simp; omega
  unfold setSubstring
  rw [hs.cnt, ht.cnt, if_neg (by omega)]
  constructor
  · intro he
    have := congrArg List.length he
    rw [hlen] at this
    simp at this
    simp only
    rw [if_pos (by omega)]
  · intro hne
    have hpos := List.length_pos_iff.2 hne
    rw [hlen] at hpos
    simp only
    rw [if_neg (by omega)]
    have e1 : ((l.length : Int) + ((d.length : Int) - len) + 1) = ((l.length + d.length - len + 1 : Nat) : Int) := by omega
    simp only [e1, alloc_nat, Out.bind, S.mem, hb, Option.getD_some]
    rw [copyPrefix hs.nz _ _ pos (by omega) (by omega)]
    simp only
    have hz : NZ (l.take pos) := fun c hc => hs.nz c (List.mem_of_mem_take hc)
    have hlp : (l.take pos).length = pos := by simp; omega
    have := strcat_zero ht (l.take pos) hz (l.length + d.length - len + 1 - pos) (by omega)
    rw [hlp] at this
    rw [this]
    simp only
    have := strcpy_tail hs.nz (List.replicate n 0) (l.take pos ++ d)
      (l.length + d.length - len + 1 - pos - d.length) (pos + len) h2 (by omega)
    rw [← List.replicate_succ] at this
    rw [show ((l.take pos ++ d).length : Int) = (pos : Int) + d.length by simp; omega,
      show ((pos + len : Nat) : Int) = (pos : Int) + len by omega] at this
    rw [this]
    simp only
    refine ⟨_, rfl, ?_, ?_, .inr ⟨0, ?_, ?_⟩⟩
    · intro c hc
      simp only [List.mem_append] at hc
      rcases hc with (hc | hc) | hc
      · exact hz c hc
      · exact ht.nz c hc
      · exact hs.nz c (List.mem_of_mem_drop hc)
    · rw [hlen]; simp only; omega
    · have : l.length + d.length - len + 1 - pos - d.length - (l.length - (pos + len)) = 1 := by omega
      rw [this]
    · rw [hlen]; simp only; omega

theorem rep_incSlots {s : S} {l : Bytes} (hs : Rep s l) (k : Nat) :
    ∃ s' m, incSlots s k = .ok s' ∧ s'.buf = some (l ++ List.replicate (k + m + 1) 0) ∧
      s'.size = l.length + k + m ∧ s'.count = l.length + k := by
  unfold incSlots
  rw [hs.cnt]
  by_cases h : s.size ≤ (l.length : Int) + k
  · rw [if_pos h]
    have e : slice s.mem 0 l.length = .ok l := by
      rcases hs.mem with ⟨hb, hl, _⟩ | ⟨n, hb, _⟩
      · simp [S.mem, hb, hl, slice]
      · simp only [S.mem, hb, Option.getD_some]
        have := slice_app (List.replicate (n+1) 0) 0 l.length (l := l) (by omega)
        rw [show ((0:Nat):Int) = 0 from rfl] at this
        rw [this]; simp
    rw [e]
    simp only [Out.bind]
    have e2 : ((l.length : Int) + k + l.length * 3 / 2 + 1 - l.length) = ((k + l.length * 3 / 2 + 1 : Nat) : Int) := by omega
    rw [e2, alloc_nat]
    exact ⟨_, l.length * 3 / 2, rfl, rfl, by simp, rfl⟩
  · rw [if_neg h]
    rcases hs.mem with ⟨hb, hl, hsz⟩ | ⟨n, hb, hsz⟩
    · rw [hsz, hl] at h; simp at h
    · refine ⟨_, n - k, rfl, ?_, ?_, rfl⟩
      · have : k + (n - k) + 1 = n + 1 := by omega
        rw [this]; exact hb
      · simp only; omega

theorem rep_appendChar {s : S} {l : Bytes} (hs : Rep s l) (c : UInt8) (hc : c ≠ 0) :
    ∃ s', appendChar s c = .ok s' ∧ Rep s' (l ++ [c]) := by
  obtain ⟨s', m, e, hb, hsz, hcnt⟩ := rep_incSlots hs 1
  unfold appendChar
  rw [show ((1:Nat):Int) = 1 from rfl] at e
  rw [e]
  have e1 : l ++ List.replicate (1 + m + 1) 0 = (l ++ [0]) ++ 0 :: List.replicate m (0 : UInt8) := by
    rw [show 1 + m + 1 = (m + 1) + 1 by omega, List.replicate_succ, List.replicate_succ]; simp
  simp only [Out.bind, S.mem, hb, Option.getD_some, hcnt, e1]
  have e0 : (l.length : Int) + ((1:Nat):Int) = (((l ++ [0]).length : Nat) : Int) := by simp
  have e0' : (((l ++ [0]).length : Nat) : Int) - 1 = ((l.length : Nat) : Int) := by simp
  rw [e0, blit_nat _ _ _ (by simp; omega)]
  simp only
  rw [e0']
  have e2 : List.take (l ++ [0]).length (l ++ [0] ++ 0 :: List.replicate m (0:UInt8)) = l ++ [0] :=
    List.take_left
  have e3 : List.drop ((l ++ [0]).length + [(0:UInt8)].length) (l ++ [0] ++ 0 :: List.replicate m (0:UInt8)) =
      List.replicate m 0 := by
    rw [← List.drop_drop, List.drop_left]; simp
  rw [e2, e3]
  have e4 : l ++ [0] ++ [0] ++ List.replicate m (0:UInt8) = l ++ 0 :: 0 :: List.replicate m 0 := by simp
  rw [e4, blit_nat _ _ _ (by simp)]
  simp only
  refine ⟨_, rfl, ?_, by simp, .inr ⟨m, ?_, by simp [hsz]⟩⟩
  · intro x hx; simp at hx; rcases hx with hx | hx
    · exact hs.nz x hx
    · subst hx; exact hc
  · simp only [Option.some.injEq]
    rw [List.take_left, ← List.drop_drop, List.drop_left]
    simp [List.replicate_succ]

theorem rep_appendAll {s : S} {l : Bytes} (hs : Rep s l) : ∀ (cs : Bytes), NZ cs →
    ∃ s', appendAll s cs = .ok s' ∧ Rep s' (l ++ cs) := by
  intro cs
  induction cs generalizing s l with
  | nil => intro _; exact ⟨s, rfl, by simpa using hs⟩
  | cons c cs ih =>
    intro hz
    obtain ⟨s', e, r⟩ := rep_appendChar hs c (hz c (by simp))
    obtain ⟨s'', e', r'⟩ := ih r (fun x hx => hz x (by simp [hx]))
    exact ⟨s'', by simp [appendAll, e, Out.bind, e'], by simpa using r'⟩

theorem unescape_nz : ∀ {l : Bytes}, NZ l → NZ (unescapeChars l) := by
  intro l
  unfold NZ
  induction l using unescapeChars.induct <;> intro h <;> simp_all [unescapeChars]

theorem rep_unescape {s : S} {l : Bytes} (hs : Rep s l) :
    ∃ s', unescape s = .ok s' ∧ Rep s' (unescapeChars l) := by
  unfold unescape
  obtain ⟨n, e⟩ := hs.cc_eq
  have := slice_app (List.replicate (n+1) 0) 0 l.length (l := l) (by omega)
  rw [show ((0:Nat):Int) = 0 from rfl] at this
  rw [e, hs.cnt, this]
  simp only [Out.bind, List.drop_zero, List.take_length]
  obtain ⟨s', e, r⟩ := rep_appendAll rep_empty _ (unescape_nz hs.nz)
  exact ⟨s', e, by simpa using r⟩

theorem unescape_id {l : Bytes} (h : (92 : UInt8) ∉ l) : unescapeChars l = l := by
  induction l using unescapeChars.induct <;> simp_all [unescapeChars]

end Verif.Str
