/-
Lemmas about the command line program.
-/
import Verif.Module.ShellSpec

namespace Verif.Shell
open Verif

theorem linesOf_no_newline (s : Text) : ∀ l ∈ linesOf s, '\n' ∉ l := by
  induction s with
  | nil => intro l hl; simp [linesOf] at hl
  | cons c r ih =>
    intro l hl
    unfold linesOf at hl
    split at hl
    · rcases List.mem_cons.1 hl with rfl | h
      · simp
      · exact ih l h
    · rename_i hc
      split at hl
      · simp at hl; subst hl; simp; exact fun h => hc h.symm
      · rename_i l' ls' he
        rcases List.mem_cons.1 hl with rfl | h
        · simp only [List.mem_cons, not_or]
          exact ⟨fun h => hc h.symm, ih l' (by rw [he]; simp)⟩
        · exact ih l (by rw [he]; simp [h])

theorem fgets_line (s : Text) : ∀ (k : Nat) (l : Text) (ls : List Text), linesOf s = l :: ls → l.length < k →
    (∃ r, fgets k s = (l ++ ['\n'], r, false) ∧ linesOf r = ls) ∨ (fgets k s = (l, [], true) ∧ ls = [] ∧ l ≠ []) := by
  induction s with
  | nil => intro k l ls h; simp [linesOf] at h
  | cons c r ih =>
    intro k l ls h hk
    obtain ⟨k, rfl⟩ : ∃ j, k = j + 1 := ⟨k - 1, by omega⟩
    unfold linesOf at h
    split at h
    · rename_i hc
      cases h
      left
      exact ⟨r, by simp [fgets, hc], rfl⟩
    · rename_i hc
      split at h
      · rename_i he
        cases h
        have hr : r = [] := by
          cases r with
          | nil => rfl
          | cons d r' =>
            unfold linesOf at he
            split at he
            · cases he
            · split at he <;> cases he
        subst hr
        right
        obtain ⟨k, rfl⟩ : ∃ j, k = j + 1 := ⟨k - 1, by simp at hk; omega⟩
        exact ⟨by simp [fgets, hc], rfl, by simp⟩
      · rename_i l' ls' he
        cases h
        rcases ih k l' _ he (by simpa using hk) with ⟨q, h1, h2⟩ | ⟨h1, h2, h3⟩
        · left; exact ⟨q, by simp [fgets, hc, h1], h2⟩
        · right; exact ⟨by simp [fgets, hc, h1], h2, by simp⟩

theorem cut_line (l : Text) (hn : '\n' ∉ l) (hz : '\x00' ∉ l) : cut l = l ∧ cut (l ++ ['\n']) = l := by
  induction l with
  | nil => simp [cut]
  | cons c r ih =>
    simp only [List.mem_cons, not_or] at hn hz
    have h := ih hn.2 hz.2
    have hc : ¬ (c = '\n' ∨ c = '\x00') := by
      rintro (h | h)
      · exact hn.1 h.symm
      · exact hz.1 h.symm
    simp only [cut, List.cons_append, if_neg hc, h.1, h.2, and_self]

/-- One prompt with a short line. -/
theorem getline_short {t : Term} {l : Text} {ls : List Text} (he : t.eof = false) (hl : linesOf t.rest = l :: ls)
    (hs : l.length ≤ 254) (hz : '\x00' ∉ l) :
    ∃ r f, getline t = .ok ((l.length : Int), ⟨r, f, l, some l⟩) ∧ linesOf r = ls ∧ (ls ≠ [] → f = false) := by
  have hn : '\n' ∉ l := linesOf_no_newline t.rest l (by rw [hl]; simp)
  have hre : realloc l.length t.expr = some (t.expr.getD []) := by
    unfold realloc; rw [if_pos]; show l.length + 1 < 256; omega
  rcases fgets_line t.rest 255 l ls hl (by omega) with ⟨r, h1, h2⟩ | ⟨h1, h2, h3⟩
  · refine ⟨r, false, ?_, h2, fun _ => rfl⟩
    have h1' : fgets (lineMax - 1) t.rest = (l ++ ['\n'], r, false) := h1
    simp [getline, he, h1', (cut_line l hn hz).2, hre, copyOut]
  · refine ⟨[], true, ?_, by simp [h2, linesOf], fun h => absurd h2 h⟩
    have h1' : fgets (lineMax - 1) t.rest = (l, [], true) := h1
    simp [getline, he, h1', (cut_line l hn hz).1, hre, copyOut, h3]

theorem loop_follows (G : Engine E) : ∀ (ls : List Text) (e : E) (t : Term) (n : Nat), t.eof = false →
    linesOf t.rest = ls → (∃ l ∈ ls, Ends l) → (∀ l ∈ todo ls, l.length ≤ 254 ∧ '\x00' ∉ l) → (todo ls).length < n →
    loop G n e t = some (.ok ((todo ls).foldl (obey G) e)) := by
  intro ls
  induction ls with
  | nil => intro e t n _ _ h; obtain ⟨_, h, _⟩ := h; cases h
  | cons l ls ih =>
    intro e t n he hl hx hs hn
    obtain ⟨n, rfl⟩ : ∃ j, n = j + 1 := ⟨n - 1, by omega⟩
    by_cases hend : Ends l
    · have hshort : l.length ≤ 254 ∧ '\x00' ∉ l := by rcases hend with rfl | rfl <;> decide
      obtain ⟨r, f, hg, _, _⟩ := getline_short he hl hshort.1 hshort.2
      have hne : (l.length : Int) ≠ -1 := by omega
      have h1 : l ≠ "clear".toList := by rcases hend with rfl | rfl <;> decide
      have h2 : l ≠ "save".toList := by rcases hend with rfl | rfl <;> decide
      have h3 : l = "exit".toList ∨ l = "quit".toList := hend
      simp only [loop, hg, if_neg hne, if_neg h1, if_neg h2, if_pos h3, todo, if_pos hend, List.foldl_nil]
    · have htodo : todo (l :: ls) = l :: todo ls := by simp [todo, hend]
      rw [htodo] at hs hn ⊢
      have hshort := hs l (by simp)
      obtain ⟨r, f, hg, hr, hf⟩ := getline_short he hl hshort.1 hshort.2
      have hx' : ∃ x ∈ ls, Ends x := by
        obtain ⟨x, hm, hx⟩ := hx
        rcases List.mem_cons.1 hm with rfl | hm
        · exact absurd hx hend
        · exact ⟨x, hm, hx⟩
      have hfe : f = false := hf (by rintro rfl; obtain ⟨_, h, _⟩ := hx'; cases h)
      have hne : (l.length : Int) ≠ -1 := by omega
      have h3 : ¬ (l = "exit".toList ∨ l = "quit".toList) := hend
      have hrec : ∀ e (t' : Term), t'.eof = false → t'.rest = r →
          loop G n e t' = some (.ok ((todo ls).foldl (obey G) e)) := fun e t' h1 h2 =>
        ih e t' n h1 (by rw [h2, hr]) hx' (fun x hx => hs x (by simp [hx])) (by simpa using hn)
      simp only [loop, hg, if_neg hne, List.foldl_cons, obey]
      by_cases h1 : l = "clear".toList
      · rw [if_pos h1, if_pos h1]; exact hrec _ _ hfe rfl
      · rw [if_neg h1, if_neg h1]
        by_cases h2 : l = "save".toList
        · rw [if_pos h2, if_pos h2]; exact hrec _ _ hfe rfl
        · rw [if_neg h2, if_neg h2, if_neg h3]; exact hrec _ _ hfe rfl

/-- At the end of the input the loop asks for ever. -/
theorem loop_at_end (G : Engine E) (n : Nat) : ∀ (e : E) (t : Term), t.eof = true → loop G n e t = none := by
  induction n with
  | zero => intro e t _; rfl
  | succ n ih =>
    intro e t he
    have hg : getline t = .ok (-1, t) := by simp [getline, he]
    simp only [loop, hg, if_true]
    exact ih e t he

/-! ### Arguments -/

theorem isOption_iff (a : Text) : isOption a = true ↔ ∃ r, a = '-' :: '-' :: r := by
  match a with
  | [] => simp [isOption]
  | [c] => simp [isOption]
  | c :: d :: r => simp [isOption]

theorem optionsOf_option {a : Text} {as : List Text} (h : isOption a = true) : optionsOf (a :: as) = a :: optionsOf as := by
  obtain ⟨r, rfl⟩ := (isOption_iff a).1 h; rfl

theorem fileOf_option {a : Text} {as : List Text} (h : isOption a = true) : fileOf (a :: as) = fileOf as := by
  obtain ⟨r, rfl⟩ := (isOption_iff a).1 h; rfl

theorem optionsOf_other {a : Text} {as : List Text} (h : ¬ isOption a = true) : optionsOf (a :: as) = [] := by
  unfold optionsOf
  split
  · rename_i r as' he
    cases he
    exact absurd ((isOption_iff _).2 ⟨r, rfl⟩) h
  · rfl

theorem fileOf_other {a : Text} {as : List Text} (h : ¬ isOption a = true) : fileOf (a :: as) = some a := by
  unfold fileOf
  split
  · rename_i he; cases he
  · rename_i r as' he
    cases he
    exact absurd ((isOption_iff _).2 ⟨r, rfl⟩) h
  · rename_i he; cases he; rfl

/-- What the loop over the arguments finds out. -/
def found (o : Options) (args : List Text) : Parsed :=
  match (optionsOf args).find? (fun a => !flags.contains a) with
  | some a => if a = "--version".toList then .version else .unknown a
  | none =>
    .go { noExecute := o.noExecute || (optionsOf args).contains "--no-execute".toList
          print := o.print || (optionsOf args).any fun a => a = "--print-byte-code".toList ∨ a = "--print-byte-code-all".toList
          printAll := o.printAll ||
            (optionsOf args).any fun a => a = "--print-byte-code-all".toList ∨ a = "--print-byte-code-system".toList
          noTime := o.noTime || (optionsOf args).contains "--no-execution-time".toList }
      ((fileOf args).getD [])

/-- The options after one more argument. -/
def Options.with (o : Options) (a : Text) : Options :=
  { noExecute := o.noExecute || ("--no-execute".toList == a)
    print := o.print || decide (a = "--print-byte-code".toList ∨ a = "--print-byte-code-all".toList)
    printAll := o.printAll || decide (a = "--print-byte-code-all".toList ∨ a = "--print-byte-code-system".toList)
    noTime := o.noTime || ("--no-execution-time".toList == a) }

theorem found_flag {a : Text} (as : List Text) (o : Options) (h : isOption a = true) (hf : flags.contains a = true) :
    found o (a :: as) = found (o.with a) as := by
  unfold found Options.with
  rw [optionsOf_option h, fileOf_option h, List.find?_cons_of_neg (by rw [hf]; exact Bool.false_ne_true)]
  simp only [List.contains_cons, List.any_cons, Bool.or_assoc]

theorem parse_found (args : List Text) : ∀ o, parse o args = found o args := by
  induction args with
  | nil =>
    intro o
    cases o
    simp only [parse, found, optionsOf, fileOf, List.find?_nil, List.contains_nil, List.any_nil, Bool.or_false,
      Option.getD_none]
  | cons a as ih =>
    intro o
    unfold parse
    by_cases h : isOption a = true
    · rw [if_pos h]
      have hw : ∀ o', flags.contains a = true → o' = o.with a → parse o' as = found o (a :: as) := by
        intro o' hf ho
        rw [ih, ho, found_flag as o h hf]
      split
      · rename_i h1; subst h1; exact hw _ (by decide) (by
          cases o; simp only [Options.with, Options.mk.injEq]
          exact ⟨(Bool.or_true _).symm, (Bool.or_false _).symm, (Bool.or_false _).symm, (Bool.or_false _).symm⟩)
      split
      · rename_i h1; subst h1; exact hw _ (by decide) (by
          cases o; simp only [Options.with, Options.mk.injEq]
          exact ⟨(Bool.or_false _).symm, (Bool.or_true _).symm, (Bool.or_false _).symm, (Bool.or_false _).symm⟩)
      split
      · rename_i h1; subst h1; exact hw _ (by decide) (by
          cases o; simp only [Options.with, Options.mk.injEq]
          exact ⟨(Bool.or_false _).symm, (Bool.or_true _).symm, (Bool.or_true _).symm, (Bool.or_false _).symm⟩)
      split
      · rename_i h1; subst h1; exact hw _ (by decide) (by
          cases o; simp only [Options.with, Options.mk.injEq]
          exact ⟨(Bool.or_false _).symm, (Bool.or_false _).symm, (Bool.or_true _).symm, (Bool.or_false _).symm⟩)
      split
      · rename_i h1; subst h1; exact hw _ (by decide) (by
          cases o; simp only [Options.with, Options.mk.injEq]
          exact ⟨(Bool.or_false _).symm, (Bool.or_false _).symm, (Bool.or_false _).symm, (Bool.or_true _).symm⟩)
      rename_i n1 n2 n3 n4 n5
      have hf : (!flags.contains a) = true := by
        simp only [flags, List.contains_cons, List.contains_nil]
        rw [beq_eq_false_iff_ne.2 n1, beq_eq_false_iff_ne.2 n2, beq_eq_false_iff_ne.2 n3,
          beq_eq_false_iff_ne.2 n4, beq_eq_false_iff_ne.2 n5]
        rfl
      unfold found
      rw [optionsOf_option h, List.find?_cons_of_pos (p := fun a => !flags.contains a) hf]
    · rw [if_neg h]
      unfold found
      rw [optionsOf_other h, fileOf_other h]
      cases o
      simp only [List.find?_nil, List.contains_nil, List.any_nil, Bool.or_false, Option.getD_some]

end Verif.Shell
