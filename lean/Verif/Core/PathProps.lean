import Verif.Core.PathRun
/-
C138: names of files written in a file are relative to the directory that contains it.
C139: the directory of the process is afterwards what it was.
-/
namespace Verif.Path
open Verif Verif.Str Verif.PathSpec

/-- How `compileFile` may end, for a program in directory `d`: the process is in `d` again; each file that was taken in is the one that
its name, written in a file, names in the directory of that file; and an error is that a name names no file there, or that the name of
a directory has 4096 bytes. -/
def Right (D : Disk) (d : Place) : R → Prop
  | .ok st => st.cwd = d ∧ ∀ i n f, (i, n, f) ∈ st.opened → Found D d i n f
  | .err st w => st.cwd = d ∧ (∀ i n f, (i, n, f) ∈ st.opened → Found D d i n f) ∧
    match w with
    | .missing i n => lookup D (base d i) n = none
    | .getcwd => ∃ e, Dir D e ∧ 4096 ≤ (e.map (fun w => w.length + 1)).sum
  | .ub => False
  | .deep => True

/-- C138 in full: for every file system, directory, name of a file and depth of imports. -/
def RelativeToFile : Prop :=
  ∀ (D : Disk), Real D → ∀ d, Dir D d → ∀ (parsed : List Bytes) (name : Bytes), (∀ c ∈ name, c ≠ 0) → ∀ fuel,
    Right D d (compileFile D fuel none name ⟨d, parsed, []⟩)

/-- C138 for names without backslashes that are not of the form `/name`: `compileFile` ends, in the directory in which it began, and
all files are found relative to the importing one. The names that are imported form a finite list, of which the depth is a bound. -/
theorem relative_to_file_partial (D : Disk) (hD : Real D) (hp : ∀ p ns, D.file p = some ns → ∀ n ∈ ns, Plain n)
    (d : Place) (hd : Dir D d) (parsed : List Bytes) (name : Bytes) (hz : ∀ c ∈ name, c ≠ 0) (hn : Plain name) :
    (∀ fuel, Right D d (compileFile D fuel none name ⟨d, parsed, []⟩)) ∧
    ∀ L : List Bytes, name ∈ L → (∀ p ns, D.file p = some ns → ns ⊆ L) → ∀ fuel, L.length < fuel →
      compileFile D fuel none name ⟨d, parsed, []⟩ ≠ .deep := by
  refine ⟨fun fuel => ?_, fun L hL hLs fuel hf => ?_⟩
  · have h := compileFile_after ⟨hD, hp⟩ d fuel none name ⟨d, parsed, []⟩ hd rfl hz hn (by simp)
      (by intro i n f h; simp at h)
    generalize compileFile D fuel none name ⟨d, parsed, []⟩ = r at h
    cases r with
    | ok st => exact ⟨h.1, h.2.1⟩
    | err st w =>
      refine ⟨h.1, h.2.1, ?_⟩
      have := h.2.2.2.2
      cases w with
      | missing => exact this
      | getcwd => exact this
    | ub => exact h
    | deep => trivial
  · have h := compileFile_ends L hLs fuel none name ⟨d, parsed, []⟩ hL
      (Nat.lt_of_le_of_lt (List.length_filter_le _ _) hf)
    intro e
    rw [e] at h
    exact h

/-- The names of a file that is compiled are looked for: if none is missing, all are taken in or were before. Here for one file: each
name that it imports is afterwards among the parsed ones. -/
theorem all_imported (D : Disk) (d : Place) (parsed : List Bytes) (name : Bytes) (fuel : Nat)
    (st : St) (h : compileFile D fuel none name ⟨d, parsed, []⟩ = .ok st) (hnew : name ∉ parsed) :
    ∃ f ns, lookup D d name = some (f, ns) ∧ (none, name, f) ∈ st.opened ∧ ∀ n ∈ ns, n ∈ st.parsed := by
  have key : ∀ (m : Nat) (i : Option Place) (n : Bytes) (a b : St), compileFile D m i n a = .ok b →
      n ∈ b.parsed ∧ a.parsed ⊆ b.parsed ∧ a.opened ⊆ b.opened ∧ (n ∉ a.parsed → ∃ f ns, lookup D a.cwd n = some (f, ns) ∧ (i, n, f) ∈ b.opened ∧ ∀ k ∈ ns, k ∈ b.parsed) := by
    intro m
    induction m with
    | zero => intro i n a b h; simp [compileFile] at h
    | succ m ih =>
      have imp : ∀ (f : Place) (ns : List Bytes) (a b : St), imports (compileFile D m (some f)) D f ns a = .ok b →
          a.parsed ⊆ b.parsed ∧ a.opened ⊆ b.opened ∧ ∀ k ∈ ns, k ∈ b.parsed := by
        intro f ns
        induction ns with
        | nil =>
          intro a b h
          simp only [imports, R.ok.injEq] at h
          subst h
          exact ⟨fun _ h => h, fun _ h => h, by simp⟩
        | cons k ns ihn =>
          intro a b h
          rw [imports] at h
          split at h
          · simp at h
          · split at h
            · rename_i c hc
              obtain ⟨h1, h2, h3, _⟩ := ih _ _ _ _ hc
              obtain ⟨h4, h5, h6⟩ := ihn c b h
              refine ⟨fun x hx => h4 (h2 hx), fun x hx => h5 (h3 hx), fun x hx => ?_⟩
              rcases List.mem_cons.1 hx with rfl | hx
              · exact h4 h1
              · exact h6 x hx
            · rename_i r hr
              exact absurd h (hr _)
      intro i n a b h
      rw [compileFile] at h
      split at h
      · rename_i hm
        obtain rfl := R.ok.inj h
        exact ⟨hm, fun _ h => h, fun _ h => h, fun hc => absurd hm hc⟩
      · split at h
        · simp at h
        · rename_i f ns hk
          simp only at h
          split at h
          · simp at h
          · split at h
            · rename_i s hs
              generalize hr : imports (compileFile D m (some f)) D f ns _ = r at h
              cases r with
              | ok c =>
                obtain ⟨h1, h2, h3⟩ := imp _ _ _ _ hr
                simp only [back, R.ok.injEq] at h
                subst h
                refine ⟨h1 (by simp), fun x hx => h1 (List.mem_append_left _ hx), fun x hx => h2 (List.mem_append_left _ hx),
                  fun _ => ⟨f, ns, hk, h2 (by simp), h3⟩⟩
              | err => simp [back] at h
              | ub => simp [back] at h
              | deep => simp [back] at h
            · simp at h
  exact (key _ _ _ _ _ h).2.2.2 hnew

/-- C139: whatever the names are and whether or not it ends with an error, `compileFile` leaves the process in the directory in which
it was. -/
theorem directory_restored (D : Disk) (hD : ∀ p ns, D.file p = some ns → ∀ n ∈ ns, ∀ c ∈ n, c ≠ 0)
    (d : Place) (hd : Dir D d) (parsed : List Bytes) (name : Bytes) (hz : ∀ c ∈ name, c ≠ 0) :
    (∀ fuel, match compileFile D fuel none name ⟨d, parsed, []⟩ with
      | .ok st => st.cwd = d
      | .err st _ => st.cwd = d
      | .ub => False
      | .deep => True) ∧
    ∀ L : List Bytes, name ∈ L → (∀ p ns, D.file p = some ns → ns ⊆ L) → ∀ fuel, L.length < fuel →
      compileFile D fuel none name ⟨d, parsed, []⟩ ≠ .deep := by
  refine ⟨fun fuel => ?_, fun L hL hLs fuel hf => ?_⟩
  · have h := compileFile_stays hD fuel none name ⟨d, parsed, []⟩ hd hz
    generalize compileFile D fuel none name ⟨d, parsed, []⟩ = r at h
    cases r <;> exact h
  · have h := compileFile_ends L hLs fuel none name ⟨d, parsed, []⟩ hL
      (Nat.lt_of_le_of_lt (List.length_filter_le _ _) hf)
    intro e
    rw [e] at h
    exact h

/-! ### Counterexamples -/

/-- `/x.zs` imports `y.zs`, of which there is one beside it and one in `/home`. -/
def rootDisk : Disk :=
  ⟨fun p => if p = [[120]] then some [[121]] else if p = [[121]] then some [] else if p = [[104], [121]] then some [] else none,
   fun p => p == [] || p == [[104]]⟩

/-- `a\x.zs` in the root directory imports `y.zs`, of which there is one beside it and one in directory `a`. -/
def backDisk : Disk :=
  ⟨fun p => if p = [[97, 92, 120]] then some [[121]] else if p = [[121]] then some [] else if p = [[97], [121]] then some [] else none,
   fun p => p == [] || p == [[97]]⟩

theorem rootDisk_real : Real rootDisk := by
  constructor
  · intro p ns h
    simp only [rootDisk] at h ⊢
    split at h
    · rename_i e; subst e; rfl
    · split at h
      · rename_i e; subst e; rfl
      · split at h
        · rename_i e; subst e; rfl
        · simp at h
  · intro p ns h
    simp only [rootDisk] at h
    split at h
    · obtain rfl := Option.some.inj h; decide
    · split at h
      · obtain rfl := Option.some.inj h; decide
      · split at h
        · obtain rfl := Option.some.inj h; decide
        · simp at h

theorem backDisk_real : Real backDisk := by
  constructor
  · intro p ns h
    simp only [backDisk] at h ⊢
    split at h
    · rename_i e; subst e; rfl
    · split at h
      · rename_i e; subst e; rfl
      · split at h
        · rename_i e; subst e; rfl
        · simp at h
  · intro p ns h
    simp only [backDisk] at h
    split at h
    · obtain rfl := Option.some.inj h; decide
    · split at h
      · obtain rfl := Option.some.inj h; decide
      · split at h
        · obtain rfl := Option.some.inj h; decide
        · simp at h

/-- A file of the root directory, compiled by its full name from `/h`: `y.zs` in it is not the one beside it but `/h/y.zs`. -/
theorem root_file_violated :
    compileFile rootDisk 3 none [47, 120] ⟨[[104]], [], []⟩ =
      .ok ⟨[[104]], [[47, 120], [121]], [(none, [47, 120], [[120]]), (some [[120]], [121], [[104], [121]])]⟩ ∧
    ¬ Found rootDisk [[104]] (some [[120]]) [121] [[104], [121]] ∧ ¬ RelativeToFile := by
  have h1 : compileFile rootDisk 3 none [47, 120] ⟨[[104]], [], []⟩ =
      .ok ⟨[[104]], [[47, 120], [121]], [(none, [47, 120], [[120]]), (some [[120]], [121], [[104], [121]])]⟩ := by decide +kernel
  have h2 : ¬ Found rootDisk [[104]] (some [[120]]) [121] [[104], [121]] := by
    rintro ⟨⟨ns, h⟩, _⟩
    have := (lookup_some h).2.1
    exact absurd this (by decide)
  refine ⟨h1, h2, fun h => ?_⟩
  have h3 := h rootDisk rootDisk_real [[104]] ⟨by decide, by decide⟩ [] [47, 120] (by decide) 3
  rw [h1] at h3
  exact h2 (h3.2 _ _ _ (by simp))

/-- A name with a backslash, which is no separator here: what the file imports is looked for in directory `a`, in which it is not. -/
theorem backslash_violated :
    compileFile backDisk 3 none [97, 92, 120] ⟨[], [], []⟩ =
      .ok ⟨[], [[97, 92, 120], [121]], [(none, [97, 92, 120], [[97, 92, 120]]), (some [[97, 92, 120]], [121], [[97], [121]])]⟩ ∧
    ¬ Found backDisk [] (some [[97, 92, 120]]) [121] [[97], [121]] ∧ ¬ RelativeToFile := by
  have h1 : compileFile backDisk 3 none [97, 92, 120] ⟨[], [], []⟩ =
      .ok ⟨[], [[97, 92, 120], [121]], [(none, [97, 92, 120], [[97, 92, 120]]), (some [[97, 92, 120]], [121], [[97], [121]])]⟩ := by
    decide +kernel
  have h2 : ¬ Found backDisk [] (some [[97, 92, 120]]) [121] [[97], [121]] := by
    rintro ⟨⟨ns, h⟩, _⟩
    have := (lookup_some h).2.1
    exact absurd this (by decide)
  refine ⟨h1, h2, fun h => ?_⟩
  have h3 := h backDisk backDisk_real [] ⟨by decide, by decide⟩ [] [97, 92, 120] (by decide) 3
  rw [h1] at h3
  exact h2 (h3.2 _ _ _ (by simp))

/-! ### The hypotheses are met -/

/-- With an error two files deep, the process is back too. -/
example : compileFile ⟨fun p => if p = [[115], [120]] then some [[46, 46, 47, 108, 47, 121]] else if p = [[108], [121]] then some [[122]]
      else none, fun p => p == [] || p == [[115]] || p == [[108]]⟩ 5 none [115, 47, 120] ⟨[], [], []⟩ =
    .err ⟨[], [[115, 47, 120], [46, 46, 47, 108, 47, 121]],
      [(none, [115, 47, 120], [[115], [120]]), (some [[115], [120]], [46, 46, 47, 108, 47, 121], [[108], [121]])]⟩
      (.missing (some [[108], [121]]) [122]) := by decide +kernel

/-- `s/x` imports `../l/y`, which imports `z`, and then `w`. -/
def goodDisk : Disk :=
  ⟨fun p => if p = [[115], [120]] then some [[46, 46, 47, 108, 47, 121], [119]] else if p = [[108], [121]] then some [[122]]
    else if p = [[108], [122]] then some [] else if p = [[115], [119]] then some [] else none,
   fun p => p == [] || p == [[115]] || p == [[108]]⟩

example : compileFile goodDisk 5 none [115, 47, 120] ⟨[], [], []⟩ =
    .ok ⟨[], [[115, 47, 120], [46, 46, 47, 108, 47, 121], [122], [119]],
      [(none, [115, 47, 120], [[115], [120]]), (some [[115], [120]], [46, 46, 47, 108, 47, 121], [[108], [121]]),
       (some [[108], [121]], [122], [[108], [122]]), (some [[115], [120]], [119], [[115], [119]])]⟩ := by decide +kernel

example : Plain [46, 46, 47, 108, 47, 121] ∧ Plain [115, 47, 120] ∧ Plain [122] ∧ Dir goodDisk [[115]] := by
  refine ⟨⟨by decide, ?_⟩, ⟨by decide, ?_⟩, ⟨by decide, ?_⟩, by decide, by decide⟩ <;> (intro x h; simp at h)

example : Real goodDisk ∧ ∀ p ns, goodDisk.file p = some ns → ∀ n ∈ ns, Plain n := by
  have pl : ∀ n : Bytes, n.head? ≠ some 47 → 92 ∉ n → Plain n := fun n h1 h2 => ⟨h2, fun x e => absurd (by rw [e]; rfl) h1⟩
  refine ⟨⟨?_, ?_⟩, ?_⟩ <;> intro p ns h <;> simp only [goodDisk] at h ⊢ <;> split at h
  all_goals first
    | (rename_i e; subst e; rfl)
    | (obtain rfl := Option.some.inj h; decide)
    | (obtain rfl := Option.some.inj h; intro n hn; apply pl <;> (revert n; decide))
    | (split at h <;> first
        | (rename_i e; subst e; rfl)
        | (obtain rfl := Option.some.inj h; decide)
        | (obtain rfl := Option.some.inj h; intro n hn; apply pl <;> (revert n; decide))
        | (split at h <;> first
            | (rename_i e; subst e; rfl)
            | (obtain rfl := Option.some.inj h; intro n hn; simp at hn)
            | (split at h <;> first
                | (rename_i e; subst e; rfl)
                | (obtain rfl := Option.some.inj h; intro n hn; simp at hn)
                | (simp at h))))

end Verif.Path
