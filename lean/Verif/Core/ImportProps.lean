import Verif.Core.ImportLemmas
/-
Scripts that import files (properties C99 and C100).
-/
namespace Verif.ImportProps
open Verif.Imp Verif.ImportSpec

/-- What a host sees of a history is what must happen. -/
def Right (k : Disk) (ops : List Op) : Prop :=
  ∃ k' e os w', steps k Eng.init ops = some (k', e, os) ∧ Steps k World.init ops os k' w'

/-- C99, full statement: whatever scripts, files and names. -/
def ImportsAll : Prop := ∀ k ops, Right k ops

/-- C99, proved part: names are written in the same way exactly if they mean the same file; texts are accepted, or refused before they
declare or import anything; files given to the engine exist, are new and accepted. Imports may be nested and cyclic. -/
theorem imports_partial (used : Dir × Name → Prop) (hc : Coherent used) (k : Disk) (ops : List Op)
    (hf : Fine used k World.init false ops) : Right k ops := by
  refine steps_ok hc ops k World.init Eng.init false ⟨rfl, ?_⟩ (fun h => by cases h) hf
  intro d n _
  exact ⟨fun h => absurd h List.not_mem_nil, fun h => absurd h List.not_mem_nil⟩

/-- What must happen is determined: no other observations are right. -/
theorem right_unique {k k1 k2 : Disk} {w1 w2 : World} {ops : List Op} {os ps : List Obs}
    (h : Steps k World.init ops os k1 w1) (g : Steps k World.init ops ps k2 w2) : os = ps := steps_det h g

/-- An accepted script runs its own statements in their order, and the statements of each file that it leads to and that was not
taken in before, each exactly once. -/
theorem each_once {k : Disk} {d : Dir} {t : Text} {w w' : World} {ks : List Nat} (h : Takes k d t w ks w') :
    ∃ fs : List File, w'.taken = w.taken ++ fs ∧ (w.taken.Nodup → w'.taken.Nodup) ∧
      ks.Perm (stmts t ++ fs.flatMap (fun f => stmts ((k.text f).getD []))) ∧ (stmts t).Sublist ks := takes_perm h

/-- If all names are of files in one directory, they are used well. -/
theorem one_directory : Coherent (fun p => p.1 = [] ∧ p.2.dirs = []) := by
  rintro ⟨d, n⟩ ⟨d', n'⟩ ⟨h1, h2⟩ ⟨h3, h4⟩
  have h1 : d = [] := h1
  have h3 : d' = [] := h3
  have h2 : n.dirs = [] := h2
  have h4 : n'.dirs = [] := h4
  subst h1; subst h3
  obtain ⟨a, b⟩ := n
  obtain ⟨a', b'⟩ := n'
  have h2 : a = [] := h2
  have h4 : a' = [] := h4
  subst h2; subst h4
  constructor
  · intro h
    have h : (⟨[], b⟩ : Name) = ⟨[], b'⟩ := h
    rw [h]
  · intro h
    have h : (⟨[], b⟩ : File) = ⟨[], b'⟩ := h
    have hb : b = b' := by injection h
    subst hb
    rfl

/-- C100: compiling ends for every history, however files import each other, and no name is ever compiled twice: the engine's list
of parsed files has no duplicates. -/
theorem imports_end (k : Disk) (ops : List Op) :
    ∃ k' e os, steps k Eng.init ops = some (k', e, os) ∧ os.length = ops.length ∧ e.parsed.Nodup := by
  obtain ⟨k', e, os, h, hn⟩ := steps_ends ops k Eng.init (List.nodup_nil)
  refine ⟨k', e, os, h, ?_, hn⟩
  exact steps_length ops k Eng.init h

/-! ### What goes wrong -/

def fA : File := ⟨[], "a.zs"⟩
def nA : Name := ⟨[], "a.zs"⟩

/-- Two histories of observations that differ. -/
def Wrong (k : Disk) (ops : List Op) (os ps : List Obs) : Prop :=
  (steps k Eng.init ops).map (·.2.2) = some os ∧ (∃ k' w', Steps k World.init ops ps k' w') ∧ os ≠ ps

theorem Wrong.not_right {k : Disk} {ops : List Op} {os ps : List Obs} (h : Wrong k ops os ps) : ¬ Right k ops := by
  rintro ⟨k', e, os', w', h1, h2⟩
  obtain ⟨g1, ⟨k2, w2, g2⟩, hne⟩ := h
  rw [h1] at g1
  have e1 : os' = os := Option.some.inj g1
  subst e1
  exact hne (steps_det h2 g2)

/-- A script that is refused leaves its variables declared: the corrected script is refused as well. -/
theorem refused_var_violated : Wrong [] [.text [.var "x", .bad], .text [.var "x", .stmt 1]] [.exc, .exc] [.exc, .ran [1]] := by
  refine ⟨by decide +kernel, ⟨_, _, .cons (.text (.inr ⟨?_, rfl, rfl⟩)) (.cons (.text (.inl ⟨[1], ⟨[], ["x"], []⟩, ?_, rfl, rfl⟩)) .nil)⟩, by decide⟩
  · rintro ⟨ks, w1, h⟩
    cases h with
    | var _ h => cases h
  · exact .var (by decide) (.stmt .nil)

/-- A script that is refused after an import has imported the file: the corrected script does not run the file's statements. -/
theorem refused_import_violated :
    Wrong [(fA, [.stmt 1])] [.text [.imp nA, .bad], .text [.imp nA, .stmt 2]] [.exc, .ran [2]] [.exc, .ran [1, 2]] := by
  refine ⟨by decide +kernel, ⟨_, _, .cons (.text (.inr ⟨?_, rfl, rfl⟩)) (.cons (.text (.inl ⟨[1, 2], ⟨[fA], [], []⟩, ?_, rfl, rfl⟩)) .nil)⟩, by decide⟩
  · rintro ⟨ks, w1, h⟩
    cases h with
    | again _ _ h => cases h
    | first _ _ _ h => cases h
  · exact .first (u := [.stmt 1]) (ks := [1]) (ls := [2]) (by decide) (by decide) (.stmt .nil) (.stmt .nil)

/-- A file that did not exist when it was given to the engine is not read when it does. -/
theorem missing_file_violated :
    Wrong [] [.file nA, .write fA [.stmt 1], .file nA] [.exc, .none, .ran []] [.exc, .none, .ran [1]] := by
  refine ⟨by decide +kernel, ⟨_, _, .cons (.missing (by decide)) (.cons .write (.cons
    (.file (t := [.stmt 1]) (by decide) (by decide) (.inl ⟨[1], ⟨[fA], [], []⟩, ?_, rfl, rfl⟩)) .nil))⟩, by decide⟩
  exact .stmt .nil

/-- A file that had an error is not compiled again when it was corrected. -/
theorem corrected_file_violated :
    Wrong [(fA, [.bad])] [.file nA, .write fA [.stmt 1], .file nA] [.exc, .none, .ran []] [.exc, .none, .ran [1]] := by
  refine ⟨by decide +kernel, ⟨_, _, .cons (.file (t := [.bad]) (by decide) (by decide) (.inr ⟨?_, rfl, rfl⟩)) (.cons .write (.cons
    (.file (t := [.stmt 1]) (by decide) (by decide) (.inl ⟨[1], ⟨[fA], [], []⟩, ?_, rfl, rfl⟩)) .nil))⟩, by decide⟩
  · rintro ⟨ks, w1, h⟩
    cases h
  · exact .stmt .nil

/-- `run` after a script was refused runs the statements before its error. -/
theorem run_refused_violated : Wrong [] [.text [.stmt 1, .bad], .run] [.exc, .ran [1]] [.exc, .ran []] := by
  refine ⟨by decide +kernel, ⟨_, _, .cons (.text (.inr ⟨?_, rfl, rfl⟩)) (.cons .run .nil)⟩, by decide⟩
  rintro ⟨ks, w1, h⟩
  cases h with
  | stmt h => cases h

/-- Running a file for the second time runs the statements of another script. -/
theorem file_again_violated :
    Wrong [(fA, [.stmt 1])] [.file nA, .text [.stmt 2], .file nA] [.ran [1], .ran [2], .ran [2]] [.ran [1], .ran [2], .ran []] := by
  refine ⟨by decide +kernel, ⟨_, _, .cons (.file (t := [.stmt 1]) (by decide) (by decide) (.inl ⟨[1], _, .stmt .nil, rfl, rfl⟩))
    (.cons (.text (.inl ⟨[2], _, .stmt .nil, rfl, rfl⟩)) (.cons (.again (by decide) ⟨_, rfl⟩) .nil))⟩, by decide⟩

/-- A file that is imported under two names is taken in twice. -/
theorem two_names_violated :
    Wrong [(fA, [.stmt 1])] [.text [.imp nA, .imp ⟨["lib", ".."], "a.zs"⟩]] [.ran [1, 1]] [.ran [1]] := by
  refine ⟨by decide +kernel, ⟨_, _, .cons (.text (.inl ⟨[1], ⟨[fA], [], []⟩, ?_, rfl, rfl⟩)) .nil⟩, by decide⟩
  exact .first (u := [.stmt 1]) (ks := [1]) (ls := []) (by decide) (by decide) (.stmt .nil) (.again ⟨[.stmt 1], by decide⟩ (by decide) .nil)

/-- Two files that import each other are accepted if the engine is started where they are, and refused if it gets the name of the
first one with its directory: that one is then compiled twice. -/
theorem cycle_violated :
    Wrong [(⟨["p"], "main.zs"⟩, [.imp ⟨[], "lib.zs"⟩, .var "x", .stmt 1]), (⟨["p"], "lib.zs"⟩, [.imp ⟨[], "main.zs"⟩, .stmt 2])]
      [.file ⟨["p"], "main.zs"⟩] [.exc] [.ran [2, 1]] := by
  refine ⟨by decide +kernel, ⟨_, _, .cons (.file (t := [.imp ⟨[], "lib.zs"⟩, .var "x", .stmt 1]) (by decide) (by decide)
    (.inl ⟨[2, 1], ⟨[⟨["p"], "main.zs"⟩, ⟨["p"], "lib.zs"⟩], ["x"], []⟩, ?_, rfl, rfl⟩)) .nil⟩, by decide⟩
  exact .first (u := [.imp ⟨[], "main.zs"⟩, .stmt 2]) (ks := [2]) (ls := [1]) (by decide) (by decide)
    (.again ⟨[.imp ⟨[], "lib.zs"⟩, .var "x", .stmt 1], by decide⟩ (by decide) (.stmt .nil)) (.var (by decide) (.stmt .nil))

/-- Two files that are imported under the same name in different directories: the second one is never read. -/
theorem same_name_violated :
    Wrong [(⟨["lib"], "a.zs"⟩, [.imp ⟨[], "b.zs"⟩]), (⟨["lib"], "b.zs"⟩, [.stmt 1]), (⟨[], "b.zs"⟩, [.stmt 2])]
      [.text [.imp ⟨["lib"], "a.zs"⟩, .imp ⟨[], "b.zs"⟩]] [.ran [1]] [.ran [1, 2]] := by
  refine ⟨by decide +kernel, ⟨_, _, .cons (.text (.inl ⟨[1, 2], ⟨[⟨["lib"], "a.zs"⟩, ⟨["lib"], "b.zs"⟩, ⟨[], "b.zs"⟩], [], []⟩, ?_, rfl, rfl⟩)) .nil⟩, by decide⟩
  exact .first (u := [.imp ⟨[], "b.zs"⟩]) (ks := [1]) (ls := [2]) (by decide) (by decide)
    (.first (u := [.stmt 1]) (ks := [1]) (ls := []) (by decide) (by decide) (.stmt .nil) .nil)
    (.first (u := [.stmt 2]) (ks := [2]) (ls := []) (by decide) (by decide) (.stmt .nil) .nil)

/-- The full statement is false of the code. -/
theorem imports_violated : ¬ ImportsAll := fun h => refused_var_violated.not_right (h _ _)

/-! ### The hypotheses can be met -/

/-- Files in one directory that import each other. -/
def kCycle : Disk := [(⟨[], "a.zs"⟩, [.stmt 1, .imp ⟨[], "b.zs"⟩, .stmt 2]), (⟨[], "b.zs"⟩, [.imp ⟨[], "a.zs"⟩, .stmt 3])]

theorem cycle_uses {d : Dir} {t : Text} {p : Dir × Name} (h : Uses kCycle d t p) :
    d = [] → (∀ n, .imp n ∈ t → n = ⟨[], "a.zs"⟩ ∨ n = ⟨[], "b.zs"⟩) → p.1 = [] ∧ p.2.dirs = [] := by
  induction h with
  | here hn =>
    intro hd ht
    refine ⟨hd, ?_⟩
    rcases ht _ hn with e | e <;> (subst e; rfl)
  | deep hn hu _ ih =>
    intro hd ht
    subst hd
    rcases ht _ hn with e | e
    · subst e
      have hu' : kCycle.text (fileOf [] ⟨[], "a.zs"⟩) = some [.stmt 1, .imp ⟨[], "b.zs"⟩, .stmt 2] := by decide
      rw [hu'] at hu
      obtain rfl := Option.some.inj hu
      exact ih rfl (fun n hn => .inr (by simpa using hn))
    · subst e
      have hu' : kCycle.text (fileOf [] ⟨[], "b.zs"⟩) = some [.imp ⟨[], "a.zs"⟩, .stmt 3] := by decide
      rw [hu'] at hu
      obtain rfl := Option.some.inj hu
      exact ih rfl (fun n hn => .inl (by simpa using hn))

/-- A file with a cyclic import, `run`, a refused text, and a text that imports a file again. -/
example : Right kCycle [.file ⟨[], "a.zs"⟩, .run, .text [.stmt 4, .bad], .text [.imp ⟨[], "b.zs"⟩, .stmt 5]] := by
  refine imports_partial _ one_directory _ _ ?_
  have hb : kCycle.text (fileOf [] ⟨[], "b.zs"⟩) = some [.imp ⟨[], "a.zs"⟩, .stmt 3] := by decide
  refine ⟨⟨rfl, rfl⟩, by decide, [.stmt 1, .imp ⟨[], "b.zs"⟩, .stmt 2], by decide, ?_, [1, 3, 2], ⟨[⟨[], "a.zs"⟩, ⟨[], "b.zs"⟩], [], []⟩, ?_, ?_⟩
  · exact fun p hp => cycle_uses hp rfl (fun n hn => .inr (by simpa using hn))
  · exact .stmt (.first (ks := [3]) (ls := [2]) hb (by decide) (.again ⟨_, rfl⟩ (by decide) (.stmt .nil)) (.stmt .nil))
  · refine ⟨rfl, ?_, .inr ⟨⟨[4], .bad, [], rfl, .inl rfl⟩, ?_⟩⟩
    · exact fun p hp => cycle_uses hp rfl (fun n hn => by simp at hn)
    · refine ⟨?_, .inl ⟨[5], _, .again ⟨_, hb⟩ (by decide) (.stmt .nil), trivial⟩⟩
      exact fun p hp => cycle_uses hp rfl (fun n hn => .inr (by simpa using hn))

example : (steps kCycle Eng.init [.file ⟨[], "a.zs"⟩, .run, .text [.stmt 4, .bad], .text [.imp ⟨[], "b.zs"⟩, .stmt 5]]).map (·.2.2) =
    some [.ran [1, 3, 2], .ran [1, 3, 2], .exc, .ran [5]] := by decide +kernel

/-- Names with directories that are used well: a library that is imported from where it is and from outside. -/
example : Coherent (fun p => p = ([], ⟨["lib"], "a.zs"⟩) ∨ p = (["lib"], ⟨[], "b.zs"⟩)) := by
  rintro p q (rfl | rfl) (rfl | rfl) <;> decide

end Verif.ImportProps
