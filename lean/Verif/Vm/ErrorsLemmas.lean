import Verif.Vm.Errors
import Verif.Vm.ErrorsSpec
/- Lemmas about formatting and reporting. -/
namespace Verif.Err
open Verif ErrSpec

theorem vfmt_cons {c : Char} (h : c ≠ '%') (r : Text) (as : List Arg) : vfmt (c :: r) as = (vfmt r as).map (c :: ·) := by
  rw [vfmt.eq_def]
  simp only [ne_eq, h, not_false_eq_true, if_true]

theorem vfmt_s (r t : Text) (as : List Arg) : vfmt ('%' :: 's' :: r) (.s t :: as) = (vfmt r as).map (t ++ ·) := by
  rw [vfmt, if_neg (by simp)]

theorem vfmt_i (r : Text) (n : Int) (as : List Arg) : vfmt ('%' :: 'i' :: r) (.i n :: as) = (vfmt r as).map (dec n ++ ·) := by
  rw [vfmt, if_neg (by simp)]

theorem vfmt_pct (r : Text) (as : List Arg) : vfmt ('%' :: '%' :: r) as = (vfmt r as).map ('%' :: ·) := by
  rw [vfmt, if_neg (by simp)]

theorem map_map {α β γ : Type} (f : α → β) (g : β → γ) (x : Out α) : (x.map f).map g = x.map (fun a => g (f a)) := by
  cases x <;> rfl

theorem vfmt_app {t : Text} (h : '%' ∉ t) (r : Text) (as : List Arg) : vfmt (t ++ r) as = (vfmt r as).map (t ++ ·) := by
  induction t with
  | nil => cases h2 : vfmt r as <;> simp [h2, Out.map]
  | cons c t ih =>
    simp only [List.mem_cons, not_or] at h
    rw [List.cons_append, vfmt_cons (fun e => h.1 e.symm), ih h.2, map_map]
    rfl

theorem vfmt_plain {t : Text} (h : '%' ∉ t) (as : List Arg) : vfmt t as = .ok t := by
  have := vfmt_app h [] as
  rw [List.append_nil] at this
  rw [this]; simp [vfmt, Out.map]

theorem vfmt_msg (m : Msg) (h : ∀ t, Seg.lit t ∈ m → '%' ∉ t) : vfmt (fmtOf m) (argsOf m) = .ok (says m) := by
  induction m with
  | nil => rfl
  | cons s m ih =>
    have ih := ih (fun t ht => h t (List.mem_cons_of_mem _ ht))
    cases s with
    | lit t => simp only [fmtOf, argsOf, says]; rw [vfmt_app (h t List.mem_cons_self), ih]; rfl
    | str t => simp only [fmtOf, argsOf, says]; rw [vfmt_s, ih]; rfl
    | int n => simp only [fmtOf, argsOf, says]; rw [vfmt_i, ih]; rfl

theorem lits_of_says {m : Msg} (h : '%' ∉ says m) : ∀ t, Seg.lit t ∈ m → '%' ∉ t := by
  induction m with
  | nil => intro t ht; cases ht
  | cons s m ih =>
    intro t ht
    rcases List.mem_cons.1 ht with e | e
    · subst e
      simp only [says, List.mem_append, not_or] at h
      exact h.1
    · refine ih ?_ t e
      cases s <;> simp only [says, List.mem_append, not_or] at h <;> exact h.2

theorem cut_short {t : Text} (h : t.length ≤ 4094) : cut t = t := by
  unfold cut; rw [if_neg (by omega)]

theorem capture_plain {t : Text} (h : Plain t) : capture t [] = .ok t := by
  unfold capture; rw [vfmt_plain h.1]; simp only [Out.map]; rw [cut_short h.2]

theorem capture_msg {m : Msg} (h : Plain (says m)) : capture (fmtOf m) (argsOf m) = .ok (says m) := by
  unfold capture; rw [vfmt_msg m (lits_of_says h.1)]; simp only [Out.map]; rw [cut_short h.2]

theorem format_msg {m : Msg} (h : Plain (says m)) : format (fmtOf m) (argsOf m) = .ok (says m) := by
  unfold format; rw [vfmt_msg m (lits_of_says h.1)]; simp only [Out.bind]; rw [if_neg (by have := h.2; omega)]

theorem Plain.left {a b : Text} (h : Plain (a ++ b)) : Plain a := by
  obtain ⟨h1, h2⟩ := h
  simp only [List.mem_append, not_or, List.length_append] at h1 h2
  exact ⟨h1.1, by omega⟩

theorem Plain.right {a b : Text} (h : Plain (a ++ b)) : Plain b := by
  obtain ⟨h1, h2⟩ := h
  simp only [List.mem_append, not_or, List.length_append] at h1 h2
  exact ⟨h1.2, by omega⟩

/-- A format and its arguments as a message, for the lines that the model formats. -/
theorem format_of (m : Msg) (f : Text) (as : List Arg) (r : Text) (hf : fmtOf m = f) (ha : argsOf m = as) (hr : says m = r)
    (hl : ∀ t, Seg.lit t ∈ m → '%' ∉ t) (hn : r.length ≤ 4095) : format f as = .ok r := by
  subst hf ha hr
  unfold format; rw [vfmt_msg m hl]; simp only [Out.bind]; rw [if_neg (by omega)]

/-- The line of a call of an operator as a message. -/
def innerMsg (caller file : Text) (n : Int) : Msg :=
  [.lit "\nat ".toList, .str caller, .lit " (file:".toList, .str file, .lit " line:".toList, .int n, .lit ")".toList]

theorem innerMsg_says (caller file : Text) (n : Int) : says (innerMsg caller file n) = frame (.inner caller file n) := by
  rw [frame.eq_def]
  simp only [says, innerMsg, List.append_assoc, List.append_nil]

theorem innerMsg_fmt (caller file : Text) (n : Int) : fmtOf (innerMsg caller file n) = "\nat %s (file:%s line:%i)".toList := by
  simp [fmtOf, innerMsg]

theorem innerMsg_lits (caller file : Text) (n : Int) : ∀ t, Seg.lit t ∈ innerMsg caller file n → '%' ∉ t := by
  intro t ht
  simp only [innerMsg, List.mem_cons, Seg.lit.injEq, reduceCtorEq, false_or, List.not_mem_nil, or_false] at ht
  rcases ht with e | e | e | e <;> subst e <;> decide

theorem line_inner (caller file : Text) (n : Int) (h : (frame (.inner caller file n)).length ≤ 4095) :
    line (.inner caller file n) = .ok (frame (.inner caller file n)) := by
  rw [line.eq_def]
  exact format_of _ _ _ _ (innerMsg_fmt caller file n) rfl (innerMsg_says caller file n) (innerMsg_lits caller file n) h

/-- The part of the line that tells the file. -/
def inFile : Option Text → Text
  | none => []
  | some f => "file:".toList ++ f ++ " ".toList

def fileMsg (f : Text) : Msg := [.lit "file:".toList, .str f, .lit " ".toList]

theorem fileMsg_says (f : Text) : says (fileMsg f) = inFile (some f) := by simp [says, inFile, fileMsg]

theorem fileMsg_fmt (f : Text) : fmtOf (fileMsg f) = "file:%s ".toList := by simp [fmtOf, fileMsg]

theorem fileMsg_lits (f : Text) : ∀ t, Seg.lit t ∈ fileMsg f → '%' ∉ t := by
  intro t ht
  simp only [fileMsg, List.mem_cons, Seg.lit.injEq, reduceCtorEq, false_or, List.not_mem_nil, or_false] at ht
  rcases ht with e | e <;> subst e <;> decide

theorem format_file (f : Text) (h : (inFile (some f)).length ≤ 4095) : format "file:%s ".toList [.s f] = .ok (inFile (some f)) :=
  format_of _ _ _ _ (fileMsg_fmt f) rfl (fileMsg_says f) (fileMsg_lits f) h

/-- The line of a call as a message. -/
def callMsg (owner : Option Text) (name : Text) (file : Option Text) (n : Int) : Msg :=
  [.lit "\nat calling function ".toList, .str (owner.getD []), .str (sep owner), .str name,
    .lit " (".toList, .str (inFile file), .lit "line:".toList, .int n, .lit ")".toList]

theorem callMsg_says (owner : Option Text) (name : Text) (file : Option Text) (n : Int) :
    says (callMsg owner name file n) = frame (.call owner name file n) := by
  rw [frame.eq_def]
  cases owner <;> cases file <;>
    simp only [says, inFile, callMsg, sep, Option.getD, List.append_assoc, List.append_nil, List.nil_append]

theorem callMsg_fmt (owner : Option Text) (name : Text) (file : Option Text) (n : Int) :
    fmtOf (callMsg owner name file n) = "\nat calling function %s%s%s (%sline:%i)".toList := by simp [fmtOf, callMsg]

theorem callMsg_lits (owner : Option Text) (name : Text) (file : Option Text) (n : Int) :
    ∀ t, Seg.lit t ∈ callMsg owner name file n → '%' ∉ t := by
  intro t ht
  simp only [callMsg, List.mem_cons, Seg.lit.injEq, reduceCtorEq, false_or, List.not_mem_nil, or_false] at ht
  rcases ht with e | e | e | e <;> subst e <;> decide

theorem callMsg_file (owner : Option Text) (name : Text) (file : Option Text) (n : Int) :
    (inFile file).length ≤ (says (callMsg owner name file n)).length := by
  simp only [callMsg, says, List.length_append]
  omega

theorem line_call (owner : Option Text) (name : Text) (file : Option Text) (n : Int)
    (h : (frame (.call owner name file n)).length ≤ 4095) : line (.call owner name file n) = .ok (frame (.call owner name file n)) := by
  have hlen : (inFile file).length ≤ 4095 := by
    have := callMsg_file owner name file n
    rw [callMsg_says] at this
    exact Nat.le_trans this h
  have key : format "\nat calling function %s%s%s (%sline:%i)".toList
      [.s (owner.getD []), .s (sep owner), .s name, .s (inFile file), .i n] =
        .ok (frame (.call owner name file n)) :=
    format_of _ _ _ _ (callMsg_fmt owner name file n) rfl (callMsg_says owner name file n) (callMsg_lits owner name file n) h
  rw [← key, line.eq_def]
  clear key h
  cases file with
  | none => simp only [Out.bind, inFile]
  | some f => simp only; rw [format_file f hlen]; simp only [Out.bind]

theorem line_eq {f : Frame} (h : (frame f).length ≤ 4095) : line f = .ok (frame f) := by
  cases f with
  | inner caller file n => exact line_inner caller file n h
  | call owner name file n => exact line_call owner name file n h

theorem pass_eq (v : Vm) (fs : List Frame) (h : ∀ f ∈ fs, (frame f).length ≤ 4095) :
    pass v fs = .ok { v with trace := v.trace ++ trace fs } := by
  induction fs generalizing v with
  | nil => simp [pass, trace]
  | cons f fs ih =>
    rw [pass, line_eq (h f List.mem_cons_self)]
    simp only [Out.bind]
    rw [ih _ (fun g hg => h g (List.mem_cons_of_mem _ hg))]
    simp [trace, List.append_assoc]

theorem frames_short {fs : List Frame} {n : Nat} (h : (trace fs).length ≤ n) : ∀ f ∈ fs, (frame f).length ≤ n := by
  induction fs with
  | nil => intro f hf; cases hf
  | cons g fs ih =>
    simp only [trace, List.flatMap_cons, List.length_append] at h
    intro f hf
    rcases List.mem_cons.1 hf with e | e
    · subst e; omega
    · exact ih (by simp only [trace]; omega) f e

/-! ### The file's own name -/

theorem base_snoc (a : Text) (c : Char) : base (a ++ [c]) = if c = '/' ∨ c = '\\' then [] else base a ++ [c] := by
  unfold base
  rw [List.reverse_append]
  by_cases hc : c = '/' ∨ c = '\\'
  · rw [if_pos hc]
    rcases hc with e | e <;> subst e <;> rfl
  · rw [if_neg hc]
    have : (c != '/' && c != '\\') = true := by simp only [not_or] at hc; simp [hc.1, hc.2]
    simp [this]

theorem lastSep_lt {t : Text} {i j : Nat} (h : lastSep t i = some j) : j < i := by
  induction i with
  | zero => simp [lastSep] at h
  | succ i ih =>
    rw [lastSep] at h
    cases ht : t[i]? with
    | none => rw [ht] at h; have := ih h; omega
    | some c =>
      rw [ht] at h; simp only at h
      split at h
      · injection h with h; omega
      · have := ih h; omega

theorem lastSep_eq (t : Text) (i : Nat) (hi : i ≤ t.length) :
    (match lastSep t i with | some j => (t.take i).drop (j + 1) | none => t.take i) = base (t.take i) := by
  induction i with
  | zero => simp [lastSep, base]
  | succ i ih =>
    have hlt : i < t.length := by omega
    have htake : t.take (i + 1) = t.take i ++ [t[i]] := by simp [List.take_append_getElem hlt]
    rw [lastSep, List.getElem?_eq_getElem hlt, htake, base_snoc, ← ih (by omega)]
    simp only
    have hl : (t.take i).length = i := by simp; omega
    by_cases hc : t[i] = '/' ∨ t[i] = '\\'
    · rw [if_pos hc, if_pos hc]
      simp only
      apply List.drop_eq_nil_of_le
      rw [List.length_append, hl]; simp
    · rw [if_neg hc, if_neg hc]
      cases h : lastSep t i with
      | none => rfl
      | some j =>
        simp only
        have := lastSep_lt h
        rw [List.drop_append_of_le_length (by rw [hl]; omega)]

theorem getFilename_eq {t : Text} (h : t ≠ []) : getFilename t = .ok (base t) := by
  unfold getFilename
  rw [if_neg h]
  have := lastSep_eq t t.length (Nat.le_refl _)
  rw [List.take_length] at this
  rw [← this]
  cases lastSep t t.length <;> rfl

theorem mkExc_eq (file : Text) (n : Int) (w : Text) : mkExc file n w = .ok ⟨w, base file, n⟩ := by
  unfold mkExc
  by_cases h : file = []
  · rw [if_pos h]; subst h; rfl
  · rw [if_neg h, getFilename_eq h]; rfl

theorem throwAt_eq (file : Text) (n : Int) {w : Text} (h : Plain w) : throwAt file n w = .ok ⟨w, base file, n⟩ := by
  unfold throwAt
  rw [capture_plain h]
  exact mkExc_eq file n w

theorem base_base (t : Text) : base (base t) = base t := by
  unfold base
  rw [List.reverse_reverse]
  generalize t.reverse = r
  congr 1
  induction r with
  | nil => rfl
  | cons c r ih =>
    cases hc : (c != '/' && c != '\\') with
    | true => simp only [List.takeWhile_cons, hc, if_true, ih]
    | false => simp [hc]

/-! ### Refused scripts -/

/-- The error is in the text itself. -/
def Fault.isHere : Fault → Bool
  | .here _ _ => true
  | .imported _ _ _ => false

theorem refusal_file (cur : Text) (f : Fault) (hc : base cur ≠ []) (hf : Named f) :
    (refusal cur f).file ≠ [] ∧ base (refusal cur f).file = (refusal cur f).file := by
  induction f generalizing cur with
  | here m n => exact ⟨hc, base_base cur⟩
  | imported name n f ih => exact ih name hf.2.1 hf.2.2

theorem rethrow_eq {e : Exc} (hf : e.file ≠ []) (hb : base e.file = e.file) (hw : Plain e.what) : rethrow e = .ok e := by
  unfold rethrow
  rw [if_pos hf, throwAt_eq _ _ hw, hb]

/-- What is said about an import, as a message. -/
def impMsg (w b : Text) (n : Int) (name : Text) : Msg :=
  [.str w, .lit " \n[".toList, .str b, .lit ":".toList, .int n, .lit "] from import '".toList, .str name, .lit "'".toList]

theorem impMsg_says (cur name : Text) (n : Int) (f : Fault) :
    says (impMsg (refusal name f).what (base cur) n name) = (refusal cur (.imported name n f)).what := by
  simp [says, impMsg, refusal]

theorem impMsg_fmt (w b : Text) (n : Int) (name : Text) : fmtOf (impMsg w b n name) = "%s \n[%s:%i] from import '%s'".toList := by
  simp [fmtOf, impMsg]

theorem impMsg_lits (w b : Text) (n : Int) (name : Text) : ∀ t, Seg.lit t ∈ impMsg w b n name → '%' ∉ t := by
  intro t ht
  simp only [impMsg, List.mem_cons, Seg.lit.injEq, reduceCtorEq, false_or, List.not_mem_nil, or_false] at ht
  rcases ht with e | e | e | e <;> subst e <;> decide

theorem impMsg_first {w b : Text} {n : Int} {name : Text} (h : Plain (says (impMsg w b n name))) : Plain w := by
  simp only [impMsg, says] at h
  exact Plain.left h

theorem compile_eq (cur : Text) (f : Fault) (hc : f.isHere ∨ cur ≠ []) (hn : Named f) (hw : Plain (refusal cur f).what) :
    compile cur f = .ok (refusal cur f) := by
  induction f generalizing cur with
  | here m n =>
    have hw : Plain (says m) := hw
    rw [compile, format_msg hw]
    simp only [Out.bind]
    rw [throwAt_eq _ _ hw]
    rfl
  | imported name n f ih =>
    have hc : cur ≠ [] := by
      rcases hc with h | h
      · cases h
      · exact h
    have hs : Plain (says (impMsg (refusal name f).what (base cur) n name)) := by rw [impMsg_says]; exact hw
    have hw' : Plain (refusal name f).what := impMsg_first hs
    have hfile := refusal_file name f hn.2.1 hn.2.2
    have hfmt : format "%s \n[%s:%i] from import '%s'".toList [.s (refusal name f).what, .s (base cur), .i n, .s name] =
        .ok (refusal cur (.imported name n f)).what :=
      format_of _ _ _ _ (impMsg_fmt _ _ _ _) rfl (impMsg_says cur name n f) (impMsg_lits _ _ _ _) (Nat.le_succ_of_le hw.2)
    rw [compile, ih name (Or.inr hn.1) hn.2.2 hw']
    simp only [Out.bind]
    rw [rethrow_eq hfile.1 hfile.2 hw']
    simp only
    rw [getFilename_eq hc]
    simp only
    rw [hfmt]
    simp only
    rw [throwAt_eq _ _ hw, hfile.2]
    rfl

/-! ### What goes wrong with `%` -/

theorem vfmt_len : ∀ (n : Nat) (t u : Text), t.length ≤ n → vfmt t [] = .ok u →
    u.length ≤ t.length ∧ ('%' ∈ t → u.length < t.length)
  | 0, t, u, hn, h => by
    have : t = [] := List.length_eq_zero_iff.1 (by omega)
    subst this
    simp only [vfmt, Out.ok.injEq] at h; subst h
    simp
  | n + 1, [], u, hn, h => by simp only [vfmt, Out.ok.injEq] at h; subst h; simp
  | n + 1, c :: r, u, hn, h => by
    simp only [List.length_cons] at hn
    by_cases hc : c = '%'
    · subst hc
      rw [vfmt.eq_def] at h
      simp only [ne_eq, not_true_eq_false, if_false] at h
      split at h
      · rename_i r'
        cases hr : vfmt r' [] with
        | err => rw [hr] at h; cases h
        | ub => rw [hr] at h; cases h
        | ok w =>
          rw [hr] at h
          simp only [Out.map, Out.ok.injEq] at h
          subst h
          have hl : r'.length + 1 ≤ n := by simpa using hn
          have ih := vfmt_len n r' w (by omega) hr
          simp only [List.length_cons]
          exact ⟨by omega, fun _ => by omega⟩
      · rename_i heq; cases heq
      · rename_i heq; cases heq
      · cases h
    · rw [vfmt_cons hc] at h
      cases hr : vfmt r [] with
      | err => rw [hr] at h; cases h
      | ub => rw [hr] at h; cases h
      | ok w =>
        rw [hr] at h
        simp only [Out.map, Out.ok.injEq] at h
        subst h
        have ih := vfmt_len n r w (by omega) hr
        simp only [List.length_cons, List.mem_cons]
        refine ⟨by omega, fun h => ?_⟩
        have : '%' ∈ r := by
          rcases h with e | e
          · exact absurd e.symm hc
          · exact e
        have := ih.2 this
        omega

theorem cut_len (t : Text) : (cut t).length ≤ t.length ∧ (t.length ≥ 4095 → (cut t).length < t.length) := by
  unfold cut
  split
  · simp only [List.length_append, List.length_take]
    have : "...".toList.length = 3 := rfl
    omega
  · exact ⟨Nat.le_refl _, fun h => by omega⟩

/-- A text survives being used as a format exactly if it is plain. -/
theorem capture_iff {t u : Text} (h : capture t [] = .ok u) : u.length ≤ t.length ∧ (¬ Plain t → u.length < t.length) := by
  unfold capture at h
  cases hv : vfmt t [] with
  | err => rw [hv] at h; cases h
  | ub => rw [hv] at h; cases h
  | ok w =>
    rw [hv] at h
    simp only [Out.map, Out.ok.injEq] at h
    subst h
    have h1 := vfmt_len t.length t w (Nat.le_refl _) hv
    have h2 := cut_len w
    refine ⟨by omega, fun hp => ?_⟩
    by_cases hpct : '%' ∈ t
    · have := h1.2 hpct; omega
    · have hlen : ¬ t.length ≤ 4094 := fun hl => hp ⟨hpct, hl⟩
      rw [vfmt_plain hpct] at hv
      injection hv with hv; subst hv
      exact h2.2 (by omega)

end Verif.Err
