import Verif.Core.PathLemmas
/- The invariant of compiling files. -/
namespace Verif.Path
open Verif Verif.Str Verif.PathSpec

structure Tame (D : Disk) : Prop where
  real : Real D
  plain : ∀ p ns, D.file p = some ns → ∀ n ∈ ns, Plain n

def Log (D : Disk) (d0 : Place) (st : St) : Prop := ∀ i n f, (i, n, f) ∈ st.opened → Found D d0 i n f

def Reason (D : Disk) (d0 : Place) : Why → Prop
  | .missing i n => lookup D (base d0 i) n = none
  | .getcwd => ∃ d, Dir D d ∧ 4096 ≤ (d.map (fun w => w.length + 1)).sum

/-- What holds of the end of a compilation that began in `st`. -/
def After (D : Disk) (d0 : Place) (st : St) : R → Prop
  | .ok st' => st'.cwd = st.cwd ∧ Log D d0 st' ∧ st.parsed ⊆ st'.parsed ∧ st.opened ⊆ st'.opened
  | .err st' w => st'.cwd = st.cwd ∧ Log D d0 st' ∧ st.parsed ⊆ st'.parsed ∧ st.opened ⊆ st'.opened ∧ Reason D d0 w
  | .ub => False
  | .deep => True

theorem After.trans {D : Disk} {d0 : Place} {a b : St} {r : R} (hc : b.cwd = a.cwd) (hp : a.parsed ⊆ b.parsed)
    (ho : a.opened ⊆ b.opened) (h : After D d0 b r) : After D d0 a r := by
  cases r with
  | ok st => exact ⟨h.1.trans hc, h.2.1, fun x hx => h.2.2.1 (hp hx), fun x hx => h.2.2.2 (ho hx)⟩
  | err st w => exact ⟨h.1.trans hc, h.2.1, fun x hx => h.2.2.1 (hp hx), fun x hx => h.2.2.2.1 (ho hx), h.2.2.2.2⟩
  | ub => exact h
  | deep => trivial

theorem imports_after {D : Disk} {d0 : Place} {f : Place} (rec : Bytes → St → R) (d : Place)
    (hb : d = base d0 (some f))
    (ns : List Bytes)
    (hrec : ∀ n ∈ ns, ∀ st : St, st.cwd = d → Log D d0 st → After D d0 st (rec n st)) :
    ∀ st : St, st.cwd = d → Log D d0 st → After D d0 st (imports rec D f ns st) := by
  induction ns with
  | nil => exact fun st _ hl => ⟨rfl, hl, fun _ h => h, fun _ h => h⟩
  | cons n ns ih =>
    intro st hc hl
    rw [imports]
    cases hk : lookup D st.cwd n with
    | none =>
      refine ⟨rfl, hl, fun _ h => h, fun _ h => h, ?_⟩
      show lookup D (base d0 (some f)) n = none
      rw [← hb, ← hc]; exact hk
    | some x =>
      have h1 := hrec n List.mem_cons_self st hc hl
      simp only
      generalize rec n st = r at h1
      cases r with
      | ok st' =>
        exact After.trans h1.1 h1.2.2.1 h1.2.2.2
          (ih (fun m hm => hrec m (List.mem_cons_of_mem _ hm)) st' (h1.1.trans hc) h1.2.1)
      | err => exact h1
      | ub => exact h1
      | deep => exact h1

theorem back_after {D : Disk} {d0 : Place} {st : St} {d : Place} (hd : Dir D d) {r : R} (h : After D d0 st r) :
    After D d0 { st with cwd := d } (back D (cwdText d) r) := by
  cases r with
  | ok st' => exact ⟨back_dir hd _, h.2⟩
  | err st' w => exact ⟨back_dir hd _, h.2⟩
  | ub => exact h
  | deep => trivial

theorem compileFile_after {D : Disk} (hD : Tame D) (d0 : Place) (m : Nat) :
    ∀ (i : Option Place) (n : Bytes) (st : St), Dir D st.cwd → st.cwd = base d0 i → (∀ c ∈ n, c ≠ 0) → Plain n →
      (∀ g, i = some g → ∃ ms, D.file g = some ms ∧ n ∈ ms) → Log D d0 st →
      After D d0 st (compileFile D m i n st) := by
  induction m with
  | zero => intros; trivial
  | succ m ih =>
    intro i n st hdir hb hz hp hw hl
    rw [compileFile]
    split
    · exact ⟨rfl, hl, fun _ h => h, fun _ h => h⟩
    · split
      · rename_i hk
        exact ⟨rfl, hl, fun x hx => List.mem_append_left _ hx, fun _ h => h, by rw [hb] at hk; exact hk⟩
      · rename_i f ns hk
        have hl1 : ∀ p : List Bytes, ∀ e : Place, Log D d0 ⟨e, p, st.opened ++ [(i, n, f)]⟩ := by
          intro p e i' n' f' hm
          rcases List.mem_append.1 hm with hm | hm
          · exact hl _ _ _ hm
          · simp only [List.mem_singleton, Prod.mk.injEq] at hm
            obtain ⟨rfl, rfl, rfl⟩ := hm
            exact ⟨⟨ns, by rw [← hb]; exact hk⟩, hw⟩
        simp only
        split
        · rename_i hlen
          exact ⟨rfl, hl1 _ _, fun x hx => List.mem_append_left _ hx, fun x hx => List.mem_append_left _ hx,
            st.cwd, hdir, cwdText_length _ hlen⟩
        · obtain ⟨s, hs, hcd⟩ := enter hD.real hz hp hk
          obtain ⟨_, hf, hfile⟩ := lookup_some hk
          rw [hs]
          simp only [hcd]
          have hdir' : Dir D f.dropLast := ⟨hD.real.above _ _ hfile, by
            rw [hf]; exact good_dropLast (good_resolve hdir.parts n)⟩
          have h := imports_after (D := D) (d0 := d0) (f := f) (compileFile D m (some f)) f.dropLast rfl ns
            (fun k hk' st' hc' hl' => ih (some f) k st' (by rw [hc']; exact hdir') hc' (hD.real.names _ _ hfile k hk')
              (hD.plain _ _ hfile k hk') (fun g hg => by
                obtain rfl := Option.some.inj hg
                exact ⟨ns, hfile, hk'⟩) hl')
            ⟨f.dropLast, st.parsed ++ [n], st.opened ++ [(i, n, f)]⟩ rfl (hl1 _ _)
          have h2 := back_after hdir h
          exact After.trans (b := ⟨st.cwd, st.parsed ++ [n], st.opened ++ [(i, n, f)]⟩) rfl
            (fun x hx => List.mem_append_left _ hx) (fun x hx => List.mem_append_left _ hx) h2

/-! ### The directory is restored -/

theorem getDirectory_ok {n : Bytes} (hz : ∀ c ∈ n, c ≠ 0) (hn : n ≠ []) : ∃ s, getDirectory (ofChars n) = .ok s := by
  obtain ⟨i, h1, h2⟩ := findLastOf_exact (ofChars n) n (rep_ofChars hz) hn [92, 47]
  rcases h2 with ⟨rfl, h2⟩ | ⟨j, rfl, ⟨c, hc, hcs⟩, h3⟩
  · exact ⟨ofChars [], by simp [getDirectory, h1, Out.bind]⟩
  · have hj : j < n.length := by
      rcases Nat.lt_or_ge j n.length with h | h
      · exact h
      · rw [List.getElem?_eq_none h] at hc; simp at hc
    have hne : ¬ ((j : Int) = -1) := by omega
    have := rep_getSubstring (rep_ofChars hz) 0 j (by omega)
    simp only [getDirectory, h1, Out.bind, if_neg hne]
    exact ⟨_, this⟩

theorem changeDir_dir {D : Disk} {d : Place} (h : Dir D d) (t : Bytes) : Dir D (changeDir D d t) := by
  unfold changeDir
  split
  · exact h
  · split
    · rename_i hd
      exact ⟨hd, good_resolve h.parts t⟩
    · exact h

def Stays (d : Place) : R → Prop
  | .ok st => st.cwd = d
  | .err st _ => st.cwd = d
  | .ub => False
  | .deep => True

theorem imports_stays {D : Disk} {f : Place} (rec : Bytes → St → R) (d : Place) (ns : List Bytes)
    (hrec : ∀ n ∈ ns, ∀ st : St, st.cwd = d → Stays d (rec n st)) :
    ∀ st : St, st.cwd = d → Stays d (imports rec D f ns st) := by
  induction ns with
  | nil => exact fun st h => h
  | cons n ns ih =>
    intro st hc
    rw [imports]
    split
    · exact hc
    · have h1 := hrec n List.mem_cons_self st hc
      generalize rec n st = r at h1
      cases r with
      | ok st' => exact ih (fun m hm => hrec m (List.mem_cons_of_mem _ hm)) st' h1
      | err => exact h1
      | ub => exact h1
      | deep => exact h1

theorem compileFile_stays {D : Disk} (hD : ∀ p ns, D.file p = some ns → ∀ n ∈ ns, ∀ c ∈ n, c ≠ 0) (m : Nat) :
    ∀ (i : Option Place) (n : Bytes) (st : St), Dir D st.cwd → (∀ c ∈ n, c ≠ 0) →
      Stays st.cwd (compileFile D m i n st) := by
  induction m with
  | zero => intros; trivial
  | succ m ih =>
    intro i n st hdir hz
    rw [compileFile]
    split
    · exact rfl
    · split
      · exact rfl
      · rename_i f ns hk
        obtain ⟨ho, _, hfile⟩ := lookup_some hk
        simp only
        split
        · exact rfl
        · obtain ⟨s, hs⟩ := getDirectory_ok hz (by rintro rfl; exact ho.1 rfl)
          rw [hs]
          simp only
          have h := imports_stays (D := D) (f := f) (compileFile D m (some f)) (changeDir D st.cwd (toBytes s)) ns
            (fun k hk' st' hc' => by
              have := ih (some f) k st' (by rw [hc']; exact changeDir_dir hdir _) (hD _ _ hfile k hk')
              rw [hc'] at this; exact this)
            ⟨changeDir D st.cwd (toBytes s), st.parsed ++ [n], st.opened ++ [(i, n, f)]⟩ rfl
          generalize imports (compileFile D m (some f)) D f ns _ = r at h
          cases r with
          | ok st' => exact back_dir hdir _
          | err st' w => exact back_dir hdir _
          | ub => exact h
          | deep => trivial

/-! ### Compilations end -/

def left (L : List Bytes) (p : List Bytes) : Nat := (L.filter (fun n => n ∉ p)).length

theorem left_mono (L : List Bytes) {p q : List Bytes} (h : p ⊆ q) : left L q ≤ left L p := by
  induction L with
  | nil => simp [left]
  | cons a L ih =>
    unfold left at *
    by_cases hq : a ∈ q
    · rw [List.filter_cons_of_neg (by simpa using hq)]
      refine Nat.le_trans ih ?_
      by_cases hp : a ∈ p
      · rw [List.filter_cons_of_neg (by simpa using hp)]; exact Nat.le_refl _
      · rw [List.filter_cons_of_pos (by simpa using hp)]; simp
    · have hp : a ∉ p := fun x => hq (h x)
      rw [List.filter_cons_of_pos (by simpa using hq), List.filter_cons_of_pos (by simpa using hp)]
      simpa using ih

theorem left_lt (L : List Bytes) {p : List Bytes} {n : Bytes} (hn : n ∈ L) (hp : n ∉ p) : left L (p ++ [n]) < left L p := by
  induction L with
  | nil => simp at hn
  | cons a L ih =>
    have hm := left_mono L (p := p) (q := p ++ [n]) (fun x hx => List.mem_append_left _ hx)
    unfold left at *
    by_cases ha : a = n
    · subst ha
      rw [List.filter_cons_of_neg (by simp), List.filter_cons_of_pos (by simpa using hp)]
      simp only [List.length_cons]
      omega
    · have hn' : n ∈ L := by
        rcases List.mem_cons.1 hn with h | h
        · exact absurd h.symm ha
        · exact h
      have := ih hn'
      by_cases hap : a ∈ p
      · rw [List.filter_cons_of_neg (by simp [hap]), List.filter_cons_of_neg (by simpa using hap)]; exact this
      · rw [List.filter_cons_of_pos (by simp [hap, ha]), List.filter_cons_of_pos (by simpa using hap)]
        simp only [List.length_cons]
        omega

/-- Parsed names are kept. -/
def Keeps (st : St) : R → Prop
  | .ok st' => st.parsed ⊆ st'.parsed
  | .deep => False
  | _ => True

theorem imports_ends {D : Disk} {f : Place} (L : List Bytes) (rec : Bytes → St → R) (k : Nat) (ns : List Bytes)
    (hrec : ∀ n ∈ ns, ∀ st : St, left L st.parsed ≤ k → Keeps st (rec n st)) :
    ∀ st : St, left L st.parsed ≤ k → Keeps st (imports rec D f ns st) := by
  induction ns with
  | nil => exact fun st _ => fun _ h => h
  | cons n ns ih =>
    intro st hk
    rw [imports]
    split
    · trivial
    · have h1 := hrec n List.mem_cons_self st hk
      generalize rec n st = r at h1
      cases r with
      | ok st' =>
        have h2 := ih (fun m hm => hrec m (List.mem_cons_of_mem _ hm)) st' (Nat.le_trans (left_mono L h1) hk)
        simp only
        generalize imports rec D f ns st' = r at h2
        cases r with
        | ok => exact fun x hx => h2 (h1 hx)
        | err => trivial
        | ub => trivial
        | deep => exact h2
      | err => trivial
      | ub => trivial
      | deep => exact h1

theorem compileFile_ends {D : Disk} (L : List Bytes) (hL : ∀ p ns, D.file p = some ns → ns ⊆ L) (m : Nat) :
    ∀ (i : Option Place) (n : Bytes) (st : St), n ∈ L → left L st.parsed < m → Keeps st (compileFile D m i n st) := by
  induction m with
  | zero => intro i n st _ h; omega
  | succ m ih =>
    intro i n st hn hlt
    rw [compileFile]
    split
    · exact fun _ h => h
    · rename_i hnp
      split
      · trivial
      · rename_i f ns hk
        simp only
        split
        · trivial
        · split
          · rename_i s hs
            obtain ⟨_, hf, hfile⟩ := lookup_some hk
            have h1 := left_lt L hn hnp
            have h := imports_ends (D := D) (f := f) L (compileFile D m (some f)) (m - 1) ns
              (fun k hk' st' hst => ih (some f) k st' (hL _ _ hfile hk') (by omega))
              ⟨changeDir D st.cwd (toBytes s), st.parsed ++ [n], st.opened ++ [(i, n, f)]⟩ (by show left L (st.parsed ++ [n]) ≤ _; omega)
            generalize imports (compileFile D m (some f)) D f ns _ = r at h
            cases r with
            | ok => exact fun x hx => h (List.mem_append_left _ hx)
            | err => trivial
            | ub => trivial
            | deep => exact h
          · trivial

end Verif.Path
