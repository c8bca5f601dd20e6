import Verif.Vm.FormatSpec
import Verif.Base.StrEscapeProps
/-
Lemmas on formatting, for `Verif/Vm/FormatProps.lean`.
-/
namespace Verif.Format
open Verif Verif.Str Verif.FormatSpec
open Verif.Integer (decText decText_spec parse_decimal INT_MAX INT_MIN toInt32 toString_exact toString_padded)

theorem cut_none {c : UInt8} : ∀ {l : Bytes}, c ∉ l → cut c l = none
  | [], _ => rfl
  | a :: l, h => by
    simp only [List.mem_cons, not_or] at h
    unfold cut
    rw [if_neg (fun e => h.1 e.symm), cut_none h.2]
    rfl

theorem cut_app {c : UInt8} : ∀ {t : Bytes} (r : Bytes), c ∉ t → cut c (t ++ r) = (cut c r).map fun p => (t ++ p.1, p.2)
  | [], r, _ => by simp
  | a :: t, r, h => by
    simp only [List.mem_cons, not_or] at h
    have hc : cut c (a :: (t ++ r)) = (cut c (t ++ r)).map fun p => (a :: p.1, p.2) := by
      rw [cut, if_neg (fun e => h.1 e.symm)]
    rw [List.cons_append, hc, cut_app r h.2, Option.map_map]
    rfl

theorem cut_at {c : UInt8} {t : Bytes} (r : Bytes) (h : c ∉ t) : cut c (t ++ c :: r) = some (t, r) := by
  rw [cut_app _ h]
  simp [cut]

theorem cut_some {c : UInt8} : ∀ {l t r : Bytes}, cut c l = some (t, r) → l = t ++ c :: r
  | [], _, _, h => by cases h
  | a :: l, t, r, h => by
    unfold cut at h
    split at h
    · rename_i e
      cases h
      rw [e]; rfl
    · cases hc : cut c l with
      | none => rw [hc] at h; cases h
      | some p =>
        rw [hc] at h
        cases h
        rw [cut_some (t := p.1) (r := p.2) hc]
        rfl

theorem loop_ends (args : List Arg) : ∀ (k : Nat) (s : Bytes), s.length < k → loop args k s ≠ none
  | 0, _, h => by omega
  | k + 1, s, h => by
    unfold loop
    cases h1 : cut 123 s with
    | none => simp
    | some p =>
      obtain ⟨t, r⟩ := p
      simp only
      cases h2 : cut 125 r with
      | none => simp
      | some q =>
        obtain ⟨b, r'⟩ := q
        simp only
        have e1 := cut_some h1
        have e2 := cut_some h2
        have hl : r'.length < k := by
          rw [e1, e2] at h
          simp only [List.length_append, List.length_cons] at h
          omega
        cases item args b with
        | ok x =>
          have := loop_ends args k r' hl
          cases hr : loop args k r' with
          | none => exact absurd hr this
          | some o => simp
        | err => simp
        | ub => simp

theorem loop_text (args : List Arg) (k : Nat) {t : Bytes} (s : Bytes) (h : (123 : UInt8) ∉ t) :
    loop args (k + 1) (t ++ s) = (loop args (k + 1) s).map fun o => o.map fun y => t ++ y := by
  unfold loop
  rw [cut_app _ h]
  cases h1 : cut 123 s with
  | none => simp [Out.map]
  | some p =>
    obtain ⟨t', r⟩ := p
    simp only [Option.map_some]
    cases h2 : cut 125 r with
    | none => simp [Out.map]
    | some q =>
      obtain ⟨b, r'⟩ := q
      simp only
      cases item args b with
      | ok x =>
        cases loop args k r' with
        | none => rfl
        | some o => cases o <;> simp [Out.map]
      | err => rfl
      | ub => rfl

theorem loop_item (args : List Arg) (k : Nat) {b x : Bytes} (s : Bytes) (h : (125 : UInt8) ∉ b) (hi : item args b = .ok x) :
    loop args (k + 1) ((123 :: b ++ [125]) ++ s) = (loop args k s).map fun o => o.map fun y => x ++ y := by
  have h1 : cut 123 ((123 :: b ++ [125]) ++ s) = some ([], b ++ 125 :: s) := by simp [cut]
  rw [loop, h1]
  simp only
  rw [cut_at _ h]
  simp only [hi, List.nil_append]

theorem loop_tail (args : List Arg) (k : Nat) {s : Bytes} (h : (125 : UInt8) ∉ s) : loop args (k + 1) s = some (.ok s) := by
  unfold loop
  cases h1 : cut 123 s with
  | none => rfl
  | some p =>
    obtain ⟨t, r⟩ := p
    simp only
    have e := cut_some h1
    rw [cut_none (c := 125) (l := r) (fun hm => h (by rw [e]; simp [hm]))]

/-! ### Places of arguments -/

/-- What stands between `{` and `}`. -/
def body (i : Nat) (w z : Option Nat) : Bytes :=
  decText i ++ (match w with | none => [] | some w => 44 :: decText w) ++ (match z with | none => [] | some z => 58 :: 100 :: decText z)

theorem written_arg (i : Nat) (w z : Option Nat) : (Piece.arg i w z).written = 123 :: body i w z ++ [125] := by
  cases w <;> cases z <;> simp [Piece.written, body]

theorem not_dec {c : UInt8} (hc : c < 48 ∨ 57 < c) (n : Nat) : c ∉ decText n := by
  intro h
  have := (decText_spec n).1.2 c h
  simp only [UInt8.le_iff_toNat_le, UInt8.lt_iff_toNat_lt, UInt8.reduceToNat] at *
  omega

theorem body_close (i : Nat) (w z : Option Nat) : (125 : UInt8) ∉ body i w z := by
  have h := fun n => not_dec (c := 125) (.inr (by decide)) n
  unfold body
  cases w <;> cases z <;> simp [h]

/-- A number with something in front, or nothing. -/
def opt (pre : Bytes) : Option Nat → Bytes
  | none => []
  | some n => pre ++ decText n

theorem parts_body (i : Nat) (w z : Option Nat) :
    parts (body i w z) = some (decText i, opt [] w, opt [100] z) := by
  have h4 := fun n => not_dec (c := 44) (.inl (by decide)) n
  have h8 := fun n => not_dec (c := 58) (.inr (by decide)) n
  unfold parts body
  cases w with
  | none =>
    cases z with
    | none =>
      simp only [List.append_nil]
      rw [cut_none (h8 i), cut_none (h4 i)]
      rfl
    | some z =>
      simp only [List.append_nil]
      rw [cut_at _ (h8 i)]
      simp only
      rw [cut_none (h4 i)]
      simp only
      rw [cut_none (c := 44) (l := 100 :: decText z) (by simp [h4 z])]
      rfl
  | some w =>
    cases z with
    | none =>
      simp only [List.append_nil]
      rw [cut_none (c := 58) (by simp [h8 i, h8 w])]
      simp only
      rw [cut_at _ (h4 i)]
      rfl
    | some z =>
      simp only
      rw [cut_at _ (by simp [h8 i, h8 w])]
      simp only
      rw [cut_at _ (h4 i)]
      rfl

theorem int32_small (n : Nat) (h : n < 2 ^ 31) : toInt32 (min INT_MAX (n : Int)) = n := by
  unfold toInt32 INT_MAX
  omega

/-- An argument that is printed exactly. -/
def Arg.Exact : Arg → Prop
  | .int n => n.natAbs < 6755399441055749
  | .text _ => True

theorem out_shown (a : Arg) (h : a.Exact) (z : Option Nat) (hz : z.getD 0 < 2 ^ 31) :
    a.out (opt [100] z) = .ok (shown (z.getD 0) a) := by
  cases a with
  | text t => rfl
  | int n =>
    have hn : n.natAbs < 6755399441055749 := h
    cases z with
    | none =>
      show (Integer.toString 65 n []).getD .ub = _
      rw [toString_exact n hn 65 (by omega)]
      unfold shown padLeft Integer.intText
      by_cases h0 : n < 0 <;> simp [h0]
    | some z =>
      show (Integer.toString 65 n (100 :: decText z)).getD .ub = _
      rw [toString_padded n hn z hz 65 (by omega)]
      simp [shown, padLeft]

theorem item_body (args : List Arg) (h : ∀ a ∈ args, a.Exact) (i : Nat) (w z : Option Nat) (hi : i < 2 ^ 31)
    (hw : w.getD 0 < 2 ^ 31) (hz : z.getD 0 < 2 ^ 31) :
    item args (body i w z) = .ok ((Piece.arg i w z).meaning args) := by
  unfold item
  rw [parts_body]
  simp only
  rw [parse_decimal _ (decText_spec i).1, (decText_spec i).2.1]
  simp only
  rw [int32_small i hi]
  have hpad : toInt32 ((Integer.parse (opt [] w)).getD 0) = ((w.getD 0 : Nat) : Int) := by
    cases w with
    | none => decide
    | some w =>
      show toInt32 ((Integer.parse (decText w)).getD 0) = _
      rw [parse_decimal _ (decText_spec w).1, (decText_spec w).2.1]
      exact int32_small w hw
  rw [hpad, if_pos (by omega), Int.toNat_natCast]
  unfold Piece.meaning
  cases ha : args[i]? with
  | none =>
    simp only [ha]
    rw [written_arg]
  | some a =>
    simp only
    rw [out_shown a (h a (List.mem_of_getElem? ha)) z hz]
    have : ∀ l : Nat, (((w.getD 0 : Nat) : Int) - (l : Int)).toNat = w.getD 0 - l := by intro l; omega
    simp only [Out.map, padLeft, this, ha]

/-- The numbers of a piece are below 2^31. -/
def _root_.Verif.FormatSpec.Piece.Small : Piece → Prop
  | .text _ => True
  | .arg i w z => i < 2 ^ 31 ∧ w.getD 0 < 2 ^ 31 ∧ z.getD 0 < 2 ^ 31

theorem loop_pieces (args : List Arg) (h : ∀ a ∈ args, a.Exact) {tail : Bytes} (ht : (125 : UInt8) ∉ tail) :
    ∀ (ps : List Piece) (k : Nat), (∀ p ∈ ps, p.Plain ∧ p.Small) → (written ps ++ tail).length < k →
      loop args k (written ps ++ tail) = some (.ok (meaning args ps ++ tail))
  | [], k, _, hk => by
    obtain ⟨k, rfl⟩ : ∃ j, k = j + 1 := ⟨k - 1, by omega⟩
    exact loop_tail args k ht
  | .text t :: ps, k, hp, hk => by
    obtain ⟨k, rfl⟩ : ∃ j, k = j + 1 := ⟨k - 1, by omega⟩
    have hw : written (.text t :: ps) ++ tail = t ++ (written ps ++ tail) := by simp [written, Piece.written]
    have hm : meaning args (.text t :: ps) ++ tail = t ++ (meaning args ps ++ tail) := by simp [meaning, Piece.meaning]
    rw [hw] at hk ⊢
    rw [hm, loop_text _ _ _ (hp _ List.mem_cons_self).1,
      loop_pieces args h ht ps (k + 1) (fun p hq => hp p (List.mem_cons_of_mem _ hq)) (by rw [List.length_append] at hk; omega)]
    rfl
  | .arg i w z :: ps, k, hp, hk => by
    obtain ⟨k, rfl⟩ : ∃ j, k = j + 1 := ⟨k - 1, by omega⟩
    have hw : written (.arg i w z :: ps) ++ tail = (123 :: body i w z ++ [125]) ++ (written ps ++ tail) := by
      rw [← written_arg]; simp [written]
    have hm : meaning args (.arg i w z :: ps) ++ tail = (Piece.arg i w z).meaning args ++ (meaning args ps ++ tail) := by
      simp [meaning]
    obtain ⟨h1, h2, h3⟩ := (hp _ List.mem_cons_self).2
    rw [hw] at hk ⊢
    rw [hm, loop_item args k _ (body_close i w z) (item_body args h i w z h1 h2 h3),
      loop_pieces args h ht ps k (fun p hq => hp p (List.mem_cons_of_mem _ hq))
        (by simp only [List.length_append, List.length_cons, List.length_nil] at hk ⊢; omega)]
    rfl

theorem meaning_none (ps : List Piece) : meaning [] ps = written ps := by
  induction ps with
  | nil => rfl
  | cons p ps ih =>
    have : p.meaning [] = p.written := by cases p <;> rfl
    simp only [meaning, written, List.flatMap_cons] at ih ⊢
    rw [this, ih]

/-! ### Definedness -/

theorem out_defined (f : Bytes) : ∀ a : Arg, (∀ n, a = .int n → Integer.IsInt n ∧ n ≠ INT_MIN) → a.out f ≠ .ub
  | .text t, _ => by simp [Arg.out]
  | .int n, h => by
    obtain ⟨hr, hn⟩ := h n rfl
    obtain ⟨r, e⟩ := Integer.toString_terminates n hr f 65 (by omega)
    show (Integer.toString 65 n f).getD .ub ≠ .ub
    rw [e]
    unfold Integer.toString at e
    rw [if_neg hn] at e
    simp only [Option.map_eq_some_iff] at e
    obtain ⟨_, _, e⟩ := e
    rw [← e]
    simp

theorem item_defined (args : List Arg) (h : ∀ n, .int n ∈ args → Integer.IsInt n ∧ n ≠ INT_MIN) (b : Bytes) (hb : b.length < 450) :
    item args b ≠ .ub := by
  unfold item
  have hp : ∀ {i a f}, parts b = some (i, a, f) → i.length ≤ b.length := by
    intro i a f e
    unfold parts at e
    cases h8 : cut 58 b with
    | none =>
      rw [h8] at e
      simp only at e
      cases h4 : cut 44 b with
      | none => rw [h4] at e; cases e; exact Nat.le_refl _
      | some p =>
        rw [h4] at e
        have := cut_some (t := p.1) (r := p.2) h4
        cases e
        rw [this]; simp
    | some q =>
      rw [h8] at e
      have hq := cut_some (t := q.1) (r := q.2) h8
      simp only at e
      cases h4 : cut 44 q.1 with
      | none =>
        rw [h4] at e
        simp only at e
        split at e
        · cases e
        · cases e
          rw [hq]; simp
      | some p =>
        rw [h4] at e
        have := cut_some (t := p.1) (r := p.2) h4
        cases e
        rw [hq, this]; simp
  cases hpp : parts b with
  | none => simp
  | some p =>
    obtain ⟨i, a, f⟩ := p
    have hl := hp hpp
    simp only
    cases Integer.parse i with
    | none =>
      simp only [wrong]
      rw [if_pos (by omega)]
      simp
    | some idx =>
      simp only
      split
      · cases ha : args[(toInt32 idx).toNat]? with
        | none => simp
        | some x =>
          simp only
          have := out_defined f x (fun n e => h n (by rw [← e]; exact List.mem_of_getElem? ha))
          cases hx : x.out f with
          | ok t => simp [Out.map]
          | err => simp [Out.map]
          | ub => exact absurd hx this
      · simp

theorem loop_defined (args : List Arg) (h : ∀ n, .int n ∈ args → Integer.IsInt n ∧ n ≠ INT_MIN) :
    ∀ (k : Nat) (s : Bytes), s.length ≤ 450 → loop args k s ≠ some .ub
  | 0, _, _ => by simp [loop]
  | k + 1, s, hs => by
    unfold loop
    cases h1 : cut 123 s with
    | none => simp
    | some p =>
      obtain ⟨t, r⟩ := p
      simp only
      cases h2 : cut 125 r with
      | none => simp
      | some q =>
        obtain ⟨b, r'⟩ := q
        simp only
        have e1 := cut_some h1
        have e2 := cut_some h2
        rw [e1, e2] at hs
        simp only [List.length_append, List.length_cons] at hs
        have hi := item_defined args h b (by omega)
        cases hx : item args b with
        | ok x =>
          have := loop_defined args h k r' (by omega)
          cases hr : loop args k r' with
          | none => simp
          | some o =>
            rw [hr] at this
            cases o with
            | ok y => simp [Out.map]
            | err => simp [Out.map]
            | ub => exact absurd rfl this
        | err => simp
        | ub => exact absurd hx hi

end Verif.Format
