import Verif.Compiler.LexNumber
/-
Helper lemmas: what the numeral scanner accepts is a numeral, and every numeral is accepted.
-/
namespace Verif.Lex
open Verif Verif.Str

/-! ### Every numeral is accepted -/

theorem head_append_digit {d t : Bytes} (hd : ∀ c ∈ d, Digit c) (a : UInt8) (ha : a < 48 ∨ 57 < a)
    (ht : t.head? ≠ some a) : (d ++ t).head? ≠ some a := by
  cases d with
  | nil => exact ht
  | cons c d =>
    simp
    exact digit_ne (hd c (by simp)) a ha

theorem delim_head {t : Bytes} (h : delim t = true) (a : UInt8) (ha : delim [a] = false) (h33 : a ≠ 33) :
    t.head? ≠ some a := by
  cases t with
  | nil => simp
  | cons c t =>
    simp
    rintro rfl
    simp only [delim, List.head?_nil, Bool.or_eq_false_iff] at ha
    simp only [delim, Bool.or_eq_true] at h
    rcases h with h | h
    · rw [ha.1] at h; exact absurd h (by simp)
    · simp at h; exact h33 h.1

theorem finish_numeral {fuel : Nat} {s v t : Bytes} {m0 m : Num} {s0 : Bytes}
    (h1 : numStart s = .ok (some (m0, s0))) (h2 : numLoop fuel m0 s0 = some (.ok (m, t))) (hv : m.text = v)
    (ht : delim t = true) : numeral fuel s = some (.ok (some (v, t))) := by
  unfold numeral
  rw [h1]
  simp only [h2, Option.map_some, Out.bind_ok, endSymbol_eq, ht, if_true, hv]

theorem accepts (v t : Bytes) (fuel : Nat) (hv : Numeral v) (ht : EndsNumeral v t) (hf : v.length ≤ fuel) :
    numeral fuel (v ++ t) = some (.ok (some (v, t))) := by
  obtain ⟨hd, hdot⟩ := ht
  obtain ⟨k, rfl⟩ : ∃ k, fuel = k + v.length := ⟨fuel - v.length, by omega⟩
  have h120 : t.head? ≠ some 120 := delim_head hd 120 (by decide) (by decide)
  have h88 : t.head? ≠ some 88 := delim_head hd 88 (by decide) (by decide)
  cases hv with
  | dec hn hv =>
    have hg : goes t = false := head_goes_false hd (hdot.resolve_right (not_bin_dec hv))
    have hl := loop_dec v t k hv hn
    rw [if_neg (by simp [hg])] at hl
    cases v with
    | nil => exact absurd rfl hn
    | cons c d =>
      have hd' : ∀ c ∈ d, Digit c := fun x hx => hv x (by simp [hx])
      have hs := numStart_dec c (d ++ t) (.inl (hv c (by simp)))
        (fun _ => ⟨head_append_digit hd' 120 (by decide) h120, head_append_digit hd' 88 (by decide) h88⟩)
      exact finish_numeral hs hl (by simp [Num.text]) hd
  | bin hb =>
    obtain ⟨d, rfl, hn, hb⟩ := hb
    have hv : ∀ c ∈ d, Digit c := by
      intro c hc
      rcases hb c hc with rfl | rfl <;> constructor <;> decide
    have hall : d.all (fun c => c == 48 || c == 49) = true := by
      rw [List.all_eq_true]
      intro c hc
      rcases hb c hc with rfl | rfl <;> rfl
    have hl := loop_dec d (98 :: t) (k + 1) hv hn
    rw [if_pos (goes_of_not_delim (by simp [delim])), hall] at hl
    obtain ⟨i', h⟩ := step_b d [] [] false t
    rw [loop_step h k] at hl
    simp only [Bool.false_eq_true, if_false] at hl
    cases d with
    | nil => exact absurd rfl hn
    | cons c d =>
      have hd' : ∀ c ∈ d, Digit c := fun x hx => hv x (by simp [hx])
      have hs := numStart_dec c (d ++ 98 :: t) (.inl (hv c (by simp)))
        (fun _ => ⟨head_append_digit hd' 120 (by decide) (by simp), head_append_digit hd' 88 (by decide) (by simp)⟩)
      have e : k + (c :: d ++ [98]).length = k + 1 + (c :: d).length := by simp; omega
      rw [e, show c :: d ++ [98] ++ t = c :: (d ++ 98 :: t) by simp]
      exact finish_numeral hs hl (by simp [Num.text]) hd
  | @hex x d hx hn hv =>
    have hg : goes t = false := head_goes_false hd (hdot.resolve_right (not_bin_hex hx))
    have hl := loop_plain t (k + 2) d ⟨0, [48, x], [], [], true, true, false⟩ hn (.inr ⟨rfl, rfl, hv⟩)
    rw [if_neg (by simp [hg]), puts0] at hl
    have e : k + (48 :: x :: d).length = k + 2 + d.length := by simp; omega
    rw [e]
    exact finish_numeral (numStart_hex x (d ++ t) hx) hl (by simp [Num.text]) hd
  | @frac d f h1 h2 =>
    have hg : goes t = false := head_goes_false hd (hdot.resolve_right not_bin_dot)
    cases d with
    | nil =>
      obtain ⟨m, hl, hm⟩ := loop_frac [] f t true k h2 hg
      have ht46 := ((goes_false t).1 hg).2
      have hs := numStart_dec 46 (f ++ t) (.inr ⟨rfl, head_append_digit h2 46 (by decide) ht46⟩) (fun h => absurd h (by decide))
      exact finish_numeral hs hl hm hd
    | cons c d =>
      have hd' : ∀ c ∈ d, Digit c := fun x hx => h1 x (by simp [hx])
      obtain ⟨m, hf', hm⟩ := loop_frac (c :: d) f t ((c :: d).all (fun c => c == 48 || c == 49)) k h2 hg
      have hl := loop_dec (c :: d) (46 :: f ++ t) (k + (46 :: f).length) h1 (by simp)
      rw [if_pos (show goes (46 :: f ++ t) = true from goes_dot _), hf'] at hl
      have hs := numStart_dec c (d ++ (46 :: f ++ t)) (.inl (h1 c (by simp)))
        (fun _ => ⟨head_append_digit hd' 120 (by decide) (by simp), head_append_digit hd' 88 (by decide) (by simp)⟩)
      have e : k + (c :: d ++ 46 :: f).length = k + (46 :: f).length + (c :: d).length := by simp; omega
      rw [e, show c :: d ++ 46 :: f ++ t = c :: (d ++ (46 :: f ++ t)) by simp]
      exact finish_numeral hs hl hm hd
  | @exp d f sg x e h1 hfn h2 he hs hxn hx =>
    have hg : goes t = false := head_goes_false hd (hdot.resolve_right not_bin_dot)
    cases d with
    | nil =>
      obtain ⟨m, hl, hm⟩ := loop_exp [] f sg x t e true k hfn h2 he hs hxn hx hg
      have hs' := numStart_dec 46 (f ++ e :: (sg ++ x) ++ t) (.inr ⟨rfl, by
        rw [List.append_assoc]
        apply head_append_digit h2 46 (by decide)
        rcases he with rfl | rfl <;> simp⟩) (fun h => absurd h (by decide))
      exact finish_numeral hs' hl hm hd
    | cons c d =>
      have hd' : ∀ c ∈ d, Digit c := fun x hx => h1 x (by simp [hx])
      obtain ⟨m, hf', hm⟩ := loop_exp (c :: d) f sg x t e ((c :: d).all (fun c => c == 48 || c == 49)) k hfn h2 he hs
        hxn hx hg
      have hl := loop_dec (c :: d) (46 :: (f ++ e :: (sg ++ x)) ++ t) (k + (46 :: (f ++ e :: (sg ++ x))).length) h1
        (by simp)
      rw [if_pos (show goes (46 :: (f ++ e :: (sg ++ x)) ++ t) = true from goes_dot _), hf'] at hl
      have hs' := numStart_dec c (d ++ (46 :: (f ++ e :: (sg ++ x)) ++ t)) (.inl (h1 c (by simp)))
        (fun _ => ⟨head_append_digit hd' 120 (by decide) (by simp), head_append_digit hd' 88 (by decide) (by simp)⟩)
      have e' : k + (c :: d ++ 46 :: (f ++ e :: (sg ++ x))).length =
        k + (46 :: (f ++ e :: (sg ++ x))).length + (c :: d).length := by simp; omega
      rw [e', show c :: d ++ 46 :: (f ++ e :: (sg ++ x)) ++ t = c :: (d ++ (46 :: (f ++ e :: (sg ++ x)) ++ t)) by simp]
      exact finish_numeral hs' hl hm hd

/-! ### Only numerals are accepted -/

/-- The states of the scan. -/
inductive St : Num → Prop
  | a {d : Bytes} : (∀ c ∈ d, Digit c) → St ⟨0, d, [], [], false, d.all (fun c => c == 48 || c == 49), false⟩
  | h {x : UInt8} {d : Bytes} {i : Bool} : (x = 120 ∨ x = 88) → (∀ c ∈ d, HexDigit c) →
      St ⟨0, 48 :: x :: d, [], [], true, i, false⟩
  | f {d f : Bytes} {i : Bool} : (∀ c ∈ d, Digit c) → (∀ c ∈ f, Digit c) → St ⟨1, d, 46 :: f, [], false, i, true⟩
  | e {d f sg x : Bytes} {e : UInt8} {i : Bool} : (∀ c ∈ d, Digit c) → f ≠ [] → (∀ c ∈ f, Digit c) →
      (e = 101 ∨ e = 69) → (sg = [] ∨ sg = [43] ∨ sg = [45]) → x ≠ [] → (∀ c ∈ x, Digit c) →
      St ⟨2, d, 46 :: f, e :: (sg ++ x), false, i, true⟩

theorem mem_snoc {p : UInt8 → Prop} {d : Bytes} {c : UInt8} (h : ∀ x ∈ d, p x) (hc : p c) : ∀ x ∈ d ++ [c], p x := by
  intro x hx
  rcases List.mem_append.1 hx with hx | hx
  · exact h x hx
  · rw [List.mem_singleton.1 hx]; exact hc

theorem bind_inv {α β : Type} {x : Out α} {f : α → Out β} {b : β} (h : (x >>= f) = .ok b) :
    ∃ a, x = .ok a ∧ f a = .ok b := by
  cases x with
  | ok a => exact ⟨a, rfl, h⟩
  | err => cases h
  | ub => cases h

/-- Inversion of the character part. -/
theorem char_inv {m m' : Num} {c : UInt8} {e : Bool} (h : numChar m c = .ok (m', e)) :
    (Digit c ∧ m' = m.put c ∧ e = false) ∨
    (HexDigit c ∧ m.hexa = true ∧ m' = m.put c ∧ e = false) ∨
    (c = 46 ∧ m.hexa = false ∧ m.part = 0 ∧ e = false ∧
      m' = { { m with part := 1 }.add 46 with float := true, is01 := false }) ∨
    (c = 98 ∧ m.is01 = true ∧ m.part = 0 ∧ e = true ∧ m' = { m.add 98 with is01 := false }) := by
  unfold numChar at h
  by_cases hd : isDec c = true
  · left
    simp only [hd, if_true, Out.bind_ok] at h
    injection h with h
    injection h with h1 h2
    exact ⟨(digit_iff c).1 hd, by rw [← h1]; simp [Num.put, add_is01], h2.symm⟩
  · right
    simp only [hd, Bool.false_eq_true, if_false] at h
    by_cases hh : (((97 ≤ c && c ≤ 102) || (65 ≤ c && c ≤ 70)) && m.hexa) = true
    · left
      simp only [hh, if_true, Out.bind_ok] at h
      injection h with h
      injection h with h1 h2
      simp only [Bool.and_eq_true] at hh
      refine ⟨.inr (by simpa using hh.1), hh.2, by rw [← h1]; simp [Num.put, add_is01], h2.symm⟩
    · right
      simp only [hh, Bool.false_eq_true, if_false] at h
      by_cases h46 : c = 46
      · left
        subst h46
        simp only [if_true] at h
        by_cases hp : (!m.hexa && decide (m.part = 0)) = true
        · simp only [hp, if_true, Out.bind_ok] at h
          injection h with h
          injection h with h1 h2
          simp at hp
          refine ⟨rfl, hp.1, hp.2, h2.symm, ?_⟩
          rw [← h1, hp.2]
          simp
        · simp only [hp, Bool.false_eq_true, if_false] at h
          cases h
      · right
        simp only [h46, if_false] at h
        by_cases h98 : c = 98
        · subst h98
          simp only [if_true] at h
          by_cases hp : (!m.is01 || decide (m.part ≠ 0)) = true
          · simp only [hp, if_true] at h
            cases h
          · simp only [hp, Bool.false_eq_true, if_false, Out.bind_ok] at h
            injection h with h
            injection h with h1 h2
            simp at hp
            refine ⟨rfl, hp.1, hp.2, h2.symm, ?_⟩
            rw [← h1]
            simp
        · simp only [h98, if_false] at h
          cases h

theorem step_nil (m : Num) : numStep m [] = .err := by
  simp [numStep, exponent, numChar, isDec]

/-- One iteration. -/
theorem step_sound {m m' : Num} {s t : Bytes} {b : Bool} (hm : St m) (h : numStep m s = .ok (m', t, b))
    (h0 : m.p0 = [] → m.part = 0 → ∃ c r, s = c :: r ∧ (Digit c ∨ c = 46)) :
    ∃ u, u ≠ [] ∧ s = u ++ t ∧ m'.text = m.text ++ u ∧ Numeral m'.text ∧
      ((b = goes t ∧ St m' ∧ (m'.p0 = [] → m'.part ≠ 0)) ∨ (b = false ∧ Binary m'.text)) := by
  cases s with
  | nil => rw [step_nil] at h; cases h
  | cons c r =>
    by_cases he : (m.float && (c == 101 || c == 69)) = true
    · -- exponent
      have hall := h
      unfold numStep at h
      obtain ⟨⟨m1, s1⟩, hx, h⟩ := bind_inv h
      have hst : ∃ d f i, m = ⟨1, d, 46 :: f, [], false, i, true⟩ ∧ (∀ c ∈ d, Digit c) ∧ (∀ c ∈ f, Digit c) ∧ f ≠ [] := by
        cases hm with
        | a _ => simp at he
        | h _ _ => simp at he
        | @f d f i h1 h2 =>
          refine ⟨d, f, i, rfl, h1, h2, ?_⟩
          rintro rfl
          simp only [exponent, peek_zero, Out.bind_ok, he, if_true] at hx
          simp at hx
        | e _ _ _ _ _ _ _ =>
          simp only [exponent, peek_zero, Out.bind_ok, he, if_true] at hx
          simp at hx
      obtain ⟨d, f, i, rfl, hd, hf, hfn⟩ := hst
      have hc : c = 101 ∨ c = 69 := by simpa using he
      have hlen : 1 < (46 :: f).length := by
        cases f with
        | nil => exact absurd rfl hfn
        | cons a f => simp
      -- sign and digit
      have key : ∃ sg c' r', r = sg ++ c' :: r' ∧ (sg = [] ∨ sg = [43] ∨ sg = [45]) ∧ Digit c' := by
        simp only [exponent, peek_zero, Out.bind_ok, he, if_true, hlen, and_self, adv_one] at hx
        obtain ⟨a, ha, hx⟩ := bind_inv hx
        by_cases hs : (a == 43 || a == 45) = true
        · simp only [hs, if_true] at hx
          obtain ⟨s2, hs2, hx⟩ := bind_inv hx
          injection hx with hx
          injection hx with e1 e2
          subst e1 e2
          cases r with
          | nil =>
            simp at ha
            subst ha
            exact absurd hs (by decide)
          | cons a' r =>
            simp at ha
            subst ha
            simp at hs2
            subst hs2
            obtain ⟨c', hc', h⟩ := bind_inv h
            obtain ⟨⟨m2, e2⟩, hch, h⟩ := bind_inv h
            obtain ⟨s3, hs3, h⟩ := bind_inv h
            rcases char_inv hch with ⟨hdg, -⟩ | ⟨-, hh, -⟩ | ⟨-, -, hp, -⟩ | ⟨-, -, hp, -⟩
            · cases r with
              | nil =>
                simp at hc'
                subst hc'
                exact absurd rfl (digit_ne hdg 0 (by decide))
              | cons c2 r =>
                simp at hc'
                subst hc'
                refine ⟨[a'], c2, r, rfl, ?_, hdg⟩
                simp at hs
                rcases hs with rfl | rfl <;> simp
            · simp [Num.add] at hh
            · simp [Num.add] at hp
            · simp [Num.add] at hp
        · simp only [hs, Bool.false_eq_true, if_false] at hx
          injection hx with hx
          injection hx with e1 e2
          subst e1 e2
          obtain ⟨c', hc', h⟩ := bind_inv h
          obtain ⟨⟨m2, e2⟩, hch, h⟩ := bind_inv h
          rcases char_inv hch with ⟨hdg, -⟩ | ⟨-, hh, -⟩ | ⟨-, -, hp, -⟩ | ⟨-, -, hp, -⟩
          · cases r with
            | nil =>
              simp at hc'
              subst hc'
              exact absurd rfl (digit_ne hdg 0 (by decide))
            | cons c2 r =>
              simp at hc'
              subst hc'
              exact ⟨[], c2, r, rfl, .inl rfl, hdg⟩
          · simp [Num.add] at hh
          · simp [Num.add] at hp
          · simp [Num.add] at hp
      obtain ⟨sg, c', r', rfl, hsg, hdg⟩ := key
      obtain ⟨i', hst⟩ := step_exp d (46 :: f) [] false i c hc sg hsg c' hdg r' hlen
      have h2 : numStep ⟨1, d, 46 :: f, [], false, i, true⟩ (c :: (sg ++ c' :: r')) = .ok (m', t, b) := by
        exact hall
      rw [hst] at h2
      injection h2 with h2
      injection h2 with e1 e2
      injection e2 with e2 e3
      subst e1 e2 e3
      refine ⟨c :: (sg ++ [c']), by simp, by simp, by simp [Num.text], ?_, .inl ⟨rfl, ?_, by simp⟩⟩
      · have := Numeral.exp (x := [c']) hd hfn hf hc hsg (by simp) (by simpa using hdg)
        simpa [Num.text] using this
      · exact St.e (x := [c']) hd hfn hf hc hsg (by simp) (by simpa using hdg)
    · rw [step_plain m c r (by simpa using he)] at h
      obtain ⟨⟨m2, e2⟩, hch, h⟩ := bind_inv h
      injection h with h
      injection h with e1 h
      injection h with e3 e4
      subst e1 e3 e4
      rcases char_inv hch with ⟨hdg, rfl, rfl⟩ | ⟨hhx, hh, rfl, rfl⟩ | ⟨rfl, hh, hp, rfl, rfl⟩ | ⟨rfl, h01, hp, rfl, rfl⟩
      · -- digit
        refine ⟨[c], by simp, by simp, ?_, ?_, .inl ⟨by simp, ?_, ?_⟩⟩
        · cases hm <;> simp [Num.put, Num.add, Num.text]
        · cases hm with
          | a hd => simpa [Num.put, Num.add, Num.text] using Numeral.dec (by simp) (mem_snoc hd hdg)
          | @h x d i hx hd =>
            simpa [Num.put, Num.add, Num.text] using Numeral.hex (d := d ++ [c]) hx (by simp) (mem_snoc hd (.inl hdg))
          | @f d f i hd hf =>
            simpa [Num.put, Num.add, Num.text] using Numeral.frac (f := f ++ [c]) hd (mem_snoc hf hdg)
          | @e d f sg x e i hd hfn hf he' hs hxn hx =>
            simpa [Num.put, Num.add, Num.text] using
              Numeral.exp (x := x ++ [c]) hd hfn hf he' hs (by simp) (mem_snoc hx hdg)
        · cases hm with
          | @a d hd =>
            have := St.a (mem_snoc hd hdg)
            simpa [Num.put, Num.add] using this
          | @h x d i hx hd =>
            simpa [Num.put, Num.add] using St.h (d := d ++ [c]) hx (mem_snoc hd (.inl hdg))
          | @f d f i hd hf =>
            simpa [Num.put, Num.add] using St.f (f := f ++ [c]) hd (mem_snoc hf hdg)
          | @e d f sg x e i hd hfn hf he' hs hxn hx =>
            simpa [Num.put, Num.add] using St.e (x := x ++ [c]) hd hfn hf he' hs (by simp) (mem_snoc hx hdg)
        · cases hm <;> simp [Num.put, Num.add]
      · -- hexadecimal digit
        cases hm with
        | a hd => simp at hh
        | @h x d i hx hd =>
          refine ⟨[c], by simp, by simp, by simp [Num.put, Num.add, Num.text], ?_, .inl ⟨by simp, ?_, by simp [Num.put, Num.add]⟩⟩
          · simpa [Num.put, Num.add, Num.text] using Numeral.hex (d := d ++ [c]) hx (by simp) (mem_snoc hd hhx)
          · simpa [Num.put, Num.add] using St.h (d := d ++ [c]) hx (mem_snoc hd hhx)
        | f _ _ => simp at hh
        | e _ _ _ _ _ _ _ => simp at hh
      · -- dot
        cases hm with
        | @a d hd =>
          refine ⟨[46], by simp, by simp, by simp [Num.add, Num.text], ?_, .inl ⟨by simp, ?_, by simp [Num.add]⟩⟩
          · simpa [Num.add, Num.text] using Numeral.frac (f := []) hd (by simp)
          · simpa [Num.add] using St.f (f := []) (i := false) hd (by simp)
        | h _ _ => simp at hh
        | f _ _ => simp at hp
        | e _ _ _ _ _ _ _ => simp at hp
      · -- closing b
        cases hm with
        | @a d hd =>
          have hdn : d ≠ [] := by
            rintro rfl
            obtain ⟨c, r', e, hc⟩ := h0 rfl rfl
            injection e with e _
            subst e
            rcases hc with hc | hc
            · exact digit_ne hc 98 (by decide) rfl
            · exact absurd hc (by decide)
          have hb : Binary (d ++ [98]) := by
            refine ⟨d, rfl, hdn, ?_⟩
            simp only [List.all_eq_true] at h01
            intro c hc
            simpa using h01 c hc
          refine ⟨[98], by simp, by simp, by simp [Num.add, Num.text], ?_, .inr ⟨by simp, ?_⟩⟩
          · simpa [Num.add, Num.text] using Numeral.bin hb
          · simpa [Num.add, Num.text] using hb
        | @h x d i hx hd =>
          exfalso
          have := char_hex ⟨0, 48 :: x :: d, [], [], true, i, false⟩ 98 (.inr (.inl (by constructor <;> decide))) rfl
          rw [this] at hch
          injection hch with hch
          injection hch with _ h
          cases h
        | f _ _ => simp at hp
        | e _ _ _ _ _ _ _ => simp at hp

theorem loop_sound : ∀ (fuel : Nat) (m m' : Num) (s t : Bytes), St m → numLoop fuel m s = some (.ok (m', t)) →
    (m.p0 = [] → m.part = 0 → ∃ c r, s = c :: r ∧ (Digit c ∨ c = 46)) →
    ∃ u, s = u ++ t ∧ m'.text = m.text ++ u ∧ Numeral m'.text ∧ (goes t = false ∨ Binary m'.text)
  | 0, _, _, _, _, _, h, _ => by simp [numLoop] at h
  | fuel + 1, m, m', s, t, hm, h, h0 => by
    rw [numLoop] at h
    split at h
    · rename_i m1 s1 hs
      obtain ⟨u, -, rfl, h2, -, h4⟩ := step_sound hm hs h0
      rcases h4 with ⟨-, hst, hne⟩ | ⟨h4, -⟩
      · obtain ⟨u', rfl, h5, h6, h7⟩ := loop_sound fuel m1 m' s1 t hst h (fun a b => absurd b (hne a))
        exact ⟨u ++ u', by simp, by rw [h5, h2]; simp, h6, h7⟩
      · cases h4
    · rename_i m1 s1 hs
      injection h with h
      injection h with h
      injection h with e1 e2
      subst e1 e2
      obtain ⟨u, -, rfl, h2, h3, h4⟩ := step_sound hm hs h0
      refine ⟨u, rfl, h2, h3, ?_⟩
      rcases h4 with ⟨h4, -⟩ | ⟨-, h4⟩
      · exact .inl h4.symm
      · exact .inr h4
    · cases h
    · cases h

theorem numStart_inv {s : Bytes} {m : Num} {t : Bytes} (h : numStart s = .ok (some (m, t))) :
    St m ∧ s = m.text ++ t ∧ (m.p0 = [] → m.part = 0 → ∃ c r, t = c :: r ∧ (Digit c ∨ c = 46)) := by
  unfold numStart at h
  obtain ⟨k, hk, h⟩ := bind_inv h
  split at h
  · cases h
  obtain ⟨c, hc, h⟩ := bind_inv h
  obtain ⟨⟨m1, s1⟩, h1, h⟩ := bind_inv h
  obtain ⟨c2, hc2, h⟩ := bind_inv h
  have hmt : m1 = m ∧ s1 = t ∧ (isDec c2 || m1.hexa || c2 == 46) = true := by
    split at h
    · rename_i hcond
      injection h with h
      injection h with h
      injection h with e1 e2
      exact ⟨e1, e2, hcond⟩
    · cases h
  obtain ⟨rfl, rfl, hcond⟩ := hmt
  have hstart : m1 = start ∧ s1 = s ∨ ∃ x, (x = 120 ∨ x = 88) ∧ s = 48 :: x :: s1 ∧ m1 = ⟨0, [48, x], [], [], true, true, false⟩ := by
    split at h1
    · rename_i e
      subst e
      obtain ⟨d, hd, h1⟩ := bind_inv h1
      split at h1
      · rename_i hx
        right
        obtain ⟨s2, hs2, h1⟩ := bind_inv h1
        injection h1 with h1
        injection h1 with e1 e2
        match s, hc, hd with
        | [], hc, _ => simp at hc
        | [a], hc, hd =>
          simp at hd
          subst hd
          exact absurd hx (by decide)
        | a :: b :: s, hc, hd =>
          simp at hc hd
          subst hc hd
          simp at hs2
          subst hs2 e2
          refine ⟨b, ?_, rfl, by rw [← e1]; simp [Num.add]⟩
          simp at hx
          exact hx.symm
      · left
        injection h1 with h1
        injection h1 with e1 e2
        exact ⟨e1.symm, e2.symm⟩
    · left
      injection h1 with h1
      injection h1 with e1 e2
      exact ⟨e1.symm, e2.symm⟩
  rcases hstart with ⟨rfl, rfl⟩ | ⟨x, hx, rfl, rfl⟩
  · refine ⟨St.a (d := []) (by simp), by simp [start, Num.text], fun _ _ => ?_⟩
    have hcond' : Digit c2 ∨ c2 = 46 := by
      simp [start] at hcond
      rcases hcond with h | h
      · exact .inl ((digit_iff c2).1 h)
      · exact .inr h
    cases s1 with
    | nil =>
      simp at hc2
      subst hc2
      rcases hcond' with h | h
      · exact absurd rfl (digit_ne h 0 (by decide))
      · exact absurd h (by decide)
    | cons a r =>
      simp at hc2
      subst hc2
      exact ⟨a, r, rfl, hcond'⟩
  · exact ⟨St.h (d := []) hx (by simp), by simp [Num.text], by simp⟩

theorem sound (fuel : Nat) (s v t : Bytes) (h : numeral fuel s = some (.ok (some (v, t)))) :
    s = v ++ t ∧ Numeral v ∧ EndsNumeral v t := by
  unfold numeral at h
  split at h
  · cases h
  · rename_i m s0 hs
    obtain ⟨h1, h2, h3⟩ := numStart_inv hs
    cases hl : numLoop fuel m s0 with
    | none => rw [hl] at h; cases h
    | some r =>
      rw [hl] at h
      simp only [Option.map_some, Option.some.injEq] at h
      obtain ⟨⟨m', t'⟩, e, h⟩ := bind_inv h
      subst e
      simp only [endSymbol_eq] at h
      simp only [Out.bind_ok] at h
      split at h
      · rename_i hd
        injection h with h
        injection h with h
        injection h with e1 e2
        subst e1 e2
        obtain ⟨u, rfl, h5, h6, h7⟩ := loop_sound fuel m m' s0 t' h1 hl h3
        refine ⟨by rw [h2, h5]; simp, h6, hd, ?_⟩
        rcases h7 with h7 | h7
        · exact .inl ((goes_false t').1 h7).2
        · exact .inr h7
      · cases h
  · cases h
  · cases h

/-! ### Termination and memory safety -/

theorem exponent_safe (m : Num) (s : Bytes) : exponent m s = .err ∨ ∃ m' t, exponent m s = .ok (m', t) ∧ t <:+ s := by
  unfold exponent
  cases s with
  | nil => exact .inr ⟨m, [], by simp, List.suffix_refl _⟩
  | cons c s =>
    simp only [peek_zero, Out.bind_ok, adv_one]
    split
    · split
      · cases s with
        | nil => exact .inr ⟨_, [], by simp; rfl, by simp⟩
        | cons d s =>
          simp only [peek_zero, Out.bind_ok, adv_one]
          split
          · exact .inr ⟨_, s, rfl, ⟨[c, d], rfl⟩⟩
          · exact .inr ⟨_, _, rfl, List.suffix_cons _ _⟩
      · exact .inl rfl
    · exact .inr ⟨_, _, rfl, List.suffix_refl _⟩

theorem numChar_safe (m : Num) (c : UInt8) : numChar m c = .err ∨ ∃ p, numChar m c = .ok p := by
  unfold numChar
  split
  · exact .inr ⟨_, rfl⟩
  · split
    · exact .inr ⟨_, rfl⟩
    · split
      · split
        · exact .inr ⟨_, rfl⟩
        · exact .inl rfl
      · split
        · split
          · exact .inl rfl
          · exact .inr ⟨_, rfl⟩
        · exact .inl rfl

theorem numChar_zero (m : Num) : numChar m 0 = .err := by simp [numChar, isDec]

theorem step_safe (m : Num) (s : Bytes) : numStep m s = .err ∨
    ∃ m' t b, numStep m s = .ok (m', t, b) ∧ t.length < s.length := by
  unfold numStep
  rcases exponent_safe m s with h | ⟨m1, s1, h, hs⟩
  · rw [h]; exact .inl rfl
  · rw [h]
    have hl := hs.length_le
    simp only [Out.bind_ok]
    cases s1 with
    | nil => left; simp [numChar_zero]
    | cons c t =>
      simp only [peek_zero, Out.bind_ok]
      rcases numChar_safe m1 c with h | ⟨⟨m2, e⟩, h⟩
      · rw [h]; exact .inl rfl
      · right
        rw [h]
        simp only [Out.bind_ok, adv_one]
        simp at hl
        cases e with
        | true => exact ⟨m2, t, false, by simp, by omega⟩
        | false =>
          have := flag_eq t
          rw [endSymbol_eq] at this ⊢
          cases hp : peek t 0 with
          | err => rw [hp] at this; simp at this
          | ub => rw [hp] at this; simp at this
          | ok d => exact ⟨m2, t, _, by simp; rfl, by omega⟩

theorem loop_safe : ∀ (fuel : Nat) (m : Num) (s : Bytes), s.length < fuel →
    numLoop fuel m s = some .err ∨ ∃ m' t, numLoop fuel m s = some (.ok (m', t)) ∧ t.length ≤ s.length
  | 0, _, _, h => absurd h (Nat.not_lt_zero _)
  | fuel + 1, m, s, h => by
    rw [numLoop]
    rcases step_safe m s with hs | ⟨m', t, b, hs, hl⟩
    · rw [hs]; exact .inl rfl
    · rw [hs]
      cases b with
      | false => exact .inr ⟨m', t, rfl, by omega⟩
      | true =>
        rcases loop_safe fuel m' t (by omega) with h | ⟨m2, t2, h, h2⟩
        · exact .inl h
        · exact .inr ⟨m2, t2, h, by omega⟩

theorem peek_ok (s : Bytes) : ∃ c, peek s 0 = .ok c := by
  cases s with
  | nil => exact ⟨0, rfl⟩
  | cons c s => exact ⟨c, rfl⟩

theorem numStart_safe (s : Bytes) : ∃ o, numStart s = .ok o ∧ ∀ m t, o = some (m, t) → t.length ≤ s.length := by
  obtain ⟨k, hk⟩ := isKeyword_ok s
  unfold numStart
  rw [hk]
  simp only [Out.bind_ok]
  split
  · exact ⟨_, rfl, by simp⟩
  cases s with
  | nil => exact ⟨none, by simp [isDec], by simp⟩
  | cons c s =>
    simp only [peek_zero, Out.bind_ok]
    have tail : ∀ (m : Num) (t : Bytes), t.length ≤ (c :: s).length →
        ∃ o, (do let c ← peek t 0; if (isDec c || m.hexa || c == 46) = true then Out.ok (some (m, t)) else .ok none) = Out.ok o ∧
          ∀ m' t', o = some (m', t') → t'.length ≤ (c :: s).length := by
      intro m t ht
      obtain ⟨d, hd⟩ := peek_ok t
      rw [hd]
      simp only [Out.bind_ok]
      split
      · exact ⟨_, rfl, by rintro m' t' ⟨⟩; exact ht⟩
      · exact ⟨_, rfl, by simp⟩
    split
    · cases s with
      | nil =>
        simp only [peek_one_nil, Out.bind_ok]
        exact tail _ _ (Nat.le_refl _)
      | cons d s =>
        simp only [peek_one, Out.bind_ok]
        split
        · simp only [adv_two, Out.bind_ok]
          exact tail _ _ (by simp; omega)
        · exact tail _ _ (Nat.le_refl _)
    · exact tail _ _ (Nat.le_refl _)

theorem numeral_safe (fuel : Nat) (s : Bytes) (h : s.length < fuel) :
    numeral fuel s = some .err ∨ ∃ o, numeral fuel s = some (.ok o) := by
  unfold numeral
  obtain ⟨o, ho, hl⟩ := numStart_safe s
  rw [ho]
  cases o with
  | none => exact .inr ⟨none, rfl⟩
  | some p =>
    obtain ⟨m, t⟩ := p
    have := hl m t rfl
    rcases loop_safe fuel m t (by omega) with h | ⟨m', t', h, -⟩
    · simp only [h]; exact .inl rfl
    · simp only [h, Option.map_some, Out.bind_ok, endSymbol_eq]
      right
      split
      · exact ⟨_, rfl⟩
      · exact ⟨_, rfl⟩

end Verif.Lex
