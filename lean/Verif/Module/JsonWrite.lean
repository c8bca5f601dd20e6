import Verif.Module.JsonAccept
/-
The writer gives JSON for plain values, and what the reader makes of it.
-/
namespace Verif.Json
open Verif.Str (Bytes unescapeChars)

/-! ### The values in question -/

/-- A string that needs no escape in JSON. -/
def PlainStr (s : Bytes) : Prop := ∀ c ∈ s, 32 ≤ c ∧ c ≠ 34 ∧ c ≠ 92

/-- Nothing of this group of fields is written. -/
def Silent {F : Type} (l : List (Bytes × V F)) : Prop := ∀ p ∈ l, p.2 = .fn

mutual
/-- Strings and names need no escape, the texts of the numbers are JSON numbers, no function in an array, and only one
of the two groups of fields of an object is written. -/
def Plain {F : Type} (N : Num F) : V F → Prop
  | .undef => True
  | .null => True
  | .bool _ => True
  | .int i => IsNumber (N.intText i)
  | .float f => IsNumber (N.fltText f)
  | .str s => PlainStr s
  | .fn => False
  | .arr l => PlainL N l
  | .obj fs bs => PlainF N fs ∧ PlainF N bs ∧ (Silent fs ∨ Silent bs)
def PlainL {F : Type} (N : Num F) : List (V F) → Prop
  | [] => True
  | v :: l => Plain N v ∧ PlainL N l
def PlainF {F : Type} (N : Num F) : List (Bytes × V F) → Prop
  | [] => True
  | (_, .fn) :: l => PlainF N l
  | (x, v) :: l => PlainStr x ∧ Plain N v ∧ PlainF N l
end

mutual
/-- The JSON value that is meant. -/
def jv {F : Type} (N : Num F) : V F → JVal
  | .undef => .null
  | .null => .null
  | .bool b => .bool b
  | .int i => .num (N.intText i)
  | .float f => .num (N.fltText f)
  | .str s => .str s
  | .fn => .null
  | .arr l => .arr (jvs N l)
  | .obj fs bs => .obj (jms N fs ++ jms N bs)
def jvs {F : Type} (N : Num F) : List (V F) → List JVal
  | [] => []
  | v :: l => jv N v :: jvs N l
def jms {F : Type} (N : Num F) : List (Bytes × V F) → List (Bytes × JVal)
  | [] => []
  | (_, .fn) :: l => jms N l
  | (x, v) :: l => (x, jv N v) :: jms N l
end

theorem plainF_cons {F : Type} {N : Num F} {x : Bytes} {v : V F} {l : List (Bytes × V F)} (h : v ≠ .fn) :
    PlainF N ((x, v) :: l) = (PlainStr x ∧ Plain N v ∧ PlainF N l) := by
  cases v <;> first | exact absurd rfl h | rw [PlainF]; simp

theorem jms_cons {F : Type} {N : Num F} {x : Bytes} {v : V F} {l : List (Bytes × V F)} (h : v ≠ .fn) :
    jms N ((x, v) :: l) = (x, jv N v) :: jms N l := by
  cases v <;> first | exact absurd rfl h | rw [jms]; simp

theorem writeFields_cons {F : Type} {N : Num F} {fmt strict : Bool} {ind k : Nat} {x : Bytes} {v : V F}
    {l : List (Bytes × V F)} (h : v ≠ .fn) :
    writeFields N fmt strict ind k ((x, v) :: l) =
      newline fmt (ind + 1) ++ ((if 0 < k then [44] else []) ++ (34 :: (x ++ 34 :: 58 ::
        (write N fmt strict (ind + 1) v ++ writeFields N fmt strict ind (k + 1) l)))) := by
  cases v <;> first | exact absurd rfl h | rw [writeFields]; simp

theorem silent_write {F : Type} {N : Num F} {fmt strict : Bool} {ind : Nat} :
    ∀ {l : List (Bytes × V F)} (_ : Silent l) (k : Nat), writeFields N fmt strict ind k l = [] ∧ jms N l = []
  | [], _, _ => ⟨by rw [writeFields], by rw [jms]⟩
  | (x, v) :: l, h, k => by
    have hv : v = .fn := h (x, v) (by simp)
    subst hv
    rw [writeFields, jms]
    exact silent_write (l := l) (fun p hp => h p (by simp [hp])) k

theorem ws_newline (fmt : Bool) (n : Nat) : Ws (newline fmt n) := by
  intro c hc
  unfold newline at hc
  cases fmt with
  | false => simp at hc
  | true =>
    simp only [if_true, List.mem_cons, List.mem_replicate] at hc
    rcases hc with h | ⟨_, h⟩
    · exact Or.inr (Or.inr (Or.inl h))
    · exact Or.inr (Or.inl h)

theorem ws_nil : Ws [] := by intro c hc; cases hc

theorem chars_plain : ∀ {s : Bytes}, PlainStr s → Chars s s
  | [], _ => .nil
  | c :: s, h => by
    obtain ⟨h1, h2, h3⟩ := h c (by simp)
    exact .plain h1 h2 h3 (chars_plain fun x hx => h x (by simp [hx]))


mutual
theorem write_value {F : Type} (N : Num F) (fmt : Bool) : ∀ (v : V F) (ind : Nat), Plain N v →
    Value (write N fmt true ind v) (jv N v)
  | .undef, ind, _ => by rw [write, jv]; exact .null
  | .null, ind, _ => by rw [write, jv]; exact .null
  | .bool b, ind, _ => by
    rw [write, jv]
    cases b
    · exact .fls
    · exact .tru
  | .int i, ind, h => by rw [write, jv]; rw [Plain] at h; exact .num h
  | .float f, ind, h => by rw [write, jv]; rw [Plain] at h; exact .num h
  | .str s, ind, h => by rw [write, jv]; rw [Plain] at h; exact .str (chars_plain h)
  | .fn, ind, h => by rw [Plain] at h; exact h.elim
  | .arr l, ind, h => by
    rw [write, jv]
    rw [Plain] at h
    cases l with
    | nil => rw [writeElems, jvs]; exact .arr0 (w := []) ws_nil
    | cons v r =>
      refine .arr ?_
      rw [writeElems, if_neg (by decide), List.nil_append, jvs]
      rw [PlainL] at h
      exact write_elems N fmt r v ind 0 (write_value N fmt v ind h.1) h.2
  | .obj fs bs, ind, h => by
    rw [write, jv]
    rw [Plain] at h
    obtain ⟨h1, h2, h3⟩ := h
    have one : ∀ l, (Members (writeFields N fmt true ind 0 l ++ newline fmt ind) (jms N l) ∨
        (writeFields N fmt true ind 0 l = [] ∧ jms N l = [])) →
        Value (123 :: (writeFields N fmt true ind 0 l ++ (newline fmt ind ++ [125]))) (.obj (jms N l)) := by
      intro l hl
      rcases hl with hl | ⟨e1, e2⟩
      · rw [← List.append_assoc]; exact .obj hl
      · rw [e1, e2]; exact .obj0 (ws_newline _ _)
    rcases h3 with hs | hs
    · obtain ⟨e1, e2⟩ := silent_write (N := N) (fmt := fmt) (strict := true) (ind := ind) hs 0
      rw [e1, e2, List.nil_append, List.nil_append]
      exact one bs (write_members N fmt bs ind h2)
    · obtain ⟨e1, e2⟩ := silent_write (N := N) (fmt := fmt) (strict := true) (ind := ind) hs 0
      rw [e1, e2, List.nil_append, List.append_nil]
      exact one fs (write_members N fmt fs ind h1)

/-- The elements after one that is JSON. -/
theorem write_elems {F : Type} (N : Num F) (fmt : Bool) : ∀ (l : List (V F)) (v : V F) (ind k : Nat),
    Value (write N fmt true ind v) (jv N v) → PlainL N l →
    Elems (write N fmt true ind v ++ writeElems N fmt true ind (k + 1) l) (jv N v :: jvs N l)
  | [], v, ind, k, hv, _ => by
    rw [writeElems, jvs]
    exact .one (a := []) (b := []) ws_nil hv ws_nil
  | u :: l, v, ind, k, hv, h => by
    rw [PlainL] at h
    rw [writeElems, jvs, if_pos (by omega)]
    exact .more (a := []) (b := []) ws_nil hv ws_nil
      (write_elems N fmt l u ind (k + 1) (write_value N fmt u ind h.1) h.2)

/-- One group of fields, up to the bracket: members, or nothing. -/
theorem write_members {F : Type} (N : Num F) (fmt : Bool) : ∀ (l : List (Bytes × V F)) (ind : Nat), PlainF N l →
    Members (writeFields N fmt true ind 0 l ++ newline fmt ind) (jms N l) ∨
      (writeFields N fmt true ind 0 l = [] ∧ jms N l = [])
  | [], ind, _ => Or.inr ⟨by rw [writeFields], by rw [jms]⟩
  | (x, v) :: l, ind, h => by
    by_cases hv : v = .fn
    · subst hv
      rw [writeFields, jms]
      rw [PlainF] at h
      exact write_members N fmt l ind h
    · rw [plainF_cons hv] at h
      rw [writeFields_cons hv, jms_cons hv, if_neg (by decide), List.nil_append]
      refine Or.inl ?_
      have := write_rest N fmt l x v ind 0 (newline fmt (ind + 1)) (ws_newline _ _) (chars_plain h.1)
        (write_value N fmt v (ind + 1) h.2.1) h.2.2
      simpa using this

/-- The members after one that is JSON. -/
theorem write_rest {F : Type} (N : Num F) (fmt : Bool) : ∀ (l : List (Bytes × V F)) (x : Bytes) (v : V F) (ind k : Nat)
    (a : Bytes), Ws a → Chars x x → Value (write N fmt true (ind + 1) v) (jv N v) → PlainF N l →
    Members (a ++ 34 :: (x ++ 34 :: ([] ++ 58 :: ([] ++ (write N fmt true (ind + 1) v ++
      (writeFields N fmt true ind (k + 1) l ++ newline fmt ind)))))) ((x, jv N v) :: jms N l)
  | [], x, v, ind, k, a, ha, hx, hv, _ => by
    rw [writeFields, jms, List.nil_append (newline fmt ind)]
    exact .one ha hx ws_nil ws_nil hv (ws_newline _ _)
  | (y, u) :: l, x, v, ind, k, a, ha, hx, hv, h => by
    by_cases hu : u = .fn
    · subst hu
      rw [writeFields, jms]
      rw [PlainF] at h
      exact write_rest N fmt l x v ind k a ha hx hv h
    · rw [plainF_cons hu] at h
      rw [writeFields_cons hu, jms_cons hu, if_pos (by omega)]
      have ih := write_rest N fmt l y u ind (k + 1) [] ws_nil (chars_plain h.1)
        (write_value N fmt u (ind + 1) h.2.1) h.2.2
      have := Members.more ha hx ws_nil ws_nil hv (ws_newline fmt (ind + 1)) ih
      simpa using this
end

/-! ### No backslash, no carriage return -/

theorem easy_plain {s : Bytes} (h : PlainStr s) : Easy s := by
  intro c hc
  obtain ⟨h1, _, h3⟩ := h c hc
  exact ⟨h3, by rintro rfl; exact absurd h1 (by decide)⟩

theorem easy_number {t : Bytes} (h : IsNumber t) : Easy t := by
  obtain ⟨_, _, _, _, hall⟩ := number_chars h
  intro c hc
  have := hall c hc
  constructor
  · rintro rfl; revert this; decide
  · rintro rfl; revert this; decide

theorem easy_newline (fmt : Bool) (n : Nat) : Easy (newline fmt n) := by
  intro c hc
  unfold newline at hc
  cases fmt with
  | false => simp at hc
  | true =>
    simp only [if_true, List.mem_cons, List.mem_replicate] at hc
    rcases hc with rfl | ⟨_, rfl⟩ <;> decide

theorem easy_nil : Easy [] := by intro c hc; cases hc

theorem easy_comma (k : Nat) : Easy (if 0 < k then [44] else []) := by
  split
  · intro c hc; simp at hc; subst hc; decide
  · exact easy_nil

mutual
theorem write_easy {F : Type} (N : Num F) (fmt : Bool) : ∀ (v : V F) (ind : Nat), Plain N v → Easy (write N fmt true ind v)
  | .undef, ind, _ => by rw [write]; intro c hc; revert c; decide
  | .null, ind, _ => by rw [write]; intro c hc; revert c; decide
  | .bool b, ind, _ => by rw [write]; cases b <;> (intro c hc; revert c; decide)
  | .int i, ind, h => by rw [write]; rw [Plain] at h; exact easy_number h
  | .float f, ind, h => by rw [write]; rw [Plain] at h; exact easy_number h
  | .str s, ind, h => by
    rw [write]; rw [Plain] at h
    exact easy_cons.mpr ⟨by decide, easy_append.mpr ⟨easy_plain h, easy_cons.mpr ⟨by decide, easy_nil⟩⟩⟩
  | .fn, ind, h => by rw [Plain] at h; exact h.elim
  | .arr l, ind, h => by
    rw [write]; rw [Plain] at h
    exact easy_cons.mpr ⟨by decide, easy_append.mpr ⟨elems_easy N fmt l ind 0 h, easy_cons.mpr ⟨by decide, easy_nil⟩⟩⟩
  | .obj fs bs, ind, h => by
    rw [write]; rw [Plain] at h
    exact easy_cons.mpr ⟨by decide, easy_append.mpr ⟨fields_easy N fmt fs ind 0 h.1, easy_append.mpr
      ⟨fields_easy N fmt bs ind 0 h.2.1, easy_append.mpr ⟨easy_newline _ _, easy_cons.mpr ⟨by decide, easy_nil⟩⟩⟩⟩⟩
theorem elems_easy {F : Type} (N : Num F) (fmt : Bool) : ∀ (l : List (V F)) (ind k : Nat), PlainL N l →
    Easy (writeElems N fmt true ind k l)
  | [], ind, k, _ => by rw [writeElems]; exact easy_nil
  | v :: l, ind, k, h => by
    rw [writeElems]; rw [PlainL] at h
    exact easy_append.mpr ⟨easy_comma k, easy_append.mpr ⟨write_easy N fmt v ind h.1, elems_easy N fmt l ind (k + 1) h.2⟩⟩
theorem fields_easy {F : Type} (N : Num F) (fmt : Bool) : ∀ (l : List (Bytes × V F)) (ind k : Nat), PlainF N l →
    Easy (writeFields N fmt true ind k l)
  | [], ind, k, _ => by rw [writeFields]; exact easy_nil
  | (x, v) :: l, ind, k, h => by
    by_cases hv : v = .fn
    · subst hv
      rw [writeFields]; rw [PlainF] at h
      exact fields_easy N fmt l ind k h
    · rw [plainF_cons hv] at h
      rw [writeFields_cons hv]
      exact easy_append.mpr ⟨easy_newline _ _, easy_append.mpr ⟨easy_comma k, easy_cons.mpr ⟨by decide,
        easy_append.mpr ⟨easy_plain h.1, easy_cons.mpr ⟨by decide, easy_cons.mpr ⟨by decide,
          easy_append.mpr ⟨write_easy N fmt v (ind + 1) h.2.1, fields_easy N fmt l ind (k + 1) h.2.2⟩⟩⟩⟩⟩⟩⟩
end

/-! ### Values that are read back as they were -/

mutual
/-- No `null`, no integer, no function; every float is read back; the fields of an object have distinct names and were
added by the script. -/
def Exact {F : Type} (N : Num F) : V F → Prop
  | .undef => True
  | .bool _ => True
  | .float f => N.parse (N.fltText f) = some f
  | .str _ => True
  | .arr l => ExactL N l
  | .obj fs bs => ExactF N fs ∧ (fs.map Prod.fst).Nodup ∧ bs = []
  | .null => False
  | .int _ => False
  | .fn => False
def ExactL {F : Type} (N : Num F) : List (V F) → Prop
  | [] => True
  | v :: l => Exact N v ∧ ExactL N l
def ExactF {F : Type} (N : Num F) : List (Bytes × V F) → Prop
  | [] => True
  | (_, v) :: l => Exact N v ∧ ExactF N l
end

theorem exact_ne {F : Type} {N : Num F} {v : V F} (h : Exact N v) : v ≠ .fn := by
  rintro rfl; rw [Exact] at h; exact h

theorem assign_new {F : Type} {k : Bytes} {v : V F} : ∀ {acc : List (Bytes × V F)}, k ∉ acc.map Prod.fst →
    assign k v acc = acc ++ [(k, v)]
  | [], _ => rfl
  | (k', v') :: r, h => by
    simp only [List.map_cons, List.mem_cons, not_or] at h
    rw [assign, if_neg (fun e => h.1 e.symm), assign_new h.2]
    rfl

mutual
theorem exact_back {F : Type} (N : Num F) : ∀ (v : V F), Exact N v → toV N (jv N v) = v
  | .undef, _ => by rw [jv, toV]
  | .null, h => by rw [Exact] at h; exact h.elim
  | .bool b, _ => by rw [jv, toV]
  | .int i, h => by rw [Exact] at h; exact h.elim
  | .float f, h => by rw [Exact] at h; rw [jv, toV, h]
  | .str s, _ => by rw [jv, toV]
  | .fn, h => by rw [Exact] at h; exact h.elim
  | .arr l, h => by rw [Exact] at h; rw [jv, toV, exact_backL N l h]
  | .obj fs bs, h => by
    rw [Exact] at h
    obtain ⟨h1, h2, rfl⟩ := h
    rw [jv, toV]
    have : jms N ([] : List (Bytes × V F)) = [] := by rw [jms]
    rw [this, List.append_nil, exact_backF N fs [] h1 (by simpa using h2), List.nil_append]
theorem exact_backL {F : Type} (N : Num F) : ∀ (l : List (V F)), ExactL N l → toVs N (jvs N l) = l
  | [], _ => by rw [jvs, toVs]
  | v :: l, h => by rw [ExactL] at h; rw [jvs, toVs, exact_back N v h.1, exact_backL N l h.2]
theorem exact_backF {F : Type} (N : Num F) : ∀ (l acc : List (Bytes × V F)), ExactF N l →
    ((acc ++ l).map Prod.fst).Nodup → toMs N acc (jms N l) = acc ++ l
  | [], acc, _, _ => by rw [jms, toMs, List.append_nil]
  | (x, v) :: l, acc, h, hn => by
    rw [ExactF] at h
    have hx : x ∉ acc.map Prod.fst := by
      intro hm
      simp only [List.map_append, List.map_cons, List.nodup_append] at hn
      exact hn.2.2 x hm x (by simp) rfl
    rw [jms_cons (exact_ne h.1), toMs, exact_back N v h.1, assign_new hx,
      exact_backF N l (acc ++ [(x, v)]) h.2 (by simpa using hn)]
    simp
end

end Verif.Json
