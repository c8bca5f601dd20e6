import Verif.Module.Report
import Verif.Vm.FormatProps
/-
C140: `System::assert` and `System::error`. C141: what the functions of `Console` write.
-/
namespace Verif.Report
open Verif Verif.Str Verif.Format Verif.FormatSpec Verif.FormatProps

/-! ### C140 -/

/-- C140 in full: an assertion passes if and only if its first argument is `true`, and else there is an error of the script; and
`System::error` is an error of the script. -/
def AssertsRaise : Prop :=
  ∀ (check message : V) (args : List Arg), (∀ n, .int n ∈ args → Integer.IsInt n) →
    (assert check message args = .none ↔ check = .bool true) ∧
    (check ≠ .bool true → ∃ m, assert check message args = .raised m) ∧
    ∃ m, error message args = .raised m

/-- Passing: exactly the value `true`, whatever the message. -/
theorem assert_passes (check message : V) (args : List Arg) : assert check message args = .none ↔ check = .bool true := by
  have h : ∀ v a, errorNative v a ≠ .none := by
    intro v a
    unfold errorNative
    split <;> simp
  unfold assert
  split
  · simp
  · simp [h]
  · rename_i v h1 h2
    constructor
    · intro e; exact absurd e (h _ _)
    · intro e; exact absurd e h1

theorem formatV_obj {t ty : Bytes} {args : List Arg} {o : Out Bytes} (h : format t args = some o) : formatV (.obj t ty) args = o := by
  simp [formatV, h]

theorem checkText : src "Error, executing  'System::assert' first parameter must be boolean but it was {0}" =
    src "Error, executing  'System::assert' first parameter must be boolean but it was " ++ [123, 48, 125] := by decide +kernel

/-- A first argument that is not a boolean is refused with a message that names its type. -/
theorem assert_refuses (check message : V) (args : List Arg) (h : ∀ b, check ≠ .bool b) (ht : (92 : UInt8) ∉ check.type) :
    assert check message args =
      .raised (src "Error, executing  'System::assert' first parameter must be boolean but it was " ++ check.type) := by
  have hf := format_partial
    [.text (src "Error, executing  'System::assert' first parameter must be boolean but it was "), .arg 0 none none] []
    [.text check.type]
    (by
      intro p hp
      simp only [List.mem_cons, List.not_mem_nil, or_false] at hp
      rcases hp with rfl | rfl
      · exact (by decide +kernel : (123 : UInt8) ∉ src "Error, executing  'System::assert' first parameter must be boolean but it was ")
      · trivial)
    (by simp)
    (by
      intro i w z hm
      simp only [List.mem_cons, List.not_mem_nil, or_false] at hm
      rcases hm with hm | hm
      · cases hm
      · cases hm; decide)
    (by intro n hn; simp at hn)
    (by
      have h0 := digit_text (n := 0) (by decide)
      have h1 : (92 : UInt8) ∉ src "Error, executing  'System::assert' first parameter must be boolean but it was " := by decide +kernel
      simp only [written, meaning, List.flatMap_cons, List.flatMap_nil, Piece.written, Piece.meaning, h0]
      generalize src "Error, executing  'System::assert' first parameter must be boolean but it was " = l at h1
      simp [h1, ht, padLeft, shown])
  have h0 := digit_text (n := 0) (by decide)
  simp only [written, meaning, List.flatMap_cons, List.flatMap_nil, Piece.written, Piece.meaning, h0, List.append_nil] at hf
  have hf' : format (src "Error, executing  'System::assert' first parameter must be boolean but it was {0}") [.text check.type] =
      some (.ok (src "Error, executing  'System::assert' first parameter must be boolean but it was " ++ check.type)) := by
    rw [checkText]
    simpa [padLeft, shown] using hf
  unfold assert
  split
  · exact absurd rfl (h true)
  · exact absurd rfl (h false)
  · unfold errorNative
    rw [formatV_obj hf']

/-- C140 (partial): a failed assertion with a message in pieces is an error whose message is `Assert error :` and the message filled with
the arguments; `System::error` is one with the message filled. For messages as in `format_partial`. Missing: what is violated below.
-/
theorem assert_message_partial (ps : List Piece) (tail ty : Bytes) (args : List Arg) (hp : ∀ p ∈ ps, p.Plain)
    (ht : (125 : UInt8) ∉ tail)
    (hs : ∀ i w z, .arg i w z ∈ ps → i < 2 ^ 31 ∧ w.getD 0 < 2 ^ 31 ∧ z.getD 0 < 2 ^ 31)
    (hi : ∀ n, .int n ∈ args → n.natAbs < 6755399441055749)
    (hb : (92 : UInt8) ∉ written ps ++ tail ∧ (92 : UInt8) ∉ meaning args ps ++ tail) :
    assert (.bool false) (.obj (written ps ++ tail) ty) args = .raised (src "Assert error :" ++ (meaning args ps ++ tail)) ∧
    error (.obj (written ps ++ tail) ty) args = .raised (meaning args ps ++ tail) := by
  have hpre : (92 : UInt8) ∉ src "Assert error :" := by decide +kernel
  have hsplit : src "Assert error :" = src "Assert error " ++ src ":" := by decide +kernel
  have hpre' : (92 : UInt8) ∉ src "Assert error " ∧ (92 : UInt8) ∉ src ":" := by
    rw [hsplit] at hpre
    simpa using hpre
  constructor
  · have hf := format_partial (.text (src "Assert error :") :: ps) tail args
      (by
        intro p hp'
        rcases List.mem_cons.1 hp' with rfl | hp'
        · exact (by decide +kernel : (123 : UInt8) ∉ src "Assert error :")
        · exact hp p hp')
      ht
      (by
        intro i w z hm
        rcases List.mem_cons.1 hm with hm | hm
        · cases hm
        · exact hs i w z hm)
      hi
      (by
        simp only [written, meaning, List.flatMap_cons, Piece.written, Piece.meaning, List.append_assoc, List.mem_append, not_or] at hb ⊢
        exact ⟨⟨hpre, hb.1⟩, ⟨hpre, hb.2⟩⟩)
    have hw : written (.text (src "Assert error :") :: ps) ++ tail = src "Assert error :" ++ (written ps ++ tail) := by
      simp [written, Piece.written]
    have hm : meaning args (.text (src "Assert error :") :: ps) ++ tail = src "Assert error :" ++ (meaning args ps ++ tail) := by
      simp [meaning, Piece.meaning]
    rw [hw, hm] at hf
    have hc : cat (src "Assert error ") (cat (src ":") (written ps ++ tail)) = src "Assert error :" ++ (written ps ++ tail) := by
      unfold cat
      rw [unescape_id (l := src ":" ++ (written ps ++ tail)) (by simp only [List.mem_append, not_or] at hb ⊢; exact ⟨hpre'.2, hb.1⟩),
        unescape_id (by simp only [List.mem_append, not_or] at hb ⊢; exact ⟨hpre'.1, hpre'.2, hb.1⟩), hsplit, List.append_assoc]
    show errorNative (.obj (cat (src "Assert error ") (if V.obj (written ps ++ tail) ty = .undef then []
      else cat (src ":") (V.obj (written ps ++ tail) ty).text)) (src "String")) args = _
    rw [if_neg (by simp)]
    show errorNative (.obj (cat (src "Assert error ") (cat (src ":") (written ps ++ tail))) (src "String")) args = _
    rw [hc]
    unfold errorNative
    rw [formatV_obj hf]
  · unfold error errorNative
    rw [formatV_obj (format_partial ps tail args hp ht hs hi hb)]

/-- Without a message. -/
theorem assert_silent : assert (.bool false) .undef [] = .raised (src "Assert error ") := by decide +kernel

/-- A message with braces that hold no number, and an argument: the failed assertion goes through a null pointer, as does
`System::error`. -/
theorem assert_braces_violated (a : Arg) (ty : Bytes) :
    assert (.bool false) (.obj (src "{x}") ty) [a] = .fault ∧ error (.obj (src "{x}") ty) [a] = .fault := by
  have h1 : format (src "{x}") [a] = some .err := by
    cases a <;> rfl
  have h2 : cat (src "Assert error ") (cat (src ":") (src "{x}")) = src "Assert error :{x}" := by decide +kernel
  have h3 : format (src "Assert error :{x}") [a] = some .err := by
    cases a <;> rfl
  constructor
  · show errorNative (.obj (cat (src "Assert error ") (if V.obj (src "{x}") ty = .undef then [] else cat (src ":") (src "{x}"))) (src "String")) [a] = _
    rw [if_neg (by simp), h2]
    unfold errorNative
    rw [formatV_obj h3]
  · unfold error errorNative
    rw [formatV_obj h1]

theorem asserts_violated : ¬ AssertsRaise := by
  intro h
  obtain ⟨m, hm⟩ := (h (.bool false) (.obj (src "{x}") []) [.text []] (by simp)).2.2
  rw [(assert_braces_violated (.text []) []).2] at hm
  cases hm

example : assert (.bool false) (.obj [97, 123, 48, 125] []) [.int 5] = .raised (src "Assert error :a5") := by decide +kernel
example : assert (.plain [49] (src "Integer")) .undef [] =
    .raised (src "Error, executing  'System::assert' first parameter must be boolean but it was type@Integer") := by decide +kernel
example : (92 : UInt8) ∉ (V.plain [49] (src "Integer")).type := by decide +kernel

/-! ### C141 -/

/-- What a call adds to the two streams, if `String::format` gives `t` for its arguments. -/
def added (f : Fn) (t : Bytes) : Bytes × Bytes :=
  match f with
  | .out => (t, [])
  | .outln => (t ++ [10], [])
  | .error => ([], t)
  | .errorln => ([], t ++ [10])

/-- C141 in full: if `String::format` gives a text for the arguments of each call, the calls write these texts, one after the other,
`outln` and `errorln` with the end of a line behind, to the stream of the function; the other stream is not touched. -/
def WritesFormatted : Prop :=
  ∀ (cs : List (Fn × V × List Arg)) (ts : List Bytes) (s : Streams), ts.length = cs.length →
    (∀ (i : Nat) f v args t, cs[i]? = some (f, v, args) → ts[i]? = some t → formatV v args = .ok t) →
    calls cs s = .done
      ⟨s.out ++ ((cs.zip ts).flatMap fun c => (added c.1.1 c.2).1), s.err ++ ((cs.zip ts).flatMap fun c => (added c.1.1 c.2).2)⟩

/-- C141 (partial): for first arguments of `error` and `errorln` that are not undefined. -/
theorem writes_partial (cs : List (Fn × V × List Arg)) : ∀ (ts : List Bytes) (s : Streams), ts.length = cs.length →
    (∀ (i : Nat) f v args t, cs[i]? = some (f, v, args) → ts[i]? = some t → formatV v args = .ok t) →
    (∀ f v args, (f, v, args) ∈ cs → (f = .error ∨ f = .errorln) → v ≠ .undef) →
    calls cs s = .done
      ⟨s.out ++ ((cs.zip ts).flatMap fun c => (added c.1.1 c.2).1), s.err ++ ((cs.zip ts).flatMap fun c => (added c.1.1 c.2).2)⟩ := by
  induction cs with
  | nil => intro ts s _ _ _; simp [calls]
  | cons c cs ih =>
    obtain ⟨f, v, args⟩ := c
    intro ts s hl hf hu
    cases ts with
    | nil => simp at hl
    | cons t ts =>
      have h1 : formatV v args = .ok t := hf 0 f v args t rfl rfl
      have h2 := hu f v args List.mem_cons_self
      have key : console f (some v) args s = .done ⟨s.out ++ (added f t).1, s.err ++ (added f t).2⟩ := by
        cases f with
        | out => simp [console, native, h1, added]
        | outln => simp [console, native, h1, added]
        | error => simp [console, native, h1, added, h2 (.inl rfl)]
        | errorln => simp [console, native, h1, added, h2 (.inr rfl)]
      rw [calls, key]
      simp only
      rw [ih ts _ (by simpa using hl) (fun i f v args t h3 h4 => hf (i + 1) f v args t (by simpa using h3) (by simpa using h4))
        (fun f v args hm => hu f v args (List.mem_cons_of_mem _ hm))]
      simp [List.zip_cons_cons, List.flatMap_cons]

/-- A call whose arguments `String::format` refuses is an error of the script and writes nothing, for all functions. -/
theorem refused_writes_nothing (f : Fn) (v : V) (args : List Arg) (s : Streams) (hv : v ≠ .undef) (h : formatV v args = .err) :
    console f (some v) args s = .raised s := by
  cases f <;> simp [console, native, h, hv]

/-- `Console::out(x)` of an undefined `x` writes `Undefined`, but `Console::error(x)` nothing, and `errorln` an empty line. -/
theorem undefined_violated (s : Streams) :
    console .out (some .undef) [] s = .done ⟨s.out ++ src "Undefined", s.err⟩ ∧
    console .error (some .undef) [] s = .done s ∧
    console .errorln (some .undef) [] s = .done ⟨s.out, s.err ++ [10]⟩ := by
  have h : formatV .undef [] = .ok (src "Undefined") := by decide +kernel
  simp [console, native, h]

theorem writes_violated : ¬ WritesFormatted := by
  intro h
  have h1 := h [(.error, .undef, [])] [src "Undefined"] ⟨[], []⟩ rfl (by
    intro i f v args t h3 h4
    cases i with
    | zero =>
      simp only [List.length_cons, List.length_nil, List.getElem?_cons_zero, Option.some.injEq, Prod.mk.injEq] at h3 h4
      obtain ⟨_, rfl, rfl⟩ := h3
      subst h4
      decide +kernel
    | succ i => simp at h3)
  exact absurd h1 (by decide +kernel)

/-- Without arguments: an empty line, but `Console::out()` writes `Undefined`. -/
theorem no_arguments (s : Streams) :
    console .outln none [] s = .done ⟨s.out ++ [10], s.err⟩ ∧ console .errorln none [] s = .done ⟨s.out, s.err ++ [10]⟩ ∧
    console .error none [] s = .done s ∧ console .out none [] s = .done ⟨s.out ++ src "Undefined", s.err⟩ := by
  have h : formatV .undef [] = .ok (src "Undefined") := by decide +kernel
  have h' : formatV (.obj [] (src "String")) [] = .ok [] := by decide +kernel
  simp [console, native, h, h']

example : calls [(.out, .obj [97, 123, 48, 125] [], [.int 5]), (.errorln, .bool true, []), (.outln, .obj [98] [], [])] ⟨[], []⟩ =
    .done ⟨[97, 53, 98, 10], src "true" ++ [10]⟩ := by decide +kernel

end Verif.Report
