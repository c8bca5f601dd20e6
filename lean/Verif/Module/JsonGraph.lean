import Verif.Module.Json
/-
Object graphs: when writing ends, and what it writes.
-/
namespace Verif.Json
open Verif.Str (Bytes unescapeChars)

/-! ### Specification -/

/-- The values a node contains. -/
def Node.vals {F : Type} : Node F → List (HV F)
  | .arr l => l
  | .obj fs bs => fs.map Prod.snd ++ bs.map Prod.snd

/-- `a` contains a reference to `b`. -/
def Edge {F : Type} (h : Nat → Option (Node F)) (a b : Nat) : Prop := ∃ nd, h a = some nd ∧ HV.ref b ∈ nd.vals

/-- No reference to something that is gone. -/
def Valid {F : Type} (h : Nat → Option (Node F)) : Prop := ∀ a b, Edge h a b → h b ≠ none

def IsObj {F : Type} (h : Nat → Option (Node F)) (a : Nat) : Prop := ∃ fs bs, h a = some (.obj fs bs)

/-- One can walk from `a` for ever, without coming back to `a` if `a` is an object. -/
def Endless {F : Type} (h : Nat → Option (Node F)) (a : Nat) : Prop :=
  ∃ p : Nat → Nat, p 0 = a ∧ ∀ i, Edge h (p i) (p (i + 1)) ∧ ¬ (IsObj h a ∧ p (i + 1) = a)

mutual
/-- The tree a value of the memory stands for; the object `top` is replaced by a text. -/
inductive Tree {F : Type} (h : Nat → Option (Node F)) (top : Option (Nat × Bytes)) : HV F → V F → Prop where
  | undef : Tree h top .undef .undef
  | null : Tree h top .null .null
  | bool (b : Bool) : Tree h top (.bool b) (.bool b)
  | int (i : Int) : Tree h top (.int i) (.int i)
  | float (f : F) : Tree h top (.float f) (.float f)
  | str (s : Bytes) : Tree h top (.str s) (.str s)
  | fn : Tree h top .fn .fn
  | arr {a : Nat} {l : List (HV F)} {ts : List (V F)} : h a = some (.arr l) → Trees h top l ts → Tree h top (.ref a) (.arr ts)
  | self {a : Nat} {name : Bytes} : top = some (a, name) → IsObj h a → Tree h top (.ref a) (.str (selfText name))
  | obj {a : Nat} {fs bs : List (Bytes × HV F)} {us vs : List (Bytes × V F)} : h a = some (.obj fs bs) →
      (∀ name, top ≠ some (a, name)) → TreeFs h top fs us → TreeFs h top bs vs → Tree h top (.ref a) (.obj us vs)
inductive Trees {F : Type} (h : Nat → Option (Node F)) (top : Option (Nat × Bytes)) : List (HV F) → List (V F) → Prop where
  | nil : Trees h top [] []
  | cons {v : HV F} {t : V F} {l : List (HV F)} {ts : List (V F)} : Tree h top v t → Trees h top l ts →
      Trees h top (v :: l) (t :: ts)
inductive TreeFs {F : Type} (h : Nat → Option (Node F)) (top : Option (Nat × Bytes)) :
    List (Bytes × HV F) → List (Bytes × V F) → Prop where
  | nil : TreeFs h top [] []
  | cons {x : Bytes} {v : HV F} {t : V F} {l : List (Bytes × HV F)} {ts : List (Bytes × V F)} : Tree h top v t →
      TreeFs h top l ts → TreeFs h top ((x, v) :: l) ((x, t) :: ts)
end

/-! ### Lists -/

section
variable {F : Type}

theorem graphFields_cons {wr : HV F → R Bytes} {fmt : Bool} {ind k : Nat} {x : Bytes} {v : HV F} {r : List (Bytes × HV F)}
    (h : v ≠ .fn) : graphFields wr fmt ind k ((x, v) :: r) = R.bind (wr v) fun t =>
      R.bind (graphFields wr fmt ind (k + 1) r) fun u =>
        R.ok (newline fmt (ind + 1) ++ ((if 0 < k then [44] else []) ++ (34 :: (x ++ 34 :: 58 :: (t ++ u))))) := by
  cases v <;> first | exact absurd rfl h | rw [graphFields]; simp

theorem bind_ok {α β : Type} (a : α) (f : α → R β) : R.bind (R.ok a) f = f a := rfl

/-- Ended and fine, or not ended. -/
def Fine {α : Type} (x : R α) : Prop := x = none ∨ ∃ a, x = R.ok a

theorem Fine.bind {α β : Type} {x : R α} {f : α → R β} (hx : Fine x) (hf : ∀ a, Fine (f a)) : Fine (R.bind x f) := by
  rcases hx with rfl | ⟨a, rfl⟩
  · exact Or.inl rfl
  · exact hf a

theorem elems_fine {wr : HV F → R Bytes} : ∀ (l : List (HV F)) (k : Nat), (∀ v ∈ l, Fine (wr v)) → Fine (graphElems wr k l)
  | [], _, _ => Or.inr ⟨_, rfl⟩
  | v :: r, k, h => by
    unfold graphElems
    exact (h v (by simp)).bind fun t => (elems_fine r (k + 1) fun u hu => h u (by simp [hu])).bind fun u => Or.inr ⟨_, rfl⟩

theorem fields_fine {wr : HV F → R Bytes} {fmt : Bool} {ind : Nat} : ∀ (l : List (Bytes × HV F)) (k : Nat),
    (∀ v ∈ l.map Prod.snd, Fine (wr v)) → Fine (graphFields wr fmt ind k l)
  | [], _, _ => Or.inr ⟨_, rfl⟩
  | (x, v) :: r, k, h => by
    by_cases hv : v = .fn
    · subst hv
      unfold graphFields
      exact fields_fine r k fun u hu => h u (by simp only [List.map_cons, List.mem_cons]; exact Or.inr hu)
    · rw [graphFields_cons hv]
      exact (h v (by simp)).bind fun t => (fields_fine r (k + 1) fun u hu => h u (by
        simp only [List.map_cons, List.mem_cons]; exact Or.inr hu)).bind fun u => Or.inr ⟨_, rfl⟩

theorem bind_ne_none {α β : Type} {x : R α} {f : α → R β} (hx : Fine x) (h : R.bind x f ≠ none) :
    ∃ a, x = R.ok a ∧ f a ≠ none := by
  rcases hx with rfl | ⟨a, rfl⟩
  · exact absurd rfl h
  · exact ⟨a, rfl, h⟩

theorem elems_all {wr : HV F → R Bytes} : ∀ (l : List (HV F)) (k : Nat), (∀ v ∈ l, Fine (wr v)) → graphElems wr k l ≠ none →
    ∀ v ∈ l, wr v ≠ none
  | [], _, _, _, v, hv => by cases hv
  | u :: r, k, h, hn, v, hv => by
    unfold graphElems at hn
    obtain ⟨t, ht, hn⟩ := bind_ne_none (h u (by simp)) hn
    obtain ⟨t2, ht2, _⟩ := bind_ne_none (elems_fine r (k + 1) fun u hu => h u (by simp [hu])) hn
    rcases List.mem_cons.1 hv with rfl | hv
    · rw [ht]; exact fun e => by cases e
    · exact elems_all r (k + 1) (fun u hu => h u (by simp [hu])) (by rw [ht2]; exact fun e => by cases e) v hv

theorem fields_all {wr : HV F → R Bytes} {fmt : Bool} {ind : Nat} : ∀ (l : List (Bytes × HV F)) (k : Nat),
    (∀ v ∈ l.map Prod.snd, Fine (wr v)) → graphFields wr fmt ind k l ≠ none →
    ∀ v ∈ l.map Prod.snd, v ≠ .fn → wr v ≠ none
  | [], _, _, _, v, hv, _ => by cases hv
  | (x, u) :: r, k, h, hn, v, hv, hf => by
    have hr : ∀ w ∈ r.map Prod.snd, Fine (wr w) := fun w hw => h w (by
      simp only [List.map_cons, List.mem_cons]; exact Or.inr hw)
    simp only [List.map_cons, List.mem_cons] at hv
    by_cases hu : u = .fn
    · subst hu
      unfold graphFields at hn
      rcases hv with rfl | hv
      · exact absurd rfl hf
      · exact fields_all r k hr hn v hv hf
    · rw [graphFields_cons hu] at hn
      obtain ⟨t, ht, hn⟩ := bind_ne_none (h u (by simp)) hn
      obtain ⟨t2, ht2, _⟩ := bind_ne_none (fields_fine r (k + 1) hr) hn
      rcases hv with rfl | hv
      · rw [ht]; exact fun e => by cases e
      · exact fields_all r (k + 1) hr (by rw [ht2]; exact fun e => by cases e) v hv hf

theorem object_fine {wr : Nat → HV F → R Bytes} {fmt : Bool} {ind : Nat} {fs bs : List (Bytes × HV F)}
    (h : ∀ v ∈ (Node.obj fs bs).vals, Fine (wr (ind + 1) v)) : Fine (graphObject wr fmt ind fs bs) := by
  unfold graphObject
  refine (fields_fine fs 0 fun v hv => h v (by simp only [Node.vals, List.mem_append]; exact Or.inl hv)).bind fun t => ?_
  exact (fields_fine bs 0 fun v hv => h v (by simp only [Node.vals, List.mem_append]; exact Or.inr hv)).bind fun u =>
    Or.inr ⟨_, rfl⟩

theorem object_all {wr : Nat → HV F → R Bytes} {fmt : Bool} {ind : Nat} {fs bs : List (Bytes × HV F)}
    (h : ∀ v ∈ (Node.obj fs bs).vals, Fine (wr (ind + 1) v)) (hn : graphObject wr fmt ind fs bs ≠ none) :
    ∀ v ∈ (Node.obj fs bs).vals, v ≠ .fn → wr (ind + 1) v ≠ none := by
  have h1 : ∀ v ∈ fs.map Prod.snd, Fine (wr (ind + 1) v) := fun v hv => h v (by
    simp only [Node.vals, List.mem_append]; exact Or.inl hv)
  have h2 : ∀ v ∈ bs.map Prod.snd, Fine (wr (ind + 1) v) := fun v hv => h v (by
    simp only [Node.vals, List.mem_append]; exact Or.inr hv)
  unfold graphObject at hn
  obtain ⟨t, ht, hn⟩ := bind_ne_none (fields_fine fs 0 h1) hn
  obtain ⟨u, hu, _⟩ := bind_ne_none (fields_fine bs 0 h2) hn
  intro v hv hf
  simp only [Node.vals, List.mem_append] at hv
  rcases hv with hv | hv
  · exact fields_all fs 0 h1 (by rw [ht]; exact fun e => by cases e) v hv hf
  · exact fields_all bs 0 h2 (by rw [hu]; exact fun e => by cases e) v hv hf

/-! ### Ending -/

/-- Is this the object the call began with? -/
def IsTop (h : Nat → Option (Node F)) (top : Option (Nat × Bytes)) (a : Nat) : Prop :=
  IsObj h a ∧ ∃ name, top = some (a, name)

theorem write_ref {N : Num F} {fmt strict : Bool} {h : Nat → Option (Node F)} {top : Option (Nat × Bytes)} {n ind a : Nat}
    {fs bs : List (Bytes × HV F)} (ha : h a = some (.obj fs bs)) (ht : ¬ IsTop h top a) :
    graphWrite N fmt strict h top (n + 1) ind (.ref a) = graphObject (graphWrite N fmt strict h top n) fmt ind fs bs := by
  unfold graphWrite
  simp only [ha]
  cases top with
  | none => rfl
  | some q =>
    obtain ⟨b, name⟩ := q
    simp only
    rw [if_neg]
    rintro rfl
    exact ht ⟨⟨fs, bs, ha⟩, name, rfl⟩

theorem write_top {N : Num F} {fmt strict : Bool} {h : Nat → Option (Node F)} {n ind a : Nat} {name : Bytes}
    (ha : IsObj h a) : graphWrite N fmt strict h (some (a, name)) (n + 1) ind (.ref a) = R.ok (34 :: (selfText name ++ [34])) := by
  obtain ⟨fs, bs, ha⟩ := ha
  unfold graphWrite
  simp only [ha, if_true]

theorem write_arr {N : Num F} {fmt strict : Bool} {h : Nat → Option (Node F)} {top : Option (Nat × Bytes)} {n ind a : Nat}
    {l : List (HV F)} (ha : h a = some (.arr l)) : graphWrite N fmt strict h top (n + 1) ind (.ref a) =
      R.bind (graphElems (graphWrite N fmt strict h top n ind) 0 l) fun t => R.ok (91 :: (t ++ [93])) := by
  conv => lhs; unfold graphWrite
  simp only [ha]

theorem write_plain {N : Num F} {fmt strict : Bool} {h : Nat → Option (Node F)} {top : Option (Nat × Bytes)} {v : HV F}
    (hv : ∀ a, v ≠ .ref a) (n ind : Nat) : ∃ t, graphWrite N fmt strict h top (n + 1) ind v = R.ok t := by
  cases v with
  | ref a => exact absurd rfl (hv a)
  | _ => exact ⟨_, by unfold graphWrite; rfl⟩

/-- All the references of a value exist. -/
def Known (h : Nat → Option (Node F)) (v : HV F) : Prop := ∀ a, v = .ref a → h a ≠ none

theorem graph_fine (N : Num F) (fmt strict : Bool) {h : Nat → Option (Node F)} (hv : Valid h) (top : Option (Nat × Bytes)) :
    ∀ (n ind : Nat) (v : HV F), Known h v → Fine (graphWrite N fmt strict h top n ind v)
  | 0, _, _, _ => Or.inl (by unfold graphWrite; rfl)
  | n + 1, ind, v, hk => by
    by_cases hr : ∃ a, v = .ref a
    · obtain ⟨a, rfl⟩ := hr
      have hna := hk a rfl
      have kids : ∀ nd, h a = some nd → ∀ u ∈ nd.vals, Known h u := by
        intro nd ha u hu b hb
        subst hb
        exact hv a b ⟨nd, ha, hu⟩
      cases ha : h a with
      | none => exact absurd ha hna
      | some nd =>
        cases nd with
        | arr l =>
          rw [write_arr ha]
          exact (elems_fine l 0 fun u hu => graph_fine N fmt strict hv top n ind u (kids _ ha u hu)).bind
            fun t => Or.inr ⟨_, rfl⟩
        | obj fs bs =>
          by_cases ht : IsTop h top a
          · obtain ⟨ho, name, rfl⟩ := ht
            exact Or.inr ⟨_, write_top ho⟩
          · rw [write_ref ha ht]
            exact object_fine fun u hu => graph_fine N fmt strict hv top n (ind + 1) u (kids _ ha u hu)
    · obtain ⟨t, ht⟩ := write_plain (N := N) (fmt := fmt) (strict := strict) (h := h) (top := top)
        (v := v) (fun a e => hr ⟨a, e⟩) n ind
      exact Or.inr ⟨t, ht⟩

/-- A step of the walk. -/
def Step (h : Nat → Option (Node F)) (top : Option (Nat × Bytes)) (b a : Nat) : Prop := Edge h a b ∧ ¬ IsTop h top b

/-- Written in the end, whatever the depth left above a bound. -/
def Ends (N : Num F) (fmt strict : Bool) (h : Nat → Option (Node F)) (top : Option (Nat × Bytes)) (v : HV F) : Prop :=
  ∃ n0, ∀ n, n0 ≤ n → ∀ ind, graphWrite N fmt strict h top n ind v ≠ none

theorem all_end {N : Num F} {fmt strict : Bool} {h : Nat → Option (Node F)} {top : Option (Nat × Bytes)} :
    ∀ (l : List (HV F)), (∀ v ∈ l, Ends N fmt strict h top v) →
      ∃ n0, ∀ n, n0 ≤ n → ∀ v ∈ l, ∀ ind, graphWrite N fmt strict h top n ind v ≠ none
  | [], _ => ⟨0, fun _ _ v hv => by cases hv⟩
  | v :: l, hl => by
    obtain ⟨n1, h1⟩ := hl v (by simp)
    obtain ⟨n2, h2⟩ := all_end l fun u hu => hl u (by simp [hu])
    refine ⟨n1 + n2, fun n hn u hu ind => ?_⟩
    rcases List.mem_cons.1 hu with rfl | hu
    · exact h1 n (by omega) ind
    · exact h2 n (by omega) u hu ind

theorem elems_some {wr : HV F → R Bytes} : ∀ (l : List (HV F)) (k : Nat), (∀ v ∈ l, wr v ≠ none) → graphElems wr k l ≠ none
  | [], _, _ => fun e => by cases e
  | v :: r, k, h => by
    unfold graphElems
    have hv := h v (by simp)
    have hr := elems_some r (k + 1) fun u hu => h u (by simp [hu])
    revert hv hr
    cases wr v with
    | none => exact fun hv => absurd rfl hv
    | some o =>
      cases graphElems wr (k + 1) r with
      | none => exact fun _ hr => absurd rfl hr
      | some o2 => cases o <;> cases o2 <;> exact fun _ _ e => by cases e

theorem fields_some {wr : HV F → R Bytes} {fmt : Bool} {ind : Nat} : ∀ (l : List (Bytes × HV F)) (k : Nat),
    (∀ v ∈ l.map Prod.snd, wr v ≠ none) → graphFields wr fmt ind k l ≠ none
  | [], _, _ => fun e => by cases e
  | (x, v) :: r, k, h => by
    have hr : ∀ k, graphFields wr fmt ind k r ≠ none := fun k => fields_some r k fun u hu => h u (by
      simp only [List.map_cons, List.mem_cons]; exact Or.inr hu)
    by_cases hf : v = .fn
    · subst hf; unfold graphFields; exact hr k
    · rw [graphFields_cons hf]
      have hv := h v (by simp)
      have hr := hr (k + 1)
      revert hv hr
      cases wr v with
      | none => exact fun hv => absurd rfl hv
      | some o =>
        cases graphFields wr fmt ind (k + 1) r with
        | none => exact fun _ hr => absurd rfl hr
        | some o2 => cases o <;> cases o2 <;> exact fun _ _ e => by cases e

theorem object_some {wr : Nat → HV F → R Bytes} {fmt : Bool} {ind : Nat} {fs bs : List (Bytes × HV F)}
    (h : ∀ v ∈ (Node.obj fs bs).vals, wr (ind + 1) v ≠ none) : graphObject wr fmt ind fs bs ≠ none := by
  unfold graphObject
  have h1 := fields_some (wr := wr (ind + 1)) (fmt := fmt) (ind := ind) fs 0 fun v hv => h v (by
    simp only [Node.vals, List.mem_append]; exact Or.inl hv)
  have h2 := fields_some (wr := wr (ind + 1)) (fmt := fmt) (ind := ind) bs 0 fun v hv => h v (by
    simp only [Node.vals, List.mem_append]; exact Or.inr hv)
  revert h1 h2
  cases graphFields (wr (ind + 1)) fmt ind 0 fs with
  | none => exact fun h1 => absurd rfl h1
  | some o =>
    cases graphFields (wr (ind + 1)) fmt ind 0 bs with
    | none => exact fun _ h2 => absurd rfl h2
    | some o2 => cases o <;> cases o2 <;> exact fun _ _ e => by cases e

theorem acc_ends (N : Num F) (fmt strict : Bool) {h : Nat → Option (Node F)} {top : Option (Nat × Bytes)} {a : Nat}
    (ha : Acc (Step h top) a) : Ends N fmt strict h top (.ref a) := by
  induction ha with
  | intro a _ ih =>
    by_cases ht : IsTop h top a
    · obtain ⟨ho, name, rfl⟩ := ht
      refine ⟨1, fun n hn ind => ?_⟩
      obtain ⟨m, rfl⟩ : ∃ m, n = m + 1 := ⟨n - 1, by omega⟩
      rw [write_top ho]; exact fun e => by cases e
    · cases hh : h a with
      | none =>
        refine ⟨1, fun n hn ind => ?_⟩
        obtain ⟨m, rfl⟩ : ∃ m, n = m + 1 := ⟨n - 1, by omega⟩
        unfold graphWrite
        simp only [hh]
        exact fun e => by cases e
      | some nd =>
        have kid : ∀ v ∈ nd.vals, Ends N fmt strict h top v := by
          intro v hv
          by_cases hr : ∃ b, v = .ref b
          · obtain ⟨b, rfl⟩ := hr
            by_cases hb : IsTop h top b
            · obtain ⟨ho, name, rfl⟩ := hb
              refine ⟨1, fun n hn ind => ?_⟩
              obtain ⟨m, rfl⟩ : ∃ m, n = m + 1 := ⟨n - 1, by omega⟩
              rw [write_top ho]; exact fun e => by cases e
            · exact ih b ⟨⟨nd, hh, hv⟩, hb⟩
          · refine ⟨1, fun n hn ind => ?_⟩
            obtain ⟨m, rfl⟩ : ∃ m, n = m + 1 := ⟨n - 1, by omega⟩
            obtain ⟨t, e⟩ := write_plain (N := N) (fmt := fmt) (strict := strict) (h := h) (top := top) (v := v)
              (fun b e => hr ⟨b, e⟩) m ind
            rw [e]; exact fun e => by cases e
        obtain ⟨n0, hn0⟩ := all_end nd.vals kid
        refine ⟨n0 + 1, fun n hn ind => ?_⟩
        obtain ⟨m, rfl⟩ : ∃ m, n = m + 1 := ⟨n - 1, by omega⟩
        cases nd with
        | arr l =>
          rw [write_arr hh]
          have := elems_some l 0 fun v hv => hn0 m (by omega) v hv ind
          revert this
          cases graphElems (graphWrite N fmt strict h top m ind) 0 l with
          | none => exact fun e => absurd rfl e
          | some o => cases o <;> exact fun _ e => by cases e
        | obj fs bs =>
          rw [write_ref hh ht]
          exact object_some fun v hv => hn0 m (by omega) v hv (ind + 1)

theorem ends_acc (N : Num F) (fmt strict : Bool) {h : Nat → Option (Node F)} (hv : Valid h) {top : Option (Nat × Bytes)} :
    ∀ (n ind a : Nat), h a ≠ none → ¬ IsTop h top a → graphWrite N fmt strict h top n ind (.ref a) ≠ none → Acc (Step h top) a
  | 0, _, _, _, _, hn => absurd (by unfold graphWrite; rfl) hn
  | n + 1, ind, a, ha, ht, hn => by
    refine ⟨_, fun b hb => ?_⟩
    obtain ⟨⟨nd, hnd, hm⟩, htb⟩ := hb
    have hbn : h b ≠ none := hv a b ⟨nd, hnd, hm⟩
    have known : ∀ u ∈ nd.vals, Known h u := by
      intro u hu c hc
      subst hc
      exact hv a c ⟨nd, hnd, hu⟩
    cases nd with
    | arr l =>
      rw [write_arr hnd] at hn
      have hf : ∀ u ∈ l, Fine (graphWrite N fmt strict h top n ind u) := fun u hu =>
        graph_fine N fmt strict hv top n ind u (known u hu)
      obtain ⟨t, ht2, _⟩ := bind_ne_none (elems_fine l 0 hf) hn
      exact ends_acc N fmt strict hv n ind b hbn htb
        (elems_all l 0 hf (by rw [ht2]; exact fun e => by cases e) _ hm)
    | obj fs bs =>
      rw [write_ref hnd ht] at hn
      have hf : ∀ u ∈ (Node.obj fs bs).vals, Fine (graphWrite N fmt strict h top n (ind + 1) u) := fun u hu =>
        graph_fine N fmt strict hv top n (ind + 1) u (known u hu)
      exact ends_acc N fmt strict hv n (ind + 1) b hbn htb (object_all hf hn _ hm (fun e => by cases e))

/-- A walk that is not well-founded goes on for ever. -/
theorem walk_of_not_acc {r : Nat → Nat → Prop} {a : Nat} (ha : ¬ Acc r a) : ∃ p : Nat → Nat, p 0 = a ∧ ∀ i, r (p (i + 1)) (p i) := by
  have next : ∀ x : {x // ¬ Acc r x}, ∃ y : {x // ¬ Acc r x}, r y.1 x.1 := by
    intro x
    apply Classical.byContradiction
    intro hn
    exact x.2 ⟨_, fun b hb => Classical.byContradiction fun hb2 => hn ⟨⟨b, hb2⟩, hb⟩⟩
  let f : Nat → {x // ¬ Acc r x} := fun i => Nat.rec ⟨a, ha⟩ (fun _ x => Classical.choose (next x)) i
  exact ⟨fun i => (f i).1, rfl, fun i => Classical.choose_spec (next (f i))⟩

theorem no_walk {r : Nat → Nat → Prop} {a : Nat} (ha : Acc r a) (p : Nat → Nat) (h0 : p 0 = a) (h : ∀ i, r (p (i + 1)) (p i)) :
    False := by
  induction ha generalizing p with
  | intro a _ ih =>
    exact ih (p 1) (by have := h 0; rw [h0] at this; exact this) (fun i => p (i + 1)) rfl fun i => h (i + 1)

/-! ### The text -/

mutual
theorem tree_text (N : Num F) (fmt strict : Bool) {h : Nat → Option (Node F)} {top : Option (Nat × Bytes)} {v : HV F} {t : V F}
    (ht : Tree h top v t) : ∃ n0, ∀ n, n0 ≤ n → ∀ ind,
      graphWrite N fmt strict h top n ind v = R.ok (write N fmt strict ind t) := by
  match ht with
  | .undef => exact ⟨1, fun | n + 1, _, ind => by unfold graphWrite; rfl⟩
  | .null => exact ⟨1, fun | n + 1, _, ind => by unfold graphWrite; rfl⟩
  | .bool b => exact ⟨1, fun | n + 1, _, ind => by unfold graphWrite; rfl⟩
  | .int i => exact ⟨1, fun | n + 1, _, ind => by unfold graphWrite; rfl⟩
  | .float f => exact ⟨1, fun | n + 1, _, ind => by unfold graphWrite; rfl⟩
  | .str s => exact ⟨1, fun | n + 1, _, ind => by unfold graphWrite; rfl⟩
  | .fn => exact ⟨1, fun | n + 1, _, ind => by unfold graphWrite; rw [write]⟩
  | .arr (l := l) (ts := ts) ha hl =>
    obtain ⟨n0, h0⟩ := trees_text N fmt strict hl
    refine ⟨n0 + 1, fun n hn ind => ?_⟩
    obtain ⟨m, rfl⟩ : ∃ m, n = m + 1 := ⟨n - 1, by omega⟩
    rw [write_arr ha, h0 m (by omega), bind_ok, write]
  | .self e ho =>
    subst e
    refine ⟨1, fun n hn ind => ?_⟩
    obtain ⟨m, rfl⟩ : ∃ m, n = m + 1 := ⟨n - 1, by omega⟩
    rw [write_top ho, write]
  | .obj (fs := fs) (bs := bs) ha hne h1 h2 =>
    obtain ⟨n1, e1⟩ := treeFs_text N fmt strict h1
    obtain ⟨n2, e2⟩ := treeFs_text N fmt strict h2
    refine ⟨n1 + n2 + 1, fun n hn ind => ?_⟩
    obtain ⟨m, rfl⟩ : ∃ m, n = m + 1 := ⟨n - 1, by omega⟩
    rw [write_ref ha (by rintro ⟨_, name, e⟩; exact hne name e)]
    unfold graphObject
    rw [e1 m (by omega), e2 m (by omega), bind_ok, bind_ok, write]
theorem trees_text (N : Num F) (fmt strict : Bool) {h : Nat → Option (Node F)} {top : Option (Nat × Bytes)} {l : List (HV F)}
    {ts : List (V F)} (ht : Trees h top l ts) : ∃ n0, ∀ n, n0 ≤ n → ∀ ind k,
      graphElems (graphWrite N fmt strict h top n ind) k l = R.ok (writeElems N fmt strict ind k ts) := by
  match ht with
  | .nil => exact ⟨0, fun n _ ind k => by unfold graphElems; rw [writeElems]⟩
  | .cons hv hl =>
    obtain ⟨n1, e1⟩ := tree_text N fmt strict hv
    obtain ⟨n2, e2⟩ := trees_text N fmt strict hl
    refine ⟨n1 + n2, fun n hn ind k => ?_⟩
    unfold graphElems
    rw [e1 n (by omega), e2 n (by omega), bind_ok, bind_ok, writeElems]
theorem treeFs_text (N : Num F) (fmt strict : Bool) {h : Nat → Option (Node F)} {top : Option (Nat × Bytes)}
    {l : List (Bytes × HV F)} {ts : List (Bytes × V F)} (ht : TreeFs h top l ts) : ∃ n0, ∀ n, n0 ≤ n → ∀ ind k,
      graphFields (graphWrite N fmt strict h top n (ind + 1)) fmt ind k l = R.ok (writeFields N fmt strict ind k ts) := by
  match ht with
  | .nil => exact ⟨0, fun n _ ind k => by unfold graphFields; rw [writeFields]⟩
  | .cons (x := x) (v := v) (t := t) hv hl =>
    obtain ⟨n1, e1⟩ := tree_text N fmt strict hv
    obtain ⟨n2, e2⟩ := treeFs_text N fmt strict hl
    refine ⟨n1 + n2, fun n hn ind k => ?_⟩
    by_cases hf : v = .fn
    · subst hf
      cases hv
      unfold graphFields
      rw [e2 n (by omega), writeFields]
    · have ht : t ≠ .fn := by
        rintro rfl; cases hv; exact hf rfl
      rw [graphFields_cons hf, e1 n (by omega), e2 n (by omega), bind_ok, bind_ok]
      congr 1
      cases t <;> first | exact absurd rfl ht | rw [writeFields]; simp
end

end
end Verif.Json
