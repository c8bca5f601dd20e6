import Verif.Vm.BridgeLemmas
/-
Lemmas for C106: histories of an array in the hands of the host.
-/
namespace Verif.Vm.Bridge
open Verif Verif.Vm.Native

/-- Every element is held as the list says. -/
def AllHeld (σ : St) (arr : List Stk) (l : List (Nat × Seen)) : Prop :=
  arr.length = l.length ∧ ∀ (i : Nat) (s : Stk) (q : Nat × Seen), arr[i]? = some s → l[i]? = some q → Held σ s q.1 q.2

/-- Objects stay what they are. -/
def Keeps (σ σ' : St) : Prop := ∀ a o, σ.obj a = some o → ∃ o', σ'.obj a = some o' ∧ Same o o'

theorem allHeld_mono {σ σ' : St} {arr : List Stk} {l : List (Nat × Seen)} (h : AllHeld σ arr l) (hk : Keeps σ σ') :
    AllHeld σ' arr l := ⟨h.1, fun i s q h1 h2 => held_mono (h.2 i s q h1 h2) hk⟩

theorem allHeld_push {σ : St} {arr : List Stk} {l : List (Nat × Seen)} {s : Stk} {q : Nat × Seen} (h : AllHeld σ arr l)
    (hs : Held σ s q.1 q.2) : AllHeld σ (arr ++ [s]) (l ++ [q]) := by
  refine ⟨by simp [h.1], ?_⟩
  intro i s' q' h1 h2
  by_cases hi : i < arr.length
  · rw [List.getElem?_append_left hi] at h1
    rw [List.getElem?_append_left (by have := h.1; omega)] at h2
    exact h.2 i s' q' h1 h2
  · rw [List.getElem?_append_right (by omega)] at h1
    rw [List.getElem?_append_right (by have := h.1; omega)] at h2
    have h0 : i - arr.length = 0 := by
      cases hd : i - arr.length with
      | zero => rfl
      | succ n => rw [hd] at h1; simp at h1
    rw [h0] at h1
    rw [← h.1, h0] at h2
    simp at h1 h2
    subst h1; subst h2
    exact hs

theorem allHeld_set {σ : St} {arr : List Stk} {l : List (Nat × Seen)} {s : Stk} {q : Nat × Seen} (h : AllHeld σ arr l)
    (hs : Held σ s q.1 q.2) (n : Nat) : AllHeld σ (arr.set n s) (l.set n q) := by
  refine ⟨by simp [h.1], ?_⟩
  intro i s' q' h1 h2
  rw [List.getElem?_set] at h1 h2
  by_cases hi : n = i
  · subst hi
    simp only [if_true] at h1 h2
    by_cases hn : n < arr.length
    · rw [if_pos hn] at h1
      rw [if_pos (by have := h.1; omega)] at h2
      simp at h1 h2
      subst h1; subst h2
      exact hs
    · rw [if_neg hn] at h1; simp at h1
  · rw [if_neg hi] at h1 h2
    exact h.2 i s' q' h1 h2

/-- An array whose elements are held reads as the list. -/
theorem allHeld_reads {σ : St} {arr : List Stk} {l : List (Nat × Seen)} (h : AllHeld σ arr l) : Reads σ arr l := by
  refine ⟨h.1, ?_, ?_⟩
  · intro i t w hi
    have hlt : i < l.length := by
      rcases Nat.lt_or_ge i l.length with hlt | hge
      · exact hlt
      · rw [List.getElem?_eq_none (by omega)] at hi; simp at hi
    have hlen := h.1
    have hlt' : i < arr.length := by omega
    have hs : arr[i]? = some (arr[i]) := List.getElem?_eq_getElem hlt'
    have hh := h.2 i _ _ hs hi
    unfold get
    rw [if_neg (by omega), if_neg (by omega)]
    simp only [Int.toNat_natCast, hs]
    exact held_take hh false (by simp)
  · intro i t hi
    have hlen := h.1
    unfold get
    rcases hi with hi | hi
    · by_cases hge : i ≥ arr.length
      · rw [if_pos hge]
      · rw [if_neg hge, if_pos hi]
    · rw [if_pos (by omega)]

theorem storable_givable {σ : St} {v : HVal} (h : Storable σ v)
    (hb : ∀ p t, σ.host p = some (.chars t) → (92 : UInt8) ∉ t) : Givable σ.host v := by
  cases v with
  | chars p => exact ⟨h, hb p⟩
  | script t p => exact h.1
  | string t => exact absurd h (by simp [Storable])
  | stringPtr p => exact absurd h (by simp [Storable])
  | elem p => exact absurd h (by simp [Storable])
  | _ => exact h

theorem same_refl (o : Obj) : Same o o := ⟨rfl, rfl, rfl, rfl, rfl⟩

theorem keeps_setObj_new {σ : St} {a : Word} (o : Obj) (h : σ.obj a = none) : Keeps σ (σ.setObj a o) := by
  intro b ob hb
  refine ⟨ob, ?_, same_refl ob⟩
  have : b ≠ a := by intro hc; subst hc; rw [h] at hb; simp at hb
  simp [St.setObj, this, hb]

theorem keeps_setObj_same {σ : St} {a : Word} {o o' : Obj} (h : σ.obj a = some o) (hs : Same o o') :
    Keeps σ (σ.setObj a o') := by
  intro b ob hb
  by_cases hc : b = a
  · subst hc
    rw [h] at hb
    simp at hb
    subst hb
    exact ⟨o', by simp [St.setObj], hs⟩
  · exact ⟨ob, by simp [St.setObj, hc, hb], same_refl ob⟩

theorem keeps_trans {σ σ' σ'' : St} (h : Keeps σ σ') (h' : Keeps σ' σ'') : Keeps σ σ'' := by
  intro a o ho
  obtain ⟨o', h1, h2⟩ := h a o ho
  obtain ⟨o'', h3, h4⟩ := h' a o' h1
  exact ⟨o'', h3, h4.1.trans h2.1, h4.2.1.trans h2.2.1, h4.2.2.1.trans h2.2.2.1, h4.2.2.2.1.trans h2.2.2.2.1,
    h4.2.2.2.2.trans h2.2.2.2.2⟩

/-- The new share and the copying into the array, on an element that is held and no one has. -/
theorem put_ok {σ : St} {a c tmp : Word} {v : HVal} {w : Seen} (ha : a ≠ 0) (hn : σ.obj a = none) (ht : tmp ≠ 0)
    (hw : hostSees σ.host v = some w) (hty : Typed σ v) (he : EntryTakes .element v) (hs : Storable σ v)
    (hb : ∀ p t, σ.host p = some (.chars t) → (92 : UInt8) ∉ t) :
    ∃ s σ1 σ', giveShared σ a tmp v = .ok (s, σ1) ∧ assign σ1 c s = .ok (s, σ') ∧ Held σ' s v.type w ∧
      σ'.host = σ.host ∧ Keeps σ σ' ∧
      ∀ b, b ≠ a → (∀ t p, v = .script t p → b ≠ p) → σ'.obj b = σ.obj b := by
  obtain ⟨s, σ0, hg, hh, ho⟩ := give_held ha ht hw hty he (storable_givable hs hb)
  have key : ∀ (q : Word) (o : Obj), s = ⟨q, P_OBJECT⟩ → σ0.obj q = some o → o.shared = false → o.konst = false →
      giveShared σ a tmp v = .ok (s, σ0.setObj q { o with shared := true }) ∧
      assign (σ0.setObj q { o with shared := true }) c s = .ok (s, σ0.setObj q { o with shared := true }) := by
    intro q o hq hoq h1 h2
    subst hq
    constructor
    · simp [giveShared, hg, Out.bind, createShared, hoq, h1, h2]
    · unfold assign
      rw [deref_plain _ _ _ (by decide)]
      have hp : (P_OBJECT &&& ~~~P_READ_ONLY) = P_OBJECT := by decide
      have hq : has P_OBJECT P_OBJECT = true := by decide
      simp [hp, hq, St.setObj, h2]
  rcases ho with ⟨h1, h2⟩ | ⟨o, h1, h2, h3, h4, h5⟩ | ⟨h1, t, p, hv, h2⟩
  · subst h1
    have hp : has s.props P_PTR_STK = false ∧ has s.props P_OBJECT = false ∧ s.props &&& ~~~P_READ_ONLY = s.props := by
      generalize v.type = t at hh
      cases hh <;> first | exact absurd rfl h2 | (refine ⟨?_, ?_, ?_⟩ <;> simp [has, P_PTR_STK, P_OBJECT, P_READ_ONLY, P_INT, P_FLOAT, P_BOOL, P_NULL])
    refine ⟨s, σ0, σ0, ?_, ?_, hh, rfl, fun b o hbo => ⟨o, hbo, same_refl o⟩, fun _ _ _ => rfl⟩
    · simp [giveShared, hg, Out.bind, h2]
    · unfold assign
      have hd : deref σ0.world.mem s = s := by
        cases s with
        | mk x y => exact deref_plain _ _ _ hp.1
      simp [hd, hp.2.1, hp.2.2]
  · have hoq : σ0.obj a = some o := by rw [h1]; simp [St.setObj]
    obtain ⟨k1, k2⟩ := key a o h2 hoq h3 h4
    refine ⟨s, _, _, k1, k2, ?_, ?_, ?_, ?_⟩
    · exact held_mono hh (keeps_setObj_same hoq ⟨rfl, rfl, rfl, rfl, rfl⟩)
    · rw [h1]; rfl
    · refine keeps_trans ?_ (keeps_setObj_same hoq ⟨rfl, rfl, rfl, rfl, rfl⟩)
      rw [h1]
      exact keeps_setObj_new o hn
    · intro b hba _
      rw [h1]
      simp [St.setObj, hba]
  · subst h1
    subst hv
    obtain ⟨_, _, hal⟩ := hty
    obtain ⟨hp0, hfree⟩ := hs
    obtain ⟨o, hoq, _⟩ := hal hp0
    obtain ⟨f1, f2⟩ := hfree o hoq
    obtain ⟨k1, k2⟩ := key p o h2 hoq f1 f2
    refine ⟨s, _, _, k1, k2, ?_, rfl, ?_, ?_⟩
    · exact held_mono hh (keeps_setObj_same hoq ⟨rfl, rfl, rfl, rfl, rfl⟩)
    · exact keeps_setObj_same hoq ⟨rfl, rfl, rfl, rfl, rfl⟩
    · intro b _ hbp
      simp [St.setObj, hbp t p rfl]

theorem mem_scripts {vs : List HVal} {t : Nat} {p : Word} (h : HVal.script t p ∈ vs) : p ∈ scripts vs := by
  induction vs with
  | nil => simp at h
  | cons v vs ih =>
    rcases List.mem_cons.1 h with h' | h'
    · subst h'; simp [scripts]
    · clear h
      have h := h'
      clear h'
      cases v <;> simp only [scripts] <;> first | exact ih h | exact List.mem_cons_of_mem _ (ih h)

theorem scripts_nodup_tail {v : HVal} {vs : List HVal} (h : (scripts (v :: vs)).Nodup) : (scripts vs).Nodup := by
  cases v <;> simp only [scripts] at h <;> first | exact h | exact (List.nodup_cons.1 h).2

theorem typed_keeps {σ σ' : St} {v : HVal} (h : Typed σ v) (hk : Keeps σ σ') : Typed σ' v := by
  cases v with
  | script t p =>
    obtain ⟨h1, h2, h3⟩ := h
    refine ⟨h1, h2, fun hp => ?_⟩
    obtain ⟨o, ho, ht⟩ := h3 hp
    obtain ⟨o', ho', hs⟩ := hk p o ho
    exact ⟨o', ho', by rw [hs.1]; exact ht⟩
  | _ => exact h

/-- The rest of a history meets the conditions after a put. -/
theorem rest_ok {σ σ' : St} {a : Word} {v : HVal} {vs : List HVal} (hn : σ.obj a = none)
    (hk : Keeps σ σ') (hf : ∀ b, b ≠ a → (∀ t p, v = .script t p → b ≠ p) → σ'.obj b = σ.obj b)
    (hv : Typed σ v) (hsv : Storable σ v) (hnd : (scripts (v :: vs)).Nodup)
    (hp : ∀ u ∈ vs, Typed σ u ∧ EntryTakes .element u ∧ Storable σ u) :
    (∀ u ∈ vs, Typed σ' u ∧ EntryTakes .element u ∧ Storable σ' u) ∧
    ∀ b, b ≠ a → b ≠ 0 → σ.obj b = none → σ'.obj b = none := by
  constructor
  · intro u hu
    obtain ⟨h1, h2, h3⟩ := hp u hu
    refine ⟨typed_keeps h1 hk, h2, ?_⟩
    cases u with
    | script t p =>
      obtain ⟨hp0, hfree⟩ := h3
      refine ⟨hp0, ?_⟩
      intro o ho
      obtain ⟨o0, ho0, _⟩ := h1.2.2 hp0
      have hpa : p ≠ a := by intro hc; subst hc; rw [hn] at ho0; simp at ho0
      have hq : ∀ t' p', v = .script t' p' → p ≠ p' := by
        intro t' p' hv' hc
        subst hv'; subst hc
        simp only [scripts, List.nodup_cons] at hnd
        exact hnd.1 (mem_scripts hu)
      rw [hf p hpa hq] at ho
      exact hfree o ho
    | _ => exact h3
  · intro b hba hb0 hbn
    rw [hf b hba ?_]
    · exact hbn
    · intro t p hv' hc
      subst hv'
      obtain ⟨o0, ho0, _⟩ := hv.2.2 hsv.1
      rw [← hc, hbn] at ho0
      simp at ho0

theorem run_held : ∀ (os : List Op) (σ : St) (arr : List Stk) (l l' : List (Nat × Seen)),
    AllHeld σ arr l → Fresh σ os → (∀ v ∈ puts os, Typed σ v ∧ EntryTakes .element v ∧ Storable σ v) →
    (scripts (puts os)).Nodup → NoBackslash σ.host os → holds σ.host l os = some l' →
    ∃ σ' arr', run σ arr os = .ok (σ', arr') ∧ AllHeld σ' arr' l' := by
  intro os
  induction os with
  | nil =>
    intro σ arr l l' h _ _ _ _ hl
    simp only [holds, Option.some.injEq] at hl
    subst hl
    exact ⟨σ, arr, rfl, h⟩
  | cons o os ih =>
    intro σ arr l l' h hfr hp hnd hb hl
    cases o with
    | host p c =>
      have hres := ih (σ.setHost p c) arr l l' (allHeld_mono h (fun a o ho => ⟨o, ho, same_refl o⟩)) hfr
        (fun v hv => by
          obtain ⟨h1, h2, h3⟩ := hp v hv
          refine ⟨?_, h2, ?_⟩
          · cases v <;> exact h1
          · cases v <;> exact h3) hnd
        ⟨fun q t hq => by
          by_cases hqp : q = p
          · subst hqp
            simp [St.setHost] at hq
            exact hb.2 q t (by rw [← hq]; exact List.mem_cons_self)
          · simp [St.setHost, hqp] at hq
            exact hb.1 q t hq,
         fun q t hq => hb.2 q t (List.mem_cons_of_mem _ hq)⟩ hl
      obtain ⟨σ', arr', hr, ha⟩ := hres
      exact ⟨σ', arr', by simp [run, step, Out.bind, hr], ha⟩
    | push a c tmp v =>
      obtain ⟨hf1, hf2, hf3⟩ := hfr
      simp only [news, List.nodup_cons] at hf1
      have hfa := hf2 a (by simp [news])
      have hft := hf3 tmp (by simp [temps])
      obtain ⟨pv1, pv2, pv3⟩ := hp v (by simp [puts])
      simp only [holds] at hl
      cases hw : hostSees σ.host v with
      | none => simp [hw] at hl
      | some w =>
        simp only [hw, Option.bind_some] at hl
        obtain ⟨s, σ1, σ', g1, g2, g3, g4, g5, g6⟩ := put_ok (c := c) hfa.1 hfa.2 hft hw pv1 pv2 pv3 hb.1
        have hro := rest_ok hfa.2 g5 g6 pv1 pv3 (by simpa [puts] using hnd)
          (fun u hu => hp u (by simp [puts, hu]))
        have hres := ih σ' (arr ++ [s]) (l ++ [(v.type, w)]) l'
          (allHeld_push (allHeld_mono h g5) g3)
          ⟨hf1.2, fun b hbm => ⟨(hf2 b (by simp [news, hbm])).1,
            hro.2 b (fun hc => hf1.1 (hc ▸ hbm)) (hf2 b (by simp [news, hbm])).1 (hf2 b (by simp [news, hbm])).2⟩,
            fun t htm => hf3 t (by simp [temps, htm])⟩
          hro.1 (scripts_nodup_tail (by simpa [puts] using hnd))
          (by rw [g4]; exact ⟨hb.1, fun p t hq => hb.2 p t (List.mem_cons_of_mem _ hq)⟩)
          (by rw [g4]; exact hl)
        obtain ⟨σ2, arr2, hr, ha⟩ := hres
        refine ⟨σ2, arr2, ?_, ha⟩
        simp [run, step, push, g1, g2, Out.bind, hr]
    | set a c tmp i v =>
      obtain ⟨hf1, hf2, hf3⟩ := hfr
      simp only [news, List.nodup_cons] at hf1
      have hfa := hf2 a (by simp [news])
      have hft := hf3 tmp (by simp [temps])
      obtain ⟨pv1, pv2, pv3⟩ := hp v (by simp [puts])
      simp only [holds] at hl
      cases hw : hostSees σ.host v with
      | none => simp [hw] at hl
      | some w =>
        simp only [hw, Option.bind_some] at hl
        have hlen := h.1
        obtain ⟨s, σ1, σ', g1, g2, g3, g4, g5, g6⟩ := put_ok (c := c) hfa.1 hfa.2 hft hw pv1 pv2 pv3 hb.1
        by_cases hi : 0 ≤ i ∧ i < l.length
        · rw [if_pos hi] at hl
          have hro := rest_ok hfa.2 g5 g6 pv1 pv3 (by simpa [puts] using hnd)
            (fun u hu => hp u (by simp [puts, hu]))
          have hres := ih σ' (arr.set i.toNat s) (l.set i.toNat (v.type, w)) l'
            (allHeld_set (allHeld_mono h g5) g3 _)
            ⟨hf1.2, fun b hbm => ⟨(hf2 b (by simp [news, hbm])).1,
              hro.2 b (fun hc => hf1.1 (hc ▸ hbm)) (hf2 b (by simp [news, hbm])).1 (hf2 b (by simp [news, hbm])).2⟩,
              fun t htm => hf3 t (by simp [temps, htm])⟩
            hro.1 (scripts_nodup_tail (by simpa [puts] using hnd))
            (by rw [g4]; exact ⟨hb.1, fun p t hq => hb.2 p t (List.mem_cons_of_mem _ hq)⟩)
            (by rw [g4]; exact hl)
          obtain ⟨σ2, arr2, hr, ha⟩ := hres
          refine ⟨σ2, arr2, ?_, ha⟩
          have h1 : ¬ i ≥ arr.length := by omega
          have h2 : ¬ i < 0 := by omega
          have hset : set σ arr a c tmp i v = .ok (σ', arr.set i.toNat s) := by
            unfold set
            rw [if_neg h1, g1]
            simp only [Out.bind]
            rw [if_neg h2, g2]
          simp only [run, step, hset, Out.bind, hr]
        · rw [if_neg hi] at hl
          have hres := ih σ arr l l' h
            ⟨hf1.2, fun b hbm => hf2 b (by simp [news, hbm]), fun t htm => hf3 t (by simp [temps, htm])⟩
            (fun u hu => hp u (by simp [puts, hu])) (scripts_nodup_tail (by simpa [puts] using hnd))
            ⟨hb.1, fun p t hq => hb.2 p t (List.mem_cons_of_mem _ hq)⟩ hl
          obtain ⟨σ2, arr2, hr, ha⟩ := hres
          refine ⟨σ2, arr2, ?_, ha⟩
          have hset : set σ arr a c tmp i v = .err := by
            unfold set
            by_cases h1 : i ≥ arr.length
            · rw [if_pos h1]
            · rw [if_neg h1, g1]
              simp only [Out.bind]
              rw [if_pos (by omega)]
          simp only [run, step, hset, Out.bind, hr]

end Verif.Vm.Bridge
