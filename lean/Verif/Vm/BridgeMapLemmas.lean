import Verif.Vm.BridgeArray
import Verif.Vm.BridgeMapSpec
/-
Lemmas for C125.
-/
namespace Verif.Vm.Bridge
open Verif Verif.Vm.Native

/-! ### Fields as a list -/

theorem lookup_none {fs : Fields} {k : Key} : lookup fs k = none ↔ k ∉ fs.map (·.1) := by
  induction fs with
  | nil => simp [lookup]
  | cons f fs ih =>
    unfold lookup
    by_cases h : f.1 = k
    · simp [h]
    · rw [if_neg h, ih]; simp [Ne.symm h, eq_comm, h]

theorem lookup_some_mem {fs : Fields} {k : Key} {s : Stk} (h : lookup fs k = some s) : (k, s) ∈ fs := by
  induction fs with
  | nil => simp [lookup] at h
  | cons f fs ih =>
    unfold lookup at h
    by_cases hf : f.1 = k
    · rw [if_pos hf] at h
      simp only [Option.some.injEq] at h
      subst hf; subst h
      exact List.mem_cons_self
    · rw [if_neg hf] at h
      exact List.mem_cons_of_mem _ (ih h)

theorem mem_lookup {fs : Fields} (hn : (fs.map (·.1)).Nodup) {f : Key × Stk} (h : f ∈ fs) : lookup fs f.1 = some f.2 := by
  induction fs with
  | nil => simp at h
  | cons g fs ih =>
    simp only [List.map_cons, List.nodup_cons] at hn
    unfold lookup
    rcases List.mem_cons.1 h with h | h
    · subst h; simp
    · have hne : g.1 ≠ f.1 := fun hc => hn.1 (hc ▸ List.mem_map_of_mem h)
      rw [if_neg hne]
      exact ih hn.2 h

theorem lookup_append {fs : Fields} {k : Key} {s : Stk} (h : lookup fs k = none) (j : Key) :
    lookup (fs ++ [(k, s)]) j = if j = k then some s else lookup fs j := by
  induction fs with
  | nil => simp [lookup, eq_comm]
  | cons f fs ih =>
    unfold lookup at h
    by_cases hf : f.1 = k
    · rw [if_pos hf] at h; simp at h
    · rw [if_neg hf] at h
      simp only [List.cons_append, lookup, ih h]
      by_cases hj : f.1 = j
      · have : j ≠ k := hj ▸ hf
        simp [hj, this]
      · simp [hj]

theorem lookup_overwrite {fs : Fields} {k : Key} {s o : Stk} (h : lookup fs k = some o) (j : Key) :
    lookup (overwrite fs k s) j = if j = k then some s else lookup fs j := by
  induction fs with
  | nil => simp [lookup] at h
  | cons f fs ih =>
    unfold lookup at h
    by_cases hf : f.1 = k
    · simp only [overwrite, if_pos hf, lookup]
      by_cases hj : j = k
      · simp [hj]
      · rw [if_neg (Ne.symm hj), if_neg hj, if_neg (by rw [hf]; exact Ne.symm hj)]
    · rw [if_neg hf] at h
      simp only [overwrite, if_neg hf, lookup, ih h]
      by_cases hj : f.1 = j
      · have : j ≠ k := hj ▸ hf
        simp [hj, this]
      · simp [hj]

theorem keys_overwrite (fs : Fields) (k : Key) (s : Stk) : (overwrite fs k s).map (·.1) = fs.map (·.1) := by
  induction fs with
  | nil => rfl
  | cons f fs ih =>
    unfold overwrite
    by_cases hf : f.1 = k
    · rw [if_pos hf]; simp [hf]
    · rw [if_neg hf]; simp only [List.map_cons, ih]

theorem keys_remove {fs : Fields} (hn : (fs.map (·.1)).Nodup) (k : Key) :
    (remove fs k).map (·.1) = (fs.map (·.1)).filter (· ≠ k) := by
  induction fs with
  | nil => rfl
  | cons f fs ih =>
    simp only [List.map_cons, List.nodup_cons] at hn
    unfold remove
    by_cases hf : f.1 = k
    · rw [if_pos hf]
      subst hf
      simp only [List.map_cons, ne_eq, not_true_eq_false, decide_false, Bool.false_eq_true, not_false_eq_true,
        List.filter_cons_of_neg]
      symm
      rw [List.filter_eq_self]
      intro a ha
      have : a ≠ f.1 := fun hc => hn.1 (hc ▸ ha)
      simpa using this
    · rw [if_neg hf]
      simp [hf, ih hn.2]

theorem lookup_remove {fs : Fields} (hn : (fs.map (·.1)).Nodup) (k j : Key) :
    lookup (remove fs k) j = if j = k then none else lookup fs j := by
  induction fs with
  | nil => simp [remove, lookup]
  | cons f fs ih =>
    simp only [List.map_cons, List.nodup_cons] at hn
    unfold remove
    by_cases hf : f.1 = k
    · rw [if_pos hf]
      subst hf
      by_cases hj : j = f.1
      · subst hj
        rw [if_pos rfl, lookup_none]
        exact hn.1
      · rw [if_neg hj]
        simp [lookup, Ne.symm hj]
    · rw [if_neg hf]
      simp only [lookup, ih hn.2]
      by_cases hj : f.1 = j
      · have : j ≠ k := hj ▸ hf
        simp [hj, this]
      · simp [hj]

theorem cKey_id {k : Key} (h : (0 : UInt8) ∉ k) : cKey k = k := by
  induction k with
  | nil => rfl
  | cons c k ih =>
    simp only [List.mem_cons, not_or] at h
    have hc : c ≠ 0 := Ne.symm h.1
    have := ih h.2
    simp only [cKey] at this
    simp [cKey, List.takeWhile_cons, hc]
    simpa using this

/-! ### What a change of objects leaves -/

theorem held_local {σ σ' : St} {s : Stk} {t : Nat} {w : Seen} (h : Held σ s t w)
    (hs : s.props = P_OBJECT → σ'.obj s.value = σ.obj s.value) : Held σ' s t w := by
  cases h with
  | int w => exact .int w
  | intPtr w => exact .intPtr w
  | float w => exact .float w
  | floatPtr w => exact .floatPtr w
  | truth b => exact .truth b
  | truthPtr b => exact .truthPtr b
  | null t ht => exact .null t ht
  | text a o t ha alive str own ht => exact .text a o t ha ((hs rfl).trans alive) str own ht
  | script a o ha alive lo hi => exact .script a o ha ((hs rfl).trans alive) lo hi
  | cls a o ha alive lo => exact .cls a o ha ((hs rfl).trans alive) lo
  | native a o ha alive lo hc nb => exact .native a o ha ((hs rfl).trans alive) lo hc nb

theorem held_nonzero {σ : St} {s : Stk} {t : Nat} {w : Seen} (h : Held σ s t w) (hs : s.props = P_OBJECT) : s.value ≠ 0 := by
  cases h <;> first | assumption | exact absurd hs (by simp [P_INT, P_FLOAT, P_BOOL, P_NULL, P_OBJECT])

theorem held_object {σ : St} {s : Stk} {t : Nat} {p : Word} (h : Held σ s t (.object p)) (ht : t ≤ 26) :
    s = ⟨p, P_OBJECT⟩ := by
  cases h with
  | script a o ha alive lo hi => rfl
  | cls a o ha alive lo => rfl
  | native a o ha alive lo hc nb => omega

theorem unref_host (σ : St) (self : Word) (s : Stk) : (unref σ self s).host = σ.host := by
  unfold unref; split <;> rfl

theorem unref_other {σ : St} {self : Word} {s : Stk} {b : Word} (h : s.props = P_OBJECT → b ≠ s.value) :
    (unref σ self s).obj b = σ.obj b := by
  unfold unref
  split
  · rename_i hc
    simp [h hc.1]
  · rfl

theorem unref_none {σ : St} {self : Word} {s : Stk} {b : Word} (h : σ.obj b = none) : (unref σ self s).obj b = none := by
  unfold unref
  split
  · simp [h]
  · exact h

theorem unref_gone {σ : St} {self : Word} {s : Stk} (h : s.props = P_OBJECT) (h1 : s.value ≠ self) (h2 : s.value ≠ 0) :
    (unref σ self s).obj s.value = none := by
  unfold unref; rw [if_pos ⟨h, h1, h2⟩]; simp

/-- The value that the host put, shared and ready to be copied into its slot. -/
theorem put_slot {σ : St} {a c tmp : Word} {v : HVal} {w : Seen} (ha : a ≠ 0) (hn : σ.obj a = none) (ht : tmp ≠ 0)
    (hw : hostSees σ.host v = some w) (hty : Typed σ v) (he : EntryTakes .element v) (hs : Storable σ v)
    (hb : ∀ p t, σ.host p = some (.chars t) → (92 : UInt8) ∉ t) :
    ∃ s σ1, giveShared σ a tmp v = .ok (s, σ1) ∧ Held σ1 s v.type w ∧ σ1.host = σ.host ∧
      (∀ σ2 : St, (s.props = P_OBJECT → σ2.obj s.value = σ1.obj s.value) → assign σ2 c s = .ok (s, σ2)) ∧
      (∀ b, b ≠ a → (∀ t p, v = .script t p → b ≠ p) → σ1.obj b = σ.obj b) ∧
      (s.props = P_OBJECT → (∃ o, σ1.obj s.value = some o ∧ o.shared = true) ∧
        (s.value = a ∨ ∃ t, v = .script t s.value)) ∧
      (∀ t p, v = .script t p → s = ⟨p, P_OBJECT⟩) := by
  obtain ⟨s, σ0, hg, hh, ho⟩ := give_held ha ht hw hty he (storable_givable hs hb)
  have key : ∀ (q : Word) (o : Obj), s = ⟨q, P_OBJECT⟩ → σ0.obj q = some o → o.shared = false → o.konst = false →
      giveShared σ a tmp v = .ok (s, σ0.setObj q { o with shared := true }) ∧
      ∀ σ2 : St, σ2.obj q = some { o with shared := true } → assign σ2 c s = .ok (s, σ2) := by
    intro q o hq hoq h1 h2
    subst hq
    constructor
    · simp [giveShared, hg, Out.bind, createShared, hoq, h1, h2]
    · intro σ2 h3
      unfold assign
      rw [deref_plain _ _ _ (by decide)]
      have hp : (P_OBJECT &&& ~~~P_READ_ONLY) = P_OBJECT := by decide
      have hq : has P_OBJECT P_OBJECT = true := by decide
      simp [hp, hq, h3, h2]
  have script_case : ∀ t p, v = .script t p → s = ⟨p, P_OBJECT⟩ := by
    intro t p hv
    subst hv
    obtain ⟨hp0, _⟩ := hs
    have hw' : w = .object p := by
      have h0 : hostSees σ.host (.script t p) = some (.object p) := by
        show (if p = 0 then _ else _) = _
        rw [if_neg hp0]
      rw [h0] at hw
      exact (Option.some.inj hw).symm
    subst hw'
    exact held_object hh hty.2.1
  rcases ho with ⟨h1, h2⟩ | ⟨o, h1, h2, h3, h4, h5⟩ | ⟨h1, t, p, hv, h2⟩
  · subst h1
    have hp : has s.props P_PTR_STK = false ∧ has s.props P_OBJECT = false ∧ s.props &&& ~~~P_READ_ONLY = s.props := by
      generalize v.type = t at hh
      cases hh <;> first | exact absurd rfl h2 | (refine ⟨?_, ?_, ?_⟩ <;> simp [has, P_PTR_STK, P_OBJECT, P_READ_ONLY, P_INT, P_FLOAT, P_BOOL, P_NULL])
    refine ⟨s, σ0, ?_, hh, rfl, ?_, fun _ _ _ => rfl, fun hc => absurd hc h2, script_case⟩
    · simp [giveShared, hg, Out.bind, h2]
    · intro σ2 _
      unfold assign
      have hd : deref σ2.world.mem s = s := by
        cases s with
        | mk x y => exact deref_plain _ _ _ hp.1
      simp [hd, hp.2.1, hp.2.2]
  · have hoq : σ0.obj a = some o := by rw [h1]; simp [St.setObj]
    obtain ⟨k1, k2⟩ := key a o h2 hoq h3 h4
    refine ⟨s, _, k1, ?_, ?_, ?_, ?_, ?_, script_case⟩
    · exact held_mono hh (keeps_setObj_same hoq ⟨rfl, rfl, rfl, rfl, rfl⟩)
    · rw [h1]; rfl
    · intro σ2 h6
      refine k2 σ2 ?_
      have := h6 (by rw [h2])
      rw [h2] at this
      rw [this]
      simp [St.setObj]
    · intro b hba _
      rw [h1]
      simp [St.setObj, hba]
    · intro _
      rw [h2]
      exact ⟨⟨_, by simp [St.setObj]; rfl, rfl⟩, .inl rfl⟩
  · subst h1
    subst hv
    obtain ⟨_, _, hal⟩ := hty
    obtain ⟨hp0, hfree⟩ := hs
    obtain ⟨o, hoq, _⟩ := hal hp0
    obtain ⟨f1, f2⟩ := hfree o hoq
    obtain ⟨k1, k2⟩ := key p o h2 hoq f1 f2
    refine ⟨s, _, k1, ?_, rfl, ?_, ?_, ?_, script_case⟩
    · exact held_mono hh (keeps_setObj_same hoq ⟨rfl, rfl, rfl, rfl, rfl⟩)
    · intro σ2 h6
      refine k2 σ2 ?_
      have := h6 (by rw [h2])
      rw [h2] at this
      rw [this]
      simp [St.setObj]
    · intro b _ hbp
      simp [St.setObj, hbp t p rfl]
    · intro _
      rw [h2]
      exact ⟨⟨_, by simp [St.setObj]; rfl, rfl⟩, .inr ⟨t, rfl⟩⟩

/-! ### The invariant -/

/-- The fields are the map: the same keys in the same order, each value held, each object that is held by one field alone
and shared. -/
structure Inv (σ : St) (fs : Fields) (m : Dict) : Prop where
  keys : fs.map (·.1) = m.keys
  nodup : m.keys.Nodup
  vals : ∀ k, (lookup fs k = none ∧ m.val k = none) ∨
    ∃ s q, lookup fs k = some s ∧ m.val k = some q ∧ Held σ s q.1 q.2
  alone : ∀ k j s r, lookup fs k = some s → lookup fs j = some r → s.props = P_OBJECT → r.props = P_OBJECT →
    s.value = r.value → k = j
  shared : ∀ k s, lookup fs k = some s → s.props = P_OBJECT → ∃ o, σ.obj s.value = some o ∧ o.shared = true

theorem inv_reads {σ : St} {self : Word} {fs : Fields} {m : Dict} (h : Inv σ fs m) : ReadsAsC σ self fs m := by
  refine ⟨?_, h.keys, ?_⟩
  · rw [← h.keys]; simp [objLength]
  · intro k hk
    rcases h.vals k with ⟨h1, h2⟩ | ⟨s, q, h1, h2, h3⟩
    · refine ⟨fun t w hw => (by rw [h2] at hw; simp at hw), fun _ => ⟨fun t => ?_, ?_, ?_⟩⟩
      · simp [objGet, cKey_id hk, h1]
      · simp [objExists, cKey_id hk, h1]
      · simp [objErase, cKey_id hk, h1]
    · refine ⟨fun t w hw => ⟨?_, ?_, ?_⟩, fun hn => (by rw [h2] at hn; simp at hn)⟩
      · rw [h2] at hw
        have hq := Option.some.inj hw
        subst hq
        simp only [objGet, cKey_id hk, h1]
        exact held_take h3 false (by simp)
      · simp [objExists, cKey_id hk, h1]
      · simp [objErase, cKey_id hk, h1]

/-- What a history still needs of the objects. -/
structure Needs (σ : St) (os : List MOp) : Prop where
  fresh : MFresh σ os
  puts : ∀ v ∈ mputs os, Typed σ v ∧ EntryTakes .element v ∧ Storable σ v
  once : (scripts (mputs os)).Nodup

theorem needs_keep {σ σ' : St} {os : List MOp} (h : Needs σ os)
    (h1 : ∀ t p, HVal.script t p ∈ mputs os → σ'.obj p = σ.obj p)
    (h2 : ∀ b, b ∈ mnews os → σ'.obj b = none) : Needs σ' os := by
  refine ⟨⟨h.fresh.1, fun a ha => ⟨(h.fresh.2.1 a ha).1, h2 a ha⟩, h.fresh.2.2⟩, ?_, h.once⟩
  intro v hv
  obtain ⟨p1, p2, p3⟩ := h.puts v hv
  cases v with
  | script t p =>
    have he := h1 t p hv
    refine ⟨⟨p1.1, p1.2.1, fun hp => ?_⟩, p2, p3.1, fun o ho => ?_⟩
    · obtain ⟨o, ho, ht⟩ := p1.2.2 hp
      exact ⟨o, by rw [he]; exact ho, ht⟩
    · rw [he] at ho
      exact p3.2 o ho
  | _ => exact ⟨p1, p2, p3⟩

/-- An object that the history still puts is alive and no one has it yet. -/
theorem needs_script {σ : St} {os : List MOp} (h : Needs σ os) {t : Nat} {p : Word} (hv : HVal.script t p ∈ mputs os) :
    ∃ o, σ.obj p = some o ∧ o.shared = false := by
  obtain ⟨p1, _, p3⟩ := h.puts _ hv
  obtain ⟨o, ho, _⟩ := p1.2.2 p3.1
  exact ⟨o, ho, (p3.2 o ho).1⟩

/-- After dropping a field. -/
theorem inv_drop {σ : St} {self : Word} {fs : Fields} {m : Dict} {k : Key} {s : Stk} (h : Inv σ fs m)
    (hk : lookup fs k = some s) : Inv (unref σ self s) (remove fs k) (m.drop k) := by
  have hnd : (fs.map (·.1)).Nodup := by rw [h.keys]; exact h.nodup
  have other : ∀ j r, j ≠ k → lookup fs j = some r → r.props = P_OBJECT →
      (unref σ self s).obj r.value = σ.obj r.value := by
    intro j r hj hr hp
    exact unref_other fun hs hc => hj (h.alone j k r s hr hk hp hs hc)
  refine ⟨?_, ?_, ?_, ?_, ?_⟩
  · rw [keys_remove hnd, h.keys]; rfl
  · exact h.nodup.filter _
  · intro j
    rw [lookup_remove hnd]
    by_cases hj : j = k
    · left; simp [hj, Dict.drop]
    · rw [if_neg hj]
      rcases h.vals j with ⟨h1, h2⟩ | ⟨r, q, h1, h2, h3⟩
      · left; exact ⟨h1, by simp [Dict.drop, hj, h2]⟩
      · right
        exact ⟨r, q, h1, by simp [Dict.drop, hj, h2], held_local h3 fun hp => other j r hj h1 hp⟩
  · intro j j' r r' h1 h2
    rw [lookup_remove hnd] at h1 h2
    by_cases hj : j = k
    · simp [hj] at h1
    · by_cases hj' : j' = k
      · simp [hj'] at h2
      · rw [if_neg hj] at h1
        rw [if_neg hj'] at h2
        exact h.alone j j' r r' h1 h2
  · intro j r h1 hp
    rw [lookup_remove hnd] at h1
    by_cases hj : j = k
    · simp [hj] at h1
    · rw [if_neg hj] at h1
      rw [other j r hj h1 hp]
      exact h.shared j r h1 hp

theorem eraseAll_obj (self : Word) : ∀ (fs : Fields) (σ : St) (b : Word),
    (∀ f ∈ fs, f.2.props = P_OBJECT → b ≠ f.2.value) →
    (fs.foldl (fun σ f => unref σ self f.2) σ).obj b = σ.obj b := by
  intro fs
  induction fs with
  | nil => intro σ b _; rfl
  | cons f fs ih =>
    intro σ b h
    rw [List.foldl_cons, ih _ _ (fun g hg => h g (List.mem_cons_of_mem _ hg))]
    exact unref_other (h f List.mem_cons_self)

theorem eraseAll_none (self : Word) : ∀ (fs : Fields) (σ : St) (b : Word), σ.obj b = none →
    (fs.foldl (fun σ f => unref σ self f.2) σ).obj b = none := by
  intro fs
  induction fs with
  | nil => intro σ b h; exact h
  | cons f fs ih =>
    intro σ b h
    rw [List.foldl_cons]
    exact ih _ _ (unref_none h)

theorem eraseAll_host (self : Word) : ∀ (fs : Fields) (σ : St),
    (fs.foldl (fun σ f => unref σ self f.2) σ).host = σ.host := by
  intro fs
  induction fs with
  | nil => intro σ; rfl
  | cons f fs ih =>
    intro σ
    rw [List.foldl_cons, ih, unref_host]

theorem eraseAll_gone (self : Word) : ∀ (fs : Fields) (σ : St) (f : Key × Stk), f ∈ fs → f.2.props = P_OBJECT →
    f.2.value ≠ self → f.2.value ≠ 0 → (fs.foldl (fun σ f => unref σ self f.2) σ).obj f.2.value = none := by
  intro fs
  induction fs with
  | nil => intro σ f h; simp at h
  | cons g fs ih =>
    intro σ f h h1 h2 h3
    rw [List.foldl_cons]
    rcases List.mem_cons.1 h with h | h
    · subst h
      exact eraseAll_none self fs _ _ (unref_gone h1 h2 h3)
    · exact ih _ f h h1 h2 h3

/-- After putting a value into a field that is there. -/
theorem inv_over {σ σ1 : St} {self : Word} {fs : Fields} {m : Dict} {k : Key} {old s : Stk} {q : Nat × Seen} (h : Inv σ fs m)
    (hk : lookup fs k = some old) (hs : Held σ1 s q.1 q.2)
    (hsame : ∀ j r, lookup fs j = some r → r.props = P_OBJECT → σ1.obj r.value = σ.obj r.value)
    (hnew : s.props = P_OBJECT → (∃ o, σ1.obj s.value = some o ∧ o.shared = true) ∧
      ∀ j r, lookup fs j = some r → r.props = P_OBJECT → r.value ≠ s.value) :
    Inv (unref σ1 self old) (overwrite fs k s) (m.put k q) := by
  have hin : k ∈ m.keys := by
    rw [← h.keys]
    exact Classical.byContradiction fun hc => by rw [lookup_none.2 hc] at hk; simp at hk
  have other : ∀ j r, j ≠ k → lookup fs j = some r → r.props = P_OBJECT →
      (unref σ1 self old).obj r.value = σ.obj r.value := by
    intro j r hj hr hp
    rw [unref_other fun ho hc => hj (h.alone j k r old hr hk hp ho hc)]
    exact hsame j r hr hp
  have mine : s.props = P_OBJECT → (unref σ1 self old).obj s.value = σ1.obj s.value := fun hp =>
    unref_other fun ho hc => (hnew hp).2 k old hk ho hc.symm
  refine ⟨?_, ?_, ?_, ?_, ?_⟩
  · rw [keys_overwrite, h.keys]; simp [Dict.put, hin]
  · simp only [Dict.put, if_pos hin]; exact h.nodup
  · intro j
    rw [lookup_overwrite hk]
    by_cases hj : j = k
    · right; exact ⟨s, q, by simp [hj], by simp [Dict.put, hj], held_local hs mine⟩
    · rw [if_neg hj]
      rcases h.vals j with ⟨h1, h2⟩ | ⟨r, x, h1, h2, h3⟩
      · left; exact ⟨h1, by simp [Dict.put, hj, h2]⟩
      · right
        exact ⟨r, x, h1, by simp [Dict.put, hj, h2], held_local h3 fun hp => other j r hj h1 hp⟩
  · intro j j' r r' h1 h2 hp hp' hv
    rw [lookup_overwrite hk] at h1 h2
    by_cases hj : j = k
    · by_cases hj' : j' = k
      · rw [hj, hj']
      · rw [if_pos hj] at h1
        rw [if_neg hj'] at h2
        cases h1
        exact absurd hv.symm ((hnew hp).2 j' r' h2 hp')
    · by_cases hj' : j' = k
      · rw [if_neg hj] at h1
        rw [if_pos hj'] at h2
        cases h2
        exact absurd hv ((hnew hp').2 j r h1 hp)
      · rw [if_neg hj] at h1
        rw [if_neg hj'] at h2
        exact h.alone j j' r r' h1 h2 hp hp' hv
  · intro j r h1 hp
    rw [lookup_overwrite hk] at h1
    by_cases hj : j = k
    · rw [if_pos hj] at h1
      cases h1
      rw [mine hp]
      exact (hnew hp).1
    · rw [if_neg hj] at h1
      rw [other j r hj h1 hp]
      exact h.shared j r h1 hp

/-- After putting a value into a new field. -/
theorem inv_new {σ σ1 : St} {fs : Fields} {m : Dict} {k : Key} {s : Stk} {q : Nat × Seen} (h : Inv σ fs m)
    (hk : lookup fs k = none) (hs : Held σ1 s q.1 q.2)
    (hsame : ∀ j r, lookup fs j = some r → r.props = P_OBJECT → σ1.obj r.value = σ.obj r.value)
    (hnew : s.props = P_OBJECT → (∃ o, σ1.obj s.value = some o ∧ o.shared = true) ∧
      ∀ j r, lookup fs j = some r → r.props = P_OBJECT → r.value ≠ s.value) :
    Inv σ1 (fs ++ [(k, s)]) (m.put k q) := by
  have hin : k ∉ m.keys := by
    rw [← h.keys]
    exact lookup_none.1 hk
  refine ⟨?_, ?_, ?_, ?_, ?_⟩
  · simp [Dict.put, hin, h.keys]
  · simp only [Dict.put, if_neg hin]
    rw [List.nodup_append]
    exact ⟨h.nodup, by simp, fun a ha b hb => by
      simp only [List.mem_singleton] at hb
      subst hb
      exact fun hc => hin (hc ▸ ha)⟩
  · intro j
    rw [lookup_append hk]
    by_cases hj : j = k
    · right; exact ⟨s, q, by simp [hj], by simp [Dict.put, hj], hs⟩
    · rw [if_neg hj]
      rcases h.vals j with ⟨h1, h2⟩ | ⟨r, x, h1, h2, h3⟩
      · left; exact ⟨h1, by simp [Dict.put, hj, h2]⟩
      · right
        exact ⟨r, x, h1, by simp [Dict.put, hj, h2], held_local h3 fun hp => hsame j r h1 hp⟩
  · intro j j' r r' h1 h2 hp hp' hv
    rw [lookup_append hk] at h1 h2
    by_cases hj : j = k
    · by_cases hj' : j' = k
      · rw [hj, hj']
      · rw [if_pos hj] at h1
        rw [if_neg hj'] at h2
        cases h1
        exact absurd hv.symm ((hnew hp).2 j' r' h2 hp')
    · by_cases hj' : j' = k
      · rw [if_neg hj] at h1
        rw [if_pos hj'] at h2
        cases h2
        exact absurd hv ((hnew hp').2 j r h1 hp)
      · rw [if_neg hj] at h1
        rw [if_neg hj'] at h2
        exact h.alone j j' r r' h1 h2 hp hp' hv
  · intro j r h1 hp
    rw [lookup_append hk] at h1
    by_cases hj : j = k
    · rw [if_pos hj] at h1
      cases h1
      exact (hnew hp).1
    · rw [if_neg hj] at h1
      rw [hsame j r h1 hp]
      exact h.shared j r h1 hp

/-- Every object of `D` is gone, or in the map. -/
def Gone (σ : St) (self : Word) (fs : Fields) (m : Dict) (D : Word → Prop) : Prop :=
  ∀ p, D p → p ≠ self → σ.obj p = none ∨ ∃ k t, lookup fs k = some ⟨p, P_OBJECT⟩ ∧ m.val k = some (t, .object p)

theorem mem_scripts_cons {v : HVal} {vs : List HVal} {p : Word} :
    p ∈ scripts (v :: vs) ↔ (∃ t, v = .script t p) ∨ p ∈ scripts vs := by
  cases v <;> simp [scripts, eq_comm]

theorem held_lookup {σ : St} {fs : Fields} {m : Dict} (h : Inv σ fs m) {k : Key} {s : Stk} (hk : lookup fs k = some s)
    (hp : s.props = P_OBJECT) : s.value ≠ 0 := by
  rcases h.vals k with ⟨h1, _⟩ | ⟨r, q, h1, _, h3⟩
  · rw [h1] at hk; simp at hk
  · rw [h1] at hk
    cases hk
    exact held_nonzero h3 hp

theorem needs_tail {σ : St} {o : MOp} {os : List MOp} (h : Needs σ (o :: os)) : Needs σ os := by
  obtain ⟨⟨h1, h2, h3⟩, h4, h5⟩ := h
  cases o with
  | set a c tmp k v =>
    simp only [mnews, List.nodup_cons] at h1
    exact ⟨⟨h1.2, fun b hb => h2 b (by simp [mnews, hb]), fun t ht => h3 t (by simp [mtemps, ht])⟩,
      fun u hu => h4 u (by simp [mputs, hu]), scripts_nodup_tail (by simpa [mputs] using h5)⟩
  | host p c => exact ⟨⟨h1, h2, h3⟩, h4, h5⟩
  | erase k => exact ⟨⟨h1, h2, h3⟩, h4, h5⟩
  | eraseAll => exact ⟨⟨h1, h2, h3⟩, h4, h5⟩

/-- What is needed stays when objects end that are shared. -/
theorem needs_unref {σ : St} {os : List MOp} {self : Word} {s : Stk} (h : Needs σ os)
    (hs : s.props = P_OBJECT → ∃ o, σ.obj s.value = some o ∧ o.shared = true) : Needs (unref σ self s) os := by
  refine needs_keep h ?_ ?_
  · intro t p hv
    refine unref_other fun hp hc => ?_
    obtain ⟨o, ho, hf⟩ := needs_script h hv
    obtain ⟨o', ho', hf'⟩ := hs hp
    rw [hc, ho'] at ho
    cases ho
    rw [hf] at hf'
    simp at hf'
  · intro b hb
    exact unref_none (h.fresh.2.1 b hb).2

theorem run_inv (self : Word) : ∀ (os : List MOp) (σ : St) (fs : Fields) (m m' : Dict) (D : Word → Prop),
    Inv σ fs m → Needs σ os → MNoBackslash σ.host os → (∀ k ∈ mkeys os, (0 : UInt8) ∉ k) →
    dictAfter σ.host m os = some m' → Gone σ self fs m D →
    (∀ p, D p → p ∉ mnews os ∧ p ∉ scripts (mputs os)) →
    ∃ σ' fs', objRun σ self fs os = .ok (σ', fs') ∧ Inv σ' fs' m' ∧
      Gone σ' self fs' m' (fun p => D p ∨ p ∈ scripts (mputs os)) := by
  intro os
  induction os with
  | nil =>
    intro σ fs m m' D h _ _ _ hm hg _
    simp only [dictAfter, Option.some.injEq] at hm
    subst hm
    refine ⟨σ, fs, rfl, h, ?_⟩
    intro p hp
    rcases hp with hp | hp
    · exact hg p hp
    · simp [mputs, scripts] at hp
  | cons o os ih =>
    intro σ fs m m' D h hne hb hks hm hg hd
    have hnt := needs_tail hne
    cases o with
    | host p c =>
      obtain ⟨σ', fs', hr, hi, hgo⟩ := ih (σ.setHost p c) fs m m' D
        ⟨h.keys, h.nodup, fun k => by
          rcases h.vals k with hv | ⟨s, q, h1, h2, h3⟩
          · exact .inl hv
          · exact .inr ⟨s, q, h1, h2, held_local h3 fun _ => rfl⟩, h.alone, h.shared⟩
        (needs_keep hnt (fun _ _ _ => rfl) (fun b hb => (hnt.fresh.2.1 b hb).2))
        ⟨fun q t hq => by
          by_cases hqp : q = p
          · subst hqp
            simp [St.setHost] at hq
            exact hb.2 q t (by rw [← hq]; exact List.mem_cons_self)
          · simp [St.setHost, hqp] at hq
            exact hb.1 q t hq,
         fun q t hq => hb.2 q t (List.mem_cons_of_mem _ hq)⟩ hks hm hg hd
      exact ⟨σ', fs', by simp [objRun, objStep, Out.bind, hr], hi, hgo⟩
    | erase k =>
      have hk0 : (0 : UInt8) ∉ k := hks k (by simp [mkeys])
      simp only [dictAfter] at hm
      have hb' : MNoBackslash σ.host os := ⟨hb.1, fun q t hq => hb.2 q t (List.mem_cons_of_mem _ hq)⟩
      have hks' : ∀ j ∈ mkeys os, (0 : UInt8) ∉ j := fun j hj => hks j (by simp [mkeys, hj])
      cases hl : lookup fs k with
      | none =>
        have hin : k ∉ m.keys := by rw [← h.keys]; exact lookup_none.1 hl
        have hmv : m.val k = none := by
          rcases h.vals k with ⟨_, hv⟩ | ⟨s, q, h1, _, _⟩
          · exact hv
          · rw [hl] at h1; simp at h1
        have hdr : m.drop k = m := by
          cases m with
          | mk ks vl =>
            simp only [Dict.drop, Dict.mk.injEq]
            constructor
            · rw [List.filter_eq_self]
              intro a ha
              have : a ≠ k := fun hc => hin (hc ▸ ha)
              simpa using this
            · funext j
              by_cases hj : j = k
              · simp only [hj, if_true]; exact hmv.symm
              · simp [hj]
        rw [hdr] at hm
        obtain ⟨σ', fs', hr, hi, hgo⟩ := ih σ fs m m' D h hnt hb' hks' hm hg hd
        exact ⟨σ', fs', by simp [objRun, objStep, objErase, cKey_id hk0, hl, Out.bind, hr], hi, hgo⟩
      | some s =>
        have hnd : (fs.map (·.1)).Nodup := by rw [h.keys]; exact h.nodup
        obtain ⟨σ', fs', hr, hi, hgo⟩ := ih (unref σ self s) (remove fs k) (m.drop k) m' D (inv_drop h hl)
          (needs_unref hnt fun hp => h.shared k s hl hp) (by rw [unref_host]; exact hb') hks'
          (by rw [unref_host]; exact hm)
          (by
            intro p hp hps
            rcases hg p hp hps with hn | ⟨j, t, h1, h2⟩
            · exact .inl (unref_none hn)
            · by_cases hj : j = k
              · left
                subst hj
                rw [hl] at h1
                cases h1
                exact unref_gone (s := ⟨p, P_OBJECT⟩) rfl hps (held_lookup h hl rfl)
              · right
                exact ⟨j, t, by rw [lookup_remove hnd, if_neg hj]; exact h1, by simp [Dict.drop, hj, h2]⟩) hd
        exact ⟨σ', fs', by simp [objRun, objStep, objErase, cKey_id hk0, hl, Out.bind, hr], hi, hgo⟩
    | eraseAll =>
      simp only [dictAfter] at hm
      have hb' : MNoBackslash σ.host os := ⟨hb.1, fun q t hq => hb.2 q t (List.mem_cons_of_mem _ hq)⟩
      have hnd : (fs.map (·.1)).Nodup := by rw [h.keys]; exact h.nodup
      obtain ⟨σ', fs', hr, hi, hgo⟩ := ih (fs.foldl (fun σ f => unref σ self f.2) σ) [] Dict.none m' D
        ⟨rfl, by simp [Dict.none], fun k => .inl ⟨rfl, rfl⟩, fun k j s r h1 => by simp [lookup] at h1,
          fun k s h1 => by simp [lookup] at h1⟩
        (needs_keep hnt
          (fun t p hv => eraseAll_obj self fs σ p fun f hf hp hc => by
            obtain ⟨o, ho, hf'⟩ := needs_script hnt hv
            obtain ⟨o', ho', hf''⟩ := h.shared f.1 f.2 (mem_lookup hnd hf) hp
            rw [hc, ho'] at ho
            cases ho
            rw [hf'] at hf''
            simp at hf'')
          (fun b hb => eraseAll_none self fs σ b (hnt.fresh.2.1 b hb).2))
        (by rw [eraseAll_host]; exact hb') hks (by rw [eraseAll_host]; exact hm)
        (by
          intro p hp hps
          left
          rcases hg p hp hps with hn | ⟨j, t, h1, h2⟩
          · exact eraseAll_none self fs σ p hn
          · exact eraseAll_gone self fs σ (j, ⟨p, P_OBJECT⟩) (lookup_some_mem h1) rfl hps (held_lookup h h1 rfl)) hd
      exact ⟨σ', fs', by simp [objRun, objStep, objEraseAll, Out.bind, hr], hi, hgo⟩
    | set a c tmp k v =>
      have hk0 : (0 : UInt8) ∉ k := hks k (by simp [mkeys])
      have hb' : MNoBackslash σ.host os := ⟨hb.1, fun q t hq => hb.2 q t (List.mem_cons_of_mem _ hq)⟩
      have hks' : ∀ j ∈ mkeys os, (0 : UInt8) ∉ j := fun j hj => hks j (by simp [mkeys, hj])
      obtain ⟨⟨hf1, hf2, hf3⟩, hp, hon⟩ := hne
      have hfa := hf2 a (by simp [mnews])
      have hft := hf3 tmp (by simp [mtemps])
      simp only [mnews, List.nodup_cons] at hf1
      obtain ⟨pv1, pv2, pv3⟩ := hp v (by simp [mputs])
      have hvs : ∀ t p, v = .script t p → ∃ o, σ.obj p = some o ∧ o.shared = false := by
        intro t p hv
        subst hv
        obtain ⟨o, ho, _⟩ := pv1.2.2 pv3.1
        exact ⟨o, ho, (pv3.2 o ho).1⟩
      simp only [dictAfter] at hm
      cases hw : hostSees σ.host v with
      | none => simp [hw] at hm
      | some w =>
        simp only [hw, Option.bind_some] at hm
        obtain ⟨s, σ1, g1, g2, g3, g4, g5, g6, g7⟩ := put_slot (c := c) hfa.1 hfa.2 hft hw pv1 pv2 pv3 hb.1
        have hdiff : ∀ j r, lookup fs j = some r → r.props = P_OBJECT →
            r.value ≠ a ∧ ∀ t p, v = .script t p → r.value ≠ p := by
          intro j r hj hr
          obtain ⟨o, ho, hsh⟩ := h.shared j r hj hr
          refine ⟨fun hc => ?_, fun t p hv hc => ?_⟩
          · rw [hc, hfa.2] at ho; simp at ho
          · obtain ⟨o', ho', hf'⟩ := hvs t p hv
            rw [hc, ho'] at ho
            cases ho
            rw [hf'] at hsh
            simp at hsh
        have hsame : ∀ j r, lookup fs j = some r → r.props = P_OBJECT → σ1.obj r.value = σ.obj r.value :=
          fun j r hj hr => g5 _ (hdiff j r hj hr).1 (hdiff j r hj hr).2
        have hnew : s.props = P_OBJECT → (∃ o, σ1.obj s.value = some o ∧ o.shared = true) ∧
            ∀ j r, lookup fs j = some r → r.props = P_OBJECT → r.value ≠ s.value := by
          intro hsp
          obtain ⟨e1, e2⟩ := g6 hsp
          refine ⟨e1, fun j r hj hr hc => ?_⟩
          rcases e2 with e2 | ⟨t, e2⟩
          · exact (hdiff j r hj hr).1 (hc.trans e2)
          · exact (hdiff j r hj hr).2 t _ e2 hc
        have hn1 : Needs σ1 os := by
          refine needs_keep hnt ?_ ?_
          · intro t p hv
            obtain ⟨o, ho, _⟩ := needs_script hnt hv
            refine g5 p (fun hc => ?_) (fun t' p' hv' hc => ?_)
            · rw [hc, hfa.2] at ho; simp at ho
            · subst hv'; subst hc
              simp only [mputs, scripts, List.nodup_cons] at hon
              exact hon.1 (mem_scripts hv)
          · intro b hbm
            have hbn := (hnt.fresh.2.1 b hbm).2
            rw [g5 b (fun hc => hf1.1 (hc ▸ hbm)) (fun t p hv hc => ?_)]
            · exact hbn
            · obtain ⟨o, ho, _⟩ := hvs t p hv
              rw [← hc, hbn] at ho; simp at ho
        have hwv : ∀ t p, v = .script t p → w = .object p := by
          intro t p hv
          subst hv
          have h0 : hostSees σ.host (.script t p) = some (.object p) := by
            show (if p = 0 then _ else _) = _
            rw [if_neg pv3.1]
          rw [h0] at hw
          exact (Option.some.inj hw).symm
        have hd1 : ∀ p, D p → σ1.obj p = σ.obj p := by
          intro p hp
          obtain ⟨d1, d2⟩ := hd p hp
          refine g5 p (fun hc => d1 (by simp [mnews, hc])) (fun t p' hv hc => d2 ?_)
          rw [mputs, mem_scripts_cons]
          exact .inl ⟨t, by rw [hv, hc]⟩
        have hd2 : ∀ p, (D p ∨ ∃ t, v = .script t p) → p ∉ mnews os ∧ p ∉ scripts (mputs os) := by
          intro p hp
          rcases hp with hp | ⟨t, hp⟩
          · obtain ⟨d1, d2⟩ := hd p hp
            rw [mputs, mem_scripts_cons] at d2
            simp only [mnews, List.mem_cons, not_or] at d1 d2
            exact ⟨d1.2, d2.2⟩
          · obtain ⟨o, ho, _⟩ := hvs t p hp
            subst hp
            simp only [mputs, scripts, List.nodup_cons] at hon
            refine ⟨fun hc => ?_, hon.1⟩
            rw [(hnt.fresh.2.1 p hc).2] at ho; simp at ho
        have fin : ∀ σ' fs', Gone σ' self fs' m' (fun p => (D p ∨ ∃ t, v = .script t p) ∨ p ∈ scripts (mputs os)) →
            Gone σ' self fs' m' (fun p => D p ∨ p ∈ scripts (mputs (MOp.set a c tmp k v :: os))) := by
          intro σ' fs' hgo p hp
          refine hgo p ?_
          rw [mputs, mem_scripts_cons] at hp
          rcases hp with hp | hp | hp
          · exact .inl (.inl hp)
          · exact .inl (.inr hp)
          · exact .inr hp
        cases hl : lookup fs k with
        | none =>
          obtain ⟨σ', fs', hr, hi, hgo⟩ := ih σ1 (fs ++ [(k, s)]) (m.put k (v.type, w)) m'
            (fun p => D p ∨ ∃ t, v = .script t p) (inv_new h hl g2 hsame hnew) hn1 (by rw [g3]; exact hb') hks'
            (by rw [g3]; exact hm)
            (by
              intro p hp hps
              by_cases hpd : D p
              · rcases hg p hpd hps with hn | ⟨j, t, h1, h2⟩
                · exact .inl (by rw [hd1 p hpd]; exact hn)
                · have hj : j ≠ k := by intro hc; subst hc; rw [hl] at h1; simp at h1
                  exact .inr ⟨j, t, by rw [lookup_append hl, if_neg hj]; exact h1, by simp [Dict.put, hj, h2]⟩
              · obtain ⟨t, hv⟩ := hp.resolve_left hpd
                exact .inr ⟨k, v.type, by rw [lookup_append hl, if_pos rfl, g7 t p hv],
                  by simp [Dict.put, hwv t p hv]⟩) hd2
          refine ⟨σ', fs', ?_, hi, fin _ _ hgo⟩
          have hset : objSet σ self fs a c tmp k v = .ok (σ1, fs ++ [(k, s)]) := by
            simp [objSet, g1, Out.bind, cKey_id hk0, hl, g4 σ1 (fun _ => rfl)]
          simp [objRun, objStep, hset, Out.bind, hr]
        | some old =>
          obtain ⟨σ', fs', hr, hi, hgo⟩ := ih (unref σ1 self old) (overwrite fs k s) (m.put k (v.type, w)) m'
            (fun p => D p ∨ ∃ t, v = .script t p) (inv_over h hl g2 hsame hnew)
            (needs_unref hn1 fun hp => by rw [hsame k old hl hp]; exact h.shared k old hl hp)
            (by rw [unref_host, g3]; exact hb') hks'
            (by rw [unref_host, g3]; exact hm)
            (by
              intro p hp hps
              by_cases hpd : D p
              · rcases hg p hpd hps with hn | ⟨j, t, h1, h2⟩
                · exact .inl (unref_none (by rw [hd1 p hpd]; exact hn))
                · by_cases hj : j = k
                  · subst hj
                    rw [hl] at h1
                    cases h1
                    exact .inl (unref_gone (s := ⟨p, P_OBJECT⟩) rfl hps (held_lookup h hl rfl))
                  · exact .inr ⟨j, t, by rw [lookup_overwrite hl, if_neg hj]; exact h1, by simp [Dict.put, hj, h2]⟩
              · obtain ⟨t, hv⟩ := hp.resolve_left hpd
                exact .inr ⟨k, v.type, by rw [lookup_overwrite hl, if_pos rfl, g7 t p hv],
                  by simp [Dict.put, hwv t p hv]⟩) hd2
          refine ⟨σ', fs', ?_, hi, fin _ _ hgo⟩
          have hset : objSet σ self fs a c tmp k v = .ok (unref σ1 self old, overwrite fs k s) := by
            have hmine : s.props = P_OBJECT → (unref σ1 self old).obj s.value = σ1.obj s.value := fun hsp =>
              unref_other fun ho hc => (hnew hsp).2 k old hl ho hc.symm
            simp [objSet, g1, Out.bind, cKey_id hk0, hl, g4 _ hmine]
          simp [objRun, objStep, hset, Out.bind, hr]

end Verif.Vm.Bridge
