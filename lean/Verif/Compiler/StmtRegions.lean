import Verif.Compiler.StmtScopes
/-
Proof of C28, second part: positions and open scopes the machine can be at.
-/
namespace Verif.Comp
open Verif Verif.Vm

/-- Where an instruction at `q` can go when the scopes `o` are open. The array of scopes has room, and there is a scope to leave. -/
def Flow (K : Nat → List Nat → Prop) (q : Nat) (o : List Nat) : SI → Prop
  | .jmp off => K ((q : Int) + off).toNat o
  | .jnt off => K (q + 1) o ∧ K ((q : Int) + off).toNat o
  | .jt off => K (q + 1) o ∧ K ((q : Int) + off).toNat o
  | .ext (.push k) => o.length < 10 ∧ K (q + 1) (k :: o)
  | .ext .pop => ∃ k o', o = k :: o' ∧ K (q + 1) o'
  | .ext (.jeCase off) => K (q + 1) o ∧ K ((q : Int) + off).toNat o
  | .ext (.jmpCase off) => K ((q : Int) + off).toNat o
  | .ext .brk => False
  | .ext .cont => False
  | .ext .ret => True
  | .ext .fin => True
  | _ => K (q + 1) o

theorem Flow.mono {K K' : Nat → List Nat → Prop} (hK : ∀ q o, K q o → K' q o) {q : Nat} {o : List Nat} {i : SI} (h : Flow K q o i) :
    Flow K' q o i := by
  cases i with
  | ext x =>
    cases x <;> simp only [Flow] at h ⊢ <;>
      first
      | exact hK _ _ h
      | exact ⟨hK _ _ h.1, hK _ _ h.2⟩
      | exact ⟨h.1, hK _ _ h.2⟩
      | (obtain ⟨k, o', e, h⟩ := h; exact ⟨k, o', e, hK _ _ h⟩)
  | jmp _ => exact hK _ _ h
  | jnt _ => exact ⟨hK _ _ h.1, hK _ _ h.2⟩
  | jt _ => exact ⟨hK _ _ h.1, hK _ _ h.2⟩
  | _ => exact hK _ _ h

/-- The machine goes where `Flow` says, or stops. -/
theorem flow_exec {B : Base} {halt : Nat} {K : Nat → List Nat → Prop} {i : SI} {c c' : Cfg B.S.Val B.SSt} (h : Flow K c.pc c.st.2 i)
    (e : exec (B.mach 10 halt) i c = .ok c') : K c'.pc c'.st.2 ∨ ((i = .ext .ret ∨ i = .ext .fin) ∧ c'.pc = halt ∧ c'.st.2 = []) := by
  obtain ⟨pc, stk, s, o⟩ := c
  have res : ∀ (stk stk' : List B.S.Val) (r : Out (B.S.Val × B.S.St)), K (pc + 1) o →
      pushRes (B.mach 10 halt) ⟨pc, stk', (s, o)⟩ stk (B.keep o r) = .ok c' → K c'.pc c'.st.2 := by
    intro stk stk' r hk he
    cases r <;> cases he
    exact hk
  have map1 : ∀ {α : Type} (r : Out α) (f : α → Cfg B.S.Val B.SSt), r.map f = .ok c' → ∃ a, c' = f a := by
    intro α r f he
    cases r <;> cases he
    exact ⟨_, rfl⟩
  cases i with
  | loadK k => cases e; exact .inl h
  | loadR k => cases e; exact .inl h
  | loadT k => cases e; exact .inl h
  | loadG k => exact .inl (res _ _ _ h e)
  | op k =>
    match stk, e with
    | _ :: _ :: _, e => exact .inl (res _ _ _ h e)
    | [_], e => cases e
    | [], e => cases e
  | opR k v =>
    match stk, e with
    | _ :: _, e => exact .inl (res _ _ _ h e)
    | [], e => cases e
  | opRR k v w => exact .inl (res _ _ _ h e)
  | opRK k v w => exact .inl (res _ _ _ h e)
  | opKR k v w => exact .inl (res _ _ _ h e)
  | inst k =>
    match stk, e with
    | _ :: _, e => exact .inl (res _ _ _ h e)
    | [], e => cases e
  | un k =>
    match stk, e with
    | _ :: _, e => exact .inl (res _ _ _ h e)
    | [], e => cases e
  | jmp off => cases e; exact .inl h
  | jnt off =>
    match stk, e with
    | [], e => cases e
    | a :: _, e =>
      simp only [exec] at e
      split at e
      · cases e
      · rename_i b _
        cases b <;> cases e
        · exact .inl h.2
        · exact .inl h.1
  | jt off =>
    match stk, e with
    | [], e => cases e
    | a :: _, e =>
      simp only [exec] at e
      split at e
      · cases e
      · rename_i b _
        cases b <;> cases e
        · exact .inl h.1
        · exact .inl h.2
  | markAnd => cases e
  | markOr => cases e
  | app f n =>
    simp only [exec] at e
    split at e
    · cases e
    · exact .inl (res _ _ _ h e)
  | ext x =>
    have e : B.exec 10 halt x ⟨pc, stk, (s, o)⟩ = .ok c' := e
    cases x with
    | addr r => cases e; exact .inl h
    | store op rst =>
      simp only [Base.exec] at e
      split at e
      · obtain ⟨a, rfl⟩ := map1 _ _ e; exact .inl h
      · cases e
    | storeN n =>
      simp only [Base.exec] at e
      split at e
      · cases e
      · obtain ⟨a, rfl⟩ := map1 _ _ e; exact .inl h
    | step op rst =>
      simp only [Base.exec] at e
      split at e
      · obtain ⟨a, rfl⟩ := map1 _ _ e; exact .inl h
      · cases e
    | callR f n =>
      simp only [Base.exec] at e
      split at e
      · cases e
      · obtain ⟨a, rfl⟩ := map1 _ _ e; exact .inl h
    | reset => cases e; exact .inl h
    | push k =>
      simp only [Base.exec] at e
      split at e
      · cases e
      · cases e; exact .inl h.2
    | pop =>
      obtain ⟨k, o', rfl, h⟩ := h
      cases e; exact .inl h
    | jeCase off =>
      simp only [Base.exec] at e
      split at e
      · obtain ⟨a, rfl⟩ := map1 _ _ e
        split
        · exact .inl h.2
        · exact .inl h.1
      · cases e
    | jmpCase off => cases e; exact .inl h
    | brk => exact absurd h id
    | cont => exact absurd h id
    | itInit =>
      simp only [Base.exec] at e
      split at e
      · obtain ⟨a, rfl⟩ := map1 _ _ e; exact .inl h
      · cases e
    | member =>
      simp only [Base.exec] at e
      split at e
      · cases e; exact .inl h
      · cases e
    | itEnd =>
      simp only [Base.exec] at e
      split at e
      · obtain ⟨a, rfl⟩ := map1 _ _ e; exact .inl h
      · cases e
    | itGet n =>
      simp only [Base.exec] at e
      split at e
      · obtain ⟨a, rfl⟩ := map1 _ _ e; exact .inl h
      · cases e
    | itNext =>
      simp only [Base.exec] at e
      split at e
      · obtain ⟨a, rfl⟩ := map1 _ _ e; exact .inl h
      · cases e
    | ret => cases e; exact .inr ⟨.inl rfl, rfl, rfl⟩
    | fin => cases e; exact .inr ⟨.inr rfl, rfl, rfl⟩

/-! ### Closed sets -/

/-- A set of positions in `[lo, hi)` with open scopes on top of `base`, closed under steps up to exits `X`. -/
structure Closed (P : List SI) (lo hi : Nat) (base : List Nat) (X R : Nat → List Nat → Prop) : Prop where
  range : ∀ q o, R q o → lo ≤ q ∧ q < hi ∧ base <:+ o ∧ o.length ≤ 10
  flow : ∀ q o i, R q o → P[q]? = some i → Flow (fun q o => X q o ∨ R q o) q o i

/-- Everything that can happen from `q` with `o` open stays in a closed set until an exit. -/
def Stay (P : List SI) (lo hi : Nat) (base : List Nat) (X : Nat → List Nat → Prop) (q : Nat) (o : List Nat) : Prop :=
  ∃ R, Closed P lo hi base X R ∧ R q o

section
variable {P : List SI} {lo hi : Nat} {base : List Nat} {X : Nat → List Nat → Prop}

/-- At an exit or inside. -/
def Enter (P : List SI) (lo hi : Nat) (base : List Nat) (X : Nat → List Nat → Prop) (q : Nat) (o : List Nat) : Prop :=
  X q o ∨ Stay P lo hi base X q o

theorem stay_closed : Closed P lo hi base X (Stay P lo hi base X) where
  range := fun q o ⟨_, h, hR⟩ => h.range q o hR
  flow := fun q o i ⟨R, h, hR⟩ hi => (h.flow q o i hR hi).mono fun q' o' h' => h'.imp id fun hr => ⟨R, h, hr⟩

theorem stay_node {q : Nat} {o : List Nat} (h1 : lo ≤ q) (h2 : q < hi) (h3 : base <:+ o) (h4 : o.length ≤ 10)
    (hf : ∀ i, P[q]? = some i → Flow (Enter P lo hi base X) q o i) : Stay P lo hi base X q o := by
  refine ⟨fun q' o' => (q' = q ∧ o' = o) ∨ Stay P lo hi base X q' o', ⟨?_, ?_⟩, .inl ⟨rfl, rfl⟩⟩
  · rintro q' o' (⟨rfl, rfl⟩ | h)
    · exact ⟨h1, h2, h3, h4⟩
    · exact stay_closed.range _ _ h
  · rintro q' o' i (⟨rfl, rfl⟩ | h) hi
    · exact (hf i hi).mono fun q2 o2 h => h.imp id .inr
    · exact (stay_closed.flow _ _ i h hi).mono fun q2 o2 h => h.imp id .inr

/-- A way back to the start of a loop is no exit. -/
theorem stay_loop {q : Nat} {o : List Nat} (h : Stay P lo hi base (fun q' o' => X q' o' ∨ (q' = q ∧ o' = o)) q o) :
    Stay P lo hi base X q o := by
  obtain ⟨R, hc, hR⟩ := h
  refine ⟨R, ⟨hc.range, fun q' o' i h hi => (hc.flow q' o' i h hi).mono fun q2 o2 h2 => ?_⟩, hR⟩
  rcases h2 with (h2 | ⟨rfl, rfl⟩) | h2
  · exact .inl h2
  · exact .inr hR
  · exact .inr h2

theorem enter_mono {X' : Nat → List Nat → Prop} (hX : ∀ q o, X q o → X' q o) {q : Nat} {o : List Nat} (h : Enter P lo hi base X q o) :
    Enter P lo hi base X' q o := by
  rcases h with h | ⟨R, hc, hR⟩
  · exact .inl (hX q o h)
  · exact .inr ⟨R, ⟨hc.range, fun q' o' i h hi => (hc.flow q' o' i h hi).mono fun q2 o2 h2 => h2.imp (hX _ _) id⟩, hR⟩

theorem one_node {q : Nat} {o : List Nat} {i : SI} (hq : P[q]? = some i) (h1 : lo ≤ q) (h2 : q < hi) (h3 : base <:+ o)
    (h4 : o.length ≤ 10) (hf : Flow (Enter P lo hi base X) q o i) : Stay P lo hi base X q o :=
  stay_node h1 h2 h3 h4 fun j hj => by rw [hq] at hj; cases hj; exact hf

theorem inR_get : (c : List SI) → InR c → (j : Nat) → (i : SI) → (off : Int) → c[j]? = some i → i.off? = some off →
    1 ≤ off ∧ (j : Int) + off ≤ c.length
  | [], _, j, i, off, h, _ => by simp at h
  | x :: c, hr, 0, i, off, h, ho => by
    simp at h; subst h
    have := hr.1 off ho
    simp only [List.length_cons]
    omega
  | x :: c, hr, j + 1, i, off, h, ho => by
    have := inR_get c hr.2 j i off (by simpa using h) ho
    simp only [List.length_cons]
    omega

theorem plain_flow {K : Nat → List Nat → Prop} {q : Nat} {o : List Nat} {i : SI} (hp : plainI i = true) (h1 : K (q + 1) o)
    (h2 : ∀ off, i.off? = some off → K ((q : Int) + off).toNat o) : Flow K q o i := by
  cases i with
  | ext x => cases x <;> first | exact h1 | cases hp
  | jmp off => exact h2 off rfl
  | jnt off => exact ⟨h1, h2 off rfl⟩
  | jt off => exact ⟨h1, h2 off rfl⟩
  | _ => exact h1

/-- Code of expressions. -/
theorem plain_enter {p bt ct : Nat} {c : List SI} {sc : List Nat} (hc : Plain c) (ha : At P p c bt ct) (hlo : lo ≤ p) (hhi : p + c.length ≤ hi)
    (hb : base <:+ sc) (hs : sc.length ≤ 10) (hK : Enter P lo hi base X (p + c.length) sc) (hne : c ≠ []) :
    Stay P lo hi base X p sc := by
  have key : ∀ q o, (p ≤ q ∧ q < p + c.length ∧ o = sc) ∨ Stay P lo hi base X q o → lo ≤ q ∧ q < hi ∧ base <:+ o ∧ o.length ≤ 10 := by
    rintro q o (⟨h1, h2, rfl⟩ | h)
    · exact ⟨by omega, by omega, hb, hs⟩
    · exact stay_closed.range _ _ h
  refine ⟨fun q o => (p ≤ q ∧ q < p + c.length ∧ o = sc) ∨ Stay P lo hi base X q o, ⟨key, ?_⟩, ?_⟩
  · rintro q o i (⟨h1, h2, rfl⟩ | h) hi'
    · have hx : c[q - p]? = some c[q - p] := List.getElem?_eq_getElem (by omega)
      generalize c[q - p] = x at hx
      have hat := ha _ _ hx
      rw [show p + (q - p) = q by omega, hi'] at hat
      have hpl := hc.plain x (List.mem_of_getElem? hx)
      have hr : res bt ct q x = x := by
        cases x with
        | ext y => cases y <;> first | rfl | cases hpl
        | _ => rfl
      rw [hr] at hat
      cases hat
      have go : ∀ t : Nat, p ≤ t → t ≤ p + c.length →
          X t o ∨ ((p ≤ t ∧ t < p + c.length ∧ o = o) ∨ Stay P lo hi base X t o) := by
        intro t ht1 ht2
        by_cases ht : t = p + c.length
        · subst ht
          rcases hK with h | h
          · exact .inl h
          · exact .inr (.inr h)
        · exact .inr (.inl ⟨ht1, by omega, rfl⟩)
      refine plain_flow hpl (go _ (by omega) (by omega)) fun off hoff => ?_
      have := inR_get c hc.inR _ _ _ hx hoff
      exact go _ (by omega) (by omega)
    · exact (stay_closed.flow _ _ i h hi').mono fun q2 o2 h => h.imp id .inr
  · exact .inl ⟨Nat.le_refl _, by have := List.length_pos_iff.mpr hne; omega, rfl⟩

theorem plain_enter' {p bt ct : Nat} {c : List SI} {sc : List Nat} (hc : Plain c) (ha : At P p c bt ct) (hlo : lo ≤ p) (hhi : p + c.length ≤ hi)
    (hb : base <:+ sc) (hs : sc.length ≤ 10) (hK : Enter P lo hi base X (p + c.length) sc) : Enter P lo hi base X p sc := by
  by_cases hne : c = []
  · subst hne; exact hK
  · exact .inr (plain_enter hc ha hlo hhi hb hs hK hne)

/-- A loop. -/
theorem loop_enter {p k bt ct : Nat} {pre hd body tail : List SI} {sc : List Nat} (hat : At P p (loopCode pre hd k body tail) bt ct)
    (hlo : lo ≤ p) (hhi : p + (loopCode pre hd k body tail).length ≤ hi) (hb : base <:+ sc) (hs : sc.length < 10)
    (hpre : Plain pre) (htail : Plain tail)
    (hhead : ∀ (X' : Nat → List Nat → Prop) (bt' ct' : Nat), At P (p + pre.length) hd bt' ct' →
      Enter P lo hi base X' (p + (loopCode pre hd k body tail).length) sc → Stay P lo hi base X' (p + pre.length + hd.length) sc →
      Stay P lo hi base X' (p + pre.length) sc)
    (hbody : ∀ (X' : Nat → List Nat → Prop) (bt' ct' : Nat), At P (p + pre.length + hd.length + 1) body bt' ct' →
      ct' = p + pre.length + hd.length + 1 + body.length → Enter P lo hi base X' ct' (k :: sc) → Enter P lo hi base X' bt' (k :: sc) →
      Enter P lo hi base X' (p + pre.length + hd.length + 1) (k :: sc))
    (hK : Enter P lo hi base X (p + (loopCode pre hd k body tail).length) sc) : Enter P lo hi base X p sc := by
  obtain ⟨bt', ct', hct, hbt, hlen, h1, h2, h3, h4, h5, h6, ⟨off, h7, hoff⟩, h8⟩ := loop_at hat
  have hbk : base <:+ k :: sc := hb.trans (List.suffix_cons _ _)
  have hk10 : (k :: sc).length ≤ 10 := by simp only [List.length_cons]; omega
  rw [hlen] at hhi hK hhead
  refine plain_enter' hpre h1 hlo (by omega) hb (by omega) (.inr (stay_loop ?_))
  have hK' := enter_mono (X' := fun q' o' => X q' o' ∨ (q' = p + pre.length ∧ o' = sc)) (fun q o h => .inl h) hK
  generalize hX' : (fun q' o' => X q' o' ∨ (q' = p + pre.length ∧ o' = sc)) = X' at hK'
  have hback : X' (p + pre.length) sc := by rw [← hX']; exact .inr ⟨rfl, rfl⟩
  have hpop2 : Stay P lo hi base X' bt' (k :: sc) := one_node h8 (by omega) (by omega) hbk hk10 ⟨k, sc, rfl, hK'⟩
  have hjmp : Stay P lo hi base X' (ct' + 1 + tail.length) sc := by
    refine one_node h7 (by omega) (by omega) hb (by omega) ?_
    show Enter P lo hi base X' _ sc
    rw [hoff]
    exact .inl hback
  have htl : Enter P lo hi base X' (ct' + 1) sc := plain_enter' htail h6 (by omega) (by omega) hb (by omega) (.inr hjmp)
  have hpop1 : Stay P lo hi base X' ct' (k :: sc) := one_node h5 (by omega) (by omega) hbk hk10 ⟨k, sc, rfl, htl⟩
  have hbod := hbody X' bt' ct' h4 hct (.inr hpop1) (.inr hpop2)
  have hpush : Stay P lo hi base X' (p + pre.length + hd.length) sc :=
    one_node h3 (by omega) (by omega) hb (by omega) ⟨hs, hbod⟩
  exact hhead X' bt' ct' h2 hK' hpush

/-- Code inside a scope. -/
theorem scope_enter {p k bt ct : Nat} {vars : Bool} {code : List SI} {sc : List Nat} (hat : At P p (inScope k vars code) bt ct)
    (hlo : lo ≤ p) (hhi : p + (inScope k vars code).length ≤ hi) (hb : base <:+ sc) (hs : sc.length < 10)
    (hbody : ∀ (q : Nat) (sc' : List Nat), At P q code bt ct → lo ≤ q → q + code.length ≤ hi → base <:+ sc' →
      sc'.length ≤ sc.length + 1 → (vars = false → sc' = sc) → Enter P lo hi base X (q + code.length) sc' → Enter P lo hi base X q sc')
    (hK : Enter P lo hi base X (p + (inScope k vars code).length) sc) : Enter P lo hi base X p sc := by
  cases vars with
  | false => exact hbody p sc hat hlo hhi hb (by omega) (fun _ => rfl) hK
  | true =>
    simp only [inScope, if_true, List.cons_append] at hat hhi hK
    obtain ⟨h1, h2⟩ := at_cons.mp hat
    obtain ⟨h2, h3⟩ := at_append.mp h2
    have h3 := at_one h3
    simp only [List.length_cons, List.length_append, List.length_nil] at hhi hK
    have hbk : base <:+ k :: sc := hb.trans (List.suffix_cons _ _)
    have hk10 : (k :: sc).length ≤ 10 := by simp only [List.length_cons]; omega
    have hpop : Stay P lo hi base X (p + 1 + code.length) (k :: sc) :=
      one_node h3 (by omega) (by omega) hbk hk10 ⟨k, sc, rfl, by
        rw [show p + 1 + code.length + 1 = p + (code.length + (0 + 1) + 1) by omega]; exact hK⟩
    have := hbody (p + 1) (k :: sc) h2 (by omega) (by omega) hbk (by simp) (by simp) (.inr hpop)
    exact .inr (one_node h1 (by omega) (by omega) hb (by omega) ⟨hs, this⟩)

theorem loop_length {pre hd body tail : List SI} {k : Nat} :
    (loopCode pre hd k body tail).length = pre.length + hd.length + 1 + body.length + 1 + tail.length + 2 := by
  simp only [loopCode, resolve_length, List.length_append, List.length_cons, List.length_nil]

theorem defaultOff_mem : (tab : List (Option Lab × Nat)) → (off : Nat) → defaultOff tab = some off → ∃ l, (l, off) ∈ tab
  | [], _, h => by cases h
  | (none, o) :: tab, off, h => by simp only [defaultOff] at h; cases h; exact ⟨none, by simp⟩
  | (some l, o) :: tab, off, h => by
    simp only [defaultOff] at h
    obtain ⟨l', h⟩ := defaultOff_mem tab off h
    exact ⟨l', List.mem_cons_of_mem _ h⟩

/-- The comparisons of a `switch`. -/
theorem cases_enter {q size bt ct : Nat} {sc : List Nat} (hb : base <:+ sc) (hs : sc.length ≤ 10) (hlo : lo ≤ q) (hhi : q + size ≤ hi)
    (hK : Enter P lo hi base X (q + size) sc) : (i : Nat) → (tab : List (Option Lab × Nat)) → i + 2 * caseCount tab = size →
    At P (q + i) (caseCode size i tab) bt ct → (∀ l off, (l, off) ∈ tab → Enter P lo hi base X (q + size + 1 + off) sc) →
    Enter P lo hi base X (q + i) sc
  | i, [], hsz, _, _ => by
    simp only [caseCount] at hsz
    rw [show i = size by omega]; exact hK
  | i, (none, off) :: rest, hsz, hat, ht => by
    simp only [caseCount] at hsz
    simp only [caseCode] at hat
    exact cases_enter hb hs hlo hhi hK i rest hsz hat fun l o h => ht l o (List.mem_cons_of_mem _ h)
  | i, (some l, off) :: rest, hsz, hat, ht => by
    simp only [caseCount] at hsz
    simp only [caseCode] at hat
    obtain ⟨h1, h2⟩ := at_cons.mp hat
    obtain ⟨h2, h3⟩ := at_cons.mp h2
    have ih := cases_enter hb hs hlo hhi hK (i + 2) rest (by omega) h3 fun l o h => ht l o (List.mem_cons_of_mem _ h)
    have hj : Stay P lo hi base X (q + i + 1) sc := by
      refine one_node h2 (by omega) (by omega) hb hs ⟨ih, ?_⟩
      have := ht (some l) off (by simp)
      rw [show (((q + i + 1 : Nat) : Int) + ((off : Int) + (size + 1) - (i + 2) + 1)).toNat = q + size + 1 + off by omega]
      exact this
    refine .inr (one_node h1 (by omega) (by omega) hb hs ?_)
    cases l <;> exact .inr hj

end

section
variable {B : Base} {P : List SI}

mutual
theorem stm_enter : (b : Stm) → ScopeOk b → (lvl : Nat) → (inL inS : Bool) → (code : List SI) →
    compStm B.S.fold B.isCall lvl inL inS b = some code → (lo hi : Nat) → (base : List Nat) → (X : Nat → List Nat → Prop) →
    (p bt ct : Nat) → (sc : List Nat) → At P p code bt ct → lo ≤ p → p + code.length ≤ hi → base <:+ sc → sc.length + 1 ≤ lvl → sc.length ≤ 10 →
    Enter P lo hi base X (p + code.length) sc → (.ext .brk ∈ code → Enter P lo hi base X bt sc) →
    (.ext .cont ∈ code → Enter P lo hi base X ct sc) → Enter P lo hi base X p sc
  | .nil, _, lvl, inL, inS, code, h, lo, hi, base, X, p, bt, ct, sc, hat, hlo, hhi, hb, hl, hs, hK, hB, hC => by
    cases h; exact hK
  | .seq a b, ho, lvl, inL, inS, code, h, lo, hi, base, X, p, bt, ct, sc, hat, hlo, hhi, hb, hl, hs, hK, hB, hC => by
    simp only [ScopeOk] at ho
    simp only [compStm, Option.bind_eq_some_iff, Option.map_eq_some_iff] at h
    obtain ⟨ca, ha, cb, hb', rfl⟩ := h
    obtain ⟨h1, h2⟩ := at_append.mp hat
    simp only [List.length_append, List.mem_append] at hhi hK hB hC
    have ib := stm_enter b ho.2 lvl inL inS cb hb' lo hi base X _ bt ct sc h2 (by omega) (by omega) hb hl hs
      (by rw [Nat.add_assoc]; exact hK) (fun h => hB (.inr h)) (fun h => hC (.inr h))
    exact stm_enter a ho.1 lvl inL inS ca ha lo hi base X p bt ct sc h1 hlo (by omega) hb hl hs ib (fun h => hB (.inl h)) (fun h => hC (.inl h))
  | .acts each l, _, lvl, inL, inS, code, h, lo, hi, base, X, p, bt, ct, sc, hat, hlo, hhi, hb, hl, hs, hK, hB, hC => by
    simp only [compStm] at h
    exact plain_enter' (plain_acts l code h) hat hlo hhi hb hs hK
  | .block k vars b, ho, lvl, inL, inS, code, h, lo, hi, base, X, p, bt, ct, sc, hat, hlo, hhi, hb, hl, hs, hK, hB, hC => by
    simp only [ScopeOk] at ho
    simp only [compStm] at h
    split at h
    · cases h
    · rename_i hlv
      simp only [Option.map_eq_some_iff] at h
      obtain ⟨cb, hb', rfl⟩ := h
      refine scope_enter hat hlo hhi hb (by omega) ?_ hK
      intro q sc' hq hlo' hhi' hb2 hs' hv hK'
      refine stm_enter b ho.1 _ inL inS cb hb' lo hi base X q bt ct sc' hq hlo' hhi' hb2 (by omega) (by omega) hK' ?_ ?_
      · intro hm
        cases vars with
        | false => rw [hv rfl]; exact hB hm
        | true =>
          have := ((open_stm b ho.1 _ inL inS cb hb').1 hm).2
          rw [ho.2 rfl] at this; cases this
      · intro hm
        cases vars with
        | false => rw [hv rfl]; exact hC hm
        | true =>
          have := jumps_le b ((open_stm b ho.1 _ inL inS cb hb').2 hm).2
          rw [ho.2 rfl] at this; cases this
  | .if1 c a, ho, lvl, inL, inS, code, h, lo, hi, base, X, p, bt, ct, sc, hat, hlo, hhi, hb, hl, hs, hK, hB, hC => by
    simp only [ScopeOk] at ho
    simp only [compStm, Option.bind_eq_some_iff, Option.map_eq_some_iff] at h
    obtain ⟨cc, hc, ca, ha, rfl⟩ := h
    obtain ⟨h1, h3⟩ := at_append.mp hat
    obtain ⟨h1, h2⟩ := at_append.mp h1
    have h2 := at_one h2
    simp only [List.length_append, List.length_cons, List.length_nil, List.mem_append] at hhi hK hB hC h3
    have ia := stm_enter a ho lvl inL inS ca ha lo hi base X _ bt ct sc h3 (by omega) (by omega) hb hl hs
      (by rw [Nat.add_assoc]; exact hK) (fun h => hB (.inr h)) (fun h => hC (.inr h))
    refine plain_enter' (plain_sub hc).1 h1 hlo (by omega) hb hs (.inr (one_node h2 (by omega) (by omega) hb hs ⟨?_, ?_⟩))
    · exact ia
    · rw [show (((p + cc.length : Nat) : Int) + ((ca.length : Int) + 1)).toNat = p + (cc.length + (0 + 1) + ca.length) by omega]; exact hK
  | .if2 c a b, ho, lvl, inL, inS, code, h, lo, hi, base, X, p, bt, ct, sc, hat, hlo, hhi, hb, hl, hs, hK, hB, hC => by
    simp only [ScopeOk] at ho
    simp only [compStm, Option.bind_eq_some_iff, Option.map_eq_some_iff] at h
    obtain ⟨cc, hc, ca, ha, cb, hb', rfl⟩ := h
    obtain ⟨h1, h5⟩ := at_append.mp hat
    obtain ⟨h1, h4⟩ := at_append.mp h1
    obtain ⟨h1, h3⟩ := at_append.mp h1
    obtain ⟨h1, h2⟩ := at_append.mp h1
    have h2 := at_one h2
    have h4 := at_one h4
    simp only [List.length_append, List.length_cons, List.length_nil, List.mem_append] at hhi hK hB hC h3 h4 h5
    have ib := stm_enter b ho.2 lvl inL inS cb hb' lo hi base X _ bt ct sc h5 (by omega) (by omega) hb hl hs
      (by rw [Nat.add_assoc]; exact hK) (fun h => hB (.inr h)) (fun h => hC (.inr h))
    have hj : Stay P lo hi base X (p + (cc.length + (0 + 1) + ca.length)) sc := by
      refine one_node h4 (by omega) (by omega) hb hs ?_
      show Enter P lo hi base X _ sc
      rw [show (((p + (cc.length + (0 + 1) + ca.length) : Nat) : Int) + ((cb.length : Int) + 1)).toNat
        = p + (cc.length + (0 + 1) + ca.length + (0 + 1) + cb.length) by omega]
      exact hK
    have ia := stm_enter a ho.1 lvl inL inS ca ha lo hi base X _ bt ct sc h3 (by omega) (by omega) hb hl hs
      (by rw [Nat.add_assoc]; exact .inr hj) (fun h => hB (.inl (.inl (.inr h)))) (fun h => hC (.inl (.inl (.inr h))))
    refine plain_enter' (plain_sub hc).1 h1 hlo (by omega) hb hs (.inr (one_node h2 (by omega) (by omega) hb hs ⟨?_, ?_⟩))
    · exact ia
    · rw [show (((p + cc.length : Nat) : Int) + ((ca.length : Int) + 2)).toNat = p + (cc.length + (0 + 1) + ca.length + (0 + 1)) by omega]; exact ib
  | .while c k b, ho, lvl, inL, inS, code, h, lo, hi, base, X, p, bt, ct, sc, hat, hlo, hhi, hb, hl, hs, hK, hB, hC => by
    simp only [ScopeOk] at ho
    simp only [compStm] at h
    split at h
    · cases h
    · rename_i hlv
      simp only [Option.bind_eq_some_iff, Option.map_eq_some_iff] at h
      obtain ⟨cc, hc, cb, hb', rfl⟩ := h
      refine loop_enter hat hlo hhi hb (by omega) plain_nil plain_nil ?_ ?_ hK
      · intro X' bt' ct' hh hX hp
        obtain ⟨h1, h2⟩ := at_append.mp hh
        have h2 := at_one h2
        have hpl := plain_sub hc
        have hlen : (loopCode [] (cc ++ [.jnt ((cb.length : Int) + 5)]) k cb []).length = cc.length + 1 + 1 + cb.length + 3 := by
          simp [loop_length]
        rw [hlen] at hX hhi
        simp only [List.length_nil, Nat.add_zero, List.length_append, List.length_cons] at *
        refine plain_enter hpl.1 h1 hlo (by omega) hb hs (.inr (one_node h2 (by omega) (by omega) hb hs ⟨?_, ?_⟩)) hpl.2
        · rw [Nat.add_assoc]; exact .inr hp
        · rw [show (((p + cc.length : Nat) : Int) + ((cb.length : Int) + 5)).toNat = p + (cc.length + 1 + 1 + cb.length + 3) by omega]; exact hX
      · intro X' bt' ct' hh hct h1 h2
        have hl2 : (loopCode [] (cc ++ [.jnt ((cb.length : Int) + 5)]) k cb []).length = cc.length + 1 + 1 + cb.length + 3 := by
          simp [loop_length]
        rw [hl2] at hhi
        refine stm_enter b ho _ true inS cb hb' lo hi base X' _ bt' ct' (k :: sc) hh (by omega)
          (by simp only [List.length_append, List.length_cons, List.length_nil]; omega) (hb.trans (List.suffix_cons _ _))
          (by simp only [List.length_cons]; omega) (by simp only [List.length_cons]; omega) ?_ (fun _ => h2) (fun _ => h1)
        rw [← hct]; exact h1
  | .doWhile k b c, ho, lvl, inL, inS, code, h, lo, hi, base, X, p, bt, ct, sc, hat, hlo, hhi, hb, hl, hs, hK, hB, hC => by
    simp only [ScopeOk] at ho
    simp only [compStm] at h
    split at h
    · cases h
    · rename_i hlv
      simp only [Option.bind_eq_some_iff, Option.map_eq_some_iff] at h
      obtain ⟨cb, hb', cc, hc, rfl⟩ := h
      have hat := at_resolve hat
      rw [resolve_length] at hhi hK
      generalize hbt : p + _ = bt' at hat
      generalize hct : p + _ = ct' at hat
      simp only [List.length_append, List.length_cons, List.length_nil] at hbt hct hhi hK
      simp only [at_append, at_cons, List.length_append, List.length_cons, List.length_nil] at hat
      obtain ⟨⟨⟨⟨⟨h1, -⟩, h2⟩, h3, -⟩, h4⟩, h5, h6, h7, -⟩ := hat
      simp only [Nat.zero_add, ← Nat.add_assoc] at *
      have e0 : p + 1 + cb.length = ct' := by omega
      have e1 : bt' = ct' + 1 + cc.length + 1 + 1 := by omega
      rw [e0] at h3 h4 h5 h6 h7 hK hhi
      rw [← e1] at h7 hK hhi
      have hbk : base <:+ k :: sc := hb.trans (List.suffix_cons _ _)
      have hk10 : (k :: sc).length ≤ 10 := by simp only [List.length_cons]; omega
      refine .inr (stay_loop ?_)
      have hK' := enter_mono (X' := fun q' o' => X q' o' ∨ (q' = p ∧ o' = sc)) (fun q o h => .inl h) hK
      generalize hX' : (fun q' o' => X q' o' ∨ (q' = p ∧ o' = sc)) = X' at hK'
      have hback : X' p sc := by rw [← hX']; exact .inr ⟨rfl, rfl⟩
      clear hX'
      have hpop2 : Stay P lo hi base X' bt' (k :: sc) := one_node h7 (by omega) (by omega) hbk hk10 ⟨k, sc, rfl, hK'⟩
      have hjmp : Stay P lo hi base X' (ct' + 1 + cc.length + 1) sc := by
        refine one_node h6 (by omega) (by omega) hb (by omega) ?_
        show Enter P lo hi base X' _ sc
        rw [show (((ct' + 1 + cc.length + 1 : Nat) : Int) + 2).toNat = bt' + 1 by omega]
        exact hK'
      have hjt : Stay P lo hi base X' (ct' + 1 + cc.length) sc := by
        refine one_node h5 (by omega) (by omega) hb (by omega) ⟨.inr hjmp, ?_⟩
        rw [show (((ct' + 1 + cc.length : Nat) : Int) + -((1 + cb.length + 1 + cc.length : Nat) : Int)).toNat = p by omega]
        exact .inl hback
      have hcnd := plain_enter' (plain_sub hc).1 h4 (by omega) (by omega) hb (by omega) (.inr hjt)
      have hpop1 : Stay P lo hi base X' ct' (k :: sc) := one_node h3 (by omega) (by omega) hbk hk10 ⟨k, sc, rfl, hcnd⟩
      have hbod := stm_enter b ho _ true inS cb hb' lo hi base X' _ bt' ct' (k :: sc) h2 (by omega) (by omega) hbk
        (by simp only [List.length_cons]; omega) hk10 (by rw [e0]; exact .inr hpop1) (fun _ => .inr hpop2) (fun _ => .inr hpop1)
      exact one_node h1 (by omega) (by omega) hb (by omega) ⟨by omega, hbod⟩
  | .for ki vars each init cond post k b, ho, lvl, inL, inS, code, h, lo, hi, base, X, p, bt, ct, sc, hat, hlo, hhi, hb, hl, hs, hK, hB, hC => by
    simp only [ScopeOk] at ho
    simp only [compStm] at h
    split at h
    · cases h
    · rename_i hlv
      simp only [Option.bind_eq_some_iff] at h
      obtain ⟨ci, hci, cb, hb', cp, hcp, h⟩ := h
      cases cond with
      | none =>
        cases h
        refine scope_enter hat hlo hhi hb (by omega) ?_ hK
        intro q sc' hq hlo' hhi' hb2 hs' _ hK'
        have hl2 : (loopCode [] ci k cb cp).length = ci.length + 1 + cb.length + 1 + cp.length + 2 := by
          simp [loopCode, resolve_length]; omega
        refine loop_enter hq hlo' hhi' hb2 (by omega) plain_nil (plain_acts post cp hcp) ?_ ?_ hK'
        · intro X' bt' ct' hh hX hp
          rw [hl2] at hhi'
          simp only [List.length_nil, Nat.add_zero] at *
          by_cases hne : ci = []
          · subst hne; exact hp
          · exact plain_enter (plain_acts init ci hci) hh hlo' (by omega) hb2 (by omega) (.inr hp) hne
        · intro X' bt' ct' hh hct h1 h2
          rw [hl2] at hhi'
          refine stm_enter b ho _ true inS cb hb' lo hi base X' _ bt' ct' (k :: sc') hh (by omega)
            (by simp only [List.length_nil]; omega) (hb2.trans (List.suffix_cons _ _))
            (by simp only [List.length_cons]; omega) (by simp only [List.length_cons]; omega) ?_ (fun _ => h2) (fun _ => h1)
          rw [← hct]; exact h1
      | some c =>
        simp only [Option.map_eq_some_iff] at h
        obtain ⟨cc, hc, rfl⟩ := h
        refine scope_enter hat hlo hhi hb (by omega) ?_ hK
        intro q sc' hq hlo' hhi' hb2 hs' _ hK'
        have hl2 : (loopCode ci (cc ++ [.jnt ((cb.length : Int) + cp.length + 5)]) k cb cp).length
            = ci.length + (cc.length + 1) + 1 + cb.length + 1 + cp.length + 2 := by
          simp [loopCode, resolve_length]; omega
        refine loop_enter hq hlo' hhi' hb2 (by omega) (plain_acts init ci hci) (plain_acts post cp hcp) ?_ ?_ hK'
        · intro X' bt' ct' hh hX hp
          obtain ⟨h1, h2⟩ := at_append.mp hh
          have h2 := at_one h2
          have hpl := plain_sub hc
          rw [hl2] at hX hhi'
          simp only [List.length_append, List.length_cons, List.length_nil] at *
          refine plain_enter hpl.1 h1 (by omega) (by omega) hb2 (by omega) (.inr (one_node h2 (by omega) (by omega) hb2 (by omega) ⟨?_, ?_⟩)) hpl.2
          · rw [Nat.add_assoc]; exact .inr hp
          · rw [show (((q + ci.length + cc.length : Nat) : Int) + ((cb.length : Int) + cp.length + 5)).toNat
              = q + (ci.length + (cc.length + 1) + 1 + cb.length + 1 + cp.length + 2) by omega]; exact hX
        · intro X' bt' ct' hh hct h1 h2
          rw [hl2] at hhi'
          refine stm_enter b ho _ true inS cb hb' lo hi base X' _ bt' ct' (k :: sc') hh (by omega)
            (by simp only [List.length_append, List.length_cons, List.length_nil]; omega) (hb2.trans (List.suffix_cons _ _))
            (by simp only [List.length_cons]; omega) (by simp only [List.length_cons]; omega) ?_ (fun _ => h2) (fun _ => h1)
          rw [← hct]; exact h1
  | .forIn ki it rs c k b, ho, lvl, inL, inS, code, h, lo, hi, base, X, p, bt, ct, sc, hat, hlo, hhi, hb, hl, hs, hK, hB, hC => by
    simp only [ScopeOk] at ho
    simp only [compStm] at h
    split at h
    · cases h
    · rename_i hlv
      simp only [Option.bind_eq_some_iff, Option.map_eq_some_iff] at h
      obtain ⟨cc, hc, cb, hb', rfl⟩ := h
      refine scope_enter hat hlo hhi hb (by omega) ?_ hK
      intro q sc' hq hlo' hhi' hb2 hs' _ hK'
      have hget : Plain ([.loadR it, .ext .member, .ext (.itGet rs.length)] ++ rs.map (fun r => (.ext (.addr r) : SI)) ++ [.ext (.storeN rs.length)]) :=
        plain_append (plain_append (plain_append (a := [_]) (plain_one rfl rfl) (plain_append (a := [_]) (b := [_]) (plain_one rfl rfl) (plain_one rfl rfl)))
          (plain_addrs rs)) (plain_one rfl rfl)
      generalize [.loadR it, .ext .member, .ext (.itGet rs.length)] ++ rs.map (fun r => (.ext (.addr r) : SI)) ++ [.ext (.storeN rs.length)] = get at *
      refine loop_enter hq hlo' hhi' hb2 (by omega)
        (plain_append (plain_sub hc).1 (plain_append (a := [_]) (b := [_]) (plain_one rfl rfl) (plain_one rfl rfl)))
        (plain_append (a := [_]) (plain_one rfl rfl) (plain_append (a := [_]) (b := [_]) (plain_one rfl rfl) (plain_one rfl rfl))) ?_ ?_ hK'
      · intro X' bt' ct' hh hX hp
        rw [loop_length] at hX hhi'
        simp only [at_cons, List.length_append, List.length_cons, List.length_nil] at *
        obtain ⟨h1, h2, h3, h4, -⟩ := hh
        refine one_node h1 (by omega) (by omega) hb2 (by omega) (.inr ?_)
        refine one_node h2 (by omega) (by omega) hb2 (by omega) (.inr ?_)
        refine one_node h3 (by omega) (by omega) hb2 (by omega) (.inr ?_)
        refine one_node h4 (by omega) (by omega) hb2 (by omega) ⟨.inr hp, ?_⟩
        rw [show (((q + (cc.length + (0 + 1 + 1)) + 1 + 1 + 1 : Nat) : Int) + ((((get.length + cb.length : Nat) : Int) + 3) + 5)).toNat
          = q + (cc.length + (0 + 1 + 1) + (0 + 1 + 1 + 1 + 1) + 1 + (get.length + cb.length) + 1 + (0 + 1 + 1 + 1) + 2) by omega]
        exact hX
      · intro X' bt' ct' hh hct h1 h2
        rw [loop_length] at hhi'
        obtain ⟨hg, hbb⟩ := at_append.mp hh
        simp only [List.length_append, List.length_cons, List.length_nil] at hhi' hct
        have hbk : base <:+ k :: sc' := hb2.trans (List.suffix_cons _ _)
        have hk10 : (k :: sc').length ≤ 10 := by simp only [List.length_cons]; omega
        refine plain_enter' hget hg (by omega) (by simp only [List.length_append, List.length_cons, List.length_nil]; omega) hbk hk10 ?_
        refine stm_enter b ho _ true inS cb hb' lo hi base X' _ bt' ct' (k :: sc') hbb (by omega)
          (by simp only [List.length_append, List.length_cons, List.length_nil]; omega) hbk
          (by simp only [List.length_cons]; omega) hk10 ?_ (fun _ => h2) (fun _ => h1)
        simp only [List.length_append, List.length_cons, List.length_nil]
        rw [show q + (cc.length + (0 + 1 + 1)) + (0 + 1 + 1 + 1 + 1) + 1 + get.length + cb.length = ct' by omega]; exact h1
  | .switch e cs, ho, lvl, inL, inS, code, h, lo, hi, base, X, p, bt, ct, sc, hat, hlo, hhi, hb, hl, hs, hK, hB, hC => by
    simp only [ScopeOk] at ho
    simp only [compStm, Option.bind_eq_some_iff] at h
    obtain ⟨ce, hce, ⟨tab, bodies⟩, hcs, h⟩ := h
    split at h
    rotate_left
    · cases h
    cases h
    have hbne := emitsC_ne cs ho.2.2 lvl inL 0 tab bodies hcs
    have hcnt := hasCase_count cs ho.2.1 lvl inL 0 tab bodies hcs
    have hif : 0 < bodies.length ∧ 0 < caseCount tab := ⟨List.length_pos_iff.mpr hbne, hcnt⟩
    simp only [switchCode, if_pos hif] at hat hhi hK hC
    have hCb : .ext .cont ∈ bodies → Enter P lo hi base X ct sc := by
      intro hm
      refine hC ?_
      unfold resolve
      obtain ⟨i, hi', e⟩ := List.getElem_of_mem (List.mem_append_right _ hm)
      exact List.mem_mapIdx.mpr ⟨i, hi', by rw [e]; rfl⟩
    have hat := at_resolve_brk hat
    generalize hbt : p + _ = bt' at hat
    simp only [resolve_length, List.length_append, List.length_cons, List.length_nil, caseCode_length] at hbt hhi hK
    simp only [at_append, at_cons, List.length_append, List.length_cons, List.length_nil, caseCode_length] at hat
    obtain ⟨⟨⟨h1, h2⟩, h3, -⟩, h4⟩ := hat
    simp only [Nat.zero_add, ← Nat.add_assoc] at h3 h4 hbt hhi hK
    rw [hbt] at hK hhi
    have hcl := clauses_enter cs ho.1 lvl inL 0 tab bodies hcs lo hi base X (p + ce.length + 2 * caseCount tab + 1) bt' ct sc h4 (by omega)
      (by omega) hb hl hs (by rw [show p + ce.length + 2 * caseCount tab + 1 + 0 + bodies.length = bt' by omega]; exact hK) hK hCb
    have hj : Stay P lo hi base X (p + ce.length + 2 * caseCount tab) sc := by
      refine one_node h3 (by omega) (by omega) hb hs ?_
      cases hd : defaultOff tab with
      | none =>
        show Enter P lo hi base X _ sc
        rw [show (((p + ce.length + 2 * caseCount tab : Nat) : Int)
          + (((bodies.length + 2 * caseCount tab + ce.length + 1 : Nat) : Int) - ((2 * caseCount tab : Nat) : Int) - ce.length)).toNat = bt' by omega]
        exact hK
      | some off =>
        have hm := defaultOff_mem tab off hd
        obtain ⟨l, hm⟩ := hm
        show Enter P lo hi base X _ sc
        rw [show (((p + ce.length + 2 * caseCount tab : Nat) : Int) + ((off : Int) + 1)).toNat = p + ce.length + 2 * caseCount tab + 1 + off by omega]
        exact hcl.2 l off hm
    refine plain_enter' (plain_sub hce).1 h1 hlo (by omega) hb hs ?_
    exact cases_enter hb hs (by omega) (by omega) (.inr hj) 0 tab (by omega) h2 hcl.2
  | .brk, _, lvl, inL, inS, code, h, lo, hi, base, X, p, bt, ct, sc, hat, hlo, hhi, hb, hl, hs, hK, hB, hC => by
    simp only [compStm] at h
    split at h
    · cases h
      refine .inr (one_node (at_one hat) hlo (by simp at hhi; omega) hb hs ?_)
      show Enter P lo hi base X _ sc
      rw [show ((p : Int) + ((bt : Int) - p)).toNat = bt by omega]
      exact hB (by simp)
    · cases h
  | .cont, _, lvl, inL, inS, code, h, lo, hi, base, X, p, bt, ct, sc, hat, hlo, hhi, hb, hl, hs, hK, hB, hC => by
    simp only [compStm] at h
    split at h
    · cases h
      refine .inr (one_node (at_one hat) hlo (by simp at hhi; omega) hb hs ?_)
      show Enter P lo hi base X _ sc
      rw [show ((p : Int) + ((ct : Int) - p)).toNat = ct by omega]
      exact hC (by simp)
    · cases h
  | .ret es, _, lvl, inL, inS, code, h, lo, hi, base, X, p, bt, ct, sc, hat, hlo, hhi, hb, hl, hs, hK, hB, hC => by
    simp only [compStm, Option.map_eq_some_iff] at h
    obtain ⟨d, hd, rfl⟩ := h
    obtain ⟨h1, h2⟩ := at_append.mp hat
    have h2 := at_one h2
    simp only [List.length_append, List.length_cons, List.length_nil] at hhi
    exact plain_enter' (plain_list es d hd) h1 hlo (by omega) hb hs (.inr (one_node h2 (by omega) (by omega) hb hs trivial))
theorem clauses_enter : (cs : Cases) → ScopeOkC cs → (lvl : Nat) → (inL : Bool) → (off : Nat) → (tab : List (Option Lab × Nat)) →
    (bodies : List SI) → compCases B.S.fold B.isCall lvl inL off cs = some (tab, bodies) → (lo hi : Nat) → (base : List Nat) →
    (X : Nat → List Nat → Prop) → (q bt ct : Nat) → (sc : List Nat) → At P (q + off) bodies bt ct → lo ≤ q → q + off + bodies.length ≤ hi →
    base <:+ sc → sc.length + 1 ≤ lvl → sc.length ≤ 10 → Enter P lo hi base X (q + off + bodies.length) sc → Enter P lo hi base X bt sc →
    (.ext .cont ∈ bodies → Enter P lo hi base X ct sc) →
    Enter P lo hi base X (q + off) sc ∧ ∀ l o, (l, o) ∈ tab → Enter P lo hi base X (q + o) sc
  | .nil, _, lvl, inL, off, tab, bodies, h, lo, hi, base, X, q, bt, ct, sc, hat, hlo, hhi, hb, hl, hs, hK, hB, hC => by
    cases h; exact ⟨hK, fun l o h => absurd h List.not_mem_nil⟩
  | .cons l b brk rest, ho, lvl, inL, off, tab, bodies, h, lo, hi, base, X, q, bt, ct, sc, hat, hlo, hhi, hb, hl, hs, hK, hB, hC => by
    simp only [ScopeOkC] at ho
    simp only [compCases] at h
    split at h
    · cases h
    · simp only [Option.bind_eq_some_iff, Option.map_eq_some_iff, Prod.mk.injEq] at h
      obtain ⟨cb, hb', ⟨tab', bodies'⟩, hrest, rfl, rfl⟩ := h
      generalize hz : (if (brk && !rest.isNil) = true then [(.ext .brk : SI)] else []) = z at *
      obtain ⟨h1, h3⟩ := at_append.mp hat
      obtain ⟨h1, h2⟩ := at_append.mp h1
      simp only [List.length_append, List.mem_append] at hhi hK hC h3 hrest
      have ir := clauses_enter rest ho.2 lvl inL _ tab' bodies' hrest lo hi base X q bt ct sc
        (by rw [← Nat.add_assoc]; exact h3) hlo (by omega) hb hl hs
        (by rw [show q + (off + (cb.length + z.length)) + bodies'.length = q + off + (cb.length + z.length + bodies'.length) by omega]; exact hK)
        hB (fun h => hC (.inr h))
      have iz : Enter P lo hi base X (q + off + cb.length) sc := by
        split at hz
        · subst hz
          refine .inr (one_node (at_one h2) (by omega) (by simp only [List.length_cons, List.length_nil] at hhi; omega) hb hs ?_)
          show Enter P lo hi base X _ sc
          rw [show (((q + off + cb.length : Nat) : Int) + ((bt : Int) - (q + off + cb.length : Nat))).toNat = bt by omega]
          exact hB
        · subst hz
          have := ir.1
          rw [← Nat.add_assoc] at this
          exact this
      have ib := stm_enter b ho.1 lvl inL true cb hb' lo hi base X _ bt ct sc h1 (by omega) (by omega) hb hl hs iz (fun _ => hB)
        (fun h => hC (.inl (.inl h)))
      refine ⟨ib, fun l' o hm => ?_⟩
      rcases List.mem_cons.mp hm with hm | hm
      · cases hm; exact ib
      · exact ir.2 l' o hm
end
end
end Verif.Comp
