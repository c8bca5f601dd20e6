import Verif.Vm.Frames
import Verif.Vm.FramesSpec
/-
Lemmas: the one stack behaves as variables of each call.
-/
namespace Verif.Frames

/-- Two outcomes of the same kind, with results in a relation. -/
def Rel {α β : Type} (p : α → β → Prop) : R α → R β → Prop
  | .late, .late => True
  | .err, .err => True
  | .ok a, .ok b => p a b
  | _, _ => False

theorem Rel.bind {α β α' β' : Type} {p : α → β → Prop} {q : α' → β' → Prop} {x : R α} {y : R β} {f : α → R α'} {h : β → R β'}
    (hxy : Rel p x y) (hf : ∀ a b, p a b → Rel q (f a) (h b)) : Rel q (x.bind f) (y.bind h) := by
  cases x <;> cases y <;> simp_all [Rel, R.bind]

theorem Rel.same {α β β' : Type} {q : β → β' → Prop} (x : R α) {f : α → R β} {h : α → R β'}
    (hf : ∀ a, Rel q (f a) (h a)) : Rel q (x.bind f) (x.bind h) := by
  cases x <;> simp_all [Rel, R.bind]

/-- The state while the code of a function runs. -/
structure At (G k : Nat) (fr : Fr) (g l : Env) (m : M) : Prop where
  gl : ∀ i, i < G → m.mem i = g i
  lo : ∀ i, i < k → m.mem (fr.base + i) = l i
  fb : ∀ i, i < k → G ≤ fr.base + i ∧ fr.base + i < fr.top
  tp : G ≤ fr.top
  bt : fr.base ≤ fr.top
  sp : fr.top ≤ m.sp

/-- A value has been pushed. -/
structure Pushed (G : Nat) (m : M) (g' : Env) (v : Val) (m' : M) : Prop where
  sp : m'.sp = m.sp + 1
  val : m'.mem m.sp = v
  gl : ∀ i, i < G → m'.mem i = g' i
  low : ∀ j, G ≤ j → j < m.sp → m'.mem j = m.mem j

structure PushedAll (G : Nat) (m : M) (n : Nat) (g' : Env) (vs : List Val) (m' : M) : Prop where
  len : vs.length = n
  sp : m'.sp = m.sp + n
  val : ∀ i, i < n → m'.mem (m.sp + i) = vs.getD i .undef
  gl : ∀ i, i < G → m'.mem i = g' i
  low : ∀ j, G ≤ j → j < m.sp → m'.mem j = m.mem j

/-- A statement has ended. -/
def Ended (G k : Nat) (fr : Fr) (m : M) (r : M × Bool) : End → Prop
  | .next g l => r.2 = false ∧ r.1.sp = fr.top ∧ At G k fr g l r.1 ∧ ∀ j, G ≤ j → j < fr.base → r.1.mem j = m.mem j
  | .back g v => r.2 = true ∧ (r.1.sp = fr.top + 1 ∧ r.1.mem fr.top = v ∨ r.1.sp = fr.top ∧ v = .undef) ∧
      (∀ i, i < G → r.1.mem i = g i) ∧ ∀ j, G ≤ j → j < fr.base → r.1.mem j = m.mem j

/-- A function has been left. -/
structure Left (G start all : Nat) (m : M) (x : Env × Val) (m' : M) : Prop where
  val : (m'.sp = start + all + 1 ∧ m'.mem (start + all) = x.2) ∨ (m'.sp = start + all ∧ x.2 = .undef) ∨
    (m'.sp = start ∧ x.2 = .undef)
  gl : ∀ i, i < G → m'.mem i = x.1 i
  low : ∀ j, G ≤ j → j < start → m'.mem j = m.mem j

theorem At.after {G k fr g l m g' v m'} (h : At G k fr g l m) (hp : Pushed G m g' v m') : At G k fr g' l m' where
  gl := hp.gl
  lo := fun i hi => by
    have := h.fb i hi
    rw [hp.low _ this.1 (by have := h.sp; omega)]; exact h.lo i hi
  fb := h.fb
  tp := h.tp
  bt := h.bt
  sp := by have := h.sp; rw [hp.sp]; omega

theorem At.sp_to {G k fr g l m} (h : At G k fr g l m) {s : Nat} (hs : fr.top ≤ s) : At G k fr g l { m with sp := s } :=
  ⟨h.gl, h.lo, h.fb, h.tp, h.bt, hs⟩

theorem push_pushed {G m} {g : Env} (v : Val) (hg : ∀ i, i < G → m.mem i = g i) (hsp : G ≤ m.sp) : Pushed G m g v (m.push v) where
  sp := rfl
  val := by simp [M.push, M.set]
  gl := fun i hi => by
    have : i ≠ m.sp := by omega
    simp [M.push, M.set, this, hg i hi]
  low := fun j _ hj => by
    have : j ≠ m.sp := by omega
    simp [M.push, M.set, this]

theorem pushAll_sp (m : M) (vs : List Val) : (m.pushAll vs).sp = m.sp + vs.length := by
  induction vs generalizing m with
  | nil => rfl
  | cons v vs ih => rw [M.pushAll, ih]; simp [M.push]; omega

theorem pushAll_low (m : M) (vs : List Val) {j : Nat} (h : j < m.sp) : (m.pushAll vs).mem j = m.mem j := by
  induction vs generalizing m with
  | nil => rfl
  | cons v vs ih =>
    rw [M.pushAll, ih _ (by simp [M.push]; omega)]
    have : j ≠ m.sp := by omega
    simp [M.push, M.set, this]

theorem pushAll_at (m : M) (vs : List Val) {i : Nat} (h : i < vs.length) : (m.pushAll vs).mem (m.sp + i) = vs.getD i .undef := by
  induction vs generalizing m i with
  | nil => simp at h
  | cons v vs ih =>
    rw [M.pushAll]
    cases i with
    | zero =>
      rw [pushAll_low _ _ (by simp [M.push])]
      simp [M.push, M.set]
    | succ i =>
      have := ih (m.push v) (i := i) (by simpa using h)
      have e : (m.push v).sp + i = m.sp + (i + 1) := by simp [M.push]; omega
      rw [e] at this
      rw [this]; simp

/-- The frame of a new call. -/
theorem enter_at {G F start} {m : M} {g : Env} {vs : List Val} (hs : G ≤ start) (hg : ∀ i, i < G → m.mem i = g i)
    (hv : ∀ i, i < F.params.length → m.mem (start + i) = bound F vs i) :
    At G F.all ⟨start, start + F.all⟩ g (bound F vs) (enter F start m) where
  gl := fun i hi => by
    have : ¬ (start + F.params.length ≤ i ∧ i < start + F.params.length + F.vars) := by omega
    simp only [enter, M.clear]; rw [if_neg this]; exact hg i hi
  lo := fun i hi => by
    simp only [enter, M.clear]
    unfold Fn.all at hi
    by_cases h : i < F.params.length
    · rw [if_neg (by omega)]; exact hv i h
    · rw [if_pos (by omega)]
      unfold bound
      rw [if_neg h]
  fb := fun i hi => ⟨by simp only; omega, by simp only; omega⟩
  tp := by simp only; omega
  bt := by simp only; omega
  sp := Nat.le_refl _

theorem leave_left {G F start} {m0 m : M} {r : M × Bool} {e : End} (hs : G ≤ start)
    (hlow : ∀ j, G ≤ j → j < start → m.mem j = m0.mem j)
    (h : Ended G F.all ⟨start, start + F.all⟩ m r e) : Left G start F.all m0 e.value (leave F start r.1 r.2) := by
  obtain ⟨r, b⟩ := r
  cases e with
  | next g l =>
    obtain ⟨h1, h2, h3, h4⟩ := h
    simp only at h1 h2 h3 h4
    subst h1
    refine ⟨Or.inr (Or.inr ⟨rfl, rfl⟩), fun i hi => ?_, fun j hj1 hj2 => ?_⟩
    · simp only [leave, stop, M.clear, M.set, End.value, Bool.false_eq_true, if_false]
      rw [if_neg (by omega), if_neg (by omega)]
      exact h3.gl i hi
    · simp only [leave, stop, M.clear, M.set, Bool.false_eq_true, if_false]
      rw [if_neg (by omega), if_neg (by omega), h4 j hj1 hj2]
      exact hlow j hj1 hj2
  | back g v =>
    obtain ⟨h1, h2, h3, h4⟩ := h
    simp only at h1 h2 h3 h4
    subst h1
    refine ⟨?_, fun i hi => ?_, fun j hj1 hj2 => ?_⟩
    · rcases h2 with ⟨h5, h6⟩ | ⟨h5, h6⟩
      · left
        refine ⟨h5, ?_⟩
        simp only [leave, stop, M.clear, if_true, End.value]
        rw [if_neg (by omega)]; exact h6
      · right; left
        exact ⟨h5, h6⟩
    · simp only [leave, stop, M.clear, End.value, if_true]
      rw [if_neg (by omega)]
      exact h3 i hi
    · simp only [leave, stop, M.clear, if_true]
      rw [if_neg (by omega), h4 j hj1 hj2]
      exact hlow j hj1 hj2

/-- The hand-over gives the value of the call. -/
theorem handOver_pushed {G start all} {m m' : M} {x : Env × Val} (hs : G ≤ start) (hm : m.sp = start) (h : Left G start all m x m') :
    Pushed G m x.1 x.2 (handOver start all m') := by
  have hsp : start ≤ m'.sp := by rcases h.val with h | h | h <;> omega
  have low : ∀ j, j < start → (handOver start all m').mem j = m'.mem j := by
    intro j hj
    have : j ≠ start := by omega
    simp only [handOver, M.push, M.set]
    rw [if_neg this, pushAll_low _ _ (by omega)]
  refine ⟨by simp [handOver, M.push, M.set, hm], ?_, fun i hi => ?_, fun j hj1 hj2 => ?_⟩
  · simp only [handOver, M.push, M.set, hm, if_true]
    rw [pushAll_sp, List.length_replicate]
    rcases h.val with ⟨h1, h2⟩ | ⟨h1, h2⟩ | ⟨h1, h2⟩
    · have e : start + all + 1 - m'.sp = 0 := by omega
      rw [e, h1]
      exact h2
    all_goals
      have e : m'.sp + (start + all + 1 - m'.sp) - 1 = m'.sp + (start + all - m'.sp) := by omega
      rw [e, pushAll_at _ _ (by rw [List.length_replicate]; omega), h2, List.getD_eq_getElem?_getD, List.getElem?_replicate, if_pos (by omega)]
      rfl
  · rw [low _ (by omega)]; exact h.gl i hi
  · rw [low _ (by omega)]; exact h.low j hj1 (by omega)

theorem firstValue_eq {G start n} {m m' : M} {x : Env × Val} (h : Left G start n m x m') :
    (firstValue n start m').1 = x.2 ∧ (firstValue n start m').2.sp = start ∧
      ∀ j, j < start + n → (firstValue n start m').2.mem j = m'.mem j := by
  unfold firstValue
  rcases h.val with ⟨h1, h2⟩ | ⟨h1, h2⟩ | ⟨h1, h2⟩
  · rw [if_pos (by omega)]
    refine ⟨h2, rfl, fun j hj => ?_⟩
    simp only [M.clear]
    rw [if_neg (by omega)]
  all_goals
    rw [if_neg (by omega)]
    exact ⟨h2.symm, rfl, fun _ _ => rfl⟩

theorem Ex.Ok.mono {c c' k : Nat} (h : c ≤ c') : ∀ {e : Ex}, Ex.Ok c k e → Ex.Ok c' k e
  | _, .lit v => .lit v
  | _, .loc i hi => .loc i hi
  | _, .glob i hi => .glob i (by omega)
  | _, .add a b ha hb => .add a b (mono h ha) (mono h hb)
  | _, .lt a b ha hb => .lt a b (mono h ha) (mono h hb)
  | _, .call f as hl ha => .call f as hl (fun a m => mono h (ha a m))
  | _, .apply f as hl ha => .apply f as hl (fun a m => mono h (ha a m))

theorem St.Ok.mono {c c' k : Nat} (h : c ≤ c') : ∀ {s : St}, St.Ok c k s → St.Ok c' k s
  | _, .skip => .skip
  | _, .ex e he => .ex e (he.mono h)
  | _, .setLoc i e hi he => .setLoc i e hi (he.mono h)
  | _, .setGlob i e hi he => .setGlob i e (by omega) (he.mono h)
  | _, .seq s t hs ht => .seq s t (mono h hs) (mono h ht)
  | _, .ite e s t he hs ht => .ite e s t (he.mono h) (mono h hs) (mono h ht)
  | _, .loop e s he hs => .loop e s (he.mono h) (mono h hs)
  | _, .retNone => .retNone
  | _, .ret e he => .ret e (he.mono h)

theorem Ex.Pure.full {P : List Fn} : ∀ {e : Ex}, Ex.Pure e → Ex.Full P e
  | _, .lit v => .lit v
  | _, .loc i => .loc i
  | _, .glob i => .glob i
  | _, .add a b ha hb => .add a b (full ha) (full hb)
  | _, .lt a b ha hb => .lt a b (full ha) (full hb)
  | _, .call f as ha => .call f as (fun a m => full (ha a m))

theorem St.Pure.full {P : List Fn} : ∀ {s : St}, St.Pure s → St.Full P s
  | _, .skip => .skip
  | _, .ex e he => .ex e he.full
  | _, .setLoc i e he => .setLoc i e he.full
  | _, .setGlob i e he => .setGlob i e he.full
  | _, .seq s t hs ht => .seq s t (full hs) (full ht)
  | _, .ite e s t he hs ht => .ite e s t he.full (full hs) (full ht)
  | _, .loop e s he hs => .loop e s he.full (full hs)
  | _, .retNone => .retNone
  | _, .ret e he => .ret e he.full

/-- The three parts of the simulation for one number of steps. -/
structure Sim (P : List Fn) (G n : Nat) : Prop where
  ex : ∀ {k fr g l m e}, At G k fr g l m → Ex.Ok G k e → Ex.Full P e →
    Rel (fun m' x => Pushed G m x.1 x.2 m') (exM P n fr e m) (exS P n l e g)
  as : ∀ {k fr g l m as}, At G k fr g l m → (∀ a ∈ as, Ex.Ok G k a) → (∀ a ∈ as, Ex.Full P a) →
    Rel (fun m' x => PushedAll G m as.length x.1 x.2 m') (asM P n fr as m) (asS P n l as g)
  st : ∀ {k fr g l m s}, At G k fr g l m → m.sp = fr.top → St.Ok G k s → St.Full P s →
    Rel (Ended G k fr m) (stM P n fr s m) (stS P n s g l)

/-- A function body, from its frame to the end of the call. -/
theorem Sim.body {P : List Fn} {G n : Nat} (S : Sim P G n) (hd : Declared P G) (hf : ∀ F ∈ P, F.body.Full P) {f : Nat} {F : Fn}
    (hF : P[f]? = some F) {start : Nat} {m0 m : M} {g : Env} {vs : List Val} (hs : G ≤ start)
    (hg : ∀ i, i < G → m.mem i = g i) (hv : ∀ i, i < F.params.length → m.mem (start + i) = bound F vs i)
    (hlow : ∀ j, G ≤ j → j < start → m.mem j = m0.mem j) :
    Rel (fun r e => Left G start F.all m0 e.value (leave F start r.1 r.2))
      (stM P n ⟨start, start + F.all⟩ F.body (enter F start m)) (stS P n F.body g (bound F vs)) := by
  have hmem : F ∈ P := List.mem_of_getElem? hF
  have h := S.st (enter_at hs hg hv) rfl (hd F hmem) (hf F hmem)
  generalize stM P n ⟨start, start + F.all⟩ F.body (enter F start m) = x at h ⊢
  generalize stS P n F.body g (bound F vs) = y at h ⊢
  cases x <;> cases y <;> simp only [Rel] at h ⊢
  refine leave_left hs (m := enter F start m) ?_ h
  intro j hj1 hj2
  simp only [enter, M.clear]
  rw [if_neg (by omega)]
  exact hlow j hj1 hj2

theorem binary {G : Nat} {m m1 m2 : M} {g1 g2 : Env} {v1 v2 : Val} (hG : G ≤ m.sp) (h1 : Pushed G m g1 v1 m1) (h2 : Pushed G m1 g2 v2 m2)
    (op : Val → Val → R Val) :
    Rel (fun m' x => Pushed G m x.1 x.2 m')
      ((op (m2.mem (m2.sp - 2)) (m2.mem (m2.sp - 1))).bind fun v => .ok ({ m2 with sp := m2.sp - 2 }.push v))
      ((op v1 v2).bind fun v => R.ok (g2, v)) := by
  have e1 : m2.sp - 2 = m.sp := by rw [h2.sp, h1.sp]; omega
  have e2 : m2.sp - 1 = m1.sp := by rw [h2.sp]; omega
  rw [e1, e2, h2.val, h2.low m.sp hG (by rw [h1.sp]; omega), h1.val]
  refine Rel.same _ (fun v => ?_)
  show Pushed G m g2 v _
  have hp := push_pushed (G := G) (m := { m2 with sp := m.sp }) (g := g2) v h2.gl hG
  refine ⟨hp.sp, hp.val, hp.gl, fun j hj1 hj2 => ?_⟩
  rw [hp.low j hj1 hj2]
  show m2.mem j = _
  rw [h2.low j hj1 (by rw [h1.sp]; omega), h1.low j hj1 hj2]

theorem ended_trans {G k : Nat} {fr : Fr} {m m1 : M} {x : R (M × Bool)} {y : R End} (h : Rel (Ended G k fr m1) x y)
    (hlow : ∀ j, G ≤ j → j < fr.base → m1.mem j = m.mem j) : Rel (Ended G k fr m) x y := by
  cases x <;> cases y <;> simp only [Rel] at h ⊢
  rename_i r e
  cases e with
  | next g l => exact ⟨h.1, h.2.1, h.2.2.1, fun j hj1 hj2 => (h.2.2.2 j hj1 hj2).trans (hlow j hj1 hj2)⟩
  | back g v => exact ⟨h.1, h.2.1, h.2.2.1, fun j hj1 hj2 => (h.2.2.2 j hj1 hj2).trans (hlow j hj1 hj2)⟩

theorem sim {P : List Fn} {G : Nat} (hd : Declared P G) (hf : ∀ F ∈ P, F.body.Full P) : ∀ n, Sim P G n := by
  intro n
  induction n with
  | zero =>
    refine ⟨?_, ?_, ?_⟩ <;> intros
    · rw [exM, exS]; trivial
    · rw [asM, asS]; trivial
    · rw [stM, stS]; trivial
  | succ n S =>
    refine ⟨?_, ?_, ?_⟩
    · intro k fr g l m e hat hok hfull
      have hG : G ≤ m.sp := Nat.le_trans hat.tp hat.sp
      cases hok with
      | lit v => rw [exM, exS]; exact push_pushed v hat.gl hG
      | loc i hi => rw [exM, exS, hat.lo i hi]; exact push_pushed _ hat.gl hG
      | glob i hi => rw [exM, exS, hat.gl i hi]; exact push_pushed _ hat.gl hG
      | add a b ha hb =>
        cases hfull with
        | add _ _ fa fb =>
          rw [exM, exS]
          refine Rel.bind (S.ex hat ha fa) (fun m1 x h1 => Rel.bind (S.ex (hat.after h1) hb fb) (fun m2 y h2 => ?_))
          exact binary hG h1 h2 Val.plus
      | lt a b ha hb =>
        cases hfull with
        | lt _ _ fa fb =>
          rw [exM, exS]
          refine Rel.bind (S.ex hat ha fa) (fun m1 x h1 => Rel.bind (S.ex (hat.after h1) hb fb) (fun m2 y h2 => ?_))
          exact binary hG h1 h2 Val.less
      | call f as hl ha =>
        cases hfull with
        | call _ _ fa =>
          rw [exM, exS]
          refine Rel.bind (S.as hat ha fa) (fun m1 x h1 => ?_)
          have hc : count as.length = as.length := Nat.mod_eq_of_lt (by omega)
          have hst : m1.sp - as.length = m.sp := by rw [h1.sp]; omega
          cases hF : P[f]? with
          | none => trivial
          | some F =>
            simp only [hc, hst]
            refine Rel.bind (S.body hd hf hF (m0 := m) (g := x.1) (vs := x.2) hG ?_ ?_ ?_) (fun r e hr => ?_)
            · intro i hi
              rw [pushAll_low _ _ (by rw [h1.sp]; omega)]; exact h1.gl i hi
            · intro i hi
              unfold bound
              rw [if_pos hi]
              by_cases hia : i < as.length
              · rw [pushAll_low _ _ (by rw [h1.sp]; omega), h1.val i hia]
                rw [List.getD_eq_getElem?_getD, List.getD_eq_getElem?_getD, List.getElem?_eq_getElem (by rw [h1.len]; exact hia)]
                rfl
              · have e : m.sp + i = m1.sp + (i - as.length) := by rw [h1.sp]; omega
                rw [e, pushAll_at _ _ (by rw [List.length_drop]; omega)]
                rw [List.getD_eq_getElem?_getD, List.getD_eq_getElem?_getD (l := x.2), List.getElem?_eq_none (l := x.2) (by rw [h1.len]; omega),
                  List.getElem?_drop]
                have e2 : as.length + (i - as.length) = i := by omega
                rw [e2]
                rw [List.getD_eq_getElem?_getD]; rfl
            · intro j hj1 hj2
              rw [pushAll_low _ _ (by rw [h1.sp]; omega), h1.low j hj1 hj2]
            · exact handOver_pushed hG rfl hr
      | apply f as hl ha =>
        cases hfull with
        | apply _ _ hpar fa =>
          rw [exM, exS]
          refine Rel.bind (S.as hat ha fa) (fun m1 x h1 => ?_)
          have hc : count as.length = as.length := Nat.mod_eq_of_lt (by omega)
          have hst : m1.sp - as.length = m.sp := by rw [h1.sp]; omega
          rw [hc]
          by_cases h10 : as.length ≥ 10
          · rw [if_pos h10, if_pos h10]; trivial
          rw [if_neg h10, if_neg h10]
          cases hF : P[f]? with
          | none => trivial
          | some F =>
            have hpar := hpar F hF
            simp only [hst]
            have hG1 : G ≤ m1.sp := by rw [h1.sp]; omega
            refine Rel.bind (S.body hd hf hF (m0 := m1) (g := x.1) (vs := x.2) hG1 ?_ ?_ ?_) (fun r e hr => ?_)
            · intro i hi
              simp only [M.copy]
              rw [if_neg (by omega)]; exact h1.gl i hi
            · intro i hi
              unfold bound
              rw [if_pos hi]
              simp only [M.copy]
              rw [if_pos (by omega)]
              have e : m1.sp + i - m1.sp = i := by omega
              rw [e, h1.val i (by omega)]
              rw [List.getD_eq_getElem?_getD, List.getD_eq_getElem?_getD, List.getElem?_eq_getElem (by rw [h1.len]; omega)]
              rfl
            · intro j hj1 hj2
              simp only [M.copy]
              rw [if_neg (by omega)]
            · have hv := firstValue_eq hr
              generalize firstValue F.all m1.sp (leave F m1.sp r.1 r.2) = q at hv
              obtain ⟨q1, q2⟩ := q
              obtain ⟨hv1, hv2, hv3⟩ := hv
              simp only at hv1 hv2 hv3
              have hL : Left G m.sp as.length m e.value (q2.push q1) := by
                refine ⟨Or.inl ⟨by simp only [M.push]; rw [hv2, h1.sp], ?_⟩, fun i hi => ?_, fun j hj1 hj2 => ?_⟩
                · rw [← h1.sp, ← hv2]; simp only [M.push, M.set, if_true]; exact hv1
                · simp only [M.push, M.set]
                  rw [if_neg (by omega), hv3 i (by omega)]; exact hr.gl i hi
                · simp only [M.push, M.set]
                  have := h1.sp
                  rw [if_neg (by omega), hv3 j (by omega), hr.low j hj1 (by omega), h1.low j hj1 hj2]
              exact handOver_pushed hG rfl hL
    · intro k fr g l m as hat hok hfull
      cases as with
      | nil =>
        rw [asM, asS]
        exact ⟨rfl, rfl, fun i hi => absurd hi (by simp), hat.gl, fun _ _ _ => rfl⟩
      | cons a as =>
        rw [asM, asS]
        refine Rel.bind (S.ex hat (hok a (by simp)) (hfull a (by simp))) (fun m1 x h1 => ?_)
        have hS := S.as (as := as) (hat.after h1) (fun b hb => hok b (by simp [hb])) (fun b hb => hfull b (by simp [hb]))
        have hG : G ≤ m.sp := Nat.le_trans hat.tp hat.sp
        generalize asM P n fr as m1 = u at hS ⊢
        generalize asS P n l as x.1 = w at hS ⊢
        cases u <;> cases w <;> simp only [Rel, R.bind] at hS ⊢
        rename_i m2 y
        refine ⟨by simp [hS.len], by rw [hS.sp, h1.sp, List.length_cons]; omega, fun i hi => ?_, hS.gl, fun j hj1 hj2 => ?_⟩
        · cases i with
          | zero =>
            rw [Nat.add_zero, hS.low _ hG (by rw [h1.sp]; omega), h1.val]; rfl
          | succ i =>
            have := hS.val i (by simpa using hi)
            rw [h1.sp] at this
            have e : m.sp + 1 + i = m.sp + (i + 1) := by omega
            rw [e] at this
            rw [this]; simp
        · rw [hS.low j hj1 (by rw [h1.sp]; omega), h1.low j hj1 hj2]
    · intro k fr g l m s hat hsp hok hfull
      have hG : G ≤ m.sp := Nat.le_trans hat.tp hat.sp
      have hbt := hat.bt
      cases hok with
      | skip => rw [stM, stS]; exact ⟨rfl, hsp, hat, fun _ _ _ => rfl⟩
      | ex e he =>
        cases hfull with
        | ex _ fe =>
          rw [stM, stS]
          refine Rel.bind (S.ex hat he fe) (fun m1 x h1 => ?_)
          exact ⟨rfl, rfl, (hat.after h1).sp_to (Nat.le_refl _), fun j hj1 hj2 => h1.low j hj1 (by omega)⟩
      | setLoc i e hi he =>
        cases hfull with
        | setLoc _ _ fe =>
          rw [stM, stS]
          refine Rel.bind (S.ex hat he fe) (fun m1 x h1 => ?_)
          have hA := hat.after h1
          have hfb := hat.fb i hi
          have ev : m1.mem (m1.sp - 1) = x.2 := by rw [h1.sp, Nat.add_sub_cancel]; exact h1.val
          refine ⟨rfl, rfl, ⟨fun j hj => ?_, fun j hj => ?_, hat.fb, hat.tp, hat.bt, Nat.le_refl _⟩, fun j hj1 hj2 => ?_⟩
          · simp only [M.set]; rw [if_neg (by omega)]; exact hA.gl j hj
          · simp only [M.set, Env.set]
            by_cases hji : j = i
            · rw [if_pos (by omega), if_pos hji, ev]
            · rw [if_neg (by omega), if_neg hji]; exact hA.lo j hj
          · simp only [M.set]; rw [if_neg (by omega)]; exact h1.low j hj1 (by omega)
      | setGlob i e hi he =>
        cases hfull with
        | setGlob _ _ fe =>
          rw [stM, stS]
          refine Rel.bind (S.ex hat he fe) (fun m1 x h1 => ?_)
          have hA := hat.after h1
          have ev : m1.mem (m1.sp - 1) = x.2 := by rw [h1.sp, Nat.add_sub_cancel]; exact h1.val
          refine ⟨rfl, rfl, ⟨fun j hj => ?_, fun j hj => ?_, hat.fb, hat.tp, hat.bt, Nat.le_refl _⟩, fun j hj1 hj2 => ?_⟩
          · simp only [M.set, Env.set]
            by_cases hji : j = i
            · rw [if_pos hji, if_pos hji, ev]
            · rw [if_neg hji, if_neg hji]; exact hA.gl j hj
          · have := (hat.fb j hj).1
            simp only [M.set]; rw [if_neg (by omega)]; exact hA.lo j hj
          · simp only [M.set]; rw [if_neg (by omega)]; exact h1.low j hj1 (by omega)
      | seq s t hs ht =>
        cases hfull with
        | seq _ _ fs ft =>
          rw [stM, stS]
          refine Rel.bind (S.st hat hsp hs fs) (fun r e hr => ?_)
          obtain ⟨r, b⟩ := r
          cases e with
          | next g' l' =>
            obtain ⟨h1, h2, h3, h4⟩ := hr
            simp only at h1 h2 h3 h4
            subst h1
            have hS := S.st h3 h2 ht ft
            simp only [Bool.false_eq_true, if_false]
            exact ended_trans hS h4
          | back g' v =>
            have h1 := hr.1
            simp only at h1
            subst h1
            exact hr
      | ite e s t he hs ht =>
        cases hfull with
        | ite _ _ _ fe fs ft =>
          rw [stM, stS]
          refine Rel.bind (S.ex hat he fe) (fun m1 x h1 => ?_)
          have ev : m1.mem (m1.sp - 1) = x.2 := by rw [h1.sp, Nat.add_sub_cancel]; exact h1.val
          rw [ev]
          refine Rel.same _ (fun b => ?_)
          have hS := S.st (s := if b then s else t) ((hat.after h1).sp_to (s := m1.sp - 1) (by rw [h1.sp]; omega)) (by simp only; rw [h1.sp]; omega)
            (by cases b <;> assumption) (by cases b <;> assumption)
          exact ended_trans hS (fun j hj1 hj2 => h1.low j hj1 (by omega))
      | loop e s he hs =>
        cases hfull with
        | loop _ _ fe fs =>
          rw [stM, stS]
          refine Rel.bind (S.ex hat he fe) (fun m1 x h1 => ?_)
          have ev : m1.mem (m1.sp - 1) = x.2 := by rw [h1.sp, Nat.add_sub_cancel]; exact h1.val
          rw [ev]
          refine Rel.same _ (fun b => ?_)
          have hA := (hat.after h1).sp_to (s := m1.sp - 1) (by rw [h1.sp]; omega)
          have hlow : ∀ j, G ≤ j → j < fr.base → m1.mem j = m.mem j := fun j hj1 hj2 => h1.low j hj1 (by omega)
          cases b with
          | false => exact ⟨rfl, by simp only; rw [h1.sp]; omega, hA, hlow⟩
          | true =>
            simp only [if_true]
            refine Rel.bind (S.st hA (by simp only; rw [h1.sp]; omega) hs fs) (fun r e hr => ?_)
            obtain ⟨r, b⟩ := r
            cases e with
            | next g' l' =>
              obtain ⟨h2, h3, h4, h5⟩ := hr
              simp only at h2 h3 h4 h5
              subst h2
              have hS := S.st h4 h3 (.loop _ _ he hs) (.loop _ _ fe fs)
              simp only [Bool.false_eq_true, if_false]
              exact ended_trans hS (fun j hj1 hj2 => (h5 j hj1 hj2).trans (hlow j hj1 hj2))
            | back g' v =>
              obtain ⟨h2, h3, h4, h5⟩ := hr
              simp only at h2 h3 h4 h5
              subst h2
              exact ⟨rfl, h3, h4, fun j hj1 hj2 => (h5 j hj1 hj2).trans (hlow j hj1 hj2)⟩
      | retNone => rw [stM, stS]; exact ⟨rfl, Or.inr ⟨hsp, rfl⟩, hat.gl, fun _ _ _ => rfl⟩
      | ret e he =>
        cases hfull with
        | ret _ fe =>
          rw [stM, stS]
          refine Rel.bind (S.ex hat he fe) (fun m1 x h1 => ?_)
          exact ⟨rfl, Or.inl ⟨by rw [h1.sp, hsp], by rw [← hsp]; exact h1.val⟩, h1.gl, fun j hj1 hj2 => h1.low j hj1 (by omega)⟩

/-- The engine between calls holds the global variables. -/
def Holds (e : E) (c : Nat) (g : Env) : Prop := e.vars = c ∧ ∀ i, i < c → e.mem i = g i

theorem op_sim {P : List Fn} {c0 : Nat} (hd : Declared P c0) (hf : ∀ F ∈ P, F.body.Full P) (n : Nat) {e : E} {c : Nat} {g : Env}
    (hc : c0 ≤ c) (he : Holds e c g) (o : Op) (ho : OpsOk c [o]) (hfull : o.Full P) :
    Rel (fun r x => r.1 = x.2.2 ∧ c ≤ x.1 ∧ Holds r.2 x.1 x.2.1) (opM P n e o) (opS P n c g o) := by
  obtain ⟨rfl, he⟩ := he
  cases o with
  | run vars s =>
    have hS := sim (G := e.vars + vars) (fun F hF => (hd F hF).mono (by omega)) hf n
    unfold opM opS runM
    have hat : At (e.vars + vars) 0 ⟨0, e.vars + vars⟩ (fun i => if i < e.vars then g i else .undef) (fun _ => .undef)
        ({ mem := e.mem, sp := e.vars + vars : M }.clear e.vars vars) := by
      refine ⟨fun i hi => ?_, fun i hi => absurd hi (by omega), fun i hi => absurd hi (by omega), Nat.le_refl _, Nat.zero_le _,
        Nat.le_refl _⟩
      simp only [M.clear]
      by_cases h : i < e.vars
      · rw [if_neg (by omega), if_pos h]; exact he i h
      · rw [if_pos (by omega), if_neg h]
    refine Rel.bind (hS.st hat rfl ho.1 hfull) (fun r x hr => ?_)
    obtain ⟨r, b⟩ := r
    cases x with
    | next g' l' =>
      obtain ⟨h1, h2, h3, h4⟩ := hr
      simp only at h1 h2 h3 h4
      subst h1
      have hL : Left (e.vars + vars) 0 (e.vars + vars) r (g', Val.undef) (stop 0 r false) := by
        refine ⟨Or.inr (Or.inr ⟨rfl, rfl⟩), fun i hi => ?_, fun j _ hj => absurd hj (by omega)⟩
        simp only [stop, M.set, Bool.false_eq_true, if_false]
        rw [if_neg (by omega)]; exact h3.gl i hi
      have hv := firstValue_eq hL
      exact ⟨hv.1, Nat.le_add_right _ _, rfl, fun i hi => (hv.2.2 i (by omega)).trans (hL.gl i hi)⟩
    | back g' v =>
      obtain ⟨h1, h2, h3, h4⟩ := hr
      simp only at h1 h2 h3 h4
      subst h1
      have hL : Left (e.vars + vars) 0 (e.vars + vars) r (g', v) (stop 0 r true) := by
        refine ⟨?_, h3, fun j _ hj => absurd hj (by omega)⟩
        simp only [stop, if_true, Nat.zero_add]
        rcases h2 with h2 | h2
        · exact Or.inl h2
        · exact Or.inr (Or.inl h2)
      have hv := firstValue_eq hL
      exact ⟨hv.1, Nat.le_add_right _ _, rfl, fun i hi => (hv.2.2 i (by omega)).trans (hL.gl i hi)⟩
  | call f as =>
    have hd' : Declared P e.vars := fun F hF => (hd F hF).mono hc
    have hS := sim hd' hf n
    unfold opM opS callM
    cases hF : P[f]? with
    | none => simp only [hF]; trivial
    | some F =>
      have hpar := hfull F hF
      simp only [hF]
      refine Rel.bind (hS.body hd' hf hF (m0 := { mem := e.mem, sp := e.vars }) (g := g) (vs := as) (Nat.le_refl _) ?_ ?_ ?_) (fun r x hr => ?_)
      · intro i hi
        rw [pushAll_low _ _ hi]; exact he i hi
      · intro i hi
        unfold bound
        rw [if_pos hi, pushAll_at { mem := e.mem, sp := e.vars } as (by omega), List.getD_eq_getElem?_getD, List.getD_eq_getElem?_getD,
          List.getElem?_eq_getElem (by omega)]
        rfl
      · intro j hj1 hj2; omega
      · have hv := firstValue_eq hr
        exact ⟨hv.1, Nat.le_refl _, rfl, fun i hi => (hv.2.2 i (by omega)).trans (hr.gl i hi)⟩

theorem ops_sim {P : List Fn} {c0 : Nat} (hd : Declared P c0) (hf : ∀ F ∈ P, F.body.Full P) (n : Nat) :
    ∀ (os : List Op) {e : E} {c : Nat} {g : Env}, c0 ≤ c → Holds e c g → OpsOk c os → (∀ o ∈ os, o.Full P) →
      opsM P n e os = opsS P n c g os
  | [], _, _, _, _, _, _, _ => rfl
  | o :: os, e, c, g, hc, he, ho, hfull => by
    have h1 : OpsOk c [o] := by cases o <;> simp only [OpsOk] at ho ⊢; exact ⟨ho.1, trivial⟩
    have hS := op_sim hd hf n hc he o h1 (hfull o (by simp))
    have hnext : ∀ x, opS P n c g o = .ok x → OpsOk x.1 os := by
      intro x hx
      cases o with
      | run vars s =>
        simp only [opS] at hx
        cases hy : stS P n s (fun i => if i < c then g i else .undef) (fun _ => .undef) <;> rw [hy] at hx <;> simp only [R.bind] at hx
        all_goals (try cases hx)
        exact ho.2
      | call f as =>
        simp only [opS] at hx
        cases hF : P[f]? with
        | none => simp only [hF] at hx; cases hx
        | some F =>
          simp only [hF] at hx
          cases hy : stS P n F.body g (bound F as) <;> rw [hy] at hx <;> simp only [R.bind] at hx
          all_goals (try cases hx)
          exact ho
    rw [opsM, opsS]
    generalize opM P n e o = u at hS
    generalize opS P n c g o = w at hS hnext
    cases u <;> cases w <;> simp only [Rel] at hS
    · rfl
    · rfl
    · rename_i r x
      simp only [R.bind]
      rw [ops_sim hd hf n os (Nat.le_trans hc hS.2.1) hS.2.2 (hnext x rfl) (fun q hq => hfull q (by simp [hq])), hS.1]

end Verif.Frames
