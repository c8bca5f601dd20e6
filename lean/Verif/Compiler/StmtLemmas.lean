import Verif.Compiler.StmtSpec
import Verif.Compiler.ExprProof
/-
Lemmas for C27: expressions on the machine with scopes, code fragments inside a program, steps.
-/
namespace Verif.Comp
open Verif Verif.Vm

section
variable {B : Base} {cap halt : Nat}

/-! ### Expressions do not look at the open scopes -/

theorem lift_bind {α β : Type} {sc : List Nat} {O : Out (α × B.S.St)} {g : α × B.S.St → Out (β × B.S.St)} {X : Out (α × B.SSt)}
    {f : α × B.SSt → Out (β × B.SSt)} (h : X = B.keep sc O) (hf : ∀ a s, O = .ok (a, s) → f (a, (s, sc)) = B.keep sc (g (a, s))) :
    X.bind f = B.keep sc (O.bind g) := by
  subst h
  cases O with
  | ok p => exact hf p.1 p.2 rfl
  | err => rfl
  | ub => rfl

mutual
theorem evalEx_mach : (e : Ex) → (s : B.S.St) → (sc : List Nat) →
    evalEx (B.mach cap halt) e (s, sc) = B.keep sc (evalEx B.S e s)
  | .opd o, s, sc => by simp only [evalEx]; exact evalOpd_mach o s sc
  | .bin op l r, s, sc => by
    simp only [evalEx]
    refine lift_bind (evalEx_mach l s sc) fun v s' _ => ?_
    have hr := fun s => evalEx_mach r s sc
    cases op <;> first
      | (show (match B.S.truth v with | none => _ | some true => _ | some false => _) = _
         cases ht : B.S.truth v with
         | none => simp only [ht]; rfl
         | some b => cases b <;> simp only [ht] <;> first | exact hr _ | rfl)
      | (cases r with
         | opd o => cases o <;> rfl
         | bin => rfl)
      | exact lift_bind (hr s') fun v2 s2 _ => rfl
theorem evalOpd_mach : (o : Opd) → (s : B.S.St) → (sc : List Nat) →
    evalOpd (B.mach cap halt) o (s, sc) = B.keep sc (evalOpd B.S o s)
  | .lit k, s, sc => rfl
  | .reg r, s, sc => rfl
  | .glb x, s, sc => rfl
  | .ty t, s, sc => rfl
  | .app f args, s, sc => by
    simp only [evalOpd]
    exact lift_bind (evalArgs_mach args s sc) fun v s' _ => rfl
  | .par none t, s, sc => by simp only [evalOpd]; exact evalSub_mach t s sc
  | .par (some u) t, s, sc => by
    simp only [evalOpd]
    exact lift_bind (evalSub_mach t s sc) fun v s' _ => rfl
theorem evalSub_mach : (t : Sub) → (s : B.S.St) → (sc : List Nat) →
    evalSub (B.mach cap halt) t (s, sc) = B.keep sc (evalSub B.S t s)
  | .plain e, s, sc => by simp only [evalSub]; exact evalEx_mach e s sc
  | .tern c a b, s, sc => by
    simp only [evalSub]
    refine lift_bind (evalEx_mach c s sc) fun v s' _ => ?_
    have ha := evalSub_mach a s' sc
    have hb := evalSub_mach b s' sc
    show (match B.S.truth v with | none => _ | some true => _ | some false => _) = _
    cases ht : B.S.truth v with
    | none => simp only [ht]; rfl
    | some x => cases x <;> simp only [ht] <;> first | exact ha | exact hb
theorem evalArgs_mach : (args : Args) → (s : B.S.St) → (sc : List Nat) →
    evalArgs (B.mach cap halt) args (s, sc) = B.keep sc (evalArgs B.S args s)
  | .nil, s, sc => rfl
  | .cons t rest, s, sc => by
    simp only [evalArgs]
    refine lift_bind (evalSub_mach t s sc) fun v s' _ => ?_
    exact lift_bind (evalArgs_mach rest s' sc) fun v2 s2 _ => rfl
end

mutual
theorem shapeEx_mach : (e : Ex) → shapeEx (B.mach cap halt) e = shapeEx B.S e
  | .opd o => by simp only [shapeEx]; exact shapeOpd_mach o
  | .bin op l r => by simp only [shapeEx]; rw [shapeEx_mach l, shapeEx_mach r]
theorem shapeOpd_mach : (o : Opd) → shapeOpd (B.mach cap halt) o = shapeOpd B.S o
  | .lit k => rfl
  | .reg r => rfl
  | .glb x => rfl
  | .ty t => rfl
  | .app f args => rfl
  | .par none t => by simp only [shapeOpd]; exact shapeSub_mach t
  | .par (some u) t => rfl
theorem shapeSub_mach : (t : Sub) → shapeSub (B.mach cap halt) t = shapeSub B.S t
  | .plain e => by simp only [shapeSub]; exact shapeEx_mach e
  | .tern c a b => by simp only [shapeSub]; rw [shapeSub_mach b]
end

theorem pairOk_mach (op : BOp) (a b : Shape) (h : PairOk B.S op a b) : PairOk (B.mach cap halt) op a b := by
  cases a <;> cases b <;> first
    | exact h
    | exact fun k hk s => by
        have := h k hk s.1
        show B.keep s.2 (B.S.bin op (B.S.lit _) (B.S.lit _) s.1) = _
        rw [this]; rfl

mutual
theorem safeEx_mach : (e : Ex) → SafeEx B.S e → SafeEx (B.mach cap halt) e
  | .opd o, h => by simp only [SafeEx] at h ⊢; exact safeOpd_mach o h
  | .bin op l r, h => by
    simp only [SafeEx] at h ⊢
    refine ⟨safeEx_mach l h.1, safeEx_mach r h.2.1, ?_⟩
    rw [shapeEx_mach, shapeEx_mach]
    rcases h.2.2 with h | h | h | h
    · exact .inl h
    · exact .inr (.inl h)
    · exact .inr (.inr (.inl h))
    · exact .inr (.inr (.inr (pairOk_mach _ _ _ h)))
theorem safeOpd_mach : (o : Opd) → SafeOpd B.S o → SafeOpd (B.mach cap halt) o
  | .lit k, _ => trivial
  | .reg r, _ => trivial
  | .glb x, _ => trivial
  | .ty t, _ => trivial
  | .app f args, h => by simp only [SafeOpd] at h ⊢; exact safeArgs_mach args h
  | .par u t, h => by simp only [SafeOpd] at h ⊢; exact safeSub_mach t h
theorem safeSub_mach : (t : Sub) → SafeSub B.S t → SafeSub (B.mach cap halt) t
  | .plain e, h => by simp only [SafeSub] at h ⊢; exact safeEx_mach e h
  | .tern c a b, h => by
    simp only [SafeSub] at h ⊢
    exact ⟨safeEx_mach c h.1, safeSub_mach a h.2.1, safeSub_mach b h.2.2⟩
theorem safeArgs_mach : (args : Args) → SafeArgs B.S args → SafeArgs (B.mach cap halt) args
  | .nil, _ => trivial
  | .cons t rest, h => by
    simp only [SafeArgs] at h ⊢
    exact ⟨safeSub_mach t h.1, safeArgs_mach rest h.2⟩
end

/-! ### Expressions contain no statement instruction -/

def Ins.isExt {X : Type} : Ins X → Bool
  | .ext _ => true
  | _ => false

def NoExt {X : Type} (c : List (Ins X)) : Prop := ∀ i ∈ c, i.isExt = false

theorem noExt_nil {X : Type} : NoExt ([] : List (Ins X)) := fun _ h => absurd h List.not_mem_nil

theorem noExt_append {X : Type} {a b : List (Ins X)} (ha : NoExt a) (hb : NoExt b) : NoExt (a ++ b) := by
  intro i hi
  rcases List.mem_append.mp hi with h | h
  · exact ha i h
  · exact hb i h

theorem noExt_one {X : Type} {i : Ins X} (h : i.isExt = false) : NoExt [i] := by
  intro j hj
  rw [List.mem_singleton.mp hj]; exact h

theorem noExt_of_append {X : Type} {a b : List (Ins X)} (h : NoExt (a ++ b)) : NoExt a ∧ NoExt b :=
  ⟨fun i hi => h i (List.mem_append_left _ hi), fun i hi => h i (List.mem_append_right _ hi)⟩

/-- The leaves of a tree from left to right. -/
def leavesOf {α : Type u} : Tree α → List α
  | .leaf x => [x]
  | .node _ l r => leavesOf l ++ leavesOf r

theorem leavesOf_flatten {α : Type u} (t : Tree α) : leavesOf t = (flatten t).1 :: (flatten t).2.map Prod.snd := by
  induction t with
  | leaf x => rfl
  | node op l r ihl ihr => simp [leavesOf, flatten, ihl, ihr]

theorem leavesOf_resplit {α : Type u} (t : Tree α) : leavesOf (resplit t) = leavesOf t := by
  rw [leavesOf_flatten, leavesOf_flatten]
  unfold resplit
  rw [parse_flatten, flattenTokens_eq]

theorem optimize_noExt {X : Type} {fold : BOp → Const → Const → Option Const} {op : BOp} {pre : List (Ins X)} {i1 i2 : Ins X} {c}
    (hp : NoExt pre) (h1 : i1.isExt = false) (h2 : i2.isExt = false) (h : optimize fold op pre i1 i2 = some c) : NoExt c := by
  have key : ∀ l : List (Ins X), (∀ i ∈ l, i.isExt = false) → NoExt (pre ++ l) := fun l hl => noExt_append hp hl
  unfold optimize at h
  have two : ∀ a b : Ins X, a.isExt = false → b.isExt = false → ∀ i ∈ [a, b], i.isExt = false := by
    intro a b ha hb i hi; simp only [List.mem_cons, List.not_mem_nil, or_false] at hi; rcases hi with rfl | rfl <;> assumption
  have three : ∀ a b c : Ins X, a.isExt = false → b.isExt = false → c.isExt = false → ∀ i ∈ [a, b, c], i.isExt = false := by
    intro a b c ha hb hc i hi
    simp only [List.mem_cons, List.not_mem_nil, or_false] at hi; rcases hi with rfl | rfl | rfl <;> assumption
  split at h
  · cases h; exact key _ (two _ _ h1 rfl)
  · split at h
    · cases hk : fold op _ _ with
      | none => rw [hk] at h; cases h
      | some k => rw [hk] at h; cases h; exact key _ (noExt_one rfl)
    all_goals (cases h; first | exact key _ (noExt_one rfl) | exact key _ (two _ _ h1 rfl) | exact key _ (three _ _ _ h1 h2 rfl))

theorem emitOp_noExt {X : Type} {fold : BOp → Const → Const → Option Const} {op : BOp} {code c : List (Ins X)} (hc : NoExt code)
    (h : emitOp fold op code = some c) : NoExt c := by
  unfold emitOp at h
  split at h
  · rename_i i2 i1 pre he
    have hc' : ∀ i ∈ i2 :: i1 :: pre, i.isExt = false := by
      intro i hi; rw [← he] at hi; exact hc i (List.mem_reverse.mp hi)
    refine optimize_noExt ?_ (hc' i1 (by simp)) (hc' i2 (by simp)) h
    intro i hi
    exact hc' i (by simp [List.mem_reverse.mp hi])
  · cases h; exact noExt_append hc (noExt_one rfl)

theorem genTree_noExt {X : Type} {fold : BOp → Const → Const → Option Const} (t : Tree (List (Ins X))) :
    (∀ l ∈ leavesOf t, NoExt l) → ∀ (code c : List (Ins X)), NoExt code → genTree fold t code = some c → NoExt c := by
  induction t with
  | leaf x =>
    intro hl code c hc h
    cases h
    exact noExt_append hc (hl x (by simp [leavesOf]))
  | node op l r ihl ihr =>
    intro hl code c hc h
    have ihl := ihl (fun x hx => hl x (by simp [leavesOf, hx]))
    have ihr := ihr (fun x hx => hl x (by simp [leavesOf, hx]))
    simp only [genTree, Option.bind_eq_some_iff] at h
    obtain ⟨code1, h1, h⟩ := h
    have hc1 := ihl code code1 hc h1
    split at h
    · exact ihr _ _ (noExt_append hc1 (noExt_one rfl)) h
    · split at h
      · exact ihr _ _ (noExt_append hc1 (noExt_one rfl)) h
      · simp only [Option.bind_eq_some_iff] at h
        obtain ⟨code2, h2, h⟩ := h
        exact emitOp_noExt (ihr _ _ hc1 h2) h

theorem link_noExt {X : Type} (a : Bool) (c : List (Ins X)) (hc : NoExt c) : NoExt (link a c) := by
  induction c with
  | nil => exact hc
  | cons i c ih =>
    have hi := hc i (List.mem_cons_self ..)
    have ih := ih (fun j hj => hc j (List.mem_cons_of_mem _ hj))
    intro j hj
    cases i <;> simp only [link, List.mem_cons] at hj <;> rcases hj with rfl | hj <;>
      first
        | exact ih j hj
        | exact hi
        | (split <;> rfl)
        | rfl

theorem finish_noExt {X : Type} (c : List (Ins X)) (hc : NoExt c) : NoExt (finish c) := by
  unfold finish
  refine link_noExt _ _ (noExt_append hc ?_)
  unfold logicTail
  intro i hi
  split at hi
  · simp at hi; rcases hi with rfl | rfl | rfl | rfl <;> rfl
  · split at hi
    · simp at hi; rcases hi with rfl | rfl <;> rfl
    · split at hi
      · simp at hi; rcases hi with rfl | rfl <;> rfl
      · simp at hi

theorem noExt_drop {X : Type} {c : List (Ins X)} (n : Nat) (h : NoExt c) : NoExt (c.drop n) := fun i hi => h i (List.mem_of_mem_drop hi)

theorem noExt_set {X : Type} {c : List (Ins X)} (n : Nat) (i : Ins X) (h : NoExt c) (hi : i.isExt = false) : NoExt (c.set n i) := by
  intro j hj
  rcases List.mem_or_eq_of_mem_set hj with h' | rfl
  · exact h j h'
  · exact hi

mutual
theorem treeOf_noExt {X : Type} {fold : BOp → Const → Const → Option Const} : (e : Ex) → (t : Tree (List (Ins X))) →
    treeOf fold e = some t → ∀ l ∈ leavesOf t, NoExt l
  | .opd o, t, h => by
    simp only [treeOf, Option.map_eq_some_iff] at h
    obtain ⟨c, hc, rfl⟩ := h
    intro l hl
    simp only [leavesOf, List.mem_singleton] at hl
    subst hl
    exact compOpd_noExt o _ hc
  | .bin op l r, t, h => by
    simp only [treeOf, Option.bind_eq_some_iff] at h
    obtain ⟨tl, hl, tr, hr, h⟩ := h
    cases h
    intro x hx
    rcases List.mem_append.mp hx with hx | hx
    · exact treeOf_noExt l tl hl x hx
    · exact treeOf_noExt r tr hr x hx
theorem compOpd_noExt {X : Type} {fold : BOp → Const → Const → Option Const} : (o : Opd) → (c : List (Ins X)) →
    compOpd fold o = some c → NoExt c
  | .lit k, c, h => by cases h; exact noExt_one rfl
  | .reg r, c, h => by cases h; exact noExt_one rfl
  | .glb x, c, h => by cases h; exact noExt_one rfl
  | .ty t, c, h => by cases h; exact noExt_one rfl
  | .app f args, c, h => by
    simp only [compOpd, Option.map_eq_some_iff] at h
    obtain ⟨d, hd, rfl⟩ := h
    exact noExt_append (compArgs_noExt args _ hd) (noExt_one rfl)
  | .par u s, c, h => by
    simp only [compOpd, Option.map_eq_some_iff] at h
    obtain ⟨d, hd, rfl⟩ := h
    have := compSub_noExt s [] _ noExt_nil hd
    cases u with
    | none => exact this
    | some u => exact noExt_append this (noExt_one rfl)
theorem compSub_noExt {X : Type} {fold : BOp → Const → Const → Option Const} : (s : Sub) → (code c : List (Ins X)) → NoExt code →
    compSub fold s code = some c → NoExt c
  | .plain e, code, c, hc, h => by
    simp only [compSub, Option.bind_eq_some_iff, Option.map_eq_some_iff] at h
    obtain ⟨t, ht, d, hd, rfl⟩ := h
    refine noExt_append hc (finish_noExt _ (noExt_drop _ (genTree_noExt _ ?_ _ _ hc hd)))
    rw [leavesOf_resplit]; exact treeOf_noExt e t ht
  | .tern c a b, code, out, hc, h => by
    simp only [compSub, Option.bind_eq_some_iff] at h
    obtain ⟨t, ht, d, hd, code1, h1, code2, h2, h⟩ := h
    have h0 : NoExt (code ++ finish (d.drop code.length)) := by
      refine noExt_append hc (finish_noExt _ (noExt_drop _ (genTree_noExt _ ?_ _ _ hc hd)))
      rw [leavesOf_resplit]; exact treeOf_noExt c t ht
    have h1' := compSub_noExt a _ _ (noExt_append h0 (noExt_one rfl)) h1
    have h2' := compSub_noExt b _ _ (noExt_append h1' (noExt_one rfl)) h2
    cases h
    exact noExt_set _ _ (noExt_set _ _ h2' rfl) rfl
theorem compArgs_noExt {X : Type} {fold : BOp → Const → Const → Option Const} : (args : Args) → (c : List (Ins X)) →
    compArgs fold args = some c → NoExt c
  | .nil, c, h => by cases h; exact noExt_nil
  | .cons s rest, c, h => by
    simp only [compArgs, Option.bind_eq_some_iff, Option.map_eq_some_iff] at h
    obtain ⟨d, hd, e, he, rfl⟩ := h
    exact noExt_append (compSub_noExt s [] _ noExt_nil hd) (compArgs_noExt rest _ he)
end

/-! ### Code inside a program -/

/-- What becomes of an instruction at position `q` if `break` goes to `bt` and `continue` to `ct`. -/
def res (bt ct q : Nat) : SI → SI
  | .ext .brk => .jmp ((bt : Int) - q)
  | .ext .cont => .jmp ((ct : Int) - q)
  | x => x

/-- The program `P` contains the code from position `p` on. -/
def At (P : List SI) (p : Nat) (c : List SI) (bt ct : Nat) : Prop := ∀ i x, c[i]? = some x → P[p + i]? = some (res bt ct (p + i) x)

theorem at_append {P : List SI} {p : Nat} {a b : List SI} {bt ct : Nat} :
    At P p (a ++ b) bt ct ↔ At P p a bt ct ∧ At P (p + a.length) b bt ct := by
  constructor
  · intro h
    refine ⟨fun i x hx => h i x ?_, fun i x hx => ?_⟩
    · have : i < a.length := (List.getElem?_eq_some_iff.mp hx).1
      rw [List.getElem?_append_left this]; exact hx
    · have := h (a.length + i) x (by rw [List.getElem?_append_right (by omega)]; simpa using hx)
      rw [← Nat.add_assoc] at this; exact this
  · rintro ⟨h1, h2⟩ i x hx
    by_cases hi : i < a.length
    · rw [List.getElem?_append_left hi] at hx; exact h1 i x hx
    · rw [List.getElem?_append_right (by omega)] at hx
      have := h2 _ x hx
      have e : p + a.length + (i - a.length) = p + i := by omega
      rwa [e] at this

theorem at_cons {P : List SI} {p : Nat} {x : SI} {b : List SI} {bt ct : Nat} :
    At P p (x :: b) bt ct ↔ P[p]? = some (res bt ct p x) ∧ At P (p + 1) b bt ct := by
  have := at_append (P := P) (p := p) (a := [x]) (b := b) (bt := bt) (ct := ct)
  simp only [List.singleton_append, List.length_singleton] at this
  rw [this]
  refine and_congr ⟨fun h => by simpa using h 0 x rfl, fun h i y hy => ?_⟩ Iff.rfl
  cases i with
  | zero => cases hy; simpa using h
  | succ i => simp at hy

theorem at_nil {P : List SI} {p bt ct : Nat} : At P p [] bt ct := fun i x h => by simp at h

theorem at_one {P : List SI} {p : Nat} {x : SI} {bt ct : Nat} (h : At P p [x] bt ct) : P[p]? = some (res bt ct p x) := (at_cons.mp h).1

/-- Code whose `break`s and `continue`s have got their offsets. -/
theorem at_resolve {P : List SI} {p : Nat} {code : List SI} {b c bt ct : Nat} (h : At P p (resolve (some b) (some c) code) bt ct) :
    At P p code (p + b) (p + c) := by
  intro i x hx
  have := h i (resolveAt (some b) (some c) i x) (by unfold resolve; rw [List.getElem?_mapIdx, hx]; rfl)
  rw [this]
  have e : ∀ t : Nat, (t : Int) - i = ((p + t : Nat) : Int) - ((p + i : Nat) : Int) := by intro t; omega
  cases x <;> try rfl
  rename_i y; cases y <;> first | rfl | (simp only [res, resolveAt]; rw [e])

/-- Code whose `break`s have got their offsets. -/
theorem at_resolve_brk {P : List SI} {p : Nat} {code : List SI} {b bt ct : Nat} (h : At P p (resolve (some b) none code) bt ct) :
    At P p code (p + b) ct := by
  intro i x hx
  have := h i (resolveAt (some b) none i x) (by unfold resolve; rw [List.getElem?_mapIdx, hx]; rfl)
  rw [this]
  have e : ∀ t : Nat, (t : Int) - i = ((p + t : Nat) : Int) - ((p + i : Nat) : Int) := by intro t; omega
  cases x <;> try rfl
  rename_i y; cases y <;> first | rfl | (simp only [res, resolveAt]; rw [e])

theorem resolve_length (b c : Option Nat) (code : List SI) : (resolve b c code).length = code.length := by simp [resolve]

theorem res_noExt {bt ct q : Nat} {x : SI} (h : x.isExt = false) : res bt ct q x = x := by
  cases x <;> first | rfl | cases h

theorem at_noExt {P : List SI} {p : Nat} {c : List SI} {bt ct : Nat} (h : At P p c bt ct) (hc : NoExt c) (hp : p ≤ P.length) :
    P = P.take p ++ c ++ P.drop (p + c.length) ∧ (P.take p).length = p := by
  have hl : (P.take p).length = p := by simp; omega
  refine ⟨?_, hl⟩
  apply List.ext_getElem?
  intro i
  by_cases h1 : i < p
  · rw [List.append_assoc, List.getElem?_append_left (by omega), List.getElem?_take_of_lt h1]
  · by_cases h2 : i < p + c.length
    · rw [List.append_assoc, List.getElem?_append_right (by omega), List.getElem?_append_left (by omega), hl]
      have hx : c[i - p]? = some (c[i - p]'(by omega)) := List.getElem?_eq_getElem _
      have := h (i - p) _ hx
      rw [res_noExt (hc _ (List.getElem_mem _))] at this
      have e : p + (i - p) = i := by omega
      rw [e] at this
      rw [this, hx]
    · rw [List.getElem?_append_right (by simp; omega), List.getElem?_drop]
      congr 1
      simp only [List.length_append, hl]
      omega

end
end Verif.Comp
