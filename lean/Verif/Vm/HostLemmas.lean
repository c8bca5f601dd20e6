import Verif.Vm.Host
import Verif.Vm.HostSpec
/-
Counters are exact: helper lemmas for `Verif/Vm/HostProps.lean`.
-/
namespace Verif.Host
open Verif Verif.HostSpec

/-- What an object is when `v` variables refer to it and the host holds it `l` times. -/
def OK (c : Cell) (v l : Nat) : Prop :=
  match c with
  | .dead => v = 0 ∧ l = 0
  | .bare => v = 0 ∧ l = 1
  | .node n _ => n = v + l ∧ 0 < n

/-- Same state up to the objects. -/
structure Same (s t : S) : Prop where
  glob : t.glob = s.glob
  life : t.life = s.life
  next : t.next = s.next

theorem Same.refl (s : S) : Same s s := ⟨rfl, rfl, rfl⟩
theorem Same.trans {s t u : S} (a : Same s t) (b : Same t u) : Same s u :=
  ⟨b.glob.trans a.glob, b.life.trans a.life, b.next.trans a.next⟩

def Waits (s : S) : Prop := ∀ b, s.wait b = []

/-- Objects are as `c` variables and the list of the host have them; nothing waits. -/
structure I (s : S) (c : Nat → Nat) : Prop where
  ok : ∀ o, OK (s.mem o) (c o) (s.life.count o)
  wait : Waits s
  fresh : ∀ o, s.next ≤ o → s.mem o = .dead

theorem I.node {s : S} {c : Nat → Nat} (hi : I s c) {o : Nat} (h : 0 < c o) :
    ∃ n k, s.mem o = .node (n + 1) k ∧ n + 1 = c o + s.life.count o := by
  have := hi.ok o
  cases hm : s.mem o with
  | dead => rw [hm] at this; simp only [OK] at this; omega
  | bare => rw [hm] at this; simp only [OK] at this; omega
  | node n k =>
    rw [hm] at this; simp only [OK] at this
    exact ⟨n - 1, k, by congr 1; omega, by omega⟩

/-- The objects other than `o` are as before. -/
def Rest (s t : S) (o : Nat) : Prop := ∀ p, p ≠ o → t.mem p = s.mem p

theorem I.upd {s t : S} {c d : Nat → Nat} {o : Nat} (hi : I s c) (hs : Same s t) (hr : Rest s t o)
    (hd : ∀ p, p ≠ o → d p = c p) (ho : OK (t.mem o) (d o) (s.life.count o)) (hw : Waits t) (hn : o < s.next) : I t d := by
  refine ⟨fun p => ?_, hw, fun p hp => ?_⟩
  · rw [hs.life]
    by_cases e : p = o
    · subst e; exact ho
    · rw [hr p e, hd p e]; exact hi.ok p
  · rw [hs.next] at hp
    rw [hr p (by omega)]; exact hi.fresh p hp

theorem I.lt {s : S} {c : Nat → Nat} (hi : I s c) {o : Nat} (h : 0 < c o) : o < s.next := by
  obtain ⟨n, k, hm, _⟩ := hi.node h
  by_cases e : o < s.next
  · exact e
  · rw [hi.fresh o (by omega)] at hm; cases hm

theorem share_ok {s : S} {c d : Nat → Nat} {o : Nat} (hi : I s c) (h : 0 < c o) (ho : d o = c o + 1)
    (hd : ∀ p, p ≠ o → d p = c p) : ∃ t, share s o = .ok t ∧ Same s t ∧ I t d := by
  obtain ⟨n, k, hm, e⟩ := hi.node h
  refine ⟨s.set o (.node (n + 2) k), by simp only [share, hm], ⟨rfl, rfl, rfl⟩,
    hi.upd ⟨rfl, rfl, rfl⟩ (fun p hp => by simp [S.set, hp]) hd ?_ hi.wait (hi.lt h)⟩
  simp only [S.set, if_pos, OK]; omega

theorem sweep_nil {s : S} {b : Blk} (hw : Waits s) (r : List Nat) : sweep s b r = s := by
  have : (fun c => if c = b then ([] : List Nat) else s.wait c) = s.wait := by
    funext c; split <;> simp [hw c]
  unfold sweep
  rw [hw b]
  show ({ s with wait := fun c => if c = b then ([] : List Nat) else s.wait c } : S) = s
  rw [this]

theorem drop_wait {s : S} {c d : Nat → Nat} {o : Nat} {b : Blk} (hi : I s c) (h : 0 < c o) (ho : d o + 1 = c o)
    (hd : ∀ p, p ≠ o → d p = c p) :
    ∃ t, (unref s o (some b)).map (fun s => sweep s b []) = .ok t ∧ Same s t ∧ I t d := by
  obtain ⟨n, k, hm, e⟩ := hi.node h
  cases n with
  | zero =>
    refine ⟨_, by simp only [unref, hm, Out.map]; rfl, ⟨?_, ?_, ?_⟩, ?_⟩
    · simp [sweep, S.setWait, S.set, hi.wait b, free]
    · simp [sweep, S.setWait, S.set, hi.wait b, free]
    · simp [sweep, S.setWait, S.set, hi.wait b, free]
    · refine hi.upd (o := o) ⟨?_, ?_, ?_⟩ (fun p hp => ?_) hd ?_ (fun b' => ?_) (hi.lt h)
      · simp [sweep, S.setWait, S.set, hi.wait b, free]
      · simp [sweep, S.setWait, S.set, hi.wait b, free]
      · simp [sweep, S.setWait, S.set, hi.wait b, free]
      · simp [sweep, S.setWait, S.set, hi.wait b, free, hp]
      · simp only [sweep, S.setWait, S.set, hi.wait b, free, List.nil_append, List.not_mem_nil, if_false, if_true, OK]; omega
      · simp only [sweep, S.setWait, S.set, hi.wait b, free, List.nil_append, if_true]
        by_cases e' : b' = b
        · simp [e']
        · simp [e', hi.wait b']
  | succ n =>
    have hI : I (s.set o (.node (n + 1) k)) d :=
      hi.upd ⟨rfl, rfl, rfl⟩ (fun p hp => by simp [S.set, hp]) hd
        (by simp only [S.set, if_pos, OK]; omega) hi.wait (hi.lt h)
    refine ⟨s.set o (.node (n + 1) k), ?_, ⟨rfl, rfl, rfl⟩, hI⟩
    simp only [unref, hm, Out.map]
    rw [sweep_nil hI.wait]

theorem delete_ok {s : S} {c d : Nat → Nat} {o : Nat} (hi : I s c) (h : 0 < c o) (ho : d o + 1 = c o)
    (hd : ∀ p, p ≠ o → d p = c p) (hk : 0 < d o + s.life.count o) :
    ∃ t, delete s (some o) = .ok t ∧ Same s t ∧ I t d := by
  obtain ⟨n, k, hm, e⟩ := hi.node h
  cases n with
  | zero => omega
  | succ n =>
    refine ⟨s.set o (.node (n + 1) k), ?_, ⟨rfl, rfl, rfl⟩, hi.upd ⟨rfl, rfl, rfl⟩ (fun p hp => by simp [S.set, hp]) hd
        (by simp only [S.set, if_pos, OK]; omega) hi.wait (hi.lt h)⟩
    simp only [delete, unref, hm, Out.bind]
    simp [S.set]

/-- References to `o` from variables. -/
def refs (s : S) (loc : List (Option Nat)) (o : Nat) : Nat := s.glob.count (some o) + loc.count (some o)

theorem count_set {l : List (Option Nat)} {i : Nat} {old : Option Nat} (h : l[i]? = some old) (v : Option Nat) (o : Nat) :
    (l.set i v).count (some o) + (if old = some o then 1 else 0) = l.count (some o) + (if v = some o then 1 else 0) := by
  obtain ⟨hi, he⟩ := List.getElem?_eq_some_iff.1 h
  rw [List.count_set hi]
  by_cases e : old = some o
  · have hp : 0 < l.count (some o) := List.count_pos_iff.2 (e ▸ he ▸ List.getElem_mem hi)
    by_cases e' : v = some o <;> simp [he, e, e'] <;> omega
  · by_cases e' : v = some o <;> simp [he, e, e']

theorem mem_pos {l : List (Option Nat)} {i o : Nat} (h : l[i]? = some (some o)) : 0 < l.count (some o) :=
  List.count_pos_iff.2 (List.mem_of_getElem? h)

/-- The value of an expression: the state has it counted already but for the share to take. `d` counts what is after the
assignment. -/
theorem store_ok {s t : S} {loc : List (Option Nat)} {c d : Nat → Nat} {b : Blk} {e : Src} {v old : Option Nat}
    (hi : I s c) (hc : ∀ o, c o = refs s loc o) (he : eval s loc b e = some (v, t))
    (hold : ∀ o, old = some o → 0 < c o)
    (hd : ∀ o, d o + (if old = some o then 1 else 0) = c o + (if v = some o then 1 else 0)) :
    ∀ g, ∃ u, store { t with glob := g } b old v = .ok u ∧ u.glob = g ∧ u.life = s.life ∧ u.next = t.next ∧ I u d := by
  intro g
  have hG : ∀ {x : S} {k : Nat → Nat}, I x k → I { x with glob := g } k := fun h => ⟨h.ok, h.wait, h.fresh⟩
  -- once the new object is shared
  have tail : ∀ (x : S) (k : Nat → Nat), I x k → x.glob = g → x.life = s.life → x.next = t.next →
      (∀ o, d o + (if old = some o then 1 else 0) = k o) →
      ∃ u, (match old with
        | some p => (unref x p (some b)).map fun s => sweep s b []
        | none => Out.ok (sweep x b [])) = .ok u ∧ u.glob = g ∧ u.life = s.life ∧ u.next = t.next ∧ I u d := by
    intro x k hx h1 h2 h3 hk
    cases old with
    | none =>
      refine ⟨x, by simp only [sweep_nil hx.wait], h1, h2, h3, ?_⟩
      have : d = k := by funext o; have := hk o; simpa using this
      rw [this]; exact hx
    | some p =>
      have hp : d p + 1 = k p := by have := hk p; simpa using this
      obtain ⟨u, hu, hs, hI⟩ := drop_wait (b := b) (d := d) hx (o := p) (by omega) hp
        (fun q hq => by have := hk q; simp only [Option.some.injEq, Ne.symm hq, if_false] at this; omega)
      exact ⟨u, hu, hs.glob.trans h1, hs.life.trans h2, hs.next.trans h3, hI⟩
  cases v with
  | none =>
    have ht : t = s := by
      cases e with
      | undef => simp only [eval, Option.some.injEq, Prod.mk.injEq] at he; exact he.2.symm
      | new => simp [eval] at he
      | glob i => simp only [eval] at he; cases hg : s.glob[i]? <;> simp [hg] at he; exact he.2.symm
      | loc i => simp only [eval] at he; cases hg : loc[i]? <;> simp [hg] at he; exact he.2.symm
    subst ht
    obtain ⟨u, hu⟩ := tail { t with glob := g } c (hG hi) rfl rfl rfl (fun o => by have := hd o; simpa using this)
    exact ⟨u, by simp only [store]; exact hu.1, hu.2⟩
  | some o =>
    by_cases eq : old = some o
    · -- the same object
      have ho := hold o eq
      have ht : t = s := by
        cases e with
        | undef => simp [eval] at he
        | new =>
          simp only [eval, Option.some.injEq, Prod.mk.injEq] at he
          have := hi.lt ho
          omega
        | glob i => simp only [eval] at he; cases hg : s.glob[i]? <;> simp [hg] at he; exact he.2.symm
        | loc i => simp only [eval] at he; cases hg : loc[i]? <;> simp [hg] at he; exact he.2.symm
      subst ht
      refine ⟨{ t with glob := g }, ?_, rfl, rfl, rfl, ?_⟩
      · simp only [store, if_pos eq]
        rw [sweep_nil (hG hi).wait]
      · have : d = c := by funext p; have := hd p; rw [eq] at this; omega
        rw [this]; exact hG hi
    · -- another object
      have key : ∃ x, share { t with glob := g } o = .ok x ∧ x.glob = g ∧ x.life = s.life ∧ x.next = t.next ∧
          I x (fun p => c p + if p = o then 1 else 0) := by
        have old' : 0 < c o → t = s → ∃ x, share { t with glob := g } o = .ok x ∧ x.glob = g ∧ x.life = s.life ∧
            x.next = t.next ∧ I x (fun p => c p + if p = o then 1 else 0) := by
          intro ho ht
          subst ht
          obtain ⟨x, hx, hs, hI⟩ := share_ok (d := fun p => c p + if p = o then 1 else 0) (hG hi) ho (by simp)
            (fun p hp => by simp [hp])
          exact ⟨x, hx, hs.glob, hs.life, hs.next, hI⟩
        cases e with
        | undef => simp [eval] at he
        | new =>
          simp only [eval, Option.some.injEq, Prod.mk.injEq] at he
          obtain ⟨e1, e2⟩ := he
          subst e1; subst e2
          have hdead := hi.ok s.next
          rw [hi.fresh s.next (Nat.le_refl _)] at hdead
          simp only [OK] at hdead
          refine ⟨⟨fun p => if p = s.next then .node 1 b else s.mem p, s.wait, g, s.life, s.next + 1⟩, ?_, rfl, rfl, rfl,
            ⟨?_, ?_, ?_⟩⟩
          rotate_left
          · intro p
            show OK (if p = s.next then .node 1 b else s.mem p) _ _
            by_cases hp : p = s.next
            · subst hp; simp only [if_true, OK]
              have : (s.life.count s.next) = 0 := hdead.2
              omega
            · simp only [if_neg hp]; exact hi.ok p
          · exact hi.wait
          · intro p hp
            show (if p = s.next then Cell.node 1 b else s.mem p) = .dead
            have hp : s.next + 1 ≤ p := hp
            rw [if_neg (by omega)]; exact hi.fresh p (by omega)
          · simp only [share, S.setWait, S.set, if_true, hi.wait b, List.nil_append, List.mem_singleton, List.erase_cons_head]
            congr 1
            simp only [S.mk.injEq, and_true]
            constructor
            · funext p; split <;> simp_all
            · funext b'
              by_cases hb : b' = b
              · simp [hb, hi.wait b]
              · simp [hb]
        | glob i =>
          simp only [eval] at he
          cases hg : s.glob[i]? with
          | none => simp [hg] at he
          | some v =>
            simp [hg] at he
            refine old' ?_ he.2.symm
            rw [hc o]; have := mem_pos (he.1 ▸ hg); unfold refs; omega
        | loc i =>
          simp only [eval] at he
          cases hg : loc[i]? with
          | none => simp [hg] at he
          | some v =>
            simp [hg] at he
            refine old' ?_ he.2.symm
            rw [hc o]; have := mem_pos (he.1 ▸ hg); unfold refs; omega
      obtain ⟨x, hx, h1, h2, h3, hI⟩ := key
      obtain ⟨u, hu⟩ := tail x _ hI h1 h2 h3 (fun p => by
        have := hd p
        simp only [Option.some.injEq] at this
        rw [this]
        by_cases hp : p = o
        · simp [hp]
        · simp [hp, Ne.symm hp])
      refine ⟨u, ?_, hu.2⟩
      simp only [store, if_neg eq, hx, Out.bind]
      exact hu.1

/-! ### Against the specification -/

/-- The state is that of the world where the variables of the function are `loc`. -/
structure R (s : S) (w : World) (loc : List (Option Nat)) : Prop where
  glob : s.glob = w.glob
  life : s.life = w.held
  next : s.next = w.next
  inv : I s (refs s loc)

theorem eval_same {s : S} {w : World} {loc : List (Option Nat)} (h : R s w loc) (b : Blk) (e : Src) :
    (∃ v t w', eval s loc b e = some (v, t) ∧ w.eval loc e = some (v, w') ∧ t.glob = w'.glob ∧ w'.glob = w.glob ∧
      w'.held = w.held ∧ t.next = w'.next) ∨ (eval s loc b e = none ∧ w.eval loc e = none) := by
  cases e with
  | undef => exact .inl ⟨none, s, w, rfl, rfl, h.glob, rfl, rfl, h.next⟩
  | new =>
    refine .inl ⟨some s.next, _, { w with next := w.next + 1 }, rfl, by simp only [World.eval, h.next], h.glob, rfl, rfl, ?_⟩
    show s.next + 1 = w.next + 1
    rw [h.next]
  | glob g =>
    cases hg : w.glob[g]? with
    | none => right; simp [eval, World.eval, h.glob, hg]
    | some v => exact .inl ⟨v, s, w, by simp [eval, h.glob, hg], by simp [World.eval, hg], h.glob, rfl, rfl, h.next⟩
  | loc l =>
    cases hg : loc[l]? with
    | none => right; simp [eval, World.eval, hg]
    | some v => exact .inl ⟨v, s, w, by simp [eval, hg], by simp [World.eval, hg], h.glob, rfl, rfl, h.next⟩

/-- What `World.Deletes` asks of one statement. -/
def Del (w : World) (loc : List (Option Nat)) (c : Stmt) (r : World × List (Option Nat)) : Prop :=
  match c with
  | .delG g => ∀ o, w.glob[g]? = some (some o) → r.1.Has r.2 o
  | .delL l => ∀ o, loc[l]? = some (some o) → r.1.Has r.2 o
  | _ => True

theorem stmt_ok {s : S} {w : World} {loc : List (Option Nat)} (h : R s w loc) (b : Blk) (c : Stmt)
    (hdel : ∀ r, w.stmt loc c = some r → Del w loc c r) :
    (stmt s loc b c = none ∧ w.stmt loc c = none) ∨
    ∃ t w' loc', stmt s loc b c = some (.ok (t, loc')) ∧ w.stmt loc c = some (w', loc') ∧ R t w' loc' := by
  cases c with
  | setG g e =>
    cases hg : w.glob[g]? with
    | none =>
      left
      refine ⟨by simp only [stmt, h.glob, hg], ?_⟩
      have := List.getElem?_eq_none_iff.1 hg
      simp only [World.stmt]
      rw [if_neg (by omega)]
    | some old =>
      have hlt : g < w.glob.length := (List.getElem?_eq_some_iff.1 hg).1
      rcases eval_same h b e with ⟨v, t, w', h1, h2, h3, h4, h5, h6⟩ | ⟨h1, h2⟩
      · right
        obtain ⟨u, hu, e1, e2, e3, hI⟩ := store_ok (old := old)
          (d := fun o => (s.glob.set g v).count (some o) + loc.count (some o)) h.inv (fun o => rfl) h1
          (fun o ho => by
            have := mem_pos (ho ▸ h.glob.symm ▸ hg : s.glob[g]? = some (some o))
            unfold refs; omega)
          (fun o => by
            have := count_set (h.glob.symm ▸ hg) v o
            show _ + _ = refs s loc o + _
            unfold refs; omega) (t.glob.set g v)
        refine ⟨u, { w' with glob := w'.glob.set g v }, loc, ?_, ?_, ⟨?_, ?_, ?_, ?_⟩⟩
        · simp only [stmt, h.glob, hg, h1, Option.map_some, hu, Out.map]
        · simp only [World.stmt, if_pos hlt, h2, Option.map_some]
        · rw [e1, h3]
        · rw [e2, h5, h.life]
        · rw [e3, h6]
        · have : refs u loc = fun o => (s.glob.set g v).count (some o) + loc.count (some o) := by
            funext o; unfold refs; rw [e1, h3, h4, h.glob]
          rw [this]; exact hI
      · left
        exact ⟨by simp only [stmt, h.glob, hg, h1, Option.map_none], by simp only [World.stmt, if_pos hlt, h2, Option.map_none]⟩
  | setL l e =>
    cases hg : loc[l]? with
    | none =>
      left
      refine ⟨by simp only [stmt, hg], ?_⟩
      have := List.getElem?_eq_none_iff.1 hg
      simp only [World.stmt]
      rw [if_neg (by omega)]
    | some old =>
      have hlt : l < loc.length := (List.getElem?_eq_some_iff.1 hg).1
      rcases eval_same h b e with ⟨v, t, w', h1, h2, h3, h4, h5, h6⟩ | ⟨h1, h2⟩
      · right
        obtain ⟨u, hu, e1, e2, e3, hI⟩ := store_ok (old := old)
          (d := fun o => s.glob.count (some o) + (loc.set l v).count (some o)) h.inv (fun o => rfl) h1
          (fun o ho => by
            have := mem_pos (ho ▸ hg : loc[l]? = some (some o))
            unfold refs; omega)
          (fun o => by
            have := count_set hg v o
            show _ + _ = refs s loc o + _
            unfold refs; omega) t.glob
        refine ⟨u, w', loc.set l v, ?_, ?_, ⟨?_, ?_, ?_, ?_⟩⟩
        · simp only [stmt, hg, h1, Option.map_some, hu, Out.map]
        · simp only [World.stmt, if_pos hlt, h2, Option.map_some]
        · rw [e1, h3]
        · rw [e2, h5, h.life]
        · rw [e3, h6]
        · have : refs u (loc.set l v) = fun o => s.glob.count (some o) + (loc.set l v).count (some o) := by
            funext o; unfold refs; rw [e1, h3, h4, h.glob]
          rw [this]; exact hI
      · left
        exact ⟨by simp only [stmt, hg, h1, Option.map_none], by simp only [World.stmt, if_pos hlt, h2, Option.map_none]⟩
  | delG g =>
    cases hg : w.glob[g]? with
    | none =>
      left
      refine ⟨by simp only [stmt, h.glob, hg, Option.map_none], ?_⟩
      have := List.getElem?_eq_none_iff.1 hg
      simp only [World.stmt]
      rw [if_neg (by omega)]
    | some old =>
      have hlt : g < w.glob.length := (List.getElem?_eq_some_iff.1 hg).1
      have hst : w.stmt loc (.delG g) = some ({ w with glob := w.glob.set g none }, loc) := by
        simp only [World.stmt, if_pos hlt]
      right
      have key : ∃ u, delete s old = .ok u ∧ Same s u ∧
          I u (fun o => (s.glob.set g none).count (some o) + loc.count (some o)) := by
        have hcs := fun o => count_set (h.glob.symm ▸ hg : s.glob[g]? = some old) none o
        cases old with
        | none =>
          refine ⟨s, rfl, Same.refl s, ?_⟩
          have : (fun o => (s.glob.set g none).count (some o) + loc.count (some o)) = refs s loc := by
            funext o; have := hcs o; unfold refs; simp at this; omega
          rw [this]; exact h.inv
        | some o =>
          have hp := mem_pos (h.glob.symm ▸ hg : s.glob[g]? = some (some o))
          refine delete_ok h.inv (by unfold refs; omega) (by have := hcs o; simp at this; unfold refs; omega)
            (fun p hp => by have := hcs p; simp [Ne.symm hp] at this; unfold refs; omega) ?_
          have := hdel _ hst o hg
          rcases this with a | a | a
          · have := List.count_pos_iff.2 (h.life.symm ▸ a : o ∈ s.life); omega
          · have := List.count_pos_iff.2 (h.glob.symm ▸ a : some o ∈ s.glob.set g none); omega
          · have a : some o ∈ loc := a; have := List.count_pos_iff.2 a; omega
      obtain ⟨u, hu, hs, hI⟩ := key
      refine ⟨{ u with glob := u.glob.set g none }, _, _, ?_, hst, ⟨?_, ?_, ?_, ?_⟩⟩
      · simp only [stmt, h.glob, hg, Option.map_some, hu, Out.map]
      · show u.glob.set g none = w.glob.set g none
        rw [hs.glob, h.glob]
      · exact hs.life.trans h.life
      · exact hs.next.trans h.next
      · have : refs { u with glob := u.glob.set g none } loc = fun o => (s.glob.set g none).count (some o) + loc.count (some o) := by
          funext o; unfold refs; dsimp only; rw [hs.glob]
        rw [this]; exact ⟨hI.ok, hI.wait, hI.fresh⟩
  | delL l =>
    cases hg : loc[l]? with
    | none =>
      left
      refine ⟨by simp only [stmt, hg, Option.map_none], ?_⟩
      have := List.getElem?_eq_none_iff.1 hg
      simp only [World.stmt]
      rw [if_neg (by omega)]
    | some old =>
      have hlt : l < loc.length := (List.getElem?_eq_some_iff.1 hg).1
      have hst : w.stmt loc (.delL l) = some (w, loc.set l none) := by
        simp only [World.stmt, if_pos hlt]
      right
      have key : ∃ u, delete s old = .ok u ∧ Same s u ∧
          I u (fun o => s.glob.count (some o) + (loc.set l none).count (some o)) := by
        have hcs := fun o => count_set hg none o
        cases old with
        | none =>
          refine ⟨s, rfl, Same.refl s, ?_⟩
          have : (fun o => s.glob.count (some o) + (loc.set l none).count (some o)) = refs s loc := by
            funext o; have := hcs o; unfold refs; simp at this; omega
          rw [this]; exact h.inv
        | some o =>
          have hp := mem_pos hg
          refine delete_ok h.inv (by unfold refs; omega) (by have := hcs o; simp at this; unfold refs; omega)
            (fun p hp => by have := hcs p; simp [Ne.symm hp] at this; unfold refs; omega) ?_
          have := hdel _ hst o hg
          rcases this with a | a | a
          · have := List.count_pos_iff.2 (h.life.symm ▸ a : o ∈ s.life); omega
          · have := List.count_pos_iff.2 (h.glob.symm ▸ a : some o ∈ s.glob); omega
          · have a : some o ∈ loc.set l none := a; have := List.count_pos_iff.2 a; omega
      obtain ⟨u, hu, hs, hI⟩ := key
      refine ⟨u, _, _, ?_, hst, ⟨?_, ?_, ?_, ?_⟩⟩
      · simp only [stmt, hg, Option.map_some, hu, Out.map]
      · exact hs.glob.trans h.glob
      · exact hs.life.trans h.life
      · exact hs.next.trans h.next
      · have : refs u (loc.set l none) = fun o => s.glob.count (some o) + (loc.set l none).count (some o) := by
          funext o; unfold refs; rw [hs.glob]
        rw [this]; exact hI
  | fail => exact .inl ⟨rfl, rfl⟩

theorem body_ok {b : Blk} : ∀ {cs : List Stmt} {s : S} {w : World} {loc : List (Option Nat)}, R s w loc → w.Deletes loc cs →
    ∃ t, body s loc b cs = .ok (t, (w.body loc cs).2.1, (w.body loc cs).2.2) ∧ R t (w.body loc cs).1 (w.body loc cs).2.1
  | [], s, w, loc, h, _ => ⟨s, rfl, h⟩
  | c :: cs, s, w, loc, h, hd => by
    have hdel : ∀ r, w.stmt loc c = some r → Del w loc c r ∧ r.1.Deletes r.2 cs := by
      intro r hr
      simp only [World.Deletes, hr] at hd
      refine ⟨?_, hd.2⟩
      cases c <;> first | exact hd.1 | trivial
    rcases stmt_ok h b c (fun r hr => (hdel r hr).1) with ⟨h1, h2⟩ | ⟨t, w', loc', h1, h2, h3⟩
    · exact ⟨s, by simp only [body, World.body, h1, h2], by simp only [World.body, h2]; exact h⟩
    · obtain ⟨u, hu, hR⟩ := body_ok (b := b) h3 (hdel _ h2).2
      exact ⟨u, by simp only [body, World.body, h1, h2, Out.bind]; exact hu, by simp only [World.body, h2]; exact hR⟩

/-! ### Calls -/

theorem popVars_ok (ret : List Nat) : ∀ (vs : List (Option Nat)) (s : S) (g : Nat → Nat),
    (∀ o, some o ∈ vs → ∃ n h, s.mem o = .node n h ∧ n = g o + vs.count (some o)) →
    ∃ t, popVars s ret vs = .ok t ∧ Same s t ∧ t.wait = s.wait ∧ (∀ o, some o ∉ vs → t.mem o = s.mem o) ∧
      ∀ o, some o ∈ vs → if g o = 0 then t.mem o = (if o ∈ ret then .bare else .dead) else ∃ h, t.mem o = .node (g o) h
  | [], s, g, _ => ⟨s, rfl, Same.refl s, rfl, fun _ _ => rfl, fun o ho => absurd ho (List.not_mem_nil)⟩
  | none :: vs, s, g, h => by
    obtain ⟨t, h1, h2, h3, h4, h5⟩ := popVars_ok ret vs s g (fun o ho => by
      obtain ⟨n, k, hm, e⟩ := h o (List.mem_cons_of_mem _ ho)
      exact ⟨n, k, hm, by rw [e, List.count_cons]; simp⟩)
    exact ⟨t, h1, h2, h3, fun o ho => h4 o (fun hc => ho (List.mem_cons_of_mem _ hc)), fun o ho => h5 o (by simpa using ho)⟩
  | some o :: vs, s, g, h => by
    obtain ⟨n, k, hm, e⟩ := h o List.mem_cons_self
    rw [List.count_cons_self] at e
    -- after `o` is dealt with, the rest
    have go : ∀ c : Cell, (vs.count (some o) ≠ 0 → c = .node (n - 1) k) →
        (vs.count (some o) = 0 → if g o = 0 then c = (if o ∈ ret then .bare else .dead) else c = .node (g o) k) →
        ∃ t, popVars (s.set o c) ret vs = .ok t ∧ Same s t ∧ t.wait = s.wait ∧ (∀ p, some p ∉ some o :: vs → t.mem p = s.mem p) ∧
          ∀ p, some p ∈ some o :: vs → if g p = 0 then t.mem p = (if p ∈ ret then .bare else .dead)
            else ∃ h, t.mem p = .node (g p) h := by
      intro c hc1 hc2
      obtain ⟨t, h1, h2, h3, h4, h5⟩ := popVars_ok ret vs (s.set o c) g (fun p hp => by
        by_cases hpo : p = o
        · subst hpo
          have hpos := List.count_pos_iff.2 hp
          exact ⟨n - 1, k, by simp [S.set, hc1 (by omega)], by omega⟩
        · obtain ⟨m, j, hm', e'⟩ := h p (List.mem_cons_of_mem _ hp)
          refine ⟨m, j, by simp [S.set, hpo, hm'], ?_⟩
          rw [e', List.count_cons_of_ne (by simpa using Ne.symm hpo)])
      refine ⟨t, h1, ⟨h2.glob, h2.life, h2.next⟩, h3, fun p hp => ?_, fun p hp => ?_⟩
      · rw [List.mem_cons, not_or] at hp
        rw [h4 p hp.2]
        have : p ≠ o := fun e => hp.1 (by rw [e])
        simp [S.set, this]
      · by_cases hv : some p ∈ vs
        · exact h5 p hv
        · have hpo : p = o := by
            rcases List.mem_cons.1 hp with e | e
            · exact Option.some.inj e
            · exact absurd e hv
          subst hpo
          have := hc2 (List.count_eq_zero.2 hv)
          have hx := h4 p hv
          simp only [S.set, if_true] at hx
          rw [hx]
          split
          · rename_i hz; rw [if_pos hz] at this; exact this
          · rename_i hz; rw [if_neg hz] at this; exact ⟨k, this⟩
    simp only [popVars, hm]
    by_cases hr : n > 1 ∨ o ∉ ret
    · rw [if_pos hr]
      match n, hm, e, hr with
      | 0, _, e, _ => omega
      | 1, hm, e, hr =>
        have hno : o ∉ ret := by
          rcases hr with h | h
          · omega
          · exact h
        simp only [unref, hm, Out.bind]
        exact go .dead (fun hc => by omega) (fun hc => by rw [if_pos (by omega), if_neg hno])
      | n + 2, hm, e, hr =>
        simp only [unref, hm, Out.bind]
        exact go (.node (n + 1) k) (fun hc => rfl) (fun hc => by
          rw [if_neg (by omega)]; congr 1; omega)
    · rw [if_neg hr, if_neg (by omega)]
      have hno : o ∈ ret := by
        by_cases hx : o ∈ ret
        · exact hx
        · exact absurd (.inr hx) hr
      have : ¬ n > 1 := fun hx => hr (.inl hx)
      exact go .bare (fun hc => by omega) (fun hc => by rw [if_pos (by omega), if_pos hno])

theorem passArgs_ok : ∀ (as : List (Option Nat)) (s : S) (c : Nat → Nat), I s c → (∀ o, some o ∈ as → 0 < c o) →
    ∃ t, passArgs s as = .ok (t, []) ∧ Same s t ∧ I t (fun o => c o + as.count (some o))
  | [], s, c, hi, _ => ⟨s, rfl, Same.refl s, by simpa using hi⟩
  | none :: as, s, c, hi, h => by
    obtain ⟨t, h1, h2, h3⟩ := passArgs_ok as s c hi (fun o ho => h o (List.mem_cons_of_mem _ ho))
    refine ⟨t, h1, h2, ?_⟩
    simpa [List.count_cons] using h3
  | some o :: as, s, c, hi, h => by
    have ho := h o List.mem_cons_self
    obtain ⟨n, k, hm, _⟩ := hi.node ho
    obtain ⟨u, hu, hs, hI⟩ := share_ok (d := fun p => c p + if p = o then 1 else 0) hi ho (by simp) (fun p hp => by simp [hp])
    obtain ⟨t, h1, h2, h3⟩ := passArgs_ok as u _ hI (fun p hp => by have := h p (List.mem_cons_of_mem _ hp); omega)
    refine ⟨t, by simp only [passArgs, hm, hu, Out.bind]; exact h1, hs.trans h2, ?_⟩
    have : (fun p => c p + (some o :: as).count (some p)) = fun p => (c p + if p = o then 1 else 0) + as.count (some p) := by
      funext p
      rw [List.count_cons]
      by_cases hp : p = o
      · subst hp; simp; omega
      · simp [hp, Ne.symm hp]
    rw [this]; exact h3

theorem R.reached {s : S} {w : World} {loc : List (Option Nat)} (h : R s w loc) {o : Nat} (ho : some o ∈ loc) :
    ∃ n k, s.mem o = .node n k ∧ n = (s.glob.count (some o) + s.life.count o) + loc.count (some o) := by
  have := List.count_pos_iff.2 ho
  obtain ⟨n, k, hm, e⟩ := h.inv.node (o := o) (by unfold refs; omega)
  exact ⟨n + 1, k, hm, by rw [e]; unfold refs; omega⟩

/-- All variables of the function are given up, `r` is what is returned: then `r` is ready to be given to the host, and the rest is
right. -/
theorem leave {s : S} {w : World} {loc : List (Option Nat)} (h : R s w loc) (r : Option Nat) :
    ∃ t, popVars s r.toList loc = .ok t ∧ Same s t ∧ Waits t ∧ (∀ o, s.next ≤ o → t.mem o = .dead) ∧
      (∀ o, r ≠ some o → OK (t.mem o) (s.glob.count (some o)) (s.life.count o)) ∧
      ∀ o, r = some o → some o ∈ loc → (t.mem o = .bare ∧ s.glob.count (some o) = 0 ∧ s.life.count o = 0) ∨
        ∃ n k, t.mem o = .node (n + 1) k ∧ n + 1 = s.glob.count (some o) + s.life.count o := by
  obtain ⟨t, h1, h2, h3, h4, h5⟩ := popVars_ok r.toList loc s (fun o => s.glob.count (some o) + s.life.count o)
    (fun o ho => h.reached ho)
  refine ⟨t, h1, h2, fun b => by rw [h3]; exact h.inv.wait b, fun o ho => ?_, fun o ho => ?_, fun o ho hl => ?_⟩
  · have hn : some o ∉ loc := fun hc => by
      obtain ⟨n, k, hm, _⟩ := h.reached hc
      rw [h.inv.fresh o ho] at hm; cases hm
    rw [h4 o hn]; exact h.inv.fresh o ho
  · by_cases hc : some o ∈ loc
    · have := h5 o hc
      split at this
      · rename_i hz
        have hr : o ∉ r.toList := by
          cases r with
          | none => simp
          | some x => simp; intro e; exact ho (by rw [e])
        rw [if_neg hr] at this
        rw [this]; simp only [OK]; exact ⟨by omega, by omega⟩
      · rename_i hz
        have hz : ¬ s.glob.count (some o) + s.life.count o = 0 := hz
        obtain ⟨k, hk⟩ := this
        rw [hk]; exact ⟨rfl, by show 0 < _ + _; omega⟩
    · rw [h4 o hc]
      have := h.inv.ok o
      unfold refs at this
      rw [List.count_eq_zero.2 hc, Nat.add_zero] at this
      exact this
  · have := h5 o hl
    split at this
    · rename_i hz
      left
      rw [if_pos (by rw [ho]; simp)] at this
      exact ⟨this, by omega, by omega⟩
    · right
      obtain ⟨k, hk⟩ := this
      exact ⟨s.glob.count (some o) + s.life.count o - 1, k, by rw [hk]; congr 1; omega, by omega⟩

theorem fault_ok {s : S} {w : World} {loc : List (Option Nat)} (h : R s w loc) :
    ∃ t, fault s loc = .ok (t, .exc) ∧ R t w [] := by
  obtain ⟨t, h1, h2, h3, h4, h5, _⟩ := leave h none
  refine ⟨t, ?_, ⟨h2.glob.trans h.glob, h2.life.trans h.life, h2.next.trans h.next, fun o => ?_, h3, fun o ho => ?_⟩⟩
  · show (popVars s [] loc).map _ = _
    have h1 : popVars s [] loc = .ok t := h1
    rw [h1]
    simp only [Out.map]
    rw [sweep_nil h3, sweep_nil h3]
  · have := h5 o (by simp)
    unfold refs
    rw [h2.glob, h2.life]
    simpa using this
  · rw [h2.next] at ho; exact h4 o ho

/-- Giving the object to the host makes the state right. -/
theorem insert_ok {t : S} {w : World} {r : Nat} (hg : t.glob = w.glob) (hl : t.life = w.held) (hn : t.next = w.next)
    (hw : Waits t) (hf : ∀ o, t.next ≤ o → t.mem o = .dead)
    (hok : ∀ o, o ≠ r → OK (t.mem o) (t.glob.count (some o)) (t.life.count o))
    (hr : (t.mem r = .bare ∧ t.glob.count (some r) = 0 ∧ t.life.count r = 0) ∨
        ∃ n k, t.mem r = .node (n + 1) k ∧ n + 1 = t.glob.count (some r) + t.life.count r) :
    ∃ u, insertLife t r = .ok u ∧ R u { w with held := w.held ++ [r] } [] := by
  have hlt : r < t.next := by
    by_cases e : r < t.next
    · exact e
    · have := hf r (by omega)
      rcases hr with ⟨h, _⟩ | ⟨_, _, h, _⟩ <;> rw [this] at h <;> cases h
  rcases hr with ⟨hm, h1, h2⟩ | ⟨n, k, hm, e⟩
  · refine ⟨{ t with life := t.life ++ [r] }, by simp only [insertLife, hm], ⟨hg, by rw [← hl], hn, fun o => ?_, hw, hf⟩⟩
    show OK (t.mem o) (refs _ [] o) ((t.life ++ [r]).count o)
    simp only [refs, List.count_nil, Nat.add_zero, List.count_append]
    by_cases hor : o = r
    · subst hor; rw [hm]; simp only [OK]; simp; omega
    · have := hok o hor
      simpa [List.count_cons, Ne.symm hor] using this
  · refine ⟨{ t.set r (.node (n + 2) k) with life := t.life ++ [r] }, by simp only [insertLife, hm], ⟨hg, by rw [← hl], hn, fun o => ?_, hw, fun o ho => ?_⟩⟩
    · show OK (if o = r then _ else t.mem o) (refs _ [] o) ((t.life ++ [r]).count o)
      simp only [refs, List.count_nil, Nat.add_zero, List.count_append]
      by_cases hor : o = r
      · subst hor; rw [if_pos rfl]; simp only [OK]; simp [S.set]; omega
      · have := hok o hor
        simpa [List.count_cons, Ne.symm hor, hor, S.set] using this
    · show (if o = r then _ else t.mem o) = Cell.dead
      have ho : t.next ≤ o := ho
      rw [if_neg (by omega)]; exact hf o ho

/-- A new object is returned: once the block is swept it is ready to be given to the host. -/
theorem fresh_ret {t : S} {w : World} {b : Blk} {r : List Nat} {o : Nat} (hr : o ∈ r) (hg : t.glob = w.glob) (hl : t.life = w.held)
    (hn : t.next = w.next) (hw : t.wait = fun c => if c = b then [o] else []) (hf : ∀ p, t.next ≤ p → t.mem p = .dead)
    (ho : o < t.next) (hok : ∀ p, p ≠ o → OK (t.mem p) (t.glob.count (some p)) (t.life.count p))
    (h1 : t.glob.count (some o) = 0) (h2 : t.life.count o = 0) :
    ∃ u, insertLife (sweep t b r) o = .ok u ∧ R u { w with held := w.held ++ [o] } [] := by
  have hs : sweep t b r = { t.set o .bare with wait := fun _ => [] } := by
    unfold sweep
    simp only [if_true, free, if_pos hr, S.setWait, S.set, hw]
    congr 1
    funext c
    by_cases e : c = b <;> simp [e]
  rw [hs]
  refine insert_ok hg hl hn (fun _ => rfl) (fun p hp => ?_) (fun p hp => ?_) (.inl ⟨by simp [S.set], h1, h2⟩)
  · have hp : t.next ≤ p := hp
    simp only [S.set]
    rw [if_neg (by omega)]; exact hf p hp
  · simp only [S.set, if_neg hp]
    exact hok p hp

theorem exec_ok {s : S} {w : World} {loc : List (Option Nat)} (h : R s w loc) {cs : List Stmt} {es : List Src}
    (hd : w.Deletes loc cs) (hr : w.Returns loc cs es) :
    ∃ t, (((body s loc .fn cs).bind fun r =>
      if r.2.2 then
        match (rets r.1 r.2.1 .fn es).2 with
        | none => fault (rets r.1 r.2.1 .fn es).1 r.2.1
        | some vs =>
          (popVars (rets r.1 r.2.1 .fn es).1 (returned vs) r.2.1).bind fun s =>
          (result (sweep s .fn (returned vs)) vs).bind fun p =>
          (derefArgs p.1 []).map fun s => (s, p.2)
      else fault r.1 r.2.1) = .ok (t, (w.exec loc cs es).2)) ∧ R t (w.exec loc cs es).1 [] := by
  obtain ⟨s1, hb, h1⟩ := body_ok (b := .fn) h hd
  rw [hb]
  obtain ⟨hr1, hr2⟩ := hr
  unfold World.exec
  generalize w.body loc cs = r at *
  obtain ⟨w1, loc1, f⟩ := r
  dsimp only [Out.bind] at *
  cases f with
  | false =>
    obtain ⟨t, ht, hR⟩ := fault_ok h1
    exact ⟨t, by simpa using ht, by simpa using hR⟩
  | true =>
    simp only [if_true]
    -- nothing is returned
    have nothing : ∃ t, ((popVars s1 [] loc1).bind fun s => (Out.ok (sweep s .fn [], Obs.val none)).bind fun p =>
        (derefArgs p.1 []).map fun s => (s, p.2)) = .ok (t, .val none) ∧ R t w1 [] := by
      obtain ⟨t, e1, e2, e3, e4, e5, _⟩ := leave h1 none
      have e1 : popVars s1 [] loc1 = .ok t := e1
      refine ⟨t, by rw [e1]; simp only [Out.bind, derefArgs, Out.map]; rw [sweep_nil e3],
        ⟨e2.glob.trans h1.glob, e2.life.trans h1.life, e2.next.trans h1.next, fun o => ?_, e3, fun o ho => ?_⟩⟩
      · have := e5 o (by simp)
        unfold refs
        rw [e2.glob, e2.life]
        simpa using this
      · rw [e2.next] at ho; exact e4 o ho
    match es, hr1 with
    | [], _ =>
      obtain ⟨t, ht, hR⟩ := nothing
      exact ⟨t, ht, hR⟩
    | [e], _ =>
      cases e with
      | undef =>
        obtain ⟨t, ht, hR⟩ := nothing
        exact ⟨t, ht, hR⟩
      | glob g =>
        cases hg : w1.glob[g]? with
        | none =>
          obtain ⟨t, ht, hR⟩ := fault_ok h1
          refine ⟨t, ?_, ?_⟩
          · simp only [rets, eval, h1.glob, hg, Option.map_none, World.rets, World.eval]; exact ht
          · simp only [World.rets, World.eval, hg, Option.map_none]; exact hR
        | some v =>
          cases v with
          | some o => exact absurd hg (hr2 g o List.mem_cons_self)
          | none =>
            obtain ⟨t, ht, hR⟩ := nothing
            refine ⟨t, ?_, ?_⟩
            · simp only [rets, eval, h1.glob, hg, Option.map_some, World.rets, World.eval]; exact ht
            · simp only [World.rets, World.eval, hg, Option.map_some]; exact hR
      | loc l =>
        cases hg : loc1[l]? with
        | none =>
          obtain ⟨t, ht, hR⟩ := fault_ok h1
          refine ⟨t, ?_, ?_⟩
          · simp only [rets, eval, hg, Option.map_none, World.rets, World.eval]; exact ht
          · simp only [World.rets, World.eval, hg, Option.map_none]; exact hR
        | some v =>
          cases v with
          | none =>
            obtain ⟨t, ht, hR⟩ := nothing
            refine ⟨t, ?_, ?_⟩
            · simp only [rets, eval, hg, Option.map_some, World.rets, World.eval]; exact ht
            · simp only [World.rets, World.eval, hg, Option.map_some]; exact hR
          | some o =>
            obtain ⟨t, e1, e2, e3, e4, e5, e6⟩ := leave h1 (some o)
            have e1 : popVars s1 [o] loc1 = .ok t := e1
            obtain ⟨u, hu, hR⟩ := insert_ok (t := t) (w := w1) (r := o) (e2.glob.trans h1.glob) (e2.life.trans h1.life)
              (e2.next.trans h1.next) e3 (fun p hp => e4 p (by rw [← e2.next]; exact hp))
              (fun p hp => by rw [e2.glob, e2.life]; exact e5 p (fun e => hp (Option.some.inj e).symm))
              (by rw [e2.glob, e2.life]; exact e6 o rfl (List.mem_of_getElem? hg))
            refine ⟨u, ?_, ?_⟩
            · simp only [rets, eval, hg, Option.map_some, World.rets, World.eval, returned, e1, result]
              rw [sweep_nil e3, hu]
              rfl
            · simp only [World.rets, World.eval, hg, Option.map_some]; exact hR
      | new =>
        -- the object is created, and none of the variables refers to it
        have hdead := h1.inv.ok s1.next
        rw [h1.inv.fresh s1.next (Nat.le_refl _)] at hdead
        simp only [OK, refs] at hdead
        have hne : ∀ o, some o ∈ loc1 → o ≠ s1.next := by
          intro o ho e
          subst e
          have := List.count_pos_iff.2 ho
          omega
        let t0 : S := { (s1.set s1.next (.node 0 .fn)).setWait .fn (s1.wait .fn ++ [s1.next]) with next := s1.next + 1 }
        obtain ⟨t, e1, e2, e3, e4, e5⟩ := popVars_ok [s1.next] loc1 t0 (fun o => s1.glob.count (some o) + s1.life.count o)
          (fun o ho => by
            obtain ⟨n, k, hm, e⟩ := h1.reached ho
            exact ⟨n, k, by simp [t0, S.set, S.setWait, hne o ho, hm], e⟩)
        obtain ⟨u, hu, hR⟩ := fresh_ret (t := t) (w := { w1 with next := w1.next + 1 }) (b := .fn) (r := [s1.next]) (o := s1.next)
          (List.mem_cons_self) (e2.glob.trans h1.glob) (e2.life.trans h1.life)
          (by rw [e2.next]; show s1.next + 1 = w1.next + 1; rw [h1.next])
          (by
            rw [e3]
            funext c
            show (if c = Blk.fn then s1.wait .fn ++ [s1.next] else s1.wait c) = _
            rw [h1.inv.wait c, h1.inv.wait .fn]; rfl)
          (fun p hp => by
            rw [e2.next] at hp
            have hp : s1.next + 1 ≤ p := hp
            have hn : some p ∉ loc1 := fun hc => by
              obtain ⟨n, k, hm, _⟩ := h1.reached hc
              rw [h1.inv.fresh p (by omega)] at hm; cases hm
            rw [e4 p hn]
            show (if p = s1.next then _ else s1.mem p) = _
            rw [if_neg (by omega)]; exact h1.inv.fresh p (by omega))
          (by rw [e2.next]; exact Nat.lt_succ_self _)
          (fun p hp => by
            rw [e2.glob, e2.life]
            show OK _ (s1.glob.count (some p)) (s1.life.count p)
            by_cases hc : some p ∈ loc1
            · have := e5 p hc
              split at this
              · rename_i hz
                have hz : s1.glob.count (some p) + s1.life.count p = 0 := hz
                rw [if_neg (by simpa using hp)] at this
                rw [this]; exact ⟨by omega, by omega⟩
              · rename_i hz
                have hz : ¬ s1.glob.count (some p) + s1.life.count p = 0 := hz
                obtain ⟨k, hk⟩ := this
                rw [hk]; exact ⟨rfl, by show 0 < _ + _; omega⟩
            · rw [e4 p hc]
              show OK (if p = s1.next then _ else s1.mem p) _ _
              rw [if_neg hp]
              have := h1.inv.ok p
              unfold refs at this
              rw [List.count_eq_zero.2 hc, Nat.add_zero] at this
              exact this)
          (by rw [e2.glob]; show s1.glob.count (some s1.next) = 0; omega)
          (by rw [e2.life]; exact hdead.2)
        refine ⟨u, ?_, ?_⟩
        · show ((popVars t0 [s1.next] loc1).bind _) = _
          rw [e1]
          show (((insertLife (sweep t .fn [s1.next]) s1.next).map _).bind _) = _
          rw [hu, h1.next]
          rfl
        · show R u { w1 with held := w1.held ++ [w1.next], next := w1.next + 1 } []
          rw [← h1.next]
          rw [← h1.next] at hR
          exact hR
    | _ :: _ :: _, hl => simp at hl

theorem main_ok {s : S} {w : World} (h : R s w []) {cs : List Stmt} {es : List Src}
    (hd : w.Deletes [] cs) (hr : w.Returns [] cs es) :
    ∃ t, (((body s [] .main cs).bind fun r =>
      if r.2.2 then
        match (rets r.1 [] .main es).2 with
        | none => fault (rets r.1 [] .main es).1 []
        | some vs => result (sweep (rets r.1 [] .main es).1 .main
          (if es = [] then [] else returned vs ++ objs (rets r.1 [] .main es).1.glob)) vs
      else fault r.1 []) = .ok (t, (w.exec [] cs es).2)) ∧ R t (w.exec [] cs es).1 [] := by
  obtain ⟨s1, hb, h1⟩ := body_ok (b := .main) h hd
  rw [hb]
  obtain ⟨hr1, hr2⟩ := hr
  have hl : ∀ (cs : List Stmt) (w : World), (w.body [] cs).2.1 = [] := by
    intro cs
    induction cs with
    | nil => intro w; rfl
    | cons c cs ih =>
      intro w
      simp only [World.body]
      cases hc : w.stmt [] c with
      | none => rfl
      | some r =>
        have : r.2 = [] := by
          cases c with
          | setG g e =>
            simp only [World.stmt] at hc
            split at hc
            · cases he : w.eval [] e <;> simp [he] at hc
              rw [← hc]
            · cases hc
          | setL l e => simp [World.stmt] at hc
          | delG g =>
            simp only [World.stmt] at hc
            split at hc
            · simp at hc; rw [← hc]
            · cases hc
          | delL l => simp [World.stmt] at hc
          | fail => simp [World.stmt] at hc
        show (World.body r.1 r.2 cs).2.1 = []
        rw [this]; exact ih _
  have hl := hl cs w
  unfold World.exec
  generalize w.body [] cs = r at *
  obtain ⟨w1, loc1, f⟩ := r
  dsimp only [Out.bind] at *
  subst hl
  cases f with
  | false =>
    obtain ⟨t, ht, hR⟩ := fault_ok h1
    exact ⟨t, by simpa using ht, by simpa using hR⟩
  | true =>
    simp only [if_true]
    have nothing : ∀ r, Out.ok (sweep s1 .main r, Obs.val none) = Out.ok (s1, Obs.val none) := by
      intro r; rw [sweep_nil h1.inv.wait]
    match es, hr1 with
    | [], _ => exact ⟨s1, nothing _, h1⟩
    | [e], _ =>
      cases e with
      | undef => exact ⟨s1, nothing _, h1⟩
      | glob g =>
        cases hg : w1.glob[g]? with
        | none =>
          obtain ⟨t, ht, hR⟩ := fault_ok h1
          refine ⟨t, ?_, ?_⟩
          · simp only [rets, eval, h1.glob, hg, Option.map_none, World.rets, World.eval]; exact ht
          · simp only [World.rets, World.eval, hg, Option.map_none]; exact hR
        | some v =>
          cases v with
          | some o => exact absurd hg (hr2 g o List.mem_cons_self)
          | none =>
            refine ⟨s1, ?_, ?_⟩
            · simp only [rets, eval, h1.glob, hg, Option.map_some, World.rets, World.eval]; exact nothing _
            · simp only [World.rets, World.eval, hg, Option.map_some]; exact h1
      | loc l =>
        obtain ⟨t, ht, hR⟩ := fault_ok h1
        exact ⟨t, ht, hR⟩
      | new =>
        have hdead := h1.inv.ok s1.next
        rw [h1.inv.fresh s1.next (Nat.le_refl _)] at hdead
        simp only [OK, refs] at hdead
        let t0 : S := { (s1.set s1.next (.node 0 .main)).setWait .main (s1.wait .main ++ [s1.next]) with next := s1.next + 1 }
        obtain ⟨u, hu, hR⟩ := fresh_ret (t := t0) (w := { w1 with next := w1.next + 1 }) (b := .main)
          (r := [s1.next] ++ objs s1.glob) (o := s1.next)
          (by simp) h1.glob h1.life
          (by show s1.next + 1 = w1.next + 1; rw [h1.next])
          (by
            funext c
            show (if c = Blk.main then s1.wait .main ++ [s1.next] else s1.wait c) = _
            rw [h1.inv.wait c, h1.inv.wait .main]; rfl)
          (fun p hp => by
            have hp : s1.next + 1 ≤ p := hp
            show (if p = s1.next then _ else s1.mem p) = _
            rw [if_neg (by omega)]; exact h1.inv.fresh p (by omega))
          (Nat.lt_succ_self _)
          (fun p hp => by
            show OK (if p = s1.next then _ else s1.mem p) (s1.glob.count (some p)) (s1.life.count p)
            rw [if_neg hp]
            simpa [refs] using h1.inv.ok p)
          (by show s1.glob.count (some s1.next) = 0; omega)
          hdead.2
        refine ⟨u, ?_, ?_⟩
        · show ((insertLife (sweep t0 .main ([s1.next] ++ objs s1.glob)) s1.next).map _) = _
          rw [hu, h1.next]
          rfl
        · show R u { w1 with held := w1.held ++ [w1.next], next := w1.next + 1 } []
          rw [← h1.next]
          rw [← h1.next] at hR
          exact hR
    | _ :: _ :: _, hl => simp at hl

theorem count_none (n o : Nat) : (List.replicate n (none : Option Nat)).count (some o) = 0 :=
  List.count_eq_zero.2 (fun h => by have := (List.mem_replicate.1 h).2; cases this)

theorem step_ok {s : S} {w : World} (h : R s w []) {op : Op} (hu : w.Uses op) (hf : w.Fine op) :
    ∃ t, step s op = .ok (t, (w.step op).2) ∧ R t (w.step op).1 [] := by
  cases op with
  | run n cs es =>
    obtain ⟨h1, h2⟩ := hf
    refine main_ok (s := { s with glob := s.glob ++ List.replicate n none })
      (w := { w with glob := w.glob ++ List.replicate n none }) ⟨by rw [← h.glob], h.life, h.next, ?_⟩ h2 h1
    have : refs { s with glob := s.glob ++ List.replicate n none } [] = refs s [] := by
      funext o; simp [refs, List.count_append, count_none]
    rw [this]; exact ⟨h.inv.ok, h.inv.wait, h.inv.fresh⟩
  | call as n cs es =>
    obtain ⟨h1, h2, h3⟩ := hf
    obtain ⟨a, ha, hs, hI⟩ := passArgs_ok as s _ h.inv (fun o ho => by
      have := List.count_pos_iff.2 (h1 o ho)
      unfold refs; rw [h.glob]; omega)
    have hR : R a w (as ++ List.replicate n none) := by
      refine ⟨hs.glob.trans h.glob, hs.life.trans h.life, hs.next.trans h.next, ?_⟩
      have : refs a (as ++ List.replicate n none) = fun o => refs s [] o + as.count (some o) := by
        funext o; simp [refs, List.count_append, count_none, hs.glob]
      rw [this]; exact hI
    obtain ⟨t, ht, hR'⟩ := exec_ok hR h3 h2
    refine ⟨t, ?_, hR'⟩
    show (passArgs s as).bind _ = _
    rw [ha]
    exact ht
  | unref o =>
    have ho : o ∈ s.life := by rw [h.life]; exact hu
    have hp := List.count_pos_iff.2 ho
    have hk := h.inv.ok o
    have hlt : o < s.next := by
      by_cases e : o < s.next
      · exact e
      · rw [h.inv.fresh o (by omega)] at hk; simp only [OK] at hk; omega
    have hce : ∀ p, (s.life.erase o).count p = s.life.count p - if o = p then 1 else 0 := by
      intro p; rw [List.count_erase]; simp
    have fin : ∀ c : Cell, OK c (refs s [] o) (s.life.count o - 1) →
        R (({ s with life := s.life.erase o } : S).set o c) { w with held := w.held.erase o } [] := by
      intro c hc
      refine ⟨h.glob, by rw [← h.life]; rfl, h.next, fun p => ?_, h.inv.wait, fun p hp => ?_⟩
      · show OK (if p = o then c else s.mem p) (refs s [] p) ((s.life.erase o).count p)
        rw [hce]
        by_cases e : p = o
        · subst e; simpa using hc
        · simpa [e, Ne.symm e] using h.inv.ok p
      · have hp : s.next ≤ p := hp
        show (if p = o then c else s.mem p) = .dead
        rw [if_neg (by omega)]; exact h.inv.fresh p hp
    simp only [step, giveBack, if_pos ho]
    cases hm : s.mem o with
    | dead => rw [hm] at hk; simp only [OK] at hk; omega
    | bare =>
      rw [hm] at hk; simp only [OK] at hk
      exact ⟨_, rfl, fin .dead ⟨hk.1, by omega⟩⟩
    | node n k =>
      rw [hm] at hk; simp only [OK] at hk
      match n, hm, hk with
      | 0, _, hk => omega
      | 1, hm, hk =>
        refine ⟨_, ?_, fin .dead ⟨by omega, by omega⟩⟩
        simp only [unref, hm, Out.map]; rfl
      | n + 2, hm, hk =>
        refine ⟨_, ?_, fin (.node (n + 1) k) ⟨by omega, by omega⟩⟩
        simp only [unref, hm, Out.map]; rfl

theorem steps_ok : ∀ {ops : List Op} {s : S} {w : World}, R s w [] → w.UsesAll ops → w.FineAll ops →
    ∃ t, steps s ops = .ok (t, (w.steps ops).2) ∧ R t (w.steps ops).1 []
  | [], s, w, h, _, _ => ⟨s, rfl, h⟩
  | op :: ops, s, w, h, hu, hf => by
    obtain ⟨t, ht, hR⟩ := step_ok h hu.1 hf.1
    obtain ⟨u, hu', hR'⟩ := steps_ok hR hu.2 hf.2
    exact ⟨u, by simp only [steps, ht, Out.bind, hu', Out.map, World.steps], hR'⟩

theorem R.alive {s : S} {w : World} (h : R s w []) (o : Nat) : s.mem o ≠ .dead ↔ o ∈ w.held ∨ some o ∈ w.glob := by
  have hk := h.inv.ok o
  simp only [refs, List.count_nil, Nat.add_zero] at hk
  rw [← h.glob, ← h.life, ← List.count_pos_iff, ← List.count_pos_iff]
  cases hm : s.mem o with
  | dead => rw [hm] at hk; simp only [OK] at hk; exact ⟨fun h => absurd rfl h, fun h => by omega⟩
  | bare => rw [hm] at hk; simp only [OK] at hk; exact ⟨fun _ => by omega, fun _ h => by cases h⟩
  | node n k => rw [hm] at hk; simp only [OK] at hk; exact ⟨fun _ => by omega, fun _ h => by cases h⟩

end Verif.Host
