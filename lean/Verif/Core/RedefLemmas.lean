import Verif.Core.Redef
import Verif.Core.RedefSpec
/-
The machine of `Redef.lean` does what `RedefSpec.lean` says, as long as no function with native calls is defined twice.
-/
namespace Verif.Redef

/-! ### What code stands for -/

mutual
def Code.strip : Code → Ex
  | .lit v => .lit v
  | .par i => .par i
  | .add a b => .add a.strip b.strip
  | .ite c a b => .ite c.strip a.strip b.strip
  | .call _ f _ as => .call f (strips as)
  | .native _ f as => .native f (strips as)
def strips : List Code → List Ex
  | [] => []
  | c :: cs => c.strip :: strips cs
end

mutual
def Code.targets : Code → List (String × Option Nat)
  | .lit _ => []
  | .par _ => []
  | .add a b => a.targets ++ b.targets
  | .ite c a b => c.targets ++ (a.targets ++ b.targets)
  | .call _ f t as => (f, t) :: targetsAll as
  | .native _ _ as => targetsAll as
def targetsAll : List Code → List (String × Option Nat)
  | [] => []
  | c :: cs => c.targets ++ targetsAll cs
end

mutual
def Code.nodes : Code → List (Nat × String)
  | .lit _ => []
  | .par _ => []
  | .add a b => a.nodes ++ b.nodes
  | .ite c a b => c.nodes ++ (a.nodes ++ b.nodes)
  | .call _ _ _ as => nodesAll as
  | .native p f as => (p, f) :: nodesAll as
def nodesAll : List Code → List (Nat × String)
  | [] => []
  | c :: cs => c.nodes ++ nodesAll cs
end

/-- One name at each position. -/
def Single (N : List (Nat × String)) : Prop := ∀ p x y, (p, x) ∈ N → (p, y) ∈ N → x = y

/-- All calls are to the functions of their names. -/
def Linked (fns : List Fn) (ts : List (String × Option Nat)) : Prop := ∀ p ∈ ts, p.2 = look fns p.1

mutual
theorem comp_strip (see : String → Option Nat) (pos : Nat) : (e : Ex) → (comp see pos e).1.strip = e
  | .lit v => by simp [comp, Code.strip]
  | .par i => by simp [comp, Code.strip]
  | .add a b => by simp [comp, Code.strip, comp_strip see _ a, comp_strip see _ b]
  | .ite c a b => by simp [comp, Code.strip, comp_strip see _ c, comp_strip see _ a, comp_strip see _ b]
  | .call f as => by simp [comp, Code.strip, comps_strip see _ as]
  | .native f as => by simp [comp, Code.strip, comps_strip see _ as]
theorem comps_strip (see : String → Option Nat) (pos : Nat) : (as : List Ex) → strips (comps see pos as).1 = as
  | [] => by simp [comps, strips]
  | a :: as => by simp [comps, strips, comp_strip see _ a, comps_strip see _ as]
end

mutual
theorem comp_targets (see : String → Option Nat) (pos : Nat) : (e : Ex) → ∀ p ∈ (comp see pos e).1.targets, p.2 = see p.1
  | .lit v => by simp [comp, Code.targets]
  | .par i => by simp [comp, Code.targets]
  | .add a b => by
    intro p hp
    simp only [comp, Code.targets, List.mem_append] at hp
    rcases hp with hp | hp
    · exact comp_targets see _ a p hp
    · exact comp_targets see _ b p hp
  | .ite c a b => by
    intro p hp
    simp only [comp, Code.targets, List.mem_append] at hp
    rcases hp with hp | hp | hp
    · exact comp_targets see _ c p hp
    · exact comp_targets see _ a p hp
    · exact comp_targets see _ b p hp
  | .call f as => by
    intro p hp
    simp only [comp, Code.targets, List.mem_cons] at hp
    rcases hp with rfl | hp
    · rfl
    · exact comps_targets see _ as p hp
  | .native f as => by
    intro p hp
    simp only [comp, Code.targets] at hp
    exact comps_targets see _ as p hp
theorem comps_targets (see : String → Option Nat) (pos : Nat) : (as : List Ex) → ∀ p ∈ targetsAll (comps see pos as).1, p.2 = see p.1
  | [] => by simp [comps, targetsAll]
  | a :: as => by
    intro p hp
    simp only [comps, targetsAll, List.mem_append] at hp
    rcases hp with hp | hp
    · exact comp_targets see _ a p hp
    · exact comps_targets see _ as p hp
end

mutual
theorem comp_names (see : String → Option Nat) (pos : Nat) : (e : Ex) → ∀ p ∈ (comp see pos e).1.targets, p.1 ∈ e.names
  | .lit v => by simp [comp, Code.targets]
  | .par i => by simp [comp, Code.targets]
  | .add a b => by
    intro p hp
    simp only [comp, Code.targets, List.mem_append] at hp
    simp only [Ex.names, List.mem_append]
    rcases hp with hp | hp
    · exact .inl (comp_names see _ a p hp)
    · exact .inr (comp_names see _ b p hp)
  | .ite c a b => by
    intro p hp
    simp only [comp, Code.targets, List.mem_append] at hp
    simp only [Ex.names, List.mem_append]
    rcases hp with hp | hp | hp
    · exact .inl (comp_names see _ c p hp)
    · exact .inr (.inl (comp_names see _ a p hp))
    · exact .inr (.inr (comp_names see _ b p hp))
  | .call f as => by
    intro p hp
    simp only [comp, Code.targets, List.mem_cons] at hp
    simp only [Ex.names, List.mem_cons]
    rcases hp with rfl | hp
    · exact .inl rfl
    · exact .inr (comps_names see _ as p hp)
  | .native f as => by
    intro p hp
    simp only [comp, Code.targets] at hp
    simp only [Ex.names]
    exact comps_names see _ as p hp
theorem comps_names (see : String → Option Nat) (pos : Nat) : (as : List Ex) →
    ∀ p ∈ targetsAll (comps see pos as).1, p.1 ∈ namesAll as
  | [] => by simp [comps, targetsAll]
  | a :: as => by
    intro p hp
    simp only [comps, targetsAll, List.mem_append] at hp
    simp only [namesAll, List.mem_append]
    rcases hp with hp | hp
    · exact .inl (comp_names see _ a p hp)
    · exact .inr (comps_names see _ as p hp)
end

mutual
theorem nodes_natives : (c : Code) → ∀ p ∈ c.nodes, p.2 ∈ c.strip.natives
  | .lit v => by simp [Code.nodes]
  | .par i => by simp [Code.nodes]
  | .add a b => by
    intro p hp
    simp only [Code.nodes, List.mem_append] at hp
    simp only [Code.strip, Ex.natives, List.mem_append]
    rcases hp with hp | hp
    · exact .inl (nodes_natives a p hp)
    · exact .inr (nodes_natives b p hp)
  | .ite c a b => by
    intro p hp
    simp only [Code.nodes, List.mem_append] at hp
    simp only [Code.strip, Ex.natives, List.mem_append]
    rcases hp with hp | hp | hp
    · exact .inl (nodes_natives c p hp)
    · exact .inr (.inl (nodes_natives a p hp))
    · exact .inr (.inr (nodes_natives b p hp))
  | .call _ f _ as => by
    intro p hp
    simp only [Code.nodes] at hp
    simp only [Code.strip, Ex.natives]
    exact nodesAll_natives as p hp
  | .native _ f as => by
    intro p hp
    simp only [Code.nodes, List.mem_cons] at hp
    simp only [Code.strip, Ex.natives, List.mem_cons]
    rcases hp with rfl | hp
    · exact .inl rfl
    · exact .inr (nodesAll_natives as p hp)
theorem nodesAll_natives : (cs : List Code) → ∀ p ∈ nodesAll cs, p.2 ∈ nativesAll (strips cs)
  | [] => by simp [nodesAll]
  | c :: cs => by
    intro p hp
    simp only [nodesAll, List.mem_append] at hp
    simp only [strips, nativesAll, List.mem_append]
    rcases hp with hp | hp
    · exact .inl (nodes_natives c p hp)
    · exact .inr (nodesAll_natives cs p hp)
end

/-- Code from `a` to `b` has its native calls there, one at each position. -/
def Within (a b : Nat) (N : List (Nat × String)) : Prop := a ≤ b ∧ (∀ p ∈ N, a ≤ p.1 ∧ p.1 < b) ∧ Single N

theorem Within.append {a b c : Nat} {N M : List (Nat × String)} (h : Within a b N) (g : Within b c M) : Within a c (N ++ M) := by
  refine ⟨Nat.le_trans h.1 g.1, fun p hp => ?_, fun p x y hx hy => ?_⟩
  · rcases List.mem_append.1 hp with hp | hp
    · have := h.2.1 p hp
      have := g.1
      omega
    · have := g.2.1 p hp
      have := h.1
      omega
  · rcases List.mem_append.1 hx with hx | hx <;> rcases List.mem_append.1 hy with hy | hy
    · exact h.2.2 p x y hx hy
    · have h1 := h.2.1 _ hx
      have h2 := g.2.1 _ hy
      simp only at h1 h2
      omega
    · have h1 := h.2.1 _ hy
      have h2 := g.2.1 _ hx
      simp only at h1 h2
      omega
    · exact g.2.2 p x y hx hy

theorem Within.nil (a : Nat) : Within a a [] := ⟨Nat.le_refl a, by simp, by intro p x y h; simp at h⟩

theorem Within.mono {a b c : Nat} {N : List (Nat × String)} (h : Within a b N) (hb : b ≤ c) : Within a c N :=
  ⟨Nat.le_trans h.1 hb, fun p hp => ⟨(h.2.1 p hp).1, Nat.lt_of_lt_of_le (h.2.1 p hp).2 hb⟩, h.2.2⟩

theorem Within.last {a b : Nat} {N : List (Nat × String)} (h : Within a b N) (x : String) : Within a (b + 1) ((b, x) :: N) := by
  have := h.1
  refine ⟨by omega, fun p hp => ?_, fun p y z hy hz => ?_⟩
  · rcases List.mem_cons.1 hp with rfl | hp
    · simp only
      omega
    · have := h.2.1 p hp
      omega
  · rcases List.mem_cons.1 hy with hy | hy <;> rcases List.mem_cons.1 hz with hz | hz
    · cases hy
      cases hz
      rfl
    · cases hy
      have := h.2.1 _ hz
      simp only at this
      omega
    · cases hz
      have := h.2.1 _ hy
      simp only at this
      omega
    · exact h.2.2 p y z hy hz

mutual
theorem comp_within (see : String → Option Nat) (pos : Nat) : (e : Ex) → Within pos (comp see pos e).2 (comp see pos e).1.nodes
  | .lit v => by
    simp only [comp, Code.nodes]
    exact (Within.nil pos).mono (Nat.le_succ _)
  | .par i => by
    simp only [comp, Code.nodes]
    exact (Within.nil pos).mono (Nat.le_succ _)
  | .add a b => by
    simp only [comp, Code.nodes]
    exact ((comp_within see _ a).append (comp_within see _ b)).mono (Nat.le_succ _)
  | .ite c a b => by
    simp only [comp, Code.nodes]
    exact ((comp_within see _ c).mono (Nat.le_succ _)).append (((comp_within see _ a).mono (Nat.le_succ _)).append (comp_within see _ b))
  | .call f as => by
    simp only [comp, Code.nodes]
    exact (comps_within see _ as).mono (Nat.le_succ _)
  | .native f as => by
    simp only [comp, Code.nodes]
    exact (comps_within see _ as).last f
theorem comps_within (see : String → Option Nat) (pos : Nat) : (as : List Ex) →
    Within pos (comps see pos as).2 (nodesAll (comps see pos as).1)
  | [] => by
    simp only [comps, nodesAll]
    exact Within.nil pos
  | a :: as => by
    simp only [comps, nodesAll]
    exact (comp_within see _ a).append (comps_within see _ as)
end

mutual
theorem link_strip (find : String → Option Nat) : (c : Code) → (linkC find c).strip = c.strip
  | .lit v => by simp [linkC, Code.strip]
  | .par i => by simp [linkC, Code.strip]
  | .add a b => by simp [linkC, Code.strip, link_strip find a, link_strip find b]
  | .ite c a b => by simp [linkC, Code.strip, link_strip find c, link_strip find a, link_strip find b]
  | .call _ f none as => by simp [linkC, Code.strip, links_strip find as]
  | .call _ f (some i) as => by simp [linkC, Code.strip, links_strip find as]
  | .native _ f as => by simp [linkC, Code.strip, links_strip find as]
theorem links_strip (find : String → Option Nat) : (cs : List Code) → strips (linkCs find cs) = strips cs
  | [] => by simp [linkCs, strips]
  | c :: cs => by simp [linkCs, strips, link_strip find c, links_strip find cs]
end

mutual
theorem link_nodes (find : String → Option Nat) : (c : Code) → (linkC find c).nodes = c.nodes
  | .lit v => by simp [linkC, Code.nodes]
  | .par i => by simp [linkC, Code.nodes]
  | .add a b => by simp [linkC, Code.nodes, link_nodes find a, link_nodes find b]
  | .ite c a b => by simp [linkC, Code.nodes, link_nodes find c, link_nodes find a, link_nodes find b]
  | .call _ f none as => by simp [linkC, Code.nodes, links_nodes find as]
  | .call _ f (some i) as => by simp [linkC, Code.nodes, links_nodes find as]
  | .native _ f as => by simp [linkC, Code.nodes, links_nodes find as]
theorem links_nodes (find : String → Option Nat) : (cs : List Code) → nodesAll (linkCs find cs) = nodesAll cs
  | [] => by simp [linkCs, nodesAll]
  | c :: cs => by simp [linkCs, nodesAll, link_nodes find c, links_nodes find cs]
end

/-- Linking gives each open call the function of its name. -/
def relink (find : String → Option Nat) (p : String × Option Nat) : String × Option Nat :=
  (p.1, match p.2 with | none => find p.1 | some i => some i)

mutual
theorem link_targets (find : String → Option Nat) : (c : Code) → (linkC find c).targets = c.targets.map (relink find)
  | .lit v => by simp [linkC, Code.targets]
  | .par i => by simp [linkC, Code.targets]
  | .add a b => by simp [linkC, Code.targets, link_targets find a, link_targets find b]
  | .ite c a b => by simp [linkC, Code.targets, link_targets find c, link_targets find a, link_targets find b]
  | .call _ f none as => by simp [linkC, Code.targets, links_targets find as, relink]
  | .call _ f (some i) as => by simp [linkC, Code.targets, links_targets find as, relink]
  | .native _ f as => by simp [linkC, Code.targets, links_targets find as]
theorem links_targets (find : String → Option Nat) : (cs : List Code) → targetsAll (linkCs find cs) = (targetsAll cs).map (relink find)
  | [] => by simp [linkCs, targetsAll]
  | c :: cs => by simp [linkCs, targetsAll, link_targets find c, links_targets find cs]
end

mutual
theorem open_of_none : (c : Code) → ∀ f, (f, none) ∈ c.targets → c.open = true
  | .lit v => by simp [Code.targets]
  | .par i => by simp [Code.targets]
  | .add a b => by
    intro f hf
    simp only [Code.targets, List.mem_append] at hf
    simp only [Code.open, Bool.or_eq_true]
    rcases hf with hf | hf
    · exact .inl (open_of_none a f hf)
    · exact .inr (open_of_none b f hf)
  | .ite c a b => by
    intro f hf
    simp only [Code.targets, List.mem_append] at hf
    simp only [Code.open, Bool.or_eq_true]
    rcases hf with hf | hf | hf
    · exact .inl (open_of_none c f hf)
    · exact .inr (.inl (open_of_none a f hf))
    · exact .inr (.inr (open_of_none b f hf))
  | .call _ x t as => by
    intro f hf
    simp only [Code.targets, List.mem_cons] at hf
    simp only [Code.open, Bool.or_eq_true]
    rcases hf with hf | hf
    · cases hf
      exact .inl rfl
    · exact .inr (opens_of_none as f hf)
  | .native _ x as => by
    intro f hf
    simp only [Code.targets] at hf
    simp only [Code.open]
    exact opens_of_none as f hf
theorem opens_of_none : (cs : List Code) → ∀ f, (f, none) ∈ targetsAll cs → opens cs = true
  | [] => by simp [targetsAll]
  | c :: cs => by
    intro f hf
    simp only [targetsAll, List.mem_append] at hf
    simp only [opens, Bool.or_eq_true]
    rcases hf with hf | hf
    · exact .inl (open_of_none c f hf)
    · exact .inr (opens_of_none cs f hf)
end

/-! ### Running -/

/-- Every remembered call is of a function of the name that is called there. -/
def Sound (lib : Lib) (N : Option Nat → List (Nat × String)) (h : Cache) : Prop :=
  ∀ o pos i, h.last o pos = some i → (pos, lib.owner i) ∈ N o

theorem last_note (h : Cache) (o o' : Option Nat) (pos pos' i : Nat) :
    (h.note o pos i).last o' pos' = if (o, pos) = (o', pos') then some i else h.last o' pos' := by
  unfold Cache.last Cache.note
  by_cases hh : (o, pos) = (o', pos')
  · rw [if_pos hh, hh]
    simp
  · rw [if_neg hh, List.find?_cons_of_neg]
    simpa using hh

theorem Sound.note {lib : Lib} {N : Option Nat → List (Nat × String)} {h : Cache} (hs : Sound lib N h) {o : Option Nat} {pos i : Nat}
    (hi : (pos, lib.owner i) ∈ N o) : Sound lib N (h.note o pos i) := by
  intro o' pos' j hj
  rw [last_note] at hj
  split at hj
  · rename_i he
    cases he
    cases hj
    exact hi
  · exact hs o' pos' j hj

/-- The functions of the machine are those of the specification. -/
structure Match (fns : List Fn) (N : Option Nat → List (Nat × String)) (g : Env) : Prop where
  none : ∀ f, look fns f = none → g f = none
  some : ∀ f i, look fns f = some i → ∃ F c, fns[i]? = some F ∧ F.code = some c ∧ g f = some c.strip ∧ Linked fns c.targets ∧
    c.nodes ⊆ N (some i)

theorem R.bind_ok {α β : Type} (a : α) (f : α → R β) : (R.ok a).bind f = f a := rfl

theorem andThen_spec {α β : Type} {S : Cache → Prop} {q : R α × Cache} {r : R α} {f : α → Cache → R β × Cache} {f' : α → R β}
    (h : q.1 = r ∧ S q.2) (hf : ∀ a h, r = .ok a → S h → (f a h).1 = f' a ∧ S (f a h).2) :
    (andThen q f).1 = r.bind f' ∧ S (andThen q f).2 := by
  obtain ⟨q1, q2⟩ := q
  obtain ⟨h1, h2⟩ := h
  simp only at h1 h2
  subst h1
  cases q1 with
  | ok a => exact hf a q2 rfl h2
  | late => exact ⟨rfl, h2⟩
  | err => exact ⟨rfl, h2⟩
  | ub => exact ⟨rfl, h2⟩

theorem sim {lib : Lib} (ha : lib.Apart) {fns : List Fn} {N : Option Nat → List (Nat × String)} {g : Env}
    (hm : Match fns N g) (hN : ∀ o, Single (N o)) : ∀ n : Nat,
    (∀ (o : Option Nat) (args : List V) (c : Code) (h : Cache), Linked fns c.targets → c.nodes ⊆ N o → Sound lib N h →
      (exM lib fns n o args c h).1 = exS lib g n args c.strip ∧ Sound lib N (exM lib fns n o args c h).2) ∧
    (∀ (o : Option Nat) (args : List V) (cs : List Code) (h : Cache), Linked fns (targetsAll cs) → nodesAll cs ⊆ N o → Sound lib N h →
      (asM lib fns n o args cs h).1 = asS lib g n args (strips cs) ∧ Sound lib N (asM lib fns n o args cs h).2)
  | 0 => by
    constructor <;> intro o args c h _ _ hs
    · rw [exM, exS]
      exact ⟨rfl, hs⟩
    · rw [asM, asS]
      exact ⟨rfl, hs⟩
  | n + 1 => by
    obtain ⟨ihE, ihA⟩ := sim ha hm hN n
    constructor
    · intro o args c h hl hn hs
      cases c with
      | lit v =>
        simp only [exM, Code.strip, exS]
        exact ⟨trivial, hs⟩
      | par i =>
        simp only [exM, Code.strip, exS]
        exact ⟨trivial, hs⟩
      | add a b =>
        simp only [exM, Code.strip, exS]
        simp only [Code.targets] at hl
        simp only [Code.nodes] at hn
        refine andThen_spec (S := Sound lib N)
          (ihE o args a h (fun p hp => hl p (List.mem_append.2 (.inl hp))) (fun p hp => hn (List.mem_append.2 (.inl hp))) hs) ?_
        intro v h1 _ hs1
        refine andThen_spec (S := Sound lib N)
          (ihE o args b h1 (fun p hp => hl p (List.mem_append.2 (.inr hp))) (fun p hp => hn (List.mem_append.2 (.inr hp))) hs1) ?_
        intro w h2 _ hs2
        exact ⟨rfl, hs2⟩
      | ite c a b =>
        simp only [exM, Code.strip, exS]
        simp only [Code.targets] at hl
        simp only [Code.nodes] at hn
        refine andThen_spec (S := Sound lib N)
          (ihE o args c h (fun p hp => hl p (List.mem_append.2 (.inl hp))) (fun p hp => hn (List.mem_append.2 (.inl hp))) hs) ?_
        intro v h1 _ hs1
        by_cases hv : v.test = true
        · simp only [hv, if_true]
          exact ihE o args a h1 (fun p hp => hl p (List.mem_append.2 (.inr (List.mem_append.2 (.inl hp)))))
            (fun p hp => hn (List.mem_append.2 (.inr (List.mem_append.2 (.inl hp))))) hs1
        · simp only [hv]
          exact ihE o args b h1 (fun p hp => hl p (List.mem_append.2 (.inr (List.mem_append.2 (.inr hp)))))
            (fun p hp => hn (List.mem_append.2 (.inr (List.mem_append.2 (.inr hp))))) hs1
      | call p f t as =>
        simp only [exM, Code.strip, exS]
        simp only [Code.targets] at hl
        simp only [Code.nodes] at hn
        refine andThen_spec (S := Sound lib N) (ihA o args as h (fun p hp => hl p (List.mem_cons_of_mem _ hp)) hn hs) ?_
        intro vs h1 _ hs1
        have ht : t = look fns f := hl (f, t) List.mem_cons_self
        cases t with
        | none =>
          rw [hm.none f ht.symm]
          exact ⟨rfl, hs1⟩
        | some i =>
          obtain ⟨F, c, hF, hc, hg, hL, hNc⟩ := hm.some f i ht.symm
          simp only [hF, hc, hg]
          exact ihE (some i) vs c h1 hL hNc hs1
      | native pos x as =>
        simp only [exM, Code.strip, exS]
        simp only [Code.targets] at hl
        simp only [Code.nodes] at hn
        refine andThen_spec (S := Sound lib N) (ihA o args as h hl (fun p hp => hn (List.mem_cons_of_mem _ hp)) hs) ?_
        intro vs h1 _ hs1
        have hx : (pos, x) ∈ N o := hn List.mem_cons_self
        have key : ∀ i, h1.last o pos = some i → lib.fits i vs = true → lib.find x vs = some i := by
          intro i hi hf
          have := hN o pos x _ hx (hs1 o pos i hi)
          rw [this]
          exact ha.one i vs hf
        cases hlast : h1.last o pos with
        | none =>
          simp only [Option.filter]
          cases hfind : lib.find x vs with
          | none => exact ⟨rfl, hs1⟩
          | some i =>
            refine ⟨rfl, hs1.note ?_⟩
            rw [ha.named x vs i hfind]
            exact hx
        | some i =>
          by_cases hf : lib.fits i vs = true
          · simp only [Option.filter, hf, if_true, key i hlast hf]
            exact ⟨trivial, hs1⟩
          · simp only [Option.filter, hf]
            cases hfind : lib.find x vs with
            | none => exact ⟨rfl, hs1⟩
            | some i =>
              refine ⟨rfl, hs1.note ?_⟩
              rw [ha.named x vs i hfind]
              exact hx
    · intro o args cs h hl hn hs
      cases cs with
      | nil =>
        simp only [asM, strips, asS]
        exact ⟨trivial, hs⟩
      | cons c cs =>
        simp only [asM, strips, asS]
        simp only [targetsAll] at hl
        simp only [nodesAll] at hn
        refine andThen_spec (S := Sound lib N)
          (ihE o args c h (fun p hp => hl p (List.mem_append.2 (.inl hp))) (fun p hp => hn (List.mem_append.2 (.inl hp))) hs) ?_
        intro v h1 _ hs1
        refine andThen_spec (S := Sound lib N)
          (ihA o args cs h1 (fun p hp => hl p (List.mem_append.2 (.inr hp))) (fun p hp => hn (List.mem_append.2 (.inr hp))) hs1) ?_
        intro w h2 _ hs2
        exact ⟨rfl, hs2⟩

theorem run_sim {lib : Lib} (ha : lib.Apart) {fns : List Fn} {N : Option Nat → List (Nat × String)} {g : Env}
    (hm : Match fns N g) (hN : ∀ o, Single (N o)) (n : Nat) : ∀ (cs : List Code) (h : Cache), Linked fns (targetsAll cs) →
    nodesAll cs ⊆ N none → Sound lib N h →
    (runM lib fns n cs h).1 = runS lib g n (strips cs) ∧ Sound lib N (runM lib fns n cs h).2
  | [], h, _, _, hs => ⟨rfl, hs⟩
  | c :: cs, h, hl, hn, hs => by
    simp only [targetsAll] at hl
    simp only [nodesAll] at hn
    obtain ⟨h1, h2⟩ := (sim ha hm hN n).1 none [] c h (fun p hp => hl p (List.mem_append.2 (.inl hp)))
      (fun p hp => hn (List.mem_append.2 (.inl hp))) hs
    simp only [runM, strips, runS]
    rw [← h1]
    rcases hr : exM lib fns n none [] c h with ⟨r, h'⟩
    rw [hr] at h2
    cases r with
    | late => exact ⟨rfl, h2⟩
    | err => exact ⟨rfl, h2⟩
    | ub => exact ⟨rfl, h2⟩
    | ok v =>
      obtain ⟨i1, i2⟩ := run_sim ha hm hN n cs h' (fun p hp => hl p (List.mem_append.2 (.inr hp)))
        (fun p hp => hn (List.mem_append.2 (.inr hp))) h2
      simp only
      rw [← i1]
      exact ⟨rfl, i2⟩

/-! ### Defining and linking -/

theorem look_map (fns : List Fn) (f : String) : look fns f = (fns.map Fn.name).findIdx? (fun x => x == f) := by
  unfold look
  rw [List.findIdx?_map]
  rfl

theorem look_congr {fns fns' : List Fn} (h : fns'.map Fn.name = fns.map Fn.name) (f : String) : look fns' f = look fns f := by
  rw [look_map, look_map, h]

theorem look_some {fns : List Fn} {f : String} {i : Nat} (h : look fns f = some i) : ∃ F, fns[i]? = some F ∧ F.name = f := by
  unfold look at h
  rw [List.findIdx?_eq_some_iff_getElem] at h
  obtain ⟨hi, h1, _⟩ := h
  exact ⟨fns[i], List.getElem?_eq_getElem hi, by simpa using h1⟩

theorem look_append (fns : List Fn) (F : Fn) (f : String) :
    look (fns ++ [F]) f = (look fns f).or (if F.name = f then some fns.length else none) := by
  unfold look
  rw [List.findIdx?_append]
  by_cases h : F.name = f <;> simp [h, List.findIdx?_cons]

/-- The native calls of the code of the `k`-th function. -/
def nodesOf (fns : List Fn) (k : Nat) : List (Nat × String) :=
  match fns[k]? with
  | some F => (match F.code with | some c => c.nodes | none => [])
  | none => []

/-- All native calls, those of the main function given. -/
def sites (fns : List Fn) (main : List (Nat × String)) : Option Nat → List (Nat × String)
  | none => main
  | some k => nodesOf fns k

/-- What holds between scripts. `P` are the functions that were defined so far. -/
structure Good (lib : Lib) (e : E) (g : Env) (P : List Def) : Prop where
  none : ∀ f, look e.fns f = none → g f = none
  entry : ∀ (i : Nat) (F : Fn), e.fns[i]? = some F → look e.fns F.name = some i ∧ ∃ c, F.code = some c ∧ g F.name = some c.strip ∧ Single c.nodes ∧
    (∀ p ∈ c.targets, (∀ j, p.2 = some j → look e.fns p.1 = some j) ∧ (p.2 = Option.none → i ∈ e.pending)) ∧ Def.mk F.name c.strip ∈ P
  cache : ∀ k pos i, e.cache.last (some k) pos = some i → (pos, lib.owner i) ∈ nodesOf e.fns k

theorem Good.isSome {lib : Lib} {e : E} {g : Env} {P : List Def} (h : Good lib e g P) (f : String) :
    (look e.fns f).isSome = (g f).isSome := by
  cases hl : look e.fns f with
  | none => rw [h.none f hl]; rfl
  | some i =>
    obtain ⟨F, hF, rfl⟩ := look_some hl
    obtain ⟨_, c, _, hg, _⟩ := h.entry i F hF
    rw [hg]
    rfl

theorem define_some {e : E} {d : Def} {i : Nat} (h : look e.fns d.name = some i) :
    (define e d).fns = e.fns.set i ⟨d.name, some (comp (fun _ => none) 0 d.body).1⟩ := by
  unfold define register
  simp only [h, List.set_set]

theorem define_none {e : E} {d : Def} (h : look e.fns d.name = none) :
    (define e d).fns = e.fns ++ [⟨d.name, some (comp (fun _ => none) 0 d.body).1⟩] := by
  unfold define register
  simp only [h]
  rw [List.set_append_right _ _ (Nat.le_refl _)]
  simp

/-- The number of the function that is defined. -/
def slot (e : E) (d : Def) : Nat := match look e.fns d.name with | some i => i | none => e.fns.length

theorem define_cache (e : E) (d : Def) : (define e d).cache = e.cache := by
  unfold define register
  cases look e.fns d.name <;> rfl

theorem define_pending {e : E} {d : Def} {i : Nat} (h : i ∈ e.pending) : i ∈ (define e d).pending := by
  unfold define register
  cases look e.fns d.name <;> simp only <;> split <;> try split
  all_goals first | exact h | exact List.mem_append.2 (.inl h)

theorem define_open {e : E} {d : Def} (h : (comp (fun _ => none) 0 d.body).1.open = true) : slot e d ∈ (define e d).pending := by
  unfold define register slot
  cases look e.fns d.name <;> simp only [h, if_true] <;> split
  all_goals first
    | (rename_i hc; exact List.contains_iff_mem.1 hc)
    | exact List.mem_append.2 (.inr (List.mem_singleton.2 rfl))

theorem look_define {e : E} {d : Def} {f : String} {j : Nat} (h : look e.fns f = some j) : look (define e d).fns f = some j := by
  cases hl : look e.fns d.name with
  | none => rw [define_none hl, look_append, h]; rfl
  | some i =>
    rw [define_some hl]
    obtain ⟨F, hF, hn⟩ := look_some hl
    rw [look_congr (fns := e.fns), h]
    rw [List.map_set]
    apply List.ext_getElem?
    intro k
    rw [List.getElem?_set]
    split
    · rename_i hk
      subst hk
      obtain ⟨hi, hF'⟩ := List.getElem?_eq_some_iff.1 hF
      simp [hi, hF', hn]
    · rfl

theorem look_define_none {e : E} {d : Def} {f : String} (h : look (define e d).fns f = none) :
    look e.fns f = none ∧ f ≠ d.name := by
  constructor
  · cases hl : look e.fns f with
    | none => rfl
    | some j => rw [look_define hl] at h; cases h
  · rintro rfl
    cases hl : look e.fns d.name with
    | none => rw [define_none hl, look_append, hl] at h; simp at h
    | some i => rw [look_define hl] at h; cases h

theorem nodes_nil {b : Ex} {c : Code} (hb : c.strip = b) (h : b.natives = []) : c.nodes = [] := by
  cases hn : c.nodes with
  | nil => rfl
  | cons p ps =>
    have := nodes_natives c p (by rw [hn]; exact List.mem_cons_self)
    rw [hb, h] at this
    cases this

theorem define_good {lib : Lib} {e : E} {g : Env} {P : List Def} {d : Def} (h : Good lib e g P)
    (ho : ∀ d0 ∈ P, d0.name = d.name → d0.body.natives = [] ∧ d.body.natives = []) :
    Good lib (define e d) (g.define d) (P ++ [d]) := by
  have hs := comp_strip (fun _ => none) 0 d.body
  have hw := comp_within (fun _ => none) 0 d.body
  have ht := comp_targets (fun _ => none) 0 d.body
  have hopen : ∀ p ∈ (comp (fun _ => none) 0 d.body).1.targets, p.2 = none ∧ slot e d ∈ (define e d).pending := by
    intro p hp
    have h1 := ht p hp
    refine ⟨h1, define_open (open_of_none _ p.1 ?_)⟩
    have : (p.1, none) = p := by rw [← h1]
    rw [this]
    exact hp
  have hold : ∀ (i : Nat) (F : Fn), e.fns[i]? = some F → F.name ≠ d.name → ∃ c, F.code = some c ∧ (g.define d) F.name = some c.strip ∧
      Single c.nodes ∧ (∀ p ∈ c.targets, (∀ j, p.2 = some j → look (define e d).fns p.1 = some j) ∧
        (p.2 = none → i ∈ (define e d).pending)) ∧ Def.mk F.name c.strip ∈ P ++ [d] := by
    intro i F hF hn
    obtain ⟨_, c, h1, h2, h3, h4, h5⟩ := h.entry i F hF
    refine ⟨c, h1, ?_, h3, fun p hp => ⟨fun j hj => look_define ((h4 p hp).1 j hj), fun hj => define_pending ((h4 p hp).2 hj)⟩,
      List.mem_append.2 (.inl h5)⟩
    unfold Env.define
    rw [if_neg hn, h2]
  have hnew : ∃ c, (Fn.mk d.name (some (comp (fun _ => none) 0 d.body).1)).code = some c ∧ (g.define d) d.name = some c.strip ∧
      Single c.nodes ∧ (∀ p ∈ c.targets, (∀ j, p.2 = some j → look (define e d).fns p.1 = some j) ∧
        (p.2 = none → slot e d ∈ (define e d).pending)) ∧ Def.mk d.name c.strip ∈ P ++ [d] := by
    refine ⟨_, rfl, ?_, hw.2.2, fun p hp => ⟨fun j hj => ?_, fun _ => (hopen p hp).2⟩, ?_⟩
    · unfold Env.define
      rw [if_pos rfl, hs]
    · rw [(hopen p hp).1] at hj
      cases hj
    · rw [hs]
      exact List.mem_append.2 (.inr (List.mem_singleton.2 rfl))
  refine ⟨fun f hf => ?_, fun i F hF => ?_, fun k pos i hi => ?_⟩
  · obtain ⟨h1, h2⟩ := look_define_none hf
    unfold Env.define
    rw [if_neg h2]
    exact h.none f h1
  · cases hl : look e.fns d.name with
    | none =>
      have hsl : slot e d = e.fns.length := by unfold slot; rw [hl]
      rw [define_none hl] at hF
      by_cases hi : i < e.fns.length
      · rw [List.getElem?_append_left hi] at hF
        have hlk := (h.entry i F hF).1
        refine ⟨look_define hlk, hold i F hF ?_⟩
        intro hn
        rw [hn, hl] at hlk
        cases hlk
      · rw [List.getElem?_append_right (by omega)] at hF
        have hi' : i - e.fns.length = 0 := by
          cases hk : i - e.fns.length with
          | zero => rfl
          | succ k => rw [hk] at hF; simp at hF
        rw [hi'] at hF
        cases hF
        have : i = e.fns.length := by omega
        subst this
        rw [hsl] at hnew
        refine ⟨?_, hnew⟩
        rw [define_none hl, look_append, hl]
        simp
    | some i0 =>
      have hsl : slot e d = i0 := by unfold slot; rw [hl]
      rw [hsl] at hnew
      rw [define_some hl, List.getElem?_set] at hF
      by_cases hi : i0 = i
      · rw [if_pos hi] at hF
        split at hF
        · cases hF
          subst hi
          exact ⟨look_define hl, hnew⟩
        · cases hF
      · rw [if_neg hi] at hF
        have hlk := (h.entry i F hF).1
        refine ⟨look_define hlk, hold i F hF ?_⟩
        intro hn
        rw [hn, hl] at hlk
        cases hlk
        exact hi rfl
  · rw [define_cache] at hi
    have hc := h.cache k pos i hi
    unfold nodesOf at hc ⊢
    cases hl : look e.fns d.name with
    | none =>
      rw [define_none hl]
      cases hk : e.fns[k]? with
      | none => rw [hk] at hc; cases hc
      | some F =>
        rw [hk] at hc
        obtain ⟨hlt, _⟩ := List.getElem?_eq_some_iff.1 hk
        rw [List.getElem?_append_left hlt, hk]
        exact hc
    | some i0 =>
      rw [define_some hl, List.getElem?_set]
      by_cases hi0 : i0 = k
      · subst hi0
        obtain ⟨F, hF, hn⟩ := look_some hl
        obtain ⟨_, c, h1, _, _, _, h5⟩ := h.entry i0 F hF
        rw [hF] at hc
        simp only [h1] at hc
        have := (ho _ h5 hn).1
        rw [nodes_nil rfl this] at hc
        cases hc
      · rw [if_neg hi0]
        exact hc

theorem mapIdx_get (g : Nat → Fn → Fn) : ∀ (fs : List Fn) (k i : Nat), (mapIdx g k fs)[i]? = (fs[i]?).map (g (k + i))
  | [], _, _ => by simp [mapIdx]
  | f :: fs, k, 0 => by simp [mapIdx]
  | f :: fs, k, i + 1 => by
    simp only [mapIdx, List.getElem?_cons_succ]
    rw [mapIdx_get g fs (k + 1) i]
    congr 2
    omega

theorem link_get (e : E) (i : Nat) : (link e).fns[i]? =
    (e.fns[i]?).map fun f => if e.pending.contains i then f.link (look e.fns) else f := by
  unfold link
  simp only
  rw [mapIdx_get]
  simp

theorem link_look (e : E) (f : String) : look (link e).fns f = look e.fns f := by
  apply look_congr
  apply List.ext_getElem?
  intro i
  rw [List.getElem?_map, List.getElem?_map, link_get]
  cases e.fns[i]? with
  | none => rfl
  | some F =>
    simp only [Option.map_some]
    split <;> rfl

theorem link_good {lib : Lib} {e : E} {g : Env} {P : List Def} (h : Good lib e g P) : Good lib (link e) g P ∧
    ∀ (i : Nat) (F : Fn), (link e).fns[i]? = some F → ∃ c, F.code = some c ∧ g F.name = some c.strip ∧ Linked (link e).fns c.targets := by
  have key : ∀ (i : Nat) (F : Fn), (link e).fns[i]? = some F → ∃ F0 c0 c, e.fns[i]? = some F0 ∧ F.name = F0.name ∧ F0.code = some c0 ∧ F.code = some c ∧
      c.strip = c0.strip ∧ c.nodes = c0.nodes ∧ Linked (link e).fns c.targets := by
    intro i F hF
    rw [link_get] at hF
    cases h0 : e.fns[i]? with
    | none => rw [h0] at hF; cases hF
    | some F0 =>
      rw [h0] at hF
      simp only [Option.map_some, Option.some.injEq] at hF
      obtain ⟨_, c0, h1, _, _, h4, _⟩ := h.entry i F0 h0
      split at hF
      · subst hF
        refine ⟨F0, c0, linkC (look e.fns) c0, rfl, rfl, h1, by simp [Fn.link, h1], link_strip _ c0, link_nodes _ c0, ?_⟩
        intro p hp
        rw [link_targets] at hp
        obtain ⟨q, hq, rfl⟩ := List.mem_map.1 hp
        rw [link_look]
        unfold relink
        cases hq2 : q.2 with
        | none => rfl
        | some j => exact ((h4 q hq).1 j hq2).symm
      · rename_i hp
        subst hF
        refine ⟨F0, c0, c0, rfl, rfl, h1, h1, rfl, rfl, ?_⟩
        intro p hp'
        rw [link_look]
        cases hp2 : p.2 with
        | none => exact absurd (List.contains_iff_mem.2 ((h4 p hp').2 hp2)) hp
        | some j => exact ((h4 p hp').1 j hp2).symm
  refine ⟨⟨fun f hf => h.none f (by rw [link_look] at hf; exact hf), fun i F hF => ?_, fun k pos i hi => ?_⟩, fun i F hF => ?_⟩
  · obtain ⟨F0, c0, c, h0, hn, h1, h2, h3, h4, h5⟩ := key i F hF
    obtain ⟨hl, c0', h1', hg, hs, _, hP⟩ := h.entry i F0 h0
    rw [h1] at h1'
    cases h1'
    rw [hn, link_look]
    refine ⟨hl, c, h2, by rw [h3]; exact hg, by rw [h4]; exact hs, fun p hp => ⟨fun j hj => ?_, fun hj => ?_⟩, by rw [h3]; exact hP⟩
    · rw [← h5 p hp]
      exact hj
    · have hopen : c.open = true := open_of_none c p.1 (by
        have : (p.1, none) = p := by rw [← hj]
        rw [this]
        exact hp)
      have hpend : i ∈ e.pending := by
        -- a function that is open after linking was open before
        have h6 := h5 p hp
        rw [hj] at h6
        refine Classical.byContradiction fun hni => ?_
        have h7 := link_get e i
        rw [hF, h0] at h7
        have : ¬ e.pending.contains i = true := fun hc => hni (List.contains_iff_mem.1 hc)
        simp only [Option.map_some, if_neg this, Option.some.injEq] at h7
        subst h7
        rw [h1] at h2
        cases h2
        obtain ⟨_, c0'', h1'', _, _, h4'', _⟩ := h.entry i F h0
        rw [h1] at h1''
        cases h1''
        exact hni ((h4'' p hp).2 hj)
      have h8 : (link e).pending = e.pending.filter fun i => match (link e).fns[i]? with | some f => f.open | none => false := rfl
      rw [h8, List.mem_filter]
      refine ⟨hpend, ?_⟩
      simp only [hF, Fn.open, h2]
      exact hopen
  · have hc := h.cache k pos i hi
    unfold nodesOf at hc ⊢
    cases hk : (link e).fns[k]? with
    | none =>
      rw [link_get] at hk
      cases hk' : e.fns[k]? with
      | none => rw [hk'] at hc; cases hc
      | some F => rw [hk'] at hk; cases hk
    | some F =>
      obtain ⟨F0, c0, c, h0, _, h1, h2, _, h4, _⟩ := key k F hk
      rw [h0] at hc
      simp only [h1] at hc
      simp only [h2]
      rw [h4]
      exact hc
  · obtain ⟨F0, c0, c, h0, hn, h1, h2, h3, _, h5⟩ := key i F hF
    obtain ⟨_, c0', h1', hg, _⟩ := h.entry i F0 h0
    rw [h1] at h1'
    cases h1'
    exact ⟨c, h2, by rw [hn, h3]; exact hg, h5⟩

/-! ### Whole scripts -/

theorem strips_append : ∀ (cs ds : List Code), strips (cs ++ ds) = strips cs ++ strips ds
  | [], _ => rfl
  | c :: cs, ds => by simp [strips, strips_append cs ds]

theorem targetsAll_append : ∀ (cs ds : List Code), targetsAll (cs ++ ds) = targetsAll cs ++ targetsAll ds
  | [], _ => rfl
  | c :: cs, ds => by simp [targetsAll, targetsAll_append cs ds]

theorem nodesAll_append : ∀ (cs ds : List Code), nodesAll (cs ++ ds) = nodesAll cs ++ nodesAll ds
  | [], _ => rfl
  | c :: cs, ds => by simp [nodesAll, nodesAll_append cs ds]

mutual
theorem known_iff (find : String → Option Nat) : (x : Ex) → known find x = x.names.all (fun f => (find f).isSome)
  | .lit _ => by simp [known, Ex.names]
  | .par _ => by simp [known, Ex.names]
  | .add a b => by simp [known, Ex.names, known_iff find a, known_iff find b]
  | .ite c a b => by simp [known, Ex.names, known_iff find c, known_iff find a, known_iff find b]
  | .call f as => by simp [known, Ex.names, knowns_iff find as]
  | .native _ as => by simp [known, Ex.names, knowns_iff find as]
theorem knowns_iff (find : String → Option Nat) : (as : List Ex) → knowns find as = (namesAll as).all (fun f => (find f).isSome)
  | [] => by simp [knowns, namesAll]
  | a :: as => by simp [knowns, namesAll, known_iff find a, knowns_iff find as]
end

theorem Good.known {lib : Lib} {e : E} {g : Env} {P : List Def} (h : Good lib e g P) (x : Ex) :
    known (look e.fns) x = x.names.all (fun f => (g f).isSome) := by
  rw [known_iff]
  congr 1
  funext f
  exact h.isSome f

theorem once_pair {P Q : List Def} {d : Def} (h : NativeOnce (P ++ d :: Q)) : ∀ d0 ∈ P, d0.name = d.name →
    d0.body.natives = [] ∧ d.body.natives = [] := by
  intro d0 h0 hn
  have hlen : 2 ≤ ((P ++ d :: Q).filter fun x => x.name == d.name).length := by
    rw [List.filter_append, List.length_append]
    have h1 : 0 < (P.filter fun x => x.name == d.name).length :=
      List.length_pos_of_mem (List.mem_filter.2 ⟨h0, by simp [hn]⟩)
    have h2 : 0 < ((d :: Q).filter fun x => x.name == d.name).length :=
      List.length_pos_of_mem (List.mem_filter.2 ⟨List.mem_cons_self, by simp⟩)
    omega
  constructor
  · refine Classical.byContradiction fun hb => ?_
    have := h d0 (List.mem_append.2 (.inl h0)) hb
    rw [hn] at this
    omega
  · refine Classical.byContradiction fun hb => ?_
    have := h d (List.mem_append.2 (.inr List.mem_cons_self)) hb
    omega

/-- The statements compiled so far are bound to functions of the engine. -/
def Bound (fns : List Fn) (cs : List Code) : Prop := ∀ p ∈ targetsAll cs, ∃ j, p.2 = some j ∧ look fns p.1 = some j

theorem scan_good {lib : Lib} : ∀ (is : List Item) {e : E} {g : Env} {P Q : List Def} {pos : Nat} {cs : List Code},
    Good lib e g P → NativeOnce (P ++ (defs is ++ Q)) → Bound e.fns cs → Within 0 pos (nodesAll cs) → accepts g is = true →
    ∃ e' cs', scan e pos cs is = (e', cs', true) ∧ Good lib e' ((defs is).foldl Env.define g) (P ++ defs is) ∧
      strips cs' = strips cs ++ stms is ∧ Bound e'.fns cs' ∧ Single (nodesAll cs') ∧ e'.cache = e.cache
  | [], e, g, P, Q, pos, cs, hg, _, hb, hw, _ =>
    ⟨e, cs, rfl, by simpa [defs] using hg, by simp [stms], hb, hw.2.2, rfl⟩
  | .fn d :: is, e, g, P, Q, pos, cs, hg, ho, hb, hw, ha => by
    simp only [accepts] at ha
    simp only [defs, List.cons_append] at ho
    have hg' := define_good hg (once_pair ho)
    have ho' : NativeOnce ((P ++ [d]) ++ (defs is ++ Q)) := by
      rw [List.append_assoc]
      exact ho
    obtain ⟨e', cs', h1, h2, h3, h4, h5, h6⟩ := scan_good is hg' ho'
      (fun p hp => (hb p hp).elim fun j hj => ⟨j, hj.1, look_define hj.2⟩) hw ha
    refine ⟨e', cs', by simp only [scan]; exact h1, ?_, by simp only [stms]; exact h3, h4, h5, by rw [h6, define_cache]⟩
    simp only [defs, List.foldl_cons]
    rw [List.append_assoc] at h2
    exact h2
  | .stm x :: is, e, g, P, Q, pos, cs, hg, ho, hb, hw, ha => by
    simp only [accepts, Bool.and_eq_true] at ha
    have hk : known (look e.fns) x = true := by rw [hg.known]; exact ha.1
    obtain ⟨e', cs', h1, h2, h3, h4, h5, h6⟩ := scan_good is (pos := (comp (look e.fns) pos x).2) (cs := cs ++ [(comp (look e.fns) pos x).1])
      hg ho (by
        intro p hp
        rw [targetsAll_append] at hp
        rcases List.mem_append.1 hp with hp | hp
        · exact hb p hp
        · simp only [targetsAll, List.append_nil] at hp
          have h1 := comp_targets (look e.fns) pos x p hp
          have h2 := comp_names (look e.fns) pos x p hp
          have h3 := List.all_eq_true.1 ha.1 p.1 h2
          rw [← hg.isSome] at h3
          obtain ⟨j, hj⟩ := Option.isSome_iff_exists.1 h3
          exact ⟨j, by rw [h1, hj], hj⟩)
      (by
        rw [nodesAll_append]
        simp only [nodesAll, List.append_nil]
        exact hw.append (comp_within (look e.fns) pos x)) ha.2
    refine ⟨e', cs', by simp only [scan, hk, if_true]; exact h1, h2, ?_, h4, h5, h6⟩
    rw [h3, strips_append]
    simp [strips, comp_strip, stms]
  | .cut _ :: is, e, g, P, Q, pos, cs, hg, ho, hb, hw, ha => by simp [accepts] at ha
  | .bad :: is, e, g, P, Q, pos, cs, hg, ho, hb, hw, ha => by simp [accepts] at ha

theorem scan_refused {lib : Lib} : ∀ (is : List Item) {e : E} {g : Env} {P : List Def} {pos : Nat} {cs : List Code},
    Good lib e g P → accepts g is = false → defs is = [] → (∀ f, .cut f ∉ is) → ∃ cs', scan e pos cs is = (e, cs', false)
  | [], _, _, _, _, _, _, ha, _, _ => by simp [accepts] at ha
  | .fn d :: is, _, _, _, _, _, _, _, hd, _ => by simp [defs] at hd
  | .stm x :: is, e, g, P, pos, cs, hg, ha, hd, hc => by
    simp only [accepts, Bool.and_eq_false_iff] at ha
    simp only [scan]
    by_cases hk : known (look e.fns) x = true
    · rw [if_pos hk]
      have hx : accepts g is = false := by
        rcases ha with ha | ha
        · rw [← hg.known, hk] at ha
          cases ha
        · exact ha
      exact scan_refused is hg hx (by simpa [defs] using hd) (fun f hf => hc f (List.mem_cons_of_mem _ hf))
    · rw [if_neg hk]
      exact ⟨cs, rfl⟩
  | .cut f :: is, _, _, _, _, _, _, _, _, hc => absurd List.mem_cons_self (hc f)
  | .bad :: is, e, _, _, _, cs, _, _, _, _ => ⟨cs, rfl⟩

theorem last_filter (c : Cache) (k : Nat) (pos : Nat) : c.clearMain.last (some k) pos = c.last (some k) pos := by
  unfold Cache.clearMain Cache.last
  congr 1
  induction c with
  | nil => rfl
  | cons p c ih =>
    by_cases hp : p.1.1 = none
    · rw [List.filter_cons_of_neg (by simp [hp]), List.find?_cons_of_neg, ih]
      intro hc
      simp only [beq_iff_eq] at hc
      rw [hc] at hp
      cases hp
    · rw [List.filter_cons_of_pos (by simp [hp])]
      simp only [List.find?_cons]
      rw [ih]

theorem last_cleared (c : Cache) (pos : Nat) : c.clearMain.last none pos = none := by
  unfold Cache.clearMain Cache.last
  rw [Option.map_eq_none_iff, List.find?_eq_none]
  intro p hp hc
  have := (List.mem_filter.1 hp).2
  simp only [beq_iff_eq] at hc
  rw [hc] at this
  simp at this

theorem Good.clear {lib : Lib} {e : E} {g : Env} {P : List Def} (h : Good lib e g P) :
    Good lib { e with cache := e.cache.clearMain } g P :=
  ⟨h.none, h.entry, fun k pos i hi => h.cache k pos i (by rw [last_filter] at hi; exact hi)⟩

theorem script_sim {lib : Lib} (ha : lib.Apart) (n : Nat) {e : E} {g : Env} {P Q : List Def} {is : List Item} (hg : Good lib e g P)
    (ho : NativeOnce (P ++ (defs is ++ Q))) (hc : accepts g is = true ∨ (defs is = [] ∧ ∀ f, .cut f ∉ is)) :
    (script lib n e is).1 = (if accepts g is then .ran (runS lib (after g is) n (stms is)).1 (runS lib (after g is) n (stms is)).2
      else .refused) ∧ Good lib (script lib n e is).2 (after g is) (P ++ defs is) := by
  by_cases hacc : accepts g is = true
  · obtain ⟨e', cs', h1, h2, h3, h4, h5, h6⟩ := scan_good is (pos := 0) (cs := []) hg.clear ho (by intro p hp; simp [targetsAll] at hp)
      (Within.nil 0) hacc
    obtain ⟨k1, k2⟩ := link_good h2
    have hafter : after g is = (defs is).foldl Env.define g := by unfold after; rw [if_pos hacc]
    have hm : Match (link e').fns (sites (link e').fns (nodesAll cs')) (after g is) := by
      rw [hafter]
      refine ⟨k1.none, fun f i hl => ?_⟩
      obtain ⟨F, hF, rfl⟩ := look_some hl
      obtain ⟨c, hc1, hc2, hc3⟩ := k2 i F hF
      refine ⟨F, c, hF, hc1, hc2, hc3, ?_⟩
      simp only [sites, nodesOf, hF, hc1]
      exact fun _ h => h
    have hN : ∀ o, Single (sites (link e').fns (nodesAll cs') o) := by
      intro o
      cases o with
      | none => exact h5
      | some k =>
        simp only [sites, nodesOf]
        cases hk : (link e').fns[k]? with
        | none => intro p x y h; cases h
        | some F =>
          obtain ⟨_, c, hc1, _, hc3, _⟩ := k1.entry k F hk
          simp only [hc1]
          exact hc3
    have hS : Sound lib (sites (link e').fns (nodesAll cs')) (link e').cache := by
      intro o pos i hi
      cases o with
      | none =>
        have : (link e').cache = e.cache.clearMain := h6
        rw [this, last_cleared] at hi
        cases hi
      | some k => exact k1.cache k pos i hi
    have hL : Linked (link e').fns (targetsAll cs') := by
      intro p hp
      obtain ⟨j, hj1, hj2⟩ := h4 p hp
      rw [link_look, hj1, hj2]
    obtain ⟨r1, r2⟩ := run_sim ha hm hN n cs' (link e').cache hL (fun _ h => h) hS
    have h3' : strips cs' = stms is := by rw [h3]; rfl
    rw [h3'] at r1
    have hs : script lib n e is = (.ran (runM lib (link e').fns n cs' (link e').cache).1.1 (runM lib (link e').fns n cs' (link e').cache).1.2,
        { link e' with cache := (runM lib (link e').fns n cs' (link e').cache).2 }) := by
      unfold script
      simp only [h1, if_true]
    rw [hs, if_pos hacc, ← r1]
    refine ⟨rfl, ?_⟩
    rw [hafter]
    exact ⟨k1.none, k1.entry, fun k pos i hi => r2 (some k) pos i hi⟩
  · have hacc' : accepts g is = false := by simpa using hacc
    rcases hc with hc | hc
    · exact absurd hc hacc
    · obtain ⟨cs', h1⟩ := scan_refused is (pos := 0) (cs := []) hg.clear hacc' hc.1 hc.2
      have hs : script lib n e is = (.refused, { e with cache := e.cache.clearMain }) := by
        unfold script
        simp only [h1]
        rfl
      rw [hs, if_neg hacc, hc.1, List.append_nil]
      refine ⟨rfl, ?_⟩
      unfold after
      rw [if_neg hacc]
      exact hg.clear

theorem scripts_sim {lib : Lib} (ha : lib.Apart) (n : Nat) : ∀ (ss : List (List Item)) {e : E} {g : Env} {P : List Def}, Good lib e g P →
    NativeOnce (P ++ allDefs ss) → Clean g ss → scripts lib n e ss = seen lib n g ss
  | [], _, _, _, _, _, _ => rfl
  | is :: ss, e, g, P, hg, ho, hc => by
    simp only [allDefs, List.flatMap_cons] at ho
    obtain ⟨h1, h2⟩ := script_sim ha n hg ho hc.1
    simp only [scripts, seen]
    rw [h1, scripts_sim ha n ss h2 (by rw [List.append_assoc]; exact ho) hc.2]

theorem init_good (lib : Lib) : Good lib E.init (fun _ => none) [] :=
  ⟨fun _ _ => rfl, fun i F h => by simp [E.init] at h, fun k pos i h => by simp [E.init, Cache.last] at h⟩

end Verif.Redef
