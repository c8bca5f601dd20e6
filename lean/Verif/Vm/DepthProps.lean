import Verif.Vm.Depth
/-
C38 (recursion is cut off) and C58 (bounds of the operand stack), over all histories of calls, returns and errors.
-/
namespace Verif.Vm.Depth
open Verif

/-! ## Lemmas -/

/-- Between events: an idle machine is at frame 0; a running one has one frame per live function (and the reserved one of a
call from the host). -/
structure Inv (v : Vm) : Prop where
  idle : v.live = [] → v.cur = 0 ∧ v.fromHost = false
  busy : v.live ≠ [] → v.cur = v.live.length + (if v.fromHost then 1 else 0) ∧ v.cur ≤ callMax ∧ v.err = false

/-- All recorded frame indices are inside the table. -/
def FramesOk (v : Vm) : Prop := ∀ i ∈ v.frames, 0 ≤ i ∧ i < callMax

theorem dump_frames (n : Nat) : ∀ (v : Vm), FramesOk v → (n : Int) ≤ v.cur → v.cur ≤ callMax → FramesOk (dumpFrom v n) := by
  induction n with
  | zero => exact fun v h _ _ => h
  | succ n ih =>
    intro v h h1 h2
    refine ih (pop v) ?_ ?_ ?_
    · intro i hi
      simp only [pop, List.mem_cons] at hi
      rcases hi with rfl | hi
      · omega
      · exact h i hi
    · simp only [pop]; omega
    · simp only [pop]; omega

theorem dump_rest (n : Nat) : ∀ (v : Vm), (dumpFrom v n).size = v.size ∧ (dumpFrom v n).writes = v.writes ∧ (dumpFrom v n).err = v.err := by
  induction n with
  | zero => exact fun v => ⟨rfl, rfl, rfl⟩
  | succ n ih => exact fun v => ih (pop v)

/-- What `finish` does. -/
theorem finish_err (v : Vm) (h : v.err = true) : (finish v).live = [] ∧ (finish v).cur = 0 ∧ (finish v).fromHost = false ∧ (finish v).err = true := by
  unfold finish
  rw [if_pos h]
  exact ⟨rfl, rfl, rfl, (dump_rest _ v).2.2.trans h⟩

theorem finish_frames (v : Vm) (h : FramesOk v) (h2 : v.cur ≤ callMax) : FramesOk (finish v) := by
  unfold finish
  split
  · by_cases h0 : 0 ≤ v.cur
    · exact dump_frames _ v h (by omega) h2
    · have : v.cur.toNat = 0 := by omega
      rw [this]; exact h
  · split
    · exact h
    · exact h

theorem finish_rest (v : Vm) : (finish v).size = v.size ∧ (finish v).writes = v.writes := by
  unfold finish
  split
  · exact ⟨(dump_rest _ v).1, (dump_rest _ v).2.1⟩
  · split <;> exact ⟨rfl, rfl⟩

theorem finish_ok (v : Vm) (h : v.err = false) (h1 : v.live ≠ []) : finish v = v := by
  unfold finish
  rw [if_neg (by simp [h]), if_neg (fun x => h1 x.1)]

theorem inv_of_idle (v : Vm) (h : v.live = [] ∧ v.cur = 0 ∧ v.fromHost = false) : Inv v :=
  ⟨fun _ => h.2, fun x => absurd h.1 x⟩

/-- Entry: refused (error) or one more live function. -/
theorem enterFn_cases (v : Vm) (start : Nat) (f : Fn) (b : Bool) (he : v.err = false) :
    (enterFn v start f b).err = true ∨
    ((enterFn v start f b).err = false ∧ v.cur < callMax ∧ (enterFn v start f b).cur = v.cur + 1 ∧
      (enterFn v start f b).live = (start, f) :: v.live ∧ (enterFn v start f b).fromHost = v.fromHost) := by
  unfold enterFn
  split
  · exact .inl rfl
  · split
    · exact .inl rfl
    · exact .inr ⟨he, by omega, rfl, rfl, rfl⟩

theorem inv_enter (v : Vm) (start : Nat) (f : Fn) (b : Bool) (he : v.err = false)
    (hc : v.cur = v.live.length + (if v.fromHost then 1 else 0)) : Inv (finish (enterFn v start f b)) := by
  rcases enterFn_cases v start f b he with h | ⟨h1, h2, h3, h4, h5⟩
  · have := finish_err _ h
    exact inv_of_idle _ ⟨this.1, this.2.1, this.2.2.1⟩
  · rw [finish_ok _ h1 (by rw [h4]; simp)]
    refine ⟨fun x => by rw [h4] at x; simp at x, fun _ => ⟨?_, by omega, h1⟩⟩
    rw [h3, h4, h5, hc, List.length_cons]
    simp only [Int.natCast_add, Int.cast_ofNat_Int]
    omega

theorem inv_step (v : Vm) (e : Event) (h : Inv v) : Inv (step v e) := by
  cases e with
  | main f =>
    simp only [step]
    split
    · rename_i hl
      exact inv_enter _ _ _ _ rfl (by simp [hl, (h.idle hl).1, (h.idle hl).2])
    · exact h
  | host g n f =>
    simp only [step]
    split
    · rename_i hl
      exact inv_enter _ _ _ _ rfl (by simp [hl])
    · exact h
  | enter s g f =>
    simp only [step]
    split
    · exact h
    · rename_i hl
      exact inv_enter _ _ _ _ (h.busy hl).2.2 (h.busy hl).1
  | leave =>
    simp only [step]
    cases hl : v.live with
    | nil => exact h
    | cons x rest =>
      have hb := h.busy (by rw [hl]; simp)
      simp only
      by_cases hr : rest = []
      · unfold finish
        simp only [pop, hb.2.2, Bool.false_eq_true, if_false, hr, true_and]
        cases hh : v.fromHost with
        | true => exact inv_of_idle _ ⟨rfl, rfl, rfl⟩
        | false =>
          refine inv_of_idle _ ⟨rfl, ?_, by simp [hh]⟩
          have := hb.1
          rw [hl, hr, hh] at this
          simp at this
          simp only [Bool.false_eq_true, if_false]
          omega
      · rw [show finish { pop v with live := rest } = { pop v with live := rest } from finish_ok { pop v with live := rest } hb.2.2 hr]
        refine ⟨fun x => absurd x hr, fun _ => ⟨?_, ?_, hb.2.2⟩⟩
        · have := hb.1
          rw [hl, List.length_cons] at this
          show v.cur - 1 = (rest.length : Int) + (if v.fromHost = true then 1 else 0)
          rw [this]
          simp only [Int.natCast_add, Int.cast_ofNat_Int]
          omega
        · have := hb.2.1
          simp only [pop]; omega
  | write i =>
    simp only [step]
    split
    · exact h
    · exact ⟨h.idle, h.busy⟩
  | fail b =>
    simp only [step]
    cases hl : v.live with
    | nil => exact h
    | cons x rest =>
      have := finish_err { (if b then pop v else v) with err := true } rfl
      exact inv_of_idle _ ⟨this.1, this.2.1, this.2.2.1⟩

theorem inv_foldl (es : List Event) : ∀ v, Inv v → Inv (es.foldl step v) := by
  induction es with
  | nil => exact fun v h => h
  | cons e es ih => exact fun v h => ih _ (inv_step v e h)

theorem inv_run (size : Nat) (es : List Event) : Inv (run size es) :=
  inv_foldl es _ (inv_of_idle _ ⟨rfl, rfl, rfl⟩)

theorem step_size (v : Vm) (e : Event) : (step v e).size = v.size := by
  have hE : ∀ (u : Vm) s f b, (finish (enterFn u s f b)).size = u.size := by
    intro u s f b
    rw [(finish_rest _).1]
    unfold enterFn
    split
    · rfl
    · split <;> rfl
  cases e with
  | main f => simp only [step]; split; exact hE _ _ _ _; rfl
  | host g n f => simp only [step]; split; exact hE _ _ _ _; rfl
  | enter s g f => simp only [step]; split; rfl; exact hE _ _ _ _
  | leave =>
    simp only [step]
    cases v.live with
    | nil => rfl
    | cons x rest => exact (finish_rest _).1
  | write i => simp only [step]; split <;> rfl
  | fail b =>
    simp only [step]
    cases v.live with
    | nil => rfl
    | cons x rest =>
      have := (finish_rest { (if b then pop v else v) with err := true }).1
      cases b <;> exact this

theorem frames_enter (v : Vm) (start : Nat) (f : Fn) (b : Bool) (h : FramesOk v) (h0 : 0 ≤ v.cur) (h1 : v.cur ≤ callMax)
    (hfit : v.cur = 0 → start + f.locals + f.need < v.size) : FramesOk (finish (enterFn v start f b)) := by
  refine finish_frames _ ?_ ?_
  · unfold enterFn
    split
    · exact h
    · split
      · rename_i hs
        intro i hi
        simp only [pop, List.mem_cons] at hi
        rcases hi with rfl | hi
        · by_cases hz : v.cur = 0
          · have := hfit hz; omega
          · omega
        · exact h i hi
      · intro i hi
        simp only [List.mem_cons] at hi
        rcases hi with rfl | hi
        · omega
        · exact h i hi
  · unfold enterFn
    split
    · exact h1
    · split
      · simp only [pop]; omega
      · simp only; omega

theorem frames_step (v : Vm) (e : Event) (hi : Inv v) (h : FramesOk v)
    (hm : ∀ f, e = .main f → f.locals + f.need < v.size) : FramesOk (step v e) := by
  have hcur : 0 ≤ v.cur := by
    by_cases hl : v.live = []
    · rw [(hi.idle hl).1]; exact Int.le_refl 0
    · rw [(hi.busy hl).1]; split <;> omega
  cases e with
  | main f =>
    simp only [step]
    split
    · rename_i hl
      exact frames_enter _ _ _ _ h hcur (by have := (hi.idle hl).1; simp only [this]; decide)
        (fun _ => by have := hm f rfl; simp only; omega)
    · exact h
  | host g n f =>
    simp only [step]
    split
    · exact frames_enter _ _ _ _ h (by simp) (by simp only [callMax]; decide) (fun x => by simp at x)
    · exact h
  | enter s g f =>
    simp only [step]
    split
    · exact h
    · rename_i hl
      have hb := hi.busy hl
      refine frames_enter _ _ _ _ h hcur hb.2.1 (fun x => ?_)
      have : v.cur = 0 := x
      have h1 : 0 < v.live.length := List.length_pos_iff.2 hl
      rw [hb.1] at this
      split at this <;> omega
  | leave =>
    simp only [step]
    cases hl : v.live with
    | nil => exact h
    | cons x rest =>
      have hb := hi.busy (by rw [hl]; simp)
      have h1 : 1 ≤ v.cur := by
        rw [hb.1, hl, List.length_cons]; split <;> omega
      refine finish_frames _ ?_ ?_
      · intro i hi'
        simp only [pop, List.mem_cons] at hi'
        rcases hi' with rfl | hi'
        · have := hb.2.1; omega
        · exact h i hi'
      · have := hb.2.1
        simp only [pop]; omega
  | write i =>
    simp only [step]
    split <;> exact h
  | fail b =>
    simp only [step]
    cases hl : v.live with
    | nil => exact h
    | cons x rest =>
      have hb := hi.busy (by rw [hl]; simp)
      have h1 : 1 ≤ v.cur := by
        rw [hb.1, hl, List.length_cons]; split <;> omega
      have h2 := hb.2.1
      refine finish_frames _ ?_ ?_
      · cases b with
        | false => exact h
        | true =>
          intro i hi'
          simp only [pop, if_true, List.mem_cons] at hi'
          rcases hi' with rfl | hi'
          · omega
          · exact h i hi'
      · cases b with
        | false => exact h2
        | true => simp only [pop, if_true]; omega

/-! ## C38 -/

/-- The call depth never exceeds the fixed maximum: after any history at most 100 script functions are being executed. -/
theorem depth_bounded (size : Nat) (es : List Event) : (run size es).live.length ≤ 100 := by
  have h := inv_run size es
  by_cases hl : (run size es).live = []
  · rw [hl]; simp
  · have hb := h.busy hl
    have h1 := hb.1
    have h2 : (run size es).cur ≤ 100 := hb.2.1
    split at h1 <;> omega

/-- No frame outside the table is read or written, in any history of calls, returns and errors, of any functions, with any
stack size. (Partial: every main function run by the host fits in the stack; `frame_table_violated` shows what happens
otherwise.) -/
theorem frame_table_partial (size : Nat) (es : List Event) (hm : ∀ f, Event.main f ∈ es → f.locals + f.need < size) :
    ∀ i ∈ (run size es).frames, 0 ≤ i ∧ i < 100 := by
  have key : ∀ (es : List Event) (v : Vm), Inv v → FramesOk v → (∀ f, Event.main f ∈ es → f.locals + f.need < v.size) →
      FramesOk (es.foldl step v) := by
    intro es
    induction es with
    | nil => exact fun v _ h _ => h
    | cons e es ih =>
      intro v hi h hm
      refine ih _ (inv_step v e hi) (frames_step v e hi h (fun f hf => hm f (hf ▸ List.mem_cons_self ..))) ?_
      intro f hf
      rw [step_size]
      exact hm f (List.mem_cons_of_mem _ hf)
  exact key es _ (inv_of_idle _ ⟨rfl, rfl, rfl⟩) (by intro i hi; simp at hi) hm

/-- How many more calls than returns a history contains. -/
def net : List Event → Int
  | [] => 0
  | .enter .. :: es => net es + 1
  | .leave :: es => net es - 1
  | _ :: es => net es

/-- The event does not come from the host. -/
def Inner : Event → Prop
  | .main _ => False
  | .host .. => False
  | _ => True

/-- Nesting is cut off: whatever happened before, if the script keeps running (in every prefix fewer returns than calls are made
below the functions already active) and gets more than 100 calls deep, then the run has ended in an error. The functions, their
arguments, and the order of calls and returns are arbitrary. -/
theorem recursion_cut_off (size : Nat) (before es : List Event) (hin : ∀ e ∈ es, Inner e)
    (hkeep : ∀ pre, pre <+: es → 0 < (run size before).live.length + net pre)
    (hdeep : 100 < (run size before).live.length + net es) :
    (run size (before ++ es)).err = true ∧ (run size (before ++ es)).live = [] := by
  have hrun : run size (before ++ es) = es.foldl step (run size before) := by
    unfold run; rw [List.foldl_append]
  rw [hrun]
  have hi := inv_run size before
  have h0 : 0 < (run size before).live.length + net [] := hkeep [] (List.nil_prefix)
  generalize run size before = v at hi hkeep hdeep h0
  -- once stopped, inner events change nothing
  have stopped : ∀ (es : List Event) (v : Vm), (∀ e ∈ es, Inner e) → v.live = [] → es.foldl step v = v := by
    intro es
    induction es with
    | nil => exact fun _ _ _ => rfl
    | cons e es ih =>
      intro v hin hl
      have : step v e = v := by
        cases e with
        | main f => exact (hin _ (List.mem_cons_self ..)).elim
        | host g n f => exact (hin _ (List.mem_cons_self ..)).elim
        | enter s g f => simp only [step]; rw [if_pos hl]
        | leave => simp only [step]; rw [hl]
        | write i => simp only [step]; rw [if_pos hl]
        | fail b => simp only [step]; rw [hl]
      rw [List.foldl_cons, this]
      exact ih v (fun e he => hin e (List.mem_cons_of_mem _ he)) hl
  have main : ∀ (es : List Event) (v : Vm), Inv v → (∀ e ∈ es, Inner e) → (∀ pre, pre <+: es → 0 < v.live.length + net pre) →
      ((es.foldl step v).err = true ∧ (es.foldl step v).live = []) ∨
      ((es.foldl step v).live.length = v.live.length + net es ∧ Inv (es.foldl step v) ∧ (es.foldl step v).live ≠ []) := by
    intro es
    induction es with
    | nil =>
      intro v hi _ hk
      have := hk [] List.nil_prefix
      exact .inr ⟨by simp [net], hi, fun e => by rw [List.foldl_nil] at e; rw [e] at this; simp [net] at this⟩
    | cons e es ih =>
      intro v hi hin hk
      have hv : v.live ≠ [] := fun h => by
        have := hk [] List.nil_prefix
        rw [h] at this; simp [net] at this
      have hb := hi.busy hv
      have hin' : ∀ e ∈ es, Inner e := fun e he => hin e (List.mem_cons_of_mem _ he)
      have hi' := inv_step v e hi
      -- continue when the event is accounted for
      have cont : ∀ d : Int, (∀ l, net (e :: l) = net l + d) → ((step v e).live.length : Int) = v.live.length + d →
          ((es.foldl step (step v e)).err = true ∧ (es.foldl step (step v e)).live = []) ∨
          (((es.foldl step (step v e)).live.length : Int) = v.live.length + net (e :: es) ∧ Inv (es.foldl step (step v e)) ∧
            (es.foldl step (step v e)).live ≠ []) := by
        intro d hd hl
        rcases ih (step v e) hi' hin' (fun pre hp => by
          have := hk (e :: pre) (List.cons_prefix_cons.2 ⟨rfl, hp⟩)
          rw [hd] at this; omega) with h | ⟨h1, h2, h3⟩
        · exact .inl h
        · exact .inr ⟨by rw [hd]; omega, h2, h3⟩
      rw [List.foldl_cons]
      cases e with
      | main f => exact (hin _ (List.mem_cons_self ..)).elim
      | host g n f => exact (hin _ (List.mem_cons_self ..)).elim
      | enter s g f =>
        have hs : step v (.enter s g f) =
            finish (enterFn { v with writes := upTo (s + g) (s + f.params) ++ v.writes } s f false) := by
          show (if v.live = [] then v else _) = _
          rw [if_neg hv]
        rcases enterFn_cases { v with writes := upTo (s + g) (s + f.params) ++ v.writes } s f false hb.2.2 with h | ⟨h1, h2, h3, h4, h5⟩
        · have hf := finish_err _ h
          rw [← hs] at hf
          rw [stopped es _ hin' hf.1]
          exact .inl ⟨hf.2.2.2, hf.1⟩
        · refine cont 1 (fun l => rfl) ?_
          rw [hs, finish_ok _ h1 (by rw [h4]; simp), h4, List.length_cons]
          simp only [Int.natCast_add, Int.cast_ofNat_Int]
      | leave =>
        refine cont (-1) (fun l => rfl) ?_
        have hk1 := hk [.leave] (List.cons_prefix_cons.2 ⟨rfl, List.nil_prefix⟩)
        simp only [net] at hk1
        cases hl : v.live with
        | nil => exact absurd hl hv
        | cons x rest =>
          rw [hl, List.length_cons] at hk1
          have hr : rest ≠ [] := fun h => by rw [h] at hk1; simp at hk1
          have hs : step v .leave = { pop v with live := rest } := by
            simp only [step]
            rw [hl]
            exact finish_ok _ hb.2.2 hr
          rw [hs, List.length_cons]
          simp only [Int.natCast_add, Int.cast_ofNat_Int]
          omega
      | write i =>
        refine cont 0 (fun l => by simp [net]) ?_
        have hs : step v (.write i) = { v with writes := i :: v.writes } := by
          show (if v.live = [] then v else _) = _
          rw [if_neg hv]
        rw [hs]; simp
      | fail b =>
        cases hl : v.live with
        | nil => exact absurd hl hv
        | cons x rest =>
          have hs : step v (.fail b) = finish { (if b then pop v else v) with err := true } := by
            simp only [step]; rw [hl]
          have hf := finish_err { (if b then pop v else v) with err := true } rfl
          rw [← hs] at hf
          rw [stopped es _ hin' hf.1]
          exact .inl ⟨hf.2.2.2, hf.1⟩
  rcases main es v hi hin hkeep with h | ⟨h1, h2, h3⟩
  · exact h
  · have hb := h2.busy h3
    have h4 : (es.foldl step v).cur ≤ 100 := hb.2.1
    have h5 := hb.1
    split at h5 <;> omega

/-- The machine is usable again after any run that has ended, also one cut off: it is at frame 0 and accepts a call. -/
theorem usable_after_end (size : Nat) (es : List Event) (h : (run size es).live = []) (f : Fn) (hf : f.locals + f.need < size) :
    (run size (es ++ [.main f])).live = [(0, f)] ∧ (run size (es ++ [.main f])).err = false := by
  have hs : (run size es).size = size := by
    have : ∀ (es : List Event) (v : Vm), (es.foldl step v).size = v.size := by
      intro es
      induction es with
      | nil => exact fun _ => rfl
      | cons e es ih => exact fun v => (ih _).trans (step_size v e)
    exact this es _
  have hr : run size (es ++ [.main f]) = step (run size es) (.main f) := by
    unfold run; rw [List.foldl_append]; rfl
  have hc := (inv_run size es).idle h
  rw [hr]
  have he : step (run size es) (.main f) = finish (enterFn { run size es with err := false } 0 f true) := by
    show (if (run size es).live = [] then _ else _) = _
    rw [if_pos h]
  have h2 : enterFn { run size es with err := false } 0 f true =
      { run size es with err := false, frames := (run size es).cur :: (run size es).frames, cur := (run size es).cur + 1,
                         live := (0, f) :: (run size es).live } := by
    unfold enterFn
    rw [if_neg (by simp only [hc.1]; decide), if_neg (by simp only [hs]; omega)]
    rfl
  rw [he, h2, finish_ok _ rfl (by simp)]
  simp [h]

/-- A function that calls itself: `function f(a){ f(a) }`, called from the main function. -/
def exRec (n : Nat) : List Event := (List.range n).map fun k => .enter (10 + k) 1 ⟨1, 1, 1⟩

theorem exRec_net (n : Nat) : net (exRec n) = n := by
  have : ∀ (l : List Nat), net (l.map fun k => Event.enter (10 + k) 1 ⟨1, 1, 1⟩) = l.length := by
    intro l
    induction l with
    | nil => rfl
    | cons a l ih => rw [List.map_cons, net, ih, List.length_cons]; simp
  rw [exRec, this]; simp

-- `recursion_cut_off`: a run of the main function, then a recursion of any depth beyond 100
example (n : Nat) (hn : 100 ≤ n) : (run 1000 ([.main ⟨0, 2, 5⟩] ++ exRec n)).err = true := by
  refine (recursion_cut_off 1000 [.main ⟨0, 2, 5⟩] (exRec n) ?_ ?_ ?_).1
  · intro e he
    obtain ⟨k, -, rfl⟩ := List.mem_map.1 he
    trivial
  · intro pre hp
    have hl : (run 1000 [.main ⟨0, 2, 5⟩]).live.length = 1 := by decide
    rw [hl]
    have : ∀ l : List Event, (∀ e ∈ l, ∃ k, e = Event.enter (10 + k) 1 ⟨1, 1, 1⟩) → 0 ≤ net l := by
      intro l
      induction l with
      | nil => exact fun _ => Int.le_refl 0
      | cons e l ih =>
        intro h
        obtain ⟨k, rfl⟩ := h e (List.mem_cons_self ..)
        have := ih (fun e he => h e (List.mem_cons_of_mem _ he))
        simp only [net]; omega
    have := this pre (fun e he => by
      obtain ⟨k, -, rfl⟩ := List.mem_map.1 (hp.subset he)
      exact ⟨k, rfl⟩)
    omega
  · have hl : (run 1000 [.main ⟨0, 2, 5⟩]).live.length = 1 := by decide
    rw [hl, exRec_net]; omega

-- `frame_table_partial`: a program that fits, 120 calls deep
example : ∀ i ∈ (run 1000 ([.main ⟨0, 2, 5⟩] ++ exRec 120)).frames, 0 ≤ i ∧ i < 100 :=
  frame_table_partial 1000 _ (by
    intro f hf
    rw [List.mem_append, List.mem_singleton] at hf
    rcases hf with h | h
    · cases h; decide
    · obtain ⟨k, -, h⟩ := List.mem_map.1 h
      cases h)

/-- The full claim about the frame table. -/
def FrameTable : Prop := ∀ (size : Nat) (es : List Event), ∀ i ∈ (run size es).frames, 0 ≤ i ∧ i < 100

/-- It fails for a main function that does not fit in the stack: with the default stack of 256 elements and, say, 300 global variables, the
error path pops the frame before the first one. -/
theorem frame_table_violated : ¬ FrameTable := by
  intro h
  have := h 256 [.main ⟨0, 300, 5⟩] (-1) (by decide)
  exact absurd this (by decide)

/-! ## C58: the operand stack -/

/-- The end of what the running function has reserved on the operand stack. -/
def top (v : Vm) : Nat := match v.live with
  | [] => 0
  | (start, f) :: _ => start + f.locals + f.need

/-- Conditions on an event: the running function writes within its reserve; the arguments, *including the default values of
missing ones*, lie within the reserve of the caller (for a call from the host: within the stack); and the variables of the called
function lie within the stack. -/
def Within (v : Vm) : Event → Prop
  | .main f => f.locals < v.size
  | .host g n f => g + n ≤ v.size ∧ g + f.locals < v.size
  | .enter start _ f => start + f.params ≤ top v ∧ start + f.locals < v.size
  | .write i => i < top v
  | _ => True

def WithinAll (v : Vm) : List Event → Prop
  | [] => True
  | e :: es => Within v e ∧ WithinAll (step v e) es

theorem mem_upTo (a b i : Nat) : i ∈ upTo a b ↔ a ≤ i ∧ i < b := by
  simp only [upTo, List.mem_map, List.mem_range]
  constructor
  · rintro ⟨k, hk, rfl⟩; omega
  · rintro ⟨h1, h2⟩; exact ⟨i - a, by omega, by omega⟩

/-- Every live function fits. -/
def Fits (v : Vm) : Prop := ∀ x ∈ v.live, x.1 + x.2.locals + x.2.need < v.size

theorem fits_enter (v : Vm) (s : Nat) (f : Fn) (b : Bool) (h : Fits v) (hw : ∀ i ∈ v.writes, i < v.size) (hl : s + f.locals < v.size) :
    Fits (finish (enterFn v s f b)) ∧ ∀ i ∈ (finish (enterFn v s f b)).writes, i < (finish (enterFn v s f b)).size := by
  have hsz : (enterFn v s f b).size = v.size := by
    unfold enterFn
    split
    · rfl
    · split <;> rfl
  have hwr : ∀ i ∈ (enterFn v s f b).writes, i < v.size := by
    unfold enterFn
    split
    · exact hw
    · split
      · intro i hi
        simp only [pop, List.mem_cons] at hi
        rcases hi with rfl | hi
        · exact hl
        · exact hw i hi
      · intro i hi
        simp only [List.mem_append] at hi
        rcases hi with hi | hi
        · cases b with
          | true => simp at hi
          | false =>
            simp only [Bool.false_eq_true, if_false, mem_upTo] at hi
            omega
        · exact hw i hi
  have hft : Fits (enterFn v s f b) := by
    unfold enterFn Fits
    split
    · exact h
    · split
      · exact h
      · rename_i hs
        intro x hx
        simp only [List.mem_cons] at hx
        rcases hx with rfl | hx
        · simp only; omega
        · exact h x hx
  constructor
  · intro x hx
    rw [(finish_rest _).1, hsz]
    unfold finish at hx
    split at hx
    · simp at hx
    · split at hx
      · have := hft x hx; rw [hsz] at this; exact this
      · have := hft x hx; rw [hsz] at this; exact this
  · rw [(finish_rest _).1, (finish_rest _).2, hsz]
    exact hwr

/-- Everything that is written to the operand stack lies inside it, in every history. (Partial: under the conditions `Within`. That the
running function stays within its reserve is C30. The other two conditions are not checked by the program:
`stack_defaults_violated`, `stack_refused_violated`.) -/
theorem stack_bounds_partial (size : Nat) (es : List Event) (h : WithinAll { size := size } es) :
    ∀ i ∈ (run size es).writes, i < size := by
  have key : ∀ (es : List Event) (v : Vm), Fits v → (∀ i ∈ v.writes, i < v.size) → WithinAll v es →
      ∀ i ∈ (es.foldl step v).writes, i < v.size := by
    intro es
    induction es with
    | nil => exact fun v _ h _ => h
    | cons e es ih =>
      intro v hf hw hall i hi
      have htop : ∀ i, i < top v → i < v.size := by
        intro i hi
        unfold top at hi
        cases hl : v.live with
        | nil => rw [hl] at hi; simp at hi
        | cons x rest =>
          rw [hl] at hi
          have := hf x (hl ▸ List.mem_cons_self ..)
          simp only at hi
          omega
      have hstep : Fits (step v e) ∧ ∀ i ∈ (step v e).writes, i < (step v e).size := by
        have hwi := hall.1
        cases e with
        | main f =>
          simp only [step]
          split
          · exact fits_enter { v with err := false } _ _ _ hf hw (by simpa [Within] using hwi)
          · exact ⟨hf, hw⟩
        | host g n f =>
          simp only [Within] at hwi
          simp only [step]
          split
          · refine fits_enter { v with err := false, cur := 1, fromHost := true, writes := upTo g (g + n) ++ v.writes } _ _ _ hf ?_ hwi.2
            intro j hj
            simp only [List.mem_append, mem_upTo] at hj
            rcases hj with hj | hj
            · simp only; omega
            · exact hw j hj
          · exact ⟨hf, hw⟩
        | enter s g f =>
          simp only [Within] at hwi
          simp only [step]
          split
          · exact ⟨hf, hw⟩
          · refine fits_enter { v with writes := upTo (s + g) (s + f.params) ++ v.writes } _ _ _ hf ?_ hwi.2
            intro j hj
            simp only [List.mem_append, mem_upTo] at hj
            rcases hj with hj | hj
            · exact htop j (by omega)
            · exact hw j hj
        | leave =>
          simp only [step]
          cases hl : v.live with
          | nil => exact ⟨hf, hw⟩
          | cons x rest =>
            simp only []
            constructor
            · intro y hy
              rw [(finish_rest _).1]
              refine hf y ?_
              rw [hl]
              by_cases he : v.err = true
              · rw [(finish_err { pop v with live := rest } he).1] at hy; simp at hy
              · unfold finish at hy
                have he' : ¬ (pop v).err = true := he
                simp only [if_neg he'] at hy
                split at hy <;> exact List.mem_cons_of_mem _ hy
            · rw [(finish_rest _).1, (finish_rest _).2]; exact hw
        | write k =>
          simp only [step]
          split
          · exact ⟨hf, hw⟩
          · refine ⟨hf, fun j hj => ?_⟩
            simp only [List.mem_cons] at hj
            rcases hj with rfl | hj
            · exact htop j hwi
            · exact hw j hj
        | fail b =>
          simp only [step]
          cases hl : v.live with
          | nil => exact ⟨hf, hw⟩
          | cons x rest =>
            have hfe := finish_err { (if b then pop v else v) with err := true } rfl
            constructor
            · intro y hy
              simp only [hfe.1] at hy
              simp at hy
            · rw [(finish_rest _).1, (finish_rest _).2]
              cases b <;> exact hw
      have := ih (step v e) hstep.1 hstep.2 hall.2 i hi
      rwa [step_size] at this
  exact key es _ (fun x hx => by simp at hx) (fun i hi => by simp at hi) h

-- the main function calls `f(1)`, where `function f(a, b = 2)`; one more value was reserved by the caller
example : ∀ i ∈ (run 256 [.main ⟨0, 2, 5⟩, .write 2, .enter 2 1 ⟨2, 3, 4⟩, .write 5, .leave]).writes, i < 256 :=
  stack_bounds_partial 256 _ ⟨by unfold Within; decide, by unfold Within; decide, by unfold Within; decide, by unfold Within; decide, trivial, trivial⟩

/-- The full claim: if the running function always writes within its own reserve, nothing is written outside the stack. -/
def StackBounds : Prop :=
  ∀ (size : Nat) (es : List Event), (∀ i, Event.write i ∉ es) → ∀ i ∈ (run size es).writes, i < size

/-- Default values are pushed before the called function's space is checked: a function with 20 parameters that have default values,
called near the end of the stack. -/
theorem stack_defaults_violated : ¬ StackBounds ∧ (run 256 [.main ⟨0, 240, 5⟩, .enter 241 0 ⟨20, 20, 1⟩]).writes.contains 256 := by
  refine ⟨fun h => ?_, by decide⟩
  have := h 256 [.main ⟨0, 240, 5⟩, .enter 241 0 ⟨20, 20, 1⟩] (by simp) 260 (by decide)
  exact absurd this (by decide)

/-- The refusal of a call writes one element after the called function's variables, also when those do not fit. -/
theorem stack_refused_violated : ¬ StackBounds := by
  intro h
  have := h 256 [.main ⟨0, 300, 5⟩] (by simp) 300 (by decide)
  exact absurd this (by decide)

end Verif.Vm.Depth
