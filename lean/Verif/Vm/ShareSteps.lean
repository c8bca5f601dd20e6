import Verif.Vm.ShareLemmas
/-
Each operation of the share manager preserves the invariant.
-/
namespace Verif.Share
open Verif Verif.Ring

theorem nullify_id {h : Heap} {o : Nat} (e : h.next o = none ∧ h.prev o = none) : nullify h o = h := by
  cases h with
  | mk n p =>
    simp only [nullify, Heap.setNext, Heap.setPrev, Heap.mk.injEq]
    constructor <;> funext x <;> by_cases hx : x = o <;> simp_all

theorem Inv.notIn {s ext pend D} (I : Inv s ext pend D) {o : Nat} (h : s.info o = none) : ∀ b, o ∉ pend b := by
  intro b hb
  have := I.mem b o hb
  rw [h] at this; cases this

theorem Inv.notIn' {s ext pend D} (I : Inv s ext pend D) {o : Nat} (h : 0 < sh s o) : ∀ b, o ∉ pend b := by
  intro b hb
  have := (I.pnd o).1 ⟨b, hb⟩
  omega

theorem mem_upd {m : Lists} {b o : Nat} {x c : Nat} :
    x ∈ m.update b (m b ++ [o]) c ↔ x ∈ m c ∨ (x = o ∧ c = b) := by
  by_cases h : c = b
  · subst h; rw [upd_self]; simp
  · rw [upd_ne _ _ h]; simp [h]

theorem mem_erase {m : Lists} {b o : Nat} (hn : ∀ c, (m c).Nodup) (hd : ∀ c, o ∈ m c → c = b) {x c : Nat} :
    x ∈ m.update b ((m b).erase o) c ↔ x ∈ m c ∧ x ≠ o := by
  by_cases h : c = b
  · subst h; rw [upd_self, (hn c).mem_erase_iff]; exact And.comm
  · rw [upd_ne _ _ h]
    constructor
    · intro hx; exact ⟨hx, by intro e; subst e; exact h (hd c hx)⟩
    · exact And.left

theorem create_inv {s ext pend o b} (I : Inv s ext pend []) (hl : o ∈ s.live) (hc : s.const o = false)
    (hi : s.info o = none) :
    ∃ h d, create s o b = .ok ((s.setList b h d).setInfo o (some ⟨0, b⟩)) ∧
      Inv ((s.setList b h d).setInfo o (some ⟨0, b⟩)) ext (pend.update b (pend b ++ [o])) [] := by
  have hn := I.notIn hi
  obtain ⟨h, d, e, R⟩ := I.rings.insert I.mem hn b
  refine ⟨h, d, ?_, ?_⟩
  · simp only [create, hl, not_true, if_false, hc, Bool.false_eq_true, hi, nullify_id (I.rings.out o hn)]
    simp [e, Out.bind]
  · have hs : ∀ x, sh ((s.setList b h d).setInfo o (some ⟨0, b⟩)) x = sh s x := by
      intro x
      rw [sh_set]
      by_cases hx : x = o
      · subst hx; simp [sh, hi]
      · rw [if_neg hx]; rfl
    constructor
    · exact I.nodup
    · exact List.nodup_nil
    · intro x; rw [hs]; exact I.acc x
    · intro x j hj
      simp only [S.setInfo] at hj
      by_cases hx : x = o
      · subst hx
        rw [if_pos rfl] at hj
        injection hj with hj
        subst hj
        exact ⟨hl, hc, by simp⟩
      · rw [if_neg hx] at hj; exact I.man x j hj
    · exact R
    · intro x
      rw [hs]
      simp only [mem_upd]
      constructor
      · rintro ⟨c, h | ⟨rfl, rfl⟩⟩
        · have := (I.pnd x).1 ⟨c, h⟩
          have hne : x ≠ o := by intro e; subst e; rw [hi] at this; simp at this
          simpa [S.setInfo, S.setList, hne] using this
        · simp [S.setInfo, sh, hi]
      · rintro ⟨a, b', _⟩
        by_cases hx : x = o
        · exact ⟨b, .inr ⟨hx, rfl⟩⟩
        · obtain ⟨c, hc⟩ := (I.pnd x).2 ⟨by simpa [S.setInfo, S.setList, hx] using a, b', by simp⟩
          exact ⟨c, .inl hc⟩
    · intro x hx; cases hx

theorem share_inv {s pend o i} {ext ext' : Nat → Nat} (I : Inv s ext pend []) (hi : s.info o = some i)
    (hm : i.shares < 65535) (hh : i.shares = 0 → o ∈ pend i.home)
    (he : ext' o = ext o + 1) (hx : ∀ x, x ≠ o → ext' x = ext x) :
    ∃ s' pend', share s o = .ok s' ∧ Inv s' ext' pend' [] ∧ (∀ x c, x ∈ pend' c ↔ x ∈ pend c ∧ x ≠ o) ∧
      s'.live = s.live ∧ s'.kids = s.kids ∧ s'.const = s.const ∧
      s'.info = (s.setInfo o (some { i with shares := i.shares + 1 })).info := by
  have hman := I.man o i hi
  have ho : (s.info o).isSome := by simp [hi]
  have hs : sh s o = i.shares := by simp [sh, hi]
  have hmod : (i.shares + 1) % 65536 = i.shares + 1 := Nat.mod_eq_of_lt (by omega)
  let s1 := s.setInfo o (some { i with shares := i.shares + 1 })
  have key : ∀ (pend' : Lists) (h : Heap) (d : Nat → Hdr), Rings h d pend' → (∀ x c, x ∈ pend' c ↔ x ∈ pend c ∧ x ≠ o) →
      Inv { s1 with heap := h, hdr := d } ext' pend' [] := by
    intro pend' h d R hp
    have hsh : ∀ x, sh { s1 with heap := h, hdr := d } x = if x = o then i.shares + 1 else sh s x :=
      fun x => sh_set s o x { i with shares := i.shares + 1 }
    constructor
    · exact I.nodup
    · exact List.nodup_nil
    · intro x
      rw [hsh]
      show _ = ext' x + occ s [] x
      have := I.acc x
      by_cases h : x = o
      · subst h; rw [if_pos rfl]; omega
      · rw [if_neg h, hx x h]; exact this
    · intro x j hj
      show x ∈ s.live ∧ s.const x = false ∧ _
      simp only [s1, S.setInfo] at hj
      by_cases h : x = o
      · subst h
        rw [if_pos rfl] at hj
        injection hj with hj
        subst hj
        exact ⟨hman.1, hman.2.1, by simp; omega⟩
      · rw [if_neg h] at hj; exact I.man x j hj
    · exact R
    · intro x
      rw [hsh]
      have hq : ({ s1 with heap := h, hdr := d } : S).info x = s1.info x := rfl
      rw [hq, show (s1.info x).isSome = (s.info x).isSome from isSome_set _ _ _ _ ho]
      simp only [hp]
      by_cases h : x = o
      · subst h; simp
      · simp only [h, not_false_eq_true, and_true, if_false, I.pnd, ne_eq]
    · intro x hx; cases hx
  by_cases h0 : i.shares = 0
  · have hin := hh h0
    obtain ⟨h, d, e, R⟩ := Rings.detach (s := s1) I.rings (by
      intro b x hx
      rw [show (s1.info x).isSome = (s.info x).isSome from isSome_set _ _ _ _ ho]
      exact I.mem b x hx) hin
    refine ⟨s1.setList i.home h d, pend.update i.home ((pend i.home).erase o), ?_, ?_, ?_, rfl, rfl, rfl, rfl⟩
    · simp only [share, hman.1, hman.2.1, hi, not_true, if_false, Bool.false_eq_true, hmod, h0, if_true]
      have : s1 = s.setInfo o (some { i with shares := 0 + 1 }) := by simp [s1, h0]
      rw [this] at e ⊢
      exact e
    · exact key _ _ _ R fun x c => mem_erase (fun c => (I.rings.ring c).nodup) (fun c hc => I.rings.disj c _ o hc hin)
    · exact fun x c => mem_erase (fun c => (I.rings.ring c).nodup) (fun c hc => I.rings.disj c _ o hc hin)
  · have hni := I.notIn' (o := o) (by omega)
    have hp : ∀ x c, x ∈ pend c ↔ x ∈ pend c ∧ x ≠ o := by
      intro x c
      constructor
      · intro h; exact ⟨h, by intro e; subst e; exact hni c h⟩
      · exact And.left
    refine ⟨s1, pend, ?_, key pend _ _ I.rings hp, hp, rfl, rfl, rfl, rfl⟩
    simp only [share, hman.1, hman.2.1, hi, not_true, if_false, Bool.false_eq_true, hmod, h0]
    rfl

/-- Elements of `p` and external holders change so that every object keeps its number of holders. -/
theorem kids_inv {s pend p} {l : List Nat} {ext ext' : Nat → Nat} (I : Inv s ext pend []) (hp : p ∈ s.live)
    (hx : ∀ x, ext x + (s.kids p).count x = ext' x + l.count x) : Inv (s.setKids p l) ext' pend [] := by
  have hocc : ∀ x, occ (s.setKids p l) [p] x = occ s [p] x := by
    intro x
    unfold occ
    congr 1
    show ((s.live.filter _).flatMap _) = _
    rw [List.flatMap_def, List.flatMap_def]
    congr 1
    apply List.map_congr_left
    intro y hy
    simp at hy
    simp [S.setKids, hy.2]
  constructor
  · exact I.nodup
  · exact List.nodup_nil
  · intro x
    show sh s x = _
    have h1 := I.acc x
    rw [occ_split I.nodup hp (by simp)] at h1
    rw [occ_split (s := s.setKids p l) I.nodup hp (by simp), hocc]
    have : (s.setKids p l).kids p = l := by simp [S.setKids]
    rw [this]
    have := hx x
    omega
  · exact I.man
  · exact I.rings
  · exact I.pnd
  · intro x hx; cases hx

/-- Giving back a share into a block. -/
theorem unref_block_inv {s pend o b} {ext ext' : Nat → Nat} (I : Inv s ext pend []) (he : ext o = ext' o + 1)
    (hx : ∀ x, x ≠ o → ext x = ext' x) (fuel : Nat) :
    ∃ s' pend', unref fuel s o (some b) = some (.ok s') ∧ Inv s' ext' pend' [] ∧
      (∀ x c, x ∈ pend' c ↔ x ∈ pend c ∨ (x = o ∧ c = b ∧ ext' o + occ s [] o = 0)) ∧
      s'.live = s.live ∧ s'.kids = s.kids ∧ s'.const = s.const ∧
      (∀ x, (s'.info x).map (·.home) = (s.info x).map (·.home)) := by
  obtain ⟨i, hi, hl, hp⟩ := I.held (o := o) (by omega)
  have hman := I.man o i hi
  have hs : sh s o = i.shares := by simp [sh, hi]
  have hacc := I.acc o
  have hhome : ∀ (k : Nat) x, (((s.setInfo o (some { i with shares := k })).info x).map (·.home)) = (s.info x).map (·.home) := by
    intro k x
    simp only [S.setInfo]
    by_cases h : x = o
    · subst h; simp [hi]
    · simp [h]
  by_cases h1 : i.shares = 1
  · obtain ⟨a1, a2, a3, a4, a5, a6, a7, a8⟩ := I.last hi h1 he hx
    let s1 := s.setInfo o (some { i with shares := 0 })
    obtain ⟨h, d, e, R⟩ := Rings.insert (s := s1) a6 (by
      intro c x hxc
      exact ((a7 x).1 ⟨c, hxc⟩).1) a1 b
    have hcond : ext' o + occ s [] o = 0 := by omega
    refine ⟨s1.setList b h d, pend.update b (pend b ++ [o]), ?_, ?_, ?_, rfl, rfl, rfl, hhome 0⟩
    · simp only [unref, hl, not_true, if_false, hman.2.1, hi, h1, Bool.false_eq_true]
      simpa [h1, s1] using e
    · constructor
      · exact a3
      · exact List.nodup_nil
      · exact a4
      · exact a5
      · exact R
      · intro x
        simp only [mem_upd]
        show _ ↔ ((s1.info x).isSome ∧ sh s1 x = 0 ∧ _)
        constructor
        · rintro ⟨c, h | ⟨rfl, rfl⟩⟩
          · have := (a7 x).1 ⟨c, h⟩
            exact ⟨this.1, this.2.1, by simp⟩
          · refine ⟨by simp [s1, S.setInfo], ?_, by simp⟩
            show sh (s.setInfo x _) x = 0
            rw [sh_set]; simp
        · rintro ⟨u, v, _⟩
          by_cases hx : x = o
          · exact ⟨b, .inr ⟨hx, rfl⟩⟩
          · obtain ⟨c, hc⟩ := (a7 x).2 ⟨u, v, by simp, hx⟩
            exact ⟨c, .inl hc⟩
      · intro x hx; cases hx
    · intro x c
      rw [mem_upd]
      simp [hcond]
  · have I2 := I.less hi (by omega) he hx
    have hcond : ¬ (ext' o + occ s [] o = 0) := by omega
    refine ⟨_, pend, ?_, I2, ?_, rfl, rfl, rfl, hhome _⟩
    · have h0 : ¬ i.shares = 0 := by omega
      have h2 : ¬ i.shares - 1 = 0 := by omega
      simp only [unref, hl, not_true, if_false, hman.2.1, hi, h0, h2, Bool.false_eq_true]
    · intro x c; simp only [hcond, and_false, or_false]

theorem unref_null_inv {s pend o} {ext ext' : Nat → Nat} (I : Inv s ext pend []) (he : ext o = ext' o + 1)
    (hx : ∀ x, x ≠ o → ext x = ext' x) {fuel : Nat} (hf : 2 * total s ≤ fuel) :
    ∃ s', unref fuel s o none = some (.ok s') ∧ Inv s' ext' pend [] ∧ Le (fun _ => false) s s' ∧ total s' ≤ total s := by
  have hE : (fun x => ext' x + (us [.unref o]).count x) = ext := by
    funext x
    by_cases h : x = o
    · subst h; simp [us, he]
    · simp [us, hx x h, Ne.symm h]
  obtain ⟨s', e, I', L, t, _⟩ := drain_inv fuel s [.unref o] ext' pend (by
    rw [hE]; simpa [fs] using I) (by simpa [fs] using hf)
  exact ⟨s', e, I', L, t⟩

/-- An object that is in no container is not reached by destruction. -/
theorem drain_other : ∀ (fuel : Nat) (s s' : S) (W : List Work) (x : Nat), drain fuel s W = some (.ok s') →
    x ∈ s.live → x ∉ us W → x ∉ fs W → (∀ p, p ∈ s.live → x ∉ s.kids p) → x ∈ s'.live ∧ s'.info x = s.info x := by
  intro fuel
  induction fuel with
  | zero =>
    intro s s' W x h hl hu hf hk
    cases W with
    | nil => simp [drain] at h; subst h; exact ⟨hl, rfl⟩
    | cons w W => simp [drain] at h
  | succ fuel ih =>
    intro s s' W x h hl hu hf hk
    cases W with
    | nil => simp [drain] at h; subst h; exact ⟨hl, rfl⟩
    | cons w W =>
      cases w with
      | unref o =>
        have hne : x ≠ o := by intro e; subst e; simp [us] at hu
        have hu' : x ∉ us W := by intro h; apply hu; simp [us] at h ⊢; exact .inr h
        have hf' : x ∉ fs W := by intro h; apply hf; simpa [fs] using h
        rw [drain] at h
        split at h
        · cases h
        · rename_i hlo
          split at h
          · cases h
          · cases hi : s.info o with
            | none => rw [hi] at h; cases h
            | some i =>
              rw [hi] at h
              simp only at h
              split at h
              · cases h
              · split at h
                · have := ih (s.setInfo o _) s' _ x h hl (by
                    rw [us_deletion]
                    intro hm
                    rcases List.mem_append.1 hm with hm | hm
                    · exact hk o (by simpa using hlo) (List.mem_filter.1 hm).1
                    · exact hu' hm) (by rw [fs_deletion]; simp [hne, hf']) hk
                  refine ⟨this.1, this.2.trans ?_⟩
                  simp [S.setInfo, hne]
                · have := ih (s.setInfo o _) s' _ x h hl hu' hf' hk
                  refine ⟨this.1, this.2.trans ?_⟩
                  simp [S.setInfo, hne]
      | free o =>
        have hne : x ≠ o := by intro e; subst e; simp [fs] at hf
        have hu' : x ∉ us W := by intro h; apply hu; simpa [us] using h
        have hf' : x ∉ fs W := by intro h; apply hf; simp [fs] at h ⊢; exact .inr h
        rw [drain] at h
        split at h
        · cases h
        · have := ih (({ s with live := s.live.erase o } : S).setInfo o none) s' W x h
            ((List.mem_erase_of_ne hne).2 hl) hu' hf' (fun p hp => hk p (List.mem_of_mem_erase hp))
          refine ⟨this.1, this.2.trans ?_⟩
          simp [S.setInfo, hne]

/-- One object of the list is removed. -/
theorem sweep_one {s pend c b} {ext : Nat → Nat} (I : Inv s ext pend []) (hc : c ∈ pend b) (ret : Nat → Bool) {fuel : Nat}
    (hf : 2 * total s + 1 ≤ fuel) :
    ∃ s1, detachNode s b c = .ok s1 ∧ c ∈ s1.live ∧
      ∃ s2, (if ret c then some (.ok (s1.setInfo c none)) else drain fuel s1 (deletion s1 c)) = some (.ok s2) ∧
        Inv s2 ext (pend.update b ((pend b).erase c)) [] ∧ Le ret s s2 ∧ total s2 ≤ total s ∧
        (ret c = false → c ∉ s2.live) ∧ (ret c = true → c ∈ s2.live ∧ s2.info c = none) ∧
        (∀ x, x ∈ s.live → x ≠ c → (∀ p, p ∈ s.live → x ∉ s.kids p) → x ∈ s2.live) := by
  obtain ⟨h, d, e, R⟩ := I.rings.detach I.mem hc
  have hpn := (I.pnd c).1 ⟨b, hc⟩
  have hl := I.live hpn.1
  have hme : ∀ x q, x ∈ pend.update b ((pend b).erase c) q ↔ x ∈ pend q ∧ x ≠ c :=
    fun x q => mem_erase (fun c => (I.rings.ring c).nodup) (fun q hq => I.rings.disj q _ c hq hc)
  refine ⟨_, e, hl, ?_⟩
  by_cases hr : ret c = true
  · refine ⟨(s.setList b h d).setInfo c none, by simp [hr], ?_, ?_, ?_, by simp [hr], ?_⟩
    · have hs : ∀ x, sh ((s.setList b h d).setInfo c none) x = sh s x := by
        intro x
        rw [sh_none]
        by_cases hx : x = c
        · subst hx; rw [if_pos rfl, hpn.2.1]
        · rw [if_neg hx]; rfl
      constructor
      · exact I.nodup
      · exact List.nodup_nil
      · intro x; rw [hs]; exact I.acc x
      · intro x j hj
        simp only [S.setInfo] at hj
        by_cases hx : x = c
        · subst hx; rw [if_pos rfl] at hj; cases hj
        · rw [if_neg hx] at hj; exact I.man x j hj
      · exact R
      · intro x
        rw [hs]
        simp only [hme]
        by_cases hx : x = c
        · subst hx; simp [S.setInfo]
        · simp only [hx, not_false_eq_true, and_true, I.pnd, ne_eq]
          simp [S.setInfo, S.setList, hx]
      · intro x hx; cases hx
    · refine ⟨rfl, rfl, fun _ h => h, ?_, ?_, fun x _ h hx => by
        have : x ≠ c := by intro e; subst e; rw [hr] at hx; cases hx
        simpa [S.setInfo, S.setList, this] using h⟩
      · intro x hx hn
        exact ⟨hx, by simp [S.setInfo, S.setList, hn]⟩
      · intro x j hj
        simp only [S.setInfo] at hj
        by_cases hx : x = c
        · subst hx; rw [if_pos rfl] at hj; cases hj
        · rw [if_neg hx] at hj; exact ⟨j, hj, rfl⟩
    · have : total ((s.setList b h d).setInfo c none) = total s := by
        unfold total
        show (s.live.map _).sum = _
        congr 1
        apply List.map_congr_left
        intro x _
        rw [sh_none]
        by_cases hx : x = c
        · subst hx; rw [if_pos rfl, hpn.2.1]
        · rw [if_neg hx]; rfl
      omega
    · exact ⟨fun _ => ⟨hl, by simp [S.setInfo]⟩, fun x hx _ _ => hx⟩
  · have hr' : ret c = false := by simpa using hr
    have I1 := Inv.die (W := []) (o := c) (ext := ext) (pend' := pend.update b ((pend b).erase c)) (h := h)
      (d := (s.setList b h d).hdr) (by simpa [us] using I) hpn.1 hpn.2.1 (by simp) R (by
        intro x
        simp only [hme]
        constructor
        · rintro ⟨q, h1, h2⟩; exact ⟨⟨q, h1⟩, h2⟩
        · rintro ⟨⟨q, h1⟩, h2⟩; exact ⟨q, h1, h2⟩)
    rw [List.append_nil] at I1
    have hfd : fs (deletion s c) = [c] := by
      have := fs_deletion s c []
      simpa [fs] using this
    obtain ⟨s', e', I', L, t, dd, _⟩ := drain_inv fuel (s.setList b h d) (deletion s c) ext
      (pend.update b ((pend b).erase c)) (by rw [hfd]; exact I1) (by rw [hfd]; exact hf)
    have hL : Le ret s (s.setList b h d) :=
      ⟨rfl, rfl, fun _ h => h, fun _ h h' => ⟨h, h'⟩, fun _ j h => ⟨j, h, rfl⟩, fun _ _ h _ => h⟩
    refine ⟨s', ?_, I', hL.trans L.weaken, t, fun _ => dd c (by rw [hfd]; simp), by simp [hr'],
      fun x hx hne hk => (drain_other _ _ _ _ x e' hx (by
        have := us_deletion s c []
        rw [List.append_nil] at this
        rw [this]
        intro hm
        rcases List.mem_append.1 hm with hm | hm
        · exact hk c hl (List.mem_filter.1 hm).1
        · simp [us] at hm) (by rw [hfd]; simp [hne]) hk).1⟩
    rw [if_neg hr]
    exact e'

/-- The sweep of a block. -/
theorem sweepLoop_inv (b : Nat) (ret : Nat → Bool) : ∀ (r : List Nat) (fuel : Nat) (s : S) (ext : Nat → Nat) (pend : Lists) (c : Nat),
    Inv s ext pend [] → pend b = c :: r → 2 * total s + 2 + r.length ≤ fuel →
    ∃ s', sweepLoop b ret fuel s (some c) = some (.ok s') ∧ Inv s' ext (pend.update b []) [] ∧ Le ret s s' ∧
      total s' ≤ total s ∧
      (∀ o ∈ pend b, ret o = false → o ∉ s'.live) ∧ (∀ o ∈ pend b, ret o = true → o ∈ s'.live ∧ s'.info o = none) ∧
      (∀ x, x ∈ s.live → x ∉ pend b → (∀ p, p ∈ s.live → x ∉ s.kids p) → x ∈ s'.live) := by
  intro r
  induction r with
  | nil =>
    intro fuel s ext pend c I hb hf
    obtain ⟨fuel, rfl⟩ : ∃ k, fuel = k + 1 := ⟨fuel - 1, by simp at hf; omega⟩
    have hc : c ∈ pend b := by rw [hb]; simp
    obtain ⟨s1, e1, hl, s2, e2, I2, L2, t2, d2, k2, o2⟩ := sweep_one I hc ret (fuel := fuel) (by simp at hf; omega)
    have hring := I.rings.ring b
    have hfirst : (s.hdr b).first = some c := by rw [hring.first, hb]; rfl
    have hnext : s.heap.next c = some c := by
      rw [hb] at hring
      exact ring_succ (p := []) (s := []) hring
    have hpn := I.mem b c hc
    have hnone : (s.info c).isNone = false := by
      cases hi : s.info c with
      | none => rw [hi] at hpn; cases hpn
      | some i => rfl
    have her : (pend b).erase c = [] := by rw [hb]; simp
    rw [her] at I2
    refine ⟨s2, ?_, I2, L2, t2, ?_, ?_, fun x hx hn hk => o2 x hx (by rw [hb] at hn; simpa using hn) hk⟩
    · rw [sweepLoop]
      simp only [hnone, Bool.false_eq_true, if_false, e1, hl, not_true, e2, hnext, hfirst, if_true]
    · intro o ho
      rw [hb] at ho
      simp at ho
      subst ho
      exact d2
    · intro o ho
      rw [hb] at ho
      simp at ho
      subst ho
      exact k2
  | cons n r ih =>
    intro fuel s ext pend c I hb hf
    obtain ⟨fuel, rfl⟩ : ∃ k, fuel = k + 1 := ⟨fuel - 1, by simp at hf; omega⟩
    have hc : c ∈ pend b := by rw [hb]; simp
    obtain ⟨s1, e1, hl, s2, e2, I2, L2, t2, d2, k2, o2⟩ := sweep_one I hc ret (fuel := fuel) (by simp at hf; omega)
    have hring := I.rings.ring b
    have hfirst : (s.hdr b).first = some c := by rw [hring.first, hb]; rfl
    have hnd : c ≠ n := by
      have := hring.nodup
      rw [hb] at this
      intro e; subst e
      simp at this
    have hnext : s.heap.next c = some n := by
      rw [hb] at hring
      exact ring_succ (p := []) (s := n :: r) hring
    have hpn := I.mem b c hc
    have hnone : (s.info c).isNone = false := by
      cases hi : s.info c with
      | none => rw [hi] at hpn; cases hpn
      | some i => rfl
    have her : (pend b).erase c = n :: r := by rw [hb]; simp
    rw [her] at I2
    obtain ⟨s3, e3, I3, L3, t3, d3, k3, o3⟩ := ih fuel s2 ext _ n I2 (upd_self _ _ _) (by simp at hf; omega)
    have hupd : (pend.update b (n :: r)).update b [] = pend.update b [] := by
      funext q
      by_cases hq : q = b <;> simp [Lists.update, hq]
    rw [hupd] at I3
    rw [upd_self] at d3 k3 o3
    refine ⟨s3, ?_, I3, L2.trans L3, by omega, ?_, ?_, fun x hx hn hk => by
      rw [hb] at hn
      simp only [List.mem_cons, not_or] at hn
      exact o3 x (o2 x hx hn.1 hk) (by simp [hn.2]) (fun p hp => by rw [L2.kids]; exact hk p (L2.sub p hp))⟩
    · rw [sweepLoop]
      have hne : ¬ (some n = some c) := by intro h; injection h with h; exact hnd h.symm
      simp only [hnone, Bool.false_eq_true, if_false, e1, hl, not_true, e2, hnext, hfirst, hne, e3]
    · intro o ho hr
      rw [hb] at ho
      rcases List.mem_cons.1 ho with rfl | ho
      · exact fun h => d2 hr (L3.sub _ h)
      · exact d3 o ho hr
    · intro o ho hr
      rw [hb] at ho
      rcases List.mem_cons.1 ho with rfl | ho
      · have := k2 hr
        exact L3.keep _ this.1 this.2
      · exact k3 o ho hr

theorem sweep_inv {s pend} {ext : Nat → Nat} (I : Inv s ext pend []) (b : Nat) (ret : Nat → Bool) {fuel : Nat}
    (hf : 2 * total s + 2 + (pend b).length ≤ fuel) :
    ∃ s', sweep fuel s b ret = some (.ok s') ∧ Inv s' ext (pend.update b []) [] ∧ Le ret s s' ∧ total s' ≤ total s ∧
      (∀ o ∈ pend b, ret o = false → o ∉ s'.live) ∧ (∀ o ∈ pend b, ret o = true → o ∈ s'.live ∧ s'.info o = none) ∧
      (∀ x, x ∈ s.live → x ∉ pend b → (∀ p, p ∈ s.live → x ∉ s.kids p) → x ∈ s'.live) := by
  have hring := I.rings.ring b
  cases hb : pend b with
  | nil =>
    have hfirst : (s.hdr b).first = none := by rw [hring.first, hb]; rfl
    refine ⟨s, by simp [sweep, hfirst], ?_, Le.refl _ s, Nat.le_refl _, by simp, by simp, fun x hx _ _ => hx⟩
    have : pend.update b [] = pend := by
      funext q
      by_cases hq : q = b
      · subst hq; rw [upd_self, hb]
      · rw [upd_ne _ _ hq]
    rw [this]; exact I
  | cons c r =>
    have hfirst : (s.hdr b).first = some c := by rw [hring.first, hb]; rfl
    have := sweepLoop_inv b ret r fuel s ext pend c I hb (by rw [hb] at hf; simp at hf; omega)
    simp only [sweep, hfirst]
    rw [hb] at this
    exact this

/-- A variable that is left. -/
theorem popVar_inv {s pend o} {ext ext' : Nat → Nat} (I : Inv s ext pend []) (he : ext o = ext' o + 1)
    (hx : ∀ x, x ≠ o → ext x = ext' x) (ret : Nat → Bool) {fuel : Nat} (hf : 2 * total s ≤ fuel) :
    ∃ s', popVar fuel ret s (some o) = some (.ok s') ∧ Inv s' ext' pend [] ∧ Le ret s s' ∧ total s' ≤ total s := by
  obtain ⟨i, hi, hl, hp⟩ := I.held (o := o) (by omega)
  by_cases hc : (1 < i.shares || !ret o) = true
  · obtain ⟨s', e, I', L, t⟩ := unref_null_inv I he hx hf
    refine ⟨s', ?_, I', L.weaken, t⟩
    simp only [popVar, hl, not_true, if_false, hi, hc, if_true]
    exact e
  · have h1 : i.shares = 1 := by simp at hc; omega
    obtain ⟨a1, a2, a3, a4, a5, a6, a7, a8⟩ := I.last hi h1 he hx
    have hs : ∀ x, sh (s.setInfo o none) x = sh (s.setInfo o (some { i with shares := 0 })) x := by
      intro x; rw [sh_none, sh_set]
    refine ⟨s.setInfo o none, ?_, ?_, ?_, ?_⟩
    · have h0 : ¬ i.shares = 0 := by omega
      simp only [popVar, hl, not_true, if_false, hi, hc, h0]
      rfl
    · constructor
      · exact a3
      · exact List.nodup_nil
      · intro x; rw [hs]; exact a4 x
      · intro x j hj
        simp only [S.setInfo] at hj
        by_cases hx : x = o
        · subst hx; rw [if_pos rfl] at hj; cases hj
        · rw [if_neg hx] at hj; exact I.man x j hj
      · exact a6
      · intro x
        rw [a7, hs]
        by_cases hx : x = o
        · subst hx; simp [S.setInfo]
        · simp [S.setInfo, hx]
      · intro x hx; cases hx
    · refine ⟨rfl, rfl, fun _ h => h, ?_, ?_, fun x _ h hq => by
        have : x ≠ o := by intro e; subst e; simp [hq] at hc
        simpa [S.setInfo, this] using h⟩
      · intro x hx hn
        exact ⟨hx, by simp [S.setInfo, hn]⟩
      · intro x j hj
        simp only [S.setInfo] at hj
        by_cases hx : x = o
        · subst hx; rw [if_pos rfl] at hj; cases hj
        · rw [if_neg hx] at hj; exact ⟨j, hj, rfl⟩
    · have := sum_change (f := sh (s.setInfo o none)) (g := sh s) I.nodup hl (by
        intro x hx; rw [sh_none, if_neg hx])
      rw [sh_none, if_pos rfl] at this
      show (s.live.map _).sum ≤ (s.live.map _).sum
      omega

theorem popVars_inv (ret : Nat → Bool) : ∀ (vars : List (Option Nat)) (s : S) (pend : Lists) (ext ext' : Nat → Nat) (fuel : Nat),
    Inv s ext pend [] → (∀ x, ext x = ext' x + vars.count (some x)) → 2 * total s ≤ fuel →
    ∃ s', popVars fuel ret s vars = some (.ok s') ∧ Inv s' ext' pend [] ∧ Le ret s s' ∧ total s' ≤ total s
  | [], s, pend, ext, ext', fuel, I, he, hf => by
    have : ext = ext' := by funext x; simpa using he x
    exact ⟨s, rfl, this ▸ I, Le.refl _ s, Nat.le_refl _⟩
  | none :: vs, s, pend, ext, ext', fuel, I, he, hf => by
    simpa [popVars, popVar] using popVars_inv ret vs s pend ext ext' fuel I (by simpa using he) hf
  | some o :: vs, s, pend, ext, ext', fuel, I, he, hf => by
    obtain ⟨s1, e1, I1, L1, t1⟩ := popVar_inv (ext' := fun x => ext' x + vs.count (some x)) (o := o) I (by
      have := he o; simp at this; omega) (by
      intro x hx
      have := he x
      rw [List.count_cons_of_ne (by simpa using Ne.symm hx)] at this
      exact this) ret hf
    obtain ⟨s2, e2, I2, L2, t2⟩ := popVars_inv ret vs s1 pend _ ext' fuel I1 (fun _ => rfl) (by omega)
    refine ⟨s2, ?_, I2, L1.trans L2, by omega⟩
    simp only [popVars, e1, e2]

theorem popScope_inv {s pend b} {vars : List (Option Nat)} {ext ext' : Nat → Nat} (I : Inv s ext pend [])
    (he : ∀ x, ext x = ext' x + vars.count (some x)) (ret : Nat → Bool) {fuel : Nat}
    (hf : 2 * total s + 2 + (pend b).length ≤ fuel) :
    ∃ s1 s', popVars fuel ret s vars = some (.ok s1) ∧ Inv s1 ext' pend [] ∧ Le ret s s1 ∧
      sweep fuel s1 b ret = some (.ok s') ∧
      popScope fuel s b vars ret = some (.ok (s', vars.map fun _ => none)) ∧
      Inv s' ext' (pend.update b []) [] ∧ Le ret s1 s' ∧
      (∀ o ∈ pend b, ret o = false → o ∉ s'.live) ∧ (∀ o ∈ pend b, ret o = true → o ∈ s'.live ∧ s'.info o = none) ∧
      (∀ x, x ∈ s1.live → x ∉ pend b → (∀ p, p ∈ s1.live → x ∉ s1.kids p) → x ∈ s'.live) := by
  obtain ⟨s1, e1, I1, L1, t1⟩ := popVars_inv ret vars s pend ext ext' fuel I he (by omega)
  obtain ⟨s2, e2, I2, L2, t2, d2, k2, o2⟩ := sweep_inv I1 b ret (fuel := fuel) (by omega)
  refine ⟨s1, s2, e1, I1, L1, e2, ?_, I2, L2, d2, k2, o2⟩
  simp only [popScope, e1, e2]

/-- A new object. -/
theorem alloc_inv {s pend o} {ext : Nat → Nat} (I : Inv s ext pend []) (hl : o ∉ s.live) (k : Bool) :
    Inv (alloc s o k) ext pend [] := by
  have hi : s.info o = none := by
    cases hi : s.info o with
    | none => rfl
    | some i => exact absurd (I.man o i hi).1 hl
  have hinfo : (alloc s o k).info = s.info := by
    funext x
    simp only [alloc]
    by_cases hx : x = o
    · subst hx; simp [hi]
    · simp [hx]
  have hs : ∀ x, sh (alloc s o k) x = sh s x := by intro x; unfold sh; rw [hinfo]
  constructor
  · exact List.nodup_cons.2 ⟨hl, I.nodup⟩
  · exact List.nodup_nil
  · intro x
    rw [hs, I.acc x]
    congr 1
    unfold occ
    have h1 : ((alloc s o k).live.filter fun p => decide (p ∉ ([] : List Nat))) = o :: s.live := by
      simp [alloc]
    have h2 : (s.live.filter fun p => decide (p ∉ ([] : List Nat))) = s.live := by simp
    rw [h1, h2, List.flatMap_cons]
    have h3 : (alloc s o k).kids o = [] := by simp [alloc]
    have h4 : s.live.flatMap (alloc s o k).kids = s.live.flatMap s.kids := by
      rw [List.flatMap_def, List.flatMap_def]
      congr 1
      apply List.map_congr_left
      intro y hy
      have : y ≠ o := by intro e; subst e; exact hl hy
      simp [alloc, this]
    rw [h3, h4]; rfl
  · intro x j hj
    rw [hinfo] at hj
    have := I.man x j hj
    have hne : x ≠ o := by intro e; subst e; exact hl this.1
    exact ⟨List.mem_cons_of_mem _ this.1, by simp [alloc, hne, this.2.1], this.2.2⟩
  · exact I.rings
  · intro x; rw [hs, hinfo]; exact I.pnd x
  · intro x hx; cases hx

/-! ### More fuel changes nothing -/

theorem drain_mono : ∀ (fuel : Nat) (s : S) (W : List Work) (r : Out S), drain fuel s W = some r →
    drain (fuel + 1) s W = some r := by
  intro fuel
  induction fuel with
  | zero =>
    intro s W r h
    cases W with
    | nil => simpa [drain] using h
    | cons w W => simp [drain] at h
  | succ fuel ih =>
    intro s W r h
    cases W with
    | nil => simpa [drain] using h
    | cons w W =>
      cases w with
      | unref o =>
        rw [drain] at h
        rw [drain]
        split
        · rename_i hl; rw [if_pos hl] at h; exact h
        · rename_i hl
          rw [if_neg hl] at h
          split
          · rename_i hc; rw [if_pos hc] at h; exact h
          · rename_i hc
            rw [if_neg hc] at h
            cases hi : s.info o with
            | none => rw [hi] at h; exact h
            | some i =>
              rw [hi] at h
              simp only at h ⊢
              split
              · rename_i h0; rw [if_pos h0] at h; exact h
              · rename_i h0
                rw [if_neg h0] at h
                split
                · rename_i h1; rw [if_pos h1] at h; exact ih _ _ _ h
                · rename_i h1; rw [if_neg h1] at h; exact ih _ _ _ h
      | free o =>
        rw [drain] at h
        rw [drain]
        split
        · rename_i hl; rw [if_pos hl] at h; exact h
        · rename_i hl; rw [if_neg hl] at h; exact ih _ _ _ h

theorem unref_mono {fuel : Nat} {s : S} {o : Nat} {blk : Option Nat} {r : Out S} (h : unref fuel s o blk = some r) :
    unref (fuel + 1) s o blk = some r := by
  cases blk with
  | none => exact drain_mono _ _ _ _ h
  | some b => exact h

theorem sweepLoop_mono {b : Nat} {ret : Nat → Bool} : ∀ (fuel : Nat) (s : S) (cur : Option Nat) (r : Out S),
    sweepLoop b ret fuel s cur = some r → sweepLoop b ret (fuel + 1) s cur = some r := by
  intro fuel
  induction fuel with
  | zero => intro s cur r h; simp [sweepLoop] at h
  | succ fuel ih =>
    intro s cur r h
    cases cur with
    | none => simpa [sweepLoop] using h
    | some c =>
      rw [sweepLoop] at h
      rw [sweepLoop]
      split
      · rename_i hn; rw [if_pos hn] at h; exact h
      · rename_i hn
        rw [if_neg hn] at h
        cases hd : detachNode s b c with
        | err => rw [hd] at h; exact h
        | ub => rw [hd] at h; exact h
        | ok s1 =>
          rw [hd] at h
          simp only at h ⊢
          split
          · rename_i hl; rw [if_pos hl] at h; exact h
          · rename_i hl
            rw [if_neg hl] at h
            have key : ∀ r2, (if ret c = true then some (.ok (s1.setInfo c none)) else drain fuel s1 (deletion s1 c)) = some r2 →
                (if ret c = true then some (.ok (s1.setInfo c none)) else drain (fuel + 1) s1 (deletion s1 c)) = some r2 := by
              intro r2 h2
              split
              · rename_i hr; rw [if_pos hr] at h2; exact h2
              · rename_i hr; rw [if_neg hr] at h2; exact drain_mono _ _ _ _ h2
            cases hm : (if ret c = true then some (.ok (s1.setInfo c none)) else drain fuel s1 (deletion s1 c)) with
            | none => rw [hm] at h; cases h
            | some r2 =>
              rw [hm] at h
              rw [key r2 hm]
              cases r2 with
              | err => exact h
              | ub => exact h
              | ok s2 =>
                simp only at h ⊢
                split
                · rename_i hf; rw [if_pos hf] at h; exact h
                · rename_i hf; rw [if_neg hf] at h; exact ih _ _ _ h

theorem sweep_mono {fuel : Nat} {s : S} {b : Nat} {ret : Nat → Bool} {r : Out S} (h : sweep fuel s b ret = some r) :
    sweep (fuel + 1) s b ret = some r := by
  unfold sweep at h ⊢
  cases hf : (s.hdr b).first with
  | none => rw [hf] at h; exact h
  | some c => rw [hf] at h; exact sweepLoop_mono _ _ _ _ h

theorem popVar_mono {fuel : Nat} {s : S} {ret : Nat → Bool} {v : Option Nat} {r : Out S}
    (h : popVar fuel ret s v = some r) : popVar (fuel + 1) ret s v = some r := by
  cases v with
  | none => exact h
  | some o =>
    simp only [popVar] at h ⊢
    split
    · rename_i hl; rw [if_pos hl] at h; exact h
    · rename_i hl
      rw [if_neg hl] at h
      cases hi : s.info o with
      | none => rw [hi] at h; exact h
      | some i =>
        rw [hi] at h
        simp only at h ⊢
        split
        · rename_i hc; rw [if_pos hc] at h; exact unref_mono h
        · rename_i hc; rw [if_neg hc] at h; exact h

theorem popVars_mono {fuel : Nat} {ret : Nat → Bool} : ∀ (vs : List (Option Nat)) (s : S) (r : Out S),
    popVars fuel ret s vs = some r → popVars (fuel + 1) ret s vs = some r
  | [], s, r, h => h
  | v :: vs, s, r, h => by
    rw [popVars] at h ⊢
    cases hv : popVar fuel ret s v with
    | none => rw [hv] at h; cases h
    | some q =>
      rw [hv] at h
      rw [popVar_mono hv]
      cases q with
      | err => exact h
      | ub => exact h
      | ok s1 => exact popVars_mono vs s1 r h

theorem popScope_mono {fuel : Nat} {s : S} {b : Nat} {vars : List (Option Nat)} {ret : Nat → Bool} {r}
    (h : popScope fuel s b vars ret = some r) : popScope (fuel + 1) s b vars ret = some r := by
  unfold popScope at h ⊢
  cases hv : popVars fuel ret s vars with
  | none => rw [hv] at h; cases h
  | some q =>
    rw [hv] at h
    rw [popVars_mono _ _ _ hv]
    cases q with
    | err => exact h
    | ub => exact h
    | ok s1 =>
      simp only at h ⊢
      cases hw : sweep fuel s1 b ret with
      | none => rw [hw] at h; cases h
      | some q => rw [hw] at h; rw [sweep_mono hw]; exact h

theorem detach_mono {fuel : Nat} {s : S} {p o : Nat} {blk : Option Nat} {r : Out S} (h : detach fuel s p o blk = some r) :
    detach (fuel + 1) s p o blk = some r := by
  unfold detach at h ⊢
  split
  · rename_i hl; rw [if_pos hl] at h; exact h
  · rename_i hl; rw [if_neg hl] at h; exact unref_mono h

/-- A returned object that is in no container outlives its variables. -/
theorem popVars_keep {ret : Nat → Bool} {fuel : Nat} {x : Nat} (hr : ret x = true) : ∀ (vars : List (Option Nat)) (s s' : S) (pend : Lists)
    (ext ext' : Nat → Nat), Inv s ext pend [] → (∀ x, ext x = ext' x + vars.count (some x)) → 2 * total s ≤ fuel →
    popVars fuel ret s vars = some (.ok s') → x ∈ s.live → (∀ p, p ∈ s.live → x ∉ s.kids p) →
    x ∈ s'.live ∧ ∀ p, p ∈ s'.live → x ∉ s'.kids p
  | [], s, s', pend, ext, ext', I, he, hf, h, hl, hk => by
    simp [popVars] at h; subst h; exact ⟨hl, hk⟩
  | none :: vs, s, s', pend, ext, ext', I, he, hf, h, hl, hk => by
    exact popVars_keep hr vs s s' pend ext ext' I (by simpa using he) hf (by simpa [popVars, popVar] using h) hl hk
  | some o :: vs, s, s', pend, ext, ext', I, he, hf, h, hl, hk => by
    obtain ⟨s1, e1, I1, L1, t1⟩ := popVar_inv (ext' := fun x => ext' x + vs.count (some x)) (o := o) I (by
      have := he o; simp at this; omega) (by
      intro x hx
      have := he x
      rw [List.count_cons_of_ne (by simpa using Ne.symm hx)] at this
      exact this) ret hf
    simp only [popVars, e1] at h
    have hk1 : ∀ p, p ∈ s1.live → x ∉ s1.kids p := by
      intro p hp; rw [L1.kids]; exact hk p (L1.sub p hp)
    refine popVars_keep hr vs s1 s' pend _ ext' I1 (fun _ => rfl) (by omega) h ?_ hk1
    by_cases hxo : o = x
    · subst hxo
      -- the variable holds the object itself
      obtain ⟨i, hi, _, hp⟩ := I.held (o := o) (by have := he o; simp at this; omega)
      simp only [popVar, hl, not_true, if_false, hi, hr, Bool.not_true, Bool.or_false] at e1
      by_cases h1 : 1 < i.shares
      · simp only [h1, decide_true, if_true, unref] at e1
        cases fuel with
        | zero => simp [drain] at e1
        | succ fuel =>
          rw [drain] at e1
          have hc := (I.man o i hi).2.1
          have h0 : ¬ i.shares = 0 := by omega
          have h2 : ¬ i.shares - 1 = 0 := by omega
          simp only [hl, not_true, if_false, hc, hi, h0, h2, Bool.false_eq_true] at e1
          simp [drain] at e1
          subst e1
          exact hl
      · have h0 : ¬ i.shares = 0 := by omega
        simp only [h1, decide_false, Bool.false_eq_true, if_false, h0] at e1
        simp at e1
        subst e1
        exact hl
    · -- another object
      simp only [popVar] at e1
      split at e1
      · cases e1
      · cases hi : s.info o with
        | none => rw [hi] at e1; simp at e1; subst e1; exact hl
        | some i =>
          rw [hi] at e1
          simp only at e1
          split at e1
          · exact (drain_other _ _ _ _ x e1 hl (by simp [us, Ne.symm hxo]) (by simp [fs]) hk).1
          · split at e1
            · cases hd : detachNode s i.home o with
              | err => rw [hd] at e1; simp at e1
              | ub => rw [hd] at e1; simp at e1
              | ok s2 =>
                rw [hd] at e1
                simp at e1
                subst e1
                have : s2.live = s.live := by
                  unfold detachNode at hd
                  split at hd
                  · cases hd
                  · cases hq : deattachShared s.heap (s.hdr i.home) o with
                    | err => rw [hq] at hd; cases hd
                    | ub => rw [hq] at hd; cases hd
                    | ok q => rw [hq] at hd; simp at hd; subst hd; rfl
                show x ∈ s2.live
                rw [this]; exact hl
            · simp at e1; subst e1; exact hl

end Verif.Share
