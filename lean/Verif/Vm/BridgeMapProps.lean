import Verif.Vm.BridgeMapLemmas
import Verif.Vm.BridgeProps
/-
C125: a script object in the hands of the host is a map.
-/
namespace Verif.Vm.Bridge
open Verif Verif.Vm.Native

/-- After every history of storable values and keys without zero bytes, an object that was empty reads as the map of what was
put and erased: what was put last under each key, its keys in the order in which they came, errors for other keys. A script
object that was put and is no longer in it has ended, unless it is the object itself. -/
theorem object_is_map_partial (σ : St) (self : Word) (os : List MOp) (m : Dict) (hf : MFresh σ os)
    (hp : ∀ v ∈ mputs os, Typed σ v ∧ EntryTakes .element v ∧ Storable σ v) (hnd : (scripts (mputs os)).Nodup)
    (hb : MNoBackslash σ.host os) (hk : ∀ k ∈ mkeys os, (0 : UInt8) ∉ k)
    (hm : dictAfter σ.host Dict.none os = some m) :
    ∃ σ' fs, objRun σ self [] os = .ok (σ', fs) ∧ ReadsAsC σ' self fs m ∧
      ∀ t p, HVal.script t p ∈ mputs os → p ≠ self →
        σ'.obj p = none ∨ ∃ k t', m.val k = some (t', .object p) := by
  obtain ⟨σ', fs, hr, hi, hg⟩ := run_inv self os σ [] Dict.none m (fun _ => False)
    ⟨rfl, by simp [Dict.none], fun k => .inl ⟨rfl, rfl⟩, fun k j s r h1 => by simp [lookup] at h1,
      fun k s h1 => by simp [lookup] at h1⟩
    ⟨hf, hp, hnd⟩ hb hk hm (fun p hp => hp.elim) (fun p hp => hp.elim)
  refine ⟨σ', fs, hr, inv_reads hi, ?_⟩
  intro t p hv hps
  rcases hg p (.inr (mem_scripts hv)) hps with h | ⟨k, t', _, h⟩
  · exact .inl h
  · exact .inr ⟨k, t', h⟩

/-- A host with an array at 8 and an integer at 2, and a history with a key put twice, an erased one, one that was not there,
and the end of the array that it put. -/
def table : St where
  host := fun p => if p = 2 then some (.int 7) else none
  obj := fun p => if p = 8 then some { typeId := 24 } else none
  ext := fun _ _ => false
  linked := fun _ => none
  slot := fun _ => 0

def errands : List MOp :=
  [.set 20 30 40 [98] (.script 24 8), .set 21 30 40 [97] (.int 5), .host 1 (some (.chars [104])),
    .set 22 30 40 [99] (.chars 1), .host 1 none, .set 23 30 40 [98] (.intPtr 2), .erase [120], .erase [97],
    .set 24 30 40 [97] (.bool true), .host 2 (some (.int 9))]

/-- Its hypotheses hold, and this is what the object reads as: `b` first, `a` last, and the array has ended. -/
example : ∃ σ' fs, objRun table 60 [] errands = .ok (σ', fs) ∧ objKeys fs = [[98], [99], [97]] ∧
    objGet σ' fs [98] 5 = .ok (.int 7) ∧ objGet σ' fs [99] 7 = .ok (.text [104]) ∧
    objGet σ' fs [97] 10 = .ok (.truth true) ∧ objGet σ' fs [120] 5 = .err ∧ σ'.obj 8 = none := by
  obtain ⟨σ', fs, h1, h2, h3⟩ := object_is_map_partial table 60 errands _ ⟨by simp [errands, mnews], by
      intro a ha
      simp only [errands, mnews, List.mem_cons, List.not_mem_nil, or_false] at ha
      rcases ha with h | h | h | h | h <;> subst h <;> exact ⟨by decide, rfl⟩, by simp [errands, mtemps]⟩
    (by
      intro v hv
      simp only [errands, mputs, List.mem_cons, List.not_mem_nil, or_false] at hv
      rcases hv with h | h | h | h | h <;> subst h
      · refine ⟨⟨by decide, by decide, fun _ => ⟨{ typeId := 24 }, rfl, rfl⟩⟩, trivial, by decide, ?_⟩
        intro o ho
        have : o = { typeId := 24 } := (Option.some.inj ho).symm
        subst this
        exact ⟨rfl, rfl⟩
      · exact ⟨trivial, trivial, trivial⟩
      · exact ⟨trivial, trivial, (by decide : (1 : Word) ≠ 0)⟩
      · exact ⟨trivial, trivial, (by decide : (2 : Word) ≠ 0)⟩
      · exact ⟨trivial, trivial, trivial⟩)
    (by simp [errands, mputs, scripts])
    ⟨by
      intro p t h
      simp only [table] at h
      split at h <;> simp at h, by
      intro p t h
      simp [errands] at h
      rw [h.2]
      decide⟩
    (by simp [errands, mkeys]) rfl
  refine ⟨σ', fs, h1, ?_, ?_, ?_, ?_, ?_, ?_⟩
  · rw [h2.2.1]
    decide
  · exact ((h2.2.2 [98] (by decide)).1 5 (.int 7) rfl).1
  · exact ((h2.2.2 [99] (by decide)).1 7 (.text [104]) rfl).1
  · exact ((h2.2.2 [97] (by decide)).1 10 (.truth true) rfl).1
  · exact ((h2.2.2 [120] (by decide)).2 rfl).1 5
  · rcases h3 24 8 (by simp [errands, mputs]) (by decide) with h | ⟨k, t', h⟩
    · exact h
    · exfalso
      simp only [Dict.put, Dict.drop, Dict.none] at h
      repeat' split at h
      all_goals simp at h

/-- The host cannot put the same object under two keys, and not under the same key again: the second time is an error. -/
theorem object_twice_violated (k : Key) :
    ∃ σ1 fs, objSet desk 60 [] 20 30 40 [97] (.script 24 8) = .ok (σ1, fs) ∧
      objSet σ1 60 fs 21 30 40 k (.script 24 8) = .err :=
  ⟨desk.setObj 8 { typeId := 24, shared := true }, [([97], ⟨8, P_OBJECT⟩)], rfl, rfl⟩

/-- Keys end at a zero byte: what is put under `a\0b` is under `a`, and is found under `a\0c`. -/
theorem object_zero_key_violated :
    objRun desk 60 [] [.set 20 30 40 [97, 0, 98] (.int 5)] = .ok (desk, [([97], ⟨5, P_INT⟩)]) ∧
      objExists [([97], ⟨5, P_INT⟩)] [97] = true ∧ objExists [([97], ⟨5, P_INT⟩)] [97, 0, 99] = true ∧
      objKeys [([97], ⟨5, P_INT⟩)] = [[97]] := by
  refine ⟨rfl, ?_, ?_, rfl⟩ <;> decide

/-- So an object is not always the map of what was put into it. -/
theorem object_is_map_violated : ¬ ObjectIsMap := by
  intro h
  obtain ⟨σ', fs, hr, hd⟩ := h desk 60 [.set 20 30 40 [97, 0, 98] (.int 5)] _ ⟨by simp [mnews], by
      intro a ha
      simp only [mnews, List.mem_cons, List.not_mem_nil, or_false] at ha
      subst ha; exact ⟨by decide, rfl⟩, by simp [mtemps]⟩
    (by
      intro v hv
      simp only [mputs, List.mem_cons, List.not_mem_nil, or_false] at hv
      subst hv; exact ⟨trivial, trivial⟩) rfl
  rw [object_zero_key_violated.1] at hr
  simp only [Out.ok.injEq, Prod.mk.injEq] at hr
  have h2 := hd.2.1
  rw [← hr.2] at h2
  revert h2
  decide

end Verif.Vm.Bridge
