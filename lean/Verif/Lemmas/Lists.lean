import Mathlib.Data.List.Basic
import Mathlib.Data.List.Perm.Basic
import Verif.Lemmas.Util
/-
Lemmas about `array_from_region_list` and `find_sublist_containing`.
-/
namespace Region

theorem fillRegion_spec (v : Nat) (as : List Nat) (labels : List Nat)
    (h : ∀ a ∈ as, a < labels.length) :
    ∃ labels', fillRegion v as labels = .ok labels' ∧ labels'.length = labels.length ∧
      ∀ i, labels'[i]? = if i ∈ as then some v else labels[i]? := by
  induction as generalizing labels with
  | nil => exact ⟨labels, rfl, rfl, by simp⟩
  | cons a as ih =>
    have ha := h a (by simp)
    obtain ⟨l', h1, h2, h3⟩ := ih (labels.set a v) (by
      intro b hb; rw [List.length_set]; exact h b (by simp [hb]))
    refine ⟨l', ?_, by rw [h2, List.length_set], ?_⟩
    · unfold fillRegion setItem; rw [if_pos ha]; exact h1
    · intro i
      rw [h3 i]
      by_cases hi : i ∈ as
      · simp [hi]
      · by_cases hia : i = a
        · subst hia; simp [hi, ha]
        · simp [hi, hia, List.getElem?_set_ne (Ne.symm hia)]

theorem fillRegions_spec (regs : List (List Nat)) (v : Nat) (labels : List Nat)
    (h : ∀ reg ∈ regs, ∀ a ∈ reg, a < labels.length) (hnd : regs.flatten.Nodup) :
    ∃ labels', fillRegions regs v labels = .ok labels' ∧ labels'.length = labels.length ∧
      (∀ i, i ∉ regs.flatten → labels'[i]? = labels[i]?) ∧
      (∀ k (hk : k < regs.length), ∀ i ∈ regs[k], labels'[i]? = some (v + k)) := by
  induction regs generalizing v labels with
  | nil => exact ⟨labels, rfl, rfl, by simp, by simp⟩
  | cons reg regs ih =>
    rw [List.flatten_cons, List.nodup_append'] at hnd
    obtain ⟨l1, h1, h2, h3⟩ := fillRegion_spec v reg labels (h reg (by simp))
    obtain ⟨l2, g1, g2, g3, g4⟩ := ih (v + 1) l1
      (by intro reg' hr a ha; rw [h2]; exact h reg' (by simp [hr]) a ha) hnd.2.1
    refine ⟨l2, ?_, by rw [g2, h2], ?_, ?_⟩
    · unfold fillRegions; rw [h1]; exact g1
    · intro i hi
      rw [List.flatten_cons, List.mem_append, not_or] at hi
      rw [g3 i hi.2, h3 i, if_neg hi.1]
    · intro k hk i hi
      cases k with
      | zero =>
        simp only [List.getElem_cons_zero] at hi
        rw [g3 i (fun hf => hnd.2.2 hi hf), h3 i, if_pos hi]; rfl
      | succ k =>
        simp only [List.getElem_cons_succ] at hi
        rw [g4 k (by simpa using hk) i hi]
        congr 1; omega

theorem findSublistIdx_spec {α : Type} [DecidableEq α] (el : α) (lst : List (List α))
    (start : Nat) :
    (∃ k, ∃ h : k < lst.length, el ∈ lst[k] ∧ (∀ j (hj : j < k), el ∉ lst[j]) ∧
      findSublistIdx el lst start = .ok (start + k) ∧ findSublist el lst = .ok lst[k]) ∨
    ((∀ s ∈ lst, el ∉ s) ∧ findSublistIdx el lst start = .raise .lookupError ∧
      findSublist el lst = .raise .lookupError) := by
  induction lst generalizing start with
  | nil => right; exact ⟨by simp, rfl, rfl⟩
  | cons s ss ih =>
    by_cases hs : el ∈ s
    · left
      refine ⟨0, by simp, by simpa using hs, by simp, ?_, ?_⟩ <;>
        simp [findSublistIdx, findSublist, hs]
    · rcases ih (start + 1) with ⟨k, hk, h1, h2, h3, h4⟩ | ⟨h1, h2, h3⟩
      · left
        refine ⟨k + 1, by simpa using hk, by simpa using h1, ?_, ?_, ?_⟩
        · intro j hj
          cases j with
          | zero => simpa using hs
          | succ j => simpa using h2 j (by omega)
        · simp only [findSublistIdx, List.contains_iff_mem, hs, if_false, h3]
          congr 1; omega
        · simp only [findSublist, List.contains_iff_mem, hs, if_false, h4]
          simp
      · right
        refine ⟨?_, ?_, ?_⟩
        · intro s' hs'
          rcases List.mem_cons.1 hs' with rfl | hs'
          · exact hs
          · exact h1 s' hs'
        · simp [findSublistIdx, hs, h2]
        · simp [findSublist, hs, h3]

end Region
