import Mathlib.Data.Fintype.Card
import Mathlib.Data.Fintype.Pi
import Mathlib.Data.Fintype.BigOperators
import Verif.Model.TestSuite
import Verif.Lemmas.Res
/-
Lemmas on the tests of the helper functions (C129).
-/
namespace Region

/-- The first `k` numbers drawn below `m`. -/
def drawn (m : Nat) (r : Rng) (k : Nat) : List Nat := (List.range k).map fun i => r i % m

theorem drawn_succ (m : Nat) (r : Rng) (k : Nat) : drawn m r (k + 1) = r 0 % m :: drawn m r.next k := by
  unfold drawn
  rw [List.range_succ_eq_map, List.map_cons, List.map_map]
  rfl

theorem testRandomElementLoop_eq {m : Nat} (hm : 0 < m) : ∀ (k : Nat) (popped : List Nat) (r : Rng),
    testRandomElementLoop (List.range m) k popped r = .ok (popped ++ drawn m r k)
  | 0, popped, r => by simp [testRandomElementLoop, drawn]
  | k + 1, popped, r => by
    have h : randomElementFrom (List.range m) r = .ok (r 0 % m, r.next) := by
      unfold randomElementFrom randrange
      have := Nat.mod_lt (r 0) hm
      simp [hm.ne', List.getElem?_range this]
    unfold testRandomElementLoop
    simp only [h, Res.bind_ok, if_true]
    rw [testRandomElementLoop_eq hm k, drawn_succ, List.append_assoc]
    rfl

theorem testPopRandomlyLoop_eq {m : Nat} (hm : 0 < m) : ∀ (k : Nat) (popped : List Nat) (r : Rng),
    testPopRandomlyLoop (List.range m) k popped r = .ok (popped ++ drawn m r k)
  | 0, popped, r => by simp [testPopRandomlyLoop, drawn]
  | k + 1, popped, r => by
    have hlt := Nat.mod_lt (r 0) hm
    have h : popRandomlyFrom (List.range m) r =
        .ok (r 0 % m, (List.range m).eraseIdx (r 0 % m), r.next) := by
      unfold popRandomlyFrom randrange
      simp [hm.ne', List.getElem?_range hlt]
    have hl : (((List.range m).eraseIdx (r 0 % m)).length : Int) = ((List.range m).length : Int) - 1 := by
      rw [List.length_eraseIdx, List.length_range, if_pos hlt]
      omega
    unfold testPopRandomlyLoop
    simp only [h, Res.bind_ok, hl, if_true]
    rw [testPopRandomlyLoop_eq hm k, drawn_succ, List.append_assoc]
    rfl

theorem testNotAllElementsEqual_iff (m : Nat) (r : Rng) (k : Nat) :
    testNotAllElementsEqual (drawn m r k) = true ↔ ∃ i < k, r i % m ≠ r 0 % m := by
  cases k with
  | zero => simp [testNotAllElementsEqual, testAllElementsEqual, drawn]
  | succ k =>
    have hh : (drawn m r (k + 1)).head? = some (r 0 % m) := by rw [drawn_succ]; rfl
    unfold testNotAllElementsEqual testAllElementsEqual
    rw [hh]
    simp only [Bool.not_eq_true', List.all_eq_false, drawn, List.mem_map, List.mem_range]
    constructor
    · rintro ⟨_, ⟨i, hi, rfl⟩, h⟩
      exact ⟨i, hi, fun e => h (by simp [e])⟩
    · rintro ⟨i, hi, h⟩
      exact ⟨_, ⟨i, hi, rfl⟩, by simpa using fun e => h e.symm⟩

/-- Exactly `m` of the sequences of `k ≥ 1` draws below `m` are constant. -/
theorem card_constant {k m : Nat} (hk : 0 < k) :
    (Finset.univ.filter fun d : Fin k → Fin m => ∀ i, d i = d ⟨0, hk⟩).card = m := by
  have : (Finset.univ.filter fun d : Fin k → Fin m => ∀ i, d i = d ⟨0, hk⟩) =
      Finset.univ.map ⟨fun (x : Fin m) (_ : Fin k) => x, fun x y h => congrFun h ⟨0, hk⟩⟩ := by
    ext d
    simp only [Finset.mem_filter, Finset.mem_univ, true_and, Finset.mem_map]
    exact ⟨fun h => ⟨d ⟨0, hk⟩, funext fun i => (h i).symm⟩, by rintro ⟨x, rfl⟩ i; rfl⟩
  rw [this, Finset.card_map, Finset.card_univ, Fintype.card_fin]

end Region
