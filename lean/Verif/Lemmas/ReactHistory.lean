import Mathlib.Data.Nat.Count
import Verif.SpecHistory
import Verif.Lemmas.AzpReact
/-
Lemmas about cycle detection in the reactive tabu search (azp.py 977-1006).
-/
namespace Region

open Spec Finset

theorem sinceLast_unique {α : Type} {history : List α} {now : α} {c c' : List α}
    (h : SinceLast history now c) (h' : SinceLast history now c') : c = c' := by
  obtain ⟨b, a, rfl, rfl, ha⟩ := h
  obtain ⟨b', a', he, rfl, ha'⟩ := h'
  rcases List.append_eq_append_iff.1 he with ⟨x, rfl, hx⟩ | ⟨x, rfl, hx⟩
  · cases x with
    | nil => simpa using hx
    | cons y ys =>
      exfalso
      simp only [List.cons_append, List.cons.injEq] at hx
      exact ha (by rw [hx.2]; simp)
  · cases x with
    | nil => simpa using hx.symm
    | cons y ys =>
      exfalso
      simp only [List.cons_append, List.cons.injEq] at hx
      exact ha' (by rw [hx.2]; simp)

theorem lastCycle_spec {history : List (List Int)} {now : List Int} (h : now ∈ history) :
    SinceLast history now (lastCycle history now) := by
  obtain ⟨as, bs, hr, hn⟩ := List.eq_append_cons_of_mem (List.mem_reverse.2 h)
  have hh : history = bs.reverse ++ now :: as.reverse := by
    have := congrArg List.reverse hr
    simpa using this
  refine ⟨bs.reverse, as.reverse, ?_, ?_, by simpa using hn⟩ <;>
  · have hi : history.reverse.idxOf now = as.length := by
      rw [hr, List.idxOf_append_of_notMem hn]; simp
    have hc : lastCycle history now = now :: as.reverse := by
      unfold lastCycle
      rw [hi, hh]
      have : (bs.reverse ++ now :: as.reverse).length - (as.length + 1) = bs.reverse.length := by
        simp
      rw [this, List.drop_left]
    first | exact hc | (rw [hc]; exact hh)

theorem foundAt_iff {α : Type} (history cycle : List α) (i : Nat) :
    (history.drop i).take cycle.length = cycle ↔ FoundAt history cycle i := by
  constructor
  · intro h j hj
    have := congrArg (fun l => l[j]?) h
    simpa [List.getElem?_take, hj] using this
  · intro h
    apply List.ext_getElem?
    intro j
    rw [List.getElem?_take]
    split_ifs with hj
    · rw [List.getElem?_drop]; exact h j hj
    · rw [List.getElem?_eq_none (by omega)]

theorem cycleCount_iff (history cycle : List (List Int)) (k2 : Int) : ∀ (is : List Nat) (c : Int),
    k2 ≤ cycleCount history cycle k2 is c ↔
      k2 ≤ c + (is.countP fun i => decide (FoundAt history cycle i) : Nat) := by
  intro is
  induction is with
  | nil => intro c; simp [cycleCount]
  | cons i is ih =>
    intro c
    unfold cycleCount
    simp only [foundAt_iff, List.countP_cons]
    by_cases hf : FoundAt history cycle i
    · simp only [hf, if_true, decide_true]
      split_ifs with hk
      · refine ⟨fun _ => ?_, fun _ => hk⟩
        push_cast
        omega
      · rw [ih]
        push_cast
        constructor <;> intro h <;> omega
    · simp only [hf, if_false, decide_false, ih]
      simp

/-- The number found in step 7 reaches `k2` exactly if there are that many earlier occasions. -/
theorem found_iff (history cycle : List (List Int)) (k2 : Int) :
    k2 ≤ (if 0 < k2 then
        cycleCount history cycle k2 (List.range (history.length - cycle.length)) 0 else 0) ↔
      k2 ≤ (earlierOccasions history cycle : Int) := by
  have hcount : ((List.range (history.length - cycle.length)).countP
      fun i => decide (FoundAt history cycle i)) = earlierOccasions history cycle := by
    unfold earlierOccasions
    rw [← Nat.count_eq_card_filter_range]
    rfl
  split_ifs with hk
  · rw [cycleCount_iff, hcount, zero_add]
  · constructor <;> intro h <;> omega

theorem tryMove_keeps_history {σ : Type} {k : Nat} {ops : StratOps σ k} {adj : Adj k} {m : Move k}
    {s s' : TabuState σ k} {b : Bool} (h : tryMove ops adj m s = .ok (b, s')) :
    s'.visited = s.visited := by
  unfold tryMove at h
  obtain ⟨⟨al, st, rg⟩, -, h⟩ := Res.bind_eq_ok.1 h
  dsimp only at h
  split_ifs at h
  · obtain ⟨⟨x, y, z⟩, -, h⟩ := Res.bind_eq_ok.1 h
    cases h
    rfl
  · cases h
    rfl

theorem randomMoves_keep_history {σ : Type} {k : Nat} {ops : StratOps σ k} {adj : Adj k} :
    ∀ (p : Nat) (moves : List (Move k)) {s s' : TabuState σ k},
      randomMoves ops adj p moves s = .ok s' → s'.visited = s.visited := by
  intro p
  induction p with
  | zero => intro moves s s' h; cases h; rfl
  | succ p ih =>
    intro moves s s' h
    unfold randomMoves at h
    obtain ⟨⟨m, ms, rg⟩, -, h⟩ := Res.bind_eq_ok.1 h
    obtain ⟨⟨b, t⟩, h1, h⟩ := Res.bind_eq_ok.1 h
    rw [ih _ h, tryMove_keeps_history h1]

end Region
