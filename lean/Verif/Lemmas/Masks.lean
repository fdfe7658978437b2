import Mathlib.Data.Nat.Bitwise
import Mathlib.Tactic.Linarith
import Batteries.Data.Nat.Bitwise
import Mathlib.Algebra.BigOperators.Fin
import Verif.Lemmas.Objective
import Verif.SpecTabu
/-
Sets of areas as numbers, so that all clusterings of a small map into two regions can be gone through
inside a proof.  Nothing here is part of the model.
-/
namespace Region

open Spec Relation

section Flood
variable {n : Nat}

/-- The areas whose bit is set. -/
def maskSet (n m : Nat) : Set (Fin n) := {i | m.testBit i.val = true}

/-- The areas of `s` and, within `m`, their neighbors. -/
def spreadMask (nb : List Nat) (m s : Nat) : Nat :=
  (List.range nb.length).foldl
    (fun acc i => if s.testBit i then acc ||| (nb.getD i 0 &&& m) else acc) s

/-- Spreading several times. -/
def flood (nb : List Nat) (m : Nat) : Nat → Nat → Nat
  | 0, s => s
  | k + 1, s => flood nb m k (spreadMask nb m s)

/-- `nb` lists the neighbors of each area. -/
def MaskOf (adj : Adj n) (nb : List Nat) : Prop :=
  nb.length = n ∧ ∀ i j : Fin n, (nb.getD i.val 0).testBit j.val = adj i j

theorem testBit_spreadMask (nb : List Nat) (m s j : Nat) : (spreadMask nb m s).testBit j = true ↔
    s.testBit j = true ∨ ∃ i < nb.length, s.testBit i = true ∧ (nb.getD i 0).testBit j = true ∧
      m.testBit j = true := by
  unfold spreadMask
  have key : ∀ (l : List Nat) (acc : Nat),
      ((l.foldl (fun acc i => if s.testBit i then acc ||| (nb.getD i 0 &&& m) else acc) acc).testBit j
        = true ↔ acc.testBit j = true ∨ ∃ i ∈ l, s.testBit i = true ∧
          (nb.getD i 0).testBit j = true ∧ m.testBit j = true) := by
    intro l
    induction l with
    | nil => intro acc; simp
    | cons x l ih =>
      intro acc
      rw [List.foldl_cons, ih]
      by_cases hx : s.testBit x = true
      · simp only [hx, if_true, Nat.testBit_or, Nat.testBit_and, Bool.or_eq_true, Bool.and_eq_true,
          List.mem_cons, exists_eq_or_imp, true_and, or_assoc]
      · simp only [hx, List.mem_cons, exists_eq_or_imp, false_and, false_or, if_false,
          Bool.false_eq_true]
  rw [key]
  simp only [List.mem_range]

/-- Whoever has been flooded can be reached. -/
theorem flood_path {adj : Adj n} {nb : List Nat} (hnb : MaskOf adj nb) {m : Nat} {a : Fin n} :
    ∀ (k s : Nat), (∀ i : Fin n, s.testBit i.val = true →
        i ∈ maskSet n m ∧ PathIn adj (maskSet n m) a i) →
      ∀ i : Fin n, (flood nb m k s).testBit i.val = true →
        i ∈ maskSet n m ∧ PathIn adj (maskSet n m) a i := by
  intro k
  induction k with
  | zero => intro s h; exact h
  | succ k ih =>
    intro s h
    refine ih (spreadMask nb m s) ?_
    intro i hi
    rcases (testBit_spreadMask nb m s _).1 hi with h1 | ⟨x, hx, h1, h2, h3⟩
    · exact h i h1
    · rw [hnb.1] at hx
      obtain ⟨h4, h5⟩ := h ⟨x, hx⟩ h1
      exact ⟨h3, h5.tail ⟨h4, h3, .inl (by rw [← hnb.2]; exact h2)⟩⟩

theorem flood_start (nb : List Nat) (m j : Nat) :
    ∀ (k s : Nat), s.testBit j = true → (flood nb m k s).testBit j = true := by
  intro k
  induction k with
  | zero => intro s h; exact h
  | succ k ih => intro s h; exact ih _ ((testBit_spreadMask nb m s j).2 (.inl h))

/-- The areas reached from the first area of `m`. -/
def reached (nb : List Nat) (n m : Nat) : Option Nat :=
  ((List.range n).find? fun i => m.testBit i).map fun a => flood nb m n (1 <<< a)

/-- The test that all areas of `m` are reached from its first. -/
def isWhole (nb : List Nat) (n m : Nat) : Bool :=
  match reached nb n m with
  | none => false
  | some t => (List.range n).all fun i => !m.testBit i || t.testBit i

/-- The test that there is an area of `m` that cannot be reached from its first. -/
def isBroken (nb : List Nat) (n m : Nat) : Bool :=
  match reached nb n m with
  | none => true
  | some t => (spreadMask nb m t == t) && (List.range n).any fun i => m.testBit i && !t.testBit i

theorem reached_some {nb : List Nat} {m t : Nat} (h : reached nb n m = some t) :
    ∃ a : Fin n, a ∈ maskSet n m ∧ t = flood nb m n (1 <<< a.val) := by
  unfold reached at h
  cases hf : (List.range n).find? fun i => m.testBit i with
  | none => rw [hf] at h; cases h
  | some a =>
    rw [hf] at h
    cases h
    have ha : a < n := List.mem_range.1 (List.mem_of_find?_eq_some hf)
    exact ⟨⟨a, ha⟩, show m.testBit a = true by simpa using List.find?_some hf, rfl⟩

theorem one_shift (a j : Nat) : (1 <<< a).testBit j = true ↔ a = j := by
  rw [Nat.one_shiftLeft, Nat.testBit_two_pow]
  simp

theorem isWhole_contiguous {adj : Adj n} {nb : List Nat}
    (hnb : MaskOf adj nb) {m : Nat} (h : isWhole nb n m = true) : Contiguous adj (maskSet n m) := by
  unfold isWhole at h
  cases ht : reached nb n m with
  | none => rw [ht] at h; cases h
  | some t =>
    rw [ht] at h
    obtain ⟨a, ha, rfl⟩ := reached_some ht
    have hall : ∀ i ∈ maskSet n m, PathIn adj (maskSet n m) a i := by
      intro i hi
      refine (flood_path hnb n (1 <<< a.val) ?_ i ?_).2
      · intro j hj
        have := (one_shift _ _).1 hj
        have : a = j := Fin.ext this
        subst this
        exact ⟨ha, .refl⟩
      · have := List.all_eq_true.1 h i.val (List.mem_range.2 i.isLt)
        have hi' : m.testBit i.val = true := hi
        simpa [hi'] using this
    refine ⟨⟨a, ha⟩, fun x hx y hy => ?_⟩
    have hsym : ∀ u v, PathIn adj (maskSet n m) u v → PathIn adj (maskSet n m) v u := by
      intro u v huv
      induction huv with
      | refl => exact .refl
      | tail _ h ih => exact .head ⟨h.2.1, h.1, h.2.2.symm⟩ ih
    exact (hsym _ _ (hall x hx)).trans (hall y hy)

theorem not_contiguous_of_isBroken {adj : Adj n} (hs : Spec.Symmetric adj) {nb : List Nat}
    (hnb : MaskOf adj nb) {m : Nat} (h : isBroken nb n m = true) : ¬ Contiguous adj (maskSet n m) := by
  intro hc
  unfold isBroken at h
  cases ht : reached nb n m with
  | none =>
    obtain ⟨i, hi⟩ := hc.1
    unfold reached at ht
    rw [Option.map_eq_none_iff, List.find?_eq_none] at ht
    exact ht i.val (List.mem_range.2 i.isLt) hi
  | some t =>
    rw [ht] at h
    obtain ⟨a, ha, rfl⟩ := reached_some ht
    simp only [Bool.and_eq_true, beq_iff_eq, List.any_eq_true, List.mem_range] at h
    obtain ⟨hcl, i, hi, him, hit⟩ := h
    have hstay : ∀ x : Fin n, PathIn adj (maskSet n m) a x →
        (flood nb m n (1 <<< a.val)).testBit x.val = true := by
      intro x hx
      induction hx with
      | refl => exact flood_start nb m _ _ _ ((one_shift _ _).2 rfl)
      | @tail y z _ h ih =>
        rw [← hcl]
        refine (testBit_spreadMask nb m _ _).2 (.inr ⟨y.val, by rw [hnb.1]; exact y.isLt, ih, ?_, h.2.1⟩)
        rw [hnb.2]
        rcases h.2.2 with h3 | h3
        · exact h3
        · rw [hs]; exact h3
    have := hstay ⟨i, hi⟩ (hc.2 a ha ⟨i, hi⟩ him)
    simp [this] at hit

/-- The sum of the dissimilarities of `a` to the areas of `s`. -/
def pullSum (D : Nat → Nat → Nat) (n a s : Nat) : Nat :=
  ((List.range n).map fun i => if s.testBit i then D i a else 0).sum

/-- The test that an area can go from `own` to `other` and the objective gets smaller. -/
def canImprove (nb : List Nat) (D : Nat → Nat → Nat) (n own other : Nat) : Bool :=
  (List.range n).any fun a => own.testBit a && (isWhole nb n (own ^^^ (1 <<< a)) &&
    (((List.range n).any fun j => (nb.getD a 0).testBit j && other.testBit j) &&
      decide (pullSum D n a other < pullSum D n a own)))

/-- The two regions `m` and the rest are not contiguous, or are `e` and the rest, or can be improved. -/
def isSettled (nb : List Nat) (D : Nat → Nat → Nat) (n e m : Nat) : Bool :=
  let c := (2 ^ n - 1) ^^^ m
  isBroken nb n m || (isBroken nb n c || (m == e || (c == e ||
    (canImprove nb D n m c || canImprove nb D n c m))))

theorem pullSum_eq {d : Fin n → Fin n → ℚ} {D : Nat → Nat → Nat} {c : ℚ}
    (hD : ∀ i j : Fin n, d i j = c * (D i.val j.val : ℚ)) (a : Fin n) (s : Nat) (p : Fin n → Prop)
    [DecidablePred p] (hp : ∀ i : Fin n, s.testBit i.val = true ↔ p i) :
    ∑ i ∈ Finset.univ.filter p, d i a = c * (pullSum D n a.val s : ℚ) := by
  unfold pullSum
  have h1 : ((List.range n).map fun i => if s.testBit i then D i a.val else 0).sum =
      ∑ i ∈ Finset.range n, if s.testBit i then D i a.val else 0 := rfl
  rw [h1, Finset.sum_range, Nat.cast_sum, Finset.mul_sum, Finset.sum_filter]
  refine Finset.sum_congr rfl fun i _ => ?_
  by_cases hi : p i
  · rw [if_pos hi, if_pos ((hp i).2 hi), hD]
  · rw [if_neg hi, if_neg (fun h => hi ((hp i).1 h))]
    simp

theorem canImprove_move {adj : Adj n} {nb : List Nat} (hnb : MaskOf adj nb)
    {d : Fin n → Fin n → ℚ} (hsym : ∀ i j, d i j = d j i) (h0 : ∀ i, d i i = 0)
    {D : Nat → Nat → Nat} {c : ℚ} (hc : 0 < c)
    (hD : ∀ i j : Fin n, d i j = c * (D i.val j.val : ℚ)) {L : Labels n} {x y : Int} (hxy : x ≠ y)
    {own other : Nat} (hown : ∀ i : Fin n, own.testBit i.val = true ↔ L i = x)
    (hother : ∀ i : Fin n, other.testBit i.val = true ↔ L i = y)
    (h : canImprove nb D n own other = true) :
    ∃ a, Admissible adj L a y ∧ withinPairs (moved L a y) d < withinPairs L d := by
  unfold canImprove at h
  simp only [List.any_eq_true, List.mem_range, Bool.and_eq_true, decide_eq_true_eq] at h
  obtain ⟨a, ha, ho, hw, ⟨j, hj, hj1, hj2⟩, hlt⟩ := h
  have hax : L ⟨a, ha⟩ = x := (hown ⟨a, ha⟩).1 ho
  have hset : maskSet n (own ^^^ (1 <<< a)) = {v | L v = L ⟨a, ha⟩ ∧ v ≠ ⟨a, ha⟩} := by
    ext v
    change (own ^^^ (1 <<< a)).testBit v.val = true ↔ L v = L ⟨a, ha⟩ ∧ v ≠ ⟨a, ha⟩
    rw [Nat.testBit_xor, hax]
    by_cases hv : v = ⟨a, ha⟩
    · subst hv
      have h1 : (1 <<< a).testBit a = true := (one_shift _ _).2 rfl
      simp [h1, ho]
    · have h1 : (1 <<< a).testBit v.val = false := by
        rw [Bool.eq_false_iff]
        intro h
        exact hv (Fin.ext ((one_shift _ _).1 h).symm)
      simp [h1, hown, hv]
  have hcont := isWhole_contiguous hnb hw
  rw [hset] at hcont
  refine ⟨⟨a, ha⟩, ⟨by rw [hax]; exact hxy, ⟨⟨j, hj⟩, (hother ⟨j, hj⟩).1 hj2, .inr ?_⟩, ?_, hcont⟩, ?_⟩
  · rw [← hnb.2]; exact hj1
  · obtain ⟨b, hb1, hb2⟩ := hcont.1
    exact ⟨b, hb2, hb1⟩
  · rw [withinPairs_moved L d hsym h0,
      pullSum_eq hD ⟨a, ha⟩ other (fun i => L i = y) hother,
      pullSum_eq hD ⟨a, ha⟩ own (fun i => L i = L ⟨a, ha⟩) (by rw [hax]; exact hown)]
    have : (pullSum D n a other : ℚ) < pullSum D n a own := by exact_mod_cast hlt
    have := mul_lt_mul_of_pos_left this hc
    dsimp only
    linarith

/-- If all clusterings into two regions are settled, then only the expected one is locally optimal. -/
theorem localOptimum_unique {adj : Adj n} (hs : Spec.Symmetric adj) {nb : List Nat}
    (hnb : MaskOf adj nb) {d : Fin n → Fin n → ℚ} (hsym : ∀ i j, d i j = d j i) (h0 : ∀ i, d i i = 0)
    {D : Nat → Nat → Nat} {c : ℚ} (hc : 0 < c)
    (hD : ∀ i j : Fin n, d i j = c * (D i.val j.val : ℚ)) {e : Nat}
    (hall : (List.range (2 ^ n)).all (isSettled nb D n e) = true) {L : Labels n}
    (hL : Feasible adj L 2)
    (hopt : ∀ a u, Admissible adj L a (L u) → withinPairs L d ≤ withinPairs (moved L a (L u)) d)
    (i j : Fin n) : L i = L j ↔ e.testBit i.val = e.testBit j.val := by
  obtain ⟨x, y, hxy, himg⟩ := Finset.card_eq_two.1 hL.2
  have hor : ∀ v, L v = x ∨ L v = y := fun v => by
    have : L v ∈ Finset.univ.image L := Finset.mem_image_of_mem _ (Finset.mem_univ _)
    rw [himg] at this
    simpa using this
  obtain ⟨vx, hvx⟩ : ∃ v, L v = x := by
    have : x ∈ Finset.univ.image L := by rw [himg]; simp
    simpa using this
  obtain ⟨vy, hvy⟩ : ∃ v, L v = y := by
    have : y ∈ Finset.univ.image L := by rw [himg]; simp
    simpa using this
  let m := Nat.ofBits fun i => decide (L i = x)
  have hm : ∀ i : Fin n, m.testBit i.val = true ↔ L i = x := by
    intro i
    simp [m, Nat.testBit_ofBits_lt]
  have hcm : ∀ i : Fin n, ((2 ^ n - 1) ^^^ m).testBit i.val = true ↔ L i = y := by
    intro i
    rw [Nat.testBit_xor, Nat.testBit_two_pow_sub_one]
    have h1 : decide (i.val < n) = true := by simp
    rw [h1, Bool.true_xor, Bool.not_eq_true', Bool.eq_false_iff, ne_eq, hm]
    constructor
    · exact fun h => (hor i).resolve_left h
    · exact fun h h' => hxy (h'.symm.trans h)
  have hmx : maskSet n m = regionOf L (L vx) := by
    ext i
    change m.testBit i.val = true ↔ L i = L vx
    rw [hm, hvx]
  have hmy : maskSet n ((2 ^ n - 1) ^^^ m) = regionOf L (L vy) := by
    ext i
    change ((2 ^ n - 1) ^^^ m).testBit i.val = true ↔ L i = L vy
    rw [hcm, hvy]
  have hset := List.all_eq_true.1 hall m (List.mem_range.2 (Nat.ofBits_lt_two_pow _))
  unfold isSettled at hset
  simp only [Bool.or_eq_true, beq_iff_eq] at hset
  rcases hset with h | h | h | h | h | h
  · exact absurd (hmx ▸ hL.1 vx) (not_contiguous_of_isBroken hs hnb h)
  · exact absurd (hmy ▸ hL.1 vy) (not_contiguous_of_isBroken hs hnb h)
  · rw [← h, Bool.eq_iff_iff, hm, hm]
    rcases hor i with h1 | h1 <;> rcases hor j with h2 | h2 <;> simp [h1, h2, hxy, hxy.symm]
  · rw [← h, Bool.eq_iff_iff, hcm, hcm]
    rcases hor i with h1 | h1 <;> rcases hor j with h2 | h2 <;> simp [h1, h2, hxy, hxy.symm]
  · obtain ⟨a, h1, h2⟩ := canImprove_move hnb hsym h0 hc hD hxy hm hcm h
    rw [← hvy] at h1 h2
    exact absurd (hopt a vy h1) (not_le.2 h2)
  · obtain ⟨a, h1, h2⟩ := canImprove_move hnb hsym h0 hc hD hxy.symm hcm hm h
    rw [← hvx] at h1 h2
    exact absurd (hopt a vx h1) (not_le.2 h2)

end Flood

end Region
