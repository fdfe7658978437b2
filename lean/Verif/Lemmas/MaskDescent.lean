import Verif.Lemmas.Masks
import Verif.Lemmas.Azp
/-
Steepest descent on clusterings into two regions, with the clusterings as numbers.
-/
namespace Region

open Spec Relation

/-- `m` has the areas labelled `x`; the others are labelled `y`. -/
structure TwoReg {n : Nat} (L : Labels n) (m : Nat) (x y : Int) : Prop where
  ne : x ≠ y
  lt : m < 2 ^ n
  left : ∀ i : Fin n, m.testBit i.val = true ↔ L i = x
  right : ∀ i : Fin n, m.testBit i.val = false ↔ L i = y

/-- The areas not in `m`. -/
def restOf (n m : Nat) : Nat := (2 ^ n - 1) ^^^ m

/-- The region of `a`. -/
def ownOf (n m a : Nat) : Nat := if m.testBit a then m else restOf n m

/-- The other region. -/
def otherOf (n m a : Nat) : Nat := if m.testBit a then restOf n m else m

/-- The test that `a` can go to the other region. -/
def canMove (nb : List Nat) (n m a : Nat) : Bool :=
  isWhole nb n (ownOf n m a ^^^ (1 <<< a)) &&
    (List.range n).any fun j => (nb.getD a 0).testBit j && (otherOf n m a).testBit j

/-- How much the objective changes when `a` goes to the other region. -/
def change (D : Nat → Nat → Nat) (n m a : Nat) : Int :=
  (pullSum D n a (otherOf n m a) : Int) - (pullSum D n a (ownOf n m a) : Int)

section
variable {n : Nat} {L : Labels n} {m : Nat} {x y : Int}

theorem testBit_restOf (i : Fin n) : (restOf n m).testBit i.val = !m.testBit i.val := by
  unfold restOf
  rw [Nat.testBit_xor, Nat.testBit_two_pow_sub_one]
  simp

theorem restOf_lt (h : m < 2 ^ n) : restOf n m < 2 ^ n :=
  Nat.xor_lt_two_pow (by have := Nat.two_pow_pos n; omega) h

theorem restOf_restOf : restOf n (restOf n m) = m := by
  unfold restOf
  rw [← Nat.xor_assoc, Nat.xor_self, Nat.zero_xor]

theorem TwoReg.swap (h : TwoReg L m x y) : TwoReg L (restOf n m) y x where
  ne := h.ne.symm
  lt := restOf_lt h.lt
  left i := by rw [testBit_restOf, Bool.not_eq_true', h.right]
  right i := by rw [testBit_restOf, Bool.not_eq_false', h.left]

/-- Every labelling with two regions has such a number. -/
theorem exists_twoReg {p : Nat} (hp : p = 2) (h : numRegions L = p) : ∃ m x y, TwoReg L m x y := by
  subst hp
  obtain ⟨x, y, hxy, himg⟩ := Finset.card_eq_two.1 h
  have hor : ∀ v, L v = x ∨ L v = y := fun v => by
    have : L v ∈ Finset.univ.image L := Finset.mem_image_of_mem _ (Finset.mem_univ _)
    rw [himg] at this
    simpa using this
  refine ⟨Nat.ofBits fun i => decide (L i = x), x, y, hxy, Nat.ofBits_lt_two_pow _, fun i => by simp,
    fun i => ?_⟩
  simp only [Nat.testBit_ofBits_lt, Fin.is_lt, Fin.eta, decide_eq_false_iff_not]
  exact ⟨fun h => (hor i).resolve_left h, fun h h' => hxy (h'.symm.trans h)⟩

/-- The number can be chosen so that it has a given area. -/
theorem exists_twoReg_with (h : numRegions L = 2) (a : Fin n) :
    ∃ m x y, TwoReg L m x y ∧ m.testBit a.val = true := by
  obtain ⟨m, x, y, hm⟩ := exists_twoReg rfl h
  cases ha : m.testBit a.val with
  | true => exact ⟨m, x, y, hm, ha⟩
  | false => exact ⟨_, _, _, hm.swap, by rw [testBit_restOf, ha]; rfl⟩

theorem TwoReg.regions (h : TwoReg L m x y) (hn : numRegions L = 2) :
    (∃ v, L v = x) ∧ ∃ v, L v = y := by
  have hsub : Finset.univ.image L ⊆ {x, y} := by
    intro z hz
    obtain ⟨v, -, rfl⟩ := Finset.mem_image.1 hz
    cases hi : m.testBit v.val with
    | true => simp [(h.left v).1 hi]
    | false => simp [(h.right v).1 hi]
  have heq := Finset.eq_of_subset_of_card_le hsub (by
    rw [show (Finset.univ.image L).card = 2 from hn]
    exact Finset.card_le_two)
  constructor
  · have : x ∈ Finset.univ.image L := by rw [heq]; simp
    simpa using this
  · have : y ∈ Finset.univ.image L := by rw [heq]; simp
    simpa using this

/-- Both regions of a feasible clustering pass the test. -/
theorem TwoReg.whole {adj : Adj n} (hs : Spec.Symmetric adj) {nb : List Nat} (hnb : MaskOf adj nb)
    (h : TwoReg L m x y) (hL : Feasible adj L 2) :
    isBroken nb n m = false ∧ isBroken nb n (restOf n m) = false := by
  obtain ⟨⟨vx, hx⟩, vy, hy⟩ := h.regions hL.2
  have h1 : maskSet n m = regionOf L (L vx) := by
    ext i
    change m.testBit i.val = true ↔ L i = L vx
    rw [h.left, hx]
  have h2 : maskSet n (restOf n m) = regionOf L (L vy) := by
    ext i
    change (restOf n m).testBit i.val = true ↔ L i = L vy
    rw [h.swap.left, hy]
  constructor
  · rw [Bool.eq_false_iff]
    intro hb
    exact not_contiguous_of_isBroken hs hnb hb (h1 ▸ hL.1 vx)
  · rw [Bool.eq_false_iff]
    intro hb
    exact not_contiguous_of_isBroken hs hnb hb (h2 ▸ hL.1 vy)

/-- The label of `a` and the other label. -/
theorem TwoReg.own (h : TwoReg L m x y) (a : Fin n) :
    ∃ r, r ≠ L a ∧ (r = x ∨ r = y) ∧ (∀ i, L i = L a ∨ L i = r) ∧
      (∀ i : Fin n, (ownOf n m a.val).testBit i.val = true ↔ L i = L a) ∧
      ∀ i : Fin n, (otherOf n m a.val).testBit i.val = true ↔ L i = r := by
  unfold ownOf otherOf
  cases ha : m.testBit a.val with
  | true =>
    have hx := (h.left a).1 ha
    refine ⟨y, by rw [hx]; exact h.ne.symm, .inr rfl, fun i => ?_, fun i => ?_, fun i => ?_⟩
    · rw [hx]
      cases hi : m.testBit i.val with
      | true => exact .inl ((h.left i).1 hi)
      | false => exact .inr ((h.right i).1 hi)
    · rw [if_pos rfl, hx]; exact h.left i
    · rw [if_pos rfl]; exact h.swap.left i
  | false =>
    have hy := (h.right a).1 ha
    refine ⟨x, by rw [hy]; exact h.ne, .inl rfl, fun i => ?_, fun i => ?_, fun i => ?_⟩
    · rw [hy]
      cases hi : m.testBit i.val with
      | true => exact .inr ((h.left i).1 hi)
      | false => exact .inl ((h.right i).1 hi)
    · rw [if_neg (by simp), hy]; exact h.swap.left i
    · rw [if_neg (by simp)]; exact h.left i

/-- `isWhole` decides contiguity of all sets of areas. -/
def MaskDecides (nb : List Nat) (n : Nat) : Prop :=
  (List.range (2 ^ n)).all (fun m => isWhole nb n m || isBroken nb n m) = true

theorem isWhole_iff {adj : Adj n} (hs : Spec.Symmetric adj) {nb : List Nat} (hnb : MaskOf adj nb)
    (hdec : MaskDecides nb n) (hm : m < 2 ^ n) :
    isWhole nb n m = true ↔ Contiguous adj (maskSet n m) := by
  constructor
  · exact isWhole_contiguous hnb
  · intro hc
    have := List.all_eq_true.1 hdec m (List.mem_range.2 hm)
    simp only [Bool.or_eq_true] at this
    rcases this with h | h
    · exact h
    · exact absurd hc (not_contiguous_of_isBroken hs hnb h)

theorem own_lt (h : TwoReg L m x y) (a : Nat) : ownOf n m a < 2 ^ n := by
  unfold ownOf
  split_ifs
  · exact h.lt
  · exact restOf_lt h.lt

theorem own_without (h : TwoReg L m x y) (a : Fin n) :
    maskSet n (ownOf n m a.val ^^^ (1 <<< a.val)) = {v | L v = L a ∧ v ≠ a} := by
  obtain ⟨r, -, -, -, hown, -⟩ := h.own a
  ext v
  change (ownOf n m a.val ^^^ (1 <<< a.val)).testBit v.val = true ↔ L v = L a ∧ v ≠ a
  rw [Nat.testBit_xor]
  by_cases hv : v = a
  · subst hv
    have h1 : (1 <<< v.val).testBit v.val = true := (one_shift _ _).2 rfl
    have h2 : (ownOf n m v.val).testBit v.val = true := (hown v).2 rfl
    simp [h1, h2]
  · have h1 : (1 <<< a.val).testBit v.val = false := by
      rw [Bool.eq_false_iff]
      intro h
      exact hv (Fin.ext ((one_shift _ _).1 h).symm)
    simp [h1, hown, hv]

/-- The admissible moves. -/
theorem TwoReg.admissible_iff {adj : Adj n} (hs : Spec.Symmetric adj) {nb : List Nat}
    (hnb : MaskOf adj nb) (hdec : MaskDecides nb n) (h : TwoReg L m x y) (a : Fin n) (r : Int) :
    Admissible adj L a r ↔ (L a ≠ r ∧ (r = x ∨ r = y)) ∧ canMove nb n m a.val = true := by
  obtain ⟨r', hr', hxy, hor, hown, hother⟩ := h.own a
  have hlt : ownOf n m a.val ^^^ (1 <<< a.val) < 2 ^ n := by
    refine Nat.xor_lt_two_pow (own_lt h _) ?_
    rw [Nat.one_shiftLeft]
    exact Nat.pow_lt_pow_right (by norm_num) a.isLt
  have hrr : (L a ≠ r ∧ (r = x ∨ r = y)) ↔ r = r' := by
    have hLa : L a = x ∨ L a = y := by
      cases hi : m.testBit a.val with
      | true => exact .inl ((h.left a).1 hi)
      | false => exact .inr ((h.right a).1 hi)
    have := h.ne
    constructor
    · rintro ⟨h1, h2⟩
      omega
    · rintro rfl
      exact ⟨hr'.symm, hxy⟩
  unfold canMove
  rw [hrr, Bool.and_eq_true, isWhole_iff hs hnb hdec hlt, own_without h]
  simp only [List.any_eq_true, List.mem_range, Bool.and_eq_true]
  constructor
  · rintro ⟨h1, ⟨u, hu, hb⟩, -, h4⟩
    have hru : r = r' := by
      rcases hor u with h' | h'
      · exact absurd (h'.symm.trans hu) h1
      · exact hu.symm.trans h'
    refine ⟨hru, h4, u.val, u.isLt, ?_, (hother u).2 (hu.trans hru)⟩
    rw [hnb.2]
    rcases hb with hb | hb
    · rw [hs]; exact hb
    · exact hb
  · rintro ⟨rfl, h4, j, hj, hj1, hj2⟩
    refine ⟨hr'.symm, ⟨⟨j, hj⟩, (hother ⟨j, hj⟩).1 hj2, .inr ?_⟩, ?_, h4⟩
    · rw [← hnb.2]; exact hj1
    · obtain ⟨b, hb1, hb2⟩ := h4.1
      exact ⟨b, hb2, hb1⟩

/-- The change of the objective. -/
theorem TwoReg.value {d : Fin n → Fin n → ℚ} (hsym : ∀ i j, d i j = d j i) (h0 : ∀ i, d i i = 0)
    {D : Nat → Nat → Nat} {c : ℚ} (hD : ∀ i j : Fin n, d i j = c * (D i.val j.val : ℚ))
    (h : TwoReg L m x y) (a : Fin n) {r : Int} (hr : L a ≠ r) (hxy : r = x ∨ r = y) :
    withinPairs (moved L a r) d = withinPairs L d + c * (change D n m a.val : ℚ) := by
  obtain ⟨r', hr', hxy', hor, hown, hother⟩ := h.own a
  have hrr : r = r' := by
    have hLa : L a = x ∨ L a = y := by
      cases hi : m.testBit a.val with
      | true => exact .inl ((h.left a).1 hi)
      | false => exact .inr ((h.right a).1 hi)
    have := h.ne
    omega
  subst hrr
  rw [withinPairs_moved L d hsym h0, pullSum_eq hD a _ (fun i => L i = r) hother,
    pullSum_eq hD a _ (fun i => L i = L a) hown]
  unfold change
  push_cast
  ring

/-- The number after a move. -/
theorem TwoReg.after (h : TwoReg L m x y) (a : Fin n) {r : Int} (hr : L a ≠ r) (hxy : r = x ∨ r = y) :
    TwoReg (moved L a r) (m ^^^ (1 <<< a.val)) x y := by
  have hflip : ∀ i : Fin n, (m ^^^ (1 <<< a.val)).testBit i.val =
      if i = a then !m.testBit a.val else m.testBit i.val := by
    intro i
    rw [Nat.testBit_xor]
    by_cases hi : i = a
    · subst hi
      have h1 : (1 <<< i.val).testBit i.val = true := (one_shift _ _).2 rfl
      simp [h1]
    · have h1 : (1 <<< a.val).testBit i.val = false := by
        rw [Bool.eq_false_iff]
        intro h
        exact hi (Fin.ext ((one_shift _ _).1 h).symm)
      simp [h1, hi]
  have hne := h.ne
  have hl := h.left a
  have hr' := h.right a
  refine ⟨h.ne, Nat.xor_lt_two_pow h.lt ?_, fun i => ?_, fun i => ?_⟩
  · rw [Nat.one_shiftLeft]
    exact Nat.pow_lt_pow_right (by norm_num) a.isLt
  · rw [hflip]
    by_cases hi : i = a
    · subst hi
      rw [if_pos rfl, moved_self]
      cases hm : m.testBit i.val with
      | true =>
        have := hl.1 hm
        simp only [Bool.not_true, Bool.false_eq_true, false_iff]
        omega
      | false =>
        have := hr'.1 hm
        simp only [Bool.not_false, true_iff]
        omega
    · rw [if_neg hi, moved_of_ne hi]
      exact h.left i
  · rw [hflip]
    by_cases hi : i = a
    · subst hi
      rw [if_pos rfl, moved_self]
      cases hm : m.testBit i.val with
      | true =>
        have := hl.1 hm
        simp only [Bool.not_true, true_iff]
        omega
      | false =>
        have := hr'.1 hm
        simp only [Bool.not_false, Bool.true_eq_false, false_iff]
        omega
    · rw [if_neg hi, moved_of_ne hi]
      exact h.right i

/-! ### Steepest descent -/

/-- The areas that can go to the other region, with the change of the objective. -/
def changes (nb : List Nat) (D : Nat → Nat → Nat) (n m : Nat) : List (Nat × Int) :=
  ((List.range n).filter fun a => canMove nb n m a).map fun a => (a, change D n m a)

/-- The areas whose move improves the objective most. -/
def bests (nb : List Nat) (D : Nat → Nat → Nat) (n m : Nat) : List Nat :=
  ((changes nb D n m).filter fun p => decide (p.2 < 0) &&
    (changes nb D n m).all fun q => decide (p.2 ≤ q.2)).map fun p => p.1

theorem mem_bests {nb : List Nat} {D : Nat → Nat → Nat} {a : Nat} : a ∈ bests nb D n m ↔
    a < n ∧ canMove nb n m a = true ∧ change D n m a < 0 ∧
      ∀ b < n, canMove nb n m b = true → change D n m a ≤ change D n m b := by
  unfold bests changes
  simp only [List.mem_map, List.mem_filter, List.mem_range, Bool.and_eq_true, decide_eq_true_eq,
    List.all_eq_true]
  constructor
  · rintro ⟨p, ⟨⟨a, ⟨h1, h2⟩, rfl⟩, h3, h4⟩, rfl⟩
    exact ⟨h1, h2, h3, fun b hb hb' => h4 _ ⟨b, ⟨hb, hb'⟩, rfl⟩⟩
  · rintro ⟨h1, h2, h3, h4⟩
    refine ⟨(a, change D n m a), ⟨⟨a, ⟨h1, h2⟩, rfl⟩, h3, ?_⟩, rfl⟩
    rintro q ⟨b, ⟨hb, hb'⟩, rfl⟩
    exact h4 b hb hb'

/-- The data of a map with its dissimilarities. -/
structure MaskMap (adj : Adj n) (d : Fin n → Fin n → ℚ) (nb : List Nat) (D : Nat → Nat → Nat) (c : ℚ) :
    Prop where
  symm : Spec.Symmetric adj
  mask : MaskOf adj nb
  decides : MaskDecides nb n
  dsymm : ∀ i j, d i j = d j i
  dzero : ∀ i, d i i = 0
  pos : 0 < c
  gap : ∀ i j : Fin n, d i j = c * (D i.val j.val : ℚ)

variable {adj : Adj n} {d : Fin n → Fin n → ℚ} {nb : List Nat} {D : Nat → Nat → Nat} {c : ℚ}

/-- An area that can move can move to exactly one region. -/
theorem TwoReg.target (h : TwoReg L m x y) (a : Fin n) : ∃ r, L a ≠ r ∧ (r = x ∨ r = y) := by
  obtain ⟨r, h1, h2, -⟩ := h.own a
  exact ⟨r, h1.symm, h2⟩

theorem TwoReg.best_mem (hM : MaskMap adj d nb D c) (h : TwoReg L m x y) {a : Fin n} {r : Int}
    (hadm : Admissible adj L a r) (hlt : withinPairs (Spec.moved L a r) d < withinPairs L d)
    (hmin : ∀ b s, Admissible adj L b s →
      withinPairs (Spec.moved L a r) d ≤ withinPairs (Spec.moved L b s) d) :
    a.val ∈ bests nb D n m ∧ TwoReg (Spec.moved L a r) (m ^^^ (1 <<< a.val)) x y := by
  obtain ⟨⟨h1, h2⟩, h3⟩ := (h.admissible_iff hM.symm hM.mask hM.decides a r).1 hadm
  have hv := h.value hM.dsymm hM.dzero hM.gap a h1 h2
  refine ⟨mem_bests.2 ⟨a.isLt, h3, ?_, fun b hb hb' => ?_⟩, h.after a h1 h2⟩
  · rw [hv] at hlt
    have : c * (change D n m a.val : ℚ) < 0 := by linarith
    have := (mul_neg_iff.1 this).resolve_right fun h => absurd h.1 (not_lt.2 hM.pos.le)
    exact_mod_cast this.2
  · obtain ⟨s, hs1, hs2⟩ := h.target ⟨b, hb⟩
    have := hmin ⟨b, hb⟩ s ((h.admissible_iff hM.symm hM.mask hM.decides _ _).2 ⟨⟨hs1, hs2⟩, hb'⟩)
    rw [hv, h.value hM.dsymm hM.dzero hM.gap ⟨b, hb⟩ hs1 hs2] at this
    have : c * (change D n m a.val : ℚ) ≤ c * (change D n m b : ℚ) := by linarith
    have := le_of_mul_le_mul_left this hM.pos
    exact_mod_cast this

theorem TwoReg.steepest (hM : MaskMap adj d nb D c) (h : TwoReg L m x y) {L' : Labels n}
    (hst : Steepest adj (fun L => withinPairs L d) L L') :
    ∃ a ∈ bests nb D n m, TwoReg L' (m ^^^ (1 <<< a)) x y := by
  obtain ⟨hlt, ⟨a, r, hadm, rfl⟩, hmin⟩ := hst
  obtain ⟨h1, h2⟩ := h.best_mem hM hadm hlt hmin
  exact ⟨a.val, h1, h2⟩

/-- The clusterings after so many steps. -/
def afterSteps (nb : List Nat) (D : Nat → Nat → Nat) (n : Nat) : Nat → Nat → List Nat
  | 0, m => [m]
  | k + 1, m => (afterSteps nb D n k m).flatMap fun m' => (bests nb D n m').map fun a => m' ^^^ (1 <<< a)

theorem TwoReg.descent (hM : MaskMap adj d nb D c) (h : TwoReg L m x y) {j : Nat} {out : Labels n}
    (hd : Descent adj (fun L => withinPairs L d) j L out) :
    ∃ m' ∈ afterSteps nb D n j m, TwoReg out m' x y := by
  induction hd with
  | start => exact ⟨m, by simp [afterSteps], h⟩
  | step _ hst ih =>
    obtain ⟨m', hm', h'⟩ := ih h
    obtain ⟨a, ha, h2⟩ := h'.steepest hM hst
    refine ⟨_, ?_, h2⟩
    unfold afterSteps
    rw [List.mem_flatMap]
    exact ⟨m', hm', List.mem_map.2 ⟨a, ha, rfl⟩⟩

/-- A descent from `m` ends within `k` steps, and no area in `seen` or moved on the way improves the
objective when it goes back. -/
def guarded (nb : List Nat) (D : Nat → Nat → Nat) (n : Nat) : Nat → Nat → Nat → Bool
  | 0, m, seen => ((List.range n).all fun a => !seen.testBit a || decide (0 ≤ change D n m a)) &&
      (bests nb D n m).isEmpty
  | k + 1, m, seen => ((List.range n).all fun a => !seen.testBit a || decide (0 ≤ change D n m a)) &&
      (bests nb D n m).all fun a => guarded nb D n k (m ^^^ (1 <<< a)) (seen ||| (1 <<< a))

theorem guarded_seen {k seen : Nat} (h : guarded nb D n k m seen = true) {a : Nat} (ha : a < n)
    (hs : seen.testBit a = true) : 0 ≤ change D n m a := by
  cases k with
  | zero =>
    simp only [guarded, Bool.and_eq_true] at h
    have := List.all_eq_true.1 h.1 a (List.mem_range.2 ha)
    simpa [hs] using this
  | succ k =>
    simp only [guarded, Bool.and_eq_true] at h
    have := List.all_eq_true.1 h.1 a (List.mem_range.2 ha)
    simpa [hs] using this

theorem guarded_step {k seen : Nat} (h : guarded nb D n k m seen = true) {a : Nat}
    (ha : a ∈ bests nb D n m) :
    ∃ k', k = k' + 1 ∧ guarded nb D n k' (m ^^^ (1 <<< a)) (seen ||| (1 <<< a)) = true := by
  cases k with
  | zero =>
    simp only [guarded, Bool.and_eq_true, List.isEmpty_iff] at h
    rw [h.2] at ha
    cases ha
  | succ k =>
    simp only [guarded, Bool.and_eq_true] at h
    exact ⟨k, rfl, List.all_eq_true.1 h.2 a ha⟩

/-- A guarded descent is short. -/
theorem TwoReg.descent_guarded (hM : MaskMap adj d nb D c) (h : TwoReg L m x y) {k seen : Nat}
    (hg : guarded nb D n k m seen = true) {j : Nat} {out : Labels n}
    (hd : Descent adj (fun L => withinPairs L d) j L out) :
    ∃ m' seen', j ≤ k ∧ TwoReg out m' x y ∧ guarded nb D n (k - j) m' seen' = true := by
  induction hd with
  | start => exact ⟨m, seen, Nat.zero_le _, h, hg⟩
  | step _ hst ih =>
    obtain ⟨m', seen', hle, h', hg'⟩ := ih h
    obtain ⟨a, ha, h2⟩ := h'.steepest hM hst
    obtain ⟨k', hk', hg2⟩ := guarded_step hg' ha
    refine ⟨_, seen' ||| (1 <<< a), by omega, h2, ?_⟩
    · have : ∀ j, k - j = k' + 1 → k - (j + 1) = k' := fun j h => by omega
      rw [this _ hk']
      exact hg2

end

end Region
