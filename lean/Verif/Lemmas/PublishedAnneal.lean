import Verif.Lemmas.AnnealFit
import Verif.Lemmas.MaskDescent
import Verif.Lemmas.PublishedSeed
/-
Simulated annealing on the nine areas of the tests: whatever worsening moves of moderate size are made, a pass
over the two regions ends with the expected regions or lowers the value.
-/
namespace Region

open Spec Props

/-! ### Growing a region given by a bit mask -/

/-- The areas which can be taken into the region `m`. -/
def gains (nb : List Nat) (n m : Nat) : List Nat :=
  (List.range n).filter fun a => !m.testBit a && canMove nb n m a

/-- Every area taken in would raise the value. -/
def stopsAt (nb : List Nat) (D : Nat → Nat → Nat) (n m : Nat) : Bool :=
  (gains nb n m).all fun a => decide (0 < change D n m a)

/-- Taking in an area changes the potential `U` by no more than the value falls, for rises up to `cap`. -/
def descends (nb : List Nat) (D : Nat → Nat → Nat) (n : Nat) (cap : Int) (U : Nat → Int) (m : Nat) : Bool :=
  (gains nb n m).all fun a => decide (cap < change D n m a) ||
    decide (change D n m a + U (m ^^^ (1 <<< a)) ≤ U m)

/-- Both regions are connected. -/
def bothWhole (nb : List Nat) (n m : Nat) : Bool := !isBroken nb n m && !isBroken nb n (restOf n m)

section
variable {n : Nat} {adj : Adj n} {d : Fin n → Fin n → ℚ} {nb : List Nat} {D : Nat → Nat → Nat} {c : ℚ}

theorem mem_gains (hM : MaskMap adj d nb D c) {L : Labels n} {m : Nat} {r z : Int} (h : TwoReg L m r z)
    (a : Fin n) : a.val ∈ gains nb n m ↔ Admissible adj L a r := by
  unfold gains
  rw [List.mem_filter, List.mem_range, h.admissible_iff hM.symm hM.mask hM.decides]
  simp only [a.isLt, true_and, Bool.and_eq_true, Bool.not_eq_true', true_or, and_true]
  have h1 := h.left a
  constructor
  · rintro ⟨h2, h3⟩
    exact ⟨fun h4 => absurd (h1.2 h4) (by rw [h2]; simp), h3⟩
  · rintro ⟨h2, h3⟩
    exact ⟨Bool.not_eq_true _ ▸ fun h4 => h2 (h1.1 h4), h3⟩

theorem TwoReg.bothWhole (hM : MaskMap adj d nb D c) {L : Labels n} {m : Nat} {r z : Int} (h : TwoReg L m r z)
    (hL : Feasible adj L 2) : bothWhole nb n m = true := by
  obtain ⟨h1, h2⟩ := h.whole hM.symm hM.mask hL
  unfold Region.bothWhole
  rw [h1, h2]
  rfl

/-- While a region grows, the value and the potential together do not rise. -/
theorem hotGrown_potential (hM : MaskMap adj d nb D c) (hc : 0 < c) {cap : Int} (hcap : 0 ≤ cap)
    {take leave : ℚ → Prop} (htake : ∀ x, take x → x < c * ((cap : ℚ) + 1)) {U : Nat → Int}
    (hU : ∀ m < 2 ^ n, bothWhole nb n m = true → descends nb D n cap U m = true) {r z : Int}
    {x y : Annealing (Fin n)} (h : HotGrown adj (fun L => withinPairs L d) take leave r x y) :
    ∀ {m : Nat}, TwoReg x.labels m r z → Feasible adj x.labels 2 →
      ∃ (m' : Nat) (δ : Int), TwoReg y.labels m' r z ∧ Feasible adj y.labels 2 ∧
        withinPairs y.labels d = withinPairs x.labels d + c * (δ : ℚ) ∧
        stopsAt nb D n m' = true ∧ δ + U m' ≤ U m := by
  induction h with
  | @stop x h =>
    intro m hm hx
    refine ⟨m, 0, hm, hx, by simp, ?_, by omega⟩
    unfold stopsAt
    rw [List.all_eq_true]
    intro a ha
    have hlt : a < n := by
      unfold gains at ha
      exact List.mem_range.1 (List.mem_of_mem_filter ha)
    have hadm := (mem_gains hM hm ⟨a, hlt⟩).1 ha
    have h1 := (h _ hadm).1
    have hv := hm.value hM.dsymm hM.dzero hM.gap ⟨a, hlt⟩ hadm.1 (.inl rfl)
    rw [hv] at h1
    have h2 : 0 < c * (change D n m a : ℚ) := by linarith
    have h3 := (mul_pos_iff_of_pos_left hc).1 h2
    exact decide_eq_true (by exact_mod_cast h3)
  | @better x y a ha hv _ ih =>
    intro m hm hx
    have hval := hm.value hM.dsymm hM.dzero hM.gap a ha.1 (.inl rfl)
    obtain ⟨m', δ, h1, h2, h3, h4, h5⟩ := ih (hm.after a ha.1 (.inl rfl)) (moved_feasible hx ha)
    refine ⟨m', change D n m a.val + δ, h1, h2, ?_, h4, ?_⟩
    · rw [h3]
      dsimp only
      rw [hval]
      push_cast
      ring
    · have hd := List.all_eq_true.1 (hU m hm.lt (hm.bothWhole hM hx)) a.val ((mem_gains hM hm a).2 ha)
      rw [hval] at hv
      have h6 : c * (change D n m a.val : ℚ) ≤ 0 := by linarith
      have h7 : (change D n m a.val : ℚ) ≤ 0 := by
        by_contra hcon
        exact absurd h6 (not_le.2 (mul_pos hc (not_le.1 hcon)))
      have h8 : change D n m a.val ≤ 0 := by exact_mod_cast h7
      simp only [Bool.or_eq_true, decide_eq_true_eq] at hd
      omega
  | @worse x y a ha hv ht _ ih =>
    intro m hm hx
    have hval := hm.value hM.dsymm hM.dzero hM.gap a ha.1 (.inl rfl)
    obtain ⟨m', δ, h1, h2, h3, h4, h5⟩ := ih (hm.after a ha.1 (.inl rfl)) (moved_feasible hx ha)
    refine ⟨m', change D n m a.val + δ, h1, h2, ?_, h4, ?_⟩
    · rw [h3]
      dsimp only
      rw [hval]
      push_cast
      ring
    · have hd := List.all_eq_true.1 (hU m hm.lt (hm.bothWhole hM hx)) a.val ((mem_gains hM hm a).2 ha)
      have h6 := htake _ ht
      rw [hval] at h6
      have h7 : (change D n m a.val : ℚ) < (cap : ℚ) + 1 := by
        refine lt_of_mul_lt_mul_left (a := c) ?_ hc.le
        linarith
      have h8 : change D n m a.val < cap + 1 := by exact_mod_cast h7
      simp only [Bool.or_eq_true, decide_eq_true_eq] at hd
      omega

/-- The two regions one after the other. -/
theorem enumerates_two {L : Labels n} (hn : numRegions L = 2) {rs : List Int} (hr : Enumerates rs L) :
    ∃ m x y, TwoReg L m x y ∧ rs = [x, y] := by
  obtain ⟨m, x, y, hm⟩ := exists_twoReg rfl hn
  obtain ⟨⟨vx, hx⟩, vy, hy⟩ := hm.regions hn
  have hmem : ∀ z, z ∈ rs ↔ z = x ∨ z = y := by
    intro z
    rw [hr.2]
    constructor
    · rintro ⟨i, rfl⟩
      cases hi : m.testBit i.val with
      | true => exact .inl ((hm.left i).1 hi)
      | false => exact .inr ((hm.right i).1 hi)
    · rintro (rfl | rfl)
      · exact ⟨vx, hx⟩
      · exact ⟨vy, hy⟩
  match rs, hr.1, hmem with
  | [], _, h => exact absurd ((h x).2 (.inl rfl)) (by simp)
  | [a], _, h =>
    have h1 := (h x).2 (.inl rfl)
    have h2 := (h y).2 (.inr rfl)
    simp only [List.mem_singleton] at h1 h2
    exact absurd (h1.trans h2.symm) hm.ne
  | [a, b], hnd, h =>
    have ha := (h a).1 (by simp)
    have hb := (h b).1 (by simp)
    have hab : a ≠ b := by simpa using hnd
    rcases ha with rfl | rfl
    · exact ⟨m, a, b, (hb.resolve_left (Ne.symm hab)) ▸ hm, rfl⟩
    · exact ⟨_, a, b, (hb.resolve_right (Ne.symm hab)) ▸ hm.swap, rfl⟩
  | a :: b :: e :: rs, hnd, h =>
    have ha := (h a).1 (by simp)
    have hb := (h b).1 (by simp)
    have he := (h e).1 (by simp)
    simp only [List.nodup_cons, List.mem_cons, not_or] at hnd
    obtain ⟨⟨h1, h2, -⟩, ⟨h3, -⟩, -⟩ := hnd
    rcases ha with rfl | rfl <;> rcases hb with rfl | rfl <;> rcases he with rfl | rfl <;> simp_all

end

/-! ### The nine areas -/

/-- Bounds for the change of the value while the second region of a pass grows, in tenths, for the sets of
areas of that region; none if only the expected regions can be reached. -/
def duqueSecond : List Int :=
  [0, -12937, -37030, -7566, -29414, 0, -22262, -1000000, -28032, -7032, 0, 6751, 0, 0, 0, -3801, -31593,
   0, -29657, -9827, 0, 0, -19735, -4693, -16054, -4688, 0, 1523, 0, 0, 0, 919, -29603, 0, 0, 0, -12235, 0,
   -7935, -1000000, 0, 0, 0, 0, 0, 0, 0, 0, -20353, 0, 0, 0, -7831, 0, -10128, 0, 0, 0, 0, 0, 0, 0, 0, 0,
   -25967, 0, 0, 0, 0, 0, 0, 0, -10126, -242, 0, 4487, 0, 0, 0, 2401, 0, 0, 0, 0, 0, 0, 0, 0, -6496, -6246,
   0, 0, 0, 0, 0, 0, 0, 0, 0, 0, 0, 0, 0, 0, 0, 0, 0, 0, 0, 0, 0, 0, 0, 0, 0, 0, 0, 0, 0, 0, 0, 0, 0, 0, 0,
   0, 0, 0, -31752, 0, 0, 0, 0, 0, 0, 0, 0, 0, 0, 0, 0, 0, 0, 0, -24054, 0, 0, 0, 0, 0, 0, 0, 0, 0, 0, 0,
   0, 0, 0, 0, 0, 0, 0, 0, 0, 0, 0, 0, 0, 0, 0, 0, 0, 0, 0, 0, 0, 0, 0, 0, 0, 0, 0, 0, 0, 0, 0, 0, 0, 0, 0,
   0, -20852, 0, 0, 0, 0, 0, 0, 0, -5521, -5653, 0, 0, 0, 0, 0, 0, -1000000, 0, 0, 0, 0, 0, 0, 0, -1000000,
   -3098, 0, 0, 0, 0, 0, 0, 0, 0, 0, 0, 0, 0, 0, 0, 0, 0, 0, 0, 0, 0, 0, 0, 0, 0, 0, 0, 0, 0, 0, 0, 0, 0,
   0, 0, 0, 0, 0, 0, -31782, 0, 0, 0, 0, 0, 0, 0, 0, 0, 0, 0, 0, 0, 0, 0, 0, 0, 0, 0, 0, 0, 0, 0, 0, 0, 0,
   0, 0, 0, 0, 0, -19559, 0, 0, 0, -7399, 0, 2423, 0, 0, 0, 0, 0, 0, 0, 0, 0, -10671, 0, 0, 0, -3357, 0,
   -132, 0, 0, 0, 0, 0, 0, 0, 0, 0, 0, 0, 0, 0, 0, 0, 0, 0, 0, 0, 0, 0, 0, 0, 0, 0, 0, 0, 0, 0, 0, 0, 0, 0,
   0, 0, 0, 0, 0, 0, 0, 0, 0, 0, 0, 0, 0, 0, 0, 0, 0, 0, 0, 0, 0, 0, 0, 0, 0, 0, 0, 0, 0, 0, 0, 0, 0, 0, 0,
   0, 0, 0, 0, 0, -16646, 0, 0, 0, 0, 0, 0, 0, 0, 0, 0, 0, 0, 0, 0, 0, -9310, 0, 0, 0, 0, 0, 0, 0, 0, 0, 0,
   0, 0, 0, 0, 0, -9525, 0, 0, 0, -2593, 0, 250, 0, 0, 0, 0, 0, 0, 0, 0, 0, -6909, 0, 0, 0, -4823, 0, 0, 0,
   0, 0, 0, 0, 0, 0, 0, 0, -7235, 0, 0, 0, 0, 0, 0, 0, -1000000, -2193, 0, 0, 0, 0, 0, 0, -1000000, 0, 0,
   0, 0, 0, 0, 0, -1000000, 0, 0, 0, 0, 0, 0, 0, -6316, 0, 0, 0, -5712, 0, 0, 0, -7107, 2527, 0, 0, -2261,
   0, 0, 0, -8297, 0, 0, 0, -2559, 0, 0, 0, 0, 0, 0, 0, 0, 0, 0, 0]

/-- Bounds for the change of the value during a whole pass, for the sets of areas of the first region. -/
def duqueFirst : List Int :=
  [0, -22247, -1000000, -997739, -35910, 0, -1000000, -1000000, -37342, -16342, 0, -2559, 0, 0, 0,
   -1000000, -38459, 0, -1000000, -1000000, 0, 0, -1000000, -1000000, -23289, -11923, 0, -5712, 0, 0, 0,
   -6316, -36099, 0, 0, 0, -18731, 0, -997807, -1000000, 0, 0, 0, 0, 0, 0, 0, -1000000, -25874, 0, 0, 0,
   -13352, 0, -1000000, -1000000, 0, 0, 0, 0, 0, 0, 0, -7235, -35277, 0, 0, 0, 0, 0, 0, 0, -19436, -9552,
   0, -4823, 0, 0, 0, -6909, 0, 0, 0, 0, 0, 0, 0, 0, -14431, -14181, 0, -2593, 0, 0, 0, -9525, 0, 0, 0, 0,
   0, 0, 0, 0, 0, 0, 0, 0, 0, 0, 0, -9310, 0, 0, 0, 0, 0, 0, 0, 0, 0, 0, 0, 0, 0, 0, 0, -16646, -38248, 0,
   0, 0, 0, 0, 0, 0, 0, 0, 0, 0, 0, 0, 0, 0, -31620, 0, 0, 0, 0, 0, 0, 0, 0, 0, 0, 0, 0, 0, 0, 0, 0, 0, 0,
   0, 0, 0, 0, 0, 0, 0, 0, 0, 0, 0, 0, 0, 0, 0, 0, 0, 0, 0, 0, 0, 0, 0, 0, 0, 0, 0, 0, 0, -28787, 0, 0, 0,
   0, 0, 0, 0, -13456, -13588, 0, -3357, 0, 0, 0, -10671, -1000000, 0, 0, 0, 0, 0, 0, 0, -1000000, -11033,
   0, -7399, 0, 0, 0, -19559, 0, 0, 0, 0, 0, 0, 0, 0, 0, 0, 0, 0, 0, 0, 0, 0, 0, 0, 0, 0, 0, 0, 0, 0, 0, 0,
   0, 0, 0, 0, 0, -31782, -38278, 0, 0, 0, 0, 0, 0, 0, 0, 0, 0, 0, 0, 0, 0, 0, 0, 0, 0, 0, 0, 0, 0, 0, 0,
   0, 0, 0, 0, 0, 0, 0, -26055, 0, 0, 0, -13895, 0, -3098, -1000000, 0, 0, 0, 0, 0, 0, 0, -1000000, -16192,
   0, 0, 0, -8878, 0, -5653, -5521, 0, 0, 0, 0, 0, 0, 0, -20852, 0, 0, 0, 0, 0, 0, 0, 0, 0, 0, 0, 0, 0, 0,
   0, 0, 0, 0, 0, 0, 0, 0, 0, 0, 0, 0, 0, 0, 0, 0, 0, 0, 0, 0, 0, 0, 0, 0, 0, 0, 0, 0, 0, 0, 0, 0, 0,
   -24054, 0, 0, 0, 0, 0, 0, 0, 0, 0, 0, 0, 0, 0, 0, 0, -31752, -23142, 0, 0, 0, 0, 0, 0, 0, 0, 0, 0, 0, 0,
   0, 0, 0, -16876, 0, 0, 0, 0, 0, 0, 0, 0, 0, 0, 0, 0, 0, 0, 0, -16021, 0, 0, 0, -9089, 0, -6246, -6496,
   0, 0, 0, 0, 0, 0, 0, 0, -14475, 0, 0, 0, -12389, 0, -242, -10126, 0, 0, 0, 0, 0, 0, 0, -25967, -14801,
   0, 0, 0, 0, 0, 0, 0, -1000000, -10128, 0, -7831, 0, 0, 0, -20353, -1000000, 0, 0, 0, 0, 0, 0, 0,
   -1000000, -7935, 0, -12235, 0, 0, 0, -29603, -13882, 0, 0, 0, -13278, 0, -4688, -16054, -1000000,
   -19735, 0, 0, -9827, -29657, 0, -31593, -1000000, 0, 0, 0, -10125, 0, -7032, -28032, -1000000, -22262,
   0, -29414, -7566, -37030, -12937, 0]

/-- The tests that the bounds are bounds, and that a whole pass lowers the value. -/
def duqueBounds (m : Nat) : Bool :=
  !bothWhole duqueNb 9 m ||
    (descends duqueNb duqueGap 9 2558 (fun m => duqueSecond.getD m 0) m &&
      descends duqueNb duqueGap 9 2558 (fun m => duqueFirst.getD m 0) m &&
      (!stopsAt duqueNb duqueGap 9 m || m == 0b000100111 || m == 0b111011000 ||
        decide (0 ≤ duqueSecond.getD m 0)) &&
      (!stopsAt duqueNb duqueGap 9 m || decide (duqueSecond.getD (restOf 9 m) 0 ≤ duqueFirst.getD m 0)) &&
      decide (duqueFirst.getD m 0 < 0))

theorem duque_bounds : (List.range (2 ^ 9)).all duqueBounds = true := by decide +kernel

theorem duque_bounds_at {m : Nat} (hm : m < 2 ^ 9) (hw : bothWhole duqueNb 9 m = true) :
    descends duqueNb duqueGap 9 2558 (fun m => duqueSecond.getD m 0) m = true ∧
      descends duqueNb duqueGap 9 2558 (fun m => duqueFirst.getD m 0) m = true ∧
      (stopsAt duqueNb duqueGap 9 m = true → m = 0b000100111 ∨ m = 0b111011000 ∨ 0 ≤ duqueSecond.getD m 0) ∧
      (stopsAt duqueNb duqueGap 9 m = true → duqueSecond.getD (restOf 9 m) 0 ≤ duqueFirst.getD m 0) ∧
      duqueFirst.getD m 0 < 0 := by
  have h := List.all_eq_true.1 duque_bounds m (List.mem_range.2 hm)
  unfold duqueBounds at h
  rw [hw] at h
  simp only [Bool.not_true, Bool.false_or, Bool.and_eq_true, Bool.or_eq_true, Bool.not_eq_true', beq_iff_eq,
    decide_eq_true_eq] at h
  obtain ⟨⟨⟨⟨h1, h2⟩, h3⟩, h4⟩, h5⟩ := h
  refine ⟨h1, h2, fun hs => ?_, fun hs => ?_, h5⟩
  · rw [hs] at h3
    simpa [or_assoc] using h3
  · rw [hs] at h4
    simpa using h4

theorem duque_expected {L : Labels 9} {m : Nat} {x y : Int} (h : TwoReg L m x y)
    (hm : m = 0b000100111 ∨ m = 0b111011000) : SamePartition L duqueLabels := by
  intro i j
  rw [← duque_labels]
  have h1 : L i = L j ↔ m.testBit i.val = m.testBit j.val := by
    cases hi : m.testBit i.val with
    | true =>
      rw [(h.left i).1 hi, eq_comm, ← h.left j, eq_comm]
    | false =>
      rw [(h.right i).1 hi, eq_comm, ← h.right j, eq_comm]
  rw [h1]
  rcases hm with rfl | rfl
  · clear h1 h
    revert i j
    decide +kernel
  · rfl

section
variable {d : Fin 9 → Fin 9 → ℚ} {c : ℚ} {take leave : ℚ → Prop}

/-- One pass over the two regions. -/
theorem duque_pass (h : DuqueLike d c) (htake : ∀ x, take x → x < c * (2559 / 10)) {rs : List Int}
    {x y : Annealing (Fin 9)} (hx : Feasible duqueAdj x.labels 2) (hr : Enumerates rs x.labels)
    (hp : HotPassed duqueAdj (fun L => withinPairs L d) take leave rs x y) :
    Feasible duqueAdj y.labels 2 ∧
      (SamePartition y.labels duqueLabels ∨ withinPairs y.labels d < withinPairs x.labels d) := by
  obtain ⟨m, r1, r2, hm, rfl⟩ := enumerates_two hx.2 hr
  have hc : 0 < c / 10 := div_pos h.1 (by norm_num)
  have htake' : ∀ x, take x → x < c / 10 * (((2558 : Int) : ℚ) + 1) := by
    intro x hx
    have := htake x hx
    push_cast
    linarith
  cases hp with
  | @cons _ _ _ u _ h1 hp =>
    cases hp with
    | @cons _ _ _ w _ h2 hp =>
      cases hp
      obtain ⟨m1, δ1, g1, g2, g3, g4, g5⟩ := hotGrown_potential h.map hc (by norm_num) htake'
        (U := fun m => duqueFirst.getD m 0) (fun m hm hw => (duque_bounds_at hm hw).2.1) h1 hm hx
      obtain ⟨m2, δ2, k1, k2, k3, k4, k5⟩ := hotGrown_potential h.map hc (by norm_num) htake'
        (U := fun m => duqueSecond.getD m 0) (fun m hm hw => (duque_bounds_at hm hw).1) h2 g1.swap g2
      refine ⟨k2, ?_⟩
      have b0 := (duque_bounds_at hm.lt (hm.bothWhole h.map hx)).2.2.2.2
      have b1 := (duque_bounds_at g1.lt (g1.bothWhole h.map g2)).2.2.2.1 g4
      rcases (duque_bounds_at k1.lt (k1.bothWhole h.map k2)).2.2.1 k4 with b2 | b2 | b2
      · exact .inl (duque_expected k1 (.inl b2))
      · exact .inl (duque_expected k1 (.inr b2))
      · right
        have hneg : δ1 + δ2 < 0 := by
          omega
        have hneg' : (δ1 : ℚ) + δ2 < 0 := by exact_mod_cast hneg
        rw [k3, g3]
        have := mul_neg_of_pos_of_neg hc hneg'
        linarith

/-- The passes are only over when the regions are the expected ones. -/
theorem duque_rounds (h : DuqueLike d c) (htake : ∀ x, take x → x < c * (2559 / 10))
    {x y : Annealing (Fin 9)} (hr : HotRounds duqueAdj (fun L => withinPairs L d) take leave x y)
    (hx : Feasible duqueAdj x.labels 2) :
    Feasible duqueAdj y.labels 2 ∧ SamePartition y.labels duqueLabels := by
  induction hr with
  | last hr hp hv =>
    obtain ⟨h1, h2⟩ := duque_pass h htake hx hr hp
    exact ⟨h1, h2.resolve_right hv⟩
  | again hr hp _ _ ih => exact ih (duque_pass h htake hx hr hp).1

end

/-! ### A run that leads back to its start -/

/-- The areas `as` can be taken in one after the other, with rises up to `cap`; the region is then `m'`, and
nothing has to be taken in any more. -/
def follows (nb : List Nat) (D : Nat → Nat → Nat) (n : Nat) (cap : Int) : Nat → List Nat → Nat → Bool
  | m, [], m' => m == m' && stopsAt nb D n m
  | m, a :: as, m' => (gains nb n m).contains a && decide (change D n m a ≤ cap) &&
      follows nb D n cap (m ^^^ (1 <<< a)) as m'

theorem hotGrown_follows {n : Nat} {adj : Adj n} {d : Fin n → Fin n → ℚ} {nb : List Nat} {D : Nat → Nat → Nat}
    {c : ℚ} (hM : MaskMap adj d nb D c) (hc : 0 < c) {cap : Int} {take leave : ℚ → Prop}
    (htake : ∀ x, 0 < x → x ≤ c * (cap : ℚ) → take x) (hleave : ∀ x, c ≤ x → leave x) {r z : Int} {m' : Nat} :
    ∀ (as : List Nat) (m : Nat) (x : Annealing (Fin n)), follows nb D n cap m as m' = true →
      TwoReg x.labels m r z → ∃ y, HotGrown adj (fun L => withinPairs L d) take leave r x y ∧
        TwoReg y.labels m' r z ∧ (x.moved = true ∨ as ≠ [] → y.moved = true) := by
  intro as
  induction as with
  | nil =>
    intro m x hf hm
    simp only [follows, Bool.and_eq_true, beq_iff_eq] at hf
    obtain ⟨rfl, hstop⟩ := hf
    refine ⟨x, .stop fun a ha => ?_, hm, fun h => h.resolve_right (by simp)⟩
    have h1 := of_decide_eq_true (List.all_eq_true.1 hstop a.val ((mem_gains hM hm a).2 ha))
    have hv := hm.value hM.dsymm hM.dzero hM.gap a ha.1 (.inl rfl)
    have h2 : (1 : ℚ) ≤ (change D n m a.val : ℚ) := by exact_mod_cast h1
    have h3 : c ≤ c * (change D n m a.val : ℚ) := le_mul_of_one_le_right hc.le h2
    rw [hv]
    exact ⟨by linarith, hleave _ (by linarith)⟩
  | cons a as ih =>
    intro m x hf hm
    simp only [follows, Bool.and_eq_true, decide_eq_true_eq, List.contains_iff_mem] at hf
    obtain ⟨⟨h1, h2⟩, h3⟩ := hf
    have hlt : a < n := by
      unfold gains at h1
      exact List.mem_range.1 (List.mem_of_mem_filter h1)
    have hadm := (mem_gains hM hm ⟨a, hlt⟩).1 h1
    have hv := hm.value hM.dsymm hM.dzero hM.gap ⟨a, hlt⟩ hadm.1 (.inl rfl)
    have hafter := hm.after ⟨a, hlt⟩ hadm.1 (.inl rfl)
    have h2' : (change D n m a : ℚ) ≤ cap := by exact_mod_cast h2
    rcases le_or_gt (withinPairs (moved x.labels ⟨a, hlt⟩ r) d) (withinPairs x.labels d) with hle | hgt
    · obtain ⟨y, g1, g2, g3⟩ := ih _ ⟨moved x.labels ⟨a, hlt⟩ r, x.worse, true⟩ h3 hafter
      exact ⟨y, .better hadm hle g1, g2, fun _ => g3 (.inl rfl)⟩
    · obtain ⟨y, g1, g2, g3⟩ := ih _ ⟨moved x.labels ⟨a, hlt⟩ r, x.worse + 1, true⟩ h3 hafter
      refine ⟨y, .worse hadm hgt (htake _ (by linarith) ?_) g1, g2, fun _ => g3 (.inl rfl)⟩
      rw [hv]
      have := mul_le_mul_of_nonneg_left h2' hc.le
      linarith

theorem TwoReg.labels_eq {n : Nat} {L M : Labels n} {m : Nat} {x y : Int} (h : TwoReg L m x y)
    (h' : TwoReg M m x y) : L = M := by
  funext i
  cases hi : m.testBit i.val with
  | true => rw [(h.left i).1 hi, (h'.left i).1 hi]
  | false => rw [(h.right i).1 hi, (h'.right i).1 hi]

theorem leftColumn_twoReg {L : Labels 9} (hi : SamePartition L leftColumn) :
    ∃ x y, TwoReg L 0b001001001 x y := by
  have hn : numRegions L = 2 := (numRegions_congr hi).trans leftColumn_feasible.2
  obtain ⟨m, x, y, hm, h0⟩ := exists_twoReg_with hn 0
  have hbit : ∀ i k : Fin 9, m.testBit i.val = m.testBit k.val ↔ leftColumn i = leftColumn k := by
    intro i k
    rw [← hi i k]
    exact hm.same i k
  have hall : ∀ m < 2 ^ 9, m.testBit 0 = true →
      (∀ i k : Fin 9, m.testBit i.val = m.testBit k.val ↔ leftColumn i = leftColumn k) →
      m = 0b001001001 := by decide +kernel
  obtain rfl := hall m hm.lt h0 hbit
  exact ⟨x, y, hm⟩

theorem leftColumn_cut : ∃ lab, CutFrom duqueAdj (forestOf .rowMajor duqueAdj) (2 : Nat) lab ∧
    SamePartition lab leftColumn :=
  ⟨cutLabels .rowMajor duqueAdj columnLinks,
    cutFrom_iff.2 ⟨columnLinks, columnLinks_sub, by decide +kernel, rfl⟩, fun u v =>
    (cutLabels_iff columnLinks_sub u v).trans (columnLinks_linked u v).symm⟩

theorem leftColumn_there : follows duqueNb duqueGap 9 2937 0b001001001 [4, 1] 0b001011011 = true := by
  decide +kernel

theorem leftColumn_back :
    follows duqueNb duqueGap 9 2937 (restOf 9 0b001011011) [1, 4] (restOf 9 0b001001001) = true := by
  decide +kernel

/-- The left column takes in two areas and the rest takes them back. -/
theorem leftColumn_stuck {d : Fin 9 → Fin 9 → ℚ} {c : ℚ} (h : DuqueLike d c) {take leave : ℚ → Prop}
    (htake : ∀ x, 0 < x → x ≤ c * (2937 / 10) → take x) (hleave : ∀ x, c / 10 ≤ x → leave x)
    {x : Annealing (Fin 9)} (hx : SamePartition x.labels leftColumn) :
    ∃ y, HotRounds duqueAdj (fun L => withinPairs L d) take leave x y ∧ y.labels = x.labels ∧
      y.moved = true := by
  obtain ⟨r1, r2, hm⟩ := leftColumn_twoReg hx
  have hn : numRegions x.labels = 2 := (numRegions_congr hx).trans leftColumn_feasible.2
  have hc : 0 < c / 10 := div_pos h.1 (by norm_num)
  have htake' : ∀ x, 0 < x → x ≤ c / 10 * ((2937 : Int) : ℚ) → take x := fun x h0 hx => htake x h0 (by
    push_cast at hx
    linarith)
  obtain ⟨u, g1, g2, g3⟩ := hotGrown_follows h.map hc htake' hleave _ _ x leftColumn_there hm
  obtain ⟨y, k1, k2, k3⟩ := hotGrown_follows h.map hc htake' hleave _ _ u leftColumn_back g2.swap
  have k4 := k2.swap
  rw [restOf_restOf] at k4
  have he : y.labels = x.labels := k4.labels_eq hm
  obtain ⟨hv1, hv2⟩ := hm.regions hn
  refine ⟨y, .last (rs := [r1, r2]) ⟨by simpa using hm.ne, fun z => ?_⟩ (.cons g1 (.cons k1 .nil)) ?_, he,
    k3 (.inr (by simp))⟩
  · simp only [List.mem_cons, List.not_mem_nil, or_false]
    constructor
    · rintro (rfl | rfl)
      · exact hv1
      · exact hv2
    · rintro ⟨i, rfl⟩
      cases hi : (0b001001001 : Nat).testBit i.val with
      | true => exact .inl ((hm.left i).1 hi)
      | false => exact .inr ((hm.right i).1 hi)
  · rw [he]
    exact lt_irrefl _

/-! ### Temperatures which lead back -/

section
variable {V : Type} [DecidableEq (V → Int)]

omit [DecidableEq (V → Int)] in
theorem atTemperature_stuck {limit : Option Int} {term : Nat} {run : Annealing V → Annealing V → Prop}
    {lab : V → Int} (hrun : ∀ w b, ∃ y, run ⟨lab, w, b⟩ y ∧ y.labels = lab ∧ y.moved = true) (it w : Nat)
    (b : Bool) (hb : b = true ∨ ((∀ m, limit = some m → (it : Int) < m) ∧ w < term)) :
    ∃ y, AtTemperature limit term run it ⟨lab, w, b⟩ y ∧ y.labels = lab ∧ y.moved = true := by
  by_cases hs : (∃ m, limit = some m ∧ m ≤ (it : Int)) ∨ term ≤ w
  · refine ⟨_, .stop hs, rfl, hb.resolve_right ?_⟩
    rintro ⟨h1, h2⟩
    rcases hs with ⟨m, hm, hl⟩ | hs
    · exact absurd (h1 m hm) (not_lt.2 hl)
    · omega
  · obtain ⟨y, h1, h2, h3⟩ := hrun w b
    push Not at hs
    exact ⟨y, .same (fun m hm => hs.1 m hm) hs.2 h1 h2, h2, h3⟩

theorem annealed_stuck {steps reps : Int} (hsteps : 0 < steps) {cooling T : ℚ}
    {stay : ℚ → Annealing V → Annealing V → Prop} {lab : V → Int}
    (hstay : ∀ j ≤ reps.toNat, ∀ b, ∃ y, stay (T * cooling ^ j) ⟨lab, 0, b⟩ y ∧ y.labels = lab ∧
      y.moved = true) :
    ∀ (k j : Nat) (seen : List (V → Int)) (w : Nat) (b : Bool), j + k = reps.toNat →
      j ≤ seen.count lab → Annealed steps reps cooling stay (T * cooling ^ j) 0 seen ⟨lab, w, b⟩ lab := by
  intro k
  induction k with
  | zero =>
    intro j seen w b hj hc
    obtain ⟨y, h1, h2, h3⟩ := hstay j (by omega) b
    have := Annealed.repeated (steps := steps) (reps := reps) (cooling := cooling) (stay := stay)
      (t := T * cooling ^ j) (still := 0) (seen := seen) (x := ⟨lab, w, b⟩) (y := y) (by simpa using hsteps) h1
      (by rw [h2]; omega)
    rwa [h2] at this
  | succ k ih =>
    intro j seen w b hj hc
    obtain ⟨y, h1, h2, h3⟩ := hstay j (by omega) b
    by_cases hr : reps ≤ (seen.count lab : Int)
    · have := Annealed.repeated (steps := steps) (reps := reps) (cooling := cooling) (stay := stay)
        (t := T * cooling ^ j) (still := 0) (seen := seen) (x := ⟨lab, w, b⟩) (y := y) (by simpa using hsteps)
        h1 (by rw [h2]; exact hr)
      rwa [h2] at this
    · refine .moved (y := y) (by simpa using hsteps) h1 (by rw [h2]; exact not_le.1 hr) h3 ?_
      have := ih (j + 1) (seen ++ [y.labels]) y.worse false (by omega) (by rw [h2]; simp; omega)
      rw [pow_succ, ← mul_assoc] at this
      rw [h2] at this ⊢
      exact this

end

end Region
