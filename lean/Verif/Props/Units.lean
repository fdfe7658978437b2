import Verif.Lemmas.RelTabu
import Verif.Lemmas.RelSkater
import Verif.Props.Compare
import Mathlib.Algebra.BigOperators.Fin
/-
Property theorems C88: the units in which the attributes are measured do not matter.
-/
namespace Region.Props

open Region Skater Spec Res

set_option synthInstance.maxSize 2000

/-- The second table of attributes says the same as the first in other units: every dissimilarity is
`c` times as large. -/
def OtherUnits {n : Nat} {ρ ρ' : Type} (c : ℚ) (metric : ρ → ρ → ℚ) (metric' : ρ' → ρ' → ℚ)
    (attr : Fin n → ρ) (attr' : Fin n → ρ') : Prop :=
  0 < c ∧ ∀ i j, metric' (attr' i) (attr' j) = c * metric (attr i) (attr j)

/-- The same for the distances from the centres of groups of areas. -/
def OtherCenters {n : Nat} {ρ ρ' : Type} (c : ℚ) (metric : ρ → ρ → ℚ) (metric' : ρ' → ρ' → ℚ)
    (center : List ρ → ρ) (center' : List ρ' → ρ') (attr : Fin n → ρ) (attr' : Fin n → ρ') : Prop :=
  0 < c ∧ ∀ i (group : List (Fin n)), group ≠ [] → metric' (attr' i) (center' (group.map attr')) =
    c * metric (attr i) (center (group.map attr))

/-- The labels, or the exception. -/
def labelsOf {α β : Type} (x : Res (α × β)) : Res α := x >>= fun y => .ok y.1

/-- `max_p` and the labels, or the exception. -/
def maxpOf {α β γ : Type} (x : Res (α × β × γ)) : Res (α × β) := x >>= fun y => .ok (y.1, y.2.1)

/-- The strategy with its values and temperature in other units. -/
def inUnits {n q : Nat} (c : ℚ) : Strat n q → Strat n q
  | .azp v => .azp (c * v)
  | .sa t term m v al mm => .sa (c * t) term m (c * v) al mm
  | .maxp s thr v i => .maxp s thr (c * v) (inUnits c i)

theorem inUnits_times {n q : Nat} (c : ℚ) (s : Strat n q) : Strat.Times c s (inUnits c s) := by
  induction s with
  | azp => rfl
  | sa => exact ⟨rfl, rfl, rfl, rfl, rfl, rfl⟩
  | maxp s thr _ _ ih => exact ⟨QuotaTimes.refl s thr, rfl, ih⟩

theorem labelsOf_eq {α β γ : Type} {R : α × β → α × γ → Prop} {x : Res (α × β)} {y : Res (α × γ)}
    (hR : ∀ a b, R a b → a.1 = b.1) (h : Rel R x y) : labelsOf y = labelsOf x := by
  cases x <;> cases y <;> first
    | exact h.elim
    | (have : _ = _ := h; subst this; rfl)
    | (have := hR _ _ h; simp [labelsOf, this])
    | rfl

theorem maxpOf_eq {α β γ δ : Type} {R : α × β × γ → α × β × δ → Prop} {x : Res (α × β × γ)}
    {y : Res (α × β × δ)} (hR : ∀ a b, R a b → a.1 = b.1 ∧ a.2.1 = b.2.1) (h : Rel R x y) :
    maxpOf y = maxpOf x := by
  cases x <;> cases y <;> first
    | exact h.elim
    | (have : _ = _ := h; subst this; rfl)
    | (have := hR _ _ h; simp [maxpOf, this])
    | rfl

theorem OtherUnits.scalesOn {n : Nat} {ρ ρ' : Type} {c : ℚ} {metric : ρ → ρ → ℚ}
    {metric' : ρ' → ρ' → ℚ} {attr : Fin n → ρ} {attr' : Fin n → ρ'}
    (h : OtherUnits c metric metric' attr attr') :
    ScalesOn c (pairwise metric) (pairwise metric') attr attr' :=
  fun _ => pairwise_scales fun _ _ => h.2 _ _

section
variable {n q : Nat} {ρ ρ' : Type} {c : ℚ} {metric : ρ → ρ → ℚ} {metric' : ρ' → ρ' → ℚ}
  {attr : Fin n → ρ} {attr' : Fin n → ρ'}

/-- C88: AZP finds the same regions in other units, whatever the strategy (the temperature of an
annealing strategy is measured in the same units as the attributes). -/
theorem c88_azp (h : OtherUnits c metric metric' attr attr') (o : MstOrder) (expf : ℚ → ℚ)
    (fuel : Nat) (adj : Adj n) (p : Int) (initial : Option (Labels n)) (st : Strat n q) (r : Rng) :
    labelsOf (azpFit o expf (pairwise metric') fuel adj attr' p initial (inUnits c st) r) =
      labelsOf (azpFit o expf (pairwise metric) fuel adj attr p initial st r) :=
  labelsOf_eq (fun _ _ h => h.1)
    (azpFit_rel o expf h.1 h.scalesOn fuel adj p initial (inUnits_times c st) r)

/-- C88: so does simulated annealing, if the initial temperature is converted, too. -/
theorem c88_sa (h : OtherUnits c metric metric' attr attr') (o : MstOrder) (expf : ℚ → ℚ)
    (f1 f2 f3 : Nat) (P : SaParams) (self : SaObj) (adj : Adj n) (p : Int)
    (initial : Option (Labels n)) (cooling : ℚ) (r : Rng) :
    labelsOf (saFit o expf (pairwise metric') f1 f2 f3
        { P with initTemperature := c * P.initTemperature } self adj attr' p initial cooling r) =
      labelsOf (saFit o expf (pairwise metric) f1 f2 f3 P self adj attr p initial cooling r) :=
  labelsOf_eq (fun _ _ h => h.1)
    (saFit_rel o expf h.1 h.scalesOn f1 f2 f3 P self adj p initial cooling r)

/-- C88: the basic tabu search. -/
theorem c88_basic_tabu (h : OtherUnits c metric metric' attr attr') (o : MstOrder) (expf : ℚ → ℚ)
    (fuel : Nat) (len : Option Nat) (reps : Int) (adj : Adj n) (p : Int)
    (initial : Option (Labels n)) (st : Strat n q) (r : Rng) :
    labelsOf (basicTabuFit o expf (pairwise metric') fuel len reps adj attr' p initial
        (inUnits c st) r) =
      labelsOf (basicTabuFit o expf (pairwise metric) fuel len reps adj attr p initial st r) :=
  labelsOf_eq (fun _ _ h => h.1)
    (basicTabuFit_rel o expf h.1 h.scalesOn fuel len reps adj p initial (inUnits_times c st) r)

/-- C88: the reactive tabu search. -/
theorem c88_reactive_tabu (h : OtherUnits c metric metric' attr attr') (o : MstOrder)
    (expf : ℚ → ℚ) (maxIt : Nat) (k1 k2 : Int) (adj : Adj n) (p : Int)
    (initial : Option (Labels n)) (s : ReactSelf (Strat n q)) (r : Rng) :
    labelsOf (reactiveTabuFit o expf (pairwise metric') maxIt k1 k2 adj attr' p initial
        { s with strat := inUnits c s.strat } r) =
      labelsOf (reactiveTabuFit o expf (pairwise metric) maxIt k1 k2 adj attr p initial s r) := by
  have hs : s.Corr (Strat.Times c) { s with strat := inUnits c s.strat } :=
    ⟨rfl, rfl, rfl, inUnits_times c s.strat⟩
  exact labelsOf_eq (fun _ _ h => h.1)
    (reactiveTabuFit_rel o expf h.1 h.scalesOn maxIt k1 k2 adj p initial hs r)

/-- C88: the max-p heuristic with AZP as local search. -/
theorem c88_maxp_azp (h : OtherUnits c metric metric' attr attr') (o : MstOrder) (expf : ℚ → ℚ)
    (fuel : Nat) (adj : Adj n) (spat : Fin n → Fin q → ℚ) (thr : Fin q → ℚ) (maxIt : Nat)
    (st : Strat n q) (r : Rng) :
    maxpOf (maxpFit (azpSearch o expf (pairwise metric') fuel adj attr') metric' (pairwise metric')
        adj attr' spat thr maxIt (inUnits c st) r) =
      maxpOf (maxpFit (azpSearch o expf (pairwise metric) fuel adj attr) metric (pairwise metric)
        adj attr spat thr maxIt st r) :=
  maxpOf_eq (fun _ _ h => ⟨h.1, h.2.1⟩)
    (maxpFit_rel h.1 h.2 (azpSearch_alike o expf h.1 h.scalesOn fuel adj) (h.scalesOn id) adj (QuotaTimes.refl spat thr) maxIt (inUnits_times c st) r)

/-- C88: with the basic tabu search as local search. -/
theorem c88_maxp_basic_tabu (h : OtherUnits c metric metric' attr attr') (o : MstOrder)
    (expf : ℚ → ℚ) (fuel : Nat) (len : Option Nat) (reps : Int) (adj : Adj n)
    (spat : Fin n → Fin q → ℚ) (thr : Fin q → ℚ) (maxIt : Nat) (st : Strat n q) (r : Rng) :
    maxpOf (maxpFit (basicTabuSearch o expf (pairwise metric') fuel len reps adj attr') metric'
        (pairwise metric') adj attr' spat thr maxIt (inUnits c st) r) =
      maxpOf (maxpFit (basicTabuSearch o expf (pairwise metric) fuel len reps adj attr) metric
        (pairwise metric) adj attr spat thr maxIt st r) :=
  maxpOf_eq (fun _ _ h => ⟨h.1, h.2.1⟩)
    (maxpFit_rel h.1 h.2 (basicTabuSearch_alike o expf h.1 h.scalesOn fuel len reps adj)
      (h.scalesOn id) adj (QuotaTimes.refl spat thr) maxIt (inUnits_times c st) r)

/-- C88: with the reactive tabu search as local search. -/
theorem c88_maxp_reactive_tabu (h : OtherUnits c metric metric' attr attr') (o : MstOrder)
    (expf : ℚ → ℚ) (searchIt : Nat) (k1 k2 : Int) (adj : Adj n) (spat : Fin n → Fin q → ℚ)
    (thr : Fin q → ℚ) (maxIt : Nat) (s : ReactSelf (Strat n q)) (r : Rng) :
    maxpOf (maxpFit (reactiveTabuSearch o expf (pairwise metric') searchIt k1 k2 adj attr') metric'
        (pairwise metric') adj attr' spat thr maxIt { s with strat := inUnits c s.strat } r) =
      maxpOf (maxpFit (reactiveTabuSearch o expf (pairwise metric) searchIt k1 k2 adj attr) metric
        (pairwise metric) adj attr spat thr maxIt s r) := by
  have hs : s.Corr (Strat.Times c) { s with strat := inUnits c s.strat } :=
    ⟨rfl, rfl, rfl, inUnits_times c s.strat⟩
  exact maxpOf_eq (fun _ _ h => ⟨h.1, h.2.1⟩)
    (maxpFit_rel h.1 h.2 (reactiveTabuSearch_alike o expf h.1 h.scalesOn searchIt k1 k2 adj)
      (h.scalesOn id) adj (QuotaTimes.refl spat thr) maxIt hs r)

/-- C88: with simulated annealing as local search. -/
theorem c88_maxp_sa (h : OtherUnits c metric metric' attr attr') (o : MstOrder) (expf : ℚ → ℚ)
    (f1 f2 f3 : Nat) (P : SaParams) (adj : Adj n) (spat : Fin n → Fin q → ℚ) (thr : Fin q → ℚ)
    (maxIt : Nat) (self : SaObj) (r : Rng) :
    maxpOf (maxpFit (saSearch o expf (pairwise metric') f1 f2 f3
        { P with initTemperature := c * P.initTemperature } adj attr') metric'
        (pairwise metric') adj attr' spat thr maxIt self r) =
      maxpOf (maxpFit (saSearch o expf (pairwise metric) f1 f2 f3 P adj attr) metric
        (pairwise metric) adj attr spat thr maxIt self r) :=
  maxpOf_eq (fun _ _ h => ⟨h.1, h.2.1⟩)
    (maxpFit_rel h.1 h.2 (saSearch_alike o expf h.1 h.scalesOn f1 f2 f3 P adj)
      (h.scalesOn id) adj (QuotaTimes.refl spat thr) maxIt rfl r)

/-- C88 for the exact methods: the same clusterings are optimal. -/
theorem c88_optimal (h : OtherUnits c metric metric' attr attr') (adj : Adj n) (p : Nat)
    (L : Labels n) :
    (∀ L', Feasible adj L' p → (pairwise metric').call L attr' ≤ (pairwise metric').call L' attr') ↔
      ∀ L', Feasible adj L' p → (pairwise metric).call L attr ≤ (pairwise metric).call L' attr := by
  have hs := h.scalesOn id
  have h1 : ∀ L, (pairwise metric').call L attr' = c * (pairwise metric).call L attr :=
    fun L => hs.call L
  simp only [h1, mul_le_mul_iff_right₀ h.1]

/-- C88 for the centre objective: AZP finds the same regions, if the reduction respects units. -/
theorem c88_azp_center {center : List ρ → ρ} {center' : List ρ' → ρ'} {reduction : List ℚ → ℚ}
    (h : OtherCenters c metric metric' center center' attr attr')
    (hred : ∀ l, reduction (l.map (c * ·)) = c * reduction l) (o : MstOrder) (expf : ℚ → ℚ)
    (fuel : Nat) (adj : Adj n) (p : Int) (initial : Option (Labels n)) (st : Strat n q) (r : Rng) :
    labelsOf (azpFit o expf (centered metric' center' reduction) fuel adj attr' p initial
        (inUnits c st) r) =
      labelsOf (azpFit o expf (centered metric center reduction) fuel adj attr p initial st r) := by
  refine labelsOf_eq (fun _ _ h => h.1)
    (azpFit_rel o expf h.1 ?_ fuel adj p initial (inUnits_times c st) r)
  intro k f
  refine centered_scales hred fun i l hl => ?_
  have := h.2 (f i) (l.map f) (by simpa using hl)
  simpa [List.map_map, Function.comp_def] using this

end

/-- C88 for SKATER: the same forest and the same regions in other units, provided that equally long
edges are still visited in the same order; the scores are converted. -/
theorem c88_skater {n m m' : Nat} {c : ℚ} {d : Metric} {d' : Metric}
    {center center' : (m : Nat) → List (Row m) → Row m} {reduction : List ℚ → ℚ}
    {data : Fin n → Row m} {data' : Fin n → Row m'}
    (hd : OtherUnits c (d m) (d' m') data data')
    (hcen : OtherCenters c (d m) (d' m') (center m) (center' m') data data')
    (hred : ∀ l, reduction (l.map (c * ·)) = c * reduction l) {o : WeightOrder}
    (ho : ∀ w : Fin n → Fin n → ℚ, o.order (fun i j => c * w i j) = o.order w) (fuel : Nat)
    (k : Option Int) (W : Adj n) (quorum : Option ℚ) (trace : Bool) (islands : String) :
    Rel (fun x y => y.labels = x.labels ∧ y.forest = x.forest ∧
        y.trace = x.trace.map fun t => (t.1, t.2.map fun e => (e.1, c * e.2)))
      (fit o ⟨.dissimilarity d, reduction, center⟩ fuel k W (some ⟨m, data⟩) quorum trace islands)
      (fit o ⟨.dissimilarity d', reduction, center'⟩ fuel k W (some ⟨m', data'⟩) quorum trace
        islands) := by
  refine fitKernel_rel ⟨hd.1, hred, ?_⟩ o fuel k W ?_ quorum trace islands
  · intro l
    simp only [SkMetric.cross, List.map_eq_nil_iff]
    split_ifs with hl
    · rfl
    · change _ = _
      simp only [List.map_map]
      refine List.map_congr_left fun i _ => ?_
      exact hcen.2 i l hl
  · refine Eq.trans ?_ (ho (dissim W (SkMetric.kernel (.dissimilarity d) data)))
    congr 1
    funext i j
    unfold dissim
    split_ifs
    · exact hd.2 i j
    · simp

/-! ### Changing the unit and the zero of a table of numbers -/

theorem manhattan_affine {m : Nat} (c : ℚ) (b x y : Row m) :
    manhattan (fun t => c * x t + b t) (fun t => c * y t + b t) = |c| * manhattan x y := by
  unfold manhattan
  refine sum_map_scale |c| _ _ _ fun t => ?_
  rw [← abs_mul]
  congr 1
  ring

/-- C88: multiplying every number by a constant (the same for all columns) other than 0 and adding
constants to the columns is a change of units for the default metric. -/
theorem c88_affine {n m : Nat} {c : ℚ} (hc : c ≠ 0) (b : Row m) (attr : Fin n → Row m) :
    OtherUnits |c| manhattan manhattan attr fun i t => c * attr i t + b t :=
  ⟨abs_pos.2 hc, fun _ _ => manhattan_affine c b _ _⟩

theorem meanRow_affine {n m : Nat} (c : ℚ) (b : Row m) (attr : Fin n → Row m) {l : List (Fin n)}
    (hl : l ≠ []) : meanRow (l.map fun i t => c * attr i t + b t) =
      fun t => c * meanRow (l.map attr) t + b t := by
  funext t
  have hpos : (l.length : ℚ) ≠ 0 := by simpa using hl
  have : ∀ l : List (Fin n), (l.map fun i => c * attr i t + b t).sum =
      c * (l.map fun i => attr i t).sum + l.length * b t := by
    intro l
    induction l with
    | nil => simp
    | cons x xs ih => simp [ih]; ring
  simp only [meanRow, List.map_map, List.length_map, Function.comp_def, this]
  field_simp

/-- C88: the same for the distances from mean rows. -/
theorem c88_affine_centers {n m : Nat} {c : ℚ} (hc : c ≠ 0) (b : Row m) (attr : Fin n → Row m) :
    OtherCenters |c| manhattan manhattan meanRow meanRow attr fun i t => c * attr i t + b t := by
  refine ⟨abs_pos.2 hc, fun i l hl => ?_⟩
  rw [meanRow_affine c b attr hl]
  exact manhattan_affine c b _ _

/-- C88: a column that says the same as another one for all areas makes no difference either. -/
theorem c88_double {n m : Nat} (attr : Fin n → Row m) :
    OtherUnits 2 manhattan manhattan attr fun i => Fin.append (attr i) (attr i) := by
  refine ⟨by norm_num, fun i j => ?_⟩
  unfold manhattan
  rw [← Fin.sum_univ_def, ← Fin.sum_univ_def, Fin.sum_univ_add]
  simp only [Fin.append_left, Fin.append_right]
  ring

theorem sum_units (c : ℚ) (l : List ℚ) : (l.map (c * ·)).sum = c * l.sum := by
  simpa using sum_map_scale c l (fun x => x) (c * ·) fun _ => rfl

/-- Sorting the entries by weight, equal weights in their original order, does not depend on units. -/
theorem stableOrder_units {n : Nat} {c : ℚ} (hc : 0 < c) (w : Fin n → Fin n → ℚ) :
    stableOrder.order (fun i j => c * w i j) = stableOrder.order w := by
  simp only [stableOrder, mul_le_mul_iff_right₀ hc, ne_eq, mul_eq_zero, hc.ne', false_or]

/-- C88: SKATER with its default arguments finds the same regions after a change of units, and the
scores of the trace are converted. -/
theorem c88_skater_default {n m : Nat} {c : ℚ} (hc : c ≠ 0) (b : Row m) (data : Fin n → Row m)
    (fuel : Nat) (k : Option Int) (W : Adj n) (quorum : Option ℚ) (trace : Bool)
    (islands : String) :
    Rel (fun x y => y.labels = x.labels ∧ y.forest = x.forest ∧
        y.trace = x.trace.map fun t => (t.1, t.2.map fun e => (e.1, |c| * e.2)))
      (fit stableOrder .default fuel k W (some ⟨m, data⟩) quorum trace islands)
      (fit stableOrder .default fuel k W (some ⟨m, fun i t => c * data i t + b t⟩) quorum trace
        islands) :=
  c88_skater (d := fun _ => manhattan) (d' := fun _ => manhattan) (center := fun _ => meanRow)
    (center' := fun _ => meanRow) (c88_affine hc b data) (c88_affine_centers hc b data)
    (sum_units _) (stableOrder_units (abs_pos.2 hc)) fuel k W quorum trace islands

/-- The result of simulated annealing in a form that can be compared. -/
def seenLabels {n : Nat} : Res (Option (Labels n)) → List Int
  | .ok (some L) => arrayList L
  | _ => []

/-- C88: the initial temperature has to be converted.  Doubling all attributes and keeping the
temperature changes the result (here for a cut-off instead of the exponential function). -/
theorem c88_temperature_matters :
    ∃ (P : SaParams) (r : Rng),
      labelsOf (saFit .rowMajor (fun x => if -1 ≤ x then 1 else 0) (pairwise manhattan) 2 2 5 P
        .fresh path3 (fun i t => 2 * column ![0, 1, 10] i t) 2 (some ![0, 0, 1]) (1/2) r) ≠
      labelsOf (saFit .rowMajor (fun x => if -1 ≤ x then 1 else 0) (pairwise manhattan) 2 2 5 P
        .fresh path3 (column ![0, 1, 10]) 2 (some ![0, 0, 1]) (1/2) r) := by
  refine ⟨⟨8, some 1, .int 9, 1, 0⟩, fun _ => 0, fun h => ?_⟩
  have := congrArg seenLabels h
  revert this
  decide +kernel

/-- Temperatures in degrees Celsius and in degrees Fahrenheit. -/
example : OtherUnits (9/5) manhattan manhattan (column ![10, 20, 5, 0])
    (column ![50, 68, 41, 32]) := by
  refine ⟨by norm_num, ?_⟩
  decide +kernel

/-- A table with a repeated column, and one turned upside down. -/
example : OtherUnits 2 manhattan manhattan (ramp 3)
      (fun i => (![(i.val : ℚ), (i.val : ℚ)] : Row 2)) ∧
    OtherUnits 3 manhattan manhattan (ramp 3) (fun i _ => -3 * (i.val : ℚ) + 7 : Fin 3 → Row 1) := by
  refine ⟨⟨by norm_num, ?_⟩, by norm_num, ?_⟩ <;> decide +kernel

/-- Converted temperature: the same result as in the original units, and not the initial labels. -/
example : seenLabels (labelsOf (saFit .rowMajor (fun x => if -1 ≤ x then 1 else 0) (pairwise manhattan)
      2 2 5 ⟨16, some 1, .int 9, 1, 0⟩ .fresh path3 (fun i t => 2 * column ![0, 1, 10] i t) 2
      (some ![0, 0, 1]) (1/2) fun _ => 0)) = [0, 1, 1] := by
  decide +kernel

/-- SKATER on degrees Celsius and on degrees Fahrenheit. -/
example : seen (fit stableOrder .default 5 (some 2) path4 (four ![0, 1, 10, 12]) none true "increase") =
      .ok ([0, 0, 1, 1], [(0, 1), (2, 3)],
        [([0, 0, 0, 0], none), ([0, 0, 1, 1], some ((1, 2), 3))]) ∧
    seen (fit stableOrder .default 5 (some 2) path4 (four ![32, 33 + 4/5, 50, 53 + 3/5]) none true
        "increase") =
      .ok ([0, 0, 1, 1], [(0, 1), (2, 3)],
        [([0, 0, 0, 0], none), ([0, 0, 1, 1], some ((1, 2), 27/5))]) := by
  constructor <;> decide +kernel

end Region.Props
