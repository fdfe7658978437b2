import Verif.Lemmas.ExactFlow
import Verif.Lemmas.ExactOrder
import Verif.Lemmas.ExactTree
/-
Renaming regions, existence of optimal solutions, optimality of decoded solutions.
-/
namespace Region

open Spec Finset

/-- The regions of a clustering into `p` regions can be numbered `0 … p-1`. -/
theorem exists_numbering {n p : Nat} {κ : Type} [DecidableEq κ] (L : Fin n → κ)
    (h : numRegions L = p) : ∃ N : Fin n → Nat, (∀ i, N i < p) ∧ (∀ k < p, ∃ i, N i = k) ∧
      ∀ i j, N i = N j ↔ L i = L j := by
  have e := Finset.equivFinOfCardEq (show (univ.image L).card = p from h)
  refine ⟨fun i => (e ⟨L i, mem_image_of_mem _ (mem_univ _)⟩).val, fun i => Fin.isLt _, ?_, ?_⟩
  · intro k hk
    obtain ⟨⟨c, hc⟩, hck⟩ := e.surjective ⟨k, hk⟩
    obtain ⟨i, -, rfl⟩ := mem_image.1 hc
    exact ⟨i, by dsimp only; rw [hck]⟩
  · intro i j
    constructor
    · intro hij
      have := e.injective (Fin.ext hij)
      exact congrArg Subtype.val this
    · intro hij
      dsimp only
      congr 2
      exact Subtype.ext hij

theorem allContiguous_congr {n : Nat} {κ ι : Type} {adj : Adj n} {L : Fin n → κ} {N : Fin n → ι}
    (h : ∀ i j, N i = N j ↔ L i = L j) (hL : AllContiguous adj L) : AllContiguous adj N := by
  intro v
  have : regionOf N (N v) = regionOf L (L v) := Set.ext fun u => h u v
  rw [this]; exact hL v

theorem numRegions_congr {n : Nat} {κ ι : Type} [DecidableEq κ] [DecidableEq ι] {L : Fin n → κ}
    {N : Fin n → ι} (h : ∀ i j, N i = N j ↔ L i = L j) : numRegions N = numRegions L := by
  unfold numRegions
  refine Finset.card_bij' (fun c hc => L (mem_image.1 hc).choose) (fun c hc => N (mem_image.1 hc).choose)
    (fun c hc => mem_image_of_mem _ (mem_univ _)) (fun c hc => mem_image_of_mem _ (mem_univ _)) ?_ ?_
  · intro c hc
    have h1 := (mem_image.1 hc).choose_spec.2
    have hm : L (mem_image.1 hc).choose ∈ univ.image L := mem_image_of_mem _ (mem_univ _)
    have h2 := (mem_image.1 hm).choose_spec.2
    exact ((h _ _).2 h2).trans h1
  · intro c hc
    have h1 := (mem_image.1 hc).choose_spec.2
    have hm : N (mem_image.1 hc).choose ∈ univ.image N := mem_image_of_mem _ (mem_univ _)
    have h2 := (mem_image.1 hm).choose_spec.2
    exact ((h _ _).1 h2).trans h1

theorem withinPairs_congr {n : Nat} {κ ι : Type} [DecidableEq κ] [DecidableEq ι] {L : Fin n → κ}
    {N : Fin n → ι} (h : ∀ i j, N i = N j ↔ L i = L j) (d : Fin n → Fin n → ℚ) :
    withinPairs N d = withinPairs L d := by
  unfold withinPairs
  simp only [h]

theorem numRegions_of_image {n p : Nat} {L : Labels n}
    (h : univ.image L = (range p).image fun k : Nat => (k : Int)) : numRegions L = p := by
  unfold numRegions
  rw [h, card_image_of_injective _ (fun a b hab => by exact_mod_cast hab), card_range]

/-- A labelling with labels `0 … p-1` as natural numbers. -/
theorem exists_nat_labels {n p : Nat} {L : Labels n} (hr : ∀ i, 0 ≤ L i ∧ L i < p)
    (h : numRegions L = p) : ∃ N : Fin n → Nat, (∀ i, L i = (N i : Int)) ∧ (∀ i, N i < p) ∧
      ∀ k < p, ∃ i, N i = k := by
  have hN : ∀ i, L i = ((L i).toNat : Int) := fun i => (Int.toNat_of_nonneg (hr i).1).symm
  have hlt : ∀ i, (L i).toNat < p := fun i => by have := hr i; omega
  refine ⟨fun i => (L i).toNat, hN, hlt, ?_⟩
  have h1 : univ.image L = (range p).image fun k : Nat => (k : Int) := by
    apply Finset.eq_of_subset_of_card_le
    · intro z hz
      obtain ⟨i, -, rfl⟩ := mem_image.1 hz
      exact mem_image.2 ⟨(L i).toNat, mem_range.2 (hlt i), (hN i).symm⟩
    · rw [show (univ.image L).card = p from h]
      exact card_image_le.trans (by rw [card_range])
  intro k hk
  have : (k : Int) ∈ univ.image L := by
    rw [h1]; exact mem_image.2 ⟨k, mem_range.2 hk, rfl⟩
  obtain ⟨i, -, hi⟩ := mem_image.1 this
  exact ⟨i, by show (L i).toNat = k; rw [hi]; exact Int.toNat_natCast k⟩

/-- A problem whose objective depends on finitely many zero-one variables only has an optimal
solution if it has a solution. -/
theorem exists_optimal {V : Type} {n : Nat} {P : Lp V} (t : Fin n → Fin n → V)
    (d : Fin n → Fin n → ℚ)
    (hobj : P.objective = Lin.sum ((upperTriangle n).map fun e => d e.1 e.2 * Lin.var (t e.1 e.2)))
    (h01 : ∀ a, P.Feasible a → ∀ i j, i < j → 0 ≤ a (t i j) ∧ a (t i j) ≤ 1)
    (h : ∃ a, P.Feasible a) : ∃ a, P.Optimal a := by
  classical
  let val : (Fin n × Fin n → Bool) → ℚ := fun b =>
    ∑ e ∈ univ.filter (fun e : Fin n × Fin n => e.1 < e.2), d e.1 e.2 * (if b e then 1 else 0 : ℚ)
  let pat : (V → ℤ) → (Fin n × Fin n → Bool) := fun a e => decide (a (t e.1 e.2) = 1)
  have hval : ∀ a, P.Feasible a → P.objective.eval a = val (pat a) := by
    intro a ha
    rw [hobj, eval_objective]
    refine sum_congr rfl fun e he => ?_
    have he' : e.1 < e.2 := by simpa using he
    have := h01 a ha e.1 e.2 he'
    simp only [pat, decide_eq_true_eq]
    split_ifs with h1
    · rw [h1]; simp
    · have : a (t e.1 e.2) = 0 := by omega
      rw [this]; simp
  let S : Finset (Fin n × Fin n → Bool) := univ.filter fun b => ∃ a, P.Feasible a ∧ pat a = b
  obtain ⟨a0, ha0⟩ := h
  obtain ⟨b, hb, hmin⟩ := Finset.exists_min_image S val ⟨pat a0, by simp only [S, mem_filter, mem_univ, true_and]; exact ⟨a0, ha0, rfl⟩⟩
  obtain ⟨a, ha, rfl⟩ := (mem_filter.1 hb).2
  refine ⟨a, ha, fun c hc => ?_⟩
  rw [hval a ha, hval c hc]
  exact hmin _ (mem_filter.2 ⟨mem_univ _, c, hc, rfl⟩)

/-! ### Splitting merged regions of the tree model -/

section tree
variable {n : Nat} {adj : Adj n} {d : Fin n → Fin n → ℚ} {p : Nat}

/-- A chosen edge of the forest. -/
def TreeStep (adj : Adj n) (a : TreeVar n → ℤ) (i j : Fin n) : Prop :=
  adj i j = true ∧ a (.x i j) = 1

theorem TreeSol.step_unique {a : TreeVar n → ℤ} (h : TreeSol adj p a) :
    Relator.RightUnique (TreeStep adj a) := by
  intro i j k hij hik
  by_contra hne
  have h5 := h.c5 i
  have : ∑ m ∈ ({j, k} : Finset (Fin n)), (if adj i m = true then a (.x i m) else 0) ≤
      ∑ m, (if adj i m = true then a (.x i m) else 0) := by
    apply Finset.sum_le_sum_of_subset_of_nonneg (subset_univ _)
    intro m _ _
    split_ifs
    · exact (h.x01 i m).1
    · exact le_rfl
  rw [Finset.sum_pair hne, if_pos hij.1, if_pos hik.1, hij.2, hik.2] at this
  omega

theorem TreeSol.root_iff {a : TreeVar n → ℤ} (h : TreeSol adj p a) (i : Fin n) :
    i ∈ treeRoots adj a ↔ ∀ j, ¬ TreeStep adj a i j := by
  rw [treeRoots, mem_filter]
  constructor
  · rintro ⟨-, h0⟩ j ⟨hij, hx⟩
    have := (Finset.sum_eq_zero_iff_of_nonneg (fun m _ => by
      split_ifs
      · exact (h.x01 i m).1
      · exact le_rfl)).1 h0 j (mem_univ _)
    rw [if_pos hij, hx] at this
    omega
  · intro hn
    refine ⟨mem_univ _, sum_eq_zero fun j _ => ?_⟩
    split_ifs with hij
    · by_contra hne
      exact hn j ⟨hij, by have := h.x01 i j; omega⟩
    · rfl

theorem TreeSol.exists_root_step {a : TreeVar n → ℤ} (h : TreeSol adj p a)
    (h2 : (2 : ℤ) ≤ (n : ℤ) - p) (i : Fin n) :
    ∃ s ∈ treeRoots adj a, Relation.ReflTransGen (TreeStep adj a) i s := by
  have key : ∀ (m : Nat) (i : Fin n), (n : ℤ) - p - a (.u i) ≤ m → ∃ s ∈ treeRoots adj a,
      Relation.ReflTransGen (TreeStep adj a) i s := by
    intro m
    induction m with
    | zero =>
      intro i hi
      refine ⟨i, (h.root_iff i).2 ?_, .refl⟩
      rintro j ⟨hij, hx⟩
      have h3 := h.u_lt h2 hij hx
      have h4 := (h.c10 j).1
      push_cast at hi
      omega
    | succ m ih =>
      intro i hi
      by_cases hr : i ∈ treeRoots adj a
      · exact ⟨i, hr, .refl⟩
      · rw [h.root_iff] at hr
        push Not at hr
        obtain ⟨j, hij⟩ := hr
        have h3 := h.u_lt h2 hij.1 hij.2
        obtain ⟨s, hs, hp⟩ := ih j (by push_cast at hi; omega)
        exact ⟨s, hs, .head hij hp⟩
  exact key ((n : ℤ) - p - a (.u i)).toNat i (by omega)

/-- The values of a solution with the pairs replaced by those of another clustering. -/
def retie (a : TreeVar n → ℤ) (f : Fin n → Fin n) : TreeVar n → ℤ
  | .t i j => if f i = f j then 1 else 0
  | .x i j => a (.x i j)
  | .u i => a (.u i)

/-- The trees of a solution: exactly `p`, each inside one class, and again a solution. -/
theorem TreeSol.split {a : TreeVar n → ℤ} (h : TreeSol adj p a) (h2 : (2 : ℤ) ≤ (n : ℤ) - p) :
    ∃ f : Fin n → Fin n, numRegions f = p ∧ (∀ i j, f i = f j → Together a i j) ∧
      TreeSol adj p (retie a f) := by
  classical
  choose f hf hpath using h.exists_root_step h2
  have huniq : ∀ {i s s'}, s ∈ treeRoots adj a → s' ∈ treeRoots adj a →
      Relation.ReflTransGen (TreeStep adj a) i s → Relation.ReflTransGen (TreeStep adj a) i s' →
      s = s' := by
    intro i s s' hs hs' h1 h1'
    have hstop : ∀ {s s'}, s ∈ treeRoots adj a →
        Relation.ReflTransGen (TreeStep adj a) s s' → s = s' := by
      intro s s' hs hss
      rcases Relation.ReflTransGen.cases_head hss with h3 | ⟨c, hc, -⟩
      · exact h3
      · exact absurd hc ((h.root_iff s).1 hs c)
    rcases Relation.ReflTransGen.total_of_right_unique h.step_unique h1 h1' with h3 | h3
    · exact hstop hs h3
    · exact (hstop hs' h3).symm
  have hroot : ∀ s ∈ treeRoots adj a, f s = s := fun s hs => huniq (hf s) hs (hpath s) .refl
  have hstep : ∀ i j, TreeStep adj a i j → f i = f j := fun i j hij =>
    huniq (hf i) (hf j) (hpath i) (.head hij (hpath j))
  have hpt : ∀ {x y}, Relation.ReflTransGen (TreeStep adj a) x y → Together a x y := by
    intro x y hxy
    induction hxy with
    | refl => exact h.together.refl _
    | @tail b c _ hbc ih =>
      refine h.together.trans ih (Or.inr ?_)
      have := h.c8 b c hbc.1; have := (h.t01 b c).2; have := hbc.2; omega
  have htog : ∀ i, Together a i (f i) := fun i => hpt (hpath i)
  refine ⟨f, ?_, ?_, ?_⟩
  · rw [← h.card_roots]
    unfold numRegions
    congr 1
    ext s
    constructor
    · intro hs
      obtain ⟨i, -, rfl⟩ := mem_image.1 hs
      exact hf i
    · intro hs
      exact mem_image.2 ⟨s, mem_univ _, hroot s hs⟩
  · intro i j hij
    exact h.together.trans (htog i) (hij ▸ h.together.symm (htog j))
  · refine ⟨?_, h.x01, h.c4, h.c5, ?_, ?_, ?_, h.c9, h.c10⟩
    · intro i j; simp only [retie]; split_ifs <;> omega
    · intro i j m _ _ _
      simp only [retie]
      split_ifs <;> omega
    · intro i j
      simp only [retie, eq_comm]
    · intro i j hij
      simp only [retie]
      split_ifs with hfij
      · exact (h.x01 i j).2
      · by_contra hx
        exact hfij (hstep i j ⟨hij, by have := h.x01 i j; omega⟩)

end tree

end Region
