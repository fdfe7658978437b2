import Verif.Lemmas.Bfs
import Verif.Lemmas.Lists
import Verif.Lemmas.Lp
import Verif.Props.Util
/-
The integer program of `_tree`: its solutions and the clusterings they stand for.
-/
namespace Region

open Spec Finset

/-- The constraints of the tree model over the integers. -/
structure TreeSol {n : Nat} (adj : Adj n) (p : Nat) (a : TreeVar n → ℤ) : Prop where
  t01 : ∀ i j, 0 ≤ a (.t i j) ∧ a (.t i j) ≤ 1
  x01 : ∀ i j, 0 ≤ a (.x i j) ∧ a (.x i j) ≤ 1
  c4 : ∑ i, ∑ j, (if adj i j = true then a (.x i j) else 0) = (n : ℤ) - p
  c5 : ∀ i, ∑ j, (if adj i j = true then a (.x i j) else 0) ≤ 1
  c6 : ∀ i j m, i ≠ j → i ≠ m → j ≠ m → a (.t i j) + a (.t i m) - a (.t j m) ≤ 1
  c7 : ∀ i j, a (.t i j) = a (.t j i)
  c8 : ∀ i j, adj i j = true → a (.x i j) ≤ a (.t i j)
  c9 : ∀ i j, adj i j = true → a (.u i) - a (.u j) + ((n : ℤ) - p) * a (.x i j) +
    ((n : ℤ) - p - 2) * a (.x j i) ≤ (n : ℤ) - p - 1
  c10 : ∀ i, a (.u i) ≤ (n : ℤ) - p ∧ 1 ≤ a (.u i)

section
variable {n : Nat} {adj : Adj n} {d : Fin n → Fin n → ℚ} {p : Nat} {P : Lp (TreeVar n)}

theorem treeLp_ok : treeLp adj d p = .ok ⟨treeDecls,
    Lin.sum ((upperTriangle n).map fun e => d e.1 e.2 * Lin.var (TreeVar.t e.1 e.2)),
    tree4 adj p ++ tree5 adj ++ tree6 ++ tree7 ++ tree8 adj ++ tree9 adj p ++ tree10 p⟩ := by
  have hx : ∀ i j, ∃ dc ∈ treeDecls (n := n), dc.var = TreeVar.x i j := fun i j =>
    ⟨⟨.x i j, 0, some 1⟩, by simp [treeDecls, mem_allPairs], rfl⟩
  have ht : ∀ i j, ∃ dc ∈ treeDecls (n := n), dc.var = TreeVar.t i j := fun i j =>
    ⟨⟨.t i j, 0, some 1⟩, by simp [treeDecls, mem_allPairs], rfl⟩
  have hu : ∀ i, ∃ dc ∈ treeDecls (n := n), dc.var = TreeVar.u i := fun i =>
    ⟨⟨.u i, 0, none⟩, by simp [treeDecls], rfl⟩
  have hall : ∀ v, ∃ dc ∈ treeDecls (n := n), dc.var = v := by
    rintro (⟨i, j⟩ | ⟨i, j⟩ | ⟨i⟩)
    · exact ht i j
    · exact hx i j
    · exact hu i
  exact Lp.build_eq_ok.2 ⟨rfl, fun v _ => hall v, fun _ _ v _ => hall v⟩

theorem holds4 {a : TreeVar n → ℤ} : (∀ c ∈ tree4 adj p, c.Holds a) ↔
    ∑ i, ∑ j, (if adj i j = true then a (.x i j) else 0) = (n : ℤ) - p := by
  simp only [tree4, List.mem_singleton, forall_eq, Constr.Holds, Lin.eval_sum, Lin.eval_num,
    sum_map_flatMap, List.map_map, Function.comp_def, Lin.eval_var, sum_neighbors, sum_finRange]
  exact_mod_cast Iff.rfl

theorem holds5 {a : TreeVar n → ℤ} : (∀ c ∈ tree5 adj, c.Holds a) ↔
    ∀ i, ∑ j, (if adj i j = true then a (.x i j) else 0) ≤ 1 := by
  simp only [tree5, List.mem_map, List.mem_finRange, true_and, forall_exists_index,
    forall_apply_eq_imp_iff, Constr.Holds, Lin.eval_sum, Lin.eval_num, List.map_map,
    Function.comp_def, Lin.eval_var, sum_neighbors]
  refine forall_congr' fun i => ?_
  exact_mod_cast Iff.rfl

theorem holds6 {a : TreeVar n → ℤ} : (∀ c ∈ tree6, c.Holds a) ↔
    ∀ i j m, i ≠ j → i ≠ m → j ≠ m → a (.t i j) + a (.t i m) - a (.t j m) ≤ 1 := by
  simp only [tree6, List.mem_flatMap, List.mem_map, List.mem_finRange, true_and,
    List.mem_filter, decide_eq_true_eq, forall_exists_index, and_imp]
  constructor
  · intro h i j m h1 h2 h3
    have := h _ i j m h1 h2 h3 rfl
    simp only [Constr.Holds, Lin.eval_var, Lin.eval_add, Lin.eval_sub, Lin.eval_num] at this
    exact_mod_cast this
  · rintro h _ i j m h1 h2 h3 rfl
    simp only [Constr.Holds, Lin.eval_var, Lin.eval_add, Lin.eval_sub, Lin.eval_num]
    exact_mod_cast h i j m h1 h2 h3

theorem holds7 {a : TreeVar n → ℤ} : (∀ c ∈ tree7, c.Holds a) ↔
    ∀ i j, a (.t i j) = a (.t j i) := by
  simp only [tree7, List.mem_map, mem_allPairs, true_and, forall_exists_index,
    forall_apply_eq_imp_iff, Constr.Holds, Lin.eval_sub, Lin.eval_num, Lin.eval_var]
  constructor
  · intro h i j
    have := h (i, j)
    rw [sub_eq_zero] at this
    exact_mod_cast this
  · rintro h ⟨i, j⟩
    rw [sub_eq_zero]
    exact_mod_cast h i j

theorem holds8 {a : TreeVar n → ℤ} : (∀ c ∈ tree8 adj, c.Holds a) ↔
    ∀ i j, adj i j = true → a (.x i j) ≤ a (.t i j) := by
  simp only [tree8, List.mem_flatMap, List.mem_map, List.mem_finRange, true_and, mem_neighbors,
    forall_exists_index, and_imp]
  constructor
  · intro h i j hij
    have := h _ i j hij rfl
    simp only [Constr.Holds, Lin.eval_var] at this
    exact_mod_cast this
  · rintro h _ i j hij rfl
    simp only [Constr.Holds, Lin.eval_var]
    exact_mod_cast h i j hij

theorem holds9 {a : TreeVar n → ℤ} : (∀ c ∈ tree9 adj p, c.Holds a) ↔
    ∀ i j, adj i j = true → a (.u i) - a (.u j) + ((n : ℤ) - p) * a (.x i j) +
      ((n : ℤ) - p - 2) * a (.x j i) ≤ (n : ℤ) - p - 1 := by
  simp only [tree9, List.mem_flatMap, List.mem_map, List.mem_finRange, true_and, mem_neighbors,
    forall_exists_index, and_imp]
  constructor
  · intro h i j hij
    have := h _ i j hij rfl
    simp only [Constr.Holds, Lin.eval_var, Lin.eval_sub, Lin.eval_add, Lin.eval_mul,
      Lin.eval_num] at this
    exact_mod_cast this
  · rintro h _ i j hij rfl
    simp only [Constr.Holds, Lin.eval_var, Lin.eval_sub, Lin.eval_add, Lin.eval_mul, Lin.eval_num]
    exact_mod_cast h i j hij

theorem holds10 {a : TreeVar n → ℤ} : (∀ c ∈ tree10 (n := n) p, c.Holds a) ↔
    ∀ i, a (.u i) ≤ (n : ℤ) - p ∧ 1 ≤ a (.u i) := by
  simp only [tree10, List.mem_flatMap, List.mem_finRange, true_and, forall_exists_index]
  constructor
  · intro h i
    have h1 := h _ i (List.mem_cons_self ..)
    have h2 := h _ i (List.mem_cons_of_mem _ (List.mem_cons_self ..))
    simp only [Constr.Holds, Lin.eval_var, Lin.eval_num, ge_iff_le] at h1 h2
    exact ⟨by exact_mod_cast h1, by exact_mod_cast h2⟩
  · rintro h c i hc
    simp only [List.mem_cons, List.not_mem_nil, or_false] at hc
    rcases hc with rfl | rfl
    · simp only [Constr.Holds, Lin.eval_var, Lin.eval_num]
      exact_mod_cast (h i).1
    · simp only [Constr.Holds, Lin.eval_var, Lin.eval_num, ge_iff_le]
      exact_mod_cast (h i).2

theorem tree_feasible_iff (h : treeLp adj d p = .ok P) {a : TreeVar n → ℤ} :
    P.Feasible a ↔ TreeSol adj p a := by
  rw [treeLp_ok] at h
  obtain rfl := Res.ok.inj h
  unfold Lp.Feasible
  simp only [List.forall_mem_append, holds4, holds5, holds6, holds7, holds8, holds9, holds10,
    treeDecls]
  simp only [List.mem_map, List.mem_finRange, true_and, mem_allPairs, forall_exists_index,
    forall_apply_eq_imp_iff, Option.mem_def]
  constructor
  · rintro ⟨⟨⟨h1, h2⟩, h3⟩, ⟨⟨⟨⟨⟨c4, c5⟩, c6⟩, c7⟩, c8⟩, c9⟩, c10⟩
    refine ⟨?_, ?_, c4, c5, c6, c7, c8, c9, c10⟩
    · intro i j; simpa using h1 (i, j)
    · intro i j; simpa using h2 (i, j)
  · rintro ⟨h1, h2, c4, c5, c6, c7, c8, c9, c10⟩
    refine ⟨⟨⟨?_, ?_⟩, ?_⟩, ⟨⟨⟨⟨⟨c4, c5⟩, c6⟩, c7⟩, c8⟩, c9⟩, c10⟩
    · rintro ⟨i, j⟩; simpa using h1 i j
    · rintro ⟨i, j⟩; simpa using h2 i j
    · intro i
      have := (c10 i).2
      simpa using (by omega : 0 ≤ a (.u i))

/-! ### The classes of a solution -/

/-- `t` says that the two areas share a region. -/
def Together (a : TreeVar n → ℤ) (i j : Fin n) : Prop := i = j ∨ a (.t i j) = 1

instance (a : TreeVar n → ℤ) (i j : Fin n) : Decidable (Together a i j) :=
  inferInstanceAs (Decidable (_ ∨ _))

theorem TreeSol.together {a : TreeVar n → ℤ} (h : TreeSol adj p a) : Equivalence (Together a) := by
  have hsymm : ∀ {i j}, Together a i j → Together a j i := by
    rintro i j (rfl | h1)
    · exact Or.inl rfl
    · exact Or.inr ((h.c7 j i).trans h1)
  refine ⟨fun i => Or.inl rfl, hsymm, ?_⟩
  intro j i m hji him
  by_cases e1 : i = j
  · rw [← e1]; exact him
  by_cases e2 : i = m
  · rw [← e2]; exact hji
  by_cases e3 : j = m
  · exact Or.inl e3
  have h1 := (hsymm hji).resolve_left e1
  have h2 := him.resolve_left e2
  have h3 := h.c6 i j m e1 e2 e3
  have h4 := (h.t01 j m).2
  exact Or.inr (by omega)

/-- A label for the class of an area: its smallest member. -/
def classOf (a : TreeVar n → ℤ) (i : Fin n) : Fin n :=
  (univ.filter fun j => Together a i j).min' ⟨i, mem_filter.2 ⟨mem_univ _, Or.inl rfl⟩⟩

theorem TreeSol.classOf_eq_iff {a : TreeVar n → ℤ} (h : TreeSol adj p a) (i j : Fin n) :
    classOf a i = classOf a j ↔ Together a i j := by
  have hmem : ∀ i, Together a i (classOf a i) := by
    intro i
    have := min'_mem (univ.filter fun j => Together a i j) ⟨i, mem_filter.2 ⟨mem_univ _, Or.inl rfl⟩⟩
    exact (mem_filter.1 this).2
  constructor
  · intro heq
    have h1 := hmem i
    rw [heq] at h1
    exact h.together.trans h1 (h.together.symm (hmem j))
  · intro hij
    unfold classOf
    congr 1
    ext m
    simp only [mem_filter, mem_univ, true_and]
    exact ⟨fun hm => h.together.trans (h.together.symm hij) hm, fun hm => h.together.trans hij hm⟩

/-- With at least two tree edges the labels `u` increase along the tree edges. -/
theorem TreeSol.u_lt {a : TreeVar n → ℤ} (h : TreeSol adj p a) (h2 : (2 : ℤ) ≤ (n : ℤ) - p)
    {i j : Fin n} (hij : adj i j = true) (hx : a (.x i j) = 1) : a (.u i) < a (.u j) := by
  have h9 := h.c9 i j hij
  rw [hx] at h9
  have h3 : 0 ≤ ((n : ℤ) - p - 2) * a (.x j i) := mul_nonneg (by omega) (h.x01 j i).1
  omega

/-- Otherwise there is no solution. -/
theorem TreeSol.two_le {a : TreeVar n → ℤ} (h : TreeSol adj p a) (hs : Spec.Symmetric adj)
    (hloop : ∀ i, adj i i = false) (hn : 0 < n) : (2 : ℤ) ≤ (n : ℤ) - p := by
  by_contra hlt
  have h10 := h.c10 ⟨0, hn⟩
  have hnp : (n : ℤ) - p = 1 := by omega
  have hu : ∀ i, a (.u i) = 1 := fun i => by have := h.c10 i; omega
  have hsum := h.c4
  rw [hnp] at hsum
  have hnn : ∀ i j, 0 ≤ (if adj i j = true then a (.x i j) else 0) := by
    intro i j
    split_ifs
    · exact (h.x01 i j).1
    · exact le_refl _
  have hex : ∃ i j, adj i j = true ∧ a (.x i j) = 1 := by
    by_contra hcon
    push Not at hcon
    have : ∑ i, ∑ j, (if adj i j = true then a (.x i j) else 0) = 0 := by
      refine sum_eq_zero fun i _ => sum_eq_zero fun j _ => ?_
      split_ifs with hij
      · have := hcon i j hij; have := h.x01 i j; omega
      · rfl
    omega
  obtain ⟨i, j, hij, hx⟩ := hex
  have hne : i ≠ j := by rintro rfl; rw [hloop] at hij; cases hij
  have h9 := h.c9 i j hij
  rw [hu, hu, hnp, hx] at h9
  have hx' : a (.x j i) = 1 := by have := (h.x01 j i).2; omega
  have h1 : (1 : ℤ) ≤ ∑ m, (if adj i m = true then a (.x i m) else 0) := by
    have := single_le_sum (f := fun m => if adj i m = true then a (.x i m) else 0)
      (fun m _ => hnn i m) (mem_univ j)
    rw [if_pos hij, hx] at this
    exact this
  have h2 : (1 : ℤ) ≤ ∑ m, (if adj j m = true then a (.x j m) else 0) := by
    have := single_le_sum (f := fun m => if adj j m = true then a (.x j m) else 0)
      (fun m _ => hnn j m) (mem_univ i)
    rw [if_pos ((hs j i).trans hij), hx'] at this
    exact this
  rw [← add_sum_erase univ _ (mem_univ i), ← add_sum_erase _ _ (mem_erase.2 ⟨hne.symm, mem_univ j⟩)]
    at hsum
  have h3 : 0 ≤ ∑ i ∈ (univ.erase i).erase j, ∑ m, (if adj i m = true then a (.x i m) else 0) :=
    sum_nonneg fun i _ => sum_nonneg fun m _ => hnn i m
  omega

/-- The areas without an outgoing tree edge. -/
def treeRoots (adj : Adj n) (a : TreeVar n → ℤ) : Finset (Fin n) :=
  univ.filter fun i => ∑ j, (if adj i j = true then a (.x i j) else 0) = 0

theorem TreeSol.card_roots {a : TreeVar n → ℤ} (h : TreeSol adj p a) :
    (treeRoots adj a).card = p := by
  have hnn : ∀ i, 0 ≤ ∑ j, (if adj i j = true then a (.x i j) else 0) := by
    intro i
    refine sum_nonneg fun j _ => ?_
    split_ifs
    · exact (h.x01 i j).1
    · exact le_refl _
  have h1 : ∀ i, ∑ j, (if adj i j = true then a (.x i j) else 0) =
      1 - if i ∈ treeRoots adj a then 1 else 0 := by
    intro i
    have h5 := h.c5 i
    have h0 := hnn i
    split_ifs with hi
    · rw [(mem_filter.1 hi).2]; rfl
    · have : ¬ ∑ j, (if adj i j = true then a (.x i j) else 0) = 0 := fun h => hi (by simp [treeRoots, h])
      omega
  have h4 := h.c4
  rw [sum_congr rfl fun i _ => h1 i, sum_sub_distrib] at h4
  simp only [sum_const, card_univ, Fintype.card_fin, nsmul_eq_mul, mul_one, sum_boole] at h4
  have h6 : (univ.filter fun i => i ∈ treeRoots adj a) = treeRoots adj a := by ext; simp
  rw [h6] at h4
  have : ((treeRoots adj a).card : ℤ) = p := by omega
  exact_mod_cast this

/-- Every area is linked by tree edges to a root of its class. -/
theorem TreeSol.exists_root {a : TreeVar n → ℤ} (h : TreeSol adj p a) (h2 : (2 : ℤ) ≤ (n : ℤ) - p)
    (i : Fin n) : ∃ s ∈ treeRoots adj a, Together a i s ∧
      PathIn adj {v | Together a i v} i s := by
  have key : ∀ (m : Nat) (i : Fin n), (n : ℤ) - p - a (.u i) ≤ m → ∃ s ∈ treeRoots adj a,
      Together a i s ∧ PathIn adj {v | Together a i v} i s := by
    intro m
    induction m with
    | zero =>
      intro i hi
      refine ⟨i, ?_, Or.inl rfl, .refl⟩
      rw [treeRoots, mem_filter]
      refine ⟨mem_univ _, sum_eq_zero fun j _ => ?_⟩
      split_ifs with hij
      · by_contra hne
        have h1 : a (.x i j) = 1 := by have := h.x01 i j; omega
        have h3 := h.u_lt h2 hij h1
        have h4 := (h.c10 j).1
        push_cast at hi
        omega
      · rfl
    | succ m ih =>
      intro i hi
      by_cases hr : i ∈ treeRoots adj a
      · exact ⟨i, hr, Or.inl rfl, .refl⟩
      · have hex : ∃ j, adj i j = true ∧ a (.x i j) = 1 := by
          by_contra hcon
          push Not at hcon
          apply hr
          rw [treeRoots, mem_filter]
          refine ⟨mem_univ _, sum_eq_zero fun j _ => ?_⟩
          split_ifs with hij
          · have := hcon j hij; have := h.x01 i j; omega
          · rfl
        obtain ⟨j, hij, hx⟩ := hex
        have h3 := h.u_lt h2 hij hx
        have ht : Together a i j := Or.inr (by
          have := h.c8 i j hij; have := (h.t01 i j).2; omega)
        obtain ⟨s, hs, hjs, hp⟩ := ih j (by push_cast at hi; omega)
        refine ⟨s, hs, h.together.trans ht hjs, ?_⟩
        refine Relation.ReflTransGen.head ⟨Or.inl rfl, ht, Or.inl hij⟩ ?_
        exact pathIn_mono (fun v hv => h.together.trans ht hv) hp
  exact key ((n : ℤ) - p - a (.u i)).toNat i (by omega)

/-- There are at most `p` classes, and if there are `p` they are contiguous. -/
theorem TreeSol.classes {a : TreeVar n → ℤ} (h : TreeSol adj p a) (h2 : (2 : ℤ) ≤ (n : ℤ) - p) :
    numRegions (classOf a) ≤ p ∧ (numRegions (classOf a) = p → AllContiguous adj (classOf a)) := by
  have himg : univ.image (classOf a) = (treeRoots adj a).image (classOf a) := by
    apply Finset.Subset.antisymm
    · intro c hc
      obtain ⟨i, -, rfl⟩ := mem_image.1 hc
      obtain ⟨s, hs, his, -⟩ := h.exists_root h2 i
      exact mem_image.2 ⟨s, hs, ((h.classOf_eq_iff i s).2 his).symm⟩
    · exact image_subset_image (subset_univ _)
  constructor
  · unfold numRegions
    rw [himg, ← h.card_roots]
    exact card_image_le
  · intro hcard
    have hinj : Set.InjOn (classOf a) (treeRoots adj a) := by
      rw [← card_image_iff, ← himg, h.card_roots]
      exact hcard
    intro v
    have hreg : ∀ i, regionOf (classOf a) (classOf a i) = {u | Together a i u} := by
      intro i
      ext u
      show classOf a u = classOf a i ↔ Together a i u
      rw [eq_comm, h.classOf_eq_iff]
    obtain ⟨s, hs, hvs, -⟩ := h.exists_root h2 v
    have key : ∀ x ∈ regionOf (classOf a) (classOf a v),
        PathIn adj (regionOf (classOf a) (classOf a v)) x s := by
      intro x hx
      obtain ⟨s', hs', hxs', hp⟩ := h.exists_root h2 x
      have hss : s' = s := by
        refine hinj hs' hs ?_
        rw [← (h.classOf_eq_iff x s').2 hxs', ← (h.classOf_eq_iff v s).2 hvs]
        exact hx
      rw [← hreg x, hss] at hp
      have hx : classOf a x = classOf a v := hx
      rwa [hx] at hp
    exact ⟨⟨v, rfl⟩, fun x hx y hy => (key x hx).trans (pathIn_symm (key y hy))⟩

/-! ### Decoding -/

theorem treeRegions_spec {vals : TreeVar n → Option ℚ} {κ : Type} [DecidableEq κ] {f : Fin n → κ}
    (hf : ∀ i j, f i = f j ↔ i = j ∨ vals (.t i j) = some 1) :
    ∀ (k : Nat) (idx : List (Fin n)) (r : Rng), idx.Nodup →
      ((idx.toFinset.image f).card < k → treeRegions vals k idx r = .raise .keyError) ∧
      (k ≤ (idx.toFinset.image f).card → ∃ regs, treeRegions vals k idx r = .ok regs ∧
        regs.length = k ∧
        (∀ reg ∈ regs, ∃ i ∈ idx, ∀ j, j ∈ reg ↔ j ∈ idx ∧ f j = f i) ∧ regs.flatten.Nodup ∧
        ((idx.toFinset.image f).card = k → regs.flatten.Perm idx)) := by
  intro k
  induction k with
  | zero =>
    intro idx r hnd
    refine ⟨fun h => absurd h (Nat.not_lt_zero _), fun _ => ⟨[], rfl, rfl, by simp, by simp, ?_⟩⟩
    intro h0
    rw [card_eq_zero, image_eq_empty, List.toFinset_eq_empty_iff] at h0
    simp [h0]
  | succ k ih =>
    intro idx r hnd
    unfold treeRegions
    cases hget : idx[r 0 % idx.length]? with
    | none =>
      have hidx : idx = [] := by
        by_contra hne
        have := Nat.mod_lt (r 0) (List.length_pos_iff.2 hne)
        rw [List.getElem?_eq_none_iff] at hget
        omega
      subst hidx
      refine ⟨fun _ => rfl, fun h => ?_⟩
      simp at h
    | some area =>
      have harea : area ∈ idx := List.mem_of_getElem? hget
      dsimp only
      set reg := area :: (idx.erase area).filter fun o => decide (vals (.t area o) = some 1) with hreg
      set rest := (idx.erase area).filter fun o => !reg.contains o with hrest
      have hmreg : ∀ j, j ∈ reg ↔ j ∈ idx ∧ f j = f area := by
        intro j
        simp only [hreg, List.mem_cons, List.mem_filter, decide_eq_true_eq, hnd.mem_erase_iff]
        rw [eq_comm (a := f j), hf area j]
        constructor
        · rintro (rfl | ⟨⟨-, h1⟩, h2⟩)
          · exact ⟨harea, Or.inl rfl⟩
          · exact ⟨h1, Or.inr h2⟩
        · rintro ⟨h1, rfl | h2⟩
          · exact Or.inl rfl
          · by_cases hja : j = area
            · exact Or.inl hja
            · exact Or.inr ⟨⟨hja, h1⟩, h2⟩
      have hmrest : ∀ j, j ∈ rest ↔ j ∈ idx ∧ f j ≠ f area := by
        intro j
        simp only [hrest, List.mem_filter, Bool.not_eq_true', hnd.mem_erase_iff]
        rw [← Bool.not_eq_true, List.contains_iff_mem, hmreg]
        constructor
        · rintro ⟨⟨-, h1⟩, h2⟩
          exact ⟨h1, fun h => h2 ⟨h1, h⟩⟩
        · rintro ⟨h1, h2⟩
          exact ⟨⟨fun h => h2 (by rw [h]), h1⟩, fun h => h2 h.2⟩
      have hrnd : rest.Nodup := (hnd.erase _).filter _
      have hregnd : reg.Nodup := by
        rw [hreg, List.nodup_cons]
        refine ⟨?_, (hnd.erase _).filter _⟩
        intro h
        exact (hnd.mem_erase_iff.1 (List.mem_filter.1 h).1).1 rfl
      have himg : rest.toFinset.image f = (idx.toFinset.image f).erase (f area) := by
        ext c
        simp only [mem_image, List.mem_toFinset, hmrest, mem_erase]
        constructor
        · rintro ⟨j, ⟨h1, h2⟩, rfl⟩
          exact ⟨h2, j, h1, rfl⟩
        · rintro ⟨h1, j, h2, rfl⟩
          exact ⟨j, ⟨h2, h1⟩, rfl⟩
      have hmem : f area ∈ idx.toFinset.image f := mem_image.2 ⟨area, by simp [harea], rfl⟩
      have hcard : (rest.toFinset.image f).card + 1 = (idx.toFinset.image f).card := by
        rw [himg, card_erase_of_mem hmem]
        have := card_pos.2 ⟨_, hmem⟩
        omega
      obtain ⟨ih1, ih2⟩ := ih rest r.next hrnd
      constructor
      · intro hlt
        rw [ih1 (by omega)]; rfl
      · intro hle
        obtain ⟨regs, e1, e2, e3, e4, e5⟩ := ih2 (by omega)
        rw [e1]
        refine ⟨reg :: regs, rfl, by simp [e2], ?_, ?_, ?_⟩
        · intro R hR
          rcases List.mem_cons.1 hR with rfl | hR
          · exact ⟨area, harea, hmreg⟩
          · obtain ⟨i, hi, hj⟩ := e3 R hR
            have hi' := (hmrest i).1 hi
            refine ⟨i, hi'.1, fun j => ?_⟩
            rw [hj, hmrest]
            constructor
            · rintro ⟨⟨h1, -⟩, h2⟩; exact ⟨h1, h2⟩
            · rintro ⟨h1, h2⟩; exact ⟨⟨h1, by rw [h2]; exact hi'.2⟩, h2⟩
        · rw [List.flatten_cons, List.nodup_append]
          refine ⟨hregnd, e4, ?_⟩
          intro x hx y hy hxy
          subst hxy
          obtain ⟨R, hR, hxR⟩ := List.mem_flatten.1 hy
          obtain ⟨i, hi, hj⟩ := e3 R hR
          exact ((hmrest x).1 ((hj x).1 hxR).1).2 ((hmreg x).1 hx).2
        · intro hk
          rw [List.flatten_cons]
          refine (List.Perm.append_left reg (e5 (by omega))).trans ?_
          rw [List.perm_ext_iff_of_nodup ?_ hnd]
          · intro j
            rw [List.mem_append, hmreg, hmrest]
            tauto
          · rw [List.nodup_append]
            refine ⟨hregnd, hrnd, ?_⟩
            intro x hx y hy hxy
            subst hxy
            exact ((hmrest x).1 hy).2 ((hmreg x).1 hx).2

/-- The labels of `n` areas in a list. -/
def labelsOf (l : List Nat) (i : Fin n) : Nat := l.getD i.val 0

theorem treeDecode_spec {vals : TreeVar n → Option ℚ} {κ : Type} [DecidableEq κ] {f : Fin n → κ}
    (hf : ∀ i j, f i = f j ↔ i = j ∨ vals (.t i j) = some 1) (p : Nat) (r : Rng) :
    (numRegions f < p → treeDecode p vals r = .raise .keyError) ∧
    (numRegions f = p → ∃ l, treeDecode p vals r = .ok l ∧ l.length = n ∧
      (∀ i : Fin n, labelsOf l i < p) ∧
      ∀ i j : Fin n, labelsOf l i = labelsOf l j ↔ f i = f j) := by
  have hu : (List.finRange n).toFinset = univ := by ext; simp
  obtain ⟨h1, h2⟩ := treeRegions_spec hf p (List.finRange n) r (List.nodup_finRange n)
  rw [hu] at h1 h2
  constructor
  · intro hlt
    unfold treeDecode
    rw [h1 hlt]; rfl
  · intro heq
    have heq' : (univ.image f).card = p := heq
    obtain ⟨regs, e1, e2, e3, e4, e5⟩ := h2 (le_of_eq heq'.symm)
    have hperm : (regs.map fun reg => reg.map Fin.val).flatten.Perm (List.range n) := by
      have := (e5 heq').map Fin.val
      rw [List.map_coe_finRange_eq_range] at this
      rwa [List.map_flatten] at this
    obtain ⟨l, h3, h4, h5⟩ := Props.c09_array_from_region_list _ n hperm
    have hval : ∀ i : Fin n, ∃ hr : labelsOf l i < regs.length, i ∈ regs[labelsOf l i] := by
      intro i
      have hi : i.val < l.length := by rw [h4]; exact i.isLt
      have hget : l[i.val]? = some (labelsOf l i) := by
        unfold labelsOf
        rw [List.getElem?_eq_getElem hi, List.getD_eq_getElem?_getD, List.getElem?_eq_getElem hi]
        rfl
      obtain ⟨hr, hm⟩ := (h5 _ _).1 hget
      rw [List.length_map] at hr
      refine ⟨hr, ?_⟩
      rw [List.getElem_map] at hm
      obtain ⟨j, hj, hji⟩ := List.mem_map.1 hm
      have := Fin.ext hji
      subst this
      exact hj
    refine ⟨l, by unfold treeDecode; rw [e1]; exact h3, h4, fun i => by have := (hval i).1; omega, ?_⟩
    intro i j
    obtain ⟨hri, hi⟩ := hval i
    obtain ⟨hrj, hj⟩ := hval j
    constructor
    · intro hij
      obtain ⟨m, -, hm⟩ := e3 _ (List.getElem_mem hri)
      have h6 := ((hm i).1 hi).2
      have h7 : j ∈ regs[labelsOf l i] := by simpa only [hij] using hj
      rw [h6, ((hm j).1 h7).2]
    · intro hfij
      by_contra hne
      obtain ⟨m, -, hm⟩ := e3 _ (List.getElem_mem hrj)
      have h6 : i ∈ regs[labelsOf l j] :=
        (hm i).2 ⟨List.mem_finRange _, by rw [hfij]; exact ((hm j).1 hj).2⟩
      have hdis := (List.nodup_flatten.1 e4).2
      rcases Nat.lt_or_gt_of_ne hne with hlt | hlt
      · exact List.pairwise_iff_getElem.1 hdis _ _ hri hrj hlt hi h6
      · exact List.pairwise_iff_getElem.1 hdis _ _ hrj hri hlt h6 hi

/-! ### Every clustering has a solution -/

/-- The solution of the tree model belonging to a clustering with rooted trees. -/
def treeAssign (p : Nat) (L : Fin n → Nat) (root : Nat → Fin n) (rank : Fin n → Nat)
    (par : Fin n → Fin n) : TreeVar n → ℤ
  | .t i j => if L i = L j then 1 else 0
  | .x i j => if i ≠ root (L i) ∧ par i = j then 1 else 0
  | .u i => (n : ℤ) - p - rank i

theorem tree_representable {L : Fin n → Nat} (hs : Spec.Symmetric adj) (hc : AllContiguous adj L)
    (hL : ∀ i, L i < p) (hsurj : ∀ k < p, ∃ i, L i = k) (h2 : p + 2 ≤ n) :
    ∃ a, TreeSol adj p a ∧ ∀ i j, a (.t i j) = if L i = L j then 1 else 0 := by
  obtain ⟨root, rank, par, hR, hb⟩ := exists_rooted_flat (⟨0, by omega⟩ : Fin n) hc
  have hsize := sizeAt_add_le hL hsurj
  have hrank : ∀ i, (rank i : ℤ) + 1 ≤ (n : ℤ) - p := by
    intro i
    have h1 := hb i
    have h3 := hsize i
    by_cases h4 : 3 ≤ sizeAt L i
    · have := h1.2 h4; omega
    · have := h1.1; omega
  have hadj : ∀ {i j}, Borders adj i j → adj i j = true := by
    rintro i j (h | h)
    · exact h
    · rw [hs i j]; exact h
  have hout : ∀ i, ∑ j, (if adj i j = true then treeAssign p L root rank par (.x i j) else 0) =
      if i ≠ root (L i) then 1 else 0 := by
    intro i
    by_cases hi : i ≠ root (L i)
    · rw [if_pos hi, sum_eq_single (par i)]
      · rw [if_pos (hadj (hR.step i hi).2.1)]
        exact if_pos ⟨hi, rfl⟩
      · intro j _ hj
        have : treeAssign p L root rank par (.x i j) = 0 := if_neg fun hh => hj hh.2.symm
        rw [this, ite_self]
      · intro hh; exact absurd (mem_univ _) hh
    · rw [if_neg hi]
      refine sum_eq_zero fun j _ => ?_
      have : treeAssign p L root rank par (.x i j) = 0 := if_neg fun hh => hi hh.1
      rw [this, ite_self]
  have hxcase : ∀ i j, treeAssign p L root rank par (.x i j) = 1 ∧ i ≠ root (L i) ∧ par i = j ∨
      treeAssign p L root rank par (.x i j) = 0 := by
    intro i j
    by_cases hc : i ≠ root (L i) ∧ par i = j
    · exact Or.inl ⟨if_pos hc, hc⟩
    · exact Or.inr (if_neg hc)
  refine ⟨treeAssign p L root rank par, ⟨?_, ?_, ?_, ?_, ?_, ?_, ?_, ?_, ?_⟩, fun _ _ => rfl⟩
  · intro i j; simp only [treeAssign]; split_ifs <;> simp
  · intro i j; simp only [treeAssign]; split_ifs <;> simp
  · rw [sum_congr rfl fun i _ => hout i]
    have hroots : (univ.filter fun i => i = root (L i)).card = p := by
      have : (univ.filter fun i => i = root (L i)).image L = range p := by
        ext k
        simp only [mem_image, mem_filter, mem_univ, true_and, mem_range]
        constructor
        · rintro ⟨i, -, rfl⟩; exact hL i
        · intro hk
          obtain ⟨i, rfl⟩ := hsurj k hk
          exact ⟨root (L i), by rw [hR.root_mem], hR.root_mem i⟩
      rw [← card_range p, ← this, card_image_of_injOn]
      intro i hi j hj hij
      have hi : i = root (L i) := by simpa using hi
      have hj : j = root (L j) := by simpa using hj
      rw [hi, hj, hij]
    have h1 : ∀ i : Fin n, (if i ≠ root (L i) then (1 : ℤ) else 0) =
        1 - if i = root (L i) then 1 else 0 := by
      intro i
      by_cases hi : i = root (L i)
      · rw [if_pos hi, if_neg (fun hh => hh hi)]; rfl
      · rw [if_neg hi, if_pos hi]; rfl
    rw [sum_congr rfl fun i _ => h1 i, sum_sub_distrib]
    simp only [sum_const, card_univ, Fintype.card_fin, nsmul_eq_mul, mul_one, sum_boole]
    rw [hroots]
  · intro i
    rw [hout]
    split_ifs <;> simp
  · intro i j m _ _ _
    simp only [treeAssign]
    split_ifs <;> omega
  · intro i j
    simp only [treeAssign, eq_comm]
  · intro i j hij
    rcases hxcase i j with ⟨h1, h3, h4⟩ | h1
    · rw [h1]
      have : L i = L j := by rw [← h4, (hR.step i h3).1]
      simp [treeAssign, this]
    · rw [h1]; simp only [treeAssign]; split_ifs <;> simp
  · intro i j hij
    have hri := hrank i
    have hrj := hrank j
    have hu : ∀ v, treeAssign p L root rank par (.u v) = (n : ℤ) - p - rank v := fun _ => rfl
    rw [hu, hu]
    rcases hxcase i j with ⟨h1, h3, h4⟩ | h1
    · have h5 := (hR.step i h3).2.2
      rw [h4] at h5
      rcases hxcase j i with ⟨h6, h7, h8⟩ | h6
      · have h9 := (hR.step j h7).2.2
        rw [h8] at h9
        omega
      · rw [h1, h6]; push_cast [h5]; omega
    · rcases hxcase j i with ⟨h6, h7, h8⟩ | h6
      · have h9 := (hR.step j h7).2.2
        rw [h8] at h9
        rw [h1, h6]; push_cast [h9]; omega
      · rw [h1, h6]; omega
  · intro i
    have hri := hrank i
    simp only [treeAssign]
    omega

end

end Region
