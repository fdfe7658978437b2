import Verif.Lemmas.ExactTree
/-
Lemmas: the decoding of the tree model can number the regions in every way.
-/
namespace Region

open Spec Finset

variable {n : Nat} {vals : TreeVar n → Option ℚ} {N : Fin n → Nat}

/-- The areas can be popped such that the regions come in the order of their numbers. -/
theorem treeRegions_named (hf : ∀ i j, N i = N j ↔ i = j ∨ vals (.t i j) = some 1) :
    ∀ (k b : Nat) (idx : List (Fin n)), idx.Nodup → (∀ j ∈ idx, b ≤ N j) →
      (∀ c, b ≤ c → c < b + k → ∃ j ∈ idx, N j = c) →
      ∃ r regs, treeRegions vals k idx r = .ok regs ∧ regs.length = k ∧
        ∀ (m : Nat) (hm : m < regs.length) (j : Fin n), j ∈ regs[m] ↔ j ∈ idx ∧ N j = b + m := by
  intro k
  induction k with
  | zero => exact fun b idx _ _ _ => ⟨fun _ => 0, [], rfl, rfl, fun m hm => absurd hm (by simp)⟩
  | succ k ih =>
    intro b idx hnd hb hc
    obtain ⟨area, harea, hN⟩ := hc b le_rfl (by omega)
    obtain ⟨t, ht, hget⟩ := List.mem_iff_getElem.1 harea
    set reg := area :: (idx.erase area).filter fun o => decide (vals (.t area o) = some 1) with hreg
    set rest := (idx.erase area).filter fun o => !reg.contains o with hrest
    have hmreg : ∀ j, j ∈ reg ↔ j ∈ idx ∧ N j = b := by
      intro j
      simp only [hreg, List.mem_cons, List.mem_filter, decide_eq_true_eq, hnd.mem_erase_iff]
      rw [← hN, eq_comm (a := N j), hf area j]
      constructor
      · rintro (rfl | ⟨⟨-, h1⟩, h2⟩)
        · exact ⟨harea, Or.inl rfl⟩
        · exact ⟨h1, Or.inr h2⟩
      · rintro ⟨h1, rfl | h2⟩
        · exact Or.inl rfl
        · by_cases hja : j = area
          · exact Or.inl hja
          · exact Or.inr ⟨⟨hja, h1⟩, h2⟩
    have hmrest : ∀ j, j ∈ rest ↔ j ∈ idx ∧ N j ≠ b := by
      intro j
      simp only [hrest, List.mem_filter, Bool.not_eq_true', hnd.mem_erase_iff]
      rw [← Bool.not_eq_true, List.contains_iff_mem, hmreg]
      constructor
      · rintro ⟨⟨-, h1⟩, h2⟩
        exact ⟨h1, fun h => h2 ⟨h1, h⟩⟩
      · rintro ⟨h1, h2⟩
        exact ⟨⟨fun h => h2 (by rw [h, hN]), h1⟩, fun h => h2 h.2⟩
    obtain ⟨r, regs, h1, h2, h3⟩ := ih (b + 1) rest ((hnd.erase _).filter _)
      (fun j hj => by
        obtain ⟨h4, h5⟩ := (hmrest j).1 hj
        have := hb j h4
        omega)
      (fun c h4 h5 => by
        obtain ⟨j, h6, h7⟩ := hc c (by omega) (by omega)
        exact ⟨j, (hmrest j).2 ⟨h6, by omega⟩, h7⟩)
    refine ⟨fun m => m.casesOn t r, reg :: regs, ?_, by simp [h2], ?_⟩
    · unfold treeRegions
      have e0 : idx[t % idx.length]? = some area := by
        rw [Nat.mod_eq_of_lt ht, List.getElem?_eq_getElem ht, hget]
      change (match idx[t % idx.length]? with | none => _ | some area => _) = _
      rw [e0]
      dsimp only
      have e1 : Rng.next (fun m => m.casesOn t r) = r := rfl
      rw [e1, ← hreg, ← hrest, h1]
      rfl
    · intro m hm j
      cases m with
      | zero => simpa using hmreg j
      | succ m =>
        simp only [List.getElem_cons_succ]
        rw [h3, hmrest]
        constructor
        · rintro ⟨⟨h4, -⟩, h5⟩; exact ⟨h4, by omega⟩
        · rintro ⟨h4, h5⟩; exact ⟨⟨h4, by omega⟩, by omega⟩

/-- Every numbering of the regions can be read off. -/
theorem treeDecode_named {p : Nat} (hf : ∀ i j, N i = N j ↔ i = j ∨ vals (.t i j) = some 1)
    (hlt : ∀ i, N i < p) (hsurj : ∀ k < p, ∃ i, N i = k) :
    ∃ r, treeDecode p vals r = .ok ((List.finRange n).map N) := by
  obtain ⟨r, regs, h1, h2, h3⟩ := treeRegions_named hf p 0 (List.finRange n) (List.nodup_finRange n)
    (fun _ _ => Nat.zero_le _) (fun c _ hc => by
      obtain ⟨i, hi⟩ := hsurj c (by omega)
      exact ⟨i, List.mem_finRange _, hi⟩)
  have hcard : (univ.image N).card = p := by
    rw [show univ.image N = range p from ?_, card_range]
    ext c
    simp only [mem_image, mem_univ, true_and, mem_range]
    exact ⟨fun ⟨i, hi⟩ => hi ▸ hlt i, fun hc => hsurj c hc⟩
  have hu : (List.finRange n).toFinset = univ := by ext; simp
  obtain ⟨regs', e1, -, -, -, e5⟩ :=
    (treeRegions_spec hf p (List.finRange n) r (List.nodup_finRange n)).2 (by rw [hu, hcard])
  rw [h1, Res.ok.injEq] at e1
  subst e1
  have hperm : (regs.map fun reg => reg.map Fin.val).flatten.Perm (List.range n) := by
    have := (e5 (by rw [hu, hcard])).map Fin.val
    rw [List.map_coe_finRange_eq_range] at this
    rwa [List.map_flatten] at this
  obtain ⟨l, h4, h5, h6⟩ := Props.c09_array_from_region_list _ n hperm
  refine ⟨r, ?_⟩
  unfold treeDecode
  rw [h1, Res.bind_ok, h4, Res.ok.injEq]
  apply List.ext_getElem
  · simp [h5]
  · intro i hi hi'
    have hin : i < n := by omega
    have : l[i]? = some (N ⟨i, hin⟩) := by
      refine (h6 _ _).2 ⟨by rw [List.length_map, h2]; exact hlt _, ?_⟩
      rw [List.getElem_map]
      exact List.mem_map.2 ⟨⟨i, hin⟩, (h3 _ (by rw [h2]; exact hlt _) _).2 ⟨List.mem_finRange _, by simp⟩, rfl⟩
    rw [List.getElem?_eq_getElem hi, Option.some.injEq] at this
    simp [this]

end Region
