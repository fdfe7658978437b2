import Verif.Lemmas.AzpFit
/-
Lemmas about clusterings whose regions are the islands.
-/
namespace Region

open Spec

/-- A contiguous clustering with as many regions as there are islands: its regions are the islands. -/
theorem separates_of_feasible {n : Nat} {α β : Type} [DecidableEq α] [DecidableEq β] {adj : Adj n}
    {isl : Fin n → α} (hi : Separates isl adj) {lab : Fin n → β} (hc : AllContiguous adj lab)
    (hn : numRegions lab = numRegions isl) : Separates lab adj := by
  have h1 : ∀ a b, lab a = lab b → isl a = isl b := by
    intro a b hab
    exact (hi a b).2 (pathIn_sameIsland ((hc a).2 a rfl b hab.symm))
  have hsurj : ∀ y ∈ Finset.univ.image isl, ∃ x, ∃ hx : x ∈ Finset.univ.image lab,
      y = isl (Finset.mem_image.1 hx).choose := by
    intro y hy
    obtain ⟨v, -, rfl⟩ := Finset.mem_image.1 hy
    have hx : lab v ∈ Finset.univ.image lab := Finset.mem_image_of_mem _ (Finset.mem_univ v)
    exact ⟨lab v, hx, h1 _ _ (Finset.mem_image.1 hx).choose_spec.2.symm⟩
  intro a b
  rw [← hi a b]
  refine ⟨h1 a b, fun hab => ?_⟩
  have ha : lab a ∈ Finset.univ.image lab := Finset.mem_image_of_mem _ (Finset.mem_univ a)
  have hb : lab b ∈ Finset.univ.image lab := Finset.mem_image_of_mem _ (Finset.mem_univ b)
  have := Finset.inj_on_of_surj_on_of_card_le
    (fun x (hx : x ∈ Finset.univ.image lab) => isl (Finset.mem_image.1 hx).choose)
    (fun x hx => Finset.mem_image_of_mem _ (Finset.mem_univ _))
    (fun y hy => by
      obtain ⟨x, hx, h⟩ := hsurj y hy
      exact ⟨x, hx, h.symm⟩)
    (le_of_eq hn) ha hb
    (by
      have ea := h1 _ _ (Finset.mem_image.1 ha).choose_spec.2
      have eb := h1 _ _ (Finset.mem_image.1 hb).choose_spec.2
      rw [ea, eb, hab])
  exact this

/-- If the regions are the islands and the component routine returns a component with one region as it
is, so does `fit`. -/
theorem fitWith_islands {σ ρ : Type} {n : Nat} (o : MstOrder) {adj : Adj n} (attr : Fin n → ρ)
    {comp : CompFn σ n ρ} (S : σ → Prop)
    (hcomp : ∀ (idx : List (Fin n)) (a : Adj idx.length) (init : Labels idx.length)
      (att : Fin idx.length → ρ) (st : σ) (rng : Rng), 0 < idx.length → (∀ i j, init i = init j) →
      S st → ∃ st', comp idx a init att st rng = .ok (init, st', rng) ∧ S st')
    {α : Type} [DecidableEq α] {isl : Fin n → α} (hi : Separates isl adj)
    (initial : Option (Labels n))
    (hstart : match initial with
      | some init => AllContiguous adj init ∧ numRegions init = numRegions isl ∧ ∀ v, init v ≠ -1
      | none => 0 < n ∧ numRegions isl ≠ 1)
    {st : σ} (hst : S st) (rng : Rng) :
    ∃ L st' rng', fitWith o adj attr comp (numRegions isl : Nat) initial st rng = .ok (L, st', rng') ∧
      StartsFrom adj (numRegions isl : Nat) initial L ∧ Separates L adj ∧ S st' := by
  have hcard : numRegions isl = nComponents adj := card_image_eq_nComponents adj isl hi
  have hne : ∀ lab, StartsFrom adj (numRegions isl : Nat) initial lab → ∀ v, lab v ≠ -1 := by
    intro lab hlab v
    cases initial with
    | none => have := (hlab.2.2 v).1; omega
    | some init => rw [hlab.2.2]; exact hstart.2.2 v
  have := fitWith_post (R := False) (T := False) o (adj := adj) (attr := attr) (comp := comp)
    (S := S) (Q := fun _ init out => out = init) (numRegions isl : Nat) initial
    (by
      intro _
      cases initial with
      | some init => exact ⟨hstart.1, by rw [hstart.2.1]⟩
      | none =>
        refine ⟨hstart.1, ?_, by exact_mod_cast hstart.2, by rw [hcard]⟩
        have := nComponents_le adj
        rw [hcard]
        exact_mod_cast this)
    (by
      intro lab hlab c hc st rng hS
      have hsep := separates_of_feasible hi hlab.1 (by exact_mod_cast hlab.2.1)
      obtain ⟨w, hw⟩ := compLabels_surj adj hc
      have hmem : ∀ v, v ∈ shown (compArray adj lab c) ↔ compLabels adj v = c := by
        intro v
        rw [mem_shown, compArray_ne]
        exact and_iff_left (hne lab hlab v)
      have hpos : 0 < (shown (compArray adj lab c)).length :=
        List.length_pos_of_mem ((hmem w).2 hw)
      obtain ⟨st', h⟩ := hcomp (shown (compArray adj lab c)) (subAdj adj (shown (compArray adj lab c)))
        (fun i => compArray adj lab c ((shown (compArray adj lab c)).get i))
        (fun i => attr ((shown (compArray adj lab c)).get i)) st rng hpos (by
          intro i j
          have e1 := (hmem _).1 (List.get_mem (shown (compArray adj lab c)) i)
          have e2 := (hmem _).1 (List.get_mem (shown (compArray adj lab c)) j)
          unfold compArray at e1 e2 ⊢
          rw [if_pos e1, if_pos e2]
          exact (hsep _ _).2 ((compLabels_eq_iff adj _ _).1 (e1.trans e2.symm))) hS
      rw [h.1]
      exact ⟨rfl, h.2⟩)
    st hst rng
  obtain ⟨⟨L, st', rng'⟩, h1, hS', lab, hlab, hf⟩ := this.total
  refine ⟨L, st', rng', h1, ?_⟩
  have hL : L = lab := by
    funext v
    have := (fit_result hf).2 _ (compLabels_lt adj v)
    have hv : v ∈ shown (compArray adj lab (compLabels adj v)) := by
      rw [mem_shown, compArray_ne]
      exact ⟨rfl, hne lab hlab v⟩
    obtain ⟨i, hi⟩ := List.get_of_mem hv
    have := congrFun this i
    dsimp only at this
    rwa [hi] at this
  subst hL
  exact ⟨hlab, separates_of_feasible hi hlab.1 (by exact_mod_cast hlab.2.1), hS'⟩

end Region
