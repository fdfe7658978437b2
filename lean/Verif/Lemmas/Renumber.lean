import Mathlib.Logic.Equiv.Basic
import Verif.SpecAzp
/-
The notions of the specification do not depend on how the areas are numbered.
-/
namespace Region

open Spec Relation

section
variable {V W : Type} (e : V ≃ W)

theorem borders_comp (adj : W → W → Bool) (a b : V) :
    Borders (fun a b => adj (e a) (e b)) a b ↔ Borders adj (e a) (e b) := Iff.rfl

theorem pathIn_comp (adj : W → W → Bool) (S : Set W) {a b : W} (h : PathIn adj S a b) :
    PathIn (fun a b => adj (e a) (e b)) {v | e v ∈ S} (e.symm a) (e.symm b) := by
  induction h with
  | refl => exact .refl
  | tail _ h ih =>
    refine ih.tail ⟨?_, ?_, ?_⟩
    · simpa using h.1
    · simpa using h.2.1
    · rw [borders_comp]; simpa using h.2.2

theorem pathIn_comp_iff (adj : W → W → Bool) (S : Set W) (a b : V) :
    PathIn (fun a b => adj (e a) (e b)) {v | e v ∈ S} a b ↔ PathIn adj S (e a) (e b) := by
  constructor
  · intro h
    have := pathIn_comp e.symm _ _ h
    simpa using this
  · intro h
    have := pathIn_comp e _ _ h
    simpa using this

theorem sameIsland_comp (adj : W → W → Bool) (a b : V) :
    SameIsland (fun a b => adj (e a) (e b)) a b ↔ SameIsland adj (e a) (e b) := by
  have h1 : ∀ {V : Type} (adj : V → V → Bool) (a b : V),
      SameIsland adj a b ↔ PathIn adj Set.univ a b := by
    intro V adj a b
    have : StepIn adj Set.univ = Borders adj := by
      funext a b; simp [StepIn]
    unfold SameIsland PathIn
    rw [this]
  rw [h1, h1, ← pathIn_comp_iff e adj Set.univ]
  rfl

theorem contiguous_comp (adj : W → W → Bool) (S : Set W) :
    Contiguous (fun a b => adj (e a) (e b)) {v | e v ∈ S} ↔ Contiguous adj S := by
  constructor
  · rintro ⟨⟨v, hv⟩, h⟩
    refine ⟨⟨e v, hv⟩, fun a ha b hb => ?_⟩
    have := h (e.symm a) (by simpa using ha) (e.symm b) (by simpa using hb)
    rw [pathIn_comp_iff] at this
    simpa using this
  · rintro ⟨⟨w, hw⟩, h⟩
    refine ⟨⟨e.symm w, by simpa using hw⟩, fun a ha b hb => ?_⟩
    rw [pathIn_comp_iff]
    exact h _ ha _ hb

theorem allContiguous_comp {L : Type} (adj : W → W → Bool) (labels : W → L) :
    AllContiguous (fun a b => adj (e a) (e b)) (labels ∘ e) ↔ AllContiguous adj labels := by
  constructor
  · intro h w
    have := h (e.symm w)
    rw [← contiguous_comp e]
    simpa [regionOf] using this
  · intro h v
    have := h (e v)
    rw [← contiguous_comp e] at this
    exact this

theorem admissible_comp {L : Type} (adj : W → W → Bool) (labels : W → L) (a : V) (r : L) :
    Admissible (fun a b => adj (e a) (e b)) (labels ∘ e) a r ↔ Admissible adj labels (e a) r := by
  unfold Admissible
  refine and_congr Iff.rfl (and_congr ?_ (and_congr ?_ ?_))
  · constructor
    · rintro ⟨u, h1, h2⟩; exact ⟨e u, h1, h2⟩
    · rintro ⟨u, h1, h2⟩
      refine ⟨e.symm u, by simpa using h1, ?_⟩
      rw [borders_comp]; simpa using h2
  · constructor
    · rintro ⟨u, h1, h2⟩; exact ⟨e u, fun h => h1 (e.injective h), h2⟩
    · rintro ⟨u, h1, h2⟩
      exact ⟨e.symm u, fun h => h1 (by rw [← h]; simp), by simpa using h2⟩
  · rw [← contiguous_comp e]
    have : {v | e v ∈ {x | labels x = labels (e a) ∧ x ≠ e a}} =
        {x | (labels ∘ e) x = (labels ∘ e) a ∧ x ≠ a} := by
      ext x; simp
    rw [this]

theorem moved_comp {L : Type} [DecidableEq V] [DecidableEq W] (labels : W → L) (a : V) (r : L) :
    moved labels (e a) r ∘ e = moved (labels ∘ e) a r := by
  funext v
  simp [moved]

theorem enumerates_comp (rs : List Int) (labels : W → Int) :
    Enumerates rs (labels ∘ e) ↔ Enumerates rs labels := by
  refine and_congr Iff.rfl (forall_congr' fun x => iff_congr Iff.rfl ?_)
  exact ⟨fun ⟨i, h⟩ => ⟨e i, h⟩, fun ⟨i, h⟩ => ⟨e.symm i, by simpa using h⟩⟩

section
variable [DecidableEq V] [DecidableEq W] {adj : W → W → Bool} {allowed : (W → Int) → W → Int → Prop}
  {allowed' : (V → Int) → V → Int → Prop}
  (ha : ∀ L a r, allowed' (L ∘ e) a r ↔ allowed L (e a) r)
include ha

theorem grown_comp {r : Int} {L L' : W → Int} (h : Grown adj allowed r L L') :
    Grown (fun a b => adj (e a) (e b)) allowed' r (L ∘ e) (L' ∘ e) := by
  induction h with
  | @stop L h =>
    refine .stop fun a h1 => ?_
    rw [ha]
    exact h _ ((admissible_comp e adj L a r).1 h1)
  | @move L L' a h1 h2 _ ih =>
    refine .move (a := e.symm a) ?_ ?_ ?_
    · rw [admissible_comp]; simpa using h1
    · rw [ha]; simpa using h2
    · rw [← moved_comp]; simpa using ih

theorem passed_comp {rs : List Int} {L L' : W → Int} (h : Passed adj allowed rs L L') :
    Passed (fun a b => adj (e a) (e b)) allowed' rs (L ∘ e) (L' ∘ e) := by
  induction h with
  | nil => exact .nil
  | cons h _ ih => exact .cons (grown_comp e ha h) ih

theorem rounds_comp {value : (W → Int) → ℚ} {value' : (V → Int) → ℚ}
    (hv : ∀ L L' : W → Int, value' (L' ∘ e) < value' (L ∘ e) ↔ value L' < value L) {L L' : W → Int}
    (h : Rounds adj allowed value L L') :
    Rounds (fun a b => adj (e a) (e b)) allowed' value' (L ∘ e) (L' ∘ e) := by
  induction h with
  | last hr h hlt =>
    exact .last ((enumerates_comp e _ _).2 hr) (passed_comp e ha h) (by rwa [hv])
  | again hr h hlt _ ih =>
    exact .again ((enumerates_comp e _ _).2 hr) (passed_comp e ha h) (by rwa [hv]) ih

end

theorem rounds_comp_iff [DecidableEq V] [DecidableEq W] {adj : W → W → Bool}
    {allowed : (W → Int) → W → Int → Prop} {allowed' : (V → Int) → V → Int → Prop}
    (ha : ∀ L a r, allowed' (L ∘ e) a r ↔ allowed L (e a) r)
    {value : (W → Int) → ℚ} {value' : (V → Int) → ℚ}
    (hv : ∀ L L' : W → Int, value' (L' ∘ e) < value' (L ∘ e) ↔ value L' < value L) (L L' : W → Int) :
    Rounds (fun a b => adj (e a) (e b)) allowed' value' (L ∘ e) (L' ∘ e) ↔ Rounds adj allowed value L L' := by
  have hce : ∀ L : V → Int, (L ∘ e.symm) ∘ e = L := fun L => by funext v; simp
  have hec : ∀ L : W → Int, (L ∘ e) ∘ e.symm = L := fun L => by funext v; simp
  refine ⟨fun h => ?_, rounds_comp e ha hv⟩
  have := rounds_comp e.symm (allowed' := allowed) (value' := value) (fun L a r => ?_) (fun L L' => ?_) h
  · rw [hec, hec] at this
    simpa using this
  · rw [← hce L, hec]
    have := ha (L ∘ e.symm) (e.symm a) r
    rw [hce] at this
    simp only [Equiv.apply_symm_apply] at this
    rw [hce, this]
  · rw [← hv, hce, hce]

theorem dispensable_comp {Q : Type} (spat : W → Q → ℚ) (thr : Q → ℚ) (L : W → Int) (a : V) :
    Dispensable (fun v => spat (e v)) thr (L ∘ e) a ↔ Dispensable spat thr L (e a) := by
  unfold Dispensable
  refine or_congr Iff.rfl (forall_congr' fun j => ?_)
  rw [← finsum_comp_equiv e (f := fun u => ∑ᶠ (_ : L u = L (e a) ∧ u ≠ e a), spat u j)]
  simp

/-- When the value never changes there is one pass. -/
theorem rounds_const [DecidableEq V] {adj : V → V → Bool} {allowed : (V → Int) → V → Int → Prop} {v : ℚ}
    {L L' : V → Int} : Rounds adj allowed (fun _ => v) L L' ↔ OnePass adj allowed L L' := by
  constructor
  · intro h
    cases h with
    | last hr h _ => exact ⟨_, hr, h⟩
    | again _ _ hv => exact absurd hv (lt_irrefl _)
  · rintro ⟨rs, hr, h⟩
    exact .last hr h (lt_irrefl _)

theorem onePass_comp [DecidableEq V] [DecidableEq W] {adj : W → W → Bool}
    {allowed : (W → Int) → W → Int → Prop} {allowed' : (V → Int) → V → Int → Prop}
    (ha : ∀ L a r, allowed' (L ∘ e) a r ↔ allowed L (e a) r) (L L' : W → Int) :
    OnePass (fun a b => adj (e a) (e b)) allowed' (L ∘ e) (L' ∘ e) ↔ OnePass adj allowed L L' := by
  rw [← rounds_const (v := 0), ← rounds_const (v := 0)]
  exact rounds_comp_iff e ha (fun _ _ => Iff.rfl) L L'

/-- The possible results are those of the renumbered map, renumbered. -/
theorem zoned_comp [DecidableEq V] [DecidableEq W] (adj : W → W → Bool) {value : (W → Int) → ℚ}
    {value' : (V → Int) → ℚ}
    (hv : ∀ L L' : W → Int, value' (L' ∘ e) < value' (L ∘ e) ↔ value L' < value L) (L L' : W → Int) :
    Zoned (fun a b => adj (e a) (e b)) value' (L ∘ e) (L' ∘ e) ↔ Zoned adj value L L' := by
  unfold Zoned
  refine rounds_comp_iff e (fun L a r => ?_) hv L L'
  rw [← moved_comp, ← not_lt, ← not_lt, hv]

end

end Region
