import Verif.SpecMaxp
import Verif.Lemmas.IslandMaps
import Mathlib.Data.Fintype.Basic
import Mathlib.Data.Finset.Image
/-
The heuristic for the max-p-regions problem and renumberings of the areas.
-/
namespace Region

open Spec

section
variable {V W : Type} (e : V ≃ W)

/-- The areas with a new number in `S`. -/
def pull (S : Finset W) : Finset V := S.map e.symm.toEmbedding

@[simp] theorem mem_pull {S : Finset W} {v : V} : v ∈ pull e S ↔ e v ∈ S := by
  unfold pull
  rw [Finset.mem_map_equiv, Equiv.symm_symm]

theorem sum_pull (S : Finset W) (f : W → ℚ) : ∑ v ∈ pull e S, f (e v) = ∑ w ∈ S, f w := by
  unfold pull
  rw [Finset.sum_map]
  simp

variable {Q : Type} {adj : W → W → Bool} {d : W → W → ℚ} {spat : W → Q → ℚ} {thr : Q → ℚ}

theorem reaches_comp (R : Finset W) : Reaches (fun v => spat (e v)) thr (pull e R) ↔ Reaches spat thr R := by
  unfold Reaches
  refine forall_congr' fun j => ?_
  rw [sum_pull e R (fun w => spat w j)]

theorem touches_comp (R : Finset W) (v : V) :
    Touches (fun a b => adj (e a) (e b)) (pull e R) v ↔ Touches adj R (e v) := by
  unfold Touches
  constructor
  · rintro ⟨u, h1, h2⟩
    exact ⟨e u, (mem_pull e).1 h1, h2⟩
  · rintro ⟨u, h1, h2⟩
    refine ⟨e.symm u, by simpa using h1, ?_⟩
    rw [borders_comp]
    simpa using h2

theorem distTo_comp (v : V) (R : Finset W) : distTo (fun a b => d (e a) (e b)) v (pull e R) = distTo d (e v) R :=
  sum_pull e R (fun w => d (e v) w)

theorem pull_singleton (w : W) : pull e {w} = {e.symm w} := by
  ext v
  simp [Equiv.eq_symm_apply]

theorem numbered_comp {P : List (Finset W)} {L : W → Int} (h : Numbered P L) :
    Numbered (P.map (pull e)) (L ∘ e) := by
  intro v
  obtain ⟨i, hi, h1, h2⟩ := h (e v)
  exact ⟨i, by simpa using hi, h1, by simpa using h2⟩

variable [DecidableEq V] [DecidableEq W]

theorem pull_erase (U : Finset W) (w : W) : pull e (U.erase w) = (pull e U).erase (e.symm w) := by
  ext v
  simp [Equiv.eq_symm_apply]

theorem pull_insert (U : Finset W) (w : W) : pull e (insert w U) = insert (e.symm w) (pull e U) := by
  ext v
  simp [Equiv.eq_symm_apply]

theorem pull_union (U U' : Finset W) : pull e (U ∪ U') = pull e U ∪ pull e U' := by
  ext v
  simp

theorem built_comp {U R U' R' : Finset W} {ok : Bool} (h : Built adj d spat thr U R ok U' R') :
    Built (fun a b => adj (e a) (e b)) (fun a b => d (e a) (e b)) (fun v => spat (e v)) thr (pull e U) (pull e R)
      ok (pull e U') (pull e R') := by
  induction h with
  | full h => exact .full ((reaches_comp e _).2 h)
  | stuck h hn =>
    refine .stuck (fun hr => h ((reaches_comp e _).1 hr)) fun v hv ht => ?_
    exact hn _ ((mem_pull e).1 hv) ((touches_comp e _ v).1 ht)
  | @take U R U' R' ok w h hv ht hm _ ih =>
    rw [pull_erase, pull_insert] at ih
    refine .take (v := e.symm w) (fun hr => h ((reaches_comp e _).1 hr)) (by simpa using hv)
      ((touches_comp e _ _).2 (by simpa using ht)) (fun x hx hxt => ?_) ih
    rw [distTo_comp, distTo_comp, Equiv.apply_symm_apply]
    exact hm _ ((mem_pull e).1 hx) ((touches_comp e _ _).1 hxt)

theorem constructed_comp {P P' : List (Finset W)} {E U E' : Finset W}
    (h : Constructed adj d spat thr P E U P' E') :
    Constructed (fun a b => adj (e a) (e b)) (fun a b => d (e a) (e b)) (fun v => spat (e v)) thr
      (P.map (pull e)) (pull e E) (pull e U) (P'.map (pull e)) (pull e E') := by
  induction h with
  | done => exact .done
  | @region P P' E E' U U' R w hv h _ ih =>
    have hb := built_comp e h
    rw [pull_erase, pull_singleton] at hb
    refine .region (v := e.symm w) (by simpa using hv) hb ?_
    rwa [List.map_append] at ih
  | @enclave P P' E E' U U' R w hv h _ ih =>
    have hb := built_comp e h
    rw [pull_erase, pull_singleton] at hb
    refine .enclave (v := e.symm w) (by simpa using hv) hb ?_
    rwa [pull_union] at ih

theorem map_modify_pull (P : List (Finset W)) (i : Nat) (w : W) :
    (P.modify i (insert w)).map (pull e) = (P.map (pull e)).modify i (insert (e.symm w)) := by
  apply List.ext_getElem
  · simp
  · intro j h1 h2
    simp only [List.getElem_map, List.getElem_modify]
    split_ifs
    · exact pull_insert e _ _
    · rfl

theorem absorbed_comp {P P' : List (Finset W)} {E : Finset W} (h : Absorbed adj d P E P') :
    Absorbed (fun a b => adj (e a) (e b)) (fun a b => d (e a) (e b)) (P.map (pull e)) (pull e E)
      (P'.map (pull e)) := by
  induction h with
  | done => exact .done
  | @join P P' E w i hv hi ht hm _ ih =>
    rw [map_modify_pull, pull_erase] at ih
    refine .join (v := e.symm w) (i := i) (by simpa using hv) (by simpa using hi) ?_ ?_ ih
    · rw [List.getElem_map, touches_comp]
      simpa using ht
    · intro R hR hRt
      obtain ⟨R, hR', rfl⟩ := List.mem_map.1 hR
      rw [List.getElem_map, distTo_comp, distTo_comp, Equiv.apply_symm_apply]
      rw [touches_comp, Equiv.apply_symm_apply] at hRt
      exact hm R hR' hRt

theorem firstBest_map {X Y : Type} {f : X → ℚ} {g : Y → ℚ} {φ : X → Y}
    (h : ∀ x, g (φ x) = f x) {xs : List X} {x : X} (hb : FirstBest f xs x) : FirstBest g (xs.map φ) (φ x) := by
  obtain ⟨b, a, rfl, h1, h2⟩ := hb
  refine ⟨b.map φ, a.map φ, by simp, ?_, ?_⟩
  · intro y hy
    obtain ⟨y, hy', rfl⟩ := List.mem_map.1 hy
    rw [h, h]
    exact h1 y hy'
  · intro y hy
    obtain ⟨y, hy', rfl⟩ := List.mem_map.1 hy
    rw [h, h]
    exact h2 y hy'

theorem maxpResult_comp [Fintype V] [Fintype W] {k : Nat} {improved : (W → Int) → (W → Int) → Prop}
    {improved' : (V → Int) → (V → Int) → Prop} (hi : ∀ init M, improved init M → improved' (init ∘ e) (M ∘ e))
    {p : Nat} {L : W → Int} (h : MaxpResult adj d spat thr k improved p L) :
    MaxpResult (fun a b => adj (e a) (e b)) (fun a b => d (e a) (e b)) (fun v => spat (e v)) thr k improved' p
      (L ∘ e) := by
  obtain ⟨runs, h1, h2, h3, ⟨run, h4, h5⟩, parts, h6, results, h7, h8⟩ := h
  let f : List (Finset W) × Finset W → List (Finset V) × Finset V := fun run => (run.1.map (pull e), pull e run.2)
  refine ⟨runs.map f, by simpa using h1, ?_, ?_, ⟨f run, List.mem_map.2 ⟨run, h4, rfl⟩, by simpa [f] using h5⟩,
    parts.map (List.map (pull e)), ?_, results.map (· ∘ e), ?_, ?_⟩
  · intro x hx
    obtain ⟨x, hx', rfl⟩ := List.mem_map.1 hx
    have := constructed_comp e (h2 x hx')
    have hu : pull e (Finset.univ : Finset W) = Finset.univ := by ext; simp
    rwa [hu] at this
  · intro x hx
    obtain ⟨x, hx', rfl⟩ := List.mem_map.1 hx
    simpa [f] using h3 x hx'
  · have hfil : (runs.map f).filter (fun run => decide (run.1.length = p)) =
        (runs.filter fun run => decide (run.1.length = p)).map f := by
      rw [List.filter_map]
      congr 1
      apply List.filter_congr
      intro x _
      simp [f]
    rw [hfil, List.forall₂_map_left_iff, List.forall₂_map_right_iff]
    exact h6.imp fun _ _ h => absorbed_comp e h
  · rw [List.length_map, ← List.map_replicate, ← List.map_flatten, List.forall₂_map_left_iff,
      List.forall₂_map_right_iff]
    exact h7.imp fun P M ⟨init, h, h'⟩ => ⟨init ∘ e, numbered_comp e h, hi _ _ h'⟩
  · exact firstBest_map (fun l => by rw [dissimilarity_comp e]) h8

end

end Region
