import Verif.SpecReactRun
import Verif.SpecAzp
/-
The reactive tabu search on several islands, for property C131.
-/
namespace Region.Spec

/-- `us` contains the first area of every island, in ascending order. -/
def FirstOfEach {V : Type} [Preorder V] (adj : V → V → Bool) (us : List V) : Prop :=
  us.Pairwise (· < ·) ∧ (∀ u ∈ us, ∀ v, SameIsland adj u v → u ≤ v) ∧ ∀ v, ∃ u ∈ us, SameIsland adj u v

section
variable {V : Type} [Preorder V] [DecidableEq V] (adj : V → V → Bool)

/-- The clustering of an island that was recorded last, if any. -/
abbrev Recorded : Type := Option ((u : V) × (Island adj u → Int))

variable (value : (u : V) → (Island adj u → Int) → ℚ) (limit : Nat) (init : V → Int)

/-- The island of `u` has at least two regions. -/
def SeveralRegions (u : V) : Prop := ∃ a b : Island adj u, init a ≠ init b

/-- The islands `us` are worked on one after the other, which leads to the labels `L` for their areas.  If the
first round on an island is the last one, the island gets the labels recorded last, area by area, even though they
are those of another island. -/
inductive ReactIslands (L : V → Int) : List V → Recorded adj → Recorded adj → Prop
  | done {last : Recorded adj} : ReactIslands L [] last last
  | one {u : V} {us : List V} {last last' : Recorded adj} (h : ¬ SeveralRegions adj init u)
      (hL : onIsland adj u L = onIsland adj u init) (t : ReactIslands L us last last') : ReactIslands L (u :: us) last last'
  | later {u : V} {us : List V} {last last' : Recorded adj} {before after : Island adj u → Int}
      (h : SeveralRegions adj init u)
      (hr : ReactLast (fun a b : Island adj u => adj a b) (value u) limit (onIsland adj u init) false before after)
      (hL : onIsland adj u L = before) (t : ReactIslands L us (some ⟨u, after⟩) last') : ReactIslands L (u :: us) last last'
  | own {u : V} {us : List V} {last' : Recorded adj} {before after : Island adj u → Int}
      (h : SeveralRegions adj init u)
      (hr : ReactLast (fun a b : Island adj u => adj a b) (value u) limit (onIsland adj u init) true before after)
      (hL : onIsland adj u L = after) (t : ReactIslands L us (some ⟨u, after⟩) last') : ReactIslands L (u :: us) none last'
  | foreign {u w : V} {us : List V} {last' : Recorded adj} {before after : Island adj u → Int} {l : Island adj w → Int}
      (h : SeveralRegions adj init u)
      (hr : ReactLast (fun a b : Island adj u => adj a b) (value u) limit (onIsland adj u init) true before after)
      (e : Island adj u ≃ Island adj w) (he : ∀ a b, e a < e b ↔ a < b) (hL : onIsland adj u L = l ∘ e)
      (t : ReactIslands L us (some ⟨u, after⟩) last') : ReactIslands L (u :: us) (some ⟨w, l⟩) last'

/-- On some island, after the islands before it, there is no open move left. -/
def NoMoveLeft (us : List V) : Prop :=
  ∃ us1 u us2 L last, us = us1 ++ u :: us2 ∧ ReactIslands adj value limit init L us1 none last ∧
    SeveralRegions adj init u ∧ ReactFails (fun a b : Island adj u => adj a b) (value u) limit (onIsland adj u init)

/-- Some island is to get the labels of another that has not as many areas. -/
def WrongSize (us : List V) : Prop :=
  ∃ us1 u us2 L w l before after, us = us1 ++ u :: us2 ∧ ReactIslands adj value limit init L us1 none (some ⟨w, l⟩) ∧
    SeveralRegions adj init u ∧
    ReactLast (fun a b : Island adj u => adj a b) (value u) limit (onIsland adj u init) true before after ∧
    IsEmpty (Island adj u ≃ Island adj w)

end

end Region.Spec
