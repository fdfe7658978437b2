import Verif.SpecReactIslands
import Verif.Lemmas.ReactExactFit
import Verif.Lemmas.TabuExactFit
import Verif.Lemmas.StartForest
import Mathlib.Order.WellFounded
/-
The reactive tabu search on maps with islands, for property C131.
-/
namespace Region

open Spec

/-! ### Renumbering the areas -/

section Renumber
variable {V W : Type} [LT V] [LT W] [DecidableEq V] [DecidableEq W]
  (e : V ≃ W) (he : ∀ a b, e a < e b ↔ a < b) {adj : W → W → Bool} {value : (W → Int) → ℚ}
  {value' : (V → Int) → ℚ} (hv : ∀ L L', value' (L ∘ e) < value' (L' ∘ e) ↔ value L < value L')
include he hv

theorem reactStep_pull {x y : Search W} (h : ReactStep adj value x y) :
    ReactStep (fun a b => adj (e a) (e b)) value' (Search.pull e x) (Search.pull e y) := by
  rcases h with ⟨m, hm, hle, h⟩ | ⟨⟨m, hm⟩, hst, rfl⟩
  · refine .inl ⟨Shift.pull e m, (best_pull e he hv).2 hm, ?_, sent_pull e h⟩
    change value' (moved (x.labels ∘ e) (e.symm m.area) m.new) ≤ value' (x.labels ∘ e)
    rwa [moved_pull, pull_le e hv]
  · exact .inr ⟨⟨Shift.pull e m, (open_pull e).2 hm⟩, (stuck_pull e hv).2 hst, rfl⟩

theorem reactSteps_pull {init : W → Int} {j : Nat} {x : Search W} (h : ReactSteps adj value init j x) :
    ReactSteps (fun a b => adj (e a) (e b)) value' (init ∘ e) j (Search.pull e x) := by
  induction h with
  | start => exact .start
  | step _ h2 h3 ih => exact .step ih (reactStep_pull e he hv h2) ((hv _ _).2 h3)

theorem reactLast_pull {limit : Nat} {init before after : W → Int} {first : Bool}
    (h : ReactLast adj value limit init first before after) :
    ReactLast (fun a b => adj (e a) (e b)) value' limit (init ∘ e) first (before ∘ e) (after ∘ e) := by
  obtain ⟨j, x, y, h1, h2, h3, h4, h5, rfl, rfl⟩ := h
  refine ⟨j, Search.pull e x, Search.pull e y, h1, reactSteps_pull e he hv h2, reactStep_pull e he hv h3, ?_, h5, rfl, rfl⟩
  exact h4.imp_right (pull_le e hv _ _).2

theorem reactFails_pull {limit : Nat} {init : W → Int} (h : ReactFails adj value limit init) :
    ReactFails (fun a b => adj (e a) (e b)) value' limit (init ∘ e) := by
  obtain ⟨j, x, h1, h2, h3⟩ := h
  refine ⟨j, Search.pull e x, h1, reactSteps_pull e he hv h2, fun m hm => ?_⟩
  rw [← Shift.pull_symm e m, open_pull e] at hm
  exact h3 _ hm

end Renumber

/-! ### Only one way -/

section Unique
variable {n : Nat} {adj : Adj n} {value : (u : Fin n) → (Island adj u → Int) → ℚ} {limit : Nat} {init : Labels n}

theorem sameOrder_unique {u w : Fin n} {e e' : Island adj u ≃ Island adj w} (he : ∀ a b, e a < e b ↔ a < b)
    (he' : ∀ a b, e' a < e' b ↔ a < b) : e = e' := by
  have le : ∀ {e : Island adj u ≃ Island adj w}, (∀ a b, e a < e b ↔ a < b) → ∀ {a b}, e a ≤ e b ↔ a ≤ b := by
    intro e he a b
    rw [← not_lt, ← not_lt, he]
  have := Subsingleton.elim (⟨e, le he⟩ : Island adj u ≃o Island adj w) ⟨e', le he'⟩
  exact congrArg (fun f : Island adj u ≃o Island adj w => f.toEquiv) this

theorem reactIslands_unique {L L' : Labels n} {us : List (Fin n)} {last m m' : Recorded adj}
    (h : ReactIslands adj value limit init L us last m) (h' : ReactIslands adj value limit init L' us last m') :
    m = m' ∧ ∀ u ∈ us, onIsland adj u L = onIsland adj u L' := by
  induction h with
  | done => cases h'; exact ⟨rfl, by simp⟩
  | one h hL _ ih =>
    cases h' with
    | one h1 hL1 t1 => exact ⟨(ih t1).1, by simpa [hL, hL1] using (ih t1).2⟩
    | later h1 => exact (h h1).elim
    | own h1 => exact (h h1).elim
    | foreign h1 => exact (h h1).elim
  | later h hr hL _ ih =>
    cases h' with
    | one h1 => exact (h1 h).elim
    | later h1 hr1 hL1 t1 =>
      obtain ⟨-, rfl, rfl⟩ := reactLast_unique hr hr1
      exact ⟨(ih t1).1, by simpa [hL, hL1] using (ih t1).2⟩
    | own h1 hr1 => cases (reactLast_unique hr hr1).1
    | foreign h1 hr1 => cases (reactLast_unique hr hr1).1
  | own h hr hL _ ih =>
    cases h' with
    | one h1 => exact (h1 h).elim
    | later h1 hr1 => cases (reactLast_unique hr hr1).1
    | own h1 hr1 hL1 t1 =>
      obtain ⟨-, rfl, rfl⟩ := reactLast_unique hr hr1
      exact ⟨(ih t1).1, by simpa [hL, hL1] using (ih t1).2⟩
  | foreign h hr e he hL _ ih =>
    cases h' with
    | one h1 => exact (h1 h).elim
    | later h1 hr1 => cases (reactLast_unique hr hr1).1
    | foreign h1 hr1 e1 he1 hL1 t1 =>
      obtain ⟨-, rfl, rfl⟩ := reactLast_unique hr hr1
      obtain rfl := sameOrder_unique he he1
      exact ⟨(ih t1).1, by simpa [hL, hL1] using (ih t1).2⟩

theorem reactIslands_split {L : Labels n} {us1 us2 : List (Fin n)} {last m : Recorded adj}
    (h : ReactIslands adj value limit init L (us1 ++ us2) last m) :
    ∃ mid, ReactIslands adj value limit init L us1 last mid ∧ ReactIslands adj value limit init L us2 mid m := by
  induction us1 generalizing last with
  | nil => exact ⟨last, .done, h⟩
  | cons u us1 ih =>
    cases h with
    | one h hL t => obtain ⟨mid, h1, h2⟩ := ih t; exact ⟨mid, .one h hL h1, h2⟩
    | later h hr hL t => obtain ⟨mid, h1, h2⟩ := ih t; exact ⟨mid, .later h hr hL h1, h2⟩
    | own h hr hL t => obtain ⟨mid, h1, h2⟩ := ih t; exact ⟨mid, .own h hr hL h1, h2⟩
    | foreign h hr e he hL t => obtain ⟨mid, h1, h2⟩ := ih t; exact ⟨mid, .foreign h hr e he hL h1, h2⟩

theorem reactIslands_append {L : Labels n} {us1 us2 : List (Fin n)} {last mid m : Recorded adj}
    (h : ReactIslands adj value limit init L us1 last mid) (h2 : ReactIslands adj value limit init L us2 mid m) :
    ReactIslands adj value limit init L (us1 ++ us2) last m := by
  induction h with
  | done => exact h2
  | one h hL _ ih => exact .one h hL (ih h2)
  | later h hr hL _ ih => exact .later h hr hL (ih h2)
  | own h hr hL _ ih => exact .own h hr hL (ih h2)
  | foreign h hr e he hL _ ih => exact .foreign h hr e he hL (ih h2)

theorem reactIslands_congr {L L' : Labels n} {us : List (Fin n)} {last m : Recorded adj}
    (h : ReactIslands adj value limit init L us last m) (hL : ∀ u ∈ us, onIsland adj u L = onIsland adj u L') :
    ReactIslands adj value limit init L' us last m := by
  induction h with
  | done => exact .done
  | one h h1 _ ih => exact .one h ((hL _ (by simp)).symm.trans h1) (ih fun u hu => hL u (by simp [hu]))
  | later h hr h1 _ ih => exact .later h hr ((hL _ (by simp)).symm.trans h1) (ih fun u hu => hL u (by simp [hu]))
  | own h hr h1 _ ih => exact .own h hr ((hL _ (by simp)).symm.trans h1) (ih fun u hu => hL u (by simp [hu]))
  | foreign h hr e he h1 _ ih =>
    exact .foreign h hr e he ((hL _ (by simp)).symm.trans h1) (ih fun u hu => hL u (by simp [hu]))

variable (adj value limit init) in
/-- There is no move left on this island. -/
def Fails1 (u : Fin n) (_ : Recorded adj) : Prop :=
  SeveralRegions adj init u ∧ ReactFails (fun a b : Island adj u => adj a b) (value u) limit (onIsland adj u init)

variable (adj value limit init) in
/-- This island cannot take the recorded labels. -/
def Wrong1 (u : Fin n) (last : Recorded adj) : Prop :=
  ∃ w l before after, last = some ⟨w, l⟩ ∧ SeveralRegions adj init u ∧
    ReactLast (fun a b : Island adj u => adj a b) (value u) limit (onIsland adj u init) true before after ∧
    IsEmpty (Island adj u ≃ Island adj w)

variable (adj value limit init) in
/-- After some islands something happens. -/
def StopAt (P : Fin n → Recorded adj → Prop) (us : List (Fin n)) (last : Recorded adj) : Prop :=
  ∃ us1 u us2 L mid, us = us1 ++ u :: us2 ∧ ReactIslands adj value limit init L us1 last mid ∧ P u mid

theorem noMoveLeft_iff {us : List (Fin n)} : NoMoveLeft adj value limit init us ↔
    StopAt adj value limit init (Fails1 adj value limit init) us none := Iff.rfl

theorem wrongSize_iff {us : List (Fin n)} : WrongSize adj value limit init us ↔
    StopAt adj value limit init (Wrong1 adj value limit init) us none := by
  constructor
  · rintro ⟨us1, u, us2, L, w, l, b, a, h1, h2, h3, h4, h5⟩
    exact ⟨us1, u, us2, L, _, h1, h2, w, l, b, a, rfl, h3, h4, h5⟩
  · rintro ⟨us1, u, us2, L, _, h1, h2, w, l, b, a, rfl, h3, h4, h5⟩
    exact ⟨us1, u, us2, L, w, l, b, a, h1, h2, h3, h4, h5⟩

theorem fails1_not {u : Fin n} {us : List (Fin n)} {last m : Recorded adj} {L : Labels n}
    (h : Fails1 adj value limit init u last) (h' : ReactIslands adj value limit init L (u :: us) last m) : False := by
  cases h' with
  | one h1 => exact h1 h.1
  | later _ hr => exact reactLast_not_fails hr h.2
  | own _ hr => exact reactLast_not_fails hr h.2
  | foreign _ hr => exact reactLast_not_fails hr h.2

theorem wrong1_not {u : Fin n} {us : List (Fin n)} {last m : Recorded adj} {L : Labels n}
    (h : Wrong1 adj value limit init u last) (h' : ReactIslands adj value limit init L (u :: us) last m) : False := by
  obtain ⟨w, l, b, a, rfl, h1, h2, h3⟩ := h
  cases h' with
  | one h => exact h h1
  | later _ hr => cases (reactLast_unique hr h2).1
  | foreign _ _ e => exact h3.elim e

theorem wrong1_not_fails1 {u : Fin n} {last last' : Recorded adj} (h : Wrong1 adj value limit init u last)
    (h' : Fails1 adj value limit init u last') : False := by
  obtain ⟨w, l, b, a, rfl, h1, h2, h3⟩ := h
  exact reactLast_not_fails h2 h'.2

theorem stopAt_not {P : Fin n → Recorded adj → Prop}
    (hP : ∀ {u us last m L}, P u last → ReactIslands adj value limit init L (u :: us) last m → False)
    {us : List (Fin n)} {last m : Recorded adj} {L : Labels n} (h : StopAt adj value limit init P us last)
    (h' : ReactIslands adj value limit init L us last m) : False := by
  obtain ⟨us1, u, us2, L1, mid, rfl, h1, h2⟩ := h
  obtain ⟨mid', g1, g2⟩ := reactIslands_split h'
  obtain ⟨rfl, -⟩ := reactIslands_unique h1 g1
  exact hP h2 g2

theorem stopAt_excl {P Q : Fin n → Recorded adj → Prop}
    (hP : ∀ {u us last m L}, P u last → ReactIslands adj value limit init L (u :: us) last m → False)
    (hQ : ∀ {u us last m L}, Q u last → ReactIslands adj value limit init L (u :: us) last m → False)
    (hPQ : ∀ {u last}, P u last → Q u last → False)
    {us : List (Fin n)} {last : Recorded adj} (h : StopAt adj value limit init P us last)
    (h' : StopAt adj value limit init Q us last) : False := by
  obtain ⟨us1, u, us2, L1, mid, rfl, h1, h2⟩ := h
  obtain ⟨us1', u', us2', L1', mid', e, h1', h2'⟩ := h'
  rcases List.append_eq_append_iff.1 e with ⟨a, rfl, ha⟩ | ⟨a, rfl, ha⟩
  · cases a with
    | nil =>
      rw [List.append_nil] at h1'
      obtain ⟨rfl, -⟩ := reactIslands_unique h1 h1'
      cases ha
      exact hPQ h2 h2'
    | cons b a =>
      cases ha
      exact stopAt_not hP ⟨us1, u, a, L1, mid, rfl, h1, h2⟩ h1'
  · cases a with
    | nil =>
      rw [List.append_nil] at h1
      obtain ⟨rfl, -⟩ := reactIslands_unique h1 h1'
      cases ha
      exact hPQ h2 h2'
    | cons b a =>
      cases ha
      exact stopAt_not hQ ⟨us1', u', a, L1', mid', rfl, h1', h2'⟩ h1

end Unique

/-! ### The program -/

section Fit
variable {n q : Nat} {ρ : Type} {obj : Objective ρ} {adj : Adj n} {attr : Fin n → ρ} {expf : ℚ → ℚ} {init : Labels n}
  {k1 k2 : Int} {maxIt : Nat} {value : (u : Fin n) → (Island adj u → Int) → ℚ}

variable (adj init) in
/-- The areas of an island, as `fit` lists them. -/
abbrev areasOf (u : Fin n) : List (Fin n) := shown (compArray adj init (compLabels adj u))

variable (adj init) in
/-- What the object keeps between two islands; `cs` are the numbers of the islands to come. -/
structure Keeps (hm : ∀ v, init v ≠ -1) (cs : List Nat) (last : Recorded adj) (ob : ReactSelf (Strat n q)) : Prop where
  strat : ∃ v, ob.strat = .azp v
  recorded : ob.visited.getLast? = last.map fun z => arrayList (z.2 ∘ islandEquiv adj init hm z.1)
  several : ∀ z, last = some z → SeveralRegions adj init z.1
  other : ∀ l ∈ ob.visited, ∀ r ∈ l, ∃ v, init v = r ∧ compLabels adj v ∉ cs

theorem numRegions_one_iff (hm : ∀ v, init v ≠ -1) (u : Fin n) :
    numRegions (fun i => init ((areasOf adj init u).get i)) = 1 ↔ ¬ SeveralRegions adj init u := by
  have hu : u ∈ areasOf adj init u := (mem_shown_island adj init hm u u).2 (Relation.ReflTransGen.refl)
  obtain ⟨i0, hi0⟩ := List.get_of_mem hu
  unfold numRegions SeveralRegions
  rw [Finset.card_eq_one]
  constructor
  · rintro ⟨r, hr⟩ ⟨a, b, hab⟩
    have key : ∀ a : Island adj u, init a = r := by
      rintro ⟨a, ha⟩
      obtain ⟨i, hi⟩ := List.get_of_mem ((mem_shown_island adj init hm u a).2 ha)
      have : init a ∈ ({r} : Finset Int) := by
        rw [← hr, ← hi]
        exact Finset.mem_image_of_mem _ (Finset.mem_univ i)
      exact Finset.mem_singleton.1 this
    exact hab ((key a).trans (key b).symm)
  · intro h
    push_neg at h
    refine ⟨init u, ?_⟩
    ext r
    simp only [Finset.mem_image, Finset.mem_univ, true_and, Finset.mem_singleton]
    constructor
    · rintro ⟨i, rfl⟩
      exact h ⟨_, (mem_shown_island adj init hm u _).1 (List.get_mem _ i)⟩ ⟨u, Relation.ReflTransGen.refl⟩
    · rintro rfl
      exact ⟨i0, by rw [hi0]⟩

theorem reactComp_records (he : obj.Exact) (ht : obj.Total) (hs : Spec.Symmetric adj) (hk1 : 1 ≤ k1)
    (hmx : 1 ≤ maxIt) (hc : AllContiguous adj init) (hm : ∀ v, init v ≠ -1)
    (hval : ∀ u (L L' : Island adj u → Int),
      obj.call (L ∘ islandEquiv adj init hm u) (fun i => attr ((areasOf adj init u).get i)) <
        obj.call (L' ∘ islandEquiv adj init hm u) (fun i => attr ((areasOf adj init u).get i)) ↔ value u L < value u L')
    {u : Fin n} {cs : List Nat} (hu : compLabels adj u ∉ cs) {last : Recorded adj} {self : ReactSelf (Strat n q)}
    (hk : Keeps adj init hm (compLabels adj u :: cs) last self) (rng : Rng) :
    (∃ l self' rng' last', reactComp expf obj maxIt k1 k2 (fun i => (areasOf adj init u).get i)
        (subAdj adj (areasOf adj init u)) (fun i => init ((areasOf adj init u).get i))
        (fun i => attr ((areasOf adj init u).get i)) self rng = .ok (l, self', rng') ∧
      Keeps adj init hm cs last' self' ∧
      ∀ L : Labels n, onIsland adj u L = l ∘ (islandEquiv adj init hm u).symm →
        ReactIslands adj value maxIt init L [u] last last') ∨
    (reactComp expf obj maxIt k1 k2 (fun i => (areasOf adj init u).get i)
        (subAdj adj (areasOf adj init u)) (fun i => init ((areasOf adj init u).get i))
        (fun i => attr ((areasOf adj init u).get i)) self rng = .raise .attributeError ∧
      Fails1 adj value maxIt init u last) ∨
    (reactComp expf obj maxIt k1 k2 (fun i => (areasOf adj init u).get i)
        (subAdj adj (areasOf adj init u)) (fun i => init ((areasOf adj init u).get i))
        (fun i => attr ((areasOf adj init u).get i)) self rng = .raise (.valueError "shape mismatch") ∧
      Wrong1 adj value maxIt init u last) := by
  have hother : ∀ l ∈ self.visited, ∀ r ∈ l, ∃ v, init v = r ∧ compLabels adj v ∉ cs := fun l hl r hr => by
    obtain ⟨v, h1, h2⟩ := hk.other l hl r hr
    exact ⟨v, h1, fun h => h2 (by simp [h])⟩
  by_cases h1 : numRegions (fun i => init ((areasOf adj init u).get i)) = 1
  · left
    refine ⟨fun i => init ((areasOf adj init u).get i),
      ⟨self.visited, self.avg, self.repCounter, self.strat.start (obj.call (fun i => init ((areasOf adj init u).get i))
        fun i => attr ((areasOf adj init u).get i))⟩, rng, last, ?_, ⟨?_, hk.recorded, hk.several, hother⟩, fun L hL => ?_⟩
    · unfold reactComp reactComponentList
      rw [length_unique_labels, if_pos h1, Res.bind_ok]
      dsimp only
      rw [fromArray_arrayList]
      rfl
    · obtain ⟨v, hv⟩ := hk.strat
      rw [hv]
      exact ⟨_, rfl⟩
    · refine .one ((numRegions_one_iff hm u).1 h1) ?_ .done
      rw [hL]
      funext a
      obtain ⟨i, rfl⟩ := (islandEquiv adj init hm u).surjective a
      simp only [Function.comp_apply, Equiv.symm_apply_apply]
      rfl
  · have hsev : SeveralRegions adj init u := not_not.1 fun h => h1 ((numRegions_one_iff hm u).2 h)
    have hst : ∃ v, (self.strat.start (obj.call (fun i => init ((areasOf adj init u).get i))
        fun i => attr ((areasOf adj init u).get i))) = .azp v := by
      obtain ⟨v, hv⟩ := hk.strat
      rw [hv]
      exact ⟨_, rfl⟩
    have hcomp : ∀ i, compLabels adj ((areasOf adj init u).get i) = compLabels adj u := fun i =>
      (compArray_ne.1 (mem_shown.1 (List.get_mem (areasOf adj init u) i))).1
    have hpre : ∀ l ∈ self.visited, ∀ r ∈ l, ∀ i, init ((areasOf adj init u).get i) ≠ r := by
      rintro l hl r hr i rfl
      obtain ⟨v, g1, g2⟩ := hk.other l hl _ hr
      have := (compLabels_eq_iff adj _ _).2 (sameIsland_of_label hc g1)
      rw [hcomp] at this
      exact g2 (by rw [this]; simp)
    have hadj : subAdj adj (areasOf adj init u) = fun a b =>
        (fun a b : Island adj u => adj a b) (islandEquiv adj init hm u a) (islandEquiv adj init hm u b) := rfl
    have hinit : (fun i => init ((areasOf adj init u).get i)) ∘ (islandEquiv adj init hm u).symm = onIsland adj u init := by
      funext a
      obtain ⟨i, rfl⟩ := (islandEquiv adj init hm u).surjective a
      simp only [Function.comp_apply, Equiv.symm_apply_apply]
      rfl
    have he' : ∀ a b, (islandEquiv adj init hm u).symm a < (islandEquiv adj init hm u).symm b ↔ a < b := fun a b => by
      rw [← islandEquiv_lt hm u, Equiv.apply_symm_apply, Equiv.apply_symm_apply]
    have hv' : ∀ L L' : Labels (areasOf adj init u).length,
        value u (L ∘ (islandEquiv adj init hm u).symm) < value u (L' ∘ (islandEquiv adj init hm u).symm) ↔
          obj.call L (fun i => attr ((areasOf adj init u).get i)) <
            obj.call L' (fun i => attr ((areasOf adj init u).get i)) := by
      intro L L'
      rw [← hval]
      have hce : ∀ L : Labels (areasOf adj init u).length,
          (L ∘ (islandEquiv adj init hm u).symm) ∘ (islandEquiv adj init hm u) = L := fun L => by funext v; simp
      rw [hce, hce]
    have hback : (fun a b => subAdj adj (areasOf adj init u) ((islandEquiv adj init hm u).symm a)
        ((islandEquiv adj init hm u).symm b)) = fun a b : Island adj u => adj a b := by
      funext a b
      rw [hadj]
      simp
    rcases reactComponentList_records (q := q) (expf := expf) (idx := fun i => (areasOf adj init u).get i)
      (attr := fun i => attr ((areasOf adj init u).get i)) (k2 := k2) he ht (Props.subAdj_symm hs (areasOf adj init u)) hk1
      (comp_contiguous hc _) h1 hmx ⟨self.visited, self.avg, self.repCounter, self.strat.start
        (obj.call (fun i => init ((areasOf adj init u).get i)) fun i => attr ((areasOf adj init u).get i)), rng⟩ hpre hst
      with ⟨g1, g2⟩ | ⟨first, before, after, out, self', g1, g2, g3, g4, g5, g6, g7⟩
    · right; left
      refine ⟨?_, hsev, ?_⟩
      · unfold reactComp
        exact congrArg (fun r => Res.bind r _) g1
      · have := reactFails_pull (islandEquiv adj init hm u).symm he' hv' g2
        rw [hback, hinit] at this
        exact this
    · have hlast := reactLast_pull (islandEquiv adj init hm u).symm he' hv' g2
      rw [hback, hinit] at hlast
      have hrun : reactComp expf obj maxIt k1 k2 (fun i => (areasOf adj init u).get i)
          (subAdj adj (areasOf adj init u)) (fun i => init ((areasOf adj init u).get i))
          (fun i => attr ((areasOf adj init u).get i)) self rng =
          (fromArray (areasOf adj init u).length out >>= fun labels =>
            .ok (labels, ⟨self'.visited, self'.avg, self'.repCounter, self'.strat⟩, self'.rng)) := by
        unfold reactComp
        exact congrArg (fun r => Res.bind r _) g1
      have hkeep : Keeps adj init hm cs (some ⟨u, after ∘ (islandEquiv adj init hm u).symm⟩)
          ⟨self'.visited, self'.avg, self'.repCounter, self'.strat⟩ := by
        refine ⟨g5, ?_, ?_, ?_⟩
        · dsimp only
          rw [g4, Option.map_some]
          congr 2
          funext v
          simp
        · rintro _ ⟨⟩
          exact hsev
        · intro l hl r hr
          rcases g6 l hl with h | ⟨L, rfl, hL⟩
          · exact hother l h r hr
          · obtain ⟨i, rfl⟩ := mem_arrayList.1 hr
            obtain ⟨j, hj⟩ := hL i
            exact ⟨_, hj.symm, by rw [hcomp]; exact hu⟩
      cases first with
      | false =>
        rw [if_neg (by simp)] at g3
        left
        refine ⟨before, _, self'.rng, _, ?_, hkeep, fun L hL => .later hsev hlast hL .done⟩
        rw [hrun, g3, fromArray_arrayList]
        rfl
      | true =>
        rw [if_pos rfl] at g3
        dsimp only at g3
        rw [hk.recorded] at g3
        cases last with
        | none =>
          left
          refine ⟨after, _, self'.rng, _, ?_, hkeep, fun L hL => .own hsev hlast hL .done⟩
          rw [hrun, g3]
          change (fromArray _ (arrayList after) >>= _) = _
          rw [fromArray_arrayList]
          rfl
        | some z =>
          obtain ⟨w, l⟩ := z
          change out = arrayList (l ∘ islandEquiv adj init hm w) at g3
          have hlen : (arrayList (l ∘ islandEquiv adj init hm w)).length = (areasOf adj init w).length := by
            simp [arrayList]
          by_cases hsz : (areasOf adj init w).length = (areasOf adj init u).length
          · left
            refine ⟨fun i => l (islandEquiv adj init hm w (Fin.cast hsz.symm i)), _, self'.rng, _, ?_, hkeep, fun L hL =>
              .foreign hsev hlast (((islandEquiv adj init hm u).symm.trans (finCongr hsz.symm)).trans
                (islandEquiv adj init hm w)) ?_ ?_ .done⟩
            · rw [hrun, g3]
              unfold fromArray
              rw [dif_pos (by rw [hlen, hsz]), Res.bind_ok]
              have : (fun i : Fin (areasOf adj init u).length =>
                  (arrayList (l ∘ islandEquiv adj init hm w)).get ⟨i.val, by rw [hlen, hsz]; exact i.isLt⟩) =
                  fun i => l (islandEquiv adj init hm w (Fin.cast hsz.symm i)) := by
                funext i
                simp [arrayList, Fin.cast]
              rw [this]
            · intro a b
              simp only [Equiv.trans_apply]
              rw [islandEquiv_lt hm w]
              simpa using he' a b
            · rw [hL]
              rfl
          · right; right
            refine ⟨?_, w, l, _, _, rfl, hsev, hlast, ⟨fun f => hsz ?_⟩⟩
            · have h2 : 2 ≤ (areasOf adj init w).length := by
                obtain ⟨a, b, hab⟩ := hk.several _ rfl
                have hne : (islandEquiv adj init hm w).symm a ≠ (islandEquiv adj init hm w).symm b := fun h =>
                  hab (by rw [(islandEquiv adj init hm w).symm.injective h])
                have h3 := Fintype.one_lt_card_iff.2 ⟨_, _, hne⟩
                rwa [Fintype.card_fin] at h3
              rw [hrun, g3]
              revert hlen
              generalize arrayList (l ∘ islandEquiv adj init hm w) = out'
              intro hlen
              unfold fromArray
              rw [dif_neg (by rw [hlen]; exact hsz)]
              rcases out' with _ | ⟨a, _ | ⟨b, out'⟩⟩
              · rfl
              · rw [List.length_singleton] at hlen
                omega
              · rfl
            · have := Fintype.card_congr (((islandEquiv adj init hm u).trans f).trans (islandEquiv adj init hm w).symm)
              simpa using this.symm

section
variable (he : obj.Exact) (ht : obj.Total) (hs : Spec.Symmetric adj) (hk1 : 1 ≤ k1)
    (hmx : 1 ≤ maxIt) (hc : AllContiguous adj init) (hm : ∀ v, init v ≠ -1)
    (hval : ∀ u (L L' : Island adj u → Int),
      obj.call (L ∘ islandEquiv adj init hm u) (fun i => attr ((areasOf adj init u).get i)) <
        obj.call (L' ∘ islandEquiv adj init hm u) (fun i => attr ((areasOf adj init u).get i)) ↔ value u L < value u L')
include he ht hs hk1 hmx hc hval

/-- The loop over the islands. -/
theorem reactFitLoop_records : ∀ {us : List (Fin n)}, (us.map (compLabels adj)).Nodup →
    ∀ {last : Recorded adj} {self : ReactSelf (Strat n q)}, Keeps adj init hm (us.map (compLabels adj)) last self →
    ∀ (L0 : Labels n) (rng : Rng) {r : Res (Labels n × ReactSelf (Strat n q) × Rng)},
    fitLoop adj attr (fun idx a init at' => reactComp expf obj maxIt k1 k2 (fun i => idx.get i) a init at')
      (((us.map (compLabels adj)).map (compArray adj init)).map fun y r => .ok (.array y, r)) L0 self rng = r →
    (∃ L self' rng' last', r = .ok (L, self', rng') ∧ ReactIslands adj value maxIt init L us last last' ∧
      ∀ v, compLabels adj v ∉ us.map (compLabels adj) → L v = L0 v) ∨
    (r = .raise .attributeError ∧ StopAt adj value maxIt init (Fails1 adj value maxIt init) us last) ∨
    (r = .raise (.valueError "shape mismatch") ∧ StopAt adj value maxIt init (Wrong1 adj value maxIt init) us last) := by
  intro us
  induction us with
  | nil =>
    intro _ last self _ L0 rng r hr
    exact .inl ⟨L0, self, rng, last, hr.symm, .done, fun _ _ => rfl⟩
  | cons u us ih =>
    intro hnd last self hk L0 rng r hr
    rw [List.map_cons, List.nodup_cons] at hnd
    rw [List.map_cons] at hk
    rw [List.map_cons, List.map_cons, List.map_cons] at hr
    unfold fitLoop at hr
    rw [Res.bind_ok] at hr
    dsimp only at hr
    have hstep : fitStep adj attr (fun idx a init at' => reactComp (q := q) expf obj maxIt k1 k2 (fun i => idx.get i) a
        init at') (compArray adj init (compLabels adj u)) L0 self rng =
        (reactComp expf obj maxIt k1 k2 (fun i => (areasOf adj init u).get i)
          (subAdj adj (areasOf adj init u)) (fun i => init ((areasOf adj init u).get i))
          (fun i => attr ((areasOf adj init u).get i)) self rng >>= fun z =>
          .ok (scatter (areasOf adj init u) z.1 L0, z.2)) := by
      rw [← compArray_get]
      rfl
    have hprefix : ∀ {L1 : Labels n} {mid : Recorded adj} {P : Fin n → Recorded adj → Prop},
        (∀ L : Labels n, onIsland adj u L = onIsland adj u L1 → ReactIslands adj value maxIt init L [u] last mid) →
        StopAt adj value maxIt init P us mid → StopAt adj value maxIt init P (u :: us) last := by
      rintro L1 mid P h1 ⟨us1, w, us2, L, m, rfl, h2, h3⟩
      refine ⟨u :: us1, w, us2, fun v => if compLabels adj v = compLabels adj u then L1 v else L v, m, rfl, ?_, h3⟩
      refine reactIslands_append (us1 := [u]) (h1 _ ?_) (reactIslands_congr h2 fun w' hw' => ?_)
      · funext a
        exact if_pos ((compLabels_eq_iff adj _ _).2 (sameIsland_symm a.2))
      · funext a
        refine (if_neg fun h => hnd.1 ?_).symm
        rw [← h, (compLabels_eq_iff adj _ _).2 (sameIsland_symm a.2)]
        exact List.mem_map_of_mem (List.mem_append_left _ hw')
    rw [hstep] at hr
    rcases reactComp_records (expf := expf) (k2 := k2) he ht hs hk1 hmx hc hm hval hnd.1 hk rng with
      ⟨l, self', rng', mid, g1, g2, g3⟩ | ⟨g1, g2⟩ | ⟨g1, g2⟩
    · rw [g1, Res.bind_ok, Res.bind_ok] at hr
      dsimp only at hr
      have hsc : onIsland adj u (scatter (areasOf adj init u) l L0) = l ∘ (islandEquiv adj init hm u).symm := by
        funext a
        obtain ⟨i, rfl⟩ := (islandEquiv adj init hm u).surjective a
        simp only [Function.comp_apply, Equiv.symm_apply_apply]
        exact scatter_mem (shown_nodup _) _ _ i
      rcases ih hnd.2 g2 _ _ hr with ⟨L, s, rn, last', h1, h2, h3⟩ | ⟨h1, h2⟩ | ⟨h1, h2⟩
      · left
        refine ⟨L, s, rn, last', h1, reactIslands_append (us1 := [u]) (g3 L ?_) h2, fun v hv => ?_⟩
        · rw [← hsc]
          funext a
          exact h3 _ fun h => hnd.1 ((compLabels_eq_iff adj _ _).2 (sameIsland_symm a.2) ▸ h)
        · rw [List.map_cons, List.mem_cons, not_or] at hv
          rw [h3 v hv.2]
          exact scatter_not_mem _ _ fun hmem => hv.1 (compArray_ne.1 (mem_shown.1 hmem)).1
      · exact .inr (.inl ⟨h1, hprefix (fun L hL => g3 L (hL.trans hsc)) h2⟩)
      · exact .inr (.inr ⟨h1, hprefix (fun L hL => g3 L (hL.trans hsc)) h2⟩)
    · rw [g1] at hr
      exact .inr (.inl ⟨hr.symm, [], u, us, L0, last, rfl, .done, g2⟩)
    · rw [g1] at hr
      exact .inr (.inr ⟨hr.symm, [], u, us, L0, last, rfl, .done, g2⟩)

end

/-- The first areas of the islands give their numbers. -/
theorem firstOfEach_range {us : List (Fin n)} (hus : FirstOfEach adj us) :
    us.map (compLabels adj) = List.range (nComponents adj) := by
  obtain ⟨h1, h2, h3⟩ := hus
  have hone : OneOfEach adj us := by
    refine ⟨h3, List.Pairwise.imp_of_mem ?_ h1⟩
    intro a b _ hb hab hs
    exact absurd hab (not_lt.2 (h2 b hb a (sameIsland_symm hs)))
  refine (oneOfEach_perm hone).eq_of_pairwise' ?_ (List.pairwise_lt_range)
  rw [List.pairwise_map]
  refine List.Pairwise.imp_of_mem ?_ h1
  intro a b ha hb hab
  by_contra hn
  rcases lt_or_eq_of_le (not_lt.1 hn) with hlt | heq
  · obtain ⟨c, hc, hc'⟩ := compLabels_order hlt
    have e1 := hc' a Relation.ReflTransGen.refl
    have e2 := h2 b hb c (sameIsland_symm hc)
    exact absurd hab (not_lt.2 (e2.trans e1.le))
  · exact absurd hab (not_lt.2 (h2 b hb a ((compLabels_eq_iff adj _ _).1 heq)))

theorem reactFit_islands (o : MstOrder) (he : obj.Exact) (ht : obj.Total) (hs : Spec.Symmetric adj) (hk1 : 1 ≤ k1)
    (hmx : 1 ≤ maxIt) (hc : AllContiguous adj init) {p : Int} (hp : (numRegions init : Int) = p) (hm : ∀ v, init v ≠ -1)
    (hval : ∀ u (L L' : Island adj u → Int),
      obj.call (L ∘ islandEquiv adj init hm u) (fun i => attr ((areasOf adj init u).get i)) <
        obj.call (L' ∘ islandEquiv adj init hm u) (fun i => attr ((areasOf adj init u).get i)) ↔ value u L < value u L')
    {us : List (Fin n)} (hus : FirstOfEach adj us) (v : ℚ) (rng : Rng) :
    (∃ L self' rng' last', reactiveTabuFit (q := q) o expf obj maxIt k1 k2 adj attr p (some init) (.fresh (.azp v)) rng =
        .ok (L, self', rng') ∧ ReactIslands adj value maxIt init L us none last') ∨
    (reactiveTabuFit (q := q) o expf obj maxIt k1 k2 adj attr p (some init) (.fresh (.azp v)) rng =
        .raise .attributeError ∧ NoMoveLeft adj value maxIt init us) ∨
    (reactiveTabuFit (q := q) o expf obj maxIt k1 k2 adj attr p (some init) (.fresh (.azp v)) rng =
        .raise (.valueError "shape mismatch") ∧ WrongSize adj value maxIt init us) := by
  have hrange := firstOfEach_range hus
  have hfit : reactiveTabuFit (q := q) o expf obj maxIt k1 k2 adj attr p (some init) (.fresh (.azp v)) rng =
      fitLoop adj attr (fun idx a init at' => reactComp expf obj maxIt k1 k2 (fun i => idx.get i) a init at')
        (((us.map (compLabels adj)).map (compArray adj init)).map fun y r => .ok (.array y, r)) (fun _ => -1)
        (.fresh (.azp v)) rng := by
    unfold reactiveTabuFit fitWith
    dsimp only
    rw [feasible_start hc hp, Res.bind_ok, separateComponents_eq, hrange]
    rfl
  rw [hfit, noMoveLeft_iff, wrongSize_iff]
  rcases reactFitLoop_records (q := q) (expf := expf) (k2 := k2) he ht hs hk1 hmx hc hm hval (us := us)
    (by rw [hrange]; exact List.nodup_range) (last := none) (self := .fresh (.azp v))
    ⟨⟨v, rfl⟩, rfl, by simp, by simp [ReactSelf.fresh]⟩ (fun _ => -1) rng rfl with
    ⟨L, s, r, last', h1, h2, -⟩ | h | h
  · exact .inl ⟨L, s, r, last', h1, h2⟩
  · exact .inr (.inl h)
  · exact .inr (.inr h)

end Fit

end Region
