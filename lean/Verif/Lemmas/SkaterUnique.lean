import Verif.SpecTree
import Verif.Lemmas.Mst
import Verif.Lemmas.StartForest
import Verif.Lemmas.Renumber
import Verif.Lemmas.Rel
/-
Lemmas: without ties the forest of SKATER and its cuts are determined.
-/
namespace Region.Skater

open Spec Relation

/-! ### The forest -/

/-- Below any weight the kept entries connect what all entries connect. -/
theorem kruskal_below {n : Nat} (w : Edge n → ℚ) {l : List (Edge n)}
    (hs : l.Pairwise fun e f => w e ≤ w f) (t : ℚ) (a b : Fin n) :
    SameIsland (adjOf ((kruskal l).filter fun e => decide (w e < t))) a b ↔
      SameIsland (adjOf (l.filter fun e => decide (w e < t))) a b := by
  have hsplit : ∃ l1 l2, l = l1 ++ l2 ∧ (∀ e ∈ l1, w e < t) ∧ ∀ e ∈ l2, ¬ w e < t := by
    induction l with
    | nil => exact ⟨[], [], rfl, by simp, by simp⟩
    | cons e l ih =>
      obtain ⟨l1, l2, h1, h2, h3⟩ := ih (List.pairwise_cons.1 hs).2
      by_cases he : w e < t
      · refine ⟨e :: l1, l2, by rw [h1]; rfl, ?_, h3⟩
        intro f hf
        rcases List.mem_cons.1 hf with rfl | hf
        · exact he
        · exact h2 f hf
      · refine ⟨[], e :: l, rfl, by simp, ?_⟩
        intro f hf
        rcases List.mem_cons.1 hf with rfl | hf
        · exact he
        · intro hft
          exact he (lt_of_le_of_lt ((List.pairwise_cons.1 hs).1 f hf) hft)
  obtain ⟨l1, l2, h1, h2, h3⟩ := hsplit
  obtain ⟨rest, hr, hsub⟩ := kruskal_append l1 l2
  have f1 : (l.filter fun e => decide (w e < t)) = l1 := by
    rw [h1, List.filter_append, List.filter_eq_self.2 (fun e he => by simpa using h2 e he),
      List.filter_eq_nil_iff.2 (fun e he => by simpa using h3 e he), List.append_nil]
  have f2 : ((kruskal l).filter fun e => decide (w e < t)) = kruskal l1 := by
    rw [h1, hr, List.filter_append, List.filter_eq_self.2 (fun e he => by
      simpa using h2 e ((kruskal_spec l1).2.1 e he)),
      List.filter_eq_nil_iff.2 (fun e he => by simpa using h3 e (hsub he)), List.append_nil]
  rw [f1, f2]
  exact (kruskal_spec l1).2.2.1 a b

/-- The ends of a kept entry are not connected by lighter entries. -/
theorem kruskal_noDetour {n : Nat} (w : Edge n → ℚ) {l : List (Edge n)}
    (hs : l.Pairwise fun e f => w e ≤ w f) {e : Edge n} (he : e ∈ kruskal l) :
    ¬ SameIsland (adjOf (l.filter fun f => decide (w f < w e))) e.1 e.2 := by
  rw [← kruskal_below w hs]
  intro h
  refine (kruskal_spec l).1.2 e he (sameIsland_mono ?_ h)
  intro f hf
  obtain ⟨h1, h2⟩ := List.mem_filter.1 hf
  refine (List.mem_erase_of_ne ?_).2 h1
  rintro rfl
  simp at h2

/-- An entry whose ends are not connected by lighter entries is kept, or the one in the other direction. -/
theorem noDetour_kruskal {n : Nat} (w : Edge n → ℚ) {l : List (Edge n)}
    (hs : l.Pairwise fun e f => w e ≤ w f) {e : Edge n} (he : e ∈ l)
    (hd : ∀ f ∈ l, w f = w e → f = e ∨ f = e.swap)
    (h : ¬ SameIsland (adjOf (l.filter fun f => decide (w f < w e))) e.1 e.2) :
    e ∈ kruskal l ∨ e.swap ∈ kruskal l := by
  by_contra hno
  push Not at hno
  have h1 : SameIsland (adjOf (l.filter fun f => decide (w f ≤ w e))) e.1 e.2 := by
    refine .single (Or.inl ?_)
    rw [adjOf_iff]
    exact List.mem_filter.2 ⟨he, by simp⟩
  rw [← kruskal_threshold w hs] at h1
  refine h ((kruskal_below w hs _ _ _).1 (sameIsland_mono ?_ h1))
  intro f hf
  obtain ⟨g1, g2⟩ := List.mem_filter.1 hf
  refine List.mem_filter.2 ⟨g1, ?_⟩
  rw [decide_eq_true_eq] at g2 ⊢
  refine lt_of_le_of_ne g2 fun heq => ?_
  rcases hd f ((kruskal_spec l).2.1 f g1) heq with rfl | rfl
  · exact hno.1 g1
  · exact hno.2 g1

/-! ### Labels -/

theorem compLabels_congr {n : Nat} {adj adj' : Adj n}
    (h : ∀ a b, SameIsland adj a b ↔ SameIsland adj' a b) : compLabels adj = compLabels adj' := by
  have hlt : ∀ {A B : Adj n}, (∀ a b, SameIsland A a b ↔ SameIsland B a b) →
      ∀ u v, compLabels A u < compLabels A v → compLabels B u < compLabels B v := by
    intro A B hAB u v huv
    obtain ⟨a, ha, hb⟩ := compLabels_order huv
    by_contra hnot
    rcases Nat.lt_or_ge (compLabels B v) (compLabels B u) with h1 | h1
    · obtain ⟨c, hc, hd⟩ := compLabels_order h1
      have h2 := hb c ((hAB _ _).2 hc)
      have h3 := hd a ((hAB _ _).1 ha)
      exact absurd h2 (not_lt.2 h3.le)
    · have h2 : compLabels B u = compLabels B v := by omega
      rw [compLabels_eq_iff, ← hAB, ← compLabels_eq_iff] at h2
      omega
  have hk := nComponents_congr h
  have key : ∀ {A B : Adj n}, (∀ a b, SameIsland A a b ↔ SameIsland B a b) → nComponents A = nComponents B →
      ∀ k v, compLabels A v = k → k ≤ compLabels B v := by
    intro A B hAB hc k
    induction k with
    | zero => intros; omega
    | succ k ih =>
      intro v hv
      have := compLabels_lt A v
      obtain ⟨u, hu⟩ := compLabels_surj A (c := k) (by omega)
      have h1 := ih u hu
      have h2 := hlt hAB u v (by omega)
      omega
  funext v
  have h1 := key h hk _ v rfl
  have h2 := key (fun a b => (h a b).symm) hk.symm _ v rfl
  omega

theorem treeLabels_congr {n : Nat} {msf msf' : List (Edge n)}
    (h : ∀ a b, SameIsland (adjOf msf) a b ↔ SameIsland (adjOf msf') a b) :
    treeLabels msf = treeLabels msf' := by
  funext i
  unfold treeLabels
  rw [compLabels_congr h]

/-! ### The same links -/

section
variable {n : Nat} (σ : Fin n ≃ Fin n)

/-- Two forests have the same links, up to their directions and the numbering of the areas. -/
def SameLinks (F F' : List (Edge n)) : Prop :=
  ∀ a b, Borders (adjOf F) (σ a) (σ b) ↔ Borders (adjOf F') a b

/-- Two labellings are the same partition, up to the numbering of the areas. -/
def SameParts (L L' : Fin n → Int) : Prop := ∀ a b, L (σ a) = L (σ b) ↔ L' a = L' b

variable {σ}

theorem SameLinks.sameIsland {F F' : List (Edge n)} (h : SameLinks σ F F') (a b : Fin n) :
    SameIsland (adjOf F) (σ a) (σ b) ↔ SameIsland (adjOf F') a b := by
  rw [← sameIsland_comp σ]
  unfold SameIsland
  have : Borders (fun a b => adjOf F (σ a) (σ b)) = Borders (adjOf F') := by
    funext a b
    exact propext (h a b)
  rw [this]

theorem SameLinks.sameParts {F F' : List (Edge n)} (h : SameLinks σ F F') :
    SameParts σ (treeLabels F) (treeLabels F') := by
  intro a b
  rw [treeLabels_eq_iff, treeLabels_eq_iff, h.sameIsland]

theorem numRegions_comp {L L' : Fin n → Int} (h : SameParts σ L L') : numRegions L = numRegions L' := by
  have h1 : numRegions (L ∘ σ) = numRegions L := by
    unfold numRegions
    congr 1
    ext x
    simp only [Finset.mem_image, Finset.mem_univ, true_and, Function.comp_apply]
    exact ⟨fun ⟨a, ha⟩ => ⟨σ a, ha⟩, fun ⟨a, ha⟩ => ⟨σ.symm a, by simpa using ha⟩⟩
  rw [← h1]
  exact numRegions_congr h

theorem meetsQuorum_comp {L L' : Fin n → Int} (h : SameParts σ L L') (q : ℚ) :
    MeetsQuorum L q ↔ MeetsQuorum L' q := by
  have h1 : MeetsQuorum (L ∘ σ) q ↔ MeetsQuorum L q := by
    have hc : ∀ v, (Finset.univ.filter fun u => (L ∘ σ) u = (L ∘ σ) v).card =
        (Finset.univ.filter fun u => L u = L (σ v)).card := by
      intro v
      refine Finset.card_bij (fun u _ => σ u) ?_ (fun _ _ _ _ h => σ.injective h) ?_
      · intro u hu
        simpa using hu
      · intro u hu
        exact ⟨σ.symm u, by simpa using hu, by simp⟩
    constructor
    · intro hq v
      have := hq (σ.symm v)
      rw [hc] at this
      simpa using this
    · intro hq v
      rw [hc]
      exact hq _
  rw [← h1]
  exact meetsQuorum_congr h

theorem SameLinks.nComponents {F F' : List (Edge n)} (h : SameLinks σ F F') :
    nComponents (adjOf F) = nComponents (adjOf F') := by
  rw [← numRegions_treeLabels, ← numRegions_treeLabels]
  exact numRegions_comp h.sameParts

/-- The total distance to the centres does not depend on the numbering. -/
theorem total_comp (d : Metric) {m : Nat} {center : List (Row m) → Row m}
    (hc : ∀ l l', l.Perm l' → center l = center l') (data : Fin n → Row m)
    {L L' : Fin n → Int} (h : SameParts σ L L') :
    (sumOverRegions L fun C => ∑ u ∈ C, d m (data u) (center ((C.sort (· ≤ ·)).map data))) =
      sumOverRegions L' fun C =>
        ∑ u ∈ C, d m ((data ∘ σ) u) (center ((C.sort (· ≤ ·)).map (data ∘ σ))) := by
  rw [sumOverRegions_sum L fun C u => d m (data u) (center ((C.sort (· ≤ ·)).map data)),
    sumOverRegions_sum L' fun C u => d m ((data ∘ σ) u) (center ((C.sort (· ≤ ·)).map (data ∘ σ))),
    ← Equiv.sum_comp σ]
  apply Finset.sum_congr rfl
  intro u _
  rw [Function.comp_apply]
  congr 1
  apply hc
  rw [← List.map_map]
  apply List.Perm.map
  refine (List.perm_ext_iff_of_nodup (Finset.sort_nodup _ _) ?_).2 ?_
  · exact (Finset.sort_nodup _ _).map σ.injective
  · intro x
    simp only [Finset.mem_sort, Finset.mem_filter, Finset.mem_univ, true_and, List.mem_map]
    constructor
    · intro hx
      refine ⟨σ.symm x, (h _ _).1 (by simpa using hx), by simp⟩
    · rintro ⟨v, hv, rfl⟩
      exact (h _ _).2 hv

theorem isForest_not_swap {F : List (Edge n)} (hf : IsForest F) {e : Edge n} (he : e ∈ F) :
    e.swap ∉ F := by
  intro hs
  have hne : e.1 ≠ e.2 := fun h => hf.2 e he (by rw [h]; exact .refl)
  refine hf.2 e he (.single (Or.inr ?_))
  rw [adjOf_iff]
  refine (List.mem_erase_of_ne ?_).2 hs
  intro h
  exact hne (congrArg Prod.snd h)

theorem borders_erase {F : List (Edge n)} (hf : IsForest F) {e : Edge n} (he : e ∈ F) (a b : Fin n) :
    Borders (adjOf (F.erase e)) a b ↔
      Borders (adjOf F) a b ∧ ¬ (a = e.1 ∧ b = e.2) ∧ ¬ (a = e.2 ∧ b = e.1) := by
  have hns := isForest_not_swap hf he
  unfold Borders
  simp only [adjOf_iff, hf.1.mem_erase_iff]
  constructor
  · rintro (⟨h1, h2⟩ | ⟨h1, h2⟩)
    · refine ⟨Or.inl h2, ?_, ?_⟩
      · rintro ⟨rfl, rfl⟩; exact h1 rfl
      · rintro ⟨rfl, rfl⟩; exact hns h2
    · refine ⟨Or.inr h2, ?_, ?_⟩
      · rintro ⟨rfl, rfl⟩; exact hns h2
      · rintro ⟨rfl, rfl⟩; exact h1 rfl
  · rintro ⟨h | h, h1, h2⟩
    · refine Or.inl ⟨?_, h⟩
      rintro rfl; exact h1 ⟨rfl, rfl⟩
    · refine Or.inr ⟨?_, h⟩
      rintro rfl; exact h2 ⟨rfl, rfl⟩

/-- The link `f`, renumbered, is the link `e` in one direction or the other. -/
def LinkIs (σ : Fin n ≃ Fin n) (e f : Edge n) : Prop :=
  (e.1 = σ f.1 ∧ e.2 = σ f.2) ∨ (e.1 = σ f.2 ∧ e.2 = σ f.1)

theorem SameLinks.partner {F F' : List (Edge n)} (h : SameLinks σ F F') {f : Edge n} (hf : f ∈ F') :
    ∃ e ∈ F, LinkIs σ e f := by
  have := (h f.1 f.2).2 (Or.inl (adjOf_iff.2 hf))
  rcases this with h1 | h1
  · exact ⟨_, adjOf_iff.1 h1, Or.inl ⟨rfl, rfl⟩⟩
  · exact ⟨_, adjOf_iff.1 h1, Or.inr ⟨rfl, rfl⟩⟩

theorem SameLinks.partner' {F F' : List (Edge n)} (h : SameLinks σ F F') {e : Edge n} (he : e ∈ F) :
    ∃ f ∈ F', LinkIs σ e f := by
  have := (h (σ.symm e.1) (σ.symm e.2)).1 (by
    simp only [Equiv.apply_symm_apply]; exact Or.inl (adjOf_iff.2 he))
  rcases this with h1 | h1
  · exact ⟨_, adjOf_iff.1 h1, Or.inl (by simp)⟩
  · exact ⟨_, adjOf_iff.1 h1, Or.inr (by simp)⟩

theorem SameLinks.erase {F F' : List (Edge n)} (h : SameLinks σ F F') (hF : IsForest F)
    (hF' : IsForest F') {e f : Edge n} (he : e ∈ F) (hf : f ∈ F') (hef : LinkIs σ e f) :
    SameLinks σ (F.erase e) (F'.erase f) := by
  intro a b
  rw [borders_erase hF he, borders_erase hF' hf, h a b]
  refine and_congr_right fun _ => ?_
  rcases hef with ⟨h1, h2⟩ | ⟨h1, h2⟩
  · rw [h1, h2]
    simp only [σ.injective.eq_iff]
  · rw [h1, h2]
    simp only [σ.injective.eq_iff]
    exact and_comm

/-! ### The cuts -/

/-- The same cut, up to the numbering of the areas. -/
def SameCut (σ : Fin n ≃ Fin n) (x y : (Fin n → Int) × Deletion n) : Prop :=
  SameParts σ x.1 y.1 ∧
    match x.2, y.2 with
    | none, none => True
    | some (e, s), some (f, s') => LinkIs σ e f ∧ s = s'
    | _, _ => False

/-- The same outcome, up to the numbering of the areas and the directions of the links. -/
structure MatchedOutcome (σ : Fin n ≃ Fin n) (f f' : Outcome n) : Prop where
  labels : SameParts σ f.labels f'.labels
  forest : SameLinks σ f.forest f'.forest
  trace : List.Forall₂ (SameCut σ) f.trace f'.trace

/-- The total distance of the areas to the centres of their clusters. -/
def total (d : Metric) (S : SpanningForest) {m : Nat} (data : Fin n → Row m) (L : Fin n → Int) : ℚ :=
  sumOverRegions L fun C => ∑ u ∈ C, d m (data u) (S.center m ((C.sort (· ≤ ·)).map data))

theorem BestOf.least {d : Metric} {S : SpanningForest} {m : Nat} {data : Fin n → Row m}
    {quorum : Option ℚ} {msf : List (Edge n)} {e : Edge n} {s : ℚ}
    (h : BestOf d S data quorum none msf msf (some (e, s))) :
    e ∈ msf ∧ ValidCut quorum msf e ∧ s = cutScore d S data msf e ∧
      ∀ f ∈ msf, ValidCut quorum msf f → s ≤ cutScore d S data msf f := by
  refine ⟨h.mem, h.1, h.2.2.1, ?_⟩
  obtain ⟨_, _, g3, pre, post, g4, g5, g6⟩ := h
  intro f hf hv
  rw [g4] at hf
  rcases List.mem_append.1 hf with h | h
  · exact (g5 f h (fun _ hz => by cases hz) hv).le
  · rcases List.mem_cons.1 h with h | h
    · rw [h, g3]
    · exact g6 f h (fun _ hz => by cases hz) hv

theorem separates_uncut {F : List (Edge n)} (hF : IsForest F) {e : Edge n} (he : e ∈ F) :
    Separates (treeLabels (F.erase e)) (uncut (adjOf F) e.1 e.2) := by
  intro a b
  rw [treeLabels_eq_iff]
  have : Borders (adjOf (F.erase e)) = Borders (uncut (adjOf F) e.1 e.2) := by
    funext a b
    rw [borders_erase hF he]
    unfold Borders uncut
    simp only [Bool.and_eq_true, decide_eq_true_eq]
    refine propext ⟨?_, ?_⟩
    · rintro ⟨h | h, h1, h2⟩
      · exact Or.inl ⟨h, h1, h2⟩
      · exact Or.inr ⟨h, fun h3 => h2 ⟨h3.2, h3.1⟩, fun h3 => h1 ⟨h3.2, h3.1⟩⟩
    · rintro (⟨h, h1, h2⟩ | ⟨h, h1, h2⟩)
      · exact ⟨Or.inl h, h1, h2⟩
      · exact ⟨Or.inr h, fun h3 => h2 ⟨h3.2, h3.1⟩, fun h3 => h1 ⟨h3.2, h3.1⟩⟩
  unfold SameIsland
  rw [this]

section
variable {d : Metric} {S : SpanningForest} (hS : S.metric = .dissimilarity d)
  (hr : S.reduction = List.sum) {m : Nat}
  (hc : ∀ l l' : List (Row m), l.Perm l' → S.center m l = S.center m l') (data : Fin n → Row m)

include hr in
theorem cutScore_total (F : List (Edge n)) (e : Edge n) :
    cutScore d S data F e = total d S data (treeLabels (F.erase e)) :=
  mapScore_sum d hr data (treeLabels_consecutive _)

include hr hc in
theorem cutScore_comp {F F' : List (Edge n)} (h : SameLinks σ F F') (hF : IsForest F)
    (hF' : IsForest F') {e f : Edge n} (he : e ∈ F) (hf : f ∈ F') (hef : LinkIs σ e f) :
    cutScore d S data F e = cutScore d S (data ∘ σ) F' f := by
  rw [cutScore_total hr, cutScore_total hr]
  exact total_comp d hc data (h.erase hF hF' he hf hef).sameParts

theorem validCut_comp {quorum : Option ℚ} {F F' : List (Edge n)} (h : SameLinks σ F F')
    (hF : IsForest F) (hF' : IsForest F') {e f : Edge n} (he : e ∈ F) (hf : f ∈ F')
    (hef : LinkIs σ e f) : ValidCut quorum F e ↔ ValidCut quorum F' f :=
  forall_congr' fun q => imp_congr_right fun _ =>
    meetsQuorum_comp (h.erase hF hF' he hf hef).sameParts q

include hS hr hc in
/-- Without ties the loop of `fit` does the same to the same links. -/
theorem pruneLoop_unique {K : Fin n → Fin n → Prop} (hK : NoEqualCuts K (total d S data))
    (quorum : Option ℚ) (target : Option Int) (trace : Bool) (fuel : Nat) {F F' : List (Edge n)}
    (hF : IsForest F) (hF' : IsForest F') (h : SameLinks σ F F') (hsub : ∀ e ∈ F, K e.1 e.2)
    {tr tr' : List ((Fin n → Int) × Deletion n)} (htr : List.Forall₂ (SameCut σ) tr tr') :
    Res.Rel (MatchedOutcome σ) (pruneLoop S data quorum target trace fuel F tr)
      (pruneLoop S (data ∘ σ) quorum target trace fuel F' tr') := by
  induction fuel generalizing F F' tr tr' with
  | zero => trivial
  | succ fuel ih =>
    unfold pruneLoop
    rw [← h.nComponents]
    by_cases hk : fewer (nComponents (adjOf F)) target = true
    · rw [if_pos hk, if_pos hk]
      obtain ⟨best, h1, h2⟩ := findCut_dissimilarity hS hF data quorum
      obtain ⟨best', h1', h2'⟩ := findCut_dissimilarity hS hF' (data ∘ σ) quorum
      rw [h1, h1']
      simp only [Res.bind_ok]
      rcases best with _ | ⟨e, s⟩ <;> rcases best' with _ | ⟨f, s'⟩
      · exact ⟨h.sameParts, h, htr⟩
      · exfalso
        obtain ⟨hf, hv, _, _⟩ := h2'.least
        obtain ⟨e, he, hef⟩ := h.partner hf
        exact h2 e he (fun _ hz => by cases hz) ((validCut_comp h hF hF' he hf hef).2 hv)
      · exfalso
        obtain ⟨he, hv, _, _⟩ := h2.least
        obtain ⟨f, hf, hef⟩ := h.partner' he
        exact h2' f hf (fun _ hz => by cases hz) ((validCut_comp h hF hF' he hf hef).1 hv)
      · obtain ⟨he, hv, hs, hmin⟩ := h2.least
        obtain ⟨hf, hv', hs', hmin'⟩ := h2'.least
        obtain ⟨f1, hf1, hef1⟩ := h.partner' he
        obtain ⟨e1, he1, he1f⟩ := h.partner hf
        have q1 := hmin e1 he1 ((validCut_comp h hF hF' he1 hf he1f).2 hv')
        have q2 := hmin' f1 hf1 ((validCut_comp h hF hF' he hf1 hef1).1 hv)
        rw [cutScore_comp hr hc data h hF hF' he1 hf he1f, ← hs'] at q1
        rw [← cutScore_comp hr hc data h hF hF' he hf1 hef1, ← hs] at q2
        have hss : s = s' := le_antisymm q1 q2
        have heq : LinkIs σ e f := by
          have := hK (adjOf F) (fun a b hab => hsub _ (adjOf_iff.1 hab)) e.1 e.2 e1.1 e1.2
            (adjOf_iff.2 he) (adjOf_iff.2 he1) _ _ (separates_uncut hF he) (separates_uncut hF he1) (by
              rw [← cutScore_total hr, ← cutScore_total hr, ← hs,
                cutScore_comp hr hc data h hF hF' he1 hf he1f, ← hs', hss])
          rcases this with ⟨g1, g2⟩ | ⟨g1, g2⟩ <;> rcases he1f with ⟨g3, g4⟩ | ⟨g3, g4⟩
          · exact Or.inl ⟨by rw [← g1, g3], by rw [← g2, g4]⟩
          · exact Or.inr ⟨by rw [← g1, g3], by rw [← g2, g4]⟩
          · exact Or.inr ⟨by rw [← g2, g4], by rw [← g1, g3]⟩
          · exact Or.inl ⟨by rw [← g2, g4], by rw [← g1, g3]⟩
        simp only [makeCut, Res.bind_ok]
        have hl := h.erase hF hF' he hf heq
        refine ih (hF.erase e) (hF'.erase f) hl (fun x hx => hsub x (List.mem_of_mem_erase hx)) ?_
        cases trace with
        | false => exact htr
        | true =>
          refine List.rel_append htr (.cons ⟨hl.sameParts, heq, hss⟩ .nil)
    · rw [if_neg hk, if_neg hk]
      exact ⟨h.sameParts, h, htr⟩

end

end

end Region.Skater
