import Mathlib.Algebra.BigOperators.Group.List.Lemmas
import Mathlib.Tactic.Linarith
import Verif.Lemmas.Skater
/-
Kruskal's algorithm over sorted entries computes a spanning forest of minimum weight, all of whose
threshold graphs are as connected as those of the whole graph.
-/
namespace Region.Skater

open Spec Relation

/-- A later entry only adds to the end of the list of kept entries. -/
theorem kruskal_foldl_append {n : Nat} (es : List (Edge n)) (st : (Fin n → Fin n) × List (Edge n)) :
    ∃ rest, (es.foldl kruskalStep st).2 = st.2 ++ rest ∧ rest ⊆ es := by
  induction es generalizing st with
  | nil => exact ⟨[], by simp, by simp⟩
  | cons e es ih =>
    obtain ⟨rest, h1, h2⟩ := ih (kruskalStep st e)
    by_cases h : st.1 e.1 = st.1 e.2
    · refine ⟨rest, ?_, fun x hx => List.mem_cons_of_mem _ (h2 hx)⟩
      rw [List.foldl_cons, h1, kruskalStep, if_pos h]
    · refine ⟨e :: rest, ?_, ?_⟩
      · rw [List.foldl_cons, h1, kruskalStep, if_neg h]
        simp
      · intro x hx
        rcases List.mem_cons.1 hx with hx | hx
        · simp [hx]
        · exact List.mem_cons_of_mem _ (h2 hx)

theorem kruskal_append {n : Nat} (l1 l2 : List (Edge n)) :
    ∃ rest, kruskal (l1 ++ l2) = kruskal l1 ++ rest ∧ rest ⊆ l2 := by
  unfold kruskal
  rw [List.foldl_append]
  exact kruskal_foldl_append l2 _

theorem nComponents_congr {n : Nat} {adj adj' : Adj n}
    (h : ∀ a b, SameIsland adj a b ↔ SameIsland adj' a b) : nComponents adj = nComponents adj' := by
  rw [← card_image_eq_nComponents adj (compRepr adj) (compRepr_eq_iff adj),
    card_image_eq_nComponents adj' (compRepr adj) fun a b => by rw [compRepr_eq_iff, h]]

/-- Adding edges lowers the number of components by at most their number. -/
theorem nComponents_le_append {n : Nat} (more es : List (Edge n)) :
    nComponents (adjOf es) ≤ nComponents (adjOf (more ++ es)) + more.length := by
  induction more with
  | nil => simp
  | cons e more ih =>
    by_cases h : SameIsland (adjOf (more ++ es)) e.1 e.2
    · have := nComponents_cons_linked h
      simp only [List.cons_append, List.length_cons]
      omega
    · have := nComponents_cons_unlinked h
      simp only [List.cons_append, List.length_cons]
      omega

theorem nComponents_append_le {n : Nat} (more es : List (Edge n)) :
    nComponents (adjOf (more ++ es)) ≤ nComponents (adjOf es) := by
  induction more with
  | nil => simp
  | cons e more ih =>
    by_cases h : SameIsland (adjOf (more ++ es)) e.1 e.2
    · have := nComponents_cons_linked h
      simp only [List.cons_append]
      omega
    · have := nComponents_cons_unlinked h
      simp only [List.cons_append]
      omega

theorem nComponents_anti {n : Nat} {es es' : List (Edge n)} (h : es ⊆ es') :
    nComponents (adjOf es') ≤ nComponents (adjOf es) := by
  have : adjOf es' = adjOf (es' ++ es) :=
    adjOf_congr fun e => ⟨fun he => List.mem_append_left _ he, fun he =>
      (List.mem_append.1 he).elim id fun he => h he⟩
  rw [this]
  exact nComponents_append_le _ _

/-- However the entries are connected otherwise, as many edges are needed behind any point of the list
as Kruskal's algorithm takes there. -/
theorem kruskal_suffix_le {n : Nat} {l1 l2 T rest : List (Edge n)}
    (hK : kruskal (l1 ++ l2) = kruskal l1 ++ rest) (hT : T ⊆ l1 ++ l2)
    (hspan : ∀ a b, SameIsland (adjOf (l1 ++ l2)) a b → SameIsland (adjOf T) a b) :
    rest.length ≤ (T.filter fun e => !(l1.contains e)).length := by
  have c1 := (kruskal_spec l1).2.2.2
  have c2 := (kruskal_spec (l1 ++ l2)).2.2.2
  have s1 := nComponents_congr (kruskal_spec l1).2.2.1
  have s2 := nComponents_congr (kruskal_spec (l1 ++ l2)).2.2.1
  have s3 : nComponents (adjOf T) = nComponents (adjOf (l1 ++ l2)) :=
    nComponents_congr fun a b => ⟨sameIsland_mono hT, hspan a b⟩
  obtain ⟨T1, hT1⟩ : ∃ T1, T1 = T.filter fun e => l1.contains e := ⟨_, rfl⟩
  have h1 := nComponents_le_append (T.filter fun e => !(l1.contains e)) T1
  have h2 : adjOf ((T.filter fun e => !(l1.contains e)) ++ T1) = adjOf T := by
    apply adjOf_congr
    intro e
    subst hT1
    simp only [List.mem_append, List.mem_filter]
    by_cases h : e ∈ l1 <;> simp [h]
  rw [h2] at h1
  have h3 : nComponents (adjOf l1) ≤ nComponents (adjOf T1) :=
    nComponents_anti fun e he => by
      subst hT1
      simpa using (List.mem_filter.1 he).2
  have h4 := congrArg List.length hK
  rw [List.length_append] at h4
  omega

/-- Summation by parts. -/
theorem sum_mul_ge {ε : Type} (w c : ε → ℚ) (w0 : ℚ) (l : List ε)
    (hs : l.Pairwise fun e f => w e ≤ w f) (h0 : ∀ e ∈ l, w0 ≤ w e)
    (hc : ∀ l1 l2, l = l1 ++ l2 → 0 ≤ (l2.map c).sum) :
    w0 * (l.map c).sum ≤ (l.map fun e => w e * c e).sum := by
  induction l generalizing w0 with
  | nil => simp
  | cons e l ih =>
    have h1 := ih (w e) (List.pairwise_cons.1 hs).2 (fun f hf => (List.pairwise_cons.1 hs).1 f hf)
      fun l1 l2 h => hc (e :: l1) l2 (by rw [h]; rfl)
    have h2 := hc [] (e :: l) rfl
    have h3 := h0 e (List.mem_cons_self ..)
    simp only [List.map_cons, List.sum_cons] at h2 ⊢
    nlinarith

theorem sum_map_sub_list {ε : Type} (f g : ε → ℚ) (l : List ε) :
    (l.map fun e => f e - g e).sum = (l.map f).sum - (l.map g).sum := by
  induction l with
  | nil => simp
  | cons e l ih => simp only [List.map_cons, List.sum_cons, ih]; ring

theorem sum_count {ε : Type} [BEq ε] [LawfulBEq ε] (g : ε → ℚ) {l T : List ε} (hl : l.Nodup)
    (hT : T ⊆ l) : (T.map g).sum = (l.map fun e => g e * (T.count e : ℚ)).sum := by
  induction T with
  | nil => simp
  | cons x T ih =>
    have hx : x ∈ l := hT (List.mem_cons_self ..)
    rw [List.map_cons, List.sum_cons, ih fun y hy => hT (List.mem_cons_of_mem _ hy)]
    clear ih hT
    have key : ∀ l : List ε, l.Nodup → (l.map fun e => g e * ((x :: T).count e : ℚ)).sum =
        (l.map fun e => g e * (T.count e : ℚ)).sum + if l.contains x then g x else 0 := by
      intro l hl
      induction l with
      | nil => simp
      | cons e l ih =>
        obtain ⟨h1, h2⟩ := List.nodup_cons.1 hl
        simp only [List.map_cons, List.sum_cons]
        rw [ih h2, List.count_cons]
        by_cases h : x = e
        · subst h
          simp [h1]
          ring
        · simp [h]
          ring
    rw [key l hl, if_pos (by simpa using hx)]
    ring

theorem sum_count_filter {ε : Type} [BEq ε] [LawfulBEq ε] {l T : List ε} (hl : l.Nodup) :
    (l.map fun e => (T.count e : ℚ)).sum = ((T.filter fun e => l.contains e).length : ℚ) := by
  have h := sum_count (fun _ => (1 : ℚ)) (l := l) (T := T.filter fun e => l.contains e) hl
    fun e he => by simpa using (List.mem_filter.1 he).2
  have h1 : ((T.filter fun e => l.contains e).map fun _ => (1 : ℚ)).sum =
      ((T.filter fun e => l.contains e).length : ℚ) := by simp
  rw [← h1, h]
  apply congrArg
  apply List.map_congr_left
  intro e he
  rw [List.count_filter (by simpa using he)]
  simp

/-- Kruskal's algorithm over entries sorted by weight: no collection of entries that connects as much
weighs less, if it has as many members or if no weight is negative. -/
theorem kruskal_minimum {n : Nat} (w : Edge n → ℚ) {l T : List (Edge n)} (hl : l.Nodup)
    (hs : l.Pairwise fun e f => w e ≤ w f) (hT : T ⊆ l)
    (hspan : ∀ a b, SameIsland (adjOf l) a b → SameIsland (adjOf T) a b)
    (h : T.length = (kruskal l).length ∨ ∀ e ∈ l, 0 ≤ w e) :
    ((kruskal l).map w).sum ≤ (T.map w).sum := by
  have hK : kruskal l ⊆ l := fun e he => (kruskal_spec l).2.1 e he
  rw [sum_count w hl hT, sum_count w hl hK]
  let c : Edge n → ℚ := fun e => (T.count e : ℚ) - ((kruskal l).count e : ℚ)
  have hc : ∀ l1 l2, l = l1 ++ l2 → 0 ≤ (l2.map c).sum := by
    intro l1 l2 h12
    have hl2 : l2.Nodup := (List.nodup_append.1 (h12 ▸ hl)).2.1
    have hdis : ∀ e ∈ l1 ++ l2, (l2.contains e = !(l1.contains e)) := by
      intro e he
      have hd := (List.nodup_append.1 (h12 ▸ hl)).2.2
      by_cases h1 : e ∈ l1
      · have : e ∉ l2 := fun h2 => hd e h1 e h2 rfl
        simp [h1, this]
      · have : e ∈ l2 := (List.mem_append.1 he).resolve_left h1
        simp [h1, this]
    obtain ⟨rest, hr, hsub⟩ := kruskal_append l1 l2
    have h1 := kruskal_suffix_le (T := T) hr (h12 ▸ hT) (h12 ▸ hspan)
    have e1 : (l2.map c).sum = (l2.map fun e => (T.count e : ℚ)).sum -
        (l2.map fun e => ((kruskal l).count e : ℚ)).sum := by
      exact sum_map_sub_list _ _ _
    rw [e1, sum_count_filter hl2, sum_count_filter hl2]
    have e2 : (T.filter fun e => l2.contains e) = T.filter fun e => !(l1.contains e) :=
      List.filter_congr fun e he => hdis e (h12 ▸ hT he)
    have e3 : ((kruskal l).filter fun e => l2.contains e) = rest := by
      rw [h12, hr, List.filter_append]
      have f1 : ((kruskal l1).filter fun e => l2.contains e) = [] := by
        rw [List.filter_eq_nil_iff]
        intro e he
        have := (kruskal_spec l1).2.1 e he
        rw [hdis e (List.mem_append_left _ this)]
        simp [this]
      have f2 : (rest.filter fun e => l2.contains e) = rest := by
        rw [List.filter_eq_self]
        intro e he
        simpa using hsub he
      rw [f1, f2, List.nil_append]
    rw [e2, e3]
    have : (rest.length : ℚ) ≤ ((T.filter fun e => !(l1.contains e)).length : ℚ) := by exact_mod_cast h1
    linarith
  have key : 0 ≤ (l.map fun e => w e * c e).sum := by
    rcases h with h | h
    · have hz : (l.map c).sum = 0 := by
        have e1 : (l.map c).sum = (l.map fun e => (T.count e : ℚ)).sum -
            (l.map fun e => ((kruskal l).count e : ℚ)).sum := by
          exact sum_map_sub_list _ _ _
        rw [e1, sum_count_filter hl, sum_count_filter hl]
        have f1 : (T.filter fun e => l.contains e) = T := by
          rw [List.filter_eq_self]; intro e he; simpa using hT he
        have f2 : ((kruskal l).filter fun e => l.contains e) = kruskal l := by
          rw [List.filter_eq_self]; intro e he; simpa using hK he
        rw [f1, f2, h]
        simp
      cases l with
      | nil => simp
      | cons e l =>
        have := sum_mul_ge w c (w e) (e :: l) hs (fun f hf => by
          rcases List.mem_cons.1 hf with rfl | hf
          · exact le_refl _
          · exact (List.pairwise_cons.1 hs).1 f hf) hc
        rwa [hz, mul_zero] at this
    · have := sum_mul_ge w c 0 l hs h hc
      rwa [zero_mul] at this
  have e1 : (l.map fun e => w e * c e).sum = (l.map fun e => w e * (T.count e : ℚ)).sum -
      (l.map fun e => w e * ((kruskal l).count e : ℚ)).sum := by
    rw [← sum_map_sub_list]
    apply congrArg
    apply List.map_congr_left
    intro e _
    simp only [c]
    ring
  rw [e1] at key
  linarith

/-- Up to any weight the kept entries connect what all entries connect. -/
theorem kruskal_threshold {n : Nat} (w : Edge n → ℚ) {l : List (Edge n)}
    (hs : l.Pairwise fun e f => w e ≤ w f) (t : ℚ) (a b : Fin n) :
    SameIsland (adjOf ((kruskal l).filter fun e => decide (w e ≤ t))) a b ↔
      SameIsland (adjOf (l.filter fun e => decide (w e ≤ t))) a b := by
  have hsplit : ∃ l1 l2, l = l1 ++ l2 ∧ (∀ e ∈ l1, w e ≤ t) ∧ ∀ e ∈ l2, ¬ w e ≤ t := by
    induction l with
    | nil => exact ⟨[], [], rfl, by simp, by simp⟩
    | cons e l ih =>
      obtain ⟨l1, l2, h1, h2, h3⟩ := ih (List.pairwise_cons.1 hs).2
      by_cases he : w e ≤ t
      · refine ⟨e :: l1, l2, by rw [h1]; rfl, ?_, h3⟩
        intro f hf
        rcases List.mem_cons.1 hf with rfl | hf
        · exact he
        · exact h2 f hf
      · refine ⟨[], e :: l, rfl, by simp, ?_⟩
        intro f hf
        rcases List.mem_cons.1 hf with rfl | hf
        · exact he
        · intro hft
          exact he (le_trans ((List.pairwise_cons.1 hs).1 f hf) hft)
  obtain ⟨l1, l2, h1, h2, h3⟩ := hsplit
  obtain ⟨rest, hr, hsub⟩ := kruskal_append l1 l2
  have f1 : (l.filter fun e => decide (w e ≤ t)) = l1 := by
    rw [h1, List.filter_append, List.filter_eq_self.2 (fun e he => by simpa using h2 e he),
      List.filter_eq_nil_iff.2 (fun e he => by simpa using h3 e he), List.append_nil]
  have f2 : ((kruskal l).filter fun e => decide (w e ≤ t)) = kruskal l1 := by
    rw [h1, hr, List.filter_append, List.filter_eq_self.2 (fun e he => by
      simpa using h2 e ((kruskal_spec l1).2.1 e he)),
      List.filter_eq_nil_iff.2 (fun e he => by simpa using h3 e (hsub he)), List.append_nil]
  rw [f1, f2]
  exact (kruskal_spec l1).2.2.1 a b

end Region.Skater
