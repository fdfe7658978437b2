import Verif.Lemmas.AzpSa
import Verif.Lemmas.SkaterObject
import Verif.Props.SkaterForest
/-
Property theorem C100: the attributes of a `Spanning_Forest` object.
-/
namespace Region.Props

open Region Spec Skater

set_option synthInstance.maxSize 2000

/-! ### C100 -/

section
variable {o : WeightOrder} {S : SpanningForest} {n : Nat} {fuel : Nat} {nClusters : Option Int}
  {W : Adj n} {data : Option (Σ m : Nat, Fin n → Row m)} {quorum : Option ℚ} {trace : Bool}
  {islands : String} {s t : Attrs}

/-- C100: a fit that returns has assigned the labels and the forest it found, whatever was there before,
and the trace, if a trace was asked for.  (Otherwise the trace is not touched, see below.) -/
theorem c100_returns_partial
    (h : fitPy o S fuel nClusters W data quorum trace islands s = (.ok (), t)) :
    ∃ f, fit o S fuel nClusters W data quorum trace islands = .ok f ∧
      t.labels = some (arrayList f.labels) ∧ t.forest = some ⟨n, f.forest⟩ ∧
      (trace = true → t.trace = some (f.trace.map traceEntry)) := by
  obtain ⟨h1, h2, -⟩ := fitPy_spec o S fuel nClusters W data quorum trace islands s
  rw [h] at h1 h2
  obtain ⟨f, hf, -⟩ := Res.bind_eq_ok.1 h1.symm
  refine ⟨f, hf, ?_⟩
  rw [show t = _ from h2 f hf]
  exact ⟨rfl, rfl, fun ht => if_pos ht⟩

/-- C100 fails for the trace: a fit without trace leaves the trace of an earlier fit on the object. -/
theorem c100_trace_false :
    (fitPy o S fuel nClusters W data quorum false islands s).2.trace = s.trace := by
  obtain ⟨-, h2, h3⟩ := fitPy_spec o S fuel nClusters W data quorum false islands s
  by_cases h : ∃ f, fit o S fuel nClusters W data quorum false islands = .ok f
  · obtain ⟨f, hf⟩ := h
    rw [h2 f hf]
    rfl
  · push Not at h
    exact (h3 h).2.2.1 rfl

/-- C100: a fit that does not return leaves the labels and the forest as they were. -/
theorem c100_raises (h : (fitPy o S fuel nClusters W data quorum trace islands s).1 ≠ .ok ()) :
    (fitPy o S fuel nClusters W data quorum trace islands s).2.labels = s.labels ∧
    (fitPy o S fuel nClusters W data quorum trace islands s).2.forest = s.forest := by
  obtain ⟨h1, -, h3⟩ := fitPy_spec o S fuel nClusters W data quorum trace islands s
  have : ∀ f, fit o S fuel nClusters W data quorum trace islands ≠ .ok f := by
    intro f hf
    rw [hf] at h1
    exact h h1
  exact ⟨(h3 this).1, (h3 this).2.1⟩

/-- C100: the outcome of the call is that of the algorithm, whatever the object holds. -/
theorem c100_outcome : (fitPy o S fuel nClusters W data quorum trace islands s).1 =
    (fit o S fuel nClusters W data quorum trace islands >>= fun _ => .ok ()) :=
  (fitPy_spec o S fuel nClusters W data quorum trace islands s).1

end

/-- A traced fit, then a fit of another map without trace: the labels are new, the trace is old. -/
example :
    (let s1 := (fitPy stableOrder .default 5 (some 2) path4 (four ![0, 1, 10, 12]) none true "increase"
        Attrs.fresh).2
     let s2 := (fitPy stableOrder .default 5 (some 3) path4 (four ![0, 1, 10, 12]) none false "increase" s1).2
     (s1.labels, s2.labels, s2.trace)) =
    (some [0, 0, 1, 1], some [0, 0, 1, 2],
      some [([0, 0, 0, 0], none), ([0, 0, 1, 1], some ((1, 2), 3))]) := by decide +kernel

/-- A traced fit that raises has thrown the trace of the fit before away, but not its labels. -/
theorem c100_raises_trace_false : ∃ (s : Attrs),
    (fitPy stableOrder .default 5 (some 2) islands4 (four ![0, 1, 10, 12]) (some 3) true "increase" s).1 =
      .raise (.valueError "Islands must be larger than the quorum.") ∧
    s.trace = some [([0, 0, 0, 0], none), ([0, 0, 1, 1], some ((1, 2), 3))] ∧
    s.labels = some [0, 0, 1, 1] ∧
    (fitPy stableOrder .default 5 (some 2) islands4 (four ![0, 1, 10, 12]) (some 3) true "increase"
      s).2.trace = some [] ∧
    (fitPy stableOrder .default 5 (some 2) islands4 (four ![0, 1, 10, 12]) (some 3) true "increase"
      s).2.labels = some [0, 0, 1, 1] :=
  ⟨(fitPy stableOrder .default 5 (some 2) path4 (four ![0, 1, 10, 12]) none true "increase"
    Attrs.fresh).2, by decide +kernel⟩

section
variable (S : SpanningForest) {n m : Nat} (data : Fin n → Row m) (quorum : Option ℚ)

theorem arrayList_getElem {k : Nat} (L : Fin k → Int) (h : k = (arrayList L).length) :
    (fun i : Fin k => (arrayList L)[i]) = L := by
  funext i
  simp [arrayList]

/-- C100: `score` without labels uses the labels of the last fit. -/
theorem c100_score_labels (s : Attrs) (L : Fin n → Int) (h : s.labels = some (arrayList L)) :
    scorePy S data none quorum s = (score S data L quorum, s) ∧
    scorePy S data (some (arrayList L)) quorum s = (score S data L quorum, s) := by
  have hlen : n = (arrayList L).length := by simp [arrayList]
  have key : (if h : n = (arrayList L).length then
        (Py.lift (score S data (fun i => (arrayList L)[i]) quorum) : Py Attrs (Option ℚ))
      else Py.lift (.raise .assertionError)) s = (score S data L quorum, s) := by
    rw [dif_pos hlen, arrayList_getElem L hlen]
    rfl
  refine ⟨?_, key⟩
  have hr : scorePy S data none quorum s = (if h : n = (arrayList L).length then
        (Py.lift (score S data (fun i => (arrayList L)[i]) quorum) : Py Attrs (Option ℚ))
      else Py.lift (.raise .assertionError)) s := by
    obtain ⟨sl, sf, st⟩ := s
    cases h
    rfl
  rw [hr, key]

/-- C100: before the first fit `score` without labels raises `ValueError`, and labels of the wrong number
fail the assertion. -/
theorem c100_score_errors (s : Attrs) :
    (s.labels = none → scorePy S data none quorum s = (.raise (.valueError
      "Labels not provided and MSF_Prune object has not been fit to data yet."), s)) ∧
    (∀ l : List Int, l.length ≠ n → scorePy S data (some l) quorum s = (.raise .assertionError, s)) := by
  constructor
  · intro h
    obtain ⟨sl, sf, st⟩ := s
    cases h
    rfl
  · intro l hl
    have : scorePy S data (some l) quorum s = (if h : n = l.length then
        (Py.lift (score S data (fun i => l[i]) quorum) : Py Attrs (Option ℚ))
      else Py.lift (.raise .assertionError)) s := rfl
    rw [this, dif_neg fun h => hl h.symm]
    rfl

end

/-- C100: after a traced fit that made a cut, `score` of the same data and quorum is the score of the last
cut. -/
theorem c100_score {o : WeightOrder} {S : SpanningForest} {d : Metric}
    (hS : S.metric = .dissimilarity d) {n m fuel : Nat} {nClusters : Option Int} {W : Adj n}
    {data : Fin n → Row m} {quorum : Option ℚ} {islands : String} {s t : Attrs}
    (h : fitPy o S fuel nClusters W (some ⟨m, data⟩) quorum true islands s = (.ok (), t))
    {tr : List TraceEntry} (ht : t.trace = some tr) (h2 : 2 ≤ tr.length) :
    ∃ L e v, tr.getLast? = some (L, some (e, v)) ∧ t.labels = some L ∧
      scorePy S data none quorum t = (.ok (some v), t) := by
  obtain ⟨f, hf, hl, -, htr⟩ := c100_returns_partial h
  obtain ⟨d', hd', hdone, -⟩ := fit_ok hf
  cases hd' d hS
  obtain ⟨st, hst, hft⟩ := hdone.steps
  rw [htr rfl] at ht
  cases ht
  have hlast : ∀ {msf msf' : List (Edge n)} {st : List ((Fin n → Int) × Deletion n)},
      Pruned d S data quorum msf st msf' → st ≠ [] →
      ∃ e, st.getLast? = some (treeLabels msf', some (e, mapScore d S data (treeLabels msf'))) ∧
        ∀ q ∈ quorum, MeetsQuorum (treeLabels msf') q := by
    intro msf msf' st hp
    induction hp with
    | refl => intro h; exact absurd rfl h
    | @step msf e v st msf' hb hp ih =>
      intro _
      cases st with
      | nil =>
        cases hp
        refine ⟨e, ?_, hb.1⟩
        rw [hb.2.2.1]
        rfl
      | cons p st =>
        obtain ⟨e', h1, h2⟩ := ih (by simp)
        exact ⟨e', by rw [List.getLast?_cons_cons]; exact h1, h2⟩
  have hne : st ≠ [] := by
    rintro rfl
    simp only [if_true, List.append_nil] at hft
    rw [hft] at h2
    simp at h2
  obtain ⟨e, h3, h4⟩ := hlast hst hne
  refine ⟨arrayList f.labels, (e.1.val, e.2.val), mapScore d S data f.labels, ?_, hl, ?_⟩
  · rw [List.getLast?_map, hft]
    simp only [if_true]
    rw [List.getLast?_append, h3, hdone.labels]
    rfl
  · rw [(c100_score_labels S data quorum t f.labels hl).1]
    classical
    rw [hdone.labels, score_dissimilarity hS data _ (treeLabels_consecutive _), if_pos h4]

example : (scorePy .default (column (k := 4) ![0, 1, 10, 12]) none none
    (fitPy stableOrder .default 5 (some 2) path4 (four ![0, 1, 10, 12]) none true "increase"
      Attrs.fresh).2).1 = .ok (some 3) := by decide +kernel

/-- C100: `make_cut` without a forest on an object that was not fitted raises `AttributeError`. -/
theorem c100_make_cut_unfitted (e : Nat × Nat) (v : Option ℚ) (s : Attrs) (h : s.forest = none) :
    (makeCutPy e v s).1 = .raise .attributeError ∧ (makeCutPy e v s).2 = s := by
  obtain ⟨sl, sf, st⟩ := s
  cases h
  exact ⟨rfl, rfl⟩

/-- C100: `make_cut` with an infinite score raises `OptimizeWarning`, and with a number that is not that of
an area `IndexError`; the object stays as it was. -/
theorem c100_make_cut_refused {n : Nat} {msf : List (Edge n)} (e : Nat × Nat) (s : Attrs)
    (hs : s.forest = some ⟨n, msf⟩) :
    makeCutPy e none s = (.raise .optimizeWarning, s) ∧
    (¬ (e.1 < n ∧ e.2 < n) → ∀ v, makeCutPy e (some v) s = (.raise .indexError, s)) := by
  obtain ⟨sl, sf, st⟩ := s
  cases hs
  refine ⟨rfl, fun h v => ?_⟩
  have : makeCutPy e (some v) ⟨sl, some ⟨n, msf⟩, st⟩ =
      (if h : e.1 < n ∧ e.2 < n then do
        let cut := msf.erase (⟨e.1, h.1⟩, ⟨e.2, h.2⟩)
        Py.set fun s => { s with forest := some ⟨n, cut⟩ }
        pure ⟨n, cut, nComponents (adjOf cut), treeLabels cut⟩
      else Py.lift (.raise .indexError) :
        Py Attrs (Σ n : Nat, List (Edge n) × Nat × (Fin n → Int))) ⟨sl, some ⟨n, msf⟩, st⟩ := rfl
  rw [this, dif_neg h]
  rfl

/-- C100 fails for `make_cut` on the forest of the object: the forest loses the edge, and the labels of the
object stay those of the old forest, so that they no longer are the labels of its trees. -/
theorem c100_make_cut_false {n : Nat} {msf : List (Edge n)} (hf : IsForest msf) {e : Edge n}
    (he : e ∈ msf) (v : ℚ) (s : Attrs) (hs : s.forest = some ⟨n, msf⟩)
    (hl : s.labels = some (arrayList (treeLabels msf))) :
    (makeCutPy (e.1.val, e.2.val) (some v) s).1 = .ok ⟨n, msf.erase e,
      nComponents (adjOf msf) + 1, treeLabels (msf.erase e)⟩ ∧
    (makeCutPy (e.1.val, e.2.val) (some v) s).2.forest = some ⟨n, msf.erase e⟩ ∧
    (makeCutPy (e.1.val, e.2.val) (some v) s).2.labels = some (arrayList (treeLabels msf)) ∧
    treeLabels msf e.1 = treeLabels msf e.2 ∧
    ¬ SameIsland (onlyEdges (msf.erase e)) e.1 e.2 := by
  have hk := hf.nComponents_erase he
  have key : makeCutPy (e.1.val, e.2.val) (some v) s =
      (.ok ⟨n, msf.erase e, nComponents (adjOf (msf.erase e)), treeLabels (msf.erase e)⟩,
        { s with forest := some ⟨n, msf.erase e⟩ }) := by
    obtain ⟨sl, sf, st⟩ := s
    cases hs
    have : makeCutPy (e.1.val, e.2.val) (some v) ⟨sl, some ⟨n, msf⟩, st⟩ =
        (if h : e.1.val < n ∧ e.2.val < n then do
          let cut := msf.erase (⟨e.1.val, h.1⟩, ⟨e.2.val, h.2⟩)
          Py.set fun s => { s with forest := some ⟨n, cut⟩ }
          pure ⟨n, cut, nComponents (adjOf cut), treeLabels cut⟩
        else Py.lift (.raise .indexError) :
          Py Attrs (Σ n : Nat, List (Edge n) × Nat × (Fin n → Int))) ⟨sl, some ⟨n, msf⟩, st⟩ := rfl
    rw [this, dif_pos ⟨e.1.isLt, e.2.isLt⟩]
    rfl
  rw [key, hk]
  refine ⟨rfl, rfl, hl, ?_, ?_⟩
  · rw [treeLabels_eq_iff]
    exact .single (Or.inl (adjOf_iff.2 he))
  · rw [onlyEdges_eq]
    exact hf.2 e he

/-- After a fit, `make_cut(0, 1, 0)`: three trees, but two labels. -/
example :
    (let s := (makeCutPy (0, 1) (some 0) (fitPy stableOrder .default 5 (some 2) path4
        (four ![0, 1, 10, 12]) none false "increase" Attrs.fresh).2).2
     (s.labels, s.forest)) = (some [0, 0, 1, 1], some ⟨4, [(2, 3)]⟩) := by decide +kernel

end Region.Props
