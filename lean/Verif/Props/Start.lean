import Mathlib.Data.Set.Card
import Verif.Lemmas.StartGen
import Verif.Props.Zoning
/-
Property theorems C105: the starts AZP draws when it is given none.
-/
namespace Region.Props

open Region Spec Res

section
variable (o : MstOrder) {n : Nat} (adj : Adj n)

theorem forestOf_card : (forestOf o adj).card + nComponents adj = n := by
  have h := card_links (subset_refl (forestOf o adj))
  have hall : ∀ c ∈ Finset.range (nComponents adj),
      (part o adj (forestOf o adj) c).length + 1 = (compIdx adj c).length := by
    intro c hc
    rw [Finset.mem_range] at hc
    have : part o adj (forestOf o adj) c = compTree o adj c := by
      apply List.filter_eq_self.2
      intro e he
      exact decide_eq_true (mem_forestOf.2 ⟨c, hc, e, he, rfl⟩)
    rw [this, compTree_length hc]
  have h2 := sum_sizes (adj := adj)
  rw [← Finset.sum_congr rfl hall, Finset.sum_add_distrib, ← h] at h2
  simpa using h2

/-- Different sets of kept links give different clusterings. -/
theorem cutLabels_injOn : Set.InjOn (cutLabels o adj) {K | K ⊆ forestOf o adj} := by
  have key : ∀ {K K' : Finset (Fin n × Fin n)}, K ⊆ forestOf o adj → K' ⊆ forestOf o adj →
      cutLabels o adj K = cutLabels o adj K' → K ⊆ K' := by
    intro K K' hK hK' h e he
    by_contra hne
    have h1 : Linked K e.1 e.2 := .single (Or.inl (decide_eq_true he))
    rw [← cutLabels_iff hK, h, cutLabels_iff hK'] at h1
    refine forestOf_spans.needed e (hK he) (rtg_mono (fun a b hab => ?_) h1)
    have hsub : ∀ x, x ∈ K' → x ∈ (forestOf o adj).erase e :=
      fun x hx => Finset.mem_erase.2 ⟨fun h => hne (h ▸ hx), hK' hx⟩
    exact hab.imp (fun h => decide_eq_true (hsub _ (of_decide_eq_true h)))
      fun h => decide_eq_true (hsub _ (of_decide_eq_true h))
  exact fun K hK K' hK' h => (key hK hK' h).antisymm (key hK' hK h.symm)

end

/-- C105: what `list(generate_initial_sol(adj, p))` can be.  There is one spanning forest of the map, the
same for all `p`, such that the clusterings yielded (one array per island, C03) are exactly those one gets by
cutting links of it. -/
theorem c105_starts (o : MstOrder) {n : Nat} (adj : Adj n) :
    ∃ F, SpanningLinks adj F ∧ ∀ p : Nat, 2 ≤ p → p ≤ n → nComponents adj ≤ p →
      (∀ ys : List (Yielded n),
        (∃ r gen r' r'', generateInitialSol o adj p r = .ok (gen, r') ∧ gen.toList r' = .ok (ys, r'')) ↔
          ∃ lab, CutFrom adj F p lab ∧ ys = (separateComponents adj lab).map .array) ∧
      {lab | CutFrom adj F p lab}.ncard = (n - nComponents adj).choose (p - nComponents adj) := by
  refine ⟨forestOf o adj, forestOf_spans, fun p h2 hpn hc => ⟨fun ys => ⟨?_, ?_⟩, ?_⟩⟩
  · rintro ⟨r, gen, r', r'', h1, h3⟩
    have hy : ∀ (gen : Gen n) (ys : List (Yielded n)) (r' : Rng),
        (∀ s ∈ gen, ∀ r, ∃ y r', s r = .ok (.array y, r')) → gen.toList r' = .ok (ys, r'') →
        ∃ zs, ys = zs.map .array ∧ List.Forall₂ Yields gen zs := by
      intro gen
      induction gen with
      | nil => intro ys r' _ h; cases h; exact ⟨[], rfl, .nil⟩
      | cons s gen ih =>
        intro ys r' hs h
        unfold Gen.toList at h
        obtain ⟨y, r1, h1⟩ := hs s (by simp) r'
        rw [h1, Res.bind_ok] at h
        dsimp only at h
        rw [Res.bind_eq_ok] at h
        obtain ⟨⟨ys', r2⟩, h2, h3⟩ := h
        cases h3
        obtain ⟨zs, rfl, h4⟩ := ih ys' r1 (fun s h => hs s (by simp [h])) h2
        exact ⟨y :: zs, rfl, .cons ⟨_, _, h1⟩ h4⟩
    obtain ⟨gen', r1, g1, g2, -⟩ := generateInitialSol_spec o adj p r (by omega) (by omega) (by omega)
      (by omega)
    rw [g1] at h1
    cases h1
    obtain ⟨zs, rfl, hz⟩ := hy gen ys r' g2 h3
    obtain ⟨K, hK, hcard, rfl⟩ := generateInitialSol_sound (by omega) (by omega) (by omega) (by omega) g1 hz
    exact ⟨_, cutFrom_iff.2 ⟨K, hK, hcard, rfl⟩, rfl⟩
  · rintro ⟨lab, hlab, rfl⟩
    obtain ⟨K, hK, hcard, rfl⟩ := cutFrom_iff.1 hlab
    obtain ⟨gen, h1, h3⟩ := generateInitialSol_complete (by omega) (by omega) (by omega) (by omega) hK hcard
    have hy : ∀ {gen : Gen n} {zs : List (Labels n)}, List.Forall₂ CanYield gen zs →
        ∀ r', ∃ r0, gen.toList r0 = .ok (zs.map .array, r') := by
      intro gen zs h
      induction h with
      | nil => exact fun r' => ⟨r', rfl⟩
      | @cons s z gen zs hs _ ih =>
        intro r'
        obtain ⟨r1, h1⟩ := ih r'
        obtain ⟨r0, h0⟩ := hs r1
        refine ⟨r0, ?_⟩
        unfold Gen.toList
        rw [h0, Res.bind_ok]
        dsimp only
        rw [h1]
        rfl
    obtain ⟨r1, h3⟩ := hy h3 fun _ => 0
    obtain ⟨r0, h1⟩ := h1 r1
    exact ⟨r0, gen, r1, _, h1, h3⟩
  · have hset : {lab | CutFrom adj (forestOf o adj) p lab} =
        cutLabels o adj '' ((forestOf o adj).powersetCard (n - p) : Set (Finset (Fin n × Fin n))) := by
      ext lab
      rw [Set.mem_ofPred_eq, cutFrom_iff]
      simp only [Set.mem_image, Finset.mem_coe, Finset.mem_powersetCard]
      constructor
      · rintro ⟨K, h1, h2, rfl⟩
        exact ⟨K, ⟨h1, by omega⟩, rfl⟩
      · rintro ⟨K, ⟨h1, h2⟩, rfl⟩
        exact ⟨K, h1, by omega, rfl⟩
    have hF := forestOf_card o adj
    rw [hset, Set.InjOn.ncard_image, Set.ncard_coe_finset, Finset.card_powersetCard,
      show (forestOf o adj).card = n - nComponents adj by omega,
      show n - p = n - nComponents adj - (p - nComponents adj) by omega, Nat.choose_symm (by omega)]
    intro K hK K' hK' h
    rw [Finset.mem_coe, Finset.mem_powersetCard] at hK hK'
    exact cutLabels_injOn o adj hK.1 hK'.1 h

/-- The regions of a start are contiguous. -/
theorem cutFrom_contiguous {n : Nat} {adj : Adj n} {F : Finset (Fin n × Fin n)} (hF : SpanningLinks adj F)
    {p : Int} {lab : Labels n} (h : CutFrom adj F p lab) : AllContiguous adj lab := by
  obtain ⟨-, K, hK, -, hl⟩ := h
  refine contiguous_of_separates (es := K.toList)
    (fun e he => hF.real e (hK (Finset.mem_toList.1 he))) fun a b => ?_
  rw [hl]
  unfold Linked adjOf
  simp

/-- C105: what `fit` can end with when it is given no initial labels: the results of the described procedure,
island by island, for some start which one gets by cutting links of the spanning forest. -/
theorem c105_fit {q : Nat} {ρ : Type} (o : MstOrder) (expf : ℚ → ℚ) {metric : ρ → ρ → ℚ}
    (hsym : ∀ x y, metric x y = metric y x) (h0 : ∀ x, metric x x = 0) {n : Nat} {adj : Adj n}
    (hs : Symmetric adj) :
    ∃ F, SpanningLinks adj F ∧ ∀ p : Nat, 2 ≤ p → p ≤ n → nComponents adj ≤ p →
      ∀ (attr : Fin n → ρ) (fuel : Nat), n + n ^ n < fuel → ∀ (v : ℚ) (L : Labels n),
      (∃ rng st rng', azpFit (q := q) o expf (pairwise metric) fuel adj attr p none (.azp v) rng =
        .ok (L, st, rng')) ↔
      ∃ init, CutFrom adj F p init ∧ ∀ u, Zoned (fun a b : Island adj u => adj a b)
        (dissimilarity fun a b : Island adj u => metric (attr a) (attr b))
        (onIsland adj u init) (onIsland adj u L) := by
  refine ⟨forestOf o adj, forestOf_spans, fun p h2 hpn hc attr fuel hf v L => ?_⟩
  have hm : ∀ init, CutFrom adj (forestOf o adj) p init → ∀ v, init v ≠ -1 := by
    intro init hi v h
    have := (hi.1.numbers (init v)).1 ⟨v, rfl⟩
    omega
  have hcon : ∀ init, CutFrom adj (forestOf o adj) p init → AllContiguous adj init :=
    fun init => cutFrom_contiguous forestOf_spans
  unfold azpFit
  rw [fitWith_none_exact (by omega) (by omega) (by omega) (by omega)
    (fun init hi => azp_exactStep expf (pairwise_exact hsym h0) (pairwise_total metric) hs (hcon init hi)
      (fun v => ⟨v, .refl, hm init hi v⟩) attr hf) ⟨v, rfl⟩]
  refine exists_congr fun init => and_congr_right fun hi => ?_
  have key := zoned_on_island hsym (adj := adj) attr (hm init hi) (L := L)
  constructor
  · exact fun h u => (key u).1 (h _ (compLabels_lt adj u))
  · intro h c hlt
    obtain ⟨u, rfl⟩ := compLabels_surj adj hlt
    exact (key u).2 (h u)

/-- C105: on a map without cycles (no border can be crossed out without separating its areas) every
contiguous clustering is a possible start. -/
theorem c105_trees {n : Nat} {adj : Adj n} (htree : ∀ a b, adj a b = true →
      ¬ SameIsland (fun x y => adj x y && !decide (x = a ∧ y = b ∨ x = b ∧ y = a)) a b)
    {F : Finset (Fin n × Fin n)} (hF : SpanningLinks adj F) (p : Nat) (lab : Labels n) :
    CutFrom adj F p lab ↔ InOrder adj p lab ∧ AllContiguous adj lab := by
  constructor
  · exact fun h => ⟨h.1, cutFrom_contiguous hF h⟩
  · rintro ⟨ho, hc⟩
    have hin : ∀ a b, adj a b = true → (a, b) ∈ F ∨ (b, a) ∈ F := by
      intro a b hab
      by_contra hne
      push Not at hne
      refine htree a b hab (rtg_mono (fun x y hxy => ?_)
        (hF.spans a b (.single (Or.inl hab))))
      have key : ∀ x y, (x, y) ∈ F → (adj x y && !decide (x = a ∧ y = b ∨ x = b ∧ y = a)) = true := by
        intro x y hxy
        have h1 := hF.real (x, y) hxy
        have h2 : ¬ (x = a ∧ y = b ∨ x = b ∧ y = a) := by
          rintro (⟨rfl, rfl⟩ | ⟨rfl, rfl⟩)
          · exact hne.1 hxy
          · exact hne.2 hxy
        rw [Bool.and_eq_true]
        exact ⟨h1, by rw [decide_eq_false h2]; rfl⟩
      exact hxy.imp (fun h => key _ _ (of_decide_eq_true h)) fun h => key _ _ (of_decide_eq_true h)
    set K := F.filter fun e => lab e.1 = lab e.2 with hKdef
    have hK : K ⊆ F := Finset.filter_subset _ _
    have hl : ∀ u v, lab u = lab v ↔ Linked K u v := by
      intro u v
      constructor
      · intro h
        have := (hc v).2 u h v rfl
        refine rtg_mono (fun x y hxy => ?_) this
        have hx : lab x = lab v := hxy.1
        have hy : lab y = lab v := hxy.2.1
        have key : ∀ {x y}, lab x = lab v → lab y = lab v → adj x y = true → (x, y) ∈ K ∨ (y, x) ∈ K := by
          intro x y hx hy h
          refine (hin x y h).imp (fun h => ?_) fun h => ?_
          · exact Finset.mem_filter.2 ⟨h, hx.trans hy.symm⟩
          · exact Finset.mem_filter.2 ⟨h, hy.trans hx.symm⟩
        rcases hxy.2.2 with h | h
        · exact (key hx hy h).imp decide_eq_true decide_eq_true
        · exact ((key hy hx h).imp decide_eq_true decide_eq_true).symm
      · intro h
        induction h with
        | refl => rfl
        | tail _ h ih =>
          rw [ih]
          rcases h with h | h
          · exact (Finset.mem_filter.1 (of_decide_eq_true h)).2
          · exact (Finset.mem_filter.1 (of_decide_eq_true h)).2.symm
    have hlist : ∀ M : Finset (Fin n × Fin n), ∀ a b, SameIsland (adjOf M.toList) a b ↔ Linked M a b := by
      intro M a b
      unfold Linked adjOf
      simp
    have hfor : IsForest K.toList := by
      refine ⟨K.nodup_toList, fun e he h => ?_⟩
      rw [Finset.mem_toList] at he
      refine hF.needed e (hK he) (rtg_mono (fun x y hxy => ?_) h)
      have key : ∀ x, x ∈ K.toList.erase e → x ∈ F.erase e := by
        intro x hx
        rw [K.nodup_toList.mem_erase_iff, Finset.mem_toList] at hx
        exact Finset.mem_erase.2 ⟨hx.1, hK hx.2⟩
      exact hxy.imp (fun h => decide_eq_true (key _ (adjOf_iff.1 h)))
        fun h => decide_eq_true (key _ (adjOf_iff.1 h))
    refine ⟨ho, K, hK, ?_, hl⟩
    have h1 := hfor.card
    rw [← card_image_eq_nComponents (adjOf K.toList) lab fun a b => by rw [hlist, hl],
      Finset.length_toList] at h1
    have h2 : Finset.univ.image lab = Finset.Ico 0 (p : Int) := by
      ext x
      rw [Finset.mem_Ico, ← ho.numbers x]
      simp
    rw [h2, Int.card_Ico] at h1
    omega

/-- C105: around a lake this is not so.  Whatever the order in which equal weights are visited, some
clustering with two contiguous regions never is the start, not even with other numbers. -/
theorem c105_not_all (o : MstOrder) :
    ∃ lab : Labels 4, Feasible lake4 lab 2 ∧ ∀ lab' : Labels 4, (∀ u v, lab' u = lab' v ↔ lab u = lab v) →
      ¬ ∃ r gen r' r'', generateInitialSol o lake4 2 r = .ok (gen, r') ∧
        gen.toList r' = .ok ((separateComponents lake4 lab').map .array, r'') := by
  obtain ⟨F, hF, h⟩ := c105_starts o lake4
  obtain ⟨hstart, hcard⟩ := h 2 (by decide) (by decide) (by decide +kernel)
  have hone : nComponents lake4 = 1 := by decide +kernel
  rw [hone] at hcard
  by_contra hall
  push Not at hall
  let alone : Fin 4 → Labels 4 := fun i v => if v = i then 1 else 0
  have hfeas : ∀ i, Feasible lake4 (alone i) 2 := by
    intro i
    have : ∀ i, assertFeasible (alone i) lake4 (some 2) = .ok () := by decide +kernel
    have := (c04_assert_feasible_ok _ _ _).1 (this i)
    exact ⟨this.1, by exact_mod_cast this.2 2 rfl⟩
  choose f hf1 hf2 using fun i => hall (alone i) (hfeas i)
  have hmem : ∀ i, f i ∈ {lab | CutFrom lake4 F 2 lab} := by
    intro i
    obtain ⟨lab, hlab, he⟩ := (hstart _).1 (hf2 i)
    have h1 := List.map_injective_iff.2 (fun a b h => Yielded.array.inj h) he
    have : f i = lab := by
      have hlen : 0 < (separateComponents lake4 lab).length := by rw [separateComponents_length, hone]; decide
      have h2 : (separateComponents lake4 (f i))[0]'(by rw [h1]; exact hlen) =
          (separateComponents lake4 lab)[0]'hlen := by simp only [h1]
      rw [separateComponents_getElem, separateComponents_getElem] at h2
      have h0 : ∀ v, compLabels lake4 v = 0 := by decide +kernel
      funext v
      have := congrFun h2 v
      simpa [h0] using this
    rw [this]; exact hlab
  have hinj : Function.Injective f := by
    intro i j hij
    have : ∀ i j : Fin 4, (∀ u v, alone i u = alone i v ↔ alone j u = alone j v) → i = j := by
      decide +kernel
    refine this i j fun u v => ?_
    rw [← hf1 i, ← hf1 j, hij]
  have hle : (Set.range f).ncard ≤ {lab | CutFrom lake4 F 2 lab}.ncard := by
    refine Set.ncard_le_ncard (by rintro _ ⟨i, rfl⟩; exact hmem i) ?_
    refine Set.finite_of_ncard_ne_zero ?_
    rw [show ((2 : Nat) : Int) = 2 from rfl] at hcard
    rw [hcard]; decide
  rw [show ((2 : Nat) : Int) = 2 from rfl] at hcard
  rw [hcard, ← Set.image_univ, hinj.injOn.ncard_image, Set.ncard_univ, Nat.card_fin] at hle
  exact absurd hle (by decide)

/-- The hypotheses of the theorems about starts are met by the lake, for two regions, and there are three
starts. -/
example : ∃ F, SpanningLinks lake4 F ∧ {lab | CutFrom lake4 F 2 lab}.ncard = 3 := by
  obtain ⟨F, hF, h⟩ := c105_starts .rowMajor lake4
  have := (h 2 (by decide) (by decide) (by decide +kernel)).2
  rw [show nComponents lake4 = 1 by decide +kernel] at this
  exact ⟨F, hF, this⟩

/-- Two islands with two areas each, three regions: one of the two links is cut, the labels run on. -/
example : (match generateInitialSol .rowMajor islands4 3 (fun _ => 0) with
    | .ok (gen, r) => (match gen.toList r with
      | .ok (ys, _) => ys.map fun y => (match y with | .array l => arrayList l | .dict => [])
      | _ => [])
    | _ => []) = [[0, 1, -1, -1], [-1, -1, 2, 2]] := by decide +kernel

/-- A path has no cycles. -/
theorem path4_tree : ∀ a b, path4 a b = true →
    ¬ SameIsland (fun x y => path4 x y && !decide (x = a ∧ y = b ∨ x = b ∧ y = a)) a b := by
  intro a b
  rw [← compRepr_eq_iff]
  revert a b
  decide +kernel

example (lab : Labels 4) : ∃ F, SpanningLinks path4 F ∧
    (CutFrom path4 F 2 lab ↔ InOrder path4 2 lab ∧ AllContiguous path4 lab) := by
  obtain ⟨F, hF, -⟩ := c105_starts .rowMajor path4
  exact ⟨F, hF, c105_trees path4_tree hF 2 lab⟩

/-- C105 at work: a result of `fit` without initial labels, and what it says. -/
example : ∃ F, SpanningLinks path4 F ∧ ∃ init L, CutFrom path4 F 2 init ∧
    ∀ u, Zoned (fun a b : Island path4 u => path4 a b)
      (dissimilarity fun a b : Island path4 u => manhattan (ramp 4 a) (ramp 4 b))
      (onIsland path4 u init) (onIsland path4 u L) := by
  have hs : Spec.Symmetric path4 := by unfold Spec.Symmetric; decide +kernel
  obtain ⟨F, hF, h⟩ := c105_fit (q := 0) .rowMajor (fun _ => 0) manhattan_comm manhattan_self hs
  obtain ⟨L, st, rng', hL, -⟩ := c22_fit_from_scratch (q := 0) .rowMajor (fun _ => 0)
    (pairwise_exact manhattan_comm manhattan_self) (pairwise_total manhattan) hs (ramp 4) 2 (by decide)
    (by decide) (by decide +kernel) 300 (by norm_num) (.azp 0) (fun _ => 0)
  obtain ⟨init, h1, h2⟩ := (h 2 (by decide) (by decide) (by decide +kernel) (ramp 4) 300 (by norm_num) 0
    L).1 ⟨_, st, rng', hL⟩
  exact ⟨F, hF, init, L, h1, h2⟩

end Region.Props
