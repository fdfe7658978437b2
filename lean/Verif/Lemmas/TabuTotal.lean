import Verif.Lemmas.TabuMaxp
import Verif.Lemmas.MaxPMore
/-
The basic tabu search under a rule ends if the data have no ties.
-/
namespace Region

open Spec Props

section
variable {k : Nat} {ρ σ : Type} {metric : ρ → ρ → ℚ} {attr : Fin k → ρ} {adj : Adj k}
  {ops : StratOps σ k} {P : σ → Prop} {may : Labels k → Fin k → Int → Prop}
  {len : Option Nat} {x y z : Search (Fin k)} {s : TabuState σ k} {init : Labels k} {reps : Int}

/-! ### Nothing raises -/

section
variable (hsym : ∀ x y, metric x y = metric y x) (h0 : ∀ x, metric x x = 0) (hp : ∀ x y, 0 ≤ metric x y)
  (hR : Rules adj metric attr ops P may)
include hsym h0 hp hR

theorem aspiration_ok (hx : Shows len x s.plain) (hi : TabuInv adj P init s) :
    ∃ s', aspiration ops (pairwise metric) attr adj s = .ok s' := by
  obtain ⟨moves, h1, h2⟩ := improvingTabus_aspirant hsym h0 (attr := attr) hx hi.plain
  have h1 : improvingTabus (pairwise metric) attr s.labels s.tabu.items = .ok moves := h1
  unfold aspiration
  rw [h1, Res.bind_ok]
  by_cases hnil : moves = []
  · exact ⟨s, by rw [if_pos hnil]⟩
  · rw [if_neg hnil]
    obtain ⟨m, hm, hr⟩ := randomElementFrom_ne_nil hnil s.rng
    obtain ⟨y, s', -, -, -, -, -, -, -, b, g8⟩ := aspirant_may hsym h0 hp hR hx hi ((h2 m).1 hm)
    rw [hr, Res.bind_ok]
    dsimp only
    rw [g8, Res.bind_ok]
    exact ⟨_, rfl⟩

theorem basicElse_ok (hx : Shows len x s.plain) (hi : TabuInv adj P init s) {b : Option (Nat × Move k × ℚ)}
    (hb : FoundMay adj metric attr may len x b) :
    ∃ p, basicElse ops (pairwise metric) attr adj b s = .ok p := by
  obtain ⟨t, ht⟩ := aspiration_ok hsym h0 hp hR hx hi
  obtain ⟨z, -, hsl, -, hsz, hti⟩ := aspiration_may hsym h0 hp hR hx hi ht
  unfold basicElse
  rw [ht, Res.bind_ok]
  by_cases hst : t.stop = true
  · exact ⟨_, by rw [if_pos hst]⟩
  · rw [if_neg hst]
    rcases b with _ | ⟨j, m, d⟩
    · exact ⟨_, rfl⟩
    · obtain ⟨y, t', -, -, -, b, g3⟩ := retry_may hsym h0 hp hR hx hi hsz hti hsl hb
      have h3 := g3 t.rng
      rw [show ({ t with rng := t.rng } : TabuState σ k) = t from rfl] at h3
      dsimp only
      rw [h3, Res.bind_ok]
      exact ⟨_, rfl⟩

theorem basicRound_ok (hs : Spec.Symmetric adj) (hx : Shows len x s.plain) (hi : TabuInv adj P init s) :
    ∃ p, basicRound ops (pairwise metric) attr adj s = .ok p := by
  rcases basicRound_may hsym h0 hp hR hs hx hi with ⟨-, y, t, -, -, -, hr⟩ | ⟨-, -, b, t, hb, ht, hti, hr⟩
  · exact ⟨_, hr s.rng⟩
  · obtain ⟨p, h⟩ := basicElse_ok hsym h0 hp hR (s := { t with rng := s.rng }) (ht.rng _)
      ⟨hti.cont, hti.image, hti.tabu, hti.strat⟩ hb
    exact ⟨p, (hr s.rng).trans h⟩

end

/-! ### What a round changes -/

theorem sent_le {V : Type} [DecidableEq V] {adj : V → V → Bool} {value : (V → Int) → ℚ} {a : V} {r : Int}
    {x y : Search V} (h : Sent adj a r x y) (hle : value (moved x.labels a r) ≤ value x.labels) :
    value y.labels ≤ value x.labels := by
  by_cases hc : AllContiguous adj (moved x.labels a r)
  · rw [h.2.2.2.1 hc]; exact hle
  · rw [h.2.2.2.2 hc]

theorem mayAspire_le {V : Type} [LT V] [DecidableEq V] {adj : V → V → Bool} {value : (V → Int) → ℚ}
    {may : (V → Int) → V → Int → Prop} {x y : Search V}
    (hle : ∀ L a r, may L a r → value (moved L a r) ≤ value L) (h : MayAspire adj value may len x y) :
    value y.labels ≤ value x.labels ∧ y.seen = x.seen := by
  rcases h with ⟨rfl, -⟩ | ⟨m, hm, h1, h2⟩
  · exact ⟨le_rfl, rfl⟩
  · by_cases hmay : may x.labels m.area m.new
    · exact ⟨sent_le (h1 hmay) (hle _ _ _ hmay), (h1 hmay).2.1⟩
    · rw [h2 hmay]; exact ⟨le_rfl, rfl⟩

theorem mayRound_le {V : Type} [LT V] [DecidableEq V] {adj : V → V → Bool} {value : (V → Int) → ℚ}
    {may : (V → Int) → V → Int → Prop} {x y : Search V}
    (hle : ∀ L a r, may L a r → value (moved L a r) ≤ value L) (h : MayRound adj value may len reps x y) :
    value y.labels ≤ value x.labels ∧ y.seen = x.seen ++ [x.labels] := by
  rcases h with ⟨m, -, h1, -, h3⟩ | ⟨-, -, z, hz, hr⟩
  · exact ⟨sent_le (x := noted reps x) h3 h1, h3.2.1⟩
  · obtain ⟨h1, h2⟩ := mayAspire_le hle hz
    rcases hr with ⟨m, -, h3, h4⟩ | ⟨-, rfl⟩
    · exact ⟨(sent_le h4 (hle _ _ _ h3)).trans h1, h4.2.1.trans h2⟩
    · exact ⟨h1, h2⟩

/-- The loop ends. -/
theorem mayLoop_total (hd : Dissimilarity metric) (hR : Rules adj metric attr ops P may) (hs : Spec.Symmetric adj)
    (hnt : NoTies init (pairwise metric) attr) : ∀ (F : Nat) {x : Search (Fin k)} {s : TabuState σ k},
    Shows len x s.plain → TabuInv adj P init s →
    roomLeft ((relabelings init).image arrayList) reps s.visited +
      better init (fun l => (pairwise metric).call l attr) ((pairwise metric).call s.labels attr) < F →
    ∃ s', basicLoop ops (pairwise metric) attr adj reps F s = .ok s' ∧ TabuInv adj P init s'
  | 0, _, _, _, _, hF => absurd hF (by omega)
  | F + 1, x, s, hx, hi, hF => by
    have hi' : TabuInv adj P init (noteVisit reps s) := ⟨hi.cont, hi.image, hi.tabu, hi.strat⟩
    obtain ⟨⟨done, s1⟩, h1⟩ := basicRound_ok hd.symm hd.zero hd.nonneg hR hs
      (show Shows len (noted reps x) (noteVisit reps s).plain from hx.note reps) hi'
    unfold basicLoop
    rw [h1, Res.bind_ok]
    dsimp only
    obtain ⟨hi1, ⟨rfl, -⟩ | ⟨rfl, y, hy, hsy⟩⟩ := mayRound_sound hd.symm hd.zero hd.nonneg hR hs hx hi h1
    · exact ⟨s1, by rw [if_pos rfl], hi1⟩
    · rw [if_neg (by simp)]
      refine mayLoop_total hd hR hs hnt F hsy hi1 ?_
      obtain ⟨hle, hseen⟩ := mayRound_le (value := fun L => (pairwise metric).call L attr) (may := may)
        (fun L a r h => hR.le h) hy
      have hxl : s.labels = x.labels := hx.labels
      have hyl : s1.labels = y.labels := hsy.labels
      have hv : s1.visited = s.visited ++ [arrayList s.labels] := by
        have h3 : s1.visited = y.seen.map arrayList := hsy.seen
        have h4 : s.visited = x.seen.map arrayList := hx.seen
        rw [h3, h4, hseen, hxl, List.map_append]
        rfl
      rw [← hxl, ← hyl] at hle
      have hbet : better init (fun l => (pairwise metric).call l attr) ((pairwise metric).call s1.labels attr) ≤
          better init (fun l => (pairwise metric).call l attr) ((pairwise metric).call s.labels attr) := by
        apply Finset.card_le_card
        intro w hw
        simp only [Finset.mem_filter] at hw ⊢
        exact ⟨hw.1, hw.2.trans_le hle⟩
      have hmem : arrayList s.labels ∈ (relabelings init).image arrayList :=
        Finset.mem_image_of_mem _ (mem_relabelings.2 fun v => (hi.image _).1 ⟨v, rfl⟩)
      rw [hv]
      by_cases hc : (s.visited.count (arrayList s.labels) : Int) < reps
      · have := roomLeft_lt hmem hc
        omega
      · have hroom : roomLeft ((relabelings init).image arrayList) reps (s.visited ++ [arrayList s.labels]) ≤
            roomLeft ((relabelings init).image arrayList) reps s.visited := by
          apply Finset.sum_le_sum
          intro w _
          have : s.visited.count w ≤ (s.visited ++ [arrayList s.labels]).count w := by
            rw [List.count_append]; omega
          omega
        have hdue : (noted reps x).due :=
          (hx.note reps).stop.1 (by
            change (s.stop || decide (reps ≤ (s.visited.count (arrayList s.labels) : Int))) = true
            simp [not_lt.1 hc])
        rcases hy with ⟨m, hbest, hdown, -, hsent⟩ | ⟨-, hnd, -⟩
        · have hadm : Admissible adj s.labels m.area m.new := by rw [hxl]; exact hbest.1.2.1
          have hmc := moved_contiguous hi.cont hadm
          have hyv : s1.labels = moved s.labels m.area m.new := by
            rw [hyl, hxl]
            exact hsent.2.2.2.1 (by rw [hxl] at hmc; exact hmc)
          obtain ⟨u, hu, -⟩ := hadm.2.1
          have hup := pairwise_update_iff (metric := metric) (attr := attr) (a := m.area) (r := m.new)
            (L := s.labels).2 ⟨⟨u, hu⟩, rfl⟩
          have hval := (pairwise_exact hd.symm hd.zero) m.area m.new s.labels attr _ hup
          have hne := hnt s.labels hi.image m.area m.new hadm.1
          have hlt : (pairwise metric).call s1.labels attr < (pairwise metric).call s.labels attr := by
            refine lt_of_le_of_ne hle fun he => hne ?_
            rw [hyv] at he
            rw [hup]
            congr 1
            linarith
          have := better_lt (init := init) (g := fun l => (pairwise metric).call l attr) hlt
            (mem_relabelings.2 fun v => (hi1.image _).1 ⟨v, rfl⟩)
          omega
        · exact absurd hdue hnd

/-- One component. -/
theorem mayComponent_total (hd : Dissimilarity metric) (hR : Rules adj metric attr ops P may)
    (hs : Spec.Symmetric adj) (hc : AllContiguous adj init) (hnt : NoTies init (pairwise metric) attr) {F : Nat}
    (hF : numRegions init ^ k * (reps.toNat + 1) < F) {st : σ} (hst : P st) (rng : Rng) :
    (basicComponent ops (pairwise metric) attr adj len reps F init st rng).Post False False fun p =>
      KeepsRegions adj init p.1 ∧ P p.2.1 := by
  unfold basicComponent
  by_cases h1 : (uniqueSorted (arrayList init)).length = 1
  · rw [if_pos h1]
    exact ⟨⟨hc, fun _ => Iff.rfl⟩, hst⟩
  · rw [if_neg h1]
    obtain ⟨s', h2, h3⟩ := mayLoop_total (len := len) (reps := reps) hd hR hs hnt F (shows_begin st rng)
      ⟨hc, fun x => Iff.rfl, by simp, hst⟩ (by
        have hr := roomLeft_le ((relabelings init).image arrayList) reps []
        have hb := better_le init (fun l => (pairwise metric).call l attr) ((pairwise metric).call init attr)
        have hcard : ((relabelings init).image arrayList).card ≤ numRegions init ^ k := by
          rw [← card_relabelings]; exact Finset.card_image_le
        have := Nat.mul_le_mul_right reps.toNat hcard
        change roomLeft ((relabelings init).image arrayList) reps [] +
          better init (fun l => (pairwise metric).call l attr) ((pairwise metric).call init attr) < F
        rw [Nat.mul_add, Nat.mul_one] at hF
        omega)
    rw [h2, Res.bind_ok]
    exact ⟨⟨h3.cont, h3.image⟩, h3.strat⟩

end

end Region
