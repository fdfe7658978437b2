import Verif.Lemmas.StarLoop
import Verif.Lemmas.TabuTotal
/-
The endless run of the basic tabu search inside the max-p heuristic: four areas that are all alike, one of them
bordering the other three.
-/
namespace Region

open Spec Props

/-- The outer areas have regions of their own, and area 0 goes round these: it came from `c` and can go on to `b`. -/
def StarTurn (len : Option Nat) (x : Search (Fin 4)) : Prop :=
  (∀ i j : Fin 4, i ≠ 0 → j ≠ 0 → x.labels i = x.labels j → i = j) ∧
  ∃ a b c : Int, a ≠ b ∧ b ≠ c ∧ c ≠ a ∧ x.labels 0 = a ∧ (∃ i : Fin 4, i ≠ 0 ∧ x.labels i = a) ∧
    (∃ i : Fin 4, i ≠ 0 ∧ x.labels i = b) ∧ (∃ i : Fin 4, i ≠ 0 ∧ x.labels i = c) ∧
    (len = some 0 ∨ (∀ m ∈ x.barred, m = ⟨0, b, a⟩ ∨ m = ⟨0, c, b⟩ ∨ m = ⟨0, a, c⟩) ∧
      (x.barred = [] ∨ ∃ l, x.barred = l ++ [⟨0, a, c⟩]))

theorem star4_symm : Spec.Symmetric star4 := by unfold Spec.Symmetric; decide

theorem forbidden_mem {V : Type} {len : Option Nat} {x : Search V} {m : Shift V} (h : Forbidden len x m) :
    m ∈ x.barred := by
  cases len with
  | none => exact h
  | some l =>
    obtain ⟨i, -, hi⟩ := h
    exact List.mem_reverse.1 (List.mem_of_getElem? hi)

theorem forbidden_last {V : Type} {len : Option Nat} {x : Search V} {m : Shift V} {l : List (Shift V)}
    (hlen : len ≠ some 0) (h : x.barred = l ++ [m]) : Forbidden len x m := by
  cases len with
  | none =>
    change m ∈ x.barred
    rw [h]; simp
  | some k =>
    refine ⟨0, Nat.pos_of_ne_zero fun hk => hlen (by rw [hk]), ?_⟩
    rw [h]; simp

/-- Every move takes area 0 to another region of its neighbours. -/
theorem star_admissible {L : Labels 4} (hinj : ∀ i j : Fin 4, i ≠ 0 → j ≠ 0 → L i = L j → i = j) {v : Fin 4} {r : Int}
    (h : Admissible star4 L v r) : v = 0 ∧ ∃ u, u ≠ 0 ∧ L u = r := by
  obtain ⟨h1, ⟨u, hu, hb⟩, ⟨w, hw, hwv⟩, -⟩ := h
  have hedge : ∀ p q : Fin 4, Borders star4 p q → (p = 0 ∧ q ≠ 0) ∨ (p ≠ 0 ∧ q = 0) := by
    unfold Borders; decide
  rcases hedge u v hb with ⟨rfl, hv⟩ | ⟨hu0, hv⟩
  · exfalso
    by_cases hw0 : w = 0
    · subst hw0
      exact h1 (hwv.symm.trans hu)
    · exact hw (hinj w v hw0 hv hwv)
  · exact ⟨hv, u, hu0, hu⟩

theorem admissible_star {L : Labels 4} (hinj : ∀ i j : Fin 4, i ≠ 0 → j ≠ 0 → L i = L j → i = j)
    (ha : ∃ i : Fin 4, i ≠ 0 ∧ L i = L 0) {u : Fin 4} (hu : u ≠ 0) (hne : L 0 ≠ L u) :
    Admissible star4 L 0 (L u) := by
  obtain ⟨i, hi, hia⟩ := ha
  have hedge : ∀ p : Fin 4, p ≠ 0 → Borders star4 p 0 := by unfold Borders; decide
  refine ⟨hne, ⟨u, rfl, hedge u hu⟩, ⟨i, hi, hia⟩, ⟨i, hia, hi⟩, ?_⟩
  rintro p ⟨hp, hp0⟩ q ⟨hq, hq0⟩
  rw [hinj p q hp0 hq0 (hp.trans hq.symm)]
  exact .refl

theorem star_leaf {L : Labels 4} {a b c : Int} (hab : a ≠ b) (hbc : b ≠ c) (hca : c ≠ a)
    (h1 : ∃ i : Fin 4, i ≠ 0 ∧ L i = a) (h2 : ∃ i : Fin 4, i ≠ 0 ∧ L i = b) (h3 : ∃ i : Fin 4, i ≠ 0 ∧ L i = c)
    {u : Fin 4} (hu : u ≠ 0) : L u = a ∨ L u = b ∨ L u = c := by
  obtain ⟨i, hi, rfl⟩ := h1
  obtain ⟨j, hj, rfl⟩ := h2
  obtain ⟨k, hk, rfl⟩ := h3
  have h4 : i ≠ j := fun h => hab (by rw [h])
  have h5 : j ≠ k := fun h => hbc (by rw [h])
  have h6 : k ≠ i := fun h => hca (by rw [h])
  have : ∀ u i j k : Fin 4, u ≠ 0 → i ≠ 0 → j ≠ 0 → k ≠ 0 → i ≠ j → j ≠ k → k ≠ i → u = i ∨ u = j ∨ u = k := by
    decide
  rcases this u i j k hu hi hj hk h4 h5 h6 with rfl | rfl | rfl <;> simp

/-- There is always an open move … -/
theorem StarTurn.open {len : Option Nat} {x : Search (Fin 4)} (h : StarTurn len x) : ∃ m, Open star4 len x m := by
  obtain ⟨hinj, a, b, c, hab, hbc, hca, h0, ha, ⟨u, hu, rfl⟩, hc, hlen⟩ := h
  refine ⟨⟨0, x.labels 0, x.labels u⟩, rfl,
    admissible_star hinj (by rw [h0]; exact ha) hu (by rw [h0]; exact hab), fun hf => ?_⟩
  rcases hlen with rfl | ⟨hsub, -⟩
  · obtain ⟨i, hi, -⟩ := hf
    omega
  · rw [h0] at hf
    rcases hsub _ (forbidden_mem hf) with h | h | h
    · exact hab (congrArg Shift.old h)
    · exact hca (congrArg Shift.old h).symm
    · exact hbc (congrArg Shift.new h)

/-- … and after it the situation is the same. -/
theorem StarTurn.next {len : Option Nat} {x y : Search (Fin 4)} {m : Shift (Fin 4)} (h : StarTurn len x)
    (hm : Open star4 len x m) (hy : y.barred = x.barred ++ [⟨m.area, m.new, x.labels m.area⟩])
    (hyl : y.labels = moved x.labels m.area m.new) : StarTurn len y := by
  obtain ⟨hinj, a, b, c, hab, hbc, hca, h0, ha, hb, hc, hlen⟩ := h
  obtain ⟨v, o, r⟩ := m
  obtain ⟨ho, hadm, hnf⟩ := hm
  obtain ⟨hv, u, hu, hur⟩ := star_admissible hinj hadm
  dsimp only at *
  subst hv
  subst hur
  have hleaf : ∀ i : Fin 4, i ≠ 0 → y.labels i = x.labels i := by
    intro i hi
    rw [hyl]
    simp [moved, hi]
  have hy0 : y.labels 0 = x.labels u := by rw [hyl]; simp [moved]
  have hex : ∀ z, (∃ i : Fin 4, i ≠ 0 ∧ x.labels i = z) → ∃ i : Fin 4, i ≠ 0 ∧ y.labels i = z := by
    rintro z ⟨i, hi, h⟩
    exact ⟨i, hi, (hleaf i hi).trans h⟩
  refine ⟨fun i j hi hj hij => hinj i j hi hj (by rw [← hleaf i hi, ← hleaf j hj]; exact hij), ?_⟩
  rw [h0] at hy ho
  rcases star_leaf hab hbc hca ha hb hc hu with h | h | h
  · exact absurd (h0.trans h.symm) hadm.1
  · rw [h] at hy hy0
    refine ⟨b, c, a, hbc, hca, hab, hy0, hex _ hb, hex _ hc, hex _ ha, hlen.imp_right fun ⟨hsub, _⟩ => ⟨?_, ?_⟩⟩
    · intro m hm
      rw [hy, List.mem_append, List.mem_singleton] at hm
      rcases hm with hm | rfl
      · rcases hsub m hm with h | h | h
        · exact .inr (.inr h)
        · exact .inl h
        · exact .inr (.inl h)
      · exact .inr (.inr rfl)
    · exact .inr ⟨_, hy⟩
  · rw [h] at hy hy0
    refine ⟨c, b, a, hbc.symm, hab.symm, hca.symm, hy0, hex _ hc, hex _ hb, hex _ ha, ?_⟩
    by_cases hl : len = some 0
    · exact .inl hl
    · right
      obtain ⟨-, hlast⟩ := hlen.resolve_left hl
      rcases hlast with hnil | ⟨l, hl'⟩
      · rw [hnil, List.nil_append] at hy
        refine ⟨fun m hm => ?_, .inr ⟨[], by rw [hy]; rfl⟩⟩
        rw [hy, List.mem_singleton] at hm
        exact .inr (.inr hm)
      · exact absurd (by rw [ho, h]; exact forbidden_last hl hl') hnf

section
variable {σ : Type} {ops : StratOps σ 4} {P : σ → Prop} {may : Labels 4 → Fin 4 → Int → Prop} {len : Option Nat}
  {reps : Int} {init : Labels 4}

theorem star_value (L : Labels 4) : (pairwise manhattan).call L (column fun _ : Fin 4 => 0) = 0 := by
  change pairwiseCall _ _ _ = 0
  rw [pairwiseCall_eq]
  simp [manhattan, column, withinPairs]

/-- The loop does not end. -/
theorem starTurn_loop (hR : Rules star4 manhattan (column fun _ => 0) ops P may) (hmay : ∀ L r, may L 0 r) :
    ∀ (F : Nat) {x : Search (Fin 4)} {s : TabuState σ 4}, Shows len x s.plain → TabuInv star4 P init s →
      StarTurn len x →
      basicLoop ops (pairwise manhattan) (column fun _ => 0) star4 reps F s = .timeout
  | 0, _, _, _, _, _ => rfl
  | F + 1, x, s, hx, hi, ht => by
    have hd := manhattan_dissimilarity (m := 1)
    have hi' : TabuInv star4 P init (noteVisit reps s) := ⟨hi.cont, hi.image, hi.tabu, hi.strat⟩
    have ht' : StarTurn len (noted reps x) := ht
    have hx' : Shows len (noted reps x) (noteVisit reps s).plain := hx.note reps
    unfold basicLoop
    rcases basicRound_may hd.symm hd.zero hd.nonneg hR star4_symm hx' hi' with
      ⟨-, y, t, ⟨m, hbest, -, -, hsent⟩, hsy, hti, hr⟩ | ⟨hno, -, b, t, hb, -, -, -⟩
    · rw [show noteVisit reps s = { noteVisit reps s with rng := (noteVisit reps s).rng } from rfl, hr, Res.bind_ok]
      dsimp only
      rw [if_neg (by simp)]
      refine starTurn_loop hR hmay F (hsy.rng _) ⟨hti.cont, hti.image, hti.tabu, hti.strat⟩
        (ht'.next hbest.1 hsent.1 (hsent.2.2.2.1 ?_))
      refine moved_contiguous ?_ hbest.1.2.1
      have hl : s.labels = x.labels := hx.labels
      have := hi.cont
      rw [hl] at this
      exact this
    · exfalso
      obtain ⟨m, hm⟩ := ht'.open
      rcases b with _ | ⟨j, m', d⟩
      · exact hb m hm
      · have hbest := hb.1
        obtain ⟨h0, -⟩ := star_admissible ht'.1 hbest.1.2.1
        rcases hno _ hbest with h | h
        · dsimp only at h
          rw [star_value, star_value] at h
          exact lt_irrefl _ h
        · rw [h0] at h
          exact h (hmay _ _)

theorem starTurn_component (hR : Rules star4 manhattan (column fun _ => 0) ops P may) (hmay : ∀ L r, may L 0 r)
    (hc : AllContiguous star4 init) (ht : StarTurn len ⟨init, [], [], False⟩) (F : Nat) {st : σ} (hst : P st)
    (rng : Rng) :
    basicComponent ops (pairwise manhattan) (column fun _ => 0) star4 len reps F init st rng = .timeout := by
  unfold basicComponent
  rw [if_neg, starTurn_loop (len := len) hR hmay F (shows_begin st rng) ⟨hc, fun x => Iff.rfl, by simp, hst⟩ ht]
  · rfl
  · intro h
    have := (uniqueSorted_one (by norm_num)).1 h
    obtain ⟨-, a, b, c, hab, -, -, h0, -, ⟨u, -, hu⟩, -⟩ := ht
    exact hab (h0.symm.trans ((this 0 u).trans hu))

end

end Region
