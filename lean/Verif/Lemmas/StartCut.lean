import Verif.Lemmas.InitialSol
import Verif.Lemmas.AzpExact
import Verif.SpecStart
/-
Lemmas: what `_randomly_divide_connected_graph` and `distribute_regions_among_components` can return.
-/
namespace Region
open Spec

/-! ### _randomly_divide_connected_graph -/

theorem randomElementFrom_any {α : Type} {lst : List α} {x : α} (hx : x ∈ lst) (r : Rng) :
    ∃ r0, randomElementFrom lst r0 = .ok (x, r) := by
  obtain ⟨pos, hpos, rfl⟩ := List.mem_iff_getElem.1 hx
  refine ⟨Rng.cons pos r, ?_⟩
  unfold randomElementFrom
  rw [randrange_pos (by omega)]
  simp [Rng.cons_zero, Rng.cons_next, Nat.mod_eq_of_lt hpos, hpos]

/-- Drawing the same link five times selects it. -/
theorem tryLinks_any {n : Nat} (hn : 0 < n) {mst : List (Fin n × Fin n)} {e : Fin n × Fin n} (he : e ∈ mst)
    (t : Nat) (r : Rng) : ∃ s r0, tryLinks mst (t + 1) none r0 = .ok (some (e, s), r) := by
  obtain ⟨s, hs⟩ := maxComponentSize_isSome hn (adjOf (mst.erase e))
  have key : ∀ t, ∀ r, ∃ r0, tryLinks mst t (some (e, s)) r0 = .ok (some (e, s), r) := by
    intro t
    induction t with
    | zero => exact fun r => ⟨r, rfl⟩
    | succ t ih =>
      intro r
      obtain ⟨r1, h1⟩ := ih r
      obtain ⟨r0, h0⟩ := randomElementFrom_any he r1
      refine ⟨r0, ?_⟩
      unfold tryLinks
      rw [h0]
      simp only [Res.bind_ok, hs, lt_irrefl, if_false]
      exact h1
  obtain ⟨r1, h1⟩ := key t r
  obtain ⟨r0, h0⟩ := randomElementFrom_any he r1
  refine ⟨s, r0, ?_⟩
  unfold tryLinks
  rw [h0]
  simp only [Res.bind_ok, hs]
  exact h1

theorem tryLinks_mem {n : Nat} {mst : List (Fin n × Fin n)} : ∀ {t : Nat}
    {best : Option ((Fin n × Fin n) × Nat)} {r r' : Rng} {b : (Fin n × Fin n) × Nat},
    (∀ b, best = some b → b.1 ∈ mst) → tryLinks mst t best r = .ok (some b, r') → b.1 ∈ mst := by
  intro t
  induction t with
  | zero => intro best r r' b hb h; cases h; exact hb _ rfl
  | succ t ih =>
    intro best r r' b hb h
    unfold tryLinks at h
    rw [Res.bind_eq_ok] at h
    obtain ⟨⟨link, r1⟩, h1, h2⟩ := h
    have hl := (randomElementFrom_ok h1).1
    dsimp only at h2 hl
    split at h2
    · cases h2
    · refine ih ?_ h2
      intro b hb'
      split at hb'
      · cases hb'; exact hl
      · rename_i l s'
        split_ifs at hb'
        · cases hb'; exact hl
        · cases hb'; exact hb (l, s') rfl

theorem cutLinks_sound {n : Nat} : ∀ {k : Nat} {mst K : List (Fin n × Fin n)} {r r' : Rng},
    cutLinks k mst r = .ok (K, r') → K.Sublist mst ∧ K.length + k = mst.length := by
  intro k
  induction k with
  | zero => intro mst K r r' h; cases h; exact ⟨.refl _, rfl⟩
  | succ k ih =>
    intro mst K r r' h
    unfold cutLinks at h
    rw [Res.bind_eq_ok] at h
    obtain ⟨⟨best, r1⟩, h1, h2⟩ := h
    cases best with
    | none => cases h2
    | some b =>
      have hb := tryLinks_mem (by simp) h1
      obtain ⟨h3, h4⟩ := ih h2
      refine ⟨h3.trans List.erase_sublist, ?_⟩
      have := List.length_pos_of_mem hb
      rw [List.length_erase_of_mem hb] at h4
      omega

theorem cutLinks_complete {n : Nat} (hn : 0 < n) : ∀ {k : Nat} {mst K : List (Fin n × Fin n)},
    mst.Nodup → K.Sublist mst → K.length + k = mst.length →
    ∀ r', ∃ r0, cutLinks k mst r0 = .ok (K, r') := by
  intro k
  induction k with
  | zero =>
    intro mst K _ hK hl r'
    have := hK.eq_of_length (by omega)
    subst this
    exact ⟨r', rfl⟩
  | succ k ih =>
    intro mst K hnd hK hl r'
    have : ∃ e ∈ mst, e ∉ K := by
      by_contra hall
      push Not at hall
      have := (List.subperm_of_subset hnd hall).length_le
      omega
    obtain ⟨e, he, heK⟩ := this
    have h1 : K.Sublist (mst.erase e) := by
      have := hK.erase e
      rwa [List.erase_of_not_mem heK] at this
    obtain ⟨r1, hr1⟩ := ih (hnd.erase e) h1 (by rw [List.length_erase_of_mem he]; omega) r'
    obtain ⟨s, r0, hr0⟩ := tryLinks_any hn he 4 r1
    refine ⟨r0, ?_⟩
    unfold cutLinks
    rw [hr0]
    exact hr1

section
variable (o : MstOrder) {n : Nat} {adj : Adj n}

theorem randomlyDivide_sound (hc : Connected adj) {k : Int} {labs : Fin n → Nat} {r r' : Rng}
    (h : randomlyDivide o adj k r = .ok (labs, r')) :
    ∃ K, K.Sublist (o.mst adj) ∧ (K.length : Int) + k = n ∧ labs = compLabels (adjOf K) := by
  have h5 := (mst_spec o adj).2.2.2.2
  rw [(nComponents_eq_one_iff adj).2 hc] at h5
  unfold randomlyDivide at h
  split_ifs at h
  rw [Res.bind_eq_ok] at h
  obtain ⟨⟨K, r1⟩, h1, h2⟩ := h
  cases h2
  obtain ⟨h3, h4⟩ := cutLinks_sound h1
  exact ⟨K, h3, by omega, rfl⟩

theorem randomlyDivide_complete (hc : Connected adj) {k : Int} (hk1 : 1 ≤ k) (hkn : k ≤ n)
    {K : List (Fin n × Fin n)} (hK : K.Sublist (o.mst adj)) (hl : (K.length : Int) + k = n) (r' : Rng) :
    ∃ r0, randomlyDivide o adj k r0 = .ok (compLabels (adjOf K), r') := by
  obtain ⟨h1, -, -, -, h5⟩ := mst_spec o adj
  rw [(nComponents_eq_one_iff adj).2 hc] at h5
  obtain ⟨r0, h⟩ := cutLinks_complete (by omega) h1.1 hK (k := (k - 1).toNat) (by omega) r'
  refine ⟨r0, ?_⟩
  unfold randomlyDivide
  rw [if_neg (by omega), if_neg (by omega), h]
  rfl

end

/-! ### distribute_regions_among_components -/

theorem sum_map_range {M : Type} [AddCommMonoid M] (f : Nat → M) (C : Nat) :
    ((List.range C).map f).sum = ∑ c ∈ Finset.range C, f c := by
  induction C with
  | zero => simp
  | succ C ih => rw [List.range_succ, List.map_append, List.sum_append, ih, Finset.sum_range_succ]; simp

theorem distributeRest_any : ∀ (picks lst : List Nat) (d : IntDict),
    (∀ c, picks.count c ≤ lst.count c) → (∀ c ∈ picks, ∃ v, d.get c = some v) →
    ∃ d' : IntDict, d'.keys = d.keys ∧ (∀ c, d'.get c = (d.get c).map (· + (picks.count c : Int))) ∧
      ∀ r', ∃ r0, distributeRest picks.length lst d r0 = .ok (d', r') := by
  intro picks
  induction picks with
  | nil =>
    intro lst d _ _
    exact ⟨d, rfl, fun c => by simp, fun r' => ⟨r', rfl⟩⟩
  | cons c picks ih =>
    intro lst d hle hget
    have hmem : c ∈ lst := by
      rw [← List.count_pos_iff]
      have := hle c
      rw [List.count_cons_self] at this
      omega
    obtain ⟨pos, hpos, hc⟩ := List.mem_iff_getElem.1 hmem
    obtain ⟨v, hv⟩ := hget c (by simp)
    set d1 : IntDict := { d with get := fun x => if x = c then some (v + 1) else d.get x } with hd1
    have hincr : d.incr c = .ok d1 := by simp [IntDict.incr, hv, hd1]
    obtain ⟨d', h1, h2, h3⟩ := ih (lst.eraseIdx pos) d1
      (by
        intro x
        have hperm := List.getElem_cons_eraseIdx_perm hpos
        have := hle x
        rw [← hperm.count_eq x, hc, List.count_cons, List.count_cons] at this
        omega)
      (by
        intro x hx
        by_cases hxc : x = c
        · exact ⟨v + 1, by simp [hd1, hxc]⟩
        · obtain ⟨w, hw⟩ := hget x (by simp [hx])
          exact ⟨w, by simp [hd1, hxc, hw]⟩)
    refine ⟨d', h1, ?_, ?_⟩
    · intro x
      rw [h2 x]
      by_cases hxc : x = c
      · subst hxc
        simp only [hd1, if_true, Option.map_some, hv, List.count_cons_self]
        push_cast; congr 1; ring
      · simp only [hd1, hxc, if_false]
        rw [List.count_cons_of_ne (fun h => hxc h.symm)]
    · intro r'
      obtain ⟨r1, hr1⟩ := h3 r'
      refine ⟨Rng.cons pos r1, ?_⟩
      rw [List.length_cons]
      unfold distributeRest
      rw [popRandomlyFrom_any lst pos hpos r1, Res.bind_ok, hc]
      dsimp only
      rw [hincr, Res.bind_ok]
      exact hr1

/-- Every distribution giving each component at least one region and at most one per area is possible. -/
theorem distributeRegions_complete {L : List Nat} {p : Int} {C : Nat} (hL : uniqueSorted L = List.range C)
    (hC : 0 < C) {k : Nat → Int} (hk : ∀ c, c < C → 1 ≤ k c ∧ k c ≤ L.count c)
    (hp : ∑ c ∈ Finset.range C, k c = p) :
    ∃ d : IntDict, d.keys = List.range C ∧ (∀ c, c < C → d.get c = some (k c)) ∧
      ∀ r', ∃ r0, distributeRegions L p r0 = .ok (d, r') := by
  unfold distributeRegions
  rw [hL]
  dsimp only
  rw [List.length_range]
  by_cases h1 : C = 1
  · subst h1
    simp only [if_true]
    refine ⟨_, rfl, ?_, fun r' => ⟨r', rfl⟩⟩
    intro c hc
    have : c = 0 := by omega
    subst this
    simp only [if_true]
    rw [← hp]; simp
  · simp only [h1, if_false]
    obtain ⟨g1, g2, g3, g4, g5, g6⟩ := distributeFirst_spec (List.range C) L
      { keys := [], get := fun _ => none } List.nodup_range (by simp)
    simp only [List.nil_append] at g1
    set picks := (List.range C).flatMap fun c => List.replicate (k c - 1).toNat c with hpicks
    have hcount : ∀ c, picks.count c = if c < C then (k c - 1).toNat else 0 := by
      intro c
      rw [hpicks, List.count_flatMap]
      have : (List.range C).map (List.count c ∘ fun c => List.replicate (k c - 1).toNat c) =
          (List.range C).map fun x => if x = c then (k c - 1).toNat else 0 := by
        apply List.map_congr_left
        intro x _
        by_cases hxc : x = c
        · subst hxc; simp
        · simp [hxc, List.count_replicate]
      rw [this]
      rw [sum_map_range, Finset.sum_ite_eq']
      simp
    have hlen : (picks.length : Int) = p - C := by
      rw [hpicks, List.length_flatMap]
      simp only [List.length_replicate]
      rw [sum_map_range, ← hp, Nat.cast_sum]
      rw [Finset.sum_congr rfl (g := fun c => k c - 1) fun c hc => ?_]
      · simp
      · have := (hk c (Finset.mem_range.1 hc)).1
        omega
    obtain ⟨d, h1, h2, h3⟩ := distributeRest_any picks
      (distributeFirst (List.range C) L { keys := [], get := fun _ => none }).1
      (distributeFirst (List.range C) L { keys := [], get := fun _ => none }).2
      (by
        intro c
        rw [hcount]
        split_ifs with hc
        · rw [g4 c (List.mem_range.2 hc)]
          have := hk c hc
          omega
        · omega)
      (by
        intro c hc
        have : c < C := by
          by_contra hC
          have := hcount c
          rw [if_neg hC] at this
          exact (List.count_pos_iff.2 hc).ne' this
        exact ⟨1, g2 c (List.mem_range.2 this)⟩)
    refine ⟨d, by rw [h1, g1], ?_, ?_⟩
    · intro c hc
      rw [h2, g2 c (List.mem_range.2 hc), hcount, if_pos hc, Option.map_some]
      have := hk c hc
      congr 1
      omega
    · intro r'
      obtain ⟨r0, h⟩ := h3 r'
      refine ⟨r0, ?_⟩
      rw [← h]
      congr 1
      omega

end Region
