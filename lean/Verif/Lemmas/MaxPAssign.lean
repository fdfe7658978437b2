import Verif.Lemmas.MaxPGrow
/-
Lemmas about `assign_enclaves`.
-/
namespace Region

open Spec Relation

section
variable {n : Nat} {ρ : Type} (metric : ρ → ρ → ℚ) (adj : Adj n) (attr : Fin n → ρ)

theorem neighRegions_spec (P : List (List (Fin n))) (vs : List (Fin n)) :
    ∃ idxs, neighRegions P vs = .ok idxs ∧
      ∀ i, i ∈ idxs ↔ ∃ v ∈ vs, findSublistIdx v P 0 = .ok i := by
  induction vs with
  | nil => exact ⟨[], rfl, by simp⟩
  | cons v vs ih =>
    obtain ⟨rest, h1, h2⟩ := ih
    rcases findSublistIdx_spec v P 0 with ⟨k, hk, _, _, h3, _⟩ | ⟨_, h3, _⟩
    · refine ⟨(0 + k) :: rest, by unfold neighRegions; rw [h3]; dsimp only; rw [h1]; rfl, ?_⟩
      intro i
      rw [List.mem_cons, h2]
      constructor
      · rintro (rfl | ⟨w, hw, he⟩)
        · exact ⟨v, by simp, h3⟩
        · exact ⟨w, by simp [hw], he⟩
      · rintro ⟨w, hw, he⟩
        rcases List.mem_cons.1 hw with rfl | hw
        · left; rw [h3] at he; cases he; rfl
        · exact Or.inr ⟨w, hw, he⟩
    · refine ⟨rest, by unfold neighRegions; rw [h3]; exact h1, ?_⟩
      intro i
      rw [h2]
      constructor
      · rintro ⟨w, hw, he⟩
        exact ⟨w, by simp [hw], he⟩
      · rintro ⟨w, hw, he⟩
        rcases List.mem_cons.1 hw with rfl | hw
        · rw [h3] at he; cases he
        · exact ⟨w, hw, he⟩

theorem findBestRegionIdx_spec {area : Fin n} {P : List (List (Fin n))} {idxs : List Nat}
    (h : idxs ≠ []) (r : Rng) :
    ∃ i ∈ idxs, findBestRegionIdx metric attr area P idxs r = .ok (i, r.next) ∧
      ∀ j ∈ idxs, dissimTo metric attr area (P.getD i []) ≤
        dissimTo metric attr area (P.getD j []) := by
  have hne : idxs.eraseDups ≠ [] := by
    obtain ⟨x, hx⟩ := List.exists_mem_of_ne_nil _ h
    exact List.ne_nil_of_mem (List.mem_eraseDups.2 hx)
  obtain ⟨m, hm⟩ := exists_min?
    (l := idxs.eraseDups.map fun i => dissimTo metric attr area (P.getD i [])) (by simpa using hne)
  obtain ⟨h1, h2⟩ := min?_le hm
  obtain ⟨a, ha, hav⟩ := List.mem_map.1 h1
  unfold findBestRegionIdx
  dsimp only
  rw [hm]
  dsimp only
  obtain ⟨x, hx, he⟩ := randomElementFrom_ne_nil
    (lst := idxs.eraseDups.filter fun i => decide (dissimTo metric attr area (P.getD i []) = m))
    (List.ne_nil_of_mem (List.mem_filter.2 ⟨ha, by simpa using hav⟩)) r
  obtain ⟨hx1, hx2⟩ := List.mem_filter.1 hx
  have hx2 : dissimTo metric attr area (P.getD x []) = m := by simpa using hx2
  refine ⟨x, List.mem_eraseDups.1 hx1, he, ?_⟩
  intro c hc
  rw [hx2]
  exact h2 _ (List.mem_map.2 ⟨c, List.mem_eraseDups.2 hc, rfl⟩)

theorem findBestRegionIdx_nil (area : Fin n) (P : List (List (Fin n))) (r : Rng) :
    findBestRegionIdx metric attr area P [] r =
      .raise (.valueError "min() arg is an empty sequence") := by
  unfold findBestRegionIdx
  simp

theorem flatten_modify_perm {α : Type} (a : α) :
    ∀ (P : List (List α)) (i : Nat), i < P.length →
      (P.modify i (· ++ [a])).flatten.Perm (a :: P.flatten) := by
  intro P
  induction P with
  | nil => intro i h; simp at h
  | cons p P ih =>
    intro i h
    cases i with
    | zero =>
      simp only [List.modify_zero_cons, List.flatten_cons, List.append_assoc, List.singleton_append]
      exact List.perm_middle
    | succ i =>
      simp only [List.modify_succ_cons, List.flatten_cons]
      have h1 := (ih i (by simpa using h)).append_left p
      exact h1.trans List.perm_middle

/-- A partial partition: disjoint contiguous regions with property `G` and the remaining areas. -/
structure Partial (G : List (Fin n) → Prop) (P : List (List (Fin n))) (E : List (Fin n)) :
    Prop where
  perm : (P.flatten ++ E).Perm (List.finRange n)
  contiguous : ∀ reg ∈ P, Contiguous adj {v | v ∈ reg}
  good : ∀ reg ∈ P, G reg

/-- The regions have only grown. -/
def Extends {n : Nat} (P P' : List (List (Fin n))) : Prop :=
  P'.length = P.length ∧ ∀ i (h : i < P.length) (h' : i < P'.length), P[i] ⊆ P'[i]

theorem Extends.refl (P : List (List (Fin n))) : Extends P P :=
  ⟨rfl, fun _ _ _ _ h => h⟩

theorem Extends.trans {P P' P'' : List (List (Fin n))} (h : Extends P P') (h' : Extends P' P'') :
    Extends P P'' := by
  refine ⟨h'.1.trans h.1, ?_⟩
  intro i h1 h2
  have h3 : i < P'.length := by rw [h.1]; exact h1
  exact List.Subset.trans (h.2 i h1 h3) (h'.2 i h3 h2)

theorem path_leaves {V : Type} {r : V → V → Prop} {S : V → Prop} {a b : V}
    (h : ReflTransGen r a b) (ha : S a) (hb : ¬ S b) : ∃ x y, S x ∧ ¬ S y ∧ r x y := by
  induction h with
  | refl => exact absurd ha hb
  | tail _ hs ih =>
    rename_i c d _
    by_cases hc : S c
    · exact ⟨c, d, hc, hb, hs⟩
    · exact ih hc

/-- Joining an area to region `i`. -/
theorem Partial.addTo {G : List (Fin n) → Prop} {P : List (List (Fin n))} {E : List (Fin n)}
    (hp : Partial adj G P E) {a : Fin n} (haE : a ∈ E) {i : Nat} (hk : i < P.length) :
    Region.addTo P i a = .ok (P.modify i (· ++ [a])) := by
  have hnd : (P.flatten ++ E).Nodup := hp.perm.nodup_iff.2 (List.nodup_finRange n)
  have haP : ∀ reg ∈ P, a ∉ reg := fun reg hreg h =>
    (List.nodup_append.1 hnd).2.2 a (List.mem_flatten.2 ⟨reg, hreg, h⟩) a haE rfl
  unfold Region.addTo
  rw [if_pos hk]
  congr 1
  apply List.ext_getElem
  · simp
  · intro j h1 h2
    rw [List.getElem_modify, List.getElem_modify]
    split_ifs with h3 h4
    · exact absurd (by simpa using h4) (haP _ (List.getElem_mem _))
    · rfl
    · rfl

theorem Partial.join {G : List (Fin n) → Prop} (hG : ∀ reg a, G reg → G (reg ++ [a]))
    {P : List (List (Fin n))} {E : List (Fin n)}
    (hp : Partial adj G P E) {a : Fin n} (haE : a ∈ E) {i : Nat} (hk : i < P.length) {w : Fin n}
    (hwi : w ∈ P[i]) (hwa : Borders adj w a) : Partial adj G (P.modify i (· ++ [a])) (E.erase a) := by
  have hmem : ∀ reg ∈ P.modify i (· ++ [a]), reg ∈ P ∨ reg = P[i] ++ [a] := by
    intro reg hreg
    obtain ⟨j, hj, rfl⟩ := List.mem_iff_getElem.1 hreg
    rw [List.getElem_modify]
    split_ifs with h
    · subst h; exact Or.inr rfl
    · exact Or.inl (List.getElem_mem _)
  refine ⟨?_, ?_, ?_⟩
  · have h1 := (flatten_modify_perm a P i hk).append_right (E.erase a)
    have h2 : (a :: P.flatten ++ E.erase a).Perm (P.flatten ++ a :: E.erase a) :=
      List.perm_middle.symm
    have h3 := (List.perm_cons_erase haE).symm.append_left P.flatten
    exact h1.trans (h2.trans (h3.trans hp.perm))
  · intro reg hreg
    rcases hmem reg hreg with h | rfl
    · exact hp.contiguous reg h
    · exact contiguous_append adj (hp.contiguous _ (List.getElem_mem _)) hwi hwa
  · intro reg hreg
    rcases hmem reg hreg with h | rfl
    · exact hp.good reg h
    · exact hG _ _ (hp.good _ (List.getElem_mem _))

theorem assignLoop_post (hs : Symmetric adj) {G : List (Fin n) → Prop}
    (hG : ∀ reg a, G reg → G (reg ++ [a])) {R : Prop} :
    ∀ (fuel : Nat) (P : List (List (Fin n))) (E : List (Fin n)) (r : Rng),
      Partial adj G P E → E.length ≤ fuel →
      (¬ R → ∀ e, ∃ u ∈ P.flatten, SameIsland adj e u) →
      (assignLoop metric adj attr fuel P E r).Post R False fun p =>
        Partial adj G p.1 [] ∧ Extends P p.1 := by
  intro fuel
  induction fuel with
  | zero =>
    intro P E r hp hf _
    have : E = [] := by simpa using hf
    subst this
    unfold assignLoop
    exact ⟨hp, .refl P⟩
  | succ fuel ih =>
    intro P E r hp hf hR
    cases hE : E with
    | nil => unfold assignLoop; subst hE; exact ⟨hp, .refl P⟩
    | cons e es =>
      unfold assignLoop
      dsimp only
      rw [← hE]
      generalize hN : (E.filter fun area => (neighbors adj area).any fun v => !E.contains v) = N
      by_cases hNe : N = []
      · rw [hNe]
        have : R := by
          by_contra hcon
          obtain ⟨u, hu, hi⟩ := hR hcon e
          have hnd : (P.flatten ++ E).Nodup := hp.perm.nodup_iff.2 (List.nodup_finRange n)
          have huE : u ∉ E := fun h => (List.nodup_append.1 hnd).2.2 u hu u h rfl
          obtain ⟨x, y, hx, hy, hxy⟩ := path_leaves (S := fun v => v ∈ E) hi
            (by rw [hE]; simp) huE
          have : x ∈ N := by
            rw [← hN, List.mem_filter]
            refine ⟨hx, List.any_eq_true.2 ⟨y, mem_neighbors.2 ((borders_iff hs).1 hxy), ?_⟩⟩
            simpa using hy
          rw [hNe] at this; cases this
        unfold popRandomlyFrom randrange
        exact this
      · obtain ⟨pos, hpos, hpop⟩ := popRandomlyFrom_ne_nil hNe r
        rw [hpop, Res.bind_ok]
        dsimp only
        generalize ha : N[pos] = a
        have haN : a ∈ N := by rw [← ha]; exact List.getElem_mem hpos
        rw [← hN, List.mem_filter] at haN
        obtain ⟨haE, hv⟩ := haN
        obtain ⟨v, hv1, hv2⟩ := List.any_eq_true.1 hv
        have hvE : v ∉ E := by simpa using hv2
        have hvP : v ∈ P.flatten := by
          have := hp.perm.mem_iff.2 (List.mem_finRange v)
          rcases List.mem_append.1 this with h | h
          · exact h
          · exact absurd h hvE
        obtain ⟨idxs, hi1, hi2⟩ := neighRegions_spec P (neighbors adj a)
        rw [hi1, Res.bind_ok]
        have hne : idxs ≠ [] := by
          rcases findSublistIdx_spec v P 0 with ⟨k, hk, _, _, h3, _⟩ | ⟨h3, _⟩
          · exact List.ne_nil_of_mem ((hi2 _).2 ⟨v, hv1, h3⟩)
          · obtain ⟨reg, hreg, hvr⟩ := List.mem_flatten.1 hvP
            exact absurd hvr (h3 reg hreg)
        obtain ⟨i, hi, hbest, _⟩ := findBestRegionIdx_spec metric attr (area := a) (P := P) hne
          r.next
        rw [hbest, Res.bind_ok]
        dsimp only
        obtain ⟨w, hw1, hw2⟩ := (hi2 i).1 hi
        have hik : ∃ hk : i < P.length, w ∈ P[i] := by
          rcases findSublistIdx_spec w P 0 with ⟨k, hk, h1, _, h3, _⟩ | ⟨_, h3, _⟩
          · rw [hw2] at h3
            have : i = k := by
              have := Res.ok.inj h3
              omega
            subst this
            exact ⟨hk, h1⟩
          · rw [hw2] at h3; cases h3
        obtain ⟨hk, hwi⟩ := hik
        rw [hp.addTo adj haE hk, Res.bind_ok, listRemove_of_mem haE, Res.bind_ok]
        have hext : Extends P (P.modify i (· ++ [a])) := by
          refine ⟨by simp, ?_⟩
          intro j h1 h2 x hx
          rw [List.getElem_modify]
          split_ifs
          · simp [hx]
          · exact hx
        have hp' := hp.join adj hG haE hk hwi (Or.inr (mem_neighbors.1 hw1))
        have hlen : (E.erase a).length ≤ fuel := by
          rw [List.length_erase_of_mem haE]
          have : 0 < E.length := List.length_pos_of_mem haE
          omega
        apply (ih (P.modify i (· ++ [a])) (E.erase a) r.next.next hp' hlen ?_).mono id id
        · rintro p ⟨h1, h2⟩
          exact ⟨h1, hext.trans h2⟩
        · intro hr e
          obtain ⟨u, hu, hi⟩ := hR hr e
          exact ⟨u, (flatten_modify_perm a P i hk).mem_iff.2 (by simp [hu]), hi⟩

/-- The labels made from a complete partition. -/
theorem labelsOfPartition_spec {P : List (List (Fin n))} (hp : P.flatten.Perm (List.finRange n)) :
    ∃ L : Labels n, labelsOfPartition P = .ok L ∧
      ∀ v, ∃ i, ∃ h : i < P.length, L v = i ∧ ∀ u, L u = L v ↔ u ∈ P[i] := by
  have hperm : (P.map fun reg => reg.map Fin.val).flatten.Perm (List.range n) := by
    rw [← List.map_flatten]
    have := hp.map Fin.val
    rw [List.map_coe_finRange_eq_range] at this
    exact this
  generalize hR : (P.map fun reg => reg.map Fin.val) = R at hperm
  have hRlen : R.length = P.length := by rw [← hR]; simp
  have hlen : (R.map List.length).sum = n := by
    have := hperm.length_eq
    simpa [List.length_flatten] using this
  have hmem : ∀ a, a ∈ R.flatten ↔ a < n := fun a => by rw [hperm.mem_iff, List.mem_range]
  obtain ⟨labels, h1, h2, _, h4⟩ := fillRegions_spec R 0 (List.replicate n 0) (by
    intro reg hreg a ha
    rw [List.length_replicate, ← hmem]
    exact List.mem_flatten.2 ⟨reg, hreg, ha⟩) (hperm.nodup_iff.2 List.nodup_range)
  rw [List.length_replicate] at h2
  have hok : arrayFromRegionList R = .ok labels := by unfold arrayFromRegionList; rw [hlen]; exact h1
  refine ⟨fun i => ((labels.get ⟨i.val, by omega⟩ : Nat) : Int), ?_, ?_⟩
  · unfold labelsOfPartition
    rw [hR, hok, Res.bind_ok, dif_pos h2]
  have key : ∀ (v : Fin n) (i : Nat) (h : i < P.length), v ∈ P[i] →
      labels.get ⟨v.val, by omega⟩ = i := by
    intro v i h hv
    have := h4 i (by omega) v.val (by
      subst hR
      simp only [List.getElem_map, List.mem_map]
      exact ⟨v, hv, rfl⟩)
    rw [List.getElem?_eq_some_iff] at this
    obtain ⟨_, h5⟩ := this
    rw [Nat.zero_add] at h5
    simpa using h5
  intro v
  obtain ⟨reg, hreg, hv⟩ := List.mem_flatten.1 (hp.mem_iff.2 (List.mem_finRange v))
  obtain ⟨i, hi, rfl⟩ := List.mem_iff_getElem.1 hreg
  refine ⟨i, hi, by dsimp only; rw [key v i hi hv], ?_⟩
  intro u
  dsimp only
  rw [key v i hi hv]
  constructor
  · intro hu
    obtain ⟨reg, hreg, hu'⟩ := List.mem_flatten.1 (hp.mem_iff.2 (List.mem_finRange u))
    obtain ⟨k, hk, rfl⟩ := List.mem_iff_getElem.1 hreg
    rw [key u k hk hu'] at hu
    have : k = i := by exact_mod_cast hu
    subst this
    exact hu'
  · intro hu
    rw [key u i hi hu]

end

end Region
