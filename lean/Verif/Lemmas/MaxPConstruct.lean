import Mathlib.Data.Finset.Dedup
import Verif.SpecMaxp
import Verif.Lemmas.MaxPAssign
import Verif.Lemmas.StartCut
/-
All results of `grow_regions` and `assign_enclaves`.
-/
namespace Region

open Spec

section
variable {n q : Nat} {ρ : Type} (metric : ρ → ρ → ℚ) (adj : Adj n) (attr : Fin n → ρ)
  (spat : Fin n → Fin q → ℚ) (thr : Fin q → ℚ)

/-- The dissimilarities of the specification. -/
abbrev dist (a b : Fin n) : ℚ := metric (attr a) (attr b)

theorem dissimTo_eq {reg : List (Fin n)} (h : reg.Nodup) (a : Fin n) :
    dissimTo metric attr a reg = distTo (dist metric attr) a reg.toFinset := by
  unfold dissimTo distTo
  rw [List.sum_toFinset _ h]

theorem reaches_toFinset {reg : List (Fin n)} (h : reg.Nodup) :
    Reaches spat thr reg.toFinset ↔ ∀ j, thr j ≤ colSum spat reg j := by
  unfold Reaches colSum
  refine forall_congr' fun j => ?_
  rw [List.sum_toFinset _ h]

/-- The state of the inner loop of `grow_regions`. -/
structure Growing (F E region cands : List (Fin n)) (s : Fin q → ℚ) (U A : List (Fin n)) : Prop where
  all : ∀ v, v ∈ F ∨ v ∈ E ∨ v ∈ region ∨ v ∈ U
  nodup : (region ++ U).Nodup
  apart : ∀ u ∈ region ++ U, u ∉ F
  far : ∀ u ∈ region ++ U, ∀ e ∈ E, adj u e = false
  assigned : A.Perm (F ++ region)
  sum : ∀ j, s j = colSum spat region j
  border : ∀ v, v ∈ cands ↔ v ∉ A ∧ ∃ a ∈ region, adj a v = true
  candsNodup : cands.Nodup

variable {metric adj attr spat thr}
variable {F E region cands U A : List (Fin n)} {s : Fin q → ℚ}

theorem touches_iff (hs : Symmetric adj) (reg : List (Fin n)) (v : Fin n) :
    Touches adj reg.toFinset v ↔ ∃ a ∈ reg, adj a v = true := by
  unfold Touches
  simp only [List.mem_toFinset]
  exact ⟨fun ⟨u, h1, h2⟩ => ⟨u, h1, (borders_iff hs).1 h2⟩, fun ⟨u, h1, h2⟩ => ⟨u, h1, Or.inl h2⟩⟩

theorem Growing.mem (hs : Symmetric adj) (h : Growing adj spat F E region cands s U A) (v : Fin n) :
    v ∈ cands ↔ v ∈ U ∧ Touches adj region.toFinset v := by
  rw [h.border, touches_iff hs]
  constructor
  · rintro ⟨h1, a, ha, hav⟩
    refine ⟨?_, a, ha, hav⟩
    rcases h.all v with h2 | h2 | h2 | h2
    · exact absurd (h.assigned.mem_iff.2 (by simp [h2])) h1
    · rw [h.far a (by simp [ha]) v h2] at hav; cases hav
    · exact absurd (h.assigned.mem_iff.2 (by simp [h2])) h1
    · exact h2
  · rintro ⟨h1, h2⟩
    refine ⟨fun h3 => ?_, h2⟩
    rcases List.mem_append.1 (h.assigned.mem_iff.1 h3) with h4 | h4
    · exact h.apart v (by simp [h1]) h4
    · exact (List.nodup_append.1 h.nodup).2.2 v h4 v h1 rfl

theorem Growing.step (hs : Symmetric adj) (hloop : ∀ v, adj v v = false)
    (h : Growing adj spat F E region cands s U A) {b : Fin n} (hb : b ∈ cands) :
    b ∈ U ∧ Growing adj spat F E (region ++ [b])
      ((List.finRange n).filter fun v => ((cands.erase b).contains v || adj b v) && !A.contains v)
      (fun j => s j + spat b j) (U.erase b) (A ++ [b]) := by
  have hbU := ((h.mem hs b).1 hb).1
  have hperm : (region ++ [b] ++ U.erase b).Perm (region ++ U) := by
    rw [List.append_assoc]
    exact List.Perm.append_left region (List.perm_cons_erase hbU).symm
  refine ⟨hbU, ⟨?_, hperm.nodup_iff.2 h.nodup, fun u hu => h.apart u (hperm.mem_iff.1 hu),
    fun u hu => h.far u (hperm.mem_iff.1 hu), ?_, ?_, ?_, (List.nodup_finRange n).filter _⟩⟩
  · intro v
    rcases h.all v with h1 | h1 | h1
    · exact Or.inl h1
    · exact Or.inr (Or.inl h1)
    · exact Or.inr (Or.inr (List.mem_append.1 (hperm.mem_iff.2 (List.mem_append.2 h1))))
  · rw [← List.append_assoc]
    exact h.assigned.append_right [b]
  · intro j
    have := h.sum j
    unfold colSum at this ⊢
    rw [List.map_append, List.sum_append, ← this]
    simp
  · intro v
    simp only [List.mem_filter, List.mem_finRange, true_and, Bool.and_eq_true,
      Bool.or_eq_true, List.contains_iff_mem, Bool.not_eq_true', List.mem_append,
      List.mem_singleton]
    rw [h.candsNodup.mem_erase_iff, h.border v]
    constructor
    · rintro ⟨h4 | h4, h5⟩
      · have hv : v ∉ A := h4.2.1
        refine ⟨fun h => h.elim hv h4.1, ?_⟩
        obtain ⟨c, hc1, hc2⟩ := h4.2.2
        exact ⟨c, Or.inl hc1, hc2⟩
      · have hv : v ∉ A := by simpa using h5
        refine ⟨fun h => h.elim hv ?_, b, Or.inr rfl, h4⟩
        rintro rfl
        rw [hloop] at h4; cases h4
    · rintro ⟨h4, c, hc1, hc2⟩
      have hv : v ∉ A := fun h => h4 (Or.inl h)
      have hvb : v ≠ b := fun h => h4 (Or.inr h)
      refine ⟨?_, by simpa using hv⟩
      rcases hc1 with hc1 | rfl
      · exact Or.inl ⟨hvb, hv, c, hc1, hc2⟩
      · exact Or.inr hc2

theorem Growing.reaches (h : Growing adj spat F E region cands s U A) :
    Region.reaches thr s = true ↔ Reaches spat thr region.toFinset := by
  rw [reaches_toFinset spat thr (List.nodup_append.1 h.nodup).1, reaches_iff]
  exact forall_congr' fun j => by rw [h.sum]

theorem toFinset_add (b : Fin n) (region : List (Fin n)) :
    (region ++ [b]).toFinset = insert b region.toFinset := by
  ext x; simp

theorem toFinset_erase (hU : U.Nodup) (b : Fin n) : (U.erase b).toFinset = U.toFinset.erase b := by
  ext x
  simp [hU.mem_erase_iff]

/-- `find_best_area` returns a least dissimilar candidate … -/
theorem findBestArea_sound {region cands : List (Fin n)} (hn : region.Nodup) {b : Fin n} {r r' : Rng}
    (h : findBestArea metric attr region cands r = .ok (b, r')) :
    b ∈ cands ∧ ∀ c ∈ cands, distTo (dist metric attr) b region.toFinset ≤
      distTo (dist metric attr) c region.toFinset := by
  have hc : cands ≠ [] := by
    rintro rfl
    simp [findBestArea, randomElementFrom, randrange] at h
  obtain ⟨a, ha, h1, h2⟩ := findBestArea_spec metric attr (region := region) hc r
  rw [h1] at h
  cases h
  refine ⟨ha, fun c hc => ?_⟩
  rw [← dissimTo_eq metric attr hn, ← dissimTo_eq metric attr hn]
  exact h2 c hc

/-- … and can return each of them. -/
theorem findBestArea_draw {region cands : List (Fin n)} (hn : region.Nodup) {b : Fin n} (hb : b ∈ cands)
    (h : ∀ c ∈ cands, distTo (dist metric attr) b region.toFinset ≤
        distTo (dist metric attr) c region.toFinset) (r' : Rng) :
    ∃ r, findBestArea metric attr region cands r = .ok (b, r') := by
  have : b ∈ cands.filter fun area => decide
      ((cands.map fun c => dissimTo metric attr c region).min? =
        some (dissimTo metric attr area region)) := by
    rw [List.mem_filter, decide_eq_true_iff, List.min?_eq_some_iff]
    refine ⟨hb, List.mem_map.2 ⟨b, hb, rfl⟩, fun x hx => ?_⟩
    obtain ⟨c, hc, rfl⟩ := List.mem_map.1 hx
    rw [dissimTo_eq metric attr hn, dissimTo_eq metric attr hn]
    exact h c hc
  exact randomElementFrom_any this r'

theorem growInner_sound (hs : Symmetric adj) (hloop : ∀ v, adj v v = false) : ∀ (fuel : Nat)
    {region cands : List (Fin n)} {s : Fin q → ℚ} {U A : List (Fin n)} {r : Rng} {g : Grown n} {r' : Rng},
    Growing adj spat F E region cands s U A →
    growInner metric adj attr spat thr fuel region cands s U A r = .ok (g, r') →
    Built adj (dist metric attr) spat thr U.toFinset region.toFinset g.feasible g.unassigned.toFinset
      g.region.toFinset := by
  intro fuel
  induction fuel with
  | zero =>
    intro region cands s U A r g r' h hrun
    unfold growInner at hrun
    split_ifs at hrun with h1
    cases hrun
    exact .full (h.reaches.1 h1)
  | succ fuel ih =>
    intro region cands s U A r g r' h hrun
    unfold growInner at hrun
    split_ifs at hrun with h1 h2
    · cases hrun
      exact .full (h.reaches.1 h1)
    · obtain ⟨A', _, hrun⟩ := Res.bind_eq_ok.1 hrun
      cases hrun
      refine .stuck (fun h3 => h1 (h.reaches.2 h3)) fun v hv ht => ?_
      have := (h.mem hs v).2 ⟨by simpa using hv, ht⟩
      rw [h2] at this
      cases this
    · obtain ⟨⟨b, r1⟩, hb, hrun⟩ := Res.bind_eq_ok.1 hrun
      dsimp only at hrun
      have hnr := (List.nodup_append.1 h.nodup).1
      obtain ⟨hb1, hb2⟩ := findBestArea_sound hnr hb
      obtain ⟨hbU, hstep⟩ := h.step hs hloop hb1
      rw [listRemove_of_mem hbU, Res.bind_ok] at hrun
      have := ih hstep hrun
      rw [toFinset_add, toFinset_erase (List.nodup_append.1 h.nodup).2.1] at this
      refine .take (fun h3 => h1 (h.reaches.2 h3)) (by simpa using hbU) ((h.mem hs b).1 hb1).2 ?_ this
      intro w hw ht
      exact hb2 w ((h.mem hs w).2 ⟨by simpa using hw, ht⟩)

theorem growInner_complete (hs : Symmetric adj) (hloop : ∀ v, adj v v = false) {fu re fu' re' : Finset (Fin n)}
    {ok : Bool} (hb : Built adj (dist metric attr) spat thr fu re ok fu' re') : ∀ (fuel : Nat)
    {region cands : List (Fin n)} {s : Fin q → ℚ} {U A : List (Fin n)},
    Growing adj spat F E region cands s U A → U.toFinset = fu → region.toFinset = re → U.length < fuel →
    ∃ g : Grown n, g.feasible = ok ∧ g.unassigned.toFinset = fu' ∧ g.region.toFinset = re' ∧
      ∀ r', ∃ r, growInner metric adj attr spat thr fuel region cands s U A r = .ok (g, r') := by
  induction hb with
  | @full fu re hr =>
    intro fuel region cands s U A h hU hR _
    refine ⟨⟨true, region, U, A⟩, rfl, hU, hR, fun r' => ⟨r', ?_⟩⟩
    unfold growInner
    rw [if_pos (h.reaches.2 (by rwa [hR]))]
  | @stuck fu re hr hn =>
    intro fuel region cands s U A h hU hR hf
    obtain ⟨fuel, rfl⟩ : ∃ k, fuel = k + 1 := ⟨fuel - 1, by omega⟩
    obtain ⟨A', hA, _⟩ := removeAll_perm region A F h.assigned
    refine ⟨⟨false, region, U, A'⟩, rfl, hU, hR, fun r' => ⟨r', ?_⟩⟩
    have hc : cands = [] := by
      refine List.eq_nil_iff_forall_not_mem.2 fun v hv => ?_
      obtain ⟨h1, h2⟩ := (h.mem hs v).1 hv
      rw [hR] at h2
      exact hn v (by rw [← hU]; simpa using h1) h2
    unfold growInner
    rw [if_neg (fun h3 => hr (by rw [← hR]; exact h.reaches.1 h3))]
    dsimp only
    rw [if_pos hc, hA, Res.bind_ok]
  | @take fu re fu' re' ok v hr hv ht hm _ ih =>
    intro fuel region cands s U A h hU hR hf
    obtain ⟨fuel, rfl⟩ : ∃ k, fuel = k + 1 := ⟨fuel - 1, by omega⟩
    have hvU : v ∈ U := by rw [← hU] at hv; simpa using hv
    have hvc : v ∈ cands := (h.mem hs v).2 ⟨hvU, by rwa [hR]⟩
    obtain ⟨_, hstep⟩ := h.step hs hloop hvc
    have hlen : (U.erase v).length < fuel := by
      rw [List.length_erase_of_mem hvU]
      have := List.length_pos_of_mem hvU
      omega
    obtain ⟨g, g1, g2, g3, g4⟩ := ih fuel hstep
      (by rw [toFinset_erase (List.nodup_append.1 h.nodup).2.1, hU]) (by rw [toFinset_add, hR]) hlen
    refine ⟨g, g1, g2, g3, fun r' => ?_⟩
    obtain ⟨r1, h1⟩ := g4 r'
    obtain ⟨r0, h0⟩ := findBestArea_draw (metric := metric) (attr := attr) (List.nodup_append.1 h.nodup).1 hvc
      (fun c hc => by
        obtain ⟨hc1, hc2⟩ := (h.mem hs c).1 hc
        rw [hR] at hc2 ⊢
        exact hm c (by rw [← hU]; simpa using hc1) hc2) r1
    refine ⟨r0, ?_⟩
    unfold growInner
    rw [if_neg (fun h3 => hr (by rw [← hR]; exact h.reaches.1 h3))]
    dsimp only
    rw [if_neg (List.ne_nil_of_mem hvc), h0, Res.bind_ok]
    dsimp only
    rw [listRemove_of_mem hvU, Res.bind_ok]
    exact h1

/-! ### The outer loop of grow_regions -/

theorem eraseIdx_toFinset {U : List (Fin n)} (hnd : U.Nodup) {pos : Nat} (hpos : pos < U.length) :
    (U.eraseIdx pos).toFinset = U.toFinset.erase U[pos] := by
  have hperm : (U[pos] :: U.eraseIdx pos).Perm U := List.getElem_cons_eraseIdx_perm hpos
  have hn2 := hperm.nodup_iff.2 hnd
  ext x
  have := hperm.mem_iff (a := x)
  rw [List.mem_cons] at this
  rw [List.mem_toFinset, Finset.mem_erase, List.mem_toFinset, ← this]
  constructor
  · intro hx
    exact ⟨fun e => (List.nodup_cons.1 hn2).1 (e ▸ hx), Or.inr hx⟩
  · rintro ⟨h1, h2 | h2⟩
    · exact absurd h2 h1
    · exact h2

theorem GrowInv.growing {P : List (List (Fin n))} {E X A : List (Fin n)} (hi : GrowInv adj spat thr P E X A)
    {a : Fin n} {U' : List (Fin n)} (hperm : (a :: U').Perm X) :
    Growing adj spat P.flatten E [a]
      ((List.finRange n).filter fun v => adj a v && !(A ++ [a]).contains v) (spat a) U' (A ++ [a]) := by
  have hnd : (P.flatten ++ E ++ X).Nodup := hi.perm.nodup_iff.2 (List.nodup_finRange n)
  have hXn : X.Nodup := (List.nodup_append.1 hnd).2.1
  refine ⟨fun v => ?_, ?_, ?_, ?_, hi.assigned.append_right [a], fun j => by simp [colSum],
    fun v => by simp [and_comm], (List.nodup_finRange n).filter _⟩
  · have h1 := hi.perm.mem_iff.2 (List.mem_finRange v)
    simp only [List.mem_append] at h1
    rcases h1 with (h1 | h1) | h1
    · exact Or.inl h1
    · exact Or.inr (Or.inl h1)
    · have := hperm.mem_iff.2 h1
      rw [List.mem_cons] at this
      simpa using Or.inr (Or.inr this)
  · exact hperm.nodup_iff.2 hXn
  · intro u hu hF
    exact (List.nodup_append.1 hnd).2.2 u (by simp [hF]) u (hperm.mem_iff.1 hu) rfl
  · exact fun u hu => hi.apart u (hperm.mem_iff.1 hu)

theorem growLoop_sound (hs : Symmetric adj) (hloop : ∀ v, adj v v = false) : ∀ (fuel : Nat)
    {P : List (List (Fin n))} {E U A : List (Fin n)} {r : Rng} {P' : List (List (Fin n))} {E' : List (Fin n)}
    {r' : Rng}, GrowInv adj spat thr P E U A →
    growLoop metric adj attr spat thr fuel P E U A r = .ok ((P', E'), r') →
    Constructed adj (dist metric attr) spat thr (P.map List.toFinset) E.toFinset U.toFinset
      (P'.map List.toFinset) E'.toFinset := by
  intro fuel
  induction fuel with
  | zero =>
    intro P E U A r P' E' r' hi hrun
    cases U with
    | nil => unfold growLoop at hrun; cases hrun; exact .done
    | cons x xs => unfold growLoop at hrun; cases hrun
  | succ fuel ih =>
    intro P E U A r P' E' r' hi hrun
    by_cases hU : U = []
    · subst hU; unfold growLoop at hrun; cases hrun; exact .done
    · rw [growLoop_succ metric adj attr spat thr fuel P E hU] at hrun
      obtain ⟨pos, hpos, hpop⟩ := popRandomlyFrom_ne_nil hU r
      rw [hpop, Res.bind_ok] at hrun
      have hperm : (U[pos] :: U.eraseIdx pos).Perm U := List.getElem_cons_eraseIdx_perm hpos
      obtain ⟨⟨g, r1⟩, hg, hrun⟩ := Res.bind_eq_ok.1 hrun
      dsimp only at hg hrun
      have hok := (hi.inner metric adj attr spat thr hloop hperm r.next).ok hg
      have hb := growInner_sound hs hloop _ (hi.growing hperm) hg
      have hnd : U.Nodup := (List.nodup_append.1 (hi.perm.nodup_iff.2 (List.nodup_finRange n))).2.1
      have he := eraseIdx_toFinset hnd hpos
      rw [he] at hb
      have hmem : U[pos] ∈ U.toFinset := by simp
      have h1 : ([U[pos]] : List (Fin n)).toFinset = {U[pos]} := by simp
      rw [h1] at hb
      by_cases hfe : g.feasible = true
      · rw [if_pos hfe] at hrun
        rw [hfe] at hb
        have := ih (hi.region adj spat thr hok hfe) hrun
        rw [List.map_append, List.map_singleton] at this
        exact .region hmem hb this
      · rw [if_neg hfe] at hrun
        rw [Bool.eq_false_iff.2 hfe] at hb
        have := ih (hi.aside adj spat thr hs hok (by simpa using hfe)) hrun
        rw [List.toFinset_append] at this
        exact .enclave hmem hb this

theorem grow_draw (hs : Symmetric adj) (hloop : ∀ v, adj v v = false) {P : List (List (Fin n))}
    {E U A : List (Fin n)} (hi : GrowInv adj spat thr P E U A) {v : Fin n} (hv : v ∈ U) {ok : Bool}
    {U' R : Finset (Fin n)} (hb : Built adj (dist metric attr) spat thr (U.toFinset.erase v) {v} ok U' R)
    (fuel : Nat) :
    ∃ g : Grown n, GrownOk adj spat thr P.flatten U g ∧ g.feasible = ok ∧ g.unassigned.toFinset = U' ∧
      g.region.toFinset = R ∧ ∀ r', ∃ r, growLoop metric adj attr spat thr (fuel + 1) P E U A r =
        if g.feasible then growLoop metric adj attr spat thr fuel (P ++ [g.region]) E g.unassigned g.assigned r'
        else growLoop metric adj attr spat thr fuel P (E ++ g.region) g.unassigned g.assigned r' := by
  obtain ⟨pos, hpos, rfl⟩ := List.mem_iff_getElem.1 hv
  have hperm : (U[pos] :: U.eraseIdx pos).Perm U := List.getElem_cons_eraseIdx_perm hpos
  have hnd : U.Nodup := (List.nodup_append.1 (hi.perm.nodup_iff.2 (List.nodup_finRange n))).2.1
  have he := eraseIdx_toFinset hnd hpos
  obtain ⟨g, g1, g2, g3, g4⟩ := growInner_complete hs hloop hb ((U.eraseIdx pos).length + 1)
    (hi.growing hperm) he (by simp) (by omega)
  obtain ⟨r1, hr1⟩ := g4 fun _ => 0
  refine ⟨g, (hi.inner metric adj attr spat thr hloop hperm r1).ok hr1, g1, g2, g3, fun r' => ?_⟩
  obtain ⟨r2, hr2⟩ := g4 r'
  refine ⟨Rng.cons pos r2, ?_⟩
  rw [growLoop_succ metric adj attr spat thr fuel P E (List.ne_nil_of_mem hv),
    popRandomlyFrom_any U pos hpos r2, Res.bind_ok]
  dsimp only
  rw [hr2, Res.bind_ok]

theorem growLoop_complete (hs : Symmetric adj) (hloop : ∀ v, adj v v = false) {p p' : List (Finset (Fin n))}
    {e u e' : Finset (Fin n)} (hc : Constructed adj (dist metric attr) spat thr p e u p' e') : ∀ (fuel : Nat)
    {P : List (List (Fin n))} {E U A : List (Fin n)}, GrowInv adj spat thr P E U A → P.map List.toFinset = p →
    E.toFinset = e → U.toFinset = u → U.length ≤ fuel →
    ∃ P' E', P'.map List.toFinset = p' ∧ E'.toFinset = e' ∧
      ∀ r', ∃ r, growLoop metric adj attr spat thr fuel P E U A r = .ok ((P', E'), r') := by
  induction hc with
  | done =>
    intro fuel P E U A hi hP hE hU _
    have : U = [] := List.toFinset_eq_empty_iff U |>.1 hU
    subst this
    refine ⟨P, E, hP, hE, fun r' => ⟨r', ?_⟩⟩
    unfold growLoop
    rfl
  | region hv h _ ih =>
    intro fuel P E U A hi hP hE hU hf
    subst hU
    have hv := List.mem_toFinset.1 hv
    obtain ⟨fuel, rfl⟩ : ∃ k, fuel = k + 1 := ⟨fuel - 1, by have := List.length_pos_of_mem hv; omega⟩
    obtain ⟨g, hok, g1, g2, g3, g4⟩ := grow_draw hs hloop hi hv h fuel
    obtain ⟨P', E', h1, h2, h3⟩ := ih fuel (hi.region adj spat thr hok g1) (by simp [hP, g3]) hE g2
      (by have := hok.shorter; omega)
    refine ⟨P', E', h1, h2, fun r' => ?_⟩
    obtain ⟨r1, hr1⟩ := h3 r'
    obtain ⟨r0, hr0⟩ := g4 r1
    refine ⟨r0, ?_⟩
    rw [hr0, if_pos g1, hr1]
  | enclave hv h _ ih =>
    intro fuel P E U A hi hP hE hU hf
    subst hU
    have hv := List.mem_toFinset.1 hv
    obtain ⟨fuel, rfl⟩ : ∃ k, fuel = k + 1 := ⟨fuel - 1, by have := List.length_pos_of_mem hv; omega⟩
    obtain ⟨g, hok, g1, g2, g3, g4⟩ := grow_draw hs hloop hi hv h fuel
    obtain ⟨P', E', h1, h2, h3⟩ := ih fuel (hi.aside adj spat thr hs hok g1) hP (by simp [hE, g3]) g2
      (by have := hok.shorter; omega)
    refine ⟨P', E', h1, h2, fun r' => ?_⟩
    obtain ⟨r1, hr1⟩ := h3 r'
    obtain ⟨r0, hr0⟩ := g4 r1
    refine ⟨r0, ?_⟩
    rw [hr0, if_neg (by simp [g1]), hr1]

/-! ### assign_enclaves -/

theorem findSublistIdx_iff {P : List (List (Fin n))} (hnd : P.flatten.Nodup) (v : Fin n) (i : Nat) :
    findSublistIdx v P 0 = .ok i ↔ ∃ h : i < P.length, v ∈ P[i] := by
  have huniq : ∀ i j (hi : i < P.length) (hj : j < P.length), v ∈ P[i] → v ∈ P[j] → i = j := by
    intro i j hi hj h1 h2
    by_contra hne
    have hpw := (List.nodup_flatten.1 hnd).2
    rcases Nat.lt_or_gt_of_ne hne with h | h
    · exact List.pairwise_iff_getElem.1 hpw i j hi hj h h1 h2
    · exact List.pairwise_iff_getElem.1 hpw j i hj hi h h2 h1
  rcases findSublistIdx_spec v P 0 with ⟨k, hk, h1, _, h3, _⟩ | ⟨h1, h3, _⟩
  · rw [h3, Nat.zero_add]
    constructor
    · intro h; cases h; exact ⟨hk, h1⟩
    · rintro ⟨h, h2⟩; rw [huniq k i hk h h1 h2]
  · rw [h3]
    constructor
    · intro h; cases h
    · rintro ⟨h, h2⟩; exact absurd h2 (h1 _ (List.getElem_mem h))

theorem getD_of_lt {P : List (List (Fin n))} {i : Nat} (h : i < P.length) : P.getD i [] = P[i] := by
  simp [h]

/-- Area `a` may join region `i`. -/
structure MayJoin (metric : ρ → ρ → ℚ) (adj : Adj n) (attr : Fin n → ρ) (P : List (List (Fin n)))
    (E : List (Fin n)) (a : Fin n) (i : Nat) (hi : i < P.length) : Prop where
  mem : a ∈ E
  touches : Touches adj P[i].toFinset a
  best : ∀ R ∈ P, Touches adj R.toFinset a →
    distTo (dist metric attr) a P[i].toFinset ≤ distTo (dist metric attr) a R.toFinset

theorem neighRegions_iff (hs : Symmetric adj) {P : List (List (Fin n))} (hnd : P.flatten.Nodup) (a : Fin n) :
    ∃ idxs, neighRegions P (neighbors adj a) = .ok idxs ∧
      ∀ i, i ∈ idxs ↔ ∃ h : i < P.length, Touches adj P[i].toFinset a := by
  obtain ⟨idxs, h1, h2⟩ := neighRegions_spec P (neighbors adj a)
  refine ⟨idxs, h1, fun i => ?_⟩
  rw [h2]
  simp only [findSublistIdx_iff hnd, touches_iff hs, mem_neighbors]
  constructor
  · rintro ⟨v, hv, h, hi⟩
    exact ⟨h, v, hi, by rw [hs]; exact hv⟩
  · rintro ⟨h, v, hi, hv⟩
    exact ⟨v, by rw [hs]; exact hv, h, hi⟩

theorem assignLoop_step (hs : Symmetric adj) {P : List (List (Fin n))} {E : List (Fin n)}
    (hp : Partial adj (fun _ => True) P E) (hE : E ≠ []) {fuel : Nat} {r : Rng} {x : List (List (Fin n)) × Rng}
    (h : assignLoop metric adj attr (fuel + 1) P E r = .ok x) :
    ∃ a i, ∃ hi : i < P.length, MayJoin metric adj attr P E a i hi ∧
      ∃ r1, assignLoop metric adj attr fuel (P.modify i (· ++ [a])) (E.erase a) r1 = .ok x := by
  obtain ⟨e, es, hE'⟩ := List.exists_cons_of_ne_nil hE
  have hnd : (P.flatten ++ E).Nodup := hp.perm.nodup_iff.2 (List.nodup_finRange n)
  have hnP := (List.nodup_append.1 hnd).1
  have hreg : ∀ R ∈ P, R.Nodup := (List.nodup_flatten.1 hnP).1
  rw [hE'] at h
  unfold assignLoop at h
  dsimp only at h
  rw [← hE'] at h
  simp only [Res.bind_eq_ok] at h
  obtain ⟨⟨a, N', r1⟩, h1, idxs, h2, ⟨i, r2⟩, h3, P1, h4, E1, h5, h6⟩ := h
  dsimp only at h2 h3 h4 h5 h6
  have haE : a ∈ E := by
    by_cases hN : (E.filter fun area => (neighbors adj area).any fun v => !E.contains v) = []
    · rw [hN] at h1
      simp [popRandomlyFrom, randrange] at h1
    · obtain ⟨pos, hpos, hpop⟩ := popRandomlyFrom_ne_nil hN r
      rw [hpop] at h1
      cases h1
      exact (List.mem_filter.1 (List.getElem_mem hpos)).1
  obtain ⟨idxs', hi1, hi2⟩ := neighRegions_iff hs hnP a
  rw [hi1] at h2
  cases h2
  have hne : idxs ≠ [] := by
    rintro rfl
    rw [findBestRegionIdx_nil] at h3
    cases h3
  obtain ⟨i', hi', hbest, hmin⟩ := findBestRegionIdx_spec metric attr (area := a) (P := P) hne r1
  rw [hbest] at h3
  cases h3
  obtain ⟨hi, ht⟩ := (hi2 i).1 hi'
  rw [hp.addTo adj haE hi] at h4
  cases h4
  rw [listRemove_of_mem haE] at h5
  cases h5
  refine ⟨a, i, hi, ⟨haE, ht, fun R hR htR => ?_⟩, _, h6⟩
  obtain ⟨j, hj, rfl⟩ := List.mem_iff_getElem.1 hR
  have := hmin j ((hi2 j).2 ⟨hj, htR⟩)
  rw [getD_of_lt hi, getD_of_lt hj,
    dissimTo_eq metric attr (hreg _ (List.getElem_mem hi)),
    dissimTo_eq metric attr (hreg _ (List.getElem_mem hj))] at this
  exact this

theorem assignLoop_draw (hs : Symmetric adj) {P : List (List (Fin n))} {E : List (Fin n)}
    (hp : Partial adj (fun _ => True) P E) {a : Fin n} {i : Nat} {hi : i < P.length}
    (hj : MayJoin metric adj attr P E a i hi) (fuel : Nat) (r' : Rng) :
    ∃ r, assignLoop metric adj attr (fuel + 1) P E r =
      assignLoop metric adj attr fuel (P.modify i (· ++ [a])) (E.erase a) r' := by
  obtain ⟨e, es, hE'⟩ := List.exists_cons_of_ne_nil (List.ne_nil_of_mem hj.mem)
  have hnd : (P.flatten ++ E).Nodup := hp.perm.nodup_iff.2 (List.nodup_finRange n)
  have hnP := (List.nodup_append.1 hnd).1
  have hreg : ∀ R ∈ P, R.Nodup := (List.nodup_flatten.1 hnP).1
  obtain ⟨idxs, hi1, hi2⟩ := neighRegions_iff hs hnP a
  have hiI : i ∈ idxs := (hi2 i).2 ⟨hi, hj.touches⟩
  -- the draw of the region
  have hmin : (idxs.eraseDups.map fun i => dissimTo metric attr a (P.getD i [])).min? =
      some (dissimTo metric attr a (P.getD i [])) := by
    rw [List.min?_eq_some_iff]
    refine ⟨List.mem_map.2 ⟨i, List.mem_eraseDups.2 hiI, rfl⟩, fun x hx => ?_⟩
    obtain ⟨j, hj1, rfl⟩ := List.mem_map.1 hx
    obtain ⟨hj2, hj3⟩ := (hi2 j).1 (List.mem_eraseDups.1 hj1)
    rw [getD_of_lt hi, getD_of_lt hj2,
      dissimTo_eq metric attr (hreg _ (List.getElem_mem hi)),
      dissimTo_eq metric attr (hreg _ (List.getElem_mem hj2))]
    exact hj.best _ (List.getElem_mem hj2) hj3
  have hmem : i ∈ idxs.eraseDups.filter fun j =>
      decide (dissimTo metric attr a (P.getD j []) = dissimTo metric attr a (P.getD i [])) :=
    List.mem_filter.2 ⟨List.mem_eraseDups.2 hiI, by simp⟩
  obtain ⟨r1, hr1⟩ := randomElementFrom_any hmem r'
  -- the draw of the area
  have haN : a ∈ E.filter fun area => (neighbors adj area).any fun v => !E.contains v := by
    obtain ⟨u, hu, hua⟩ := (touches_iff hs _ _).1 hj.touches
    refine List.mem_filter.2 ⟨hj.mem, List.any_eq_true.2 ⟨u, mem_neighbors.2 (by rw [hs]; exact hua), ?_⟩⟩
    have : u ∉ E := fun h => (List.nodup_append.1 hnd).2.2 u
      (List.mem_flatten.2 ⟨_, List.getElem_mem hi, hu⟩) u h rfl
    simpa using this
  obtain ⟨pos, hpos, ha⟩ := List.mem_iff_getElem.1 haN
  refine ⟨Rng.cons pos r1, ?_⟩
  rw [hE']
  rw [assignLoop]
  dsimp only
  rw [← hE', popRandomlyFrom_any _ pos hpos r1, Res.bind_ok]
  dsimp only
  rw [ha, hi1, Res.bind_ok]
  unfold findBestRegionIdx
  dsimp only
  rw [hmin]
  dsimp only
  rw [hr1, Res.bind_ok]
  dsimp only
  rw [hp.addTo adj hj.mem hi, Res.bind_ok, listRemove_of_mem hj.mem, Res.bind_ok]

theorem MayJoin.next {P : List (List (Fin n))} {E : List (Fin n)}
    (hp : Partial adj (fun _ => True) P E) {a : Fin n} {i : Nat} {hi : i < P.length}
    (hj : MayJoin metric adj attr P E a i hi) :
    Partial adj (fun _ => True) (P.modify i (· ++ [a])) (E.erase a) := by
  obtain ⟨u, hu, hua⟩ := hj.touches
  exact hp.join adj (fun _ _ _ => trivial) hj.mem hi (by simpa using hu) hua

theorem modify_toFinset (P : List (List (Fin n))) (i : Nat) (a : Fin n) :
    (P.modify i (· ++ [a])).map List.toFinset = (P.map List.toFinset).modify i (insert a) := by
  apply List.ext_getElem
  · simp
  · intro j h1 h2
    simp only [List.getElem_map, List.getElem_modify]
    split_ifs
    · exact toFinset_add a _
    · rfl

theorem assignLoop_sound (hs : Symmetric adj) : ∀ (fuel : Nat) {P : List (List (Fin n))} {E : List (Fin n)}
    {r : Rng} {P' : List (List (Fin n))} {r' : Rng}, Partial adj (fun _ => True) P E →
    assignLoop metric adj attr fuel P E r = .ok (P', r') →
    Absorbed adj (dist metric attr) (P.map List.toFinset) E.toFinset (P'.map List.toFinset) := by
  intro fuel
  induction fuel with
  | zero =>
    intro P E r P' r' hp h
    cases E with
    | nil => unfold assignLoop at h; cases h; exact .done
    | cons x xs => unfold assignLoop at h; cases h
  | succ fuel ih =>
    intro P E r P' r' hp h
    by_cases hE : E = []
    · subst hE; unfold assignLoop at h; cases h; exact .done
    · obtain ⟨a, i, hi, hj, r1, h⟩ := assignLoop_step hs hp hE h
      have := ih (hj.next hp) h
      have hnd : E.Nodup := (List.nodup_append.1 (hp.perm.nodup_iff.2 (List.nodup_finRange n))).2.1
      rw [modify_toFinset, toFinset_erase hnd] at this
      refine .join (i := i) (by simpa using hj.mem) (by simpa using hi) ?_ ?_ this
      · simpa using hj.touches
      · intro R hR ht
        obtain ⟨R, hR', rfl⟩ := List.mem_map.1 hR
        rw [List.getElem_map]
        exact hj.best R hR' ht

theorem assignLoop_complete (hs : Symmetric adj) {p p' : List (Finset (Fin n))} {e : Finset (Fin n)}
    (ha : Absorbed adj (dist metric attr) p e p') : ∀ (fuel : Nat) {P : List (List (Fin n))} {E : List (Fin n)},
    Partial adj (fun _ => True) P E → P.map List.toFinset = p → E.toFinset = e → E.length ≤ fuel →
    ∃ P', P'.map List.toFinset = p' ∧ ∀ r', ∃ r, assignLoop metric adj attr fuel P E r = .ok (P', r') := by
  induction ha with
  | done =>
    intro fuel P E hp hP hE _
    have : E = [] := List.toFinset_eq_empty_iff E |>.1 hE
    subst this
    refine ⟨P, hP, fun r' => ⟨r', ?_⟩⟩
    unfold assignLoop
    rfl
  | @join p p' e v i hv hi ht hm _ ih =>
    intro fuel P E hp hP hE hf
    subst hP hE
    have hv := List.mem_toFinset.1 hv
    have hi' : i < P.length := by simpa using hi
    obtain ⟨fuel, rfl⟩ : ∃ k, fuel = k + 1 := ⟨fuel - 1, by have := List.length_pos_of_mem hv; omega⟩
    have hnd : E.Nodup := (List.nodup_append.1 (hp.perm.nodup_iff.2 (List.nodup_finRange n))).2.1
    have hj : MayJoin metric adj attr P E v i hi' := by
      refine ⟨hv, by simpa using ht, fun R hR h => ?_⟩
      have := hm R.toFinset (List.mem_map.2 ⟨R, hR, rfl⟩) h
      rwa [List.getElem_map] at this
    obtain ⟨P', h1, h2⟩ := ih fuel (hj.next hp) (modify_toFinset P i v) (toFinset_erase hnd v) (by
      rw [List.length_erase_of_mem hv]
      omega)
    refine ⟨P', h1, fun r' => ?_⟩
    obtain ⟨r1, hr1⟩ := h2 r'
    obtain ⟨r0, hr0⟩ := assignLoop_draw hs hp hj fuel r1
    exact ⟨r0, by rw [hr0, hr1]⟩

end

end Region
