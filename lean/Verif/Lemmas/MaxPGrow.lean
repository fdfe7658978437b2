import Mathlib.Data.List.Perm.Basic
import Mathlib.Data.List.MinMax
import Verif.Model.MaxPHeu
import Verif.Lemmas.Azp
import Verif.Lemmas.Lists
import Verif.Lemmas.Res
/-
Lemmas about `grow_regions`.
-/
namespace Region

open Spec Relation

theorem listRemove_of_mem {α : Type} [DecidableEq α] {lst : List α} {x : α} (h : x ∈ lst) :
    listRemove lst x = .ok (lst.erase x) := by
  unfold listRemove; rw [if_pos (by simpa using h)]

theorem removeAll_perm {α : Type} [DecidableEq α] (xs : List α) :
    ∀ (lst F : List α), lst.Perm (F ++ xs) → ∃ l', removeAll xs lst = .ok l' ∧ l'.Perm F := by
  induction xs with
  | nil => intro lst F h; exact ⟨lst, rfl, by simpa using h⟩
  | cons x xs ih =>
    intro lst F h
    have hx : x ∈ lst := h.mem_iff.2 (by simp)
    unfold removeAll
    rw [listRemove_of_mem hx, Res.bind_ok]
    apply ih
    have h1 : lst.Perm (x :: lst.erase x) := List.perm_cons_erase hx
    have h2 : (F ++ x :: xs).Perm (x :: (F ++ xs)) := List.perm_middle
    exact (List.perm_cons x).1 (h1.symm.trans (h.trans h2))

theorem min?_le {l : List ℚ} {m : ℚ} (h : l.min? = some m) : m ∈ l ∧ ∀ x ∈ l, m ≤ x := by
  rw [List.min?_eq_some_iff] at h
  exact h

theorem exists_min? {l : List ℚ} (h : l ≠ []) : ∃ m, l.min? = some m := by
  cases hm : l.min? with
  | none => rw [List.min?_eq_none_iff] at hm; exact absurd hm h
  | some m => exact ⟨m, rfl⟩

section
variable {n q : Nat} {ρ : Type} (metric : ρ → ρ → ℚ) (adj : Adj n) (attr : Fin n → ρ)
  (spat : Fin n → Fin q → ℚ) (thr : Fin q → ℚ)

theorem findBestArea_spec {region cands : List (Fin n)} (hc : cands ≠ []) (r : Rng) :
    ∃ a ∈ cands, findBestArea metric attr region cands r = .ok (a, r.next) ∧
      ∀ c ∈ cands, dissimTo metric attr a region ≤ dissimTo metric attr c region := by
  obtain ⟨m, hm⟩ := exists_min? (l := cands.map fun c => dissimTo metric attr c region)
    (by simpa using hc)
  obtain ⟨h1, h2⟩ := min?_le hm
  obtain ⟨a, ha, hav⟩ := List.mem_map.1 h1
  unfold findBestArea
  rw [hm]
  obtain ⟨x, hx, he⟩ := randomElementFrom_ne_nil
    (lst := cands.filter fun area => decide (some m = some (dissimTo metric attr area region)))
    (List.ne_nil_of_mem (List.mem_filter.2 ⟨ha, by simp [hav]⟩)) r
  obtain ⟨hx1, hx2⟩ := List.mem_filter.1 hx
  have hx2 : m = dissimTo metric attr x region := by simpa using hx2
  refine ⟨x, hx1, he, ?_⟩
  intro c hc
  rw [← hx2]
  exact h2 _ (List.mem_map.2 ⟨c, hc, rfl⟩)

theorem reaches_iff (s : Fin q → ℚ) : reaches thr s = true ↔ ∀ j, thr j ≤ s j := by
  unfold reaches
  simp

/-- The sum of a column of the spatially extensive attributes over a list of areas. -/
def colSum (reg : List (Fin n)) (j : Fin q) : ℚ := (reg.map fun v => spat v j).sum

theorem contiguous_append {reg : List (Fin n)} (hc : Contiguous adj {v | v ∈ reg}) {a b : Fin n}
    (ha : a ∈ reg) (hab : Borders adj a b) : Contiguous adj {v | v ∈ reg ++ [b]} := by
  have hsub : {v | v ∈ reg} ⊆ {v | v ∈ reg ++ [b]} := fun v hv => by
    simp only [Set.mem_ofPred_eq, List.mem_append] at hv ⊢
    exact Or.inl hv
  have hb : b ∈ {v | v ∈ reg ++ [b]} := by simp
  have hto : ∀ x ∈ reg, PathIn adj {v | v ∈ reg ++ [b]} x b := fun x hx =>
    (pathIn_mono hsub (hc.2 x hx a ha)).trans (.single ⟨hsub ha, hb, hab⟩)
  refine ⟨⟨b, hb⟩, ?_⟩
  intro x hx y hy
  have hx' : x ∈ reg ∨ x = b := by simpa using hx
  have hy' : y ∈ reg ∨ y = b := by simpa using hy
  rcases hx' with hx' | rfl
  · rcases hy' with hy' | rfl
    · exact pathIn_mono hsub (hc.2 x hx' y hy')
    · exact hto x hx'
  · rcases hy' with hy' | rfl
    · exact pathIn_symm (hto y hy')
    · exact .refl

/-- What the inner loop of `grow_regions` leaves behind, when it was started with the areas `X` (the
chosen area and the unassigned ones) and `F` are the areas of the regions finished before. -/
structure GrownOk (F X : List (Fin n)) (g : Grown n) : Prop where
  perm : (g.region ++ g.unassigned).Perm X
  contiguous : Contiguous adj {v | v ∈ g.region}
  done : g.feasible = true → (∀ j, thr j ≤ colSum spat g.region j) ∧
    g.assigned.Perm (F ++ g.region)
  failed : g.feasible = false → (¬ ∀ j, thr j ≤ colSum spat g.region j) ∧
    g.assigned.Perm F ∧ ∀ a ∈ g.region, ∀ v, adj a v = true → v ∈ F ∨ v ∈ g.region

/-- An area that is its own neighbor can be taken a second time; `remove` raises then. -/
theorem growInner_post {R : Prop} (hloop : ¬ R → ∀ v, adj v v = false) {F X E : List (Fin n)}
    (hall : ∀ v, v ∈ F ∨ v ∈ E ∨ v ∈ X)
    (hE : ∀ x ∈ X, ∀ e ∈ E, adj x e = false) :
    ∀ (fuel : Nat) (region cands : List (Fin n)) (s : Fin q → ℚ) (U A : List (Fin n)) (r : Rng),
      (region ++ U).Perm X → A.Perm (F ++ region) → (∀ j, s j = colSum spat region j) →
      Contiguous adj {v | v ∈ region} →
      (∀ v, v ∉ A → (∃ a ∈ region, adj a v = true) → v ∈ cands) →
      (∀ v ∈ cands, (v ∉ A ∨ adj v v = true) ∧ ∃ a ∈ region, adj a v = true) → cands.Nodup → U.length < fuel →
      (growInner metric adj attr spat thr fuel region cands s U A r).Post R False fun p =>
        GrownOk adj spat thr F X p.1 := by
  intro fuel
  induction fuel with
  | zero => intro _ _ _ _ _ _ _ _ _ _ _ _ _ h; omega
  | succ fuel ih =>
    intro region cands s U A r hp hA hs hc hC1 hC2 hCn hf
    unfold growInner
    split_ifs with h1 h2
    · refine ⟨hp, hc, fun _ => ⟨?_, hA⟩, fun h => by cases h⟩
      intro j
      rw [← hs j]
      exact (reaches_iff thr s).1 h1 j
    · dsimp only
      obtain ⟨l', hl, hl'⟩ := removeAll_perm region A F hA
      rw [hl, Res.bind_ok]
      refine ⟨hp, hc, (fun h => by cases h), fun _ => ⟨?_, hl', ?_⟩⟩
      · intro hj
        apply h1
        rw [reaches_iff]
        intro j; rw [hs j]; exact hj j
      · intro a ha v hav
        by_contra hcon
        have : v ∈ cands := hC1 v (fun hv => hcon (by simpa using hA.mem_iff.1 hv)) ⟨a, ha, hav⟩
        rw [h2] at this; cases this
    · dsimp only
      obtain ⟨b, hb, he, _⟩ := findBestArea_spec metric attr (region := region) h2 r
      rw [he, Res.bind_ok]
      dsimp only
      obtain ⟨hbA, a, ha, hab⟩ := hC2 b hb
      have haX : a ∈ X := hp.mem_iff.1 (by simp [ha])
      by_cases hbU : b ∈ U
      swap
      · have hR : R := by
          by_contra hR
          have hbA : b ∉ A := hbA.resolve_right (by rw [hloop hR]; simp)
          rcases hall b with h | h | h
          · exact absurd (hA.mem_iff.2 (by simp [h])) hbA
          · rw [hE a haX b h] at hab; cases hab
          · have : b ∈ region ++ U := hp.mem_iff.2 h
            rcases List.mem_append.1 this with h | h
            · exact absurd (hA.mem_iff.2 (by simp [h])) hbA
            · exact hbU h
        have : listRemove U b = .raise (.valueError "list.remove(x): x not in list") := by
          unfold listRemove; rw [if_neg (by simpa using hbU)]
        rw [this, Res.bind_raise]
        exact hR
      rw [listRemove_of_mem hbU, Res.bind_ok]
      apply ih
      · have h3 : U.Perm (b :: U.erase b) := List.perm_cons_erase hbU
        have : (region ++ [b] ++ U.erase b).Perm (region ++ U) := by
          rw [List.append_assoc]
          exact List.Perm.append_left region h3.symm
        exact this.trans hp
      · rw [← List.append_assoc]
        exact hA.append_right [b]
      · intro j
        unfold colSum at hs ⊢
        rw [List.map_append, List.sum_append, ← hs j]
        simp
      · exact contiguous_append adj hc ha (Or.inl hab)
      · intro v h4
        rintro ⟨c, hc1, hc2⟩
        simp only [List.mem_append, List.mem_singleton] at h4 hc1
        have hv : v ∉ A := fun h => h4 (Or.inl h)
        have hvb : v ≠ b := fun h => h4 (Or.inr h)
        simp only [List.mem_filter, List.mem_finRange, true_and, Bool.and_eq_true,
          Bool.or_eq_true, List.contains_iff_mem, Bool.not_eq_true']
        rw [hCn.mem_erase_iff]
        refine ⟨?_, by simpa using hv⟩
        rcases hc1 with hc1 | rfl
        · exact Or.inl ⟨hvb, hC1 v hv ⟨c, hc1, hc2⟩⟩
        · exact Or.inr hc2
      · intro v
        simp only [List.mem_filter, List.mem_finRange, true_and, Bool.and_eq_true,
          Bool.or_eq_true, List.contains_iff_mem, Bool.not_eq_true', List.mem_append,
          List.mem_singleton]
        rw [hCn.mem_erase_iff]
        rintro ⟨h4 | h4, h5⟩
        · have hv : v ∉ A := by simpa using h5
          obtain ⟨c, hc1, hc2⟩ := (hC2 v h4.2).2
          exact ⟨Or.inl fun h => h.elim hv h4.1, c, Or.inl hc1, hc2⟩
        · have hv : v ∉ A := by simpa using h5
          refine ⟨?_, b, Or.inr rfl, h4⟩
          by_cases hvb : v = b
          · subst hvb; exact Or.inr h4
          · exact Or.inl fun h => h.elim hv hvb
      · exact (List.nodup_finRange n).filter _
      · rw [List.length_erase_of_mem hbU]
        have : 0 < U.length := List.length_pos_of_mem hbU
        omega

/-- The invariant of the outer loop of `grow_regions`. -/
structure GrowInv (P : List (List (Fin n))) (E U A : List (Fin n)) : Prop where
  perm : (P.flatten ++ E ++ U).Perm (List.finRange n)
  assigned : A.Perm P.flatten
  good : ∀ reg ∈ P, Contiguous adj {v | v ∈ reg} ∧ ∀ j, thr j ≤ colSum spat reg j
  apart : ∀ u ∈ U, ∀ e ∈ E, adj u e = false
  enclave : ∀ e ∈ E, ∃ C : List (Fin n), e ∈ C ∧ C.Nodup ∧ C ⊆ E ∧
    Contiguous adj {v | v ∈ C} ∧ (¬ ∀ j, thr j ≤ colSum spat C j) ∧
    ∀ a ∈ C, ∀ v, adj a v = true → v ∈ P.flatten ∨ v ∈ C

theorem GrowInv.region {P : List (List (Fin n))} {E X A : List (Fin n)} {g : Grown n}
    (hi : GrowInv adj spat thr P E X A) (hg : GrownOk adj spat thr P.flatten X g) (hfe : g.feasible = true) :
    GrowInv adj spat thr (P ++ [g.region]) E g.unassigned g.assigned := by
  have hgX : ∀ u ∈ g.unassigned, u ∈ X := fun u hu => hg.perm.mem_iff.1 (by simp [hu])
  obtain ⟨h1, h2⟩ := hg.done hfe
  refine ⟨?_, ?_, ?_, fun u hu e he => hi.apart u (hgX u hu) e he, ?_⟩
  · have h3 : ((P ++ [g.region]).flatten ++ E ++ g.unassigned).Perm
        (P.flatten ++ E ++ (g.region ++ g.unassigned)) := by
      simp only [List.flatten_append, List.flatten_cons, List.flatten_nil, List.append_nil,
        List.append_assoc]
      apply List.Perm.append_left
      rw [← List.append_assoc, ← List.append_assoc]
      exact List.Perm.append_right _ List.perm_append_comm
    exact h3.trans ((hg.perm.append_left _).trans hi.perm)
  · simpa using h2
  · intro reg hreg
    rcases List.mem_append.1 hreg with h | h
    · exact hi.good reg h
    · have : reg = g.region := by simpa using h
      subst this
      exact ⟨hg.contiguous, h1⟩
  · intro e he
    obtain ⟨C, h1, h2, h3, h4, h5, h6⟩ := hi.enclave e he
    refine ⟨C, h1, h2, h3, h4, h5, ?_⟩
    intro c hc v hv
    rcases h6 c hc v hv with h | h
    · left; simp only [List.flatten_append, List.mem_append]; exact Or.inl h
    · exact Or.inr h

theorem GrowInv.aside (hs : Symmetric adj) {P : List (List (Fin n))} {E X A : List (Fin n)} {g : Grown n}
    (hi : GrowInv adj spat thr P E X A) (hg : GrownOk adj spat thr P.flatten X g) (hfe : g.feasible = false) :
    GrowInv adj spat thr P (E ++ g.region) g.unassigned g.assigned := by
  have hnd : (P.flatten ++ E ++ X).Nodup := hi.perm.nodup_iff.2 (List.nodup_finRange n)
  have hXn : X.Nodup := (List.nodup_append.1 hnd).2.1
  have hgX : ∀ u ∈ g.unassigned, u ∈ X := fun u hu => hg.perm.mem_iff.1 (by simp [hu])
  have hndg : (g.region ++ g.unassigned).Nodup := hg.perm.nodup_iff.2 hXn
  obtain ⟨h1, h2, h3⟩ := hg.failed hfe
  refine ⟨?_, h2, hi.good, ?_, ?_⟩
  · have h4 : (P.flatten ++ (E ++ g.region) ++ g.unassigned).Perm
        (P.flatten ++ E ++ (g.region ++ g.unassigned)) := by
      simp only [List.append_assoc]
      exact List.Perm.refl _
    exact h4.trans ((hg.perm.append_left _).trans hi.perm)
  · intro u hu e he
    rcases List.mem_append.1 he with h | h
    · exact hi.apart u (hgX u hu) e h
    · cases hue : adj u e with
      | false => rfl
      | true =>
        rw [hs] at hue
        rcases h3 e h u hue with h4 | h4
        · exact absurd rfl ((List.nodup_append.1 hnd).2.2 u (by simp [h4]) u (hgX u hu))
        · exact absurd rfl ((List.nodup_append.1 hndg).2.2 u h4 u hu)
  · intro e he
    rcases List.mem_append.1 he with h | h
    · obtain ⟨C, k1, k2, k3, k4, k5, k6⟩ := hi.enclave e h
      exact ⟨C, k1, k2, fun x hx => by simp [k3 hx], k4, k5, k6⟩
    · exact ⟨g.region, h, (List.nodup_append.1 hndg).1, fun x hx => by simp [hx],
        hg.contiguous, h1, h3⟩

/-- One iteration of the outer loop: an area that reaches the thresholds alone is a region grown without a
step. -/
theorem growLoop_succ (fuel : Nat) (P : List (List (Fin n))) (E : List (Fin n)) {U : List (Fin n)} (hU : U ≠ [])
    (A : List (Fin n)) (r : Rng) :
    growLoop metric adj attr spat thr (fuel + 1) P E U A r =
      popRandomlyFrom U r >>= fun (a, U', r) =>
        growInner metric adj attr spat thr (U'.length + 1) [a]
          ((List.finRange n).filter fun v => adj a v && !(A ++ [a]).contains v) (spat a) U' (A ++ [a]) r >>=
        fun (g, r) =>
          if g.feasible then growLoop metric adj attr spat thr fuel (P ++ [g.region]) E g.unassigned g.assigned r
          else growLoop metric adj attr spat thr fuel P (E ++ g.region) g.unassigned g.assigned r := by
  obtain ⟨x, xs, rfl⟩ := List.exists_cons_of_ne_nil hU
  rw [growLoop]
  congr 1
  funext ⟨a, U', r⟩
  dsimp only
  split_ifs with h
  · rw [growInner, if_pos h]
    rfl
  · rfl

/-- The areas popped and left over, and what the inner loop makes of them. -/
theorem GrowInv.inner_loops {R : Prop} (hloop : ¬ R → ∀ v, adj v v = false) {P : List (List (Fin n))} {E X A : List (Fin n)}
    (hi : GrowInv adj spat thr P E X A) {a : Fin n} {U' : List (Fin n)} (hperm : (a :: U').Perm X) (r : Rng) :
    (growInner metric adj attr spat thr (U'.length + 1) [a]
      ((List.finRange n).filter fun v => adj a v && !(A ++ [a]).contains v) (spat a) U' (A ++ [a]) r).Post
      R False fun p => GrownOk adj spat thr P.flatten X p.1 := by
  have hall : ∀ v, v ∈ P.flatten ∨ v ∈ E ∨ v ∈ X := fun v => by
    have := hi.perm.mem_iff.2 (List.mem_finRange v)
    simpa [or_assoc] using this
  exact growInner_post metric adj attr spat thr hloop (F := P.flatten) (X := X) (E := E)
    hall hi.apart (U'.length + 1) [a] _ (spat a) U'
    (A ++ [a]) r (by simpa using hperm) (hi.assigned.append_right [a])
    (fun j => by simp [colSum])
    ⟨⟨a, by simp⟩, fun u hu v hv => by
      have hu : u = a := by simpa using hu
      have hv : v = a := by simpa using hv
      subst hu; subst hv; exact .refl⟩
    (fun v h1 h2 => by
      simp only [List.mem_filter, List.mem_finRange, true_and, Bool.and_eq_true, List.contains_iff_mem,
        Bool.not_eq_true']
      obtain ⟨c, hc, hcv⟩ := h2
      rw [List.mem_singleton] at hc
      subst hc
      exact ⟨hcv, by simpa using h1⟩)
    (fun v hv => by
      simp only [List.mem_filter, List.mem_finRange, true_and, Bool.and_eq_true, Bool.not_eq_true'] at hv
      exact ⟨Or.inl (by simpa using hv.2), a, by simp, hv.1⟩)
    ((List.nodup_finRange n).filter _) (by omega)

theorem GrowInv.inner (hloop : ∀ v, adj v v = false) {P : List (List (Fin n))} {E X A : List (Fin n)}
    (hi : GrowInv adj spat thr P E X A) {a : Fin n} {U' : List (Fin n)} (hperm : (a :: U').Perm X) (r : Rng) :
    (growInner metric adj attr spat thr (U'.length + 1) [a]
      ((List.finRange n).filter fun v => adj a v && !(A ++ [a]).contains v) (spat a) U' (A ++ [a]) r).Post
      False False fun p => GrownOk adj spat thr P.flatten X p.1 :=
  hi.inner_loops metric adj attr spat thr (fun _ => hloop) hperm r

theorem GrownOk.shorter {F X : List (Fin n)} {g : Grown n} (hg : GrownOk adj spat thr F X g) :
    g.unassigned.length < X.length := by
  have h1 := hg.perm.length_eq
  obtain ⟨y, hy⟩ := hg.contiguous.1
  have h3 : 0 < g.region.length := List.length_pos_of_mem hy
  simp only [List.length_append] at h1
  omega

theorem growLoop_post_loops {R : Prop} (hs : Symmetric adj) (hloop : ¬ R → ∀ v, adj v v = false) :
    ∀ (fuel : Nat) (P : List (List (Fin n))) (E U A : List (Fin n)) (r : Rng),
      GrowInv adj spat thr P E U A → U.length ≤ fuel →
      (growLoop metric adj attr spat thr fuel P E U A r).Post R False fun p =>
        ∃ A', GrowInv adj spat thr p.1.1 p.1.2 [] A' := by
  intro fuel
  induction fuel with
  | zero =>
    intro P E U A r hi hf
    have : U = [] := by simpa using hf
    subst this
    unfold growLoop
    exact ⟨A, hi⟩
  | succ fuel ih =>
    intro P E U A r hi hf
    by_cases hU : U = []
    · subst hU; unfold growLoop; exact ⟨A, hi⟩
    · rw [growLoop_succ metric adj attr spat thr fuel P E hU]
      obtain ⟨pos, hpos, hpop⟩ := popRandomlyFrom_ne_nil hU r
      rw [hpop, Res.bind_ok]
      have hperm : (U[pos] :: U.eraseIdx pos).Perm U := List.getElem_cons_eraseIdx_perm hpos
      refine Res.Post.bind (hi.inner_loops metric adj attr spat thr hloop hperm r.next) ?_
      rintro ⟨g, r'⟩ _ hg
      dsimp only at hg ⊢
      have hgl : g.unassigned.length ≤ fuel := by
        have := hg.shorter
        omega
      by_cases hfe : g.feasible = true
      · rw [if_pos hfe]
        exact ih _ _ _ _ _ (hi.region adj spat thr hg hfe) hgl
      · rw [if_neg hfe]
        exact ih _ _ _ _ _ (hi.aside adj spat thr hs hg (by simpa using hfe)) hgl

theorem growLoop_post (hs : Symmetric adj) (hloop : ∀ v, adj v v = false) (fuel : Nat)
    (P : List (List (Fin n))) (E U A : List (Fin n)) (r : Rng) (hi : GrowInv adj spat thr P E U A)
    (hf : U.length ≤ fuel) :
    (growLoop metric adj attr spat thr fuel P E U A r).Post False False fun p =>
      ∃ A', GrowInv adj spat thr p.1.1 p.1.2 [] A' :=
  growLoop_post_loops metric adj attr spat thr hs (fun _ => hloop) fuel P E U A r hi hf

end

end Region
