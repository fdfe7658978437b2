import Mathlib.Data.Fintype.Card
import Mathlib.Data.Finset.Card
import Mathlib.Data.Set.Finite.Basic
import Mathlib.Algebra.BigOperators.Group.Finset.Basic
import Verif.Lemmas.Csgraph
/-
Breadth first trees: a contiguous region has a root and every other area a parent one step nearer
to the root.
-/
namespace Region

open Relation Spec

section
variable {n : Nat} {adj : Adj n} {S : Set (Fin n)} {s : Fin n}

/-- A walk of exactly `m` steps from `s` within `S`. -/
def Walk (adj : Adj n) (S : Set (Fin n)) (s : Fin n) : Nat → Fin n → Prop
  | 0, v => v = s
  | m + 1, v => ∃ u, Walk adj S s m u ∧ StepIn adj S u v

theorem exists_walk {v : Fin n} (h : PathIn adj S s v) : ∃ m, Walk adj S s m v := by
  induction h with
  | refl => exact ⟨0, rfl⟩
  | tail _ hs ih =>
    obtain ⟨m, hm⟩ := ih
    exact ⟨m + 1, _, hm, hs⟩

/-- A rooted tree in `S`. -/
structure Ranked (adj : Adj n) (S : Set (Fin n)) (s : Fin n) (rank : Fin n → Nat)
    (par : Fin n → Fin n) : Prop where
  root : s ∈ S
  zero : ∀ v ∈ S, (rank v = 0 ↔ v = s)
  step : ∀ v ∈ S, v ≠ s → par v ∈ S ∧ Borders adj v (par v) ∧ rank v = rank (par v) + 1

theorem exists_ranked (h : Contiguous adj S) (hs : s ∈ S) : ∃ rank par, Ranked adj S s rank par ∧
    ∀ v ∈ S, v ≠ s → Borders adj s v → rank v = 1 := by
  classical
  have hex : ∀ v ∈ S, ∃ m, Walk adj S s m v := fun v hv => exists_walk (h.2 s hs v hv)
  let rank : Fin n → Nat := fun v => if h : ∃ m, Walk adj S s m v then Nat.find h else 0
  have hrank : ∀ v ∈ S, Walk adj S s (rank v) v := by
    intro v hv
    simp only [rank, dif_pos (hex v hv)]
    exact Nat.find_spec (hex v hv)
  have hle : ∀ v m, Walk adj S s m v → rank v ≤ m := by
    intro v m hm
    simp only [rank, dif_pos (⟨m, hm⟩ : ∃ m, Walk adj S s m v)]
    exact Nat.find_le hm
  have hzero : ∀ v ∈ S, (rank v = 0 ↔ v = s) := by
    intro v hv
    constructor
    · intro h0
      have := hrank v hv
      rw [h0] at this
      exact this
    · rintro rfl
      have := hle v 0 rfl
      omega
  have hstep : ∀ v ∈ S, v ≠ s → ∃ u, u ∈ S ∧ Borders adj v u ∧ rank v = rank u + 1 := by
    intro v hv hne
    obtain ⟨m, hm⟩ : ∃ m, rank v = m + 1 :=
      ⟨rank v - 1, by have := (hzero v hv).not.2 hne; omega⟩
    have hw := hrank v hv
    rw [hm] at hw
    obtain ⟨u, hu, hst⟩ := hw
    refine ⟨u, hst.1, borders_symm hst.2.2, ?_⟩
    have h1 := hle u m hu
    have h2 := hle v (rank u + 1) ⟨u, hrank u hst.1, hst⟩
    omega
  choose! par hpar using hstep
  refine ⟨rank, par, ⟨hs, hzero, hpar⟩, ?_⟩
  intro v hv hne hb
  have h1 := hle v 1 ⟨s, rfl, hs, hv, hb⟩
  have h2 := (hzero v hv).not.2 hne
  omega

/-- The areas on the way to the root. -/
theorem Ranked.iterate {rank : Fin n → Nat} {par : Fin n → Fin n} (h : Ranked adj S s rank par)
    {v : Fin n} (hv : v ∈ S) : ∀ m, m ≤ rank v → par^[m] v ∈ S ∧ rank (par^[m] v) = rank v - m := by
  intro m
  induction m with
  | zero => intro _; exact ⟨hv, rfl⟩
  | succ m ih =>
    intro hm
    obtain ⟨h1, h2⟩ := ih (by omega)
    rw [Function.iterate_succ_apply']
    have hne : par^[m] v ≠ s := (h.zero _ h1).not.1 (by omega)
    obtain ⟨h3, -, h4⟩ := h.step _ h1 hne
    exact ⟨h3, by omega⟩

theorem Ranked.card {rank : Fin n → Nat} {par : Fin n → Fin n} (h : Ranked adj S s rank par)
    {v : Fin n} (hv : v ∈ S) (T : Finset (Fin n)) (hT : ∀ x, x ∈ T ↔ x ∈ S) :
    rank v + 1 ≤ T.card := by
  have hinj : Set.InjOn (fun m => par^[m] v) (Finset.range (rank v + 1)) := by
    intro a ha b hb hab
    have ha' : a ≤ rank v := by have := Finset.mem_range.1 (Finset.mem_coe.1 ha); omega
    have hb' : b ≤ rank v := by have := Finset.mem_range.1 (Finset.mem_coe.1 hb); omega
    have h1 := (h.iterate hv a ha').2
    have h2 := (h.iterate hv b hb').2
    dsimp only at hab
    rw [hab] at h1
    omega
  rw [← Finset.card_range (rank v + 1), ← Finset.card_image_of_injOn hinj]
  apply Finset.card_le_card
  intro x hx
  obtain ⟨m, hm, rfl⟩ := Finset.mem_image.1 hx
  exact (hT _).2 (h.iterate hv m (by have := Finset.mem_range.1 hm; omega)).1

/-- With two areas next to the root, there are at least two more areas than steps. -/
theorem Ranked.card_two {rank : Fin n → Nat} {par : Fin n → Fin n} (h : Ranked adj S s rank par)
    {b c : Fin n} (hb : b ∈ S) (hc : c ∈ S) (hbc : b ≠ c) (hb1 : rank b = 1) (hc1 : rank c = 1)
    {v : Fin n} (hv : v ∈ S) (T : Finset (Fin n)) (hT : ∀ x, x ∈ T ↔ x ∈ S) :
    rank v + 2 ≤ T.card := by
  have hinj : Set.InjOn (fun m => par^[m] v) (Finset.range (rank v + 1)) := by
    intro a ha b hb hab
    have ha' : a ≤ rank v := by have := Finset.mem_range.1 (Finset.mem_coe.1 ha); omega
    have hb' : b ≤ rank v := by have := Finset.mem_range.1 (Finset.mem_coe.1 hb); omega
    have h1 := (h.iterate hv a ha').2
    have h2 := (h.iterate hv b hb').2
    dsimp only at hab
    rw [hab] at h1
    omega
  have key : ∃ e ∈ S, e ∉ (Finset.range (rank v + 1)).image fun m => par^[m] v := by
    by_contra hcon
    push Not at hcon
    obtain ⟨i, hi, hib⟩ := Finset.mem_image.1 (hcon b hb)
    obtain ⟨j, hj, hjc⟩ := Finset.mem_image.1 (hcon c hc)
    have h1 := (h.iterate hv i (by have := Finset.mem_range.1 hi; omega)).2
    have h2 := (h.iterate hv j (by have := Finset.mem_range.1 hj; omega)).2
    rw [hib, hb1] at h1
    rw [hjc, hc1] at h2
    have : i = j := by omega
    exact hbc (by rw [← hib, ← hjc, this])
  obtain ⟨e, he, hne⟩ := key
  have h1 : (insert e ((Finset.range (rank v + 1)).image fun m => par^[m] v)).card = rank v + 2 := by
    rw [Finset.card_insert_of_notMem hne, Finset.card_image_of_injOn hinj, Finset.card_range]
  rw [← h1]
  apply Finset.card_le_card
  intro x hx
  rcases Finset.mem_insert.1 hx with rfl | hx
  · exact (hT _).2 he
  · obtain ⟨m, hm, rfl⟩ := Finset.mem_image.1 hx
    exact (hT _).2 (h.iterate hv m (by have := Finset.mem_range.1 hm; omega)).1

/-- A path that starts in `T` and ends outside leaves `T` somewhere. -/
theorem exists_crossing {T : Set (Fin n)} {a b : Fin n} (h : PathIn adj S a b) (ha : a ∈ T)
    (hb : b ∉ T) : ∃ x y, x ∈ T ∧ y ∉ T ∧ StepIn adj S x y := by
  induction h with
  | refl => exact absurd ha hb
  | @tail c d _ hcd ih =>
    by_cases hc : c ∈ T
    · exact ⟨c, d, hc, hb, hcd⟩
    · exact ih hc

/-- A contiguous region with three areas has an area with two neighbours in it. -/
theorem exists_two_neighbours (h : Contiguous adj S) (T : Finset (Fin n)) (hT : ∀ x, x ∈ T ↔ x ∈ S)
    (h3 : 3 ≤ T.card) : ∃ s ∈ S, ∃ b ∈ S, ∃ c ∈ S, b ≠ s ∧ c ≠ s ∧ b ≠ c ∧ Borders adj s b ∧
      Borders adj s c := by
  obtain ⟨a, ha⟩ := h.1
  have : ∃ b ∈ T, b ≠ a := by
    by_contra hcon
    push Not at hcon
    have : T ⊆ {a} := fun x hx => Finset.mem_singleton.2 (hcon x hx)
    have := Finset.card_le_card this
    rw [Finset.card_singleton] at this
    omega
  obtain ⟨b, hb, hba⟩ := this
  obtain ⟨x, c, hx, hc, hxc⟩ := exists_crossing (h.2 a ha b ((hT b).1 hb)) (Set.mem_singleton a)
    (by simpa using hba)
  obtain rfl : x = a := hx
  have hcx : c ≠ x := by simpa using hc
  have : ∃ e ∈ T, e ≠ x ∧ e ≠ c := by
    by_contra hcon
    push Not at hcon
    have : T ⊆ {x, c} := fun y hy => by
      by_cases hyx : y = x
      · simp [hyx]
      · simp [hcon y hy hyx]
    have h1 := Finset.card_le_card this
    have h2 := Finset.card_le_two (a := x) (b := c)
    omega
  obtain ⟨e, he, hex, hec⟩ := this
  obtain ⟨y, z, hy, hz, hyz⟩ := exists_crossing (T := ({x, c} : Set (Fin n)))
    (h.2 x ha e ((hT e).1 he)) (by simp) (by simp [hex, hec])
  have hzx : z ≠ x := fun h => hz (by simp [h])
  have hzc : z ≠ c := fun h => hz (by simp [h])
  rcases hy with rfl | hy
  · exact ⟨y, ha, c, hxc.2.1, z, hyz.2.1, hcx, hzx, hzc.symm, hxc.2.2, hyz.2.2⟩
  · obtain rfl : y = c := hy
    exact ⟨y, hxc.2.1, x, ha, z, hyz.2.1, hcx.symm, hzc, hzx.symm, borders_symm hxc.2.2, hyz.2.2⟩

end

/-! ### All regions of a clustering at once -/

/-- A rooted tree in every region. -/
structure Rooted {n : Nat} {κ : Type} (adj : Adj n) (L : Fin n → κ) (root : κ → Fin n)
    (rank : Fin n → Nat) (par : Fin n → Fin n) : Prop where
  root_mem : ∀ v, L (root (L v)) = L v
  zero : ∀ v, rank v = 0 ↔ v = root (L v)
  step : ∀ v, v ≠ root (L v) → L (par v) = L v ∧ Borders adj v (par v) ∧ rank v = rank (par v) + 1

section
variable {n : Nat} {κ : Type} [DecidableEq κ] {adj : Adj n} {L : Fin n → κ}

/-- The number of areas in the region of `v`. -/
def sizeAt (L : Fin n → κ) (v : Fin n) : Nat :=
  (Finset.univ.filter fun u => L u = L v).card

theorem exists_rooted (h : AllContiguous adj L) (root : κ → Fin n)
    (hroot : ∀ v, L (root (L v)) = L v) : ∃ rank par, Rooted adj L root rank par ∧
      (∀ v, rank v + 1 ≤ sizeAt L v) ∧
      ∀ v b c, L b = L v → L c = L v → b ≠ root (L v) → c ≠ root (L v) → b ≠ c →
        Borders adj (root (L v)) b → Borders adj (root (L v)) c → rank v + 2 ≤ sizeAt L v := by
  classical
  have hex : ∀ r : κ, ∃ rank par, (∃ v, L v = r) →
      Ranked adj (regionOf L r) (root r) rank par ∧
      ∀ v ∈ regionOf L r, v ≠ root r → Borders adj (root r) v → rank v = 1 := by
    intro r
    by_cases hr : ∃ v, L v = r
    · obtain ⟨v, rfl⟩ := hr
      obtain ⟨rank, par, h1⟩ := exists_ranked (h v) (show root (L v) ∈ regionOf L (L v) from hroot v)
      exact ⟨rank, par, fun _ => h1⟩
    · exact ⟨fun _ => 0, id, fun h => absurd h hr⟩
  choose rank par hrp using hex
  have hR : ∀ v, Ranked adj (regionOf L (L v)) (root (L v)) (rank (L v)) (par (L v)) :=
    fun v => (hrp (L v) ⟨v, rfl⟩).1
  have hT : ∀ v x, x ∈ (Finset.univ.filter fun u => L u = L v) ↔ x ∈ regionOf L (L v) :=
    fun v x => by simp [regionOf]
  refine ⟨fun v => rank (L v) v, fun v => par (L v) v, ⟨hroot, ?_, ?_⟩, ?_, ?_⟩
  · exact fun v => (hR v).zero v rfl
  · intro v hv
    obtain ⟨h1, h2, h3⟩ := (hR v).step v rfl hv
    have h1' : L (par (L v) v) = L v := h1
    exact ⟨h1', h2, by rw [h1']; exact h3⟩
  · exact fun v => (hR v).card rfl _ (hT v)
  · intro v b c hb hc hbr hcr hbc h1 h2
    have h3 := (hrp (L v) ⟨v, rfl⟩).2
    exact (hR v).card_two hb hc hbc (h3 b hb hbr h1) (h3 c hc hcr h2) rfl _ (hT v)

/-- Roots can be chosen such that in every region with three areas or more the furthest area is
less than the number of areas minus one away. -/
theorem exists_rooted_flat (v0 : Fin n) (h : AllContiguous adj L) : ∃ root rank par, Rooted adj L root rank par ∧
    ∀ v, rank v + 1 ≤ sizeAt L v ∧ (3 ≤ sizeAt L v → rank v + 2 ≤ sizeAt L v) := by
  classical
  have hex : ∀ r : κ, ∃ s, (∃ v, L v = r) → L s = r ∧
      (3 ≤ (Finset.univ.filter fun u => L u = r).card → ∃ b c, L b = r ∧ L c = r ∧ b ≠ s ∧ c ≠ s ∧
        b ≠ c ∧ Borders adj s b ∧ Borders adj s c) := by
    intro r
    by_cases hr : ∃ v, L v = r
    · obtain ⟨v, rfl⟩ := hr
      by_cases h3 : 3 ≤ (Finset.univ.filter fun u => L u = L v).card
      · obtain ⟨s, hs, b, hb, c, hc, h1, h2, h3, h4, h5⟩ := exists_two_neighbours (h v)
          (Finset.univ.filter fun u => L u = L v) (fun x => by simp [regionOf]) h3
        exact ⟨s, fun _ => ⟨hs, fun _ => ⟨b, c, hb, hc, h1, h2, h3, h4, h5⟩⟩⟩
      · exact ⟨v, fun _ => ⟨rfl, fun h => absurd h h3⟩⟩
    · exact ⟨v0, fun h => absurd h hr⟩
  choose root hroot using hex
  obtain ⟨rank, par, hR, h1, h2⟩ := exists_rooted h root fun v => (hroot (L v) ⟨v, rfl⟩).1
  refine ⟨root, rank, par, hR, fun v => ⟨h1 v, fun h3 => ?_⟩⟩
  obtain ⟨b, c, hb, hc, e1, e2, e3, e4, e5⟩ := (hroot (L v) ⟨v, rfl⟩).2 h3
  exact h2 v b c hb hc e1 e2 e3 e4 e5

/-- One step towards the root. -/
def Up (L : Fin n → κ) (root : κ → Fin n) (par : Fin n → Fin n) (x y : Fin n) : Prop :=
  x ≠ root (L x) ∧ y = par x

open Classical in
/-- The areas whose way to the root passes `u`. -/
noncomputable def descendants (L : Fin n → κ) (root : κ → Fin n) (par : Fin n → Fin n) (u : Fin n) :
    Finset (Fin n) :=
  Finset.univ.filter fun i => ReflTransGen (Up L root par) i u

variable {root : κ → Fin n} {rank : Fin n → Nat} {par : Fin n → Fin n}

omit [DecidableEq κ] in
theorem mem_descendants {i u : Fin n} :
    i ∈ descendants L root par u ↔ ReflTransGen (Up L root par) i u := by
  simp [descendants]

omit [DecidableEq κ] in
theorem Rooted.up_rank (h : Rooted adj L root rank par) {x y : Fin n}
    (hxy : ReflTransGen (Up L root par) x y) : L y = L x ∧ (rank y < rank x ∨ x = y) := by
  induction hxy with
  | refl => exact ⟨rfl, Or.inr rfl⟩
  | @tail c d _ hcd ih =>
    obtain ⟨h1, -, h3⟩ := h.step c hcd.1
    rw [hcd.2]
    refine ⟨h1.trans ih.1, Or.inl ?_⟩
    rcases ih.2 with h2 | rfl <;> omega

omit [DecidableEq κ] in
theorem Rooted.card_descendants (h : Rooted adj L root rank par) (u : Fin n) :
    (descendants L root par u).card = 1 + ∑ c ∈ Finset.univ.filter
      (fun c => c ≠ root (L c) ∧ par c = u), (descendants L root par c).card := by
  classical
  have heq : descendants L root par u = insert u ((Finset.univ.filter
      (fun c => c ≠ root (L c) ∧ par c = u)).biUnion fun c => descendants L root par c) := by
    ext i
    simp only [Finset.mem_insert, Finset.mem_biUnion, mem_descendants, Finset.mem_filter,
      Finset.mem_univ, true_and]
    constructor
    · intro hi
      rcases ReflTransGen.cases_tail hi with rfl | ⟨c, hc, hcu⟩
      · exact Or.inl rfl
      · exact Or.inr ⟨c, ⟨hcu.1, hcu.2.symm⟩, hc⟩
    · rintro (rfl | ⟨c, ⟨hc1, hc2⟩, hc⟩)
      · exact .refl
      · exact hc.tail ⟨hc1, hc2.symm⟩
  rw [heq, Finset.card_insert_of_notMem, Finset.card_biUnion, Nat.add_comm]
  · intro c hc c' hc' hne
    rw [Function.onFun, Finset.disjoint_left]
    intro i hi hi'
    rw [mem_descendants] at hi hi'
    have hc := (Finset.mem_filter.1 hc).2
    have hc' := (Finset.mem_filter.1 hc').2
    have hr : rank c = rank c' := by
      have h1 := (h.step c hc.1).2.2
      have h2 := (h.step c' hc'.1).2.2
      rw [hc.2] at h1
      rw [hc'.2] at h2
      omega
    have hun : Relator.RightUnique (Up L root par) := fun x y z hy hz => hy.2.trans hz.2.symm
    rcases hi.total_of_right_unique hun hi' with h1 | h1
    · rcases (h.up_rank h1).2 with h2 | h2
      · omega
      · exact hne h2
    · rcases (h.up_rank h1).2 with h2 | h2
      · omega
      · exact hne h2.symm
  · rw [Finset.mem_biUnion]
    rintro ⟨c, hc, hu⟩
    have hc := (Finset.mem_filter.1 hc).2
    rw [mem_descendants] at hu
    have h1 := (h.step c hc.1).2.2
    rw [hc.2] at h1
    rcases (h.up_rank hu).2 with h2 | h2
    · omega
    · rw [h2] at h1; omega

theorem Rooted.card_descendants_le (h : Rooted adj L root rank par) (u : Fin n) :
    (descendants L root par u).card ≤ sizeAt L u := by
  apply Finset.card_le_card
  intro i hi
  have := (h.up_rank (mem_descendants.1 hi)).1
  simpa using this.symm

open Finset in
/-- With `p` regions in use, none has more than `n - p + 1` areas. -/
theorem sizeAt_add_le {p : Nat} {L : Fin n → Nat} (hL : ∀ i, L i < p)
    (hsurj : ∀ k < p, ∃ i, L i = k) (v : Fin n) : sizeAt L v + p ≤ n + 1 := by
  have h1 : (univ.image L).card = p := by
    rw [show univ.image L = range p from ?_, card_range]
    ext k
    simp only [mem_image, mem_univ, true_and, mem_range]
    exact ⟨fun ⟨i, hi⟩ => hi ▸ hL i, hsurj k⟩
  have h2 : univ.image L ⊆ insert (L v) ((univ.filter fun u => ¬ L u = L v).image L) := by
    intro k hk
    obtain ⟨i, -, rfl⟩ := mem_image.1 hk
    by_cases hi : L i = L v
    · simp [hi]
    · exact mem_insert_of_mem (mem_image_of_mem _ (by simp [hi]))
  have h3 := card_le_card h2
  have h4 := card_insert_le (L v) ((univ.filter fun u => ¬ L u = L v).image L)
  have h5 := card_image_le (s := univ.filter fun u => ¬ L u = L v) (f := L)
  have h6 := card_filter_add_card_filter_not (s := (univ : Finset (Fin n))) fun u => L u = L v
  rw [card_univ, Fintype.card_fin] at h6
  unfold sizeAt
  omega

end

end Region
