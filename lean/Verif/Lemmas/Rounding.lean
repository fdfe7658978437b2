import Verif.Lemmas.MaxPExact
import Verif.Lemmas.ExactTree
/-
Lemmas: what the exact methods read off values of the variables that are only close to integers.
-/
namespace Region

open Finset

/-- A fold that overwrites its result at the elements with a property shared by no other element than
`x`. -/
theorem foldl_overwrite_one {α β : Type} [DecidableEq α] (l : List α) (t : α → Bool) (g : α → β) (x : α)
    (hx : x ∈ l) (hu : ∀ y ∈ l, t y = true → y = x) (r : β) :
    l.foldl (fun r y => if t y = true then g y else r) r = if t x = true then g x else r := by
  by_cases h : t x = true
  · rw [if_pos h]
    exact foldl_overwrite l t g x hx h (fun y hy ht => by rw [hu y hy ht]) r
  · rw [if_neg h]
    have : ∀ y ∈ l, ¬ t y = true := fun y hy ht => h (hu y hy ht ▸ ht)
    clear hx hu h
    induction l generalizing r with
    | nil => rfl
    | cons y l ih =>
      rw [List.foldl_cons, if_neg (this y (by simp))]
      exact ih _ fun z hz => this z (by simp [hz])

variable {n : Nat} {adj : Adj n} {p K O : Nat}

/-- Values of which none is 1 where the solution has 0: an area gets its region in the solution if the
value of its variable is 1 and 0 otherwise. -/
theorem FlowSol.flowDecode_any {a : FlowVar n → ℤ} (h : FlowSol adj p a) {vals : FlowVar n → Option ℚ}
    (hz : ∀ i k, k < p → a (.y i k) = 0 → vals (.y i k) ≠ some 1) (i : Fin n) (k : Nat) (hk : k < p)
    (h1 : a (.y i k) = 1) :
    Region.flowDecode p vals i = if vals (.y i k) = some 1 then (k : Int) else 0 := by
  obtain ⟨k0, hk0, -, hu⟩ := h.region i
  have hkk : k = k0 := by by_contra hne; have := hu k hk hne; omega
  subst hkk
  have := foldl_overwrite_one (List.range p) (fun k => decide (vals (.y i k) = some 1))
    (fun k => (k : Int)) k (List.mem_range.2 hk) (by
      intro k' hk' ht
      by_contra hne
      exact hz i k' (List.mem_range.1 hk') (hu k' (List.mem_range.1 hk') hne) (by simpa using ht)) 0
  simpa [Region.flowDecode] using this

/-- The same for the variables of the order model. -/
theorem OrderX.decode_any {x : Fin n → Nat → Nat → ℤ} (h : OrderX adj K O x)
    {vals : Nat → Nat → Option ℚ} {i : Fin n}
    (hz : ∀ k o, k < K → o < O → x i k o = 0 → vals k o ≠ some 1) {k o : Nat} (hk : k < K) (ho : o < O)
    (h1 : x i k o = 1) :
    ((List.range K).flatMap fun k => (List.range O).map fun o => (k, o)).foldl
      (fun r ko => if vals ko.1 ko.2 = some 1 then (ko.1 : Int) else r) 0 =
      if vals k o = some 1 then (k : Int) else 0 := by
  obtain ⟨k0, o0, hk0, ho0, -, hu⟩ := h.place i
  have hkk : k = k0 ∧ o = o0 := by
    by_contra hne
    have := hu k o hk ho (by omega)
    omega
  obtain ⟨rfl, rfl⟩ := hkk
  have hmem : ∀ q : Nat × Nat, q ∈ ((List.range K).flatMap fun k => (List.range O).map fun o => (k, o)) ↔
      q.1 < K ∧ q.2 < O := by
    rintro ⟨a, b⟩
    simp
  have := foldl_overwrite_one ((List.range K).flatMap fun k => (List.range O).map fun o => (k, o))
    (fun ko => decide (vals ko.1 ko.2 = some 1)) (fun ko => (ko.1 : Int)) (k, o)
    ((hmem _).2 ⟨hk, ho⟩) (by
      rintro ⟨k', o'⟩ hq ht
      obtain ⟨hk', ho'⟩ := (hmem _).1 hq
      by_contra hne
      refine hz k' o' hk' ho' (hu k' o' hk' ho' ?_) (by simpa using ht)
      by_contra hc
      push Not at hc
      exact hne (by rw [hc.1, hc.2])) 0
  simpa using this

/-- The decoding of the tree model looks only at which values are 1. -/
theorem treeRegions_congr {vals vals' : TreeVar n → Option ℚ}
    (h : ∀ i j, i ≠ j → (vals (.t i j) = some 1 ↔ vals' (.t i j) = some 1)) (k : Nat) :
    ∀ (idx : List (Fin n)), idx.Nodup → ∀ r, treeRegions vals k idx r = treeRegions vals' k idx r := by
  induction k with
  | zero => intros; rfl
  | succ k ih =>
    intro idx hnd r
    unfold treeRegions
    cases hg : idx[r 0 % idx.length]? with
    | none => rfl
    | some area =>
      have e : (idx.erase area).filter (fun o => decide (vals (.t area o) = some 1)) =
          (idx.erase area).filter (fun o => decide (vals' (.t area o) = some 1)) := by
        refine List.filter_congr fun o ho => ?_
        have hne : area ≠ o := by
          rintro rfl
          exact (hnd.not_mem_erase) ho
        simp only [h area o hne]
      simp only [e]
      rw [ih _ ((hnd.erase _).filter _)]

/-- Filling in the regions does not change the length of the array. -/
theorem fillRegion_len (v : Nat) : ∀ (as l l' : List Nat),
    fillRegion v as l = .ok l' → l'.length = l.length
  | [], l, l', h => by simp only [fillRegion, Res.ok.injEq] at h; rw [h]
  | a :: as, l, l', h => by
    obtain ⟨m, h1, h2⟩ := Res.bind_eq_ok.1 h
    rw [fillRegion_len v as m l' h2]
    unfold setItem at h1
    split at h1
    · simp only [Res.ok.injEq] at h1; rw [← h1, List.length_set]
    · cases h1

theorem fillRegions_len : ∀ (regs : List (List Nat)) (v : Nat) (l l' : List Nat),
    fillRegions regs v l = .ok l' → l'.length = l.length
  | [], v, l, l', h => by simp only [fillRegions, Res.ok.injEq] at h; rw [h]
  | reg :: regs, v, l, l', h => by
    obtain ⟨m, h1, h2⟩ := Res.bind_eq_ok.1 h
    rw [fillRegions_len regs (v + 1) m l' h2, fillRegion_len v reg l m h1]

/-- No value is 1: every region read off has one area. -/
theorem treeRegions_none {vals : TreeVar n → Option ℚ} (h : ∀ i j, vals (.t i j) ≠ some 1) (k : Nat) :
    ∀ (idx : List (Fin n)) r regs, treeRegions vals k idx r = .ok regs →
      regs.length = k ∧ ∀ reg ∈ regs, reg.length = 1 := by
  induction k with
  | zero => 
    intro idx r regs hr
    simp only [treeRegions, Res.ok.injEq] at hr
    subst hr; simp
  | succ k ih =>
    intro idx r regs hr
    unfold treeRegions at hr
    cases hg : idx[r 0 % idx.length]? with
    | none => rw [hg] at hr; cases hr
    | some area =>
      rw [hg] at hr
      simp only [h, decide_false] at hr
      obtain ⟨rs, h1, h2⟩ := Res.bind_eq_ok.1 hr
      simp only [Res.ok.injEq] at h2
      obtain ⟨e1, e2⟩ := ih _ _ _ h1
      subst h2
      refine ⟨by simp [e1], ?_⟩
      intro reg hreg
      rcases List.mem_cons.1 hreg with rfl | hreg
      · simp
      · exact e2 reg hreg

/-- No value is 1: the array made has as many entries as there are regions. -/
theorem treeDecode_none {vals : TreeVar n → Option ℚ} (h : ∀ i j, vals (.t i j) ≠ some 1) {r : Rng}
    {l : List Nat} (hl : treeDecode p vals r = .ok l) : l.length = p := by
  obtain ⟨regs, h1, h2⟩ := Res.bind_eq_ok.1 hl
  obtain ⟨e1, e2⟩ := treeRegions_none h p _ _ _ h1
  unfold arrayFromRegionList at h2
  rw [fillRegions_len _ _ _ _ h2, List.length_replicate, List.map_map, List.map_congr_left (g := fun _ => 1)
    (fun reg hreg => by simp [e2 reg hreg])]
  simp [e1]

/-- The regions read off do not overlap. -/
theorem treeRegions_nodup {vals : TreeVar n → Option ℚ} (k : Nat) :
    ∀ (idx : List (Fin n)) r regs, idx.Nodup → treeRegions vals k idx r = .ok regs →
      regs.flatten.Nodup ∧ ∀ i ∈ regs.flatten, i ∈ idx := by
  induction k with
  | zero =>
    intro idx r regs _ hr
    simp only [treeRegions, Res.ok.injEq] at hr
    subst hr; simp
  | succ k ih =>
    intro idx r regs hnd hr
    unfold treeRegions at hr
    cases hg : idx[r 0 % idx.length]? with
    | none => rw [hg] at hr; cases hr
    | some area =>
      rw [hg] at hr
      obtain ⟨rs, h1, h2⟩ := Res.bind_eq_ok.1 hr
      simp only [Res.ok.injEq] at h2
      obtain ⟨e1, e2⟩ := ih _ _ _ ((hnd.erase _).filter _) h1
      have harea : area ∈ idx := List.mem_of_getElem? hg
      subst h2
      rw [List.flatten_cons]
      constructor
      · rw [List.nodup_append]
        refine ⟨List.nodup_cons.2 ⟨fun h => hnd.not_mem_erase (List.mem_filter.1 h).1, (hnd.erase _).filter _⟩,
          e1, ?_⟩
        rintro x hx y hy rfl
        have := (List.mem_filter.1 (e2 x hy)).2
        rw [List.contains_eq_mem, decide_eq_true hx] at this
        cases this
      · intro i hi
        rcases List.mem_append.1 hi with hi | hi
        · rcases List.mem_cons.1 hi with rfl | hi
          · exact harea
          · exact List.mem_of_mem_erase (List.mem_filter.1 hi).1
        · exact List.mem_of_mem_erase (List.mem_filter.1 (e2 i hi)).1

/-- If area `i` is taken first and its value with area `j` is not 1, an array with an entry for every area has
different labels for the two. -/
theorem treeDecode_apart {vals : TreeVar n → Option ℚ} {i j : Fin n} (hij : i ≠ j) (hv : vals (.t i j) ≠ some 1)
    (hp : 0 < p) {r : Rng} (hr : r 0 = i.val) {l : List Nat} (hl : treeDecode p vals r = .ok l)
    (hlen : l.length = n) : labelsOf l i ≠ labelsOf l j := by
  obtain ⟨k, rfl⟩ := Nat.exists_eq_succ_of_ne_zero hp.ne'
  obtain ⟨regs, h1, h2⟩ := Res.bind_eq_ok.1 hl
  obtain ⟨hnd, -⟩ := treeRegions_nodup _ _ _ _ (List.nodup_finRange n) h1
  have hsum : regs.flatten.length = n := by
    have h3 := h2
    unfold arrayFromRegionList at h3
    have h4 := fillRegions_len _ _ _ _ h3
    rw [List.length_replicate, List.map_map] at h4
    rw [List.length_flatten]
    refine Eq.trans ?_ (h4.symm.trans hlen)
    congr 2
    funext reg
    simp
  have hperm : regs.flatten.Perm (List.finRange n) :=
    (List.subperm_of_subset hnd fun x _ => List.mem_finRange x).perm_of_length_le (by rw [hsum, List.length_finRange])
  have hperm' : (regs.map fun reg => reg.map Fin.val).flatten.Perm (List.range n) := by
    have := hperm.map Fin.val
    rw [List.map_coe_finRange_eq_range] at this
    rwa [List.map_flatten] at this
  obtain ⟨l', h3, -, h5⟩ := Props.c09_array_from_region_list _ n hperm'
  rw [h2, Res.ok.injEq] at h3
  subst h3
  have hval : ∀ x : Fin n, ∃ hr : labelsOf l x < regs.length, x ∈ regs[labelsOf l x] := by
    intro x
    have hx : x.val < l.length := by rw [hlen]; exact x.isLt
    have hget : l[x.val]? = some (labelsOf l x) := by
      unfold labelsOf
      rw [List.getElem?_eq_getElem hx, List.getD_eq_getElem?_getD, List.getElem?_eq_getElem hx]
      rfl
    obtain ⟨hr, hm⟩ := (h5 _ _).1 hget
    rw [List.length_map] at hr
    refine ⟨hr, ?_⟩
    rw [List.getElem_map] at hm
    obtain ⟨y, hy, hyx⟩ := List.mem_map.1 hm
    have := Fin.ext hyx
    subst this
    exact hy
  unfold treeRegions at h1
  have hget : (List.finRange n)[r 0 % (List.finRange n).length]? = some i := by
    rw [hr, List.length_finRange, Nat.mod_eq_of_lt i.isLt, List.getElem?_eq_getElem (by simp), List.getElem_finRange]
    simp
  rw [hget] at h1
  obtain ⟨rs, -, h6⟩ := Res.bind_eq_ok.1 h1
  simp only [Res.ok.injEq] at h6
  intro heq
  obtain ⟨hri, hi⟩ := hval i
  obtain ⟨hrj, hj⟩ := hval j
  have h0 : labelsOf l i = 0 := by
    by_contra hne
    have hdis := (List.nodup_flatten.1 hnd).2
    have h7 : i ∈ regs[0]'(Nat.zero_lt_of_lt hri) := by
      subst h6
      simp
    exact List.pairwise_iff_getElem.1 hdis _ _ (Nat.zero_lt_of_lt hri) hri (Nat.pos_of_ne_zero hne) h7 hi
  have h8 : j ∈ regs[0]'(Nat.zero_lt_of_lt hri) := by
    simpa only [← heq, h0] using hj
  subst h6
  rw [List.getElem_cons_zero] at h8
  rcases List.mem_cons.1 h8 with h8 | h8
  · exact hij h8.symm
  · exact hv (by simpa using (List.mem_filter.1 h8).2)

end Region
