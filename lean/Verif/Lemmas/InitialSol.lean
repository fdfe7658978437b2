import Mathlib.Data.Int.Interval
import Mathlib.Algebra.BigOperators.Group.List.Basic
import Mathlib.Tactic.Ring
import Mathlib.Data.List.Forall2
import Verif.Lemmas.Forest
/-
Lemmas about `distribute_regions_among_components`, `_randomly_divide_connected_graph` and
`generate_initial_sol`.
-/
namespace Region

open Spec

theorem list_sum_nonneg {l : List Int} (h : ∀ x ∈ l, 0 ≤ x) : 0 ≤ l.sum := by
  induction l with
  | nil => simp
  | cons a as ih =>
    have h1 := h a (by simp)
    have h2 := ih fun x hx => h x (by simp [hx])
    simp only [List.sum_cons]; omega

theorem forall₂_imp_of_mem {α β : Type} {R S : α → β → Prop} {l : List α} {l' : List β}
    (h : ∀ a ∈ l, ∀ b, R a b → S a b) (hl : List.Forall₂ R l l') : List.Forall₂ S l l' := by
  induction hl with
  | nil => exact .nil
  | cons hab _ ih =>
    exact .cons (h _ (by simp) _ hab) (ih fun a ha => h a (by simp [ha]))

/-! ### distribute_regions_among_components -/

/-- The number of regions handed out so far. -/
def IntDict.total (d : IntDict) : Int := (d.keys.map fun k => (d.get k).getD 0).sum

theorem distributeFirst_spec (comps lst : List Nat) (d : IntDict) (hnd : comps.Nodup)
    (hdis : ∀ c ∈ comps, c ∉ d.keys) :
    let res := distributeFirst comps lst d
    res.2.keys = d.keys ++ comps ∧
    (∀ c ∈ comps, res.2.get c = some 1) ∧
    (∀ c, c ∉ comps → res.2.get c = d.get c) ∧
    (∀ c ∈ comps, res.1.count c = lst.count c - 1) ∧
    (∀ c, c ∉ comps → res.1.count c = lst.count c) ∧
    ((∀ c ∈ comps, c ∈ lst) → res.1.length + comps.length = lst.length) := by
  induction comps generalizing lst d with
  | nil => simp [distributeFirst]
  | cons c cs ih =>
    rw [List.nodup_cons] at hnd
    have hck : c ∉ d.keys := hdis c (by simp)
    have hset : (d.setOne c).keys = d.keys ++ [c] := by
      simp [IntDict.setOne, hck]
    have hdis' : ∀ c' ∈ cs, c' ∉ (d.setOne c).keys := by
      intro c' hc'
      rw [hset]
      simp only [List.mem_append, List.mem_singleton, not_or]
      exact ⟨hdis c' (by simp [hc']), fun h => hnd.1 (h ▸ hc')⟩
    obtain ⟨h1, h2, h3, h4, h5, h6⟩ := ih (lst.erase c) (d.setOne c) hnd.2 hdis'
    simp only [distributeFirst]
    refine ⟨?_, ?_, ?_, ?_, ?_, ?_⟩
    · rw [h1, hset]; simp
    · intro c' hc'
      rcases List.mem_cons.1 hc' with rfl | hc'
      · rw [h3 _ hnd.1]; simp [IntDict.setOne]
      · exact h2 c' hc'
    · intro c' hc'
      simp only [List.mem_cons, not_or] at hc'
      rw [h3 _ hc'.2]; simp [IntDict.setOne, hc'.1]
    · intro c' hc'
      rcases List.mem_cons.1 hc' with rfl | hc'
      · rw [h5 _ hnd.1, List.count_erase_self]
      · rw [h4 _ hc', List.count_erase_of_ne]
        intro h; exact hnd.1 (h ▸ hc')
    · intro c' hc'
      simp only [List.mem_cons, not_or] at hc'
      rw [h5 _ hc'.2, List.count_erase_of_ne hc'.1]
    · intro hall
      have hmem : c ∈ lst := hall c (by simp)
      have hall' : ∀ c' ∈ cs, c' ∈ lst.erase c := by
        intro c' hc'
        rw [List.mem_erase_of_ne]
        · exact hall c' (by simp [hc'])
        · rintro rfl; exact hnd.1 hc'
      have := h6 hall'
      have h7 := List.length_erase_of_mem hmem
      have h8 := List.length_pos_of_mem hmem
      simp only [List.length_cons]
      omega

theorem sum_map_incr {keys : List Nat} (hnd : keys.Nodup) {k : Nat} (hk : k ∈ keys) {f g : Nat → Int}
    (hg : g k = f k + 1) (hother : ∀ x, x ≠ k → g x = f x) :
    (keys.map g).sum = (keys.map f).sum + 1 := by
  induction keys with
  | nil => cases hk
  | cons a as ih =>
    rw [List.nodup_cons] at hnd
    simp only [List.map_cons, List.sum_cons]
    by_cases hak : a = k
    · subst hak
      have : as.map g = as.map f := by
        apply List.map_congr_left
        intro x hx
        exact hother x (fun h => hnd.1 (h ▸ hx))
      rw [this, hg]; ring
    · have hk' : k ∈ as := by
        rcases List.mem_cons.1 hk with h | h
        · exact absurd h.symm hak
        · exact h
      rw [ih hnd.2 hk', hother a hak]; ring

theorem distributeRest_spec (m : Nat) (lst : List Nat) (d : IntDict) (r : Rng)
    (hm : m ≤ lst.length) (hkeys : d.keys.Nodup) (hlst : ∀ x ∈ lst, x ∈ d.keys)
    (hget : ∀ x ∈ d.keys, ∃ v, d.get x = some v) :
    ∃ d' r', distributeRest m lst d r = .ok (d', r') ∧ d'.keys = d.keys ∧
      d'.total = d.total + m ∧
      (∀ c, c ∉ d.keys → d'.get c = d.get c) ∧
      (∀ c v, d.get c = some v → ∃ v', d'.get c = some v' ∧ v ≤ v' ∧ v' ≤ v + lst.count c) := by
  induction m generalizing lst d r with
  | zero =>
    refine ⟨d, r, rfl, rfl, by simp, fun _ _ => rfl, ?_⟩
    intro c v hv
    exact ⟨v, hv, le_refl _, by omega⟩
  | succ m ih =>
    have hne : lst ≠ [] := by rintro rfl; simp at hm
    obtain ⟨pos, hpos, hpop⟩ := popRandomlyFrom_ne_nil hne r
    have hmem : lst[pos] ∈ d.keys := hlst _ (List.getElem_mem _)
    obtain ⟨v, hv⟩ := hget _ hmem
    set p := lst[pos] with hp
    set d1 : IntDict := { d with get := fun x => if x = p then some (v + 1) else d.get x } with hd1
    have hincr : d.incr p = .ok d1 := by simp [IntDict.incr, hv, hd1]
    have hlen : (lst.eraseIdx pos).length = lst.length - 1 := List.length_eraseIdx_of_lt hpos
    obtain ⟨d', r', h1, h2, h3, h4, h5⟩ := ih (lst.eraseIdx pos) d1 r.next (by omega) hkeys
      (fun x hx => hlst x (List.mem_of_mem_eraseIdx hx))
      (fun x hx => by
        by_cases hxp : x = p
        · exact ⟨v + 1, by simp [hd1, hxp]⟩
        · obtain ⟨w, hw⟩ := hget x hx
          exact ⟨w, by simp [hd1, hxp, hw]⟩)
    have hcount : ∀ c, lst.count c = (lst.eraseIdx pos).count c + if c = p then 1 else 0 := by
      intro c
      have hperm := List.getElem_cons_eraseIdx_perm hpos
      rw [← hperm.count_eq c, List.count_cons]
      simp only [beq_iff_eq]
      congr 1
      by_cases h : c = p <;> simp [h, hp, eq_comm]
    refine ⟨d', r', ?_, h2, ?_, ?_, ?_⟩
    · unfold distributeRest
      rw [hpop]
      simp only [Res.bind_ok, hincr]
      exact h1
    · rw [h3]
      have : d1.total = d.total + 1 := by
        unfold IntDict.total
        apply sum_map_incr hkeys hmem
        · simp [hd1, hv]
        · intro x hx; simp [hd1, hx]
      rw [this]; push_cast; ring
    · intro c hc
      rw [h4 c hc]
      have : c ≠ p := fun h => hc (h ▸ hmem)
      simp [hd1, this]
    · intro c w hw
      by_cases hcp : c = p
      · rw [hcp, hv] at hw
        cases hw
        obtain ⟨v', hv1, hv2, hv3⟩ := h5 c (v + 1) (by simp [hd1, hcp])
        refine ⟨v', hv1, by omega, ?_⟩
        have := hcount c
        simp only [hcp, if_true] at this hv3 ⊢
        omega
      · obtain ⟨v', hv1, hv2, hv3⟩ := h5 c w (by simp [hd1, hcp, hw])
        refine ⟨v', hv1, hv2, ?_⟩
        have := hcount c
        simp only [hcp, if_false] at this
        omega

/-- Everything the callers of `distribute_regions_among_components` rely on. -/
theorem distributeRegions_spec (L : List Nat) (p : Int) (r : Rng) (h0 : 0 ∈ L)
    (hlo : ((uniqueSorted L).length : Int) ≤ p) (hhi : p ≤ L.length) :
    ∃ d r', distributeRegions L p r = .ok (d, r') ∧ d.keys = uniqueSorted L ∧ d.total = p ∧
      (∀ c, c ∉ L → d.get c = none) ∧
      (∀ c ∈ L, ∃ v, d.get c = some v ∧ 1 ≤ v ∧ v ≤ L.count c) := by
  unfold distributeRegions
  by_cases h1 : (uniqueSorted L).length = 1
  · obtain ⟨c, hc⟩ := List.length_eq_one_iff.1 h1
    have hmem : ∀ x, x ∈ L ↔ x = c := by
      intro x; rw [← mem_uniqueSorted, hc]; simp
    have hc0 : c = 0 := ((hmem 0).1 h0).symm
    subst hc0
    refine ⟨_, _, if_pos h1, hc.symm, by simp [IntDict.total], ?_, ?_⟩
    · intro c hcL
      have : c ≠ 0 := fun h => hcL ((hmem c).2 h)
      simp [this]
    · intro c hcL
      have : c = 0 := (hmem c).1 hcL
      subst this
      refine ⟨p, by simp, ?_, ?_⟩
      · rw [h1] at hlo; exact_mod_cast hlo
      · have : L.count 0 = L.length := List.count_eq_length.2 fun b hb => ((hmem b).1 hb).symm
        rw [this]; exact hhi
  · obtain ⟨g1, g2, g3, g4, g5, g6⟩ := distributeFirst_spec (uniqueSorted L) L
      { keys := [], get := fun _ => none } (uniqueSorted_nodup L) (by simp)
    have g6' := g6 (fun c hc => mem_uniqueSorted.1 hc)
    simp only [List.nil_append] at g1
    obtain ⟨d', r', e1, e2, e3, e4, e5⟩ := distributeRest_spec
      (p - (uniqueSorted L).length).toNat
      (distributeFirst (uniqueSorted L) L { keys := [], get := fun _ => none }).1
      (distributeFirst (uniqueSorted L) L { keys := [], get := fun _ => none }).2 r
      (by omega) (by rw [g1]; exact uniqueSorted_nodup L)
      (by
        intro x hx
        rw [g1, mem_uniqueSorted]
        by_contra hxL
        have := g5 x (by rwa [mem_uniqueSorted])
        rw [List.count_eq_zero.2 hxL] at this
        exact (List.count_pos_iff.2 hx).ne' this)
      (by intro x hx; rw [g1] at hx; exact ⟨1, g2 x hx⟩)
    refine ⟨d', r', ?_, by rw [e2, g1], ?_, ?_, ?_⟩
    · simp only [h1, if_false]; exact e1
    · rw [e3]
      have : (distributeFirst (uniqueSorted L) L { keys := [], get := fun _ => none }).2.total
          = (uniqueSorted L).length := by
        unfold IntDict.total
        rw [g1]
        have : (uniqueSorted L).map (fun k => ((distributeFirst (uniqueSorted L) L
            { keys := [], get := fun _ => none }).2.get k).getD 0)
            = (uniqueSorted L).map (fun _ => (1 : Int)) := by
          apply List.map_congr_left
          intro x hx
          rw [g2 x hx]; rfl
        rw [this]; simp
      rw [this]
      omega
    · intro c hc
      rw [e4 c (by rw [g1, mem_uniqueSorted]; exact hc), g3 c (by rw [mem_uniqueSorted]; exact hc)]
    · intro c hc
      have hcu : c ∈ uniqueSorted L := mem_uniqueSorted.2 hc
      obtain ⟨v', hv1, hv2, hv3⟩ := e5 c 1 (g2 c hcu)
      refine ⟨v', hv1, hv2, ?_⟩
      rw [g4 c hcu] at hv3
      have := List.count_pos_iff.2 hc
      omega

/-! ### _randomly_divide_connected_graph -/

theorem maxComponentSize_isSome {n : Nat} (hn : 0 < n) (adj : Adj n) :
    ∃ s, maxComponentSize adj = some s := by
  unfold maxComponentSize uniqueCounts
  have : compLabels adj ⟨0, hn⟩ ∈ (arrayList (compLabels adj)).eraseDups := by
    simp [mem_arrayList]
  cases h : ((arrayList (compLabels adj)).eraseDups.map
      (fun x => (x, (arrayList (compLabels adj)).count x))).map Prod.snd with
  | nil => simp at h; rw [h] at this; cases this
  | cons a as => exact ⟨_, List.max?_cons⟩

theorem tryLinks_spec {n : Nat} (hn : 0 < n) {mst : List (Fin n × Fin n)} (hmst : mst ≠ [])
    (t : Nat) (best : Option ((Fin n × Fin n) × Nat)) (r : Rng)
    (hbest : ∀ b, best = some b → b.1 ∈ mst) (h : 0 < t ∨ best.isSome) :
    ∃ b r', tryLinks mst t best r = .ok (some b, r') ∧ b.1 ∈ mst := by
  induction t generalizing best r with
  | zero =>
    rcases h with h | h
    · omega
    · obtain ⟨b, hb⟩ := Option.isSome_iff_exists.1 h
      exact ⟨b, r, by simp [tryLinks, hb], hbest b hb⟩
  | succ t ih =>
    obtain ⟨link, hlink, hrand⟩ := randomElementFrom_ne_nil hmst r
    obtain ⟨s, hs⟩ := maxComponentSize_isSome hn (adjOf (mst.erase link))
    unfold tryLinks
    rw [hrand]
    simp only [Res.bind_ok, hs]
    apply ih
    · intro b hb
      split at hb
      · cases hb; exact hlink
      · rename_i l s' 
        split_ifs at hb
        · cases hb; exact hlink
        · cases hb; exact hbest (l, s') rfl
    · right
      split
      · rfl
      · split_ifs <;> rfl

theorem cutLinks_spec {n : Nat} (hn : 0 < n) (k : Nat) {mst : List (Fin n × Fin n)}
    (hf : IsForest mst) (hk : k ≤ mst.length) (r : Rng) :
    ∃ mst' r', cutLinks k mst r = .ok (mst', r') ∧ IsForest mst' ∧ mst' ⊆ mst ∧
      nComponents (adjOf mst') = nComponents (adjOf mst) + k := by
  induction k generalizing mst r with
  | zero => exact ⟨mst, r, rfl, hf, fun _ h => h, rfl⟩
  | succ k ih =>
    have hne : mst ≠ [] := by rintro rfl; simp at hk
    obtain ⟨b, r1, hb, hbm⟩ := tryLinks_spec hn hne 5 none r (by simp) (Or.inl (by omega))
    obtain ⟨mst', r', h1, h2, h3, h4⟩ := ih (hf.erase b.1)
      (by rw [List.length_erase_of_mem hbm]; omega) r1
    refine ⟨mst', r', ?_, h2, fun x hx => List.mem_of_mem_erase (h3 hx), ?_⟩
    · unfold cutLinks
      rw [hb]
      exact h1
    · rw [h4, hf.nComponents_erase hbm]; omega

theorem randomlyDivide_spec (o : MstOrder) {n : Nat} (adj : Adj n) (hc : Connected adj) (k : Int)
    (hk1 : 1 ≤ k) (hkn : k ≤ n) (r : Rng) :
    ∃ labs r', randomlyDivide o adj k r = .ok (labs, r') ∧ (∀ v, (labs v : Int) < k) ∧
      (∀ c : Nat, (c : Int) < k → ∃ v, labs v = c) ∧ AllContiguous adj labs := by
  obtain ⟨h1, h2, h3, h4, h5⟩ := mst_spec o adj
  have hone := (nComponents_eq_one_iff adj).2 hc
  have hn : 0 < n := by omega
  obtain ⟨mst', r', e1, e2, e3, e4⟩ := cutLinks_spec hn (k - 1).toNat h1 (by omega) r
  refine ⟨compLabels (adjOf mst'), r', ?_, ?_, ?_, ?_⟩
  · unfold randomlyDivide
    rw [if_neg (by omega), if_neg (by omega), e1]
    rfl
  · intro v
    have := compLabels_lt (adjOf mst') v
    omega
  · intro c hck
    exact compLabels_surj (adjOf mst') (by omega)
  · exact contiguous_of_separates (fun e he => h2 e (e3 he)) (compLabels_eq_iff _)

/-! ### generate_initial_sol -/

theorem pathIn_lift {n : Nat} {adj : Adj n} {nodes : List (Fin n)} {T : Set (Fin nodes.length)}
    {S : Set (Fin n)} (hTS : ∀ i ∈ T, nodes.get i ∈ S) {i j : Fin nodes.length}
    (h : PathIn (subAdj adj nodes) T i j) : PathIn adj S (nodes.get i) (nodes.get j) := by
  induction h with
  | refl => exact .refl
  | tail _ h ih => exact ih.tail ⟨hTS _ h.1, hTS _ h.2.1, h.2.2⟩

/-- `y` labels exactly the areas of component `c`, with the labels `lo, …, lo+k-1`, all used,
and every region is contiguous. -/
structure CompCut {n : Nat} (adj : Adj n) (c : Nat) (lo k : Int) (y : Labels n) : Prop where
  out : ∀ v, compLabels adj v ≠ c → y v = -1
  lo_le : ∀ v, compLabels adj v = c → lo ≤ y v
  lt_hi : ∀ v, compLabels adj v = c → y v < lo + k
  surj : ∀ x, lo ≤ x → x < lo + k → ∃ v, compLabels adj v = c ∧ y v = x
  contig : ∀ v, compLabels adj v = c →
    Contiguous adj {u | compLabels adj u = c ∧ y u = y v}

theorem connected_component_subAdj {n : Nat} (adj : Adj n) {c : Nat} (hc : c < nComponents adj) :
    Connected (subAdj adj (whereEq (compLabels adj) c)) := by
  rw [← isConnected_iff, isConnected_subAdj_whereEq]
  obtain ⟨v, hv⟩ := compLabels_surj adj hc
  have hall : AllContiguous adj (compLabels adj) := by
    have : adjOf (edgesOf adj) = adj := by
      funext i j; rw [Bool.eq_iff_iff, adjOf_iff, mem_edgesOf]
    refine contiguous_of_separates (es := edgesOf adj) (fun e he => mem_edgesOf.1 he) ?_
    rw [this]
    exact compLabels_eq_iff adj
  rw [← hv]; exact hall v

theorem divideComponent_spec (o : MstOrder) {n : Nat} (adj : Adj n) {c : Nat}
    (hc : c < nComponents adj) (k built : Int) (hk1 : 1 ≤ k)
    (hk : k ≤ (whereEq (compLabels adj) c).length) (r : Rng) :
    ∃ y r', divideComponent o adj c k built r = .ok (.array y, r') ∧
      CompCut adj c built k y := by
  obtain ⟨labs, r', h1, h2, h3, h4⟩ := randomlyDivide_spec o
    (subAdj adj (whereEq (compLabels adj) c)) (connected_component_subAdj adj hc) k hk1 hk r
  have hnd := whereEq_nodup (compLabels adj) c
  refine ⟨scatter (whereEq (compLabels adj) c) (fun i => (labs i : Int) + built) fun _ => -1, r',
    by unfold divideComponent; simp only [h1]; rfl, ?_⟩
  have hget : ∀ v, compLabels adj v = c → ∃ i, (whereEq (compLabels adj) c).get i = v :=
    fun v hv => List.get_of_mem (mem_whereEq.2 hv)
  have hback : ∀ i, compLabels adj ((whereEq (compLabels adj) c).get i) = c :=
    fun i => mem_whereEq.1 (List.get_mem _ _)
  refine ⟨?_, ?_, ?_, ?_, ?_⟩
  · intro v hv
    exact scatter_not_mem _ _ (fun h => hv (mem_whereEq.1 h))
  · intro v hv
    obtain ⟨i, rfl⟩ := hget v hv
    rw [scatter_mem hnd]; omega
  · intro v hv
    obtain ⟨i, rfl⟩ := hget v hv
    rw [scatter_mem hnd]; have := h2 i; omega
  · intro x hx1 hx2
    obtain ⟨i, hi⟩ := h3 (x - built).toNat (by omega)
    refine ⟨_, hback i, ?_⟩
    rw [scatter_mem hnd]; rw [hi]; omega
  · intro v hv
    obtain ⟨i, rfl⟩ := hget v hv
    refine ⟨⟨_, hv, rfl⟩, ?_⟩
    intro a ha b hb
    obtain ⟨ia, rfl⟩ := hget a ha.1
    obtain ⟨ib, rfl⟩ := hget b hb.1
    have ha2 := ha.2
    have hb2 := hb.2
    rw [scatter_mem hnd, scatter_mem hnd] at ha2 hb2
    refine pathIn_lift ?_ ((h4 i).2 ia ?_ ib ?_)
    · intro j hj
      refine ⟨hback j, ?_⟩
      rw [scatter_mem hnd, scatter_mem hnd]
      have : labs j = labs i := hj
      rw [this]
    · show labs ia = labs i; omega
    · show labs ib = labs i; omega

/-- A generator step can yield the array `y` (for some random draws). -/
def Yields {n : Nat} (s : Rng → Res (Yielded n × Rng)) (y : Labels n) : Prop :=
  ∃ r r', s r = .ok (.array y, r')

/-- The loop of `generate_initial_sol` for an arbitrary way to divide a component. -/
def genSteps {n : Nat} (step : Nat → Int → Int → Rng → Res (Yielded n × Rng)) (d : IntDict) :
    List Nat → Int → Gen n
  | [], _ => []
  | c :: cs, built => step c ((d.get c).getD 0) built :: genSteps step d cs (built + (d.get c).getD 0)

theorem divideSteps_eq_genSteps (o : MstOrder) {n : Nat} (adj : Adj n) (d : IntDict) (cs : List Nat)
    (built : Int) : divideSteps o adj d cs built = genSteps (divideComponent o adj) d cs built := by
  induction cs generalizing built with
  | nil => rfl
  | cons c cs ih => simp only [divideSteps, genSteps, ih]

/-- A way to divide the components that always works. -/
def DivideOk {n : Nat} (adj : Adj n) (step : Nat → Int → Int → Rng → Res (Yielded n × Rng)) : Prop :=
  ∀ c, c < nComponents adj → ∀ k built : Int, 1 ≤ k → k ≤ (whereEq (compLabels adj) c).length →
    ∀ r, ∃ y r', step c k built r = .ok (.array y, r') ∧ CompCut adj c built k y

theorem divideComponent_divideOk (o : MstOrder) {n : Nat} (adj : Adj n) :
    DivideOk adj (divideComponent o adj) :=
  fun _ hc k built h1 h2 r => divideComponent_spec o adj hc k built h1 h2 r

theorem genSteps_spec {n : Nat} {adj : Adj n} {step : Nat → Int → Int → Rng → Res (Yielded n × Rng)}
    (hstep : DivideOk adj step) (d : IntDict) (cs : List Nat)
    (built : Int) (hnd : cs.Nodup)
    (hd : ∀ c ∈ cs, c < nComponents adj ∧ ∃ v, d.get c = some v ∧ 1 ≤ v ∧
      v ≤ (whereEq (compLabels adj) c).length) (ys : List (Labels n))
    (hys : List.Forall₂ Yields (genSteps step d cs built) ys) :
    ∃ lo : Nat → Int,
      List.Forall₂ (fun c y => CompCut adj c (lo c) ((d.get c).getD 0) y) cs ys ∧
      (∀ c ∈ cs, built ≤ lo c ∧
        lo c + (d.get c).getD 0 ≤ built + (cs.map fun c => (d.get c).getD 0).sum) ∧
      (∀ c ∈ cs, ∀ c' ∈ cs, c ≠ c' →
        lo c + (d.get c).getD 0 ≤ lo c' ∨ lo c' + (d.get c').getD 0 ≤ lo c) ∧
      (∀ x, built ≤ x → x < built + (cs.map fun c => (d.get c).getD 0).sum →
        ∃ c ∈ cs, lo c ≤ x ∧ x < lo c + (d.get c).getD 0) := by
  induction cs generalizing built ys with
  | nil =>
    cases hys
    exact ⟨fun _ => 0, .nil, by simp, by simp, by intro x h1 h2; simp at h2; omega⟩
  | cons c cs ih =>
    rw [List.nodup_cons] at hnd
    unfold genSteps at hys
    cases hys with
    | @cons _ y _ ys' hy hys' =>
      obtain ⟨hc, v, hv, hv1, hv2⟩ := hd c (by simp)
      have hk : (d.get c).getD 0 = v := by rw [hv]; rfl
      obtain ⟨lo, g1, g2, g3, g4⟩ := ih (built + (d.get c).getD 0) hnd.2
        (fun c' hc' => hd c' (by simp [hc'])) ys' hys'
      have hne : ∀ c' ∈ cs, c' ≠ c := by rintro c' hc' rfl; exact hnd.1 hc'
      have hsum : 0 ≤ (cs.map fun c => (d.get c).getD 0).sum := by
        apply list_sum_nonneg
        intro x hx
        obtain ⟨c', hc', rfl⟩ := List.mem_map.1 hx
        obtain ⟨_, w, hw, hw1, _⟩ := hd c' (by simp [hc'])
        simp only [hw, Option.getD_some]; omega
      refine ⟨fun x => if x = c then built else lo x, ?_, ?_, ?_, ?_⟩
      · refine .cons ?_ ?_
        · simp only [if_true]
          obtain ⟨r, r', hrun⟩ := hy
          obtain ⟨y', r'', h1, h2⟩ := hstep c hc v built hv1 hv2 r
          rw [hk, h1] at hrun
          cases hrun
          rw [hk]; exact h2
        · refine forall₂_imp_of_mem (fun c' hc' y' h => ?_) g1
          simp only [hne c' hc', if_false]; exact h
      · intro c' hc'
        simp only [List.map_cons, List.sum_cons]
        rcases List.mem_cons.1 hc' with rfl | hc'
        · simp only [if_true]; omega
        · have := g2 c' hc'
          simp only [hne c' hc', if_false]; omega
      · intro c1 h1 c2 h2 h12
        rcases List.mem_cons.1 h1 with e1 | h1 <;> rcases List.mem_cons.1 h2 with e2 | h2
        · exact absurd (e1.trans e2.symm) h12
        · have := g2 c2 h2
          simp only [e1, if_true, hne c2 h2, if_false]; omega
        · have := g2 c1 h1
          simp only [e2, if_true, hne c1 h1, if_false]; omega
        · have := g3 c1 h1 c2 h2 h12
          simp only [hne c1 h1, hne c2 h2, if_false]; exact this
      · intro x hx1 hx2
        simp only [List.map_cons, List.sum_cons] at hx2
        by_cases hx : x < built + (d.get c).getD 0
        · exact ⟨c, by simp, by simp [hx1], by simp [hx]⟩
        · obtain ⟨c', hc', h1, h2⟩ := g4 x (by omega) (by omega)
          exact ⟨c', by simp [hc'], by simp [hne c' hc', h1], by simp [hne c' hc', h2]⟩

theorem genSteps_run {n : Nat} {adj : Adj n} {step : Nat → Int → Int → Rng → Res (Yielded n × Rng)}
    (hstep : DivideOk adj step) (d : IntDict) (cs : List Nat) (built : Int)
    (hd : ∀ c ∈ cs, c < nComponents adj ∧ ∃ v, d.get c = some v ∧ 1 ≤ v ∧
      v ≤ (whereEq (compLabels adj) c).length) :
    ∀ s ∈ genSteps step d cs built, ∀ r, ∃ y r', s r = .ok (.array y, r') := by
  induction cs generalizing built with
  | nil => simp [genSteps]
  | cons c cs ih =>
    intro s hs r
    unfold genSteps at hs
    rcases List.mem_cons.1 hs with rfl | hs
    · obtain ⟨hc, v, hv, hv1, hv2⟩ := hd c (by simp)
      obtain ⟨y, r', h, _⟩ := hstep c hc v built hv1 hv2 r
      refine ⟨y, r', ?_⟩
      simp only [hv, Option.getD_some]
      exact h
    · exact ih _ (fun c' hc' => hd c' (by simp [hc'])) s hs r

theorem divideSteps_length (o : MstOrder) {n : Nat} (adj : Adj n) (d : IntDict) (cs : List Nat)
    (built : Int) : (divideSteps o adj d cs built).length = cs.length := by
  induction cs generalizing built with
  | nil => rfl
  | cons c cs ih => simp [divideSteps, ih]

theorem eq_of_sorted_of_mem {l l' : List Nat} (h : l.Pairwise (· < ·)) (h' : l'.Pairwise (· < ·))
    (hm : ∀ x, x ∈ l ↔ x ∈ l') : l = l' := by
  have hp : l.Perm l' := by
    rw [List.perm_ext_iff_of_nodup (h.imp fun h => ne_of_lt h) (h'.imp fun h => ne_of_lt h)]
    exact hm
  exact hp.eq_of_pairwise (le := fun a b => a ≤ b) (fun a b _ _ h1 h2 => le_antisymm h1 h2)
    (h.imp fun h => le_of_lt h) (h'.imp fun h => le_of_lt h)

theorem uniqueSorted_compLabels {n : Nat} (adj : Adj n) :
    uniqueSorted (arrayList (compLabels adj)) = List.range (nComponents adj) := by
  apply eq_of_sorted_of_mem (uniqueSorted_sorted _) List.pairwise_lt_range
  intro x
  rw [mem_uniqueSorted, mem_arrayList, List.mem_range]
  constructor
  · rintro ⟨v, rfl⟩; exact compLabels_lt adj v
  · exact fun h => compLabels_surj adj h

theorem nComponents_pos {n : Nat} (hn : 0 < n) (adj : Adj n) : 0 < nComponents adj :=
  lt_of_le_of_lt (Nat.zero_le _) (compLabels_lt adj ⟨0, hn⟩)

theorem nComponents_le {n : Nat} (adj : Adj n) : nComponents adj ≤ n := by
  rw [← card_image_eq_nComponents adj _ (compRepr_eq_iff adj)]
  exact Finset.card_image_le.trans (by simp)

theorem separateComponents_length {n : Nat} (adj : Adj n) (labels : Labels n) :
    (separateComponents adj labels).length = nComponents adj := by
  simp [separateComponents]

theorem separateComponents_getElem {n : Nat} (adj : Adj n) (labels : Labels n) (c : Nat)
    (h : c < (separateComponents adj labels).length) :
    (separateComponents adj labels)[c] =
      fun i => if compLabels adj i = c then labels i else -1 := by
  simp [separateComponents]

/-- The loop of `generate_initial_sol` with a way to divide components that works: the regions are
distributed and the arrays form a feasible clustering. -/
theorem generate_spec {n : Nat} {adj : Adj n} {step : Nat → Int → Int → Rng → Res (Yielded n × Rng)}
    (hstep : DivideOk adj step) (p : Int) (r : Rng)
    (hn : 0 < n) (hp : p ≤ n) (hc : (nComponents adj : Int) ≤ p) :
    ∃ d r', distributeRegions (arrayList (compLabels adj)) p r = .ok (d, r') ∧
      (∀ s ∈ genSteps step d d.keys 0, ∀ r, ∃ y r', s r = .ok (.array y, r')) ∧
      ∀ ys, List.Forall₂ Yields (genSteps step d d.keys 0) ys →
        ∃ lab : Labels n, ys = separateComponents adj lab ∧ AllContiguous adj lab ∧
          (∀ v, 0 ≤ lab v ∧ lab v < p) ∧ (∀ x, 0 ≤ x → x < p → ∃ v, lab v = x) := by
  have hrange := uniqueSorted_compLabels adj
  have hlen : (arrayList (compLabels adj)).length = n := by simp [arrayList]
  obtain ⟨d, r', h1, h2, h3, h4, h5⟩ := distributeRegions_spec (arrayList (compLabels adj)) p r
    (by
      obtain ⟨v, hv⟩ := compLabels_surj adj (nComponents_pos hn adj)
      exact mem_arrayList.2 ⟨v, hv⟩)
    (by rw [hrange, List.length_range]; exact hc) (by rw [hlen]; exact hp)
  rw [hrange] at h2
  have hd : ∀ c ∈ d.keys, c < nComponents adj ∧ ∃ v, d.get c = some v ∧ 1 ≤ v ∧
      v ≤ (whereEq (compLabels adj) c).length := by
    intro c hck
    rw [h2, List.mem_range] at hck
    obtain ⟨v, hv⟩ := compLabels_surj adj hck
    obtain ⟨w, hw1, hw2, hw3⟩ := h5 c (mem_arrayList.2 ⟨v, hv⟩)
    rw [count_arrayList] at hw3
    exact ⟨hck, w, hw1, hw2, hw3⟩
  refine ⟨d, r', h1, genSteps_run hstep d d.keys 0 hd, ?_⟩
  intro ys hys
  have hnd : d.keys.Nodup := by rw [h2]; exact List.nodup_range
  obtain ⟨lo, g1, g2, g3, g4⟩ := genSteps_spec hstep d d.keys 0 hnd hd ys hys
  have htot : (d.keys.map fun c => (d.get c).getD 0).sum = p := h3
  rw [htot] at g2 g4
  rw [List.forall₂_iff_get] at g1
  obtain ⟨glen, gget⟩ := g1
  rw [h2, List.length_range] at glen
  have hys_len : ys.length = nComponents adj := glen.symm
  -- the array belonging to a component
  have hlt : ∀ v, compLabels adj v < ys.length := fun v => by
    rw [hys_len]; exact compLabels_lt adj v
  have hcut : ∀ c (hc : c < ys.length), CompCut adj c (lo c) ((d.get c).getD 0) ys[c] := by
    intro c hc
    have := gget c (by rw [h2, List.length_range]; omega) hc
    simp only [h2, List.get_eq_getElem, List.getElem_range] at this
    exact this
  set lab : Labels n := fun v => (ys[compLabels adj v]'(hlt v)) v with hlab
  have hlab_eq : ∀ v c (hc : c < ys.length), compLabels adj v = c → lab v = ys[c] v := by
    intro v c hc hv; subst hv; rfl
  have hmem : ∀ v, compLabels adj v ∈ d.keys := fun v => by
    rw [h2, List.mem_range]; exact compLabels_lt adj v
  have hlo : ∀ v, lo (compLabels adj v) ≤ lab v := fun v => (hcut _ (hlt v)).lo_le v rfl
  have hhi : ∀ v, lab v < lo (compLabels adj v) + (d.get (compLabels adj v)).getD 0 :=
    fun v => (hcut _ (hlt v)).lt_hi v rfl
  have hsame : ∀ u v, lab u = lab v → compLabels adj u = compLabels adj v := by
    intro u v huv
    by_contra hne
    have := g3 _ (hmem u) _ (hmem v) hne
    have := hlo u; have := hlo v; have := hhi u; have := hhi v
    omega
  refine ⟨lab, ?_, ?_, ?_, ?_⟩
  · apply List.ext_getElem
    · simp [separateComponents, hys_len]
    · intro c hc1 hc2
      rw [separateComponents_getElem]
      funext v
      split_ifs with hv
      · exact (hlab_eq v c hc1 hv).symm
      · exact (hcut c hc1).out v hv
  · intro v
    have := (hcut _ (hlt v)).contig v rfl
    have heq : regionOf lab (lab v) = {u | compLabels adj u = compLabels adj v ∧
        (ys[compLabels adj v]'(hlt v)) u = (ys[compLabels adj v]'(hlt v)) v} := by
      ext u
      simp only [regionOf, Set.mem_ofPred_eq]
      constructor
      · intro h
        have hc := hsame u v h
        refine ⟨hc, ?_⟩
        rw [← hlab_eq u _ (hlt v) hc]
        exact h
      · rintro ⟨hc, h⟩
        rw [hlab_eq u _ (hlt v) hc]
        exact h
    rw [heq]
    exact this
  · intro v
    have := g2 _ (hmem v)
    have := hlo v; have := hhi v
    constructor <;> omega
  · intro x hx0 hxp
    obtain ⟨c, hck, hc1, hc2⟩ := g4 x hx0 (by omega)
    rw [h2, List.mem_range, ← hys_len] at hck
    obtain ⟨v, hv1, hv2⟩ := (hcut c hck).surj x hc1 hc2
    exact ⟨v, by rw [hlab_eq v c hck hv1]; exact hv2⟩

/-- Everything the consumers of `generate_initial_sol` rely on. -/
theorem generateInitialSol_spec (o : MstOrder) {n : Nat} (adj : Adj n) (p : Int) (r : Rng)
    (hn : 0 < n) (hp : p ≤ n) (hp1 : p ≠ 1) (hc : (nComponents adj : Int) ≤ p) :
    ∃ gen r', generateInitialSol o adj p r = .ok (gen, r') ∧
      (∀ s ∈ gen, ∀ r, ∃ y r', s r = .ok (.array y, r')) ∧
      ∀ ys, List.Forall₂ Yields gen ys →
        ∃ lab : Labels n, ys = separateComponents adj lab ∧ AllContiguous adj lab ∧
          (∀ v, 0 ≤ lab v ∧ lab v < p) ∧ (∀ x, 0 ≤ x → x < p → ∃ v, lab v = x) := by
  obtain ⟨d, r', h1, h2, h3⟩ := generate_spec (divideComponent_divideOk o adj) p r hn hp hc
  rw [← divideSteps_eq_genSteps] at h2 h3
  refine ⟨divideSteps o adj d d.keys 0, r', ?_, h2, h3⟩
  unfold generateInitialSol
  rw [if_neg (by omega), if_neg (by omega), if_neg hp1, if_neg (by omega), h1]
  rfl

end Region
