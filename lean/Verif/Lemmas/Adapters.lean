import Verif.SpecAdapters

/-
Lemmas about dicts, arrays and matrices built by the adapters.
-/
namespace Region

open Spec

section dicts
variable {κ α : Type}

theorem Dict.find_of_mem [DecidableEq κ] {k : κ} {v : α} : ∀ {es : List (κ × α)},
    (es.map Prod.fst).Nodup → (k, v) ∈ es → Dict.find k es = .ok v
  | [], _, h => by simp at h
  | (k', v') :: es, hn, h => by
    rw [List.map_cons, List.nodup_cons] at hn
    rcases List.mem_cons.1 h with h | h
    · cases h
      simp [Dict.find]
    · have hne : k' ≠ k := by
        rintro rfl
        exact hn.1 (List.mem_map.2 ⟨_, h, rfl⟩)
      simp only [Dict.find, if_neg hne]
      exact Dict.find_of_mem hn.2 h

theorem Dict.find_none [DecidableEq κ] {k : κ} : ∀ {es : List (κ × α)},
    (∀ v, (k, v) ∉ es) → Dict.find k es = .raise .keyError
  | [], _ => rfl
  | (k', v') :: es, h => by
    have hne : k' ≠ k := by
      rintro rfl
      exact h v' (List.mem_cons_self ..)
    simp only [Dict.find, if_neg hne]
    exact Dict.find_none fun v hv => h v (List.mem_cons_of_mem _ hv)

theorem get_of_item [DecidableEq κ] {d : Dict κ α} {k : κ} {v : α} (h : Item d k v) :
    d.get k = .ok v := Dict.find_of_mem d.nodup h

theorem get_of_not_key [DecidableEq κ] {d : Dict κ α} {k : κ} (h : ¬ IsKey d k) :
    d.get k = .raise .keyError := Dict.find_none fun v hv => h ⟨v, hv⟩

theorem item_unique {d : Dict κ α} {k : κ} {v w : α} (hv : Item d k v) (hw : Item d k w) :
    v = w := by
  classical
  have := (get_of_item hv).symm.trans (get_of_item hw)
  simpa using this

theorem isKey_iff {d : Dict κ α} {k : κ} : IsKey d k ↔ k ∈ d.keys := by
  simp [IsKey, Item, Dict.keys]

theorem get_eq_of_sameItems [DecidableEq κ] {d e : Dict κ α} (h : SameItems d e) (k : κ) :
    d.get k = e.get k := by
  by_cases hk : IsKey d k
  · obtain ⟨v, hv⟩ := hk
    rw [get_of_item hv, get_of_item ((h k v).1 hv)]
  · rw [get_of_not_key hk, get_of_not_key]
    rintro ⟨v, hv⟩
    exact hk ⟨v, (h k v).2 hv⟩

theorem Spec.SameItems.keysAgree {d e : Dict κ α} (h : SameItems d e) : KeysAgree d e := fun k =>
  ⟨fun ⟨v, hv⟩ => ⟨v, (h k v).1 hv⟩, fun ⟨v, hv⟩ => ⟨v, (h k v).2 hv⟩⟩

theorem Spec.KeysAgree.perm {β : Type} {d : Dict κ α} {e : Dict κ β} (h : KeysAgree d e) :
    d.keys.Perm e.keys :=
  (List.perm_ext_iff_of_nodup d.nodup e.nodup).2 fun k => by
    rw [← Dict.keys, ← Dict.keys, ← isKey_iff, ← isKey_iff]
    exact h k

theorem Dict.len_keys (d : Dict κ α) : d.keys.length = d.len := by simp [Dict.keys, Dict.len]

theorem Spec.KeysAgree.len {β : Type} {d : Dict κ α} {e : Dict κ β} (h : KeysAgree d e) :
    d.len = e.len := by
  rw [← d.len_keys, ← e.len_keys]
  exact h.perm.length_eq

theorem sameKeys_iff [DecidableEq κ] {β : Type} {d : Dict κ α} {e : Dict κ β} :
    d.sameKeys e = true ↔ KeysAgree d e := by
  simp only [Dict.sameKeys, Bool.and_eq_true, List.all_eq_true, List.contains_iff_mem, KeysAgree,
    isKey_iff]
  exact ⟨fun h k => ⟨h.1 k, h.2 k⟩, fun h => ⟨fun k => (h k).1, fun k => (h k).2⟩⟩

variable [LinearOrder κ]

theorem sorted_perm (d : Dict κ α) : d.sorted.Perm d.keys := List.perm_insertionSort _ _

theorem sorted_len (d : Dict κ α) : d.sorted.length = d.len :=
  (sorted_perm d).length_eq.trans d.len_keys

theorem sorted_nodup (d : Dict κ α) : d.sorted.Nodup := (sorted_perm d).nodup_iff.2 d.nodup

theorem ascending_sorted (d : Dict κ α) : Ascending d.sorted d := by
  refine ⟨?_, fun k => ?_⟩
  · have h1 : d.sorted.Pairwise (· ≤ ·) := List.pairwise_insertionSort _ _
    have h2 : d.sorted.Pairwise (· ≠ ·) := sorted_nodup d
    exact (h1.and h2).imp fun h => lt_of_le_of_ne h.1 h.2
  · rw [(sorted_perm d).mem_iff, isKey_iff]

theorem Spec.Ascending.eq {names names' : List κ} {d : Dict κ α} (h : Ascending names d)
    (h' : Ascending names' d) : names = names' := by
  have hp : names.Perm names' :=
    (List.perm_ext_iff_of_nodup (h.1.imp fun h => ne_of_lt h) (h'.1.imp fun h => ne_of_lt h)).2
      fun k => by rw [h.2, h'.2]
  exact hp.eq_of_pairwise (fun a b _ _ h1 h2 => absurd h1 (lt_asymm h2)) h.1 h'.1

theorem Spec.KeysAgree.sorted_eq {β : Type} {d : Dict κ α} {e : Dict κ β} (h : KeysAgree d e) :
    d.sorted = e.sorted := by
  refine (ascending_sorted d).eq ⟨(ascending_sorted e).1, fun k => ?_⟩
  rw [(ascending_sorted e).2, h k]

end dicts

section arrays
variable {κ β : Type} [LinearOrder κ]

theorem chainValues_eq {d : Dict κ Val} {conv : ℚ → β} {w : Nat} (hu : Uniform d (.wide w)) :
    ∀ {ks : List κ}, (∀ k ∈ ks, IsKey d k) →
      ∃ arr, Tabulates arr d ks ∧ (∀ r ∈ arr, r.length = w) ∧
        chainValues d conv ks = .ok (arr.flatten.map conv)
  | [], _ => ⟨[], .nil, by simp, rfl⟩
  | k :: ks, h => by
    obtain ⟨v, hv⟩ := h k (List.mem_cons_self ..)
    obtain ⟨arr, h1, h2, h3⟩ := chainValues_eq (conv := conv) hu
      (fun k' hk' => h k' (List.mem_cons_of_mem _ hk'))
    have hs := hu k v hv
    match v, hv, hs with
    | .seq l, hv, hs =>
      refine ⟨l :: arr, .cons ⟨_, hv, rfl⟩ h1, ?_, ?_⟩
      · rintro r (_ | ⟨_, hr⟩)
        · exact hs
        · exact h2 r hr
      · simp [chainValues, get_of_item hv, h3]
    | .num q, _, hs => simp [Shaped] at hs

theorem plainValues_eq {d : Dict κ Val} {conv : ℚ → β} (hu : Uniform d .scalars) :
    ∀ {ks : List κ}, (∀ k ∈ ks, IsKey d k) →
      ∃ arr, Tabulates arr d ks ∧ (∀ r ∈ arr, r.length = 1) ∧
        plainValues d conv ks = .ok (arr.flatten.map conv)
  | [], _ => ⟨[], .nil, by simp, rfl⟩
  | k :: ks, h => by
    obtain ⟨v, hv⟩ := h k (List.mem_cons_self ..)
    obtain ⟨arr, h1, h2, h3⟩ := plainValues_eq (conv := conv) hu
      (fun k' hk' => h k' (List.mem_cons_of_mem _ hk'))
    have hs := hu k v hv
    match v, hv, hs with
    | .num q, hv, hs =>
      refine ⟨[q] :: arr, .cons ⟨_, hv, rfl⟩ h1, ?_, ?_⟩
      · rintro r (_ | ⟨_, hr⟩)
        · rfl
        · exact h2 r hr
      · simp [plainValues, get_of_item hv, h3]
    | .seq l, _, hs => simp [Shaped] at hs

/-- Flattening the values of existing keys, for any key sequence. -/
theorem flat_eq {d : Dict κ Val} {conv : ℚ → β} {s : Shape} (hu : Uniform d s)
    {keys : Option (List κ)} (hne : keys.getD d.sorted ≠ [])
    (hk : ∀ k ∈ keys.getD d.sorted, IsKey d k) :
    ∃ arr, Tabulates arr d (keys.getD d.sorted) ∧ (∀ r ∈ arr, r.length = s.width) ∧
      flatFromDictValues d keys conv = .ok (arr.flatten.map conv) := by
  unfold flatFromDictValues
  generalize keys.getD d.sorted = ks at hne hk ⊢
  match ks, hne, hk with
  | k :: ks, _, hk =>
    obtain ⟨v, hv⟩ := hk k (List.mem_cons_self ..)
    have hs := hu k v hv
    match s, v, hv, hs with
    | .scalars, .num q, hv, _ =>
      simp only [get_of_item hv, Res.bind_ok]
      exact plainValues_eq hu hk
    | .wide w, .seq l, hv, _ =>
      simp only [get_of_item hv, Res.bind_ok]
      exact chainValues_eq hu hk

omit [LinearOrder κ] in
theorem Spec.Tabulates.length {arr : List (List ℚ)} {d : Dict κ Val} {ks : List κ}
    (h : Tabulates arr d ks) : arr.length = ks.length := List.Forall₂.length_eq h

omit [LinearOrder κ] in
theorem Spec.Tabulates.unique {arr arr' : List (List ℚ)} {d : Dict κ Val} {ks : List κ}
    (h : Tabulates arr d ks) (h' : Tabulates arr' d ks) : arr = arr' := by
  induction ks generalizing arr arr' with
  | nil => cases h; cases h'; rfl
  | cons k ks ih =>
    cases h with
    | cons h1 h2 =>
      cases h' with
      | cons h1' h2' =>
        obtain ⟨v, hv, rfl⟩ := h1
        obtain ⟨v', hv', rfl⟩ := h1'
        rw [item_unique hv hv', ih h2 h2']

theorem length_flatten_of {w : Nat} : ∀ {arr : List (List β)}, (∀ r ∈ arr, r.length = w) →
    arr.flatten.length = arr.length * w
  | [], _ => by simp
  | r :: arr, h => by
    rw [List.flatten_cons, List.length_append, h r (List.mem_cons_self ..),
      length_flatten_of fun r' hr' => h r' (List.mem_cons_of_mem _ hr'), List.length_cons]
    ring

theorem chunks_flatten {w : Nat} : ∀ {arr : List (List β)}, (∀ r ∈ arr, r.length = w) →
    chunks w arr.length arr.flatten = arr
  | [], _ => rfl
  | r :: arr, h => by
    have hr := h r (List.mem_cons_self ..)
    rw [List.length_cons, List.flatten_cons, chunks, ← hr, List.take_left, List.drop_left, hr,
      chunks_flatten fun r' hr' => h r' (List.mem_cons_of_mem _ hr')]

theorem chunks_length {w : Nat} : ∀ {rows : Nat} {l : List β}, (chunks w rows l).length = rows
  | 0, _ => rfl
  | rows + 1, l => by rw [chunks, List.length_cons, chunks_length]

/-- Reshaping to as many rows as there were cuts the flat array back into the rows. -/
theorem reshapeRows_flatten {w : Nat} {arr : List (List β)} (hne : arr ≠ [])
    (h : ∀ r ∈ arr, r.length = w) : reshapeRows arr.length arr.flatten = .ok arr := by
  have hpos : 0 < arr.length := List.length_pos_iff.2 hne
  have hlen := length_flatten_of h
  unfold reshapeRows
  rw [if_neg (by omega), if_pos (by rw [hlen]; simp), hlen, Nat.mul_div_cancel_left _ hpos,
    chunks_flatten h]

theorem reshapeRows_length {rows : Nat} {flat : List β} {arr : List (List β)}
    (h : reshapeRows rows flat = .ok arr) : arr.length = rows := by
  unfold reshapeRows at h
  split at h
  · cases h
  · split at h
    · cases h
      exact chunks_length
    · cases h

/-- The array for a key sequence as long as the dict. -/
theorem array_eq {d : Dict κ Val} {s : Shape} (hu : Uniform d s)
    {keys : Option (List κ)} (hne : keys.getD d.sorted ≠ [])
    (hk : ∀ k ∈ keys.getD d.sorted, IsKey d k) (hlen : (keys.getD d.sorted).length = d.len) :
    ∃ arr, arrayFromDictValues d keys = .ok arr ∧ Tabulates arr d (keys.getD d.sorted) := by
  obtain ⟨arr, h1, h2, h3⟩ := flat_eq (conv := id) hu hne hk
  refine ⟨arr, ?_, h1⟩
  have hl := h1.length
  have hne' : arr ≠ [] := by
    rintro rfl
    exact hne (List.length_eq_zero_iff.1 hl.symm)
  unfold arrayFromDictValues
  rw [h3, Res.bind_ok, List.map_id, ← hlen, ← hl]
  exact reshapeRows_flatten hne' h2

theorem chainValues_congr {d e : Dict κ Val} {conv : ℚ → β} (h : SameItems d e) :
    ∀ ks : List κ, chainValues d conv ks = chainValues e conv ks
  | [] => rfl
  | k :: ks => by
    simp only [chainValues, get_eq_of_sameItems h, chainValues_congr h ks]

theorem plainValues_congr {d e : Dict κ Val} {conv : ℚ → β} (h : SameItems d e) :
    ∀ ks : List κ, plainValues d conv ks = plainValues e conv ks
  | [] => rfl
  | k :: ks => by
    simp only [plainValues, get_eq_of_sameItems h, plainValues_congr h ks]

theorem flat_congr {d e : Dict κ Val} {conv : ℚ → β} (h : SameItems d e)
    (keys : Option (List κ)) : flatFromDictValues d keys conv = flatFromDictValues e keys conv := by
  unfold flatFromDictValues
  rw [(h.keysAgree).sorted_eq]
  generalize keys.getD e.sorted = ks
  match ks with
  | [] => rfl
  | k :: ks =>
    simp only [get_eq_of_sameItems h]
    cases e.get k with
    | ok v => cases v <;> simp [chainValues_congr h, plainValues_congr h]
    | raise => rfl
    | timeout => rfl

theorem array_congr {d e : Dict κ Val} (h : SameItems d e) (keys : Option (List κ)) :
    arrayFromDictValues d keys = arrayFromDictValues e keys := by
  unfold arrayFromDictValues
  rw [flat_congr h, h.keysAgree.len]

end arrays

section sparse
variable {κ : Type} [LinearOrder κ]

theorem nameToInt_of_mem {names : List κ} {k : κ} (h : k ∈ names) :
    ∃ a, nameToInt names k = .ok a ∧ names.get a = k := by
  have hl : names.idxOf k < names.length := List.idxOf_lt_length_iff.2 h
  refine ⟨⟨names.idxOf k, hl⟩, by simp [nameToInt, hl], ?_⟩
  simp

theorem nameToInt_of_not_mem {names : List κ} {k : κ} (h : k ∉ names) :
    nameToInt names k = .raise .keyError := by
  have hl : ¬ names.idxOf k < names.length := fun hl => h (List.idxOf_lt_length_iff.1 hl)
  simp [nameToInt, hl]

theorem fillNeighbors_eq {names : List κ} (hn : names.Nodup) {i : κ} (hi : i ∈ names) :
    ∀ {js : List κ} {adj : Adj names.length}, (∀ j ∈ js, j ∈ names) →
      ∃ adj', fillNeighbors names i js adj = .ok adj' ∧
        ∀ x y, adj' x y = true ↔ adj x y = true ∨ (names.get x = i ∧ names.get y ∈ js)
  | [], adj, _ => ⟨adj, rfl, by simp⟩
  | j :: js, adj, h => by
    obtain ⟨a, ha, ha'⟩ := nameToInt_of_mem hi
    obtain ⟨b, hb, hb'⟩ := nameToInt_of_mem (h j (List.mem_cons_self ..))
    obtain ⟨adj', h1, h2⟩ := fillNeighbors_eq hn hi
      (adj := fun x y => if x = a ∧ y = b then true else adj x y)
      fun j' hj' => h j' (List.mem_cons_of_mem _ hj')
    refine ⟨adj', by simp only [fillNeighbors, ha, hb, Res.bind_ok, h1], fun x y => ?_⟩
    have hx : x = a ↔ names.get x = i := by
      rw [← ha']
      exact (List.Nodup.get_inj_iff hn).symm
    have hy : y = b ↔ names.get y = j := by
      rw [← hb']
      exact (List.Nodup.get_inj_iff hn).symm
    rw [h2, List.mem_cons, ← hy, ← hx]
    by_cases h3 : x = a ∧ y = b
    · simp [h3]
    · rw [if_neg h3]
      tauto

theorem fillNeighbors_raise {names : List κ} {i : κ} :
    ∀ {js : List κ} {adj : Adj names.length}, (∃ j ∈ js, j ∉ names) →
      fillNeighbors names i js adj = .raise .keyError
  | [], _, h => by simp at h
  | j :: js, adj, h => by
    by_cases hi : i ∈ names
    · obtain ⟨a, ha, -⟩ := nameToInt_of_mem hi
      by_cases hj : j ∈ names
      · obtain ⟨b, hb, -⟩ := nameToInt_of_mem hj
        simp only [fillNeighbors, ha, hb, Res.bind_ok]
        refine fillNeighbors_raise ?_
        obtain ⟨j', hj', hj''⟩ := h
        rcases List.mem_cons.1 hj' with rfl | h'
        · exact absurd hj hj''
        · exact ⟨j', h', hj''⟩
      · simp [fillNeighbors, ha, nameToInt_of_not_mem hj]
    · simp [fillNeighbors, nameToInt_of_not_mem hi]

theorem fillMatrix_eq {names : List κ} (hn : names.Nodup) :
    ∀ {es : List (κ × List κ)} {adj : Adj names.length},
      (∀ e ∈ es, e.1 ∈ names ∧ ∀ j ∈ e.2, j ∈ names) →
      ∃ adj', fillMatrix names es adj = .ok adj' ∧
        ∀ x y, adj' x y = true ↔
          adj x y = true ∨ ∃ js, (names.get x, js) ∈ es ∧ names.get y ∈ js
  | [], adj, _ => ⟨adj, rfl, by simp⟩
  | (i, js) :: es, adj, h => by
    have h0 := h (i, js) (List.mem_cons_self ..)
    obtain ⟨adj1, h1, h2⟩ := fillNeighbors_eq hn h0.1 (adj := adj) h0.2
    obtain ⟨adj', h3, h4⟩ := fillMatrix_eq hn (adj := adj1)
      fun e he => h e (List.mem_cons_of_mem _ he)
    refine ⟨adj', by simp [fillMatrix, h1, h3], fun x y => ?_⟩
    rw [h4, h2, or_assoc]
    refine or_congr Iff.rfl ?_
    constructor
    · rintro (⟨rfl, h⟩ | ⟨js', h, h'⟩)
      · exact ⟨js, List.mem_cons_self .., h⟩
      · exact ⟨js', List.mem_cons_of_mem _ h, h'⟩
    · rintro ⟨js', h, h'⟩
      rcases List.mem_cons.1 h with h | h
      · cases h
        exact .inl ⟨rfl, h'⟩
      · exact .inr ⟨js', h, h'⟩

theorem fillMatrix_raise {names : List κ} (hn : names.Nodup) :
    ∀ {es : List (κ × List κ)} {adj : Adj names.length}, (∀ e ∈ es, e.1 ∈ names) →
      (∃ e ∈ es, ∃ j ∈ e.2, j ∉ names) → fillMatrix names es adj = .raise .keyError
  | [], _, _, h => by simp at h
  | (i, js) :: es, adj, hk, h => by
    by_cases h0 : ∃ j ∈ js, j ∉ names
    · simp [fillMatrix, fillNeighbors_raise h0]
    · push Not at h0
      obtain ⟨adj1, h1, -⟩ := fillNeighbors_eq hn (hk _ (List.mem_cons_self ..)) (adj := adj) h0
      simp only [fillMatrix, h1, Res.bind_ok]
      refine fillMatrix_raise hn (fun e he => hk e (List.mem_cons_of_mem _ he)) ?_
      obtain ⟨e, he, j, hj, hj'⟩ := h
      rcases List.mem_cons.1 he with rfl | he
      · exact absurd (h0 j hj) hj'
      · exact ⟨e, he, j, hj, hj'⟩

theorem sparseFromDict_eq {nb : Dict κ (List κ)} (h : Closed nb) :
    ∃ adj, sparseFromDict nb = .ok adj ∧ ∀ x y, adj x y = true ↔
      ∃ js, Item nb (nb.sorted.get x) js ∧ nb.sorted.get y ∈ js := by
  have hmem : ∀ k, k ∈ nb.sorted ↔ IsKey nb k := (ascending_sorted nb).2
  obtain ⟨adj, h1, h2⟩ := fillMatrix_eq (names := nb.sorted) (sorted_nodup nb) (es := nb.entries)
    (adj := fun _ _ => false) fun e he =>
      ⟨(hmem _).2 ⟨e.2, he⟩, fun j hj => (hmem _).2 (h e.1 e.2 he j hj)⟩
  exact ⟨adj, h1, fun x y => by rw [h2]; simp [Item]⟩

theorem sparseFromDict_raise {nb : Dict κ (List κ)} (h : ¬ Closed nb) :
    sparseFromDict nb = .raise .keyError := by
  have hmem : ∀ k, k ∈ nb.sorted ↔ IsKey nb k := (ascending_sorted nb).2
  unfold Closed at h
  push Not at h
  obtain ⟨k, js, hk, j, hj, hj'⟩ := h
  exact fillMatrix_raise (sorted_nodup nb) (fun e he => (hmem _).2 ⟨e.2, he⟩)
    ⟨(k, js), hk, j, hj, fun hm => hj' ((hmem _).1 hm)⟩

omit [LinearOrder κ] in
theorem closed_congr {nb nb' : Dict κ (List κ)} (h : SameItems nb nb') : Closed nb ↔ Closed nb' :=
  ⟨fun hc k js hi j hj => ((h.keysAgree) j).1 (hc k js ((h k js).2 hi) j hj),
   fun hc k js hi j hj => ((h.keysAgree) j).2 (hc k js ((h k js).1 hi) j hj)⟩

/-- The matrix, with its size, does not depend on the insertion order. -/
theorem sparse_congr {nb nb' : Dict κ (List κ)} (h : SameItems nb nb')
    {γ : Type} (f : (names : List κ) → Adj names.length → Res γ) :
    (sparseFromDict nb >>= f nb.sorted) = (sparseFromDict nb' >>= f nb'.sorted) := by
  by_cases hc : Closed nb
  · obtain ⟨adj, h1, h2⟩ := sparseFromDict_eq hc
    obtain ⟨adj', h1', h2'⟩ := sparseFromDict_eq ((closed_congr h).1 hc)
    rw [h1, h1', Res.bind_ok, Res.bind_ok]
    have hs : nb.sorted = nb'.sorted := h.keysAgree.sorted_eq
    clear h1 h1'
    generalize nb.sorted = l at hs adj h2
    subst hs
    congr 1
    funext x y
    rw [Bool.eq_iff_iff, h2, h2']
    simp only [h _ _]
  · rw [sparseFromDict_raise hc, sparseFromDict_raise (mt (closed_congr h).2 hc)]
    rfl

omit [LinearOrder κ] in
theorem encodes_of {names : List κ} {nb : Dict κ (List κ)} {adj : Adj names.length}
    (h : ∀ x y, adj x y = true ↔ ∃ js, Item nb (names.get x) js ∧ names.get y ∈ js) :
    Encodes adj names nb := by
  refine ⟨rfl, fun i j a b ha hb => ?_⟩
  rw [h]
  obtain ⟨_, rfl⟩ := List.getElem?_eq_some_iff.1 ha
  obtain ⟨_, rfl⟩ := List.getElem?_eq_some_iff.1 hb
  rfl

end sparse

section graphs
variable {κ : Type}

theorem foldl_append_apply [DecidableEq κ] {k : κ} :
    ∀ {es : List (κ × ℚ)} {data : κ → List ℚ}, (es.map Prod.fst).Nodup →
      (es.foldl (fun data e k => if k = e.1 then data k ++ [e.2] else data k) data) k =
        data k ++ (es.filter fun e => decide (e.1 = k)).map Prod.snd
  | [], data, _ => by simp
  | (k', v) :: es, data, hn => by
    rw [List.map_cons, List.nodup_cons] at hn
    rw [List.foldl_cons, foldl_append_apply hn.2]
    by_cases h : k = k'
    · subst h
      have h0 : es.filter (fun e => decide (e.1 = k)) = [] := by
        rw [List.filter_eq_nil_iff]
        intro e he
        rw [decide_eq_true_eq]
        rintro rfl
        exact hn.1 (List.mem_map.2 ⟨e, he, rfl⟩)
      simp [h0]
    · rw [if_neg h, List.filter_cons_of_neg (by simpa using fun h' => h h'.symm)]

theorem nodeAttributes_keys (g : Graph κ) (a : String) :
    ((g.nodeAttributes a).map Prod.fst).Nodup := by
  have h : (g.nodeAttributes a).map Prod.fst = g.nodes.filter fun k => (g.attrs k a).isSome := by
    unfold Graph.nodeAttributes
    induction g.nodes with
    | nil => rfl
    | cons k ks ih =>
      cases h : g.attrs k a <;> simp [h, ih]
  rw [h]
  exact g.nodup.filter _

theorem nodeAttributes_filter [DecidableEq κ] (g : Graph κ) (a : String) {k : κ}
    (hk : k ∈ g.nodes) :
    ((g.nodeAttributes a).filter fun e => decide (e.1 = k)).map Prod.snd =
      (g.attrs k a).toList := by
  unfold Graph.nodeAttributes
  have hn := g.nodup
  revert hk hn
  generalize g.nodes = ns
  intro hk hn
  have hno : ∀ ns : List κ, k ∉ ns →
      ((ns.filterMap fun k => (g.attrs k a).map fun v => (k, v)).filter
        fun e => decide (e.1 = k)) = [] := by
    intro ns hns
    rw [List.filter_eq_nil_iff]
    intro e he
    rw [decide_eq_true_eq]
    rintro rfl
    obtain ⟨k', hk', h⟩ := List.mem_filterMap.1 he
    obtain ⟨v, -, rfl⟩ := Option.map_eq_some_iff.1 h
    exact hns hk'
  induction ns with
  | nil => simp at hk
  | cons k' ns ih =>
    rw [List.nodup_cons] at hn
    rcases List.mem_cons.1 hk with rfl | hk'
    · have h0 := hno ns hn.1
      cases h : g.attrs k a <;> simp [h, h0]
    · have hne : k' ≠ k := by
        rintro rfl
        exact hn.1 hk'
      have h1 := ih hk' hn.2
      cases h : g.attrs k' a <;> simp [h, hne, h1]

theorem appendAttr_apply [DecidableEq κ] (g : Graph κ) (data : κ → List ℚ) (a : String) {k : κ}
    (hk : k ∈ g.nodes) : appendAttr g data a k = data k ++ (g.attrs k a).toList := by
  unfold appendAttr
  rw [foldl_append_apply (nodeAttributes_keys g a), nodeAttributes_filter g a hk]

theorem appendAttrs_apply [DecidableEq κ] (g : Graph κ) {k : κ} (hk : k ∈ g.nodes) :
    ∀ (as : List String) (data : κ → List ℚ),
      as.foldl (appendAttr g) data k = data k ++ as.filterMap (g.attrs k)
  | [], data => by simp
  | a :: as, data => by
    rw [List.foldl_cons, appendAttrs_apply g hk as, appendAttr_apply g data a hk]
    cases h : g.attrs k a <;> simp [h]

theorem dictOfNames_keys [DecidableEq κ] (g : Graph κ) (as : List String) :
    (dictOfNames g as).keys = g.nodes := by
  simp [Dict.keys, dictOfNames, Function.comp_def]

theorem dictOfNames_item [DecidableEq κ] {g : Graph κ} {as : List String} {k : κ} {v : Val} :
    Item (dictOfNames g as) k v ↔ k ∈ g.nodes ∧ v = .seq (as.filterMap (g.attrs k)) := by
  unfold Item dictOfNames
  rw [List.mem_map]
  constructor
  · rintro ⟨k', hk', h⟩
    cases h
    refine ⟨hk', ?_⟩
    rw [appendAttrs_apply g hk']
    rfl
  · rintro ⟨hk, rfl⟩
    refine ⟨k, hk, ?_⟩
    rw [appendAttrs_apply g hk]
    rfl

theorem nodeRow_filterMap {g : Graph κ} {as : List String} {k : κ}
    (h : ∀ a ∈ as, (g.attrs k a).isSome) : NodeRow g as (as.filterMap (g.attrs k)) k := by
  unfold NodeRow
  induction as with
  | nil => exact .nil
  | cons a as ih =>
    obtain ⟨q, hq⟩ := Option.isSome_iff_exists.1 (h a (List.mem_cons_self ..))
    rw [List.filterMap_cons_some hq]
    exact .cons hq (ih fun a' ha' => h a' (List.mem_cons_of_mem _ ha'))

theorem dictOfNames_uniform [DecidableEq κ] {g : Graph κ} {as : List String}
    (h : Complete g as) : Uniform (dictOfNames g as) (.wide as.length) := by
  intro k v hv
  obtain ⟨hk, rfl⟩ := dictOfNames_item.1 hv
  exact List.Forall₂.length_eq (nodeRow_filterMap (h k hk))

variable [LinearOrder κ]

/-- The array of complete node attributes: its rows follow the sorted nodes. -/
theorem arrayOfNames {g : Graph κ} {as : List String} (hne : g.nodes ≠ []) (h : Complete g as) :
    ∃ arr, arrayFromDictValues (dictOfNames g as) none = .ok arr ∧
      NodeRows g as arr (g.nodes.insertionSort (· ≤ ·)) := by
  have hs : (dictOfNames g as).sorted = g.nodes.insertionSort (· ≤ ·) := by
    unfold Dict.sorted
    rw [dictOfNames_keys]
  have hmem := (ascending_sorted (dictOfNames g as)).2
  obtain ⟨arr, h1, h2⟩ := array_eq (dictOfNames_uniform h) (keys := none)
    (by
      rw [Option.getD_none, hs]
      intro h0
      have := (List.perm_insertionSort (r := (· ≤ ·)) g.nodes).length_eq
      rw [h0, List.length_nil] at this
      exact hne (List.length_eq_zero_iff.1 this.symm))
    (fun k hk => (hmem k).1 hk) (sorted_len _)
  refine ⟨arr, h1, ?_⟩
  rw [← hs]
  refine List.Forall₂.imp ?_ h2
  rintro r k ⟨v, hv, rfl⟩
  obtain ⟨hk, rfl⟩ := dictOfNames_item.1 hv
  exact nodeRow_filterMap (h k hk)

omit [LinearOrder κ] in
theorem sparse_encodes {g : Graph κ} (hne : g.nodes ≠ []) :
    ∃ adj, g.sparse = .ok adj ∧ EncodesGraph adj g.nodes g := by
  refine ⟨_, if_neg hne, rfl, fun i j a b ha hb => ?_⟩
  obtain ⟨_, rfl⟩ := List.getElem?_eq_some_iff.1 ha
  obtain ⟨_, rfl⟩ := List.getElem?_eq_some_iff.1 hb
  rfl

end graphs

section frames
variable {κ : Type}

theorem insertItem_keys [DecidableEq κ] {α : Type} {k : κ} {v : α} :
    ∀ {es : List (κ × α)}, k ∉ es.map Prod.fst → insertItem k v es = es ++ [(k, v)]
  | [], _ => rfl
  | e :: es, h => by
    rw [List.map_cons, List.mem_cons, not_or] at h
    rw [insertItem, if_neg (Ne.symm h.1), insertItem_keys h.2, List.cons_append]

theorem foldl_insertItem [DecidableEq κ] {α : Type} : ∀ {ps es : List (κ × α)},
    ((es ++ ps).map Prod.fst).Nodup →
    ps.foldl (fun es p => insertItem p.1 p.2 es) es = es ++ ps
  | [], es, _ => by simp
  | p :: ps, es, h => by
    have hp : p.1 ∉ es.map Prod.fst := by
      intro hm
      rw [List.map_append, List.nodup_append] at h
      exact h.2.2 _ hm _ (List.mem_cons_self ..) rfl
    rw [List.foldl_cons, insertItem_keys hp, foldl_insertItem (by simpa using h)]
    simp

theorem find_insertItem_same [DecidableEq κ] {α : Type} {k : κ} {v : α} :
    ∀ {es : List (κ × α)}, Dict.find k (insertItem k v es) = .ok v
  | [] => by simp [insertItem, Dict.find]
  | e :: es => by
    by_cases h : e.1 = k
    · rw [insertItem, if_pos h]
      simp [Dict.find]
    · rw [insertItem, if_neg h]
      obtain ⟨k', v'⟩ := e
      have h' : k' ≠ k := h
      simp [Dict.find, h', find_insertItem_same]

theorem find_insertItem_ne [DecidableEq κ] {α : Type} {k k' : κ} {v : α} (hne : k' ≠ k) :
    ∀ {es : List (κ × α)}, Dict.find k (insertItem k' v es) = Dict.find k es
  | [] => by simp [insertItem, Dict.find, hne]
  | (k'', v'') :: es => by
    by_cases h : k'' = k'
    · subst h
      simp [insertItem, Dict.find, hne]
    · rw [insertItem, if_neg h]
      simp only [Dict.find, find_insertItem_ne hne]

theorem find_foldl_insertItem [DecidableEq κ] {α : Type} {k : κ} {v : α} :
    ∀ {ps es : List (κ × α)}, Dict.find k es = .ok v → k ∉ ps.map Prod.fst →
      Dict.find k (ps.foldl (fun es p => insertItem p.1 p.2 es) es) = .ok v
  | [], _, h, _ => h
  | p :: ps, es, h, hn => by
    rw [List.map_cons, List.mem_cons, not_or] at hn
    rw [List.foldl_cons]
    refine find_foldl_insertItem ?_ hn.2
    rw [find_insertItem_ne (Ne.symm hn.1), h]

/-- The last pair with a key wins. -/
theorem find_dictItems [DecidableEq κ] {α : Type} {k : κ} {v : α} {as bs : List (κ × α)}
    (h : k ∉ bs.map Prod.fst) : Dict.find k (dictItems (as ++ (k, v) :: bs)) = .ok v := by
  unfold dictItems
  rw [List.foldl_append, List.foldl_cons]
  exact find_foldl_insertItem find_insertItem_same h

theorem select_eq {df : Frame κ} : ∀ {as : List String}, (∀ a ∈ as, IsKey df.cols a) →
    ∃ cs, df.select as = .ok cs ∧ List.Forall₂ (fun c a => Item df.cols a c) cs as
  | [], _ => ⟨[], rfl, .nil⟩
  | a :: as, h => by
    obtain ⟨c, hc⟩ := h a (List.mem_cons_self ..)
    obtain ⟨cs, h1, h2⟩ := select_eq (df := df) fun a' ha' => h a' (List.mem_cons_of_mem _ ha')
    exact ⟨c :: cs, by simp [Frame.select, get_of_item hc, h1], .cons hc h2⟩

theorem select_raise {df : Frame κ} : ∀ {as : List String}, (∃ a ∈ as, ¬ IsKey df.cols a) →
    df.select as = .raise .keyError
  | [], h => by simp at h
  | a :: as, h => by
    by_cases ha : IsKey df.cols a
    · obtain ⟨c, hc⟩ := ha
      have : ∃ a ∈ as, ¬ IsKey df.cols a := by
        obtain ⟨a', ha', hn⟩ := h
        rcases List.mem_cons.1 ha' with rfl | h'
        · exact absurd ⟨c, hc⟩ hn
        · exact ⟨a', h', hn⟩
      simp [Frame.select, get_of_item hc, select_raise this]
    · simp [Frame.select, get_of_not_key ha]

end frames

end Region
