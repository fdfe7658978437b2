import Verif.Model.Objects
import Verif.Lemmas.Res
/-
Lemmas about methods that may raise after having assigned attributes.
-/
namespace Region

namespace Py
variable {σ α β : Type}

@[simp] theorem bind_lift_ok (a : α) (f : α → Py σ β) (s : σ) :
    ((lift (.ok a) : Py σ α) >>= f) s = f a s := rfl

@[simp] theorem bind_lift_raise (e : Exc) (f : α → Py σ β) (s : σ) :
    ((lift (.raise e) : Py σ α) >>= f) s = (.raise e, s) := rfl

@[simp] theorem bind_lift_timeout (f : α → Py σ β) (s : σ) :
    ((lift (.timeout) : Py σ α) >>= f) s = (.timeout, s) := rfl

@[simp] theorem bind_set (g : σ → σ) (f : Unit → Py σ β) (s : σ) :
    ((set g : Py σ Unit) >>= f) s = f () (g s) := rfl

@[simp] theorem set_apply (g : σ → σ) (s : σ) : (set g : Py σ Unit) s = (.ok (), g s) := rfl

@[simp] theorem pure_apply (a : α) (s : σ) : (pure a : Py σ α) s = (.ok a, s) := rfl

/-- A method that starts with a computation: either that fails and nothing happens, or it goes on. -/
theorem bind_lift_cases (x : Res α) (f : α → Py σ β) (s : σ) :
    (∃ a, x = .ok a ∧ (lift x >>= f) s = f a s) ∨
    ((∀ a, x ≠ .ok a) ∧ ((lift x >>= f) s).2 = s ∧ ∀ b, ((lift x >>= f) s).1 ≠ .ok b) := by
  cases x with
  | ok a => exact Or.inl ⟨a, rfl, rfl⟩
  | raise e => exact Or.inr ⟨by simp, rfl, by simp⟩
  | timeout => exact Or.inr ⟨by simp, rfl, by simp⟩

/-- `f` either succeeds, or leaves the object alone. -/
def Atomic (f : Py σ β) : Prop := ∀ s, (∀ b, (f s).1 ≠ .ok b) → (f s).2 = s

theorem Atomic.lift_bind {x : Res α} {f : α → Py σ β} (h : ∀ a, x = .ok a → Atomic (f a)) :
    Atomic (lift x >>= f) := by
  intro s hs
  rcases bind_lift_cases x f s with ⟨a, hx, h1⟩ | ⟨-, h1, -⟩
  · rw [h1] at hs ⊢
    exact h a hx s hs
  · exact h1

theorem Atomic.of_ok {f : Py σ β} (h : ∀ s, ∃ b, (f s).1 = .ok b) : Atomic f := by
  intro s hs
  obtain ⟨b, hb⟩ := h s
  exact absurd hb (hs b)

/-- What a successful method that starts with a computation did. -/
theorem ok_of_lift_bind {x : Res α} {f : α → Py σ β} {s t : σ} {b : β}
    (h : (lift x >>= f) s = (.ok b, t)) : ∃ a, x = .ok a ∧ f a s = (.ok b, t) := by
  rcases bind_lift_cases x f s with ⟨a, hx, h1⟩ | ⟨-, -, h1⟩
  · exact ⟨a, hx, h1 ▸ h⟩
  · exact absurd (by rw [h]) (h1 b)

end Py

section
variable {ς μ : Type} {n q : Nat} {ρ : Type} (ls : LocalSearch ς n q) (obj : Objective ρ)
  (attr : Fin n → ρ) (maxP : Nat) (spat : Fin n → Fin q → ℚ) (thr : Fin q → ℚ)
  (feasible : List (List (List (Fin n))))

/-- After a search over at least one partition there is a best one. -/
theorem searchInner_some : ∀ (ps : List (List (List (Fin n)))) (best : Option (Labels n × ℚ)) (st : ς)
    (r : Rng) {b : Option (Labels n × ℚ)} {st' : ς} {r' : Rng},
    searchInner ls obj attr maxP ps best st r = .ok (b, st', r') → (best.isSome ∨ ps ≠ []) → b.isSome
  | [], best, st, r, b, st', r', h, h0 => by
    simp only [searchInner, Res.ok.injEq, Prod.mk.injEq] at h
    rw [← h.1]
    simpa using h0
  | p :: ps, best, st, r, b, st', r', h, h0 => by
    simp only [searchInner] at h
    obtain ⟨init, -, h⟩ := Res.bind_eq_ok.1 h
    obtain ⟨⟨out, st1, r1⟩, -, h⟩ := Res.bind_eq_ok.1 h
    cases out with
    | none => cases h
    | some L =>
      refine searchInner_some ps _ st1 r1 h (Or.inl ?_)
      cases best with
      | none => rfl
      | some x =>
        dsimp only
        split_ifs <;> rfl

theorem searchOuter_some : ∀ (rounds : List (List (List (Fin n)))) (best : Option (Labels n × ℚ)) (st : ς)
    (r : Rng) {b : Option (Labels n × ℚ)} {st' : ς} {r' : Rng},
    searchOuter ls obj attr maxP spat thr feasible rounds best st r = .ok (b, st', r') →
    feasible ≠ [] → (best.isSome ∨ rounds ≠ []) → b.isSome
  | [], best, st, r, b, st', r', h, _, h0 => by
    simp only [searchOuter, Res.ok.injEq, Prod.mk.injEq] at h
    rw [← h.1]
    simpa using h0
  | p :: ps, best, st, r, b, st', r', h, hf, h0 => by
    simp only [searchOuter] at h
    obtain ⟨⟨b1, st1, r1⟩, h1, h⟩ := Res.bind_eq_ok.1 h
    exact searchOuter_some ps _ st1 r1 h hf
      (Or.inl (searchInner_some ls obj attr maxP _ _ _ _ h1 (Or.inr hf)))

/-- The labels `best_partition` stands for. -/
def bestLabels (b : Option (Labels n × ℚ)) : Option (List Int) := b.map fun b => arrayList b.1

/-- The loop with assignments does what the loop without them does; what it leaves in `labels_` is the
best partition after the rounds that were completed. -/
theorem roundsPy_spec : ∀ (rounds : List (List (List (Fin n)))) (best : Option (Labels n × ℚ)) (st : ς)
    (r : Rng) (s : MaxPAttrs μ),
    let out := roundsPy ls obj attr maxP spat thr feasible rounds best st r s
    out.2.nRegions = s.nRegions ∧ out.2.metric = s.metric ∧
    ((∃ b st' r', searchOuter ls obj attr maxP spat thr feasible rounds best st r = .ok (b, st', r') ∧
        out.1 = .ok (st', r') ∧ out.2.labels = if rounds = [] then s.labels else bestLabels b) ∨
      ((∀ x, searchOuter ls obj attr maxP spat thr feasible rounds best st r ≠ .ok x) ∧
        (∀ x, out.1 ≠ .ok x) ∧
        ∃ k < rounds.length, ∃ b st' r',
          searchOuter ls obj attr maxP spat thr feasible (rounds.take k) best st r = .ok (b, st', r') ∧
          out.2.labels = if k = 0 then s.labels else bestLabels b))
  | [], best, st, r, s => ⟨rfl, rfl, Or.inl ⟨best, st, r, rfl, rfl, rfl⟩⟩
  | x :: rounds, best, st, r, s => by
    unfold roundsPy
    intro out
    cases hx : searchInner ls obj attr maxP feasible best (ls.wrap spat thr st) r with
    | raise e =>
      have ho : out = (.raise e, s) := by
        show (Py.lift _ >>= _) s = _
        rw [hx]
        rfl
      rw [ho]
      refine ⟨rfl, rfl, Or.inr ⟨?_, by simp, 0, by simp, best, st, r, by simp [searchOuter], rfl⟩⟩
      intro y
      simp [searchOuter, hx]
    | timeout =>
      have ho : out = (.timeout, s) := by
        show (Py.lift _ >>= _) s = _
        rw [hx]
        rfl
      rw [ho]
      refine ⟨rfl, rfl, Or.inr ⟨?_, by simp, 0, by simp, best, st, r, by simp [searchOuter], rfl⟩⟩
      intro y
      simp [searchOuter, hx]
    | ok y =>
      obtain ⟨b1, st1, r1⟩ := y
      have ho : out = roundsPy ls obj attr maxP spat thr feasible rounds b1 st1 r1
          { s with labels := bestLabels b1 } := by
        show (Py.lift _ >>= _) s = _
        rw [hx]
        rfl
      obtain ⟨h1, h2, h3⟩ := roundsPy_spec rounds b1 st1 r1 { s with labels := bestLabels b1 }
      rw [← ho] at h1 h2 h3
      refine ⟨h1, h2, ?_⟩
      have hso : ∀ rs, searchOuter ls obj attr maxP spat thr feasible (x :: rs) best st r =
          searchOuter ls obj attr maxP spat thr feasible rs b1 st1 r1 := by
        intro rs
        simp only [searchOuter, hx, Res.bind_ok]
      rcases h3 with ⟨b, st', r', h4, h5, h6⟩ | ⟨h4, h5, k, hk, b, st', r', h6, h7⟩
      · refine Or.inl ⟨b, st', r', (hso rounds).trans h4, h5, ?_⟩
        rw [if_neg (by simp), h6]
        split_ifs with h0
        · subst h0
          simp only [searchOuter, Res.ok.injEq, Prod.mk.injEq] at h4
          rw [h4.1]
        · rfl
      · refine Or.inr ⟨fun y => by rw [hso]; exact h4 y, h5, k + 1, by simpa using hk, b, st', r', ?_, ?_⟩
        · rw [List.take_succ_cons, hso]
          exact h6
        · rw [if_neg (by omega), h7]
          split_ifs with h0
          · subst h0
            simp only [List.take_zero, searchOuter, Res.ok.injEq, Prod.mk.injEq] at h6
            rw [h6.1]
          · rfl

end

end Region
