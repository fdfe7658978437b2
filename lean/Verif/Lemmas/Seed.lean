import Verif.Model.Seed
import Verif.Lemmas.Reads
import Verif.Lemmas.Rel
/-
A run during which the generator is seeded again is a run on some tape.
-/
namespace Region

open Res

/-- The tape starting with the given numbers. -/
def prepend (l : List Nat) (tail : Rng) : Rng :=
  fun i => if h : i < l.length then l[i] else tail (i - l.length)

theorem prepend_append (l l' : List Nat) (tail : Rng) :
    prepend (l ++ l') tail = prepend l (prepend l' tail) := by
  funext i
  simp only [prepend, List.length_append]
  by_cases h1 : i < l.length
  · rw [dif_pos (by omega), dif_pos h1, List.getElem_append_left h1]
  · rw [dif_neg h1]
    by_cases h2 : i < l.length + l'.length
    · rw [dif_pos h2, dif_pos (by omega), List.getElem_append_right (by omega)]
    · rw [dif_neg h2, dif_neg (by omega)]
      congr 1
      omega

/-- The outcome `x` is the one of `f` on every tape starting with certain numbers. -/
def Covered {α β γ : Type} (mk : α → Rng → β) (Q : γ → α → Prop) (x : Res γ) (f : Rng → Res β) : Prop :=
  ∃ l : List Nat, ∃ out : Res α, Rel Q x out ∧
    ∀ tail, f (prepend l tail) = out >>= fun a => .ok (mk a tail)

namespace Covered

theorem of_reads {α β : Type} {mk : α → Rng → β} {f : Rng → Res β} (h : Reads mk f) (r : Rng) :
    Covered mk (fun b a => ∃ r', b = mk a r') (f r) f := by
  obtain ⟨k, out, h⟩ := h r
  refine ⟨(List.range k).map r, out, ?_, fun tail => ?_⟩
  · rw [h r fun _ _ => rfl]
    cases out with
    | ok a => exact ⟨_, rfl⟩
    | raise e => exact rfl
    | timeout => exact trivial
  · rw [h _ fun i hi => by simp [prepend, hi]]
    congr 1
    funext a
    congr 2
    funext i
    simp [prepend, Rng.drop]

theorem mono {α β γ : Type} {mk : α → Rng → β} {Q Q' : γ → α → Prop} {x : Res γ} {f : Rng → Res β}
    (h : Covered mk Q x f) (hQ : ∀ c a, Q c a → Q' c a) : Covered mk Q' x f := by
  obtain ⟨l, out, h1, h2⟩ := h
  exact ⟨l, out, Rel.mono h1 hQ, h2⟩

theorem bind {α β γ α' β' γ' : Type} {mk : α → Rng → β} {mk' : α' → Rng → β'} {Q : γ → α → Prop}
    {Q' : γ' → α' → Prop} {x : Res γ} {f : Rng → Res β} {g' : γ → Res γ'} {g : β → Res β'}
    (h : Covered mk Q x f) (hg : ∀ c a, Q c a → Covered mk' Q' (g' c) fun r => g (mk a r)) :
    Covered mk' Q' (x >>= g') fun r => f r >>= g := by
  obtain ⟨l, out, h1, h2⟩ := h
  cases out with
  | ok a =>
    cases x with
    | ok c =>
      obtain ⟨l', out', h1', h2'⟩ := hg c a h1
      refine ⟨l ++ l', out', h1', fun tail => ?_⟩
      dsimp only at h2' ⊢
      rw [prepend_append, h2]
      exact h2' tail
    | raise e => exact h1.elim
    | timeout => exact h1.elim
  | raise e =>
    cases x with
    | ok c => exact h1.elim
    | raise e' => exact ⟨l, .raise e, h1, fun tail => by dsimp only; rw [h2]; rfl⟩
    | timeout => exact h1.elim
  | timeout =>
    cases x with
    | ok c => exact h1.elim
    | raise e' => exact h1.elim
    | timeout => exact ⟨l, .timeout, trivial, fun tail => by dsimp only; rw [h2]; rfl⟩

theorem pure {α β γ : Type} {mk : α → Rng → β} {Q : γ → α → Prop} {c : γ} (a : α) (h : Q c a) :
    Covered mk Q (.ok c) fun r => .ok (mk a r) :=
  ⟨[], .ok a, h, fun _ => rfl⟩

/-- A first part that is the same and does not draw. -/
theorem then_ {α β γ δ : Type} {mk : α → Rng → β} {Q : γ → α → Prop} (x : Res δ) {g' : δ → Res γ}
    {g : δ → Rng → Res β} (h : ∀ d, Covered mk Q (g' d) (g d)) :
    Covered mk Q (x >>= g') fun r => x >>= fun d => g d r := by
  cases x with
  | ok d => exact h d
  | raise e => exact ⟨[], .raise e, rfl, fun _ => rfl⟩
  | timeout => exact ⟨[], .timeout, trivial, fun _ => rfl⟩

theorem raise {α β γ : Type} {mk : α → Rng → β} {Q : γ → α → Prop} (e : Exc) :
    Covered mk Q (.raise e) fun _ => .raise e := ⟨[], .raise e, rfl, fun _ => rfl⟩

theorem run {α β γ : Type} {mk : α → Rng → β} {Q : γ → α → Prop} {x : Res γ} {f : Rng → Res β}
    (h : Covered mk Q x f) : ∃ t, Rel (fun c b => ∃ a r, b = mk a r ∧ Q c a) x (f t) := by
  obtain ⟨l, out, h1, h2⟩ := h
  refine ⟨prepend l fun _ => 0, ?_⟩
  rw [h2]
  cases x <;> cases out <;> first | exact ⟨_, _, rfl, h1⟩ | exact h1

end Covered

section search
variable {ς ς' : Type} {n q : Nat} {ρ : Type} {ls : LocalSearch ς n q} {ls' : LocalSearch ς' n q}
  {SR : ς' → ς → Prop} (obj : Objective ρ) (attr : Fin n → ρ)
  (hl : ∀ p init st' st r, SR st' st →
    Covered mk2 (fun b a => b.1 = a.1 ∧ SR b.2.1 a.2) (ls'.fit p init st' r) (ls.fit p init st))
include hl

theorem searchInner_covered (maxP : Nat) : ∀ (ps : List (List (List (Fin n))))
    (best : Option (Labels n × ℚ)) (st' : ς') (st : ς) (r : Rng), SR st' st →
    Covered mk2 (fun b a => b.1 = a.1 ∧ SR b.2.1 a.2) (searchInner ls' obj attr maxP ps best st' r)
      (searchInner ls obj attr maxP ps best st)
  | [], best, st', st, r, h => Covered.pure (mk := mk2) (best, st) ⟨rfl, h⟩
  | p :: ps, best, st', st, r, h => by
    show Covered _ _ _ fun r => searchInner ls obj attr maxP (p :: ps) best st r
    unfold searchInner
    refine Covered.then_ _ fun init => Covered.bind (hl maxP init st' st r h) ?_
    rintro ⟨L', st1', r1⟩ ⟨L, st1⟩ ⟨h1, h2⟩
    dsimp only at h1 h2 ⊢
    subst h1
    cases L' with
    | none => exact Covered.raise _
    | some L => exact searchInner_covered maxP ps _ st1' st1 r1 h2

theorem searchOuter_covered (hw : ∀ spat thr st' st, SR st' st → SR (ls'.wrap spat thr st')
      (ls.wrap spat thr st)) (maxP : Nat) (spat : Fin n → Fin q → ℚ) (thr : Fin q → ℚ)
    (feasible : List (List (List (Fin n)))) : ∀ (rounds : List (List (List (Fin n))))
    (best : Option (Labels n × ℚ)) (st' : ς') (st : ς) (r : Rng), SR st' st →
    Covered mk2 (fun b a => b.1 = a.1 ∧ SR b.2.1 a.2)
      (searchOuter ls' obj attr maxP spat thr feasible rounds best st' r)
      (searchOuter ls obj attr maxP spat thr feasible rounds best st)
  | [], best, st', st, r, h => Covered.pure (mk := mk2) (best, st) ⟨rfl, h⟩
  | _ :: rounds, best, st', st, r, h => by
    show Covered _ _ _ fun r => searchOuter ls obj attr maxP spat thr feasible (_ :: rounds) best st r
    unfold searchOuter
    refine Covered.bind (searchInner_covered obj attr hl maxP feasible best _ _ r (hw spat thr _ _ h)) ?_
    rintro ⟨b', st1', r1⟩ ⟨b, st1⟩ ⟨h1, h2⟩
    dsimp only at h1 h2 ⊢
    subst h1
    exact searchOuter_covered hw maxP spat thr feasible rounds b' st1' st1 r1 h2

theorem maxpFit_covered (hw : ∀ spat thr st' st, SR st' st → SR (ls'.wrap spat thr st')
      (ls.wrap spat thr st)) (metric : ρ → ρ → ℚ) (adj : Adj n) (spat : Fin n → Fin q → ℚ)
    (thr : Fin q → ℚ) (maxIt : Nat) (st' : ς') (st : ς) (r : Rng) (h : SR st' st) :
    Covered mk3 (fun b a => b.1 = a.1 ∧ b.2.1 = a.2.1 ∧ SR b.2.2.1 a.2.2)
      (maxpFit ls' metric obj adj attr spat thr maxIt st' r)
      (maxpFit ls metric obj adj attr spat thr maxIt st) := by
  show Covered _ _ _ fun r => maxpFit ls metric obj adj attr spat thr maxIt st r
  unfold maxpFit
  refine Covered.bind (Covered.of_reads (construct_reads metric adj attr spat thr maxIt 0 []) r) ?_
  rintro _ ⟨maxP, kept⟩ ⟨r1, rfl⟩
  dsimp only
  refine Covered.bind (Covered.of_reads (assignAll_reads metric adj attr kept) r1) ?_
  rintro _ feasible ⟨r2, rfl⟩
  dsimp only
  refine Covered.bind (searchOuter_covered obj attr hl hw maxP spat thr feasible feasible none st' st r2 h)
    ?_
  rintro ⟨b', st1', r1⟩ ⟨b, st1⟩ ⟨h1, h2⟩
  dsimp only at h1 h2
  subst h1
  exact Covered.pure (mk := mk3) (maxP, b'.map Prod.fst, st1) ⟨rfl, rfl, h2⟩

end search

theorem maxpFitDefault_covered {n q : Nat} {ρ : Type} (o : MstOrder) (expf : ℚ → ℚ)
    (metric : ρ → ρ → ℚ) (obj : Objective ρ) (fuel : Nat) (adj : Adj n) (attr : Fin n → ρ)
    (spat : Fin n → Fin q → ℚ) (thr : Fin q → ℚ) (maxIt : Nat) (w : Process) :
    Covered mk3 (fun b a => b.1 = a.1 ∧ b.2.1 = a.2.1)
      (maxpFitDefault o expf metric obj fuel adj attr spat thr maxIt w)
      (maxpFit (azpSearch o expf obj fuel adj attr) metric obj adj attr spat thr maxIt (.azp 0)) := by
  show Covered _ _ _ fun r => maxpFit (azpSearch o expf obj fuel adj attr) metric obj adj attr spat thr
    maxIt (.azp 0) r
  unfold maxpFitDefault maxpFit
  refine Covered.bind (Covered.of_reads (construct_reads metric adj attr spat thr maxIt 0 []) _) ?_
  rintro _ ⟨maxP, kept⟩ ⟨r1, rfl⟩
  dsimp only
  refine Covered.bind (Covered.of_reads (assignAll_reads metric adj attr kept) r1) ?_
  rintro _ feasible ⟨r2, rfl⟩
  dsimp only
  refine Covered.bind (Covered.of_reads (searchOuter_reads obj attr (fun p init st => ?_) maxP spat thr
    feasible feasible none (Strat.azp 0)) _) ?_
  · unfold azpSearch
    dsimp only
    exact Reads.bind (azpFit_reads o expf obj adj attr p (some init) fuel st) fun y =>
      Reads.pure (mk := mk2) (some y.1, y.2)
  · rintro _ ⟨b, st1⟩ ⟨r3, rfl⟩
    exact Covered.pure (mk := mk3) (maxP, b.map Prod.fst, st1) ⟨rfl, rfl⟩

theorem saSearchSeeding_covered {S : Type} (mt : S → Rng) (rs : Option S) {n q : Nat} {ρ : Type}
    (o : MstOrder) (expf : ℚ → ℚ) (obj : Objective ρ) (f1 f2 f3 : Nat) (P : SaParams) (adj : Adj n)
    (attr : Fin n → ρ) (p : Int) (init : Labels n) (st' : SaObj × (Nat → Rng)) (st : SaObj) (r : Rng)
    (h : st'.1 = st) :
    Covered mk2 (fun b a => b.1 = a.1 ∧ b.2.1.1 = a.2)
      ((saSearchSeeding (q := q) mt rs o expf obj f1 f2 f3 P adj attr).fit p init st' r)
      ((saSearch (q := q) o expf obj f1 f2 f3 P adj attr).fit p init st) := by
  subst h
  have key := Covered.of_reads (saFit_reads o expf obj f1 f2 f3 P st'.1 adj attr p (some init) (85 / 100))
    (Process.seed mt rs ⟨r, st'.2⟩).tape
  obtain ⟨l, out, h1, h2⟩ := key
  refine ⟨l, out >>= fun a => .ok (a.1, a.2.1), ?_, fun tail => ?_⟩
  · simp only [saSearchSeeding, saFitSeeding, Process.run]
    revert h1
    cases saFit o expf obj f1 f2 f3 P st'.1 adj attr p (some init) (85 / 100)
      (Process.seed mt rs ⟨r, st'.2⟩).tape <;> cases out <;> intro h1
    · obtain ⟨r', rfl⟩ := h1
      exact ⟨rfl, rfl⟩
    all_goals exact h1
  · simp only [saSearch]
    dsimp only at h2
    rw [h2]
    cases out <;> rfl

end Region
