import Verif.Basic
/-
A small program logic for `Res`: `x.Post R T Q` says that `x` returns only values satisfying `Q`,
raises only if `R`, and is still running only if `T`.
-/
namespace Region.Res

/-- Postcondition of a computation. -/
def Post {α : Type} (R T : Prop) (Q : α → Prop) : Res α → Prop
  | ok a => Q a
  | raise _ => R
  | timeout => T

theorem Post.bind {α β : Type} {R T : Prop} {Q : α → Prop} {Q' : β → Prop} {x : Res α}
    {f : α → Res β} (hx : x.Post R T Q) (hf : ∀ a, x = .ok a → Q a → (f a).Post R T Q') :
    (x >>= f).Post R T Q' := by
  cases x with
  | ok a => exact hf a rfl hx
  | raise e => exact hx
  | timeout => exact hx

theorem Post.mono {α : Type} {R T R' T' : Prop} {Q Q' : α → Prop} {x : Res α}
    (hx : x.Post R T Q) (hR : R → R') (hT : T → T') (hQ : ∀ a, Q a → Q' a) : x.Post R' T' Q' := by
  cases x with
  | ok a => exact hQ a hx
  | raise e => exact hR hx
  | timeout => exact hT hx

theorem Post.ok {α : Type} {R T : Prop} {Q : α → Prop} {x : Res α} (hx : x.Post R T Q) {a : α}
    (h : x = .ok a) : Q a := by subst h; exact hx

theorem Post.of_ok {α : Type} {R T : Prop} {Q : α → Prop} {x : Res α} {a : α} (h : x = .ok a)
    (hq : Q a) : x.Post R T Q := by subst h; exact hq

/-- A computation that neither raises nor keeps running returns a value. -/
theorem Post.total {α : Type} {Q : α → Prop} {x : Res α} (hx : x.Post False False Q) :
    ∃ a, x = .ok a ∧ Q a := by
  cases x with
  | ok a => exact ⟨a, rfl, hx⟩
  | raise e => exact hx.elim
  | timeout => exact hx.elim

theorem post_partial {α : Type} {Q : α → Prop} {x : Res α} :
    x.Post True True Q ↔ ∀ a, x = .ok a → Q a := by
  cases x <;> simp [Post]

end Region.Res
