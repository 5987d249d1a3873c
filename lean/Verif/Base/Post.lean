import Verif.Base.Machine

/- Partial-correctness reasoning about results only: what every successful run returns. -/
namespace KTL

/-- Whenever `c` ends normally, its result satisfies `Q`. Proof helper, not code. -/
def Post {α} (c : M α) (Q : α → Prop) : Prop := ∀ w a w', c w = .ok a w' → Q a

theorem Post.pure {α} {a : α} {Q : α → Prop} (h : Q a) : Post (Pure.pure a) Q := by
  intro w a' w' e; cases e; exact h

theorem Post.bind {α β} {c : M α} {f : α → M β} {R : α → Prop} {Q : β → Prop}
    (h : Post c R) (hf : ∀ a, R a → Post (f a) Q) : Post (c >>= f) Q := by
  intro w b w' e
  rw [M.bind_apply] at e
  cases hc : c w with
  | ok a w1 => rw [hc] at e; exact hf a (h w a w1 hc) w1 b w' e
  | oom w1 => rw [hc] at e; cases e
  | ub => rw [hc] at e; cases e

theorem Post.bind' {α β} {c : M α} {f : α → M β} {Q : β → Prop}
    (hf : ∀ a, Post (f a) Q) : Post (c >>= f) Q :=
  Post.bind (R := fun _ => True) (fun _ _ _ _ => trivial) (fun a _ => hf a)

theorem Post.mono {α} {c : M α} {Q R : α → Prop} (h : Post c Q) (hq : ∀ a, Q a → R a) : Post c R :=
  fun w a w' e => hq a (h w a w' e)

theorem Post.ub {α} {Q : α → Prop} : Post (M.ub : M α) Q := by intro w a w' e; cases e

/-- Decomposition of a successful sequence. -/
theorem bind_ok {α β} {c : M α} {f : α → M β} {w : World} {b : β} {w' : World}
    (h : (c >>= f) w = .ok b w') : ∃ a w1, c w = .ok a w1 ∧ f a w1 = .ok b w' := by
  rw [M.bind_apply] at h
  cases hc : c w with
  | ok a w1 => rw [hc] at h; exact ⟨a, w1, rfl, h⟩
  | oom w1 => rw [hc] at h; cases h
  | ub => rw [hc] at h; cases h

theorem bind_of_ok {α β} {c : M α} {f : α → M β} {w : World} {a : α} {w1 : World}
    (h : c w = .ok a w1) : (c >>= f) w = f a w1 := by
  rw [M.bind_apply, h]

/-- induction on histories from the last step -/
theorem snocRec {α} {P : List α → Prop} (nil : P []) (append_singleton : ∀ l a, P l → P (l ++ [a])) (l : List α) : P l := by
  have : ∀ l : List α, P l.reverse := by
    intro l
    induction l with
    | nil => exact nil
    | cons a l ih => rw [List.reverse_cons]; exact append_singleton _ _ ih
  have := this l.reverse
  rwa [List.reverse_reverse] at this

end KTL
