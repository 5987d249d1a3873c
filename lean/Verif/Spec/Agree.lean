import Verif.Alloc.Pointers

/- Two programs that do the same, one of them with additional checks (proof machinery for C91). -/
namespace KTL

/-- Where `d` has defined behaviour, `c` does the same; the results are related by `f`. Proof helper, not code. -/
def AgreeOn {α β : Type} (f : α → β → Prop) (c : M α) (d : M β) : Prop :=
  ∀ w, match d w with
    | .ok b w' => ∃ a, c w = .ok a w' ∧ f a b
    | .oom w' => c w = .oom w'
    | .ub => True

namespace AgreeOn
variable {α β γ δ : Type} {f : α → β → Prop} {g : γ → δ → Prop}

theorem pure {a : α} {b : β} (h : f a b) : AgreeOn f (Pure.pure a : M α) (Pure.pure b : M β) := fun w => ⟨a, rfl, h⟩

theorem ub {c : M α} : AgreeOn f c (M.ub : M β) := fun _ => trivial

theorem bind {c : M α} {d : M β} {k : α → M γ} {l : β → M δ} (h : AgreeOn f c d) (h' : ∀ a b, f a b → AgreeOn g (k a) (l b)) :
    AgreeOn g (c >>= k) (d >>= l) := fun w => by
  have h1 := h w
  rw [M.bind_apply, M.bind_apply]
  cases hd : d w with
  | ub => trivial
  | oom w' => rw [hd] at h1; simp only [h1]
  | ok b w' =>
    rw [hd] at h1
    obtain ⟨a, hc, hf⟩ := h1
    rw [hc]
    exact h' a b hf w'

/-- both do the same first -/
theorem same (c : M α) {k : α → M γ} {l : α → M δ} (h : ∀ a, AgreeOn g (k a) (l a)) : AgreeOn g (c >>= k) (c >>= l) := by
  refine bind (f := fun a b => a = b) (fun w => ?_) (fun a b e => by subst e; exact h a)
  cases c w <;> simp

/-- a fact about the result of what both do first -/
theorem same' (c : M α) (P : α → Prop) (hP : ∀ w a w', c w = .ok a w' → P a) {k : α → M γ} {l : α → M δ} (h : ∀ a, P a → AgreeOn g (k a) (l a)) :
    AgreeOn g (c >>= k) (c >>= l) := by
  refine bind (f := fun a b => a = b ∧ P a) (fun w => ?_) (fun a b e => by obtain ⟨rfl, e⟩ := e; exact h a e)
  cases hc : c w with
  | ok a w' => exact ⟨a, rfl, rfl, hP w a w' hc⟩
  | oom => rfl
  | ub => trivial

theorem mono {c : M α} {d : M β} {f' : α → β → Prop} (h : AgreeOn f c d) (hf : ∀ a b, f a b → f' a b) : AgreeOn f' c d := fun w => by
  have := h w
  cases hd : d w with
  | ok b w' => rw [hd] at this; obtain ⟨a, h1, h2⟩ := this; exact ⟨a, h1, hf a b h2⟩
  | oom => rw [hd] at this; exact this
  | ub => trivial

end AgreeOn
end KTL
